import Verif.Jssp.Instance

/-!
# Evaluation does not read what earlier evaluations left behind

The scheduling loops commute with erasing distances and critical edges; the local search starts by recomputing them.
-/

namespace Ecrs.Jssp
open Ecrs

theorem bind_map_congr {α β γ δ : Type} {r : α → β} {q : γ → δ} {x1 : Except Panic β} {x2 : Except Panic α}
    {f1 : β → Except Panic δ} {f2 : α → Except Panic γ} (hx : x1 = x2.map r) (hf : ∀ a, f1 (r a) = (f2 a).map q) :
    (x1 >>= f1) = (x2 >>= f2).map q := by
  subst hx
  cases x2 with
  | error e => rfl
  | ok a => exact hf a

theorem bind_same_congr {α γ δ : Type} {q : γ → δ} {x : Except Panic α}
    {f1 : α → Except Panic δ} {f2 : α → Except Panic γ} (hf : ∀ a, f1 a = (f2 a).map q) :
    (x >>= f1) = (x >>= f2).map q := by
  cases x with
  | error e => rfl
  | ok a => exact hf a

theorem Arr.map_at' {α : Type} (v : Arr α) (g : α → α) (i : Nat) :
    (v.map g).at' i = (v.at' i).map g := by
  unfold Arr.at' Arr.map
  by_cases h : i < v.size
  · simp only [if_pos h]; rfl
  · simp only [if_neg h]; rfl

theorem Arr.map_modify {α : Type} (v : Arr α) (g f : α → α) (h : ∀ a, f (g a) = g (f a)) (i : Nat) :
    (v.map g).modify i f = (v.modify i f).map (Arr.map g) := by
  unfold Arr.modify Arr.map
  by_cases hi : i < v.size
  · simp only [if_pos hi]
    show Except.ok _ = Except.ok _
    congr 2
    funext k
    by_cases hk : k = i
    · simp only [if_pos hk]; exact h _
    · simp only [if_neg hk]
  · simp only [if_neg hi]; rfl

theorem modify_erase (v : Arr Operation) (f : Operation → Operation) (i : Nat) (h : ∀ a, f (erase a) = erase (f a)) :
    (v.map erase).modify i f = (v.modify i f).map (Arr.map erase) := Arr.map_modify v erase f h i

theorem Arr.map_toList {α : Type} (v : Arr α) (g : α → α) : (v.map g).toList = v.toList.map g := by
  simp [Arr.toList, Arr.map]

/-- The state without distances. -/
def Sched.erase (s : Sched) : Sched := { s with ops := s.ops.map Jssp.erase }

theorem linkMachine_erase (ops : Arr Operation) (last : Option Nat) (j : Nat) :
    linkMachine (ops.map erase) last j = (linkMachine ops last j).map (Arr.map erase) := by
  cases last with
  | none => rfl
  | some l =>
    unfold linkMachine
    refine bind_map_congr (r := Arr.map erase) (modify_erase _ _ _ fun _ => rfl) fun ops1 => ?_
    exact modify_erase _ _ _ fun _ => rfl

theorem scheduleOp_erase (s : Sched) (j : Nat) : scheduleOp s.erase j = (scheduleOp s j).map Sched.erase := by
  unfold scheduleOp
  refine bind_map_congr (r := erase) (Arr.map_at' _ _ _) fun op => ?_
  refine bind_same_congr fun p => bind_same_congr fun pf => bind_same_congr fun m => bind_same_congr fun st =>
    bind_same_congr fun ft => ?_
  refine bind_map_congr (r := Arr.map erase) (modify_erase _ _ _ fun _ => rfl) fun ops => ?_
  refine bind_map_congr (linkMachine_erase _ _ _) fun ops => ?_
  refine bind_same_congr fun ms => ?_
  rfl

section
variable {X : Type} (E : EvalOps X)

theorem feasStep_erase (ch : List X) (len : Nat) (ft d t a) (op : Operation) :
    feasStep E ch len ft d t a (erase op) = feasStep E ch len ft d t a op := rfl

theorem foldlM_map_congr {α β : Type} (g : β → β) (f : α → β → Except Panic α) (h : ∀ a b, f a (g b) = f a b) :
    ∀ (l : List β) (a : α), (l.map g).foldlM f a = l.foldlM f a := by
  intro l
  induction l with
  | nil => intro a; rfl
  | cons b l ih =>
    intro a
    rw [List.map_cons, List.foldlM_cons, List.foldlM_cons, h]
    congr 1
    funext a'
    exact ih a'

theorem updateFeasibles_erase (ch : List X) (ops : Arr Operation) (ft d t) :
    updateFeasibles E ch (ops.map erase) ft d t = updateFeasibles E ch ops ft d t := by
  unfold updateFeasibles
  rw [Arr.map_toList]
  exact foldlM_map_congr erase _ (fun a b => feasStep_erase E ch _ ft d t a b) _ _

theorem innerLoop_erase (ch : List X) (n md : Nat) (tg) : ∀ (fuel : Nat) (f : Feas X) (s : Sched),
    innerLoop E ch n md tg fuel f s.erase = (innerLoop E ch n md tg fuel f s).map Sched.erase := by
  intro fuel
  induction fuel with
  | zero => intro f s; rfl
  | succ fuel ih =>
    intro f s
    rw [innerLoop, innerLoop]
    by_cases hf : f.feasibles = []
    · rw [if_pos hf, if_pos hf]; rfl
    · rw [if_neg hf, if_neg hf]
      refine bind_map_congr (scheduleOp_erase s _) fun s' => ?_
      by_cases hg : n < s'.g
      · rw [if_pos (show n < s'.erase.g from hg), if_pos hg]; rfl
      · rw [if_neg (show ¬ n < s'.erase.g from hg), if_neg hg]
        refine bind_same_congr fun d => ?_
        show (updateFeasibles E ch (s'.ops.map erase) s'.ft d tg >>= _) = _
        rw [updateFeasibles_erase]
        exact bind_same_congr fun f' => ih f' s'

theorem outerLoop_erase (ch : List X) (n md : Nat) : ∀ (fuel : Nat) (tg) (s : Sched),
    outerLoop E ch n md fuel tg s.erase = (outerLoop E ch n md fuel tg s).map Sched.erase := by
  intro fuel
  induction fuel with
  | zero => intro f s; rfl
  | succ fuel ih =>
    intro tg s
    rw [outerLoop, outerLoop]
    by_cases hc : s.count < n + 1
    · rw [if_pos (show s.erase.count < n + 1 from hc), if_pos hc]
      refine bind_same_congr fun d => ?_
      show (updateFeasibles E ch (s.ops.map erase) s.ft d tg >>= _) = _
      rw [updateFeasibles_erase]
      refine bind_same_congr fun f => ?_
      refine bind_map_congr (innerLoop_erase E ch n md tg _ f s) fun s' => ?_
      exact bind_same_congr fun tg' => ih tg' s'
    · rw [if_neg (show ¬ s.erase.count < n + 1 from hc), if_neg hc]; rfl

/-- The individual without distances. -/
def Individual.erase (i : Individual X) : Individual X := { i with operations := i.operations.map Jssp.erase }

theorem maxDuration_erase (ops : Arr Operation) : maxDuration (ops.map erase) = maxDuration ops := by
  unfold maxDuration
  rw [Arr.map_toList]
  cases ops.toList with
  | nil => rfl
  | cons o os =>
    show Except.ok _ = Except.ok _
    rw [List.foldl_map]; rfl

theorem schedule_erase (fuel : Nat) (i : Individual X) : schedule E fuel i.erase = (schedule E fuel i).map Sched.erase := by
  unfold schedule
  by_cases h : i.operations.size < 2
  · rw [if_pos (show i.erase.operations.size < 2 from h), if_pos h]; rfl
  · rw [if_neg (show ¬ i.erase.operations.size < 2 from h), if_neg h]
    refine bind_map_congr (r := Arr.map erase) (modify_erase _ _ _ fun _ => rfl) fun ops => ?_
    rw [maxDuration_erase]
    refine bind_same_congr fun md => ?_
    exact outerLoop_erase E i.chromosome (i.operations.size - 2) md fuel (some 0) ⟨ops, i.machines, ⟨i.operations.size - 2 + 2, fun k => if k = 0 then some 0 else none⟩, 1, 1, 0⟩

/-! ## What scheduling keeps -/

/-- The fields of an operation that evaluation never changes. -/
def fixed (o : Operation) : Nat × Nat × Nat × List Nat := (o.id, o.duration, o.machine, o.preds)

/-- Scheduling keeps the fixed part of the operations and the identity of the machines. -/
structure Tracks (ops : Arr Operation) (machines : Arr Machine) (s : Sched) : Prop where
  size : s.ops.size = ops.size
  fixed : ∀ k, fixed (s.ops.get k) = fixed (ops.get k)
  beyond : ∀ k, ops.size ≤ k → s.ops.get k = ops.get k
  machines : s.machines.map Machine.reset = machines.map Machine.reset

theorem modify_tracks {α β : Type} {p : α → β} {v v' : Arr α} {i : Nat} {f : α → α} (h : v.modify i f = .ok v') (hf : ∀ a, p (f a) = p a) :
    v'.size = v.size ∧ (∀ k, p (v'.get k) = p (v.get k)) ∧ ∀ k, v.size ≤ k → v'.get k = v.get k := by
  unfold Arr.modify at h
  split at h
  · cases h
    refine ⟨rfl, fun k => ?_, fun k hk => if_neg (by omega)⟩
    by_cases hk : k = i
    · subst hk; simp [hf]
    · simp [hk]
  · cases h

theorem linkMachine_tracks {ops ops' : Arr Operation} {last j} (h : linkMachine ops last j = .ok ops') :
    ops'.size = ops.size ∧ (∀ k, fixed (ops'.get k) = fixed (ops.get k)) ∧ ∀ k, ops.size ≤ k → ops'.get k = ops.get k := by
  cases last with
  | none => cases h; exact ⟨rfl, fun _ => rfl, fun _ _ => rfl⟩
  | some l =>
    unfold linkMachine at h
    obtain ⟨o1, h1, h2⟩ := Exc.bind_ok.1 h
    obtain ⟨a1, a2, a3⟩ := modify_tracks (p := fixed) h1 fun _ => rfl
    obtain ⟨b1, b2, b3⟩ := modify_tracks (p := fixed) h2 fun _ => rfl
    exact ⟨b1.trans a1, fun k => (b2 k).trans (a2 k), fun k hk => (b3 k (by omega)).trans (a3 k hk)⟩

theorem scheduleOp_tracks {ops machines} {s s' : Sched} {j : Nat} (h : Tracks ops machines s) (hs : scheduleOp s j = .ok s') :
    Tracks ops machines s' := by
  unfold scheduleOp at hs
  obtain ⟨op, h1, hs⟩ := Exc.bind_ok.1 hs
  obtain ⟨p, h2, hs⟩ := Exc.bind_ok.1 hs
  obtain ⟨pf, h3, hs⟩ := Exc.bind_ok.1 hs
  obtain ⟨m, h4, hs⟩ := Exc.bind_ok.1 hs
  obtain ⟨st, h5, hs⟩ := Exc.bind_ok.1 hs
  obtain ⟨ft, h6, hs⟩ := Exc.bind_ok.1 hs
  obtain ⟨o1, h7, hs⟩ := Exc.bind_ok.1 hs
  obtain ⟨o2, h8, hs⟩ := Exc.bind_ok.1 hs
  obtain ⟨ms, h9, hs⟩ := Exc.bind_ok.1 hs
  cases hs
  obtain ⟨a1, a2, a3⟩ := modify_tracks (p := fixed) h7 fun _ => rfl
  obtain ⟨b1, b2, b3⟩ := linkMachine_tracks h8
  obtain ⟨c1, c2, -⟩ := modify_tracks (p := Machine.reset) h9 fun _ => rfl
  have hsz := h.size
  refine ⟨by rw [← h.size]; exact b1.trans a1, fun k => (b2 k).trans ((a2 k).trans (h.fixed k)),
    fun k hk => (b3 k (by omega)).trans ((a3 k (by omega)).trans (h.beyond k hk)), ?_⟩
  rw [← h.machines]
  show Arr.mk ms.size _ = Arr.mk s.machines.size _
  rw [c1]
  congr 1
  funext k
  exact c2 k

theorem innerLoop_tracks {ops machines} {ch : List X} {n md : Nat} {tg} : ∀ (fuel : Nat) (f : Feas X) (s s' : Sched),
    Tracks ops machines s → innerLoop E ch n md tg fuel f s = .ok s' → Tracks ops machines s' := by
  intro fuel
  induction fuel with
  | zero => intro f s s' _ h; cases h
  | succ fuel ih =>
    intro f s s' ht h
    rw [innerLoop] at h
    split at h
    · cases h; exact ht
    · obtain ⟨s1, h1, h⟩ := Exc.bind_ok.1 h
      have ht1 := scheduleOp_tracks ht h1
      split at h
      · cases h; exact ht1
      · obtain ⟨d, -, h⟩ := Exc.bind_ok.1 h
        obtain ⟨f', -, h⟩ := Exc.bind_ok.1 h
        exact ih _ _ _ ht1 h

theorem outerLoop_tracks {ops machines} {ch : List X} {n md : Nat} : ∀ (fuel : Nat) (tg) (s s' : Sched),
    Tracks ops machines s → outerLoop E ch n md fuel tg s = .ok s' → Tracks ops machines s' := by
  intro fuel
  induction fuel with
  | zero => intro f s s' _ h; cases h
  | succ fuel ih =>
    intro tg s s' ht h
    rw [outerLoop] at h
    split at h
    · obtain ⟨d, -, h⟩ := Exc.bind_ok.1 h
      obtain ⟨f, -, h⟩ := Exc.bind_ok.1 h
      obtain ⟨s1, h1, h⟩ := Exc.bind_ok.1 h
      obtain ⟨tg', -, h⟩ := Exc.bind_ok.1 h
      exact ih _ _ _ (innerLoop_tracks E _ _ _ _ ht h1) h
    · cases h; exact ht

theorem schedule_tracks {fuel : Nat} {i : Individual X} {s : Sched} (h : schedule E fuel i = .ok s) :
    Tracks i.operations i.machines s := by
  unfold schedule at h
  split at h
  · cases h
  · obtain ⟨ops, h1, h⟩ := Exc.bind_ok.1 h
    obtain ⟨md, -, h⟩ := Exc.bind_ok.1 h
    obtain ⟨a1, a2, a3⟩ := modify_tracks (p := fixed) h1 fun _ => rfl
    exact outerLoop_tracks E _ _ _ _ ⟨a1, a2, a3, rfl⟩ h

end
end Ecrs.Jssp
