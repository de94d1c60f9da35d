import Mathlib.Data.List.Perm.Subperm
import Verif.Props.Jssp

/-!
# C101, C102 in general: what the graph and the finish times describe

`Props/Jssp` shows on an example that the graph handed to the local search is not that of the decoded schedule, and that the
stored finish times need not realise the fitness.  Here: what they do describe, for every instance and chromosome.
-/

set_option linter.unusedSectionVars false

namespace Ecrs.Jssp
open Ecrs

/-! ## The decoder schedules the operations one after the other -/

section
variable {X : Type} (E : EvalOps X)

theorem innerLoop_fold {ch : List X} {n md : Nat} {tg : Option Nat} : ∀ (fuel : Nat) (f : Feas X) (s s' : Sched),
    innerLoop E ch n md tg fuel f s = .ok s' → ∃ l : List Nat, l.foldlM scheduleOp s = .ok s'
  | 0, _, _, _, h => by cases h
  | fuel + 1, f, s, s', h => by
    rw [innerLoop] at h
    split at h
    · cases h; exact ⟨[], rfl⟩
    · obtain ⟨s1, h1, h⟩ := Exc.bind_ok.1 h
      have cons : ∀ l : List Nat, l.foldlM scheduleOp s1 = .ok s' → ∃ l : List Nat, l.foldlM scheduleOp s = .ok s' :=
        fun l hl => ⟨f.best :: l, by rw [List.foldlM_cons, Exc.bind_of_ok h1]; exact hl⟩
      split at h
      · exact cons [] (by rw [← h]; rfl)
      · obtain ⟨d, -, h⟩ := Exc.bind_ok.1 h
        obtain ⟨f', -, h⟩ := Exc.bind_ok.1 h
        obtain ⟨l, hl⟩ := innerLoop_fold fuel f' s1 s' h
        exact cons l hl

theorem outerLoop_fold {ch : List X} {n md : Nat} : ∀ (fuel : Nat) (tg : Option Nat) (s s' : Sched),
    outerLoop E ch n md fuel tg s = .ok s' → ∃ l : List Nat, l.foldlM scheduleOp s = .ok s'
  | 0, _, _, _, h => by cases h
  | fuel + 1, tg, s, s', h => by
    rw [outerLoop] at h
    split at h
    · obtain ⟨d, -, h⟩ := Exc.bind_ok.1 h
      obtain ⟨f, -, h⟩ := Exc.bind_ok.1 h
      obtain ⟨s1, h1, h⟩ := Exc.bind_ok.1 h
      obtain ⟨tg', -, h⟩ := Exc.bind_ok.1 h
      obtain ⟨l1, hl1⟩ := innerLoop_fold E _ _ _ _ h1
      obtain ⟨l2, hl2⟩ := outerLoop_fold fuel tg' s1 s' h
      exact ⟨l1 ++ l2, by rw [List.foldlM_append, Exc.bind_of_ok hl1]; exact hl2⟩
    · cases h; exact ⟨[], rfl⟩

end

theorem modify_get {α : Type} {v v' : Arr α} {i : Nat} {f : α → α} (h : v.modify i f = .ok v') :
    i < v.size ∧ v'.size = v.size ∧ ∀ k, v'.get k = if k = i then f (v.get i) else v.get k := by
  unfold Arr.modify at h
  split at h
  · rename_i hi; cases h; exact ⟨hi, rfl, fun _ => rfl⟩
  · cases h

theorem at'_get {α : Type} {v : Arr α} {i : Nat} {a : α} (h : v.at' i = .ok a) : i < v.size ∧ a = v.get i := by
  unfold Arr.at' at h
  split at h
  · rename_i hi; cases h; exact ⟨hi, rfl⟩
  · cases h

/-- The machine edges leaving an operation. -/
def machineEdges (o : Operation) : List Nat := (o.edgesOut.filter fun e => decide (e.kind = .machineSucc)).map Edge.neigh

/-- What scheduling one operation does. -/
theorem scheduleOp_effect {s s' : Sched} {j : Nat} (h : scheduleOp s j = .ok s') :
    s'.count = s.count + 1 ∧
    (∃ p q, (s.ops.get j).preds.getLast? = some p ∧ s.ft.get p = some q) ∧
    (∀ v, v ≠ (s.ops.get j).id → s'.ft.get v = s.ft.get v) ∧
    (∀ v, fixed (s'.ops.get v) = fixed (s.ops.get v)) ∧
    (∀ m, (s'.machines.get m).lastScheduledOp =
      if m = (s.ops.get j).machine then some j else (s.machines.get m).lastScheduledOp) ∧
    (∀ v, machineEdges (s'.ops.get v) = machineEdges (s.ops.get v) ++
      if (s.machines.get (s.ops.get j).machine).lastScheduledOp = some v then [j] else []) := by
  unfold scheduleOp at h
  obtain ⟨op, h1, h⟩ := Exc.bind_ok.1 h
  obtain ⟨hj, rfl⟩ := at'_get h1
  obtain ⟨p, h2, h⟩ := Exc.bind_ok.1 h
  obtain ⟨pf, h3, h⟩ := Exc.bind_ok.1 h
  obtain ⟨hp, rfl⟩ := at'_get h3
  obtain ⟨m, h4, h⟩ := Exc.bind_ok.1 h
  obtain ⟨hm, rfl⟩ := at'_get h4
  obtain ⟨start, h5, h⟩ := Exc.bind_ok.1 h
  obtain ⟨ft, h6, h⟩ := Exc.bind_ok.1 h
  obtain ⟨ops1, h7, h⟩ := Exc.bind_ok.1 h
  obtain ⟨ops2, h8, h⟩ := Exc.bind_ok.1 h
  obtain ⟨ms, h9, h⟩ := Exc.bind_ok.1 h
  cases h
  obtain ⟨-, -, f1⟩ := modify_get h6
  obtain ⟨-, -, o1⟩ := modify_get h7
  obtain ⟨-, -, m1⟩ := modify_get h9
  refine ⟨rfl, ?_, ?_, ?_, ?_, ?_⟩
  · have h2' : (s.ops.get j).preds.getLast? = some p := by
      revert h2
      cases (s.ops.get j).preds.getLast? with
      | none => intro h; cases h
      | some x => intro h; cases h; rfl
    cases hq : s.ft.get p with
    | some q => exact ⟨p, q, h2', hq⟩
    | none =>
      rw [hq] at h5
      have : startCandidates s.ft none (s.machines.get (s.ops.get j).machine) (s.ops.get j).duration = [] := by
        unfold startCandidates
        rw [List.filterMap_eq_nil_iff]
        intro t _
        cases t <;> rfl
      rw [this] at h5
      cases h5
  · intro v hv
    show ft.get v = _
    rw [f1 v, if_neg hv]
  · intro v
    have e1 : fixed (ops1.get v) = fixed (s.ops.get v) := by
      rw [o1 v]; split
      · rename_i hvj; subst hvj; rfl
      · rfl
    rw [← e1]
    show fixed (ops2.get v) = _
    unfold linkMachine at h8
    split at h8
    · cases h8; rfl
    · obtain ⟨ops3, h10, h8⟩ := Exc.bind_ok.1 h8
      obtain ⟨-, -, q1⟩ := modify_get h10
      obtain ⟨-, -, q2⟩ := modify_get h8
      have e2 : fixed (ops3.get v) = fixed (ops1.get v) := by
        rw [q1 v]; split
        · rename_i hv; subst hv; rfl
        · rfl
      rw [← e2, q2 v]; split
      · rename_i hv; subst hv; rfl
      · rfl
  · intro k
    show (ms.get k).lastScheduledOp = _
    rw [m1 k]
    split <;> rfl
  · intro v
    have e1 : machineEdges (ops1.get v) = machineEdges (s.ops.get v) := by
      rw [o1 v]; split
      · rename_i hvj; subst hvj; rfl
      · rfl
    rw [← e1]
    show machineEdges (ops2.get v) = _
    unfold linkMachine at h8
    split at h8
    · rename_i hl
      rw [hl, if_neg (by simp)]
      cases h8
      simp
    · rename_i l hl
      rw [hl]
      obtain ⟨ops3, h10, h8⟩ := Exc.bind_ok.1 h8
      obtain ⟨-, -, q1⟩ := modify_get h10
      obtain ⟨-, -, q2⟩ := modify_get h8
      have e2 : machineEdges (ops2.get v) = machineEdges (ops3.get v) := by
        rw [q2 v]; split
        · rename_i hv; subst hv; rfl
        · rfl
      rw [e2, q1 v]
      by_cases hv : v = l
      · subst hv
        rw [if_pos rfl, if_pos rfl]
        unfold machineEdges
        rw [List.filter_append, List.map_append]
        rfl
      · rw [if_neg hv, if_neg (by intro hc; cases hc; exact hv rfl)]
        simp

/-- `u` and `v` are on one machine, and `v` is the next operation of that machine after `u` in `l`. -/
def NextOn (mach : Nat → Nat) (l : List Nat) (u v : Nat) : Prop :=
  mach u = mach v ∧ ∃ a b c, l = a ++ u :: b ++ v :: c ∧ ∀ w ∈ b, mach w ≠ mach v

theorem getLast?_filter_iff {p : Nat → Bool} {l : List Nat} {u : Nat} :
    (l.filter p).getLast? = some u ↔ p u = true ∧ ∃ a b, l = a ++ u :: b ∧ ∀ w ∈ b, p w = false := by
  constructor
  · intro h
    obtain ⟨ys, hy⟩ := List.getLast?_eq_some_iff.1 h
    obtain ⟨l1, l2, rfl, h1, h2⟩ := List.filter_eq_append_iff.1 hy
    obtain ⟨m1, m2, rfl, h3, h4, h5⟩ := List.filter_eq_cons_iff.1 h2
    refine ⟨h4, l1 ++ m1, m2, by simp, fun w hw => ?_⟩
    have := List.filter_eq_nil_iff.1 h5 w hw
    simpa using this
  · rintro ⟨hu, a, b, rfl, hb⟩
    have : b.filter p = [] := List.filter_eq_nil_iff.2 fun w hw => by simp [hb w hw]
    rw [List.filter_append, List.filter_cons_of_pos hu, this]
    simp

/-- What the state says about the operations scheduled so far, in the order `l`. -/
structure Linked (mach : Nat → Nat) (dp : Nat → Option Nat) (s0 s : Sched) (l : List Nat) : Prop where
  fixed : ∀ v, fixed (s.ops.get v) = fixed (s0.ops.get v)
  count : s.count = s0.count + l.length
  ft : ∀ v, v ∉ l.map (fun j => (s0.ops.get j).id) → s.ft.get v = s0.ft.get v
  last : ∀ m, (s.machines.get m).lastScheduledOp = (l.filter fun v => decide (mach v = m)).getLast?
  edges : ∀ u v, v ∈ machineEdges (s.ops.get u) ↔ NextOn mach l u v
  preds : ∀ a v c, l = a ++ v :: c → ∃ p, dp v = some p ∧ (p ∈ a.map (fun j => (s0.ops.get j).id) ∨ ∃ q, s0.ft.get p = some q)

theorem linked_fold {mach : Nat → Nat} {dp : Nat → Option Nat} {s0 : Sched} (hm : ∀ v, mach v = (s0.ops.get v).machine)
    (hdp : ∀ v, dp v = (s0.ops.get v).preds.getLast?) :
    ∀ (l2 l1 : List Nat) (s s' : Sched), Linked mach dp s0 s l1 → l2.foldlM scheduleOp s = .ok s' → Linked mach dp s0 s' (l1 ++ l2)
  | [], l1, s, s', h, hf => by cases hf; simpa using h
  | j :: l2, l1, s, s', h, hf => by
    rw [List.foldlM_cons] at hf
    obtain ⟨s1, h1, h2⟩ := Exc.bind_ok.1 hf
    obtain ⟨e1, ⟨p, q, e2, e2'⟩, e3, e4, e5, e6⟩ := scheduleOp_effect h1
    have hfj : Ecrs.Jssp.fixed (s.ops.get j) = Ecrs.Jssp.fixed (s0.ops.get j) := h.fixed j
    have hid : (s.ops.get j).id = (s0.ops.get j).id := congrArg (fun x => x.1) hfj
    have hmj : (s.ops.get j).machine = mach j := by rw [hm]; exact congrArg (fun x => x.2.2.1) hfj
    have hpj : (s.ops.get j).preds = (s0.ops.get j).preds := congrArg (fun x => x.2.2.2) hfj
    have step : Linked mach dp s0 s1 (l1 ++ [j]) := by
      refine ⟨fun v => (e4 v).trans (h.fixed v), by rw [e1, h.count]; simp; omega, ?_, ?_, ?_, ?_⟩
      · intro v hv
        rw [List.map_append, List.mem_append, not_or] at hv
        rw [e3 v (by rw [hid]; simpa using hv.2), h.ft v hv.1]
      · intro m
        rw [e5 m, hmj, List.filter_append]
        by_cases hmm : m = mach j
        · rw [if_pos hmm, hmm]; simp
        · rw [if_neg hmm, h.last m, List.filter_cons_of_neg (by simpa using fun hc => hmm hc.symm)]; simp
      · intro u v
        rw [e6 u, List.mem_append, h.edges u v, hmj, h.last (mach j)]
        constructor
        · rintro (⟨h3, a, b, c, rfl, h4⟩ | h3)
          · exact ⟨h3, a, b, c ++ [j], by simp, h4⟩
          · split at h3
            · rename_i hl
              obtain rfl := List.mem_singleton.1 h3
              obtain ⟨h4, a, b, rfl, h5⟩ := getLast?_filter_iff.1 hl
              exact ⟨by simpa using h4, a, b, [], by simp, fun w hw => by simpa using h5 w hw⟩
            · cases h3
        · rintro ⟨h3, a, b, c, h4, h5⟩
          rcases List.eq_nil_or_concat c with rfl | ⟨c', x, rfl⟩
          · obtain ⟨h6, h7⟩ := List.append_inj' h4 rfl
            obtain rfl : j = v := by simpa using h7
            right
            rw [if_pos]
            · simp
            · exact getLast?_filter_iff.2 ⟨by simpa using h3, a, b, h6, fun w hw => by simpa using h5 w hw⟩
          · left
            have h4' : l1 ++ [j] = (a ++ u :: b ++ v :: c') ++ [x] := by rw [h4]; simp
            exact ⟨h3, a, b, c', (List.append_inj' h4' rfl).1, h5⟩
      · intro a v c hl
        rcases List.eq_nil_or_concat c with rfl | ⟨c', x, rfl⟩
        · obtain ⟨h6, h7⟩ := List.append_inj' hl rfl
          obtain rfl : j = v := by simpa using h7
          refine ⟨p, by rw [hdp, ← hpj]; exact e2, ?_⟩
          by_cases hp : p ∈ a.map fun j => (s0.ops.get j).id
          · exact .inl hp
          · right
            refine ⟨q, ?_⟩
            rw [← h.ft p (by rw [h6]; exact hp)]
            exact e2'
        · have hl' : l1 ++ [j] = (a ++ v :: c') ++ [x] := by rw [hl]; simp
          exact h.preds a v c' (List.append_inj' hl' rfl).1
    have := linked_fold hm hdp l2 (l1 ++ [j]) s1 s' step h2
    simpa using this

section
variable {X : Type} {E : EvalOps X}

theorem schedule_fold {fuel : Nat} {i : Individual X} {s : Sched} (h : schedule E fuel i = .ok s) :
    ∃ l : List Nat, l.foldlM scheduleOp (initialSched i) = .ok s := by
  unfold schedule at h
  split at h
  · cases h
  · rename_i hsz
    obtain ⟨ops, h1, h⟩ := Exc.bind_ok.1 h
    obtain ⟨md, -, h⟩ := Exc.bind_ok.1 h
    obtain ⟨l, hl⟩ := outerLoop_fold E _ _ _ _ h
    refine ⟨l, ?_⟩
    unfold Arr.modify at h1
    rw [if_pos (by omega)] at h1
    cases h1
    have e : i.operations.size - 2 + 2 = i.operations.size := by omega
    rw [e] at hl
    exact hl

/-- For any sequence of operations whose scheduling leads to the result of the decoding: it contains each operation once, every
operation after its predecessor in its job, and the machine edges follow it. -/
theorem fold_edges {jobs : Jobs} {nM : Nat} (h : jobs.Proper nM) {ops : List Operation}
    (ho : load (jobs.file nM) = .ok (ops, nM)) (worst : Nat) {ch : List X} (hch : ch.length = 2 * jobs.total) (hE : E.Sane ch)
    {s : Sched} (hs0 : ∃ F, ∀ fuel, F ≤ fuel → schedule E fuel (freshIndividual ops nM worst ch) = .ok s) {l : List Nat}
    (hl : l.foldlM scheduleOp (initialSched (freshIndividual ops nM worst ch)) = .ok s) :
      l.Perm (List.range' 1 jobs.total) ∧
      (∀ j k o o', jobs.op? j k = some o → jobs.op? j (k + 1) = some o' →
        ∃ a b c, l = a ++ jobs.number j k :: b ++ jobs.number j (k + 1) :: c) ∧
      ∀ j k m d j' k' m' d', jobs.op? j k = some (m, d) → jobs.op? j' k' = some (m', d') →
        ((⟨jobs.number j' k', .machineSucc⟩ : Edge) ∈ (s.ops.get (jobs.number j k)).edgesOut ↔
          m = m' ∧ ∃ a b c, l = a ++ jobs.number j k :: b ++ jobs.number j' k' :: c ∧
            ∀ i l mi di, jobs.op? i l = some (mi, di) → jobs.number i l ∈ b → mi ≠ m) := by
  obtain ⟨hp, -⟩ := load_ok ho
  have hr := fresh_ready h hp worst ch
  obtain ⟨s', h1, h2, F, h3⟩ := schedule_ok (E := E) (S := jobs.shop nM) (shop_wf h) (i := freshIndividual ops nM worst ch) hE hch hr
  obtain ⟨F0, hF0⟩ := hs0
  obtain rfl : s = s' := by
    have e1 := h3 (max F F0) (by omega)
    rw [hF0 (max F F0) (by omega)] at e1
    exact Except.ok.inj e1
  obtain ⟨order', pos, cnt, rk, ms, mp, hs⟩ := h1
  have hfits := hr.fits
  let i := freshIndividual ops nM worst ch
  let mach : Nat → Nat := fun v => ((initialSched i).ops.get v).machine
  let dp : Nat → Option Nat := fun v => ((initialSched i).ops.get v).preds.getLast?
  have hnone : ∀ u, machineEdges ((initialSched i).ops.get u) = [] := by
    intro u
    have e : ((initialSched i).ops.get u).edgesOut = (i.operations.get u).edgesOut := by
      show (if u = 0 then _ else _ : Operation).edgesOut = _
      split
      · rename_i hu; subst hu; rfl
      · rfl
    unfold machineEdges
    rw [e]
    by_cases hu : u ≤ jobs.total + 1
    · have he : (i.operations.get u).edgesOut = (jobs.shop nM).je u := by
        have := hfits.edges u hu
        simpa using this
      rw [he]
      have hk := je_kind (shop_wf h) (v := u) hu
      rw [List.filter_eq_nil_iff.2 fun e he => by rw [hk e he]; simp]
      rfl
    · have hsz : ops.length = jobs.total + 2 := hfits.size
      have : i.operations.get u = default := by
        show ops.getD u default = default
        rw [List.getD_eq_getElem?_getD, List.getElem?_eq_none (by omega)]; rfl
      rw [this]
      rfl
  have hlink : Linked mach dp (initialSched i) s ([] ++ l) :=
    linked_fold (fun _ => rfl) (fun _ => rfl) l [] _ s
      ⟨fun _ => rfl, rfl, fun _ _ => rfl, fun _ => rfl, fun u v => by
        rw [hnone u]
        constructor
        · intro hc; cases hc
        · rintro ⟨-, a, b, c, hc, -⟩; simp at hc, fun a v c hc => by simp at hc⟩ hl
  rw [List.nil_append] at hlink
  have hid : ∀ v, v ≤ jobs.total + 1 → ((initialSched i).ops.get v).id = v := by
    intro v hv
    have e : ((initialSched i).ops.get v).id = (i.operations.get v).id := by
      show (if v = 0 then _ else _ : Operation).id = _
      split
      · rename_i hu; subst hu; rfl
      · rfl
    rw [e]; exact hfits.id v hv
  have hbound : ∀ v ∈ l, v ≤ jobs.total + 1 := by
    intro v hv
    by_contra hc
    obtain ⟨a, c, rfl⟩ := List.append_of_mem hv
    obtain ⟨p, hp', -⟩ := hlink.preds a v c rfl
    have hsz : ops.length = jobs.total + 2 := hfits.size
    have : i.operations.get v = default := by
      show ops.getD v default = default
      rw [List.getD_eq_getElem?_getD, List.getElem?_eq_none (by omega)]; rfl
    have e : dp v = none := by
      show (if v = 0 then _ else _ : Operation).preds.getLast? = none
      rw [if_neg (by omega), this]; rfl
    rw [e] at hp'; cases hp'
  have hids : l.map (fun j => ((initialSched i).ops.get j).id) = l := by
    conv_rhs => rw [← List.map_id l]
    exact List.map_congr_left fun v hv => hid v (hbound v hv)
  have hlen : l.length = jobs.total := by
    have e1 := hlink.count
    have e2 : s.count = jobs.total + 1 := by rw [hs.count, h2]; rfl
    have e3 : (initialSched i).count = 1 := rfl
    omega
  have hsub : List.range' 1 jobs.total ⊆ l := by
    intro v hv
    have hreg : (jobs.shop nM).Reg v := by
      have := List.mem_range'_1.1 hv
      exact ⟨by omega, by show v ≤ jobs.total; omega⟩
    by_contra hc
    have e := hlink.ft v (by rw [hids]; exact hc)
    obtain ⟨-, -, h6⟩ := hs.feasible (shop_wf h) h2
    obtain ⟨f, h7, -⟩ := h6 v hreg
    have e0 : (initialSched i).ft.get v = none := by
      show (if v = 0 then _ else _ : Option Nat) = none
      rw [if_neg (by have := hreg.1; omega)]
    rw [h7, e0] at e
    cases e
  have hperm : l.Perm (List.range' 1 jobs.total) :=
    ((List.subperm_of_subset List.nodup_range' hsub).perm_of_length_le (by rw [hlen]; simp)).symm
  have hmach : ∀ j k m d, jobs.op? j k = some (m, d) → mach (jobs.number j k) = m := by
    intro j k m d hop
    have a := number_spec nM hop
    show (if jobs.number j k = 0 then { i.operations.get 0 with finishTime := some 0 } else i.operations.get (jobs.number j k)).machine = m
    rw [if_neg (show ¬ jobs.number j k = 0 by have := a.1.1; omega), ← a.2.1]
    exact hfits.mach _ a.1
  refine ⟨hperm, ?_, ?_⟩
  · rintro j k ⟨m, d⟩ ⟨m', d'⟩ hop hop'
    have a1 := number_spec nM hop
    have a2 := number_spec nM hop'
    have hmem : jobs.number j (k + 1) ∈ l := hperm.mem_iff.2 (List.mem_range'_1.2 (by have := a2.1.1; have : _ ≤ jobs.total := a2.1.2; omega))
    obtain ⟨x, c, rfl⟩ := List.append_of_mem hmem
    obtain ⟨p, p1, p2⟩ := hlink.preds x _ c rfl
    have hpe : p = jobs.number j k := by
      have e : dp (jobs.number j (k + 1)) = some ((jobs.shop nM).dp (jobs.number j (k + 1))) := by
        show (if jobs.number j (k + 1) = 0 then { i.operations.get 0 with finishTime := some 0 } else i.operations.get (jobs.number j (k + 1))).preds.getLast? = _
        rw [if_neg (show ¬ jobs.number j (k + 1) = 0 by have := a2.1.1; omega)]
        exact hfits.last _ a2.1
      rw [e, dp_number nM hop'] at p1
      exact (Option.some.inj p1).symm
    subst hpe
    have hx : jobs.number j k ∈ x := by
      rcases p2 with p2 | ⟨q, p2⟩
      · have hx' : x.map (fun j => ((initialSched i).ops.get j).id) = x := by
          conv_rhs => rw [← List.map_id x]
          exact List.map_congr_left fun v hv => hid v (hbound v (by simp [hv]))
        rw [hx'] at p2
        exact p2
      · have e0 : (initialSched i).ft.get (jobs.number j k) = none := by
          show (if jobs.number j k = 0 then some 0 else none : Option Nat) = none
          rw [if_neg (show ¬ jobs.number j k = 0 by have := a1.1.1; omega)]
        rw [e0] at p2; cases p2
    obtain ⟨a, b, rfl⟩ := List.append_of_mem hx
    exact ⟨a, b, c, rfl⟩
  · intro j k m d j' k' m' d' hop hop'
    have e : (⟨jobs.number j' k', .machineSucc⟩ : Edge) ∈ (s.ops.get (jobs.number j k)).edgesOut ↔
        jobs.number j' k' ∈ machineEdges (s.ops.get (jobs.number j k)) := by
      unfold machineEdges
      rw [List.mem_map]
      constructor
      · intro he
        exact ⟨_, List.mem_filter.2 ⟨he, by simp⟩, rfl⟩
      · rintro ⟨⟨n, kd⟩, he, rfl⟩
        obtain ⟨he, hk⟩ := List.mem_filter.1 he
        simp only [decide_eq_true_eq] at hk
        subst hk
        exact he
    rw [e, hlink.edges]
    unfold NextOn
    rw [hmach _ _ _ _ hop, hmach _ _ _ _ hop']
    refine and_congr_right fun hmm => ?_
    constructor
    · rintro ⟨a, b, c, q1, q2⟩
      refine ⟨a, b, c, q1, fun i' l' mi di hop'' hb => ?_⟩
      have := q2 _ hb
      rw [hmach _ _ _ _ hop''] at this
      rw [hmm]; exact this
    · rintro ⟨a, b, c, q1, q2⟩
      refine ⟨a, b, c, q1, fun w hw => ?_⟩
      have hwl : w ∈ l := by rw [q1]; simp [hw]
      have hwr := List.mem_range'_1.1 (hperm.mem_iff.1 hwl)
      obtain ⟨i', l', mi, di, hop'', rfl⟩ := reg_number (jobs := jobs) (nM := nM) (v := w)
        ⟨by omega, by show w ≤ jobs.total; omega⟩
      rw [hmach _ _ _ _ hop'', ← hmm]
      exact q2 _ _ _ _ hop'' hw

/-- **C101, what the graph is.** For every instance and chromosome the decoder schedules the operations one after the other
in some order that contains each operation once, every operation after its predecessor in its job.  The graph handed to the
local search has a machine edge from one operation to another exactly if they are on the same machine and the second is the
next one of that machine *in the order of decoding*, whatever their start times are
(`C101_machine_edges_follow_decoding_order`: the two orders may differ). -/
theorem C101_machine_edges {jobs : Jobs} {nM : Nat} (h : jobs.Proper nM) {ops : List Operation}
    (ho : load (jobs.file nM) = .ok (ops, nM)) (worst : Nat) {ch : List X} (hch : ch.length = 2 * jobs.total) (hE : E.Sane ch) :
    ∃ (s : Sched) (order : List Nat),
      (∃ F, ∀ fuel, F ≤ fuel → schedule E fuel (freshIndividual ops nM worst ch) = .ok s) ∧
      order.foldlM scheduleOp (initialSched (freshIndividual ops nM worst ch)) = .ok s ∧
      order.Perm (List.range' 1 jobs.total) ∧
      (∀ j k o o', jobs.op? j k = some o → jobs.op? j (k + 1) = some o' →
        ∃ a b c, order = a ++ jobs.number j k :: b ++ jobs.number j (k + 1) :: c) ∧
      ∀ j k m d j' k' m' d', jobs.op? j k = some (m, d) → jobs.op? j' k' = some (m', d') →
        ((⟨jobs.number j' k', .machineSucc⟩ : Edge) ∈ (s.ops.get (jobs.number j k)).edgesOut ↔
          m = m' ∧ ∃ a b c, order = a ++ jobs.number j k :: b ++ jobs.number j' k' :: c ∧
            ∀ i l mi di, jobs.op? i l = some (mi, di) → jobs.number i l ∈ b → mi ≠ m) := by
  obtain ⟨hp, -⟩ := load_ok ho
  have hr := fresh_ready h hp worst ch
  obtain ⟨s, -, -, F, h3⟩ := schedule_ok (E := E) (S := jobs.shop nM) (shop_wf h) (i := freshIndividual ops nM worst ch) hE hch hr
  obtain ⟨l, hl⟩ := schedule_fold (h3 F (Nat.le_refl _))
  exact ⟨s, l, ⟨F, h3⟩, hl, fold_edges h ho worst hch hE ⟨F, h3⟩ hl⟩

/-- The hypotheses of C101 are met by an instance and a chromosome whose decoding fills a gap. -/
example : threeJobs.Proper 2 ∧ load (threeJobs.file 2) = .ok (threeOps, 2) ∧
    ([2, 2, 5, 6, 2, 1, 2, 1, 1, 2, 1, 2] : List Nat).length = 2 * threeJobs.total ∧
    natEval.Sane [2, 2, 5, 6, 2, 1, 2, 1, 1, 2, 1, 2] :=
  ⟨⟨by decide, by decide, by decide⟩, rfl, rfl, natEval_sane (by decide)⟩

/-! ## Finish times and fitness -/

/-- **C102, what holds.** After the evaluation of any individual that occurs in a run the stored finish times are those of a
feasible schedule, the decoded one; its makespan `T` is no less than the fitness.  The finish times realise the fitness iff
the fitness is `T`, that is, iff the local search found nothing shorter; otherwise the fitness is the makespan of another
feasible schedule, which is not stored. -/
theorem C102_finish_times {jobs : Jobs} {nM worst : Nat} (h : jobs.Proper nM) (hA : jobs.Alternates) (hD : jobs.Positive)
    {ops : List Operation} (ho : load (jobs.file nM) = .ok (ops, nM)) {i i' : Individual X} {r : Nat}
    (hi : Arises E ops nM worst jobs.total i) (he : Evaluates E i i' r) :
    ∃ (T : Nat) (start : Nat → Nat → Nat), Feasible jobs start ∧ EndsAt jobs start T ∧
      (∀ j k m d, jobs.op? j k = some (m, d) → (i'.operations.get (jobs.number j k)).finishTime = some (start j k + d)) ∧
      i'.fitness ≤ T ∧ (∃ other, Feasible jobs other ∧ EndsAt jobs other i'.fitness) ∧
      ((∃ real : Nat → Nat → Nat, Feasible jobs real ∧ EndsAt jobs real i'.fitness ∧
        ∀ j k m d, jobs.op? j k = some (m, d) → (i'.operations.get (jobs.number j k)).finishTime = some (real j k + d)) ↔
        i'.fitness = T) := by
  obtain ⟨i1, r1, T, start, h1, h2, h3, h4, h5⟩ := C66_evaluated_feasible h hA hD ho hi
  obtain ⟨rfl, rfl⟩ := he.unique h1
  obtain ⟨f1, -, -, f2⟩ := C95_fitness_is_a_makespan h hA hD ho hi he
  refine ⟨T, start, h2, h4, h3, by rw [f1]; exact h5, by rw [f1]; exact f2, ?_⟩
  constructor
  · rintro ⟨real, -, r2, r3⟩
    have same : ∀ j k m d, jobs.op? j k = some (m, d) → real j k + d = start j k + d := fun j k m d hop =>
      Option.some.inj ((r3 j k m d hop).symm.trans (h3 j k m d hop))
    obtain ⟨j, k, m, d, g1, g2⟩ := h4.2
    have := r2.1 j k m d g1
    rw [same _ _ _ _ g1] at this
    rw [f1] at this ⊢
    omega
  · intro hT
    exact ⟨start, h2, by rw [hT]; exact h4, h3⟩

end

/-- The hypotheses of C102 are met by a fresh individual of an instance with two jobs. -/
example : twoJobs.Proper 2 ∧ twoJobs.Alternates ∧ twoJobs.Positive ∧ ∃ ops, load (twoJobs.file 2) = .ok (ops, 2) ∧
    ∃ i i' r, Arises natEval ops 2 1000 twoJobs.total i ∧ Evaluates natEval i i' r := by
  obtain ⟨ops, h1, -, -⟩ := C100_loading twoJobs_proper
  have hi : Arises natEval ops 2 1000 twoJobs.total (freshIndividual ops 2 1000 [1, 2, 2, 1, 1, 1, 1, 1]) :=
    .fresh _ (by decide) (natEval_sane (by decide))
  obtain ⟨i', r, T, start, h2, -⟩ := C66_evaluated_feasible twoJobs_proper twoJobs_alternates twoJobs_positive h1 hi
  exact ⟨twoJobs_proper, twoJobs_alternates, twoJobs_positive, ops, h1, _, i', r, hi, h2⟩

/-! ## Every theorem on a concrete case -/

section instances
example := C101_machine_edges (E := natEval) (jobs := threeJobs) (nM := 2) ⟨by decide, by decide, by decide⟩ (ops := threeOps) rfl 1000
  (ch := [2, 2, 5, 6, 2, 1, 2, 1, 1, 2, 1, 2]) rfl (natEval_sane (by decide))
example {ops : List Operation} (ho : load (twoJobs.file 2) = .ok (ops, 2)) {i' : Individual Nat} {r : Nat}
    (he : Evaluates natEval (freshIndividual ops 2 1000 [1, 2, 2, 1, 1, 1, 1, 1]) i' r) :=
  C102_finish_times twoJobs_proper twoJobs_alternates twoJobs_positive ho (.fresh _ (by decide) (natEval_sane (by decide))) he
end instances

end Ecrs.Jssp
