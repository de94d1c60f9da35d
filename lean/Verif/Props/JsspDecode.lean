import Verif.Jssp.Decode
import Verif.Props.JsspGraph

/-!
# C123: how the job shop decoder turns a chromosome into a schedule

`Placeable`, `Free` and `DecodeStep` are the specification; they speak of jobs, start times and genes only.
-/

set_option linter.unusedSectionVars false

namespace Ecrs.Jssp
open Ecrs

section
variable {X : Type}

/-- With the operations `done` scheduled and the clock at `t`, operation `o` may be scheduled next: it is not scheduled yet, and the
operation before it in its job is, and is not late (does not finish after `t` plus the delay `d`). -/
structure Placeable (jobs : Jobs) (E : EvalOps X) (start : Nat → Nat → Nat) (done : List (Nat × Nat)) (d : X) (t : Nat) (o : Nat × Nat) :
    Prop where
  exists_op : ∃ md, jobs.op? o.1 o.2 = some md
  fresh : o ∉ done
  pred : ∀ k m dur, o.2 = k + 1 → jobs.op? o.1 k = some (m, dur) →
    (o.1, k) ∈ done ∧ E.late (some (start o.1 k + dur)) (some t) d = false

/-- No operation of `done` occupies machine `m` between `a` and `b`. -/
def Free (jobs : Jobs) (start : Nat → Nat → Nat) (done : List (Nat × Nat)) (m a b : Nat) : Prop :=
  ∀ j k dur, (j, k) ∈ done → jobs.op? j k = some (m, dur) → b ≤ start j k ∨ start j k + dur ≤ a

/-- The job of `o` has got to `o` at time `r`. -/
def ReadyAt (jobs : Jobs) (start : Nat → Nat → Nat) (o : Nat × Nat) (r : Nat) : Prop :=
  (o.2 = 0 ∧ r = 0) ∨ ∃ k m dur, o.2 = k + 1 ∧ jobs.op? o.1 k = some (m, dur) ∧ r = start o.1 k + dur

/-- An operation of `done` finishes at `t`. -/
def FinishesAt (jobs : Jobs) (start : Nat → Nat → Nat) (done : List (Nat × Nat)) (t : Nat) : Prop :=
  ∃ j k m dur, (j, k) ∈ done ∧ jobs.op? j k = some (m, dur) ∧ t = start j k + dur

/-- The longest duration. -/
def Longest (jobs : Jobs) (d : Nat) : Prop :=
  (∀ j k m dur, jobs.op? j k = some (m, dur) → dur ≤ d) ∧ ∃ j k m, jobs.op? j k = some (m, d)

/-- One step of the decoding: the operations `done` are scheduled, the clock shows `t0`; the clock advances to `t` and `o` is
scheduled. -/
structure DecodeStep (jobs : Jobs) (E : EvalOps X) (ch : List X) (longest : Nat) (start : Nat → Nat → Nat) (done : List (Nat × Nat))
    (t0 t : Nat) (o : Nat × Nat) : Prop where
  /-- the clock stays or moves to the end of a scheduled operation -/
  clock : t = t0 ∨ (t0 < t ∧ FinishesAt jobs start done t)
  /-- with `x` the next of the delay genes -/
  choice : ∃ x, ch[jobs.total + done.length]? = some x ∧
    Placeable jobs E start done (E.delay x longest) t o ∧
    -- no placeable operation has a higher priority gene, and of equal ones the first is taken
    (∀ u p q, Placeable jobs E start done (E.delay x longest) t u → ch[jobs.number u.1 u.2 - 1]? = some p →
      ch[jobs.number o.1 o.2 - 1]? = some q → E.gt p q = false ∧ (jobs.number u.1 u.2 < jobs.number o.1 o.2 → E.gt q p = true)) ∧
    -- the clock does not move past a time at which an operation is placeable
    ∀ t', (t' = t0 ∨ (t0 < t' ∧ FinishesAt jobs start done t')) → t' < t → ∀ u, ¬ Placeable jobs E start done (E.delay x longest) t' u
  /-- the operation gets the earliest start that the order in the job and the machine allow, gaps included -/
  earliest : ∃ m dur r, jobs.op? o.1 o.2 = some (m, dur) ∧ ReadyAt jobs start o r ∧ r ≤ start o.1 o.2 ∧
    Free jobs start done m (start o.1 o.2) (start o.1 o.2 + dur) ∧
    ∀ a, r ≤ a → Free jobs start done m a (a + dur) → start o.1 o.2 ≤ a

/-- The clock after the steps. -/
def clockAfter {α : Type} (steps : List (α × Nat)) : Nat := ((steps.map Prod.snd).getLast?).getD 0

/-! ## Traces and finish times -/

variable {E : EvalOps X} {S : Shop}

theorem STrace.effect (hS : S.WF) {ch : List X} {md : Nat} (hE : E.Sane ch) : ∀ {t0 : Nat} {s : Sched} {l : List (Nat × Nat)} {s' : Sched},
    STrace S E ch md t0 s l s' → Inv S s →
      Inv S s' ∧ (∀ u, u ∉ l.map Prod.fst → s'.ft.get u = s.ft.get u) ∧ (∀ u f, s.ft.get u = some f → s'.ft.get u = some f) ∧
      (∀ v ∈ l.map Prod.fst, S.Reg v ∧ s.ft.get v = none ∧ ∃ f, s'.ft.get v = some f) ∧ s'.g = s.g + l.length ∧
      (l.map Prod.fst).Nodup := by
  intro t0 s l s' h
  induction h with
  | nil t0 s => intro h; exact ⟨h, fun _ _ => rfl, fun _ _ h => h, by simp, rfl, by simp⟩
  | @cons t0 s t v s1 l s' h1 h2 h3 h4 ih =>
    intro hs
    obtain ⟨x, hx, he, -, -⟩ := h1.rule
    obtain ⟨pf, hpf⟩ := he.pred hE (List.mem_of_getElem? hx)
    obtain ⟨order, pos, cnt, rk, ms, mp, hi⟩ := hs
    obtain ⟨s2, e1, e2, pos', cnt', rk', ms', mp', hi2⟩ := scheduleOp_ok hS hi he.1 he.2.1 hpf
    rw [h2] at e1
    obtain rfl := Except.ok.inj e1
    obtain ⟨st, q1, q2, -⟩ := scheduleOp_least hS hi he.1 hpf h2
    obtain ⟨a1, a2, a3, a4, a5, a6⟩ := ih ⟨_, _, _, _, _, _, hi2⟩
    refine ⟨a1, ?_, ?_, ?_, by rw [a5, e2]; simp; omega, ?_⟩
    · intro u hu
      rw [List.map_cons, List.mem_cons, not_or] at hu
      rw [a2 u hu.2, q2 u hu.1]
    · intro u f hf
      refine a3 u f ?_
      rw [q2 u]
      · exact hf
      · rintro rfl; rw [he.2.1] at hf; cases hf
    · intro w hw
      rcases List.mem_cons.1 hw with rfl | hw
      · exact ⟨he.1, he.2.1, _, a3 _ _ q1⟩
      · obtain ⟨b1, b2, b3⟩ := a4 w hw
        refine ⟨b1, ?_, b3⟩
        rw [q2 w] at b2
        · exact b2
        · rintro rfl; rw [q1] at b2; cases b2
    · rw [List.map_cons, List.nodup_cons]
      refine ⟨?_, a6⟩
      intro hv
      obtain ⟨-, b2, -⟩ := a4 _ hv
      rw [q1] at b2; cases b2

theorem STrace.split {ch : List X} {md : Nat} : ∀ (a : List (Nat × Nat)) {t0 : Nat} {s : Sched} {v t : Nat} {b : List (Nat × Nat)} {s' : Sched},
    STrace S E ch md t0 s (a ++ (v, t) :: b) s' →
      ∃ sm s1, STrace S E ch md t0 s a sm ∧ SStep S E ch md sm (((a.map Prod.snd).getLast?).getD t0) t v ∧
        scheduleOp sm v = .ok s1 ∧ Inv S sm ∧ STrace S E ch md t s1 b s' := by
  intro a
  induction a with
  | nil =>
    intro t0 s v t b s' h
    cases h with
    | cons h1 h2 h3 h4 => exact ⟨s, _, .nil _ _, h1, h2, h3, h4⟩
  | cons c a ih =>
    intro t0 s v t b s' h
    cases h with
    | @cons _ _ t1 w s1 _ _ h1 h2 h3 h4 =>
      obtain ⟨sm, s2, e1, e2, e3, e4, e5⟩ := ih h4
      refine ⟨sm, s2, .cons h1 h2 h3 e1, ?_, e3, e4, e5⟩
      rw [List.map_cons]
      cases ha : a.map Prod.snd with
      | nil => rw [ha] at e2; exact e2
      | cons y ys =>
        rw [ha] at e2
        rw [List.getLast?_cons_cons]
        rw [List.getLast?_eq_some_getLast (by simp)] at e2 ⊢
        exact e2

theorem dp_first {jobs : Jobs} (nM : Nat) {j m d : Nat} (h : jobs.op? j 0 = some (m, d)) :
    (jobs.shop nM).dp (jobs.number j 0) = 0 := by
  have := (number_spec nM h).2.2.2
  show (if (recAt jobs _).k = 0 then 0 else _ - 1) = _
  rw [if_pos this]

theorem maxDuration_longest {jobs : Jobs} {nM : Nat} (h : jobs.Proper nM) {ops : Arr Operation} (hsz : ops.size = jobs.total + 2)
    (hd : ∀ v, v ≤ jobs.total + 1 → (ops.get v).duration = (jobs.shop nM).dur v) {md : Nat} (hm : maxDuration ops = .ok md) :
    Longest jobs md := by
  have fold : ∀ (l : List Operation) (x : Nat), (∀ o ∈ l, o.duration ≤ l.foldl (fun a o => max a o.duration) x) ∧
      x ≤ l.foldl (fun a o => max a o.duration) x ∧
      (l.foldl (fun a o => max a o.duration) x = x ∨ ∃ o ∈ l, o.duration = l.foldl (fun a o => max a o.duration) x) := by
    intro l
    induction l with
    | nil => intro x; simp
    | cons o l ih =>
      intro x
      obtain ⟨h1, h2, h3⟩ := ih (max x o.duration)
      rw [List.foldl_cons]
      refine ⟨?_, by omega, ?_⟩
      · intro y hy
        rcases List.mem_cons.1 hy with rfl | hy
        · omega
        · exact h1 y hy
      · rcases h3 with h3 | ⟨y, hy, h3⟩
        · rcases Nat.le_total o.duration x with h4 | h4
          · left; rw [h3]; omega
          · right; exact ⟨o, by simp, by rw [h3]; omega⟩
        · exact .inr ⟨y, by simp [hy], h3⟩
  have key : (∀ o ∈ ops.toList, o.duration ≤ md) ∧ ∃ o ∈ ops.toList, o.duration = md := by
    unfold maxDuration at hm
    cases hl : ops.toList with
    | nil => rw [hl] at hm; cases hm
    | cons o os =>
      rw [hl] at hm
      obtain rfl := Except.ok.inj hm
      obtain ⟨h1, h2, h3⟩ := fold os o.duration
      refine ⟨?_, ?_⟩
      · intro y hy
        rcases List.mem_cons.1 hy with rfl | hy
        · exact h2
        · exact h1 y hy
      · rcases h3 with h3 | ⟨y, hy, h3⟩
        · exact ⟨o, by simp, h3.symm⟩
        · exact ⟨y, by simp [hy], h3⟩
  have le : ∀ j k m dur, jobs.op? j k = some (m, dur) → dur ≤ md := by
    intro j k m dur hop
    have a := number_spec nM hop
    have b : jobs.number j k ≤ jobs.total := a.1.2
    rw [← a.2.2.1, ← hd _ (by omega)]
    exact key.1 _ (Arr.mem_toList.2 ⟨_, by omega, rfl⟩)
  refine ⟨le, ?_⟩
  obtain ⟨o, ho, hod⟩ := key.2
  obtain ⟨v, hv, rfl⟩ := Arr.mem_toList.1 ho
  rw [hd v (by omega)] at hod
  have hpos : 1 ≤ jobs.total := (shop_wf h).pos
  by_cases hr : 1 ≤ v ∧ v ≤ jobs.total
  · obtain ⟨j, k, m, d, h1, rfl⟩ := reg_number (jobs := jobs) (nM := nM) (v := v) hr
    rw [(number_spec nM h1).2.2.1] at hod
    exact ⟨j, k, m, by rw [h1, hod]⟩
  · have h0 : md = 0 := by
      rw [← hod]
      have : v = 0 ∨ v = jobs.total + 1 := by omega
      rcases this with rfl | rfl
      · exact (shop_wf h).dur_zero
      · exact (shop_wf h).dur_sink
    obtain ⟨j, k, m, d, h1, -⟩ := reg_number (jobs := jobs) (nM := nM) (v := 1) ⟨Nat.le_refl _, hpos⟩
    have := le j k m d h1
    exact ⟨j, k, m, by rw [h1]; congr; omega⟩

theorem STrace.fold {ch : List X} {md : Nat} : ∀ {t0 : Nat} {s : Sched} {l : List (Nat × Nat)} {s' : Sched},
    STrace S E ch md t0 s l s' → (l.map Prod.fst).foldlM scheduleOp s = .ok s' := by
  intro t0 s l s' h
  induction h with
  | nil t0 s => rfl
  | cons h1 h2 h3 h4 ih => rw [List.map_cons, List.foldlM_cons, Exc.bind_of_ok h2]; exact ih

/-- C123 together with the order in which the decoder calls the scheduling of single operations. -/
theorem decoding_core {jobs : Jobs} {nM : Nat} (h : jobs.Proper nM) {ops : List Operation}
    (ho : load (jobs.file nM) = .ok (ops, nM)) (worst : Nat) {ch : List X} (hch : ch.length = 2 * jobs.total) (hE : E.Sane ch)
    (hO : E.Ordered ch) :
    ∃ (s : Sched) (start : Nat → Nat → Nat) (longest : Nat) (steps : List ((Nat × Nat) × Nat)),
      (∃ F, ∀ fuel, F ≤ fuel → schedule E fuel (freshIndividual ops nM worst ch) = .ok s) ∧
      (∀ j k m d, jobs.op? j k = some (m, d) → (s.ops.get (jobs.number j k)).finishTime = some (start j k + d)) ∧
      Longest jobs longest ∧
      (steps.map Prod.fst).Nodup ∧ (∀ j k, (j, k) ∈ steps.map Prod.fst ↔ ∃ md, jobs.op? j k = some md) ∧
      (∀ done o t rest, steps = done ++ (o, t) :: rest →
        DecodeStep jobs E ch longest start (done.map Prod.fst) (clockAfter done) t o) ∧
      ((steps.map Prod.fst).map fun o => jobs.number o.1 o.2).foldlM scheduleOp (initialSched (freshIndividual ops nM worst ch)) = .ok s := by
  obtain ⟨hp, -⟩ := load_ok ho
  have hr := fresh_ready h hp worst ch
  have hS := shop_wf h
  obtain ⟨s, h1, h2, F, h3⟩ := schedule_ok (E := E) (S := jobs.shop nM) hS (i := freshIndividual ops nM worst ch) hE hch hr
  obtain ⟨md, l, hmd, hl⟩ := schedule_trace hS (E := E) (i := freshIndividual ops nM worst ch) hE hO hch hr (h3 F (Nat.le_refl _))
  have hl : STrace (jobs.shop nM) E ch md 0 (initialSched (freshIndividual ops nM worst ch)) l s := hl
  obtain ⟨-, -, -, g4, g5, g6⟩ := hl.effect hS hE (ready_inv hS hr)
  have hI := h1
  obtain ⟨order, pos, cnt, rk, ms, mp, hs⟩ := hI
  obtain ⟨-, -, hfin⟩ := hs.feasible hS h2
  let start : Nat → Nat → Nat := fun j k => (s.ft.get (jobs.number j k)).getD 0 - (jobs.shop nM).dur (jobs.number j k)
  have hstart : ∀ j k m d, jobs.op? j k = some (m, d) → s.ft.get (jobs.number j k) = some (start j k + d) := by
    intro j k m d hop
    have a := number_spec nM hop
    obtain ⟨f, h7, h8⟩ := hfin _ a.1
    rw [a.2.2.1] at h8
    show _ = some ((s.ft.get (jobs.number j k)).getD 0 - (jobs.shop nM).dur (jobs.number j k) + d)
    rw [h7, Option.getD_some, a.2.2.1, Nat.sub_add_cancel h8]
  -- operations by their numbers
  have hex : ∀ v, ∃ o : Nat × Nat, (jobs.shop nM).Reg v → jobs.number o.1 o.2 = v ∧ ∃ md, jobs.op? o.1 o.2 = some md := by
    intro v
    by_cases hv : (jobs.shop nM).Reg v
    · obtain ⟨j, k, m, d, e1, e2⟩ := reg_number hv
      exact ⟨(j, k), fun _ => ⟨e2, _, e1⟩⟩
    · exact ⟨(0, 0), fun hc => absurd hc hv⟩
  let opOf : Nat → Nat × Nat := fun v => (hex v).choose
  have opOf_spec : ∀ v, (jobs.shop nM).Reg v → jobs.number (opOf v).1 (opOf v).2 = v ∧ ∃ md, jobs.op? (opOf v).1 (opOf v).2 = some md :=
    fun v => (hex v).choose_spec
  have opOf_number : ∀ j k o, jobs.op? j k = some o → opOf (jobs.number j k) = (j, k) := by
    intro j k o hop
    obtain ⟨m, d⟩ := o
    obtain ⟨e1, md', e2⟩ := opOf_spec _ (number_spec nM hop).1
    obtain ⟨e3, e4⟩ := number_inj jobs _ _ _ _ _ _ e2 hop e1
    exact Prod.ext e3 e4
  have hfst : ∀ l : List (Nat × Nat), (l.map fun p => (opOf p.1, p.2)).map Prod.fst = (l.map Prod.fst).map opOf := by
    intro l; rw [List.map_map, List.map_map]; rfl
  -- membership of operations in a part of the trace
  have hmem : ∀ a : List (Nat × Nat), (∀ v ∈ a.map Prod.fst, (jobs.shop nM).Reg v) → ∀ j k o, jobs.op? j k = some o →
      ((j, k) ∈ (a.map Prod.fst).map opOf ↔ jobs.number j k ∈ a.map Prod.fst) := by
    intro a ha j k o hop
    rw [List.mem_map]
    constructor
    · rintro ⟨v, hv, e⟩
      have := (opOf_spec v (ha v hv)).1
      rw [e] at this
      rw [this]; exact hv
    · intro hv
      exact ⟨_, hv, opOf_number j k o hop⟩
  have hall : ∀ v, (jobs.shop nM).Reg v → v ∈ l.map Prod.fst := by
    have hlen : (l.map Prod.fst).length = jobs.total := by
      have e : s.g = jobs.total + 1 := h2
      have e0 : (initialSched (freshIndividual ops nM worst ch)).g = 1 := rfl
      rw [List.length_map]; omega
    have hsub : l.map Prod.fst ⊆ List.range' 1 jobs.total := fun v hv => reg_mem_range.1 (g4 v hv).1
    have hperm := (List.subperm_of_subset g6 hsub).perm_of_length_le (by rw [hlen]; simp)
    intro v hv
    exact hperm.mem_iff.2 (reg_mem_range.1 hv)
  refine ⟨s, start, md, l.map fun p => (opOf p.1, p.2), ⟨F, h3⟩, ?_, ?_, ?_, ?_, ?_, ?_⟩
  · intro j k m d hop
    rw [hs.ft_ops _ (number_spec nM hop).1.2]
    exact hstart j k m d hop
  · refine maxDuration_longest (ops := (initialSched (freshIndividual ops nM worst ch)).ops) h hr.fits.size ?_ hmd
    intro v hv
    rw [← hr.fits.dur v hv]
    show (if v = 0 then _ else _ : Operation).duration = _
    split
    · rename_i hv; subst hv; rfl
    · rfl
  · rw [hfst]
    refine List.Nodup.map_on ?_ g6
    intro u hu v hv huv
    rw [← (opOf_spec u (g4 u hu).1).1, ← (opOf_spec v (g4 v hv).1).1, huv]
  · intro j k
    rw [hfst]
    constructor
    · intro hjk
      obtain ⟨v, hv, e⟩ := List.mem_map.1 hjk
      have := (opOf_spec v (g4 v hv).1).2
      rw [e] at this
      exact this
    · rintro ⟨o, hop⟩
      exact (hmem l (fun v hv => (g4 v hv).1) j k o hop).2 (hall _ (number_spec nM hop).1)
  · intro done o t rest hsteps
    obtain ⟨a, cb, hl', hda, hcb⟩ := List.map_eq_append_iff.1 hsteps
    obtain ⟨⟨v, t'⟩, b, rfl, hvt, -⟩ := List.map_eq_cons_iff.1 hcb
    obtain ⟨rfl, rfl⟩ : opOf v = o ∧ t' = t := by simpa using hvt
    subst hl'
    obtain ⟨sm, s1, e1, e2, e3, e4, e5⟩ := STrace.split a hl
    obtain ⟨-, q2, -, q4, q5, -⟩ := e1.effect hS hE (ready_inv hS hr)
    have hIm := e4
    obtain ⟨order', pos', cnt', rk', ms', mp', him⟩ := hIm
    have hrv : (jobs.shop nM).Reg v := (g4 v (by simp)).1
    obtain ⟨hnv, ⟨m, dur⟩, hopv⟩ := opOf_spec v hrv
    have hra : ∀ w ∈ a.map Prod.fst, (jobs.shop nM).Reg w := fun w hw => (q4 w hw).1
    -- later steps keep the finish times
    have hkeep : ∀ u f, sm.ft.get u = some f → s.ft.get u = some f := by
      intro u f hf
      obtain ⟨x, hx, he, -, -⟩ := e2.rule
      exact (STrace.effect hS hE (.cons e2 e3 e4 e5) e4).2.2.1 u f hf
    have hdone : done.map Prod.fst = (a.map Prod.fst).map opOf := by rw [← hda, hfst]
    have hft : ∀ j k m d, jobs.op? j k = some (m, d) → sm.ft.get (jobs.number j k) =
        if (j, k) ∈ done.map Prod.fst then some (start j k + d) else none := by
      intro j k m d hop
      rw [hdone]
      by_cases hm : (j, k) ∈ (a.map Prod.fst).map opOf
      · rw [if_pos hm]
        obtain ⟨-, -, f, hf⟩ := q4 _ ((hmem a hra j k _ hop).1 hm)
        rw [hf, ← hstart j k m d hop, hkeep _ _ hf]
      · rw [if_neg hm, q2 _ fun hc => hm ((hmem a hra j k _ hop).2 hc)]
        show (if jobs.number j k = 0 then some 0 else none : Option Nat) = none
        rw [if_neg (show ¬ jobs.number j k = 0 by have := (number_spec nM hop).1.1; omega)]
    have hel : ∀ (x : X), x ∈ ch → ∀ t j k, (∃ o, jobs.op? j k = some o) →
        (El (jobs.shop nM) E sm.ft.get (E.delay x md) t (jobs.number j k) ↔
          Placeable jobs E start (done.map Prod.fst) (E.delay x md) t (j, k)) := by
      rintro x hx t j k ⟨⟨m, d⟩, hop⟩
      have hreg := (number_spec nM hop).1
      constructor
      · rintro ⟨-, b2, b3⟩
        refine ⟨⟨_, hop⟩, ?_, ?_⟩
        · intro hc; rw [hft j k m d hop, if_pos hc] at b2; cases b2
        · rintro k' m' d' (rfl : k = k' + 1) hop'
          have hop' : jobs.op? j k' = some (m', d') := hop'
          rw [dp_number nM hop, hft j k' m' d' hop'] at b3
          by_cases hc : (j, k') ∈ done.map Prod.fst
          · rw [if_pos hc] at b3; exact ⟨hc, b3⟩
          · rw [if_neg hc, hE.unfinished x hx md t] at b3; cases b3
      · rintro ⟨-, b2, b3⟩
        refine ⟨hreg, by rw [hft j k m d hop, if_neg b2], ?_⟩
        cases k with
        | zero =>
          rw [dp_first nM hop, him.ft_zero]
          cases hl : E.late (some 0) (some t) (E.delay x md) with
          | false => rfl
          | true => have := hE.finished x hx md 0 t hl; omega
        | succ k =>
          obtain ⟨⟨m', d'⟩, hop'⟩ := op_prev hop
          obtain ⟨c1, c2⟩ := b3 k m' d' rfl hop'
          rw [dp_number nM hop, hft j k m' d' hop', if_pos c1]
          exact c2
    have hfinish : ∀ t, 0 < t → ((∃ w, (jobs.shop nM).Reg w ∧ sm.ft.get w = some t) ↔ FinishesAt jobs start (done.map Prod.fst) t) := by
      intro t ht
      constructor
      · rintro ⟨w, hw, hwt⟩
        obtain ⟨j, k, m, d, hop, rfl⟩ := reg_number hw
        rw [hft j k m d hop] at hwt
        by_cases hc : (j, k) ∈ done.map Prod.fst
        · rw [if_pos hc] at hwt
          exact ⟨j, k, m, d, hc, hop, (Option.some.inj hwt).symm⟩
        · rw [if_neg hc] at hwt; cases hwt
      · rintro ⟨j, k, m, d, hc, hop, rfl⟩
        exact ⟨_, (number_spec nM hop).1, by rw [hft j k m d hop, if_pos hc]⟩
    have hfree : ∀ m, m < nM → ∀ x y, (sm.machines.get m).isIdle (x, y) = true ↔ Free jobs start (done.map Prod.fst) m x y := by
      intro m hm x y
      rw [isIdle_iff]
      constructor
      · intro hi j k d hjk hop
        have hr := hi (start j k, start j k + d) ((him.rmc m hm _).2 ?_)
        · exact hr
        · have a := number_spec nM hop
          have hf : sm.ft.get (jobs.number j k) = some (start j k + d) := by rw [hft j k m d hop, if_pos hjk]
          exact ⟨jobs.number j k, (him.mem _).2 ⟨a.1, _, hf⟩, a.2.1, _, hf, by rw [a.2.2.1, Nat.add_sub_cancel]⟩
      · intro hi r hr
        obtain ⟨w, hw, hwm, f, hf, rfl⟩ := (him.rmc m hm r).1 hr
        obtain ⟨j, k, m', d, hop, rfl⟩ := reg_number ((him.mem w).1 hw).1
        have a := number_spec nM hop
        rw [a.2.1] at hwm
        subst hwm
        rw [hft j k m' d hop] at hf
        by_cases hc : (j, k) ∈ done.map Prod.fst
        · rw [if_pos hc] at hf
          obtain rfl := Option.some.inj hf
          have := hi j k d hc hop
          simp only
          rw [a.2.2.1, Nat.add_sub_cancel]
          exact this
        · rw [if_neg hc] at hf; cases hf
    have hclock : ((a.map Prod.snd).getLast?).getD 0 = clockAfter done := by
      unfold clockAfter
      rw [← hda, List.map_map]
      rfl
    rw [hclock] at e2
    have hg : sm.g = done.length + 1 := by
      rw [q5, ← hda, List.length_map]
      show 1 + _ = _
      omega
    obtain ⟨x, hx, he, hb, hw⟩ := e2.rule
    have hxm := List.mem_of_getElem? hx
    have hplace : Placeable jobs E start (done.map Prod.fst) (E.delay x md) t' (opOf v) :=
      (hel x hxm t' _ _ ⟨_, hopv⟩).1 (by rw [hnv]; exact he)
    refine ⟨?_, ⟨x, ?_, hplace, ?_, ?_⟩, ?_⟩
    · rcases e2.clock with h6 | ⟨h6, h7⟩
      · exact .inl h6
      · exact .inr ⟨h6, (hfinish _ (by omega)).1 h7⟩
    · rw [List.length_map, ← hx, hg]
      show ch[jobs.total + done.length]? = ch[jobs.total + (done.length + 1) - 1]?
      congr 1
    · intro u p q hu hp hq
      rw [hnv] at hq ⊢
      exact hb _ p q ((hel x hxm t' u.1 u.2 hu.exists_op).2 hu) hp hq
    · intro t2 h6 h7 u hu
      refine hw t2 ?_ h7 _ ((hel x hxm t2 u.1 u.2 hu.exists_op).2 hu)
      rcases h6 with h6 | ⟨h6, h8⟩
      · exact .inl h6
      · exact .inr ⟨h6, (hfinish _ (by omega)).2 h8⟩
    · obtain ⟨pf, hpf⟩ := he.pred hE hxm
      obtain ⟨st, z1, z2, z3, z4, z5⟩ := scheduleOp_least hS him hrv hpf e3
      have av := number_spec nM hopv
      rw [hnv] at av
      have hst : start (opOf v).1 (opOf v).2 = st := by
        have := (e5.effect hS hE (by
          obtain ⟨s2, y1, -, p', c', r', m', mp', y2⟩ := scheduleOp_ok hS him hrv he.2.1 hpf
          rw [e3] at y1
          obtain rfl := Except.ok.inj y1
          exact ⟨_, _, _, _, _, _, y2⟩)).2.2.1 _ _ z1
        have h8 := hstart _ _ _ _ hopv
        rw [hnv, this, av.2.2.1] at h8
        have := Option.some.inj h8
        omega
      rw [av.2.2.1, av.2.1] at z4 z5
      refine ⟨m, dur, pf, hopv, ?_, by rw [hst]; exact z3, ?_, ?_⟩
      · cases hk : (opOf v).2 with
        | zero =>
          left
          refine ⟨hk, ?_⟩
          have hop0 := hopv
          rw [hk] at hop0
          have e : (jobs.shop nM).dp v = 0 := by
            have e' : jobs.number (opOf v).1 0 = v := by have := hnv; rw [hk] at this; exact this
            rw [← e']; exact dp_first nM hop0
          rw [e, him.ft_zero] at hpf
          exact (Option.some.inj hpf).symm
        | succ k =>
          right
          have hop1 := hopv
          rw [hk] at hop1
          obtain ⟨⟨m', d'⟩, hop'⟩ := op_prev hop1
          refine ⟨k, m', d', hk, hop', ?_⟩
          have e : (jobs.shop nM).dp v = jobs.number (opOf v).1 k := by
            have := dp_number nM hop1
            rw [← hk, hnv] at this
            exact this
          rw [e, hft _ k m' d' hop'] at hpf
          split at hpf
          · exact (Option.some.inj hpf).symm
          · cases hpf
      · rw [hst]; exact (hfree m (av.2.1 ▸ hS.mach_lt v hrv) _ _).1 z4
      · intro x' h6 h7
        rw [hst]
        exact z5 x' h6 ((hfree m (av.2.1 ▸ hS.mach_lt v hrv) _ _).2 h7)
  · have e : ((l.map Prod.fst).map opOf).map (fun o => jobs.number o.1 o.2) = l.map Prod.fst := by
      rw [List.map_map]
      conv_rhs => rw [← List.map_id (l.map Prod.fst)]
      exact List.map_congr_left fun v hv => (opOf_spec v (g4 v hv).1).1
    rw [hfst, e]
    exact hl.fold

/-- **C123.** The decoder of the job shop example.  For every well-formed instance and every chromosome, decoding schedules all
operations one by one, each once (`steps` lists the operations with the clock at which they are scheduled): at each step the clock is the
first time at which some operation is placeable, the placeable operation with the highest priority gene is taken, and it starts
as early as its job and its machine permit (`DecodeStep`).  The finish times stored are those of the schedule so built. -/
theorem C123_decoding {jobs : Jobs} {nM : Nat} (h : jobs.Proper nM) {ops : List Operation}
    (ho : load (jobs.file nM) = .ok (ops, nM)) (worst : Nat) {ch : List X} (hch : ch.length = 2 * jobs.total) (hE : E.Sane ch)
    (hO : E.Ordered ch) :
    ∃ (s : Sched) (start : Nat → Nat → Nat) (longest : Nat) (steps : List ((Nat × Nat) × Nat)),
      (∃ F, ∀ fuel, F ≤ fuel → schedule E fuel (freshIndividual ops nM worst ch) = .ok s) ∧
      (∀ j k m d, jobs.op? j k = some (m, d) → (s.ops.get (jobs.number j k)).finishTime = some (start j k + d)) ∧
      Longest jobs longest ∧
      (steps.map Prod.fst).Nodup ∧ (∀ j k, (j, k) ∈ steps.map Prod.fst ↔ ∃ md, jobs.op? j k = some md) ∧
      ∀ done o t rest, steps = done ++ (o, t) :: rest →
        DecodeStep jobs E ch longest start (done.map Prod.fst) (clockAfter done) t o := by
  obtain ⟨s, start, longest, steps, h1, h2, h3, h4, h5, h6, -⟩ := decoding_core h ho worst hch hE hO
  exact ⟨s, start, longest, steps, h1, h2, h3, h4, h5, h6⟩


end

/-! ## A concrete case -/

theorem natEval_ordered (ch : List Nat) : natEval.Ordered ch :=
  ⟨fun x _ y _ h => by have := of_decide_eq_true (p := y < x) h; exact decide_eq_false (p := x < y) (by omega),
   fun x _ y _ z _ h => by
    have := of_decide_eq_true (p := y < x) h
    rcases Nat.lt_or_ge z x with h1 | h1
    · exact .inl (decide_eq_true (p := z < x) h1)
    · exact .inr (decide_eq_true (p := y < z) (by omega))⟩

/-- The hypotheses hold of the individual of C102, in whose decoding operation 5 is put into a gap before operation 1: six steps. -/
example : ∃ (s : Sched) (start : Nat → Nat → Nat) (steps : List ((Nat × Nat) × Nat)),
    (∃ F, ∀ fuel, F ≤ fuel → schedule natEval fuel threeInd = .ok s) ∧ steps.length = 6 ∧
    (s.ops.get 5).finishTime = some (start 2 0 + 2) ∧
    (∀ o t rest, steps = (o, t) :: rest → DecodeStep threeJobs natEval [2, 2, 5, 6, 2, 1, 2, 1, 1, 2, 1, 2] 4 start [] 0 t o) := by
  obtain ⟨s, start, longest, steps, h1, h2, h3, h4, h5, h6⟩ := C123_decoding (E := natEval) (jobs := threeJobs) (nM := 2)
    ⟨by decide, by decide, by decide⟩ (ops := threeOps) rfl 1000 (ch := [2, 2, 5, 6, 2, 1, 2, 1, 1, 2, 1, 2]) (by decide)
    (natEval_sane (by decide)) (natEval_ordered _)
  have h7 : longest = 4 := by
    obtain ⟨h7, j, k, m, h8⟩ := h3
    have h9 := h7 0 0 1 4 rfl
    have : longest ≤ 4 := by
      match j, k with
      | 0, 0 => cases h8; decide
      | 0, 1 => cases h8; decide
      | 0, k + 2 => simp [threeJobs, Jobs.op?] at h8
      | 1, 0 => cases h8; decide
      | 1, 1 => cases h8; decide
      | 1, k + 2 => simp [threeJobs, Jobs.op?] at h8
      | 2, 0 => cases h8; decide
      | 2, 1 => cases h8; decide
      | 2, k + 2 => simp [threeJobs, Jobs.op?] at h8
      | j + 3, k => simp [threeJobs, Jobs.op?] at h8
    omega
  subst h7
  refine ⟨s, start, steps, h1, ?_, h2 2 0 1 2 rfl, fun o t rest e => h6 [] o t rest e⟩
  have h8 : (steps.map Prod.fst).Perm [(0, 0), (0, 1), (1, 0), (1, 1), (2, 0), (2, 1)] := by
    refine (List.perm_ext_iff_of_nodup h4 (by decide)).2 ?_
    rintro ⟨j, k⟩
    rw [h5]
    match j, k with
    | 0, 0 => simp [threeJobs, Jobs.op?]
    | 0, 1 => simp [threeJobs, Jobs.op?]
    | 0, k + 2 => simp [threeJobs, Jobs.op?]
    | 1, 0 => simp [threeJobs, Jobs.op?]
    | 1, 1 => simp [threeJobs, Jobs.op?]
    | 1, k + 2 => simp [threeJobs, Jobs.op?]
    | 2, 0 => simp [threeJobs, Jobs.op?]
    | 2, 1 => simp [threeJobs, Jobs.op?]
    | 2, k + 2 => simp [threeJobs, Jobs.op?]
    | j + 3, k => simp [threeJobs, Jobs.op?]
  have := h8.length_eq
  simpa using this

end Ecrs.Jssp
