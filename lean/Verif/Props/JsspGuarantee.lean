import Verif.Props.JsspDecode
import Verif.Props.JsspRun
import Verif.Props.JsspUnreachable
import Mathlib.Algebra.BigOperators.Group.Finset.Sigma
import Mathlib.Algebra.BigOperators.Group.Finset.Piecewise

/-!
# Property **C174**: how far the job shop results can be from the optimum

* The value of every individual, even of a random chromosome that was never selected, is at most the sum of the durations of all
  operations: the decoder never leaves all machines idle (`C174_total_duration`).
* Hence it is at most the number of machines times, and at most the number of jobs times, the optimum (`C174_factor`), and so are the
  results of the solver and of the random search, whatever is drawn and after any number of generations, even none
  (`C174_solver`, `C174_random_search`).  With a single machine or a single job every individual is optimal (`C174_one`).
* On the instances of C150 the ratio of every result to the optimum comes as close to two as one likes (`C174_factor_two`).
-/

set_option linter.unusedSectionVars false
set_option linter.unusedVariables false

namespace Ecrs.Jssp
open Ecrs

/-- Specification: the durations of all operations together. -/
def Jobs.work (jobs : Jobs) : Nat := (jobs.map fun job => (job.map Prod.snd).sum).sum

/-- The duration of an operation. -/
def durOf (jobs : Jobs) (o : Nat × Nat) : Nat := ((jobs.op? o.1 o.2).map Prod.snd).getD 0

theorem sum_range_getD {α : Type} (f : α → Nat) : ∀ (l : List α) (M : Nat), l.length ≤ M →
    ∑ k ∈ Finset.range M, ((l[k]?).map f).getD 0 = (l.map f).sum
  | [], M, _ => by simp
  | a :: l, 0, h => by simp at h
  | a :: l, M + 1, h => by
    rw [Finset.sum_range_succ', List.map_cons, List.sum_cons, ← sum_range_getD f l M (by simpa using h), Nat.add_comm]
    simp

/-- Different operations take at most the durations of all operations. -/
theorem sum_durOf (jobs : Jobs) {l : List (Nat × Nat)} (hl : l.Nodup) : (l.map (durOf jobs)).sum ≤ jobs.work := by
  classical
  obtain ⟨M, hM⟩ : ∃ M, ∀ job ∈ jobs, job.length ≤ M := by
    refine ⟨(jobs.map List.length).sum, fun job hj => ?_⟩
    exact List.le_sum_of_mem (List.mem_map.2 ⟨job, hj, rfl⟩)
  have h1 : (l.map (durOf jobs)).sum = ∑ o ∈ l.toFinset, durOf jobs o := (List.sum_toFinset _ hl).symm
  have h2 : ∑ o ∈ l.toFinset, durOf jobs o ≤ ∑ o ∈ Finset.range jobs.length ×ˢ Finset.range M, durOf jobs o := by
    refine Finset.sum_le_sum_of_ne_zero fun o _ h => ?_
    unfold durOf Jobs.op? at h
    cases e : jobs[o.1]? with
    | none => rw [e] at h; simp at h
    | some job =>
      rw [e] at h
      obtain ⟨h3, rfl⟩ := List.getElem?_eq_some_iff.1 e
      have h4 := hM _ (List.getElem_mem h3)
      rw [Finset.mem_product, Finset.mem_range, Finset.mem_range]
      refine ⟨h3, ?_⟩
      by_contra hc
      simp only [Option.bind_some] at h
      rw [List.getElem?_eq_none (by omega)] at h
      simp at h
  rw [h1]
  refine h2.trans (le_of_eq ?_)
  rw [Finset.sum_product, Jobs.work, ← sum_range_getD _ jobs jobs.length le_rfl]
  refine Finset.sum_congr rfl fun j hj => ?_
  rw [Finset.mem_range] at hj
  have hj' : jobs[j]? = some jobs[j] := List.getElem?_eq_getElem hj
  rw [hj', Option.map_some, Option.getD_some, ← sum_range_getD Prod.snd jobs[j] M (hM _ (List.getElem_mem hj))]
  refine Finset.sum_congr rfl fun k _ => ?_
  unfold durOf Jobs.op?
  rw [hj']
  rfl

section
variable {X : Type} {E : EvalOps X}

/-- Scheduled one after the other at the earliest time, the operations never leave all machines idle. -/
theorem steps_end {jobs : Jobs} {ch : List X} {longest : Nat} {start : Nat → Nat → Nat} {steps : List ((Nat × Nat) × Nat)}
    (hs : ∀ done o t rest, steps = done ++ (o, t) :: rest →
      DecodeStep jobs E ch longest start (done.map Prod.fst) (clockAfter done) t o) :
    ∀ done rest, steps = done ++ rest → ∀ j k m d, (j, k) ∈ done.map Prod.fst → jobs.op? j k = some (m, d) →
      start j k + d ≤ ((done.map Prod.fst).map (durOf jobs)).sum := by
  intro done
  induction done using List.reverseRecOn with
  | nil => intro rest _ j k m d h; simp at h
  | append_singleton done p ih =>
    obtain ⟨o, t⟩ := p
    intro rest he j k m d hm hop
    have he' : steps = done ++ (o, t) :: rest := by rw [he]; simp
    have ih := ih _ he'
    have hst := hs done o t rest he'
    rw [List.map_append, List.map_append, List.sum_append]
    rw [List.map_append, List.mem_append] at hm
    rcases hm with hm | hm
    · exact (ih j k m d hm hop).trans (Nat.le_add_right _ _)
    · obtain rfl : (j, k) = o := by simpa using hm
      obtain ⟨m', d', r, h1, h2, -, -, h3⟩ := hst.earliest
      rw [hop] at h1
      obtain ⟨rfl, rfl⟩ := Prod.mk.inj (Option.some.inj h1)
      have hd : durOf jobs (j, k) = d := by unfold durOf; rw [hop]; rfl
      have hr : r ≤ ((done.map Prod.fst).map (durOf jobs)).sum := by
        rcases h2 with ⟨-, rfl⟩ | ⟨k', m', d', e1, e2, rfl⟩
        · exact Nat.zero_le _
        · obtain ⟨x, -, hpl, -⟩ := hst.choice
          exact ih _ _ _ _ (hpl.pred _ _ _ e1 e2).1 e2
      have := h3 _ hr fun j' k' d' hm' hop' => .inr (ih _ _ _ _ hm' hop')
      simp only [List.map_cons, List.map_nil, List.sum_cons, List.sum_nil, hd]
      simp only at this
      omega

/-- **C174, an upper bound.** The value of an individual is at most the durations of all operations together. -/
theorem C174_total_duration {jobs : Jobs} {nM worst : Nat} (h : jobs.Proper nM) (hA : jobs.Alternates) (hD : jobs.Positive)
    {ops : List Operation} (ho : load (jobs.file nM) = .ok (ops, nM)) {i i' : Individual X} {r : Nat}
    (hi : Arises E ops nM worst jobs.total i) (hO : E.Ordered i.chromosome) (he : Evaluates E i i' r) : r ≤ jobs.work := by
  obtain ⟨hp, -⟩ := load_ok ho
  obtain ⟨-, a2, a3⟩ := hi.inv h hA hD hp
  have hf : Arises E ops nM worst jobs.total (freshIndividual ops nM worst i.chromosome) := .fresh _ a3 a2
  obtain ⟨j, t, T, start, b1, b2, b3, b4, b5⟩ := C66_evaluated_feasible h hA hD ho hf
  have hrt := (C96_history_independent h hA hD ho hi hf rfl he b1).1
  obtain ⟨f1, -, -⟩ := hf.inv h hA hD hp
  obtain ⟨j2, t2, s, l, c, c1, ⟨F1, c2⟩, -, -, -, -, -, -, -, -, -, -, -, c3, -⟩ :=
    evaluate_full (shop_wf h) (shop_alternating nM hA) (shop_positive nM hD) (fresh_base h hp) f1 a2 a3
  obtain ⟨s', start', longest, steps, ⟨F2, d1⟩, d2, -, d4, d5, d6⟩ := C123_decoding h ho worst a3 a2 hO
  obtain rfl : j = j2 := (b1.unique c1).1
  have hss : s' = s := by
    have e1 := c2 (max F1 F2) (by omega)
    have e2 : schedule E (max F1 F2) (freshIndividual ops nM worst i.chromosome).prepare = .ok s' := d1 _ (by omega)
    rw [e1] at e2
    exact (Except.ok.inj e2).symm
  subst hss
  obtain ⟨-, j0, k0, m0, d0, g1, g2⟩ := b4
  have g3 := b3 _ _ _ _ g1
  rw [c3, d2 _ _ _ _ g1] at g3
  have g4 := Option.some.inj g3
  have g5 := steps_end d6 steps [] (by simp) j0 k0 m0 d0 ((d5 _ _).2 ⟨_, g1⟩) g1
  have g6 := sum_durOf jobs d4
  omega

/-- The work is at most the number of machines times any makespan, and at most the number of jobs times it. -/
theorem work_le {jobs : Jobs} {nM : Nat} (h : jobs.Proper nM) {t : Nat} (ht : Makespan jobs t) :
    jobs.work ≤ nM * t ∧ jobs.work ≤ jobs.length * t := by
  obtain ⟨start, hf, he⟩ := ht
  constructor
  · have key : ∀ (l : List (Nat × Nat)), (∀ o ∈ l, o.1 < nM) →
        (l.map Prod.snd).sum = ∑ m ∈ Finset.range nM, ((l.filter fun o => o.1 = m).map Prod.snd).sum := by
      intro l
      induction l with
      | nil => intro _; simp
      | cons o l ih =>
        intro hl
        rw [List.map_cons, List.sum_cons, ih fun x hx => hl x (by simp [hx])]
        have h1 : ∀ m, (((o :: l).filter fun o => o.1 = m).map Prod.snd).sum =
            (if o.1 = m then o.2 else 0) + ((l.filter fun o => o.1 = m).map Prod.snd).sum := by
          intro m
          by_cases hm : o.1 = m
          · simp [hm]
          · simp [hm]
        simp only [h1, Finset.sum_add_distrib]
        rw [Finset.sum_ite_eq, if_pos (Finset.mem_range.2 (hl o (by simp)))]
    have e : jobs.work = (jobs.flatten.map Prod.snd).sum := by
      unfold Jobs.work
      rw [List.map_flatten, List.sum_flatten, List.map_map]
      rfl
    rw [e, key _ fun o ho => by
      obtain ⟨job, hj, hm⟩ := List.mem_flatten.1 ho
      exact h.machine job hj o hm]
    refine (Finset.sum_le_card_nsmul _ _ t fun m _ => load_le hf he m).trans ?_
    simp
  · unfold Jobs.work
    refine (List.sum_le_card_nsmul _ t fun x hx => ?_).trans ?_
    · obtain ⟨job, hj, rfl⟩ := List.mem_map.1 hx
      obtain ⟨j, hj⟩ := List.mem_iff_getElem?.1 hj
      exact job_le hf he hj
    · simp

/-- **C174, the guarantee.** The value of an individual is at most the number of machines times the makespan of any feasible schedule,
and at most the number of jobs times it. -/
theorem C174_factor {jobs : Jobs} {nM worst : Nat} (h : jobs.Proper nM) (hA : jobs.Alternates) (hD : jobs.Positive)
    {ops : List Operation} (ho : load (jobs.file nM) = .ok (ops, nM)) {i i' : Individual X} {r : Nat}
    (hi : Arises E ops nM worst jobs.total i) (hO : E.Ordered i.chromosome) (he : Evaluates E i i' r) {t : Nat} (ht : Makespan jobs t) :
    r ≤ nM * t ∧ r ≤ jobs.length * t := by
  have h1 := C174_total_duration h hA hD ho hi hO he
  have h2 := work_le h ht
  exact ⟨h1.trans h2.1, h1.trans h2.2⟩

/-- **C174, one machine or one job.** Every individual is optimal. -/
theorem C174_one {jobs : Jobs} {nM worst : Nat} (h : jobs.Proper nM) (hA : jobs.Alternates) (hD : jobs.Positive)
    {ops : List Operation} (ho : load (jobs.file nM) = .ok (ops, nM)) {i i' : Individual X} {r : Nat}
    (hi : Arises E ops nM worst jobs.total i) (hO : E.Ordered i.chromosome) (he : Evaluates E i i' r) (h1 : nM = 1 ∨ jobs.length = 1) :
    IsLeast {t | Makespan jobs t} r := by
  refine ⟨?_, fun t ht => ?_⟩
  · exact (C95_fitness_is_a_makespan h hA hD ho hi he).2.2.2
  · have := C174_factor h hA hD ho hi hO he ht
    rcases h1 with h1 | h1
    · rw [h1] at this; omega
    · rw [h1] at this; omega

end

section runs
variable {G X : Type} [Field X] [LinearOrder X] [IsStrictOrderedRing X] {R : Rng G X} {E : EvalOps X} {jobs : Jobs} {nM worst : Nat}
  {ops : List Operation}

theorem shown_factor (h : jobs.Proper nM) (hA : jobs.Alternates) (hD : jobs.Positive)
    (ho : load (jobs.file nM) = .ok (ops, nM)) (hO : ∀ ch : List X, UnitGenes ch → E.Ordered ch) {i : Indiv X}
    (hi : Shown E jobs ops nM worst i) {t : Nat} (ht : Makespan jobs t) : i.ind.fitness ≤ nM * t ∧ i.ind.fitness ≤ jobs.length * t := by
  obtain ⟨j, j', a1, a2, a3⟩ := hi.value hi.done
  exact C174_factor h hA hD ho a1 (hO _ a2) a3 ht

/-- **C174, the solver.** -/
theorem C174_solver (h : jobs.Proper nM) (hA : jobs.Alternates) (hD : jobs.Positive)
    (ho : load (jobs.file nM) = .ok (ops, nM)) (hE : ∀ ch : List X, UnitGenes ch → E.Sane ch)
    (hO : ∀ ch : List X, UnitGenes ch → E.Ordered ch) (keep : X)
    {elite sample : Nat → Nat} {elapsed : M G Nat} (hel : Returns elapsed fun _ => True) {p : Ga.GAParams}
    (hn : 0 < p.populationSize) (heven : p.populationSize % 2 = 0)
    (h1 : elite p.populationSize + sample p.populationSize ≤ p.populationSize)
    (h2 : 0 < elite p.populationSize + sample p.populationSize) (m0 : Ga.Metrics) :
    Returns (Ga.run (Indiv.trait X) (solverOps R E keep ops nM worst p.populationSize elite sample elapsed) p m0)
      fun r => ∀ t, Makespan jobs t → r.1.ind.fitness ≤ nM * t ∧ r.1.ind.fitness ≤ jobs.length * t := by
  refine (solves_of_staged (solver_staged h hA hD ho hE keep hel hn heven h1 h2) hn rfl m0).mono ?_
  rintro r ⟨q1, q2⟩ t ht
  obtain ⟨pop, hp1, hp2⟩ := q1.member
  exact shown_factor h hA hD ho hO (q2 pop hp1 _ hp2) ht

/-- **C174, the random search.** -/
theorem C174_random_search (h : jobs.Proper nM) (hA : jobs.Alternates) (hD : jobs.Positive)
    (ho : load (jobs.file nM) = .ok (ops, nM)) (hE : ∀ ch : List X, UnitGenes ch → E.Sane ch)
    (hO : ∀ ch : List X, UnitGenes ch → E.Ordered ch)
    {elapsed : M G Nat} (hel : Returns elapsed fun _ => True) {p : Ga.GAParams} (hn : 0 < p.populationSize) (m0 : Ga.Metrics) :
    Returns (Ga.run (Indiv.trait X) (randomSearchOps R E ops nM worst elapsed) p m0)
      fun r => ∀ t, Makespan jobs t → r.1.ind.fitness ≤ nM * t ∧ r.1.ind.fitness ≤ jobs.length * t := by
  refine (solves_of_staged (randomSearch_staged h hA hD ho hE hel) hn rfl m0).mono ?_
  rintro r ⟨q1, q2⟩ t ht
  obtain ⟨pop, hp1, hp2⟩ := q1.member
  exact shown_factor h hA hD ho hO (q2 pop hp1 _ hp2) ht

end runs

section
variable {X : Type} {E : EvalOps X}

/-- **C174, no factor below two.** For every number `a / b < 2` there are instances on which every value exceeds `a / b` times the
optimum. -/
theorem C174_factor_two {a b : Nat} (hab : a < 2 * b) : ∃ n best, IsLeast {t | Makespan (stubborn n) t} best ∧
    ∀ (ops : List Operation), load ((stubborn n).file 6) = .ok (ops, 6) →
    ∀ (worst : Nat) (i i' : Individual X) (r : Nat), Arises E ops 6 worst (stubborn n).total i → E.Ordered i.chromosome → Delays E i.chromosome →
      Evaluates E i i' r → a * best < b * r := by
  refine ⟨3 * a + 2, 3 * a + 2 + 3, ⟨(stubborn_optimum _).1, (stubborn_optimum _).2⟩, fun ops ho worst i i' r hi hO hB he => ?_⟩
  have := (C150_unreachable_optimum (by omega) ho hi hO hB he).1
  subst this
  nlinarith

end

/-! ## Concrete cases -/

/-- Two jobs on two machines: every run is at most twice as long as any schedule, and there are schedules. -/
example : ∃ ops, load (twoJobs.file 2) = .ok (ops, 2) ∧
    Returns (Ga.run (Indiv.trait ℚ) (solverOps Ga.counterRng ratEval (3 / 5) ops 2 1000 10 (· / 10) (· / 5) (pure 0))
      ⟨10, 400, 1000⟩ ⟨0, 10, none⟩) fun r => Makespan twoJobs r.1.ind.fitness ∧
        ∀ t, Makespan twoJobs t → r.1.ind.fitness ≤ 2 * t ∧ r.1.ind.fitness ≤ 2 * t := by
  obtain ⟨ops, h1, -⟩ := C100_loading twoJobs_proper
  refine ⟨ops, h1, fun g => ?_⟩
  obtain ⟨a, g', h2, h3⟩ := C103_solver_run (R := Ga.counterRng) (worst := 1000) (p := ⟨10, 400, 1000⟩) twoJobs_proper twoJobs_alternates
    twoJobs_positive h1 ratEval_sane (3 / 5) (elite := (· / 10)) (sample := (· / 5)) (elapsed := pure 0) (Returns.pure trivial)
    (by decide) (by decide) (by decide) (by decide) ⟨0, 10, none⟩ g
  obtain ⟨b, g'', h4, h5⟩ := C174_solver (R := Ga.counterRng) (worst := 1000) (p := ⟨10, 400, 1000⟩) twoJobs_proper twoJobs_alternates
    twoJobs_positive h1 ratEval_sane (fun ch _ => ratEval_ordered ch) (3 / 5) (elite := (· / 10)) (sample := (· / 5)) (elapsed := pure 0) (Returns.pure trivial)
    (by decide) (by decide) (by decide) (by decide) ⟨0, 10, none⟩ g
  have e := h2.symm.trans h4
  cases e
  exact ⟨a, g', h2, h3.achievable, h5⟩

/-- Instances of C150 on which every value exceeds the optimum by more than nine tenths. -/
example : ∃ n best, IsLeast {t | Makespan (stubborn n) t} best ∧ ∃ ops, load ((stubborn n).file 6) = .ok (ops, 6) ∧
    ∀ (worst : Nat) (i i' : Individual ℚ) (r : Nat), Arises ratEval ops 6 worst (stubborn n).total i → ratEval.Ordered i.chromosome →
      Delays ratEval i.chromosome → Evaluates ratEval i i' r → 19 * best < 10 * r := by
  obtain ⟨n, best, h1, h2⟩ := C174_factor_two (E := ratEval) (a := 19) (b := 10) (by norm_num)
  obtain ⟨ops, h3, -⟩ := C100_loading (stubborn_proper n)
  exact ⟨n, best, h1, ops, h3, h2 ops h3⟩

end Ecrs.Jssp
