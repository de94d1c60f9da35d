import Verif.Props.ProbConverge

/-!
# Property **C168**: no genetic algorithm of the library finds a needle in a haystack faster than blind guessing
-/

set_option linter.unusedSectionVars false
set_option linter.unusedVariables false

namespace Ecrs.Ga
open Ecrs MeasureTheory
open scoped ENNReal

/-- The configuration `ops` with the objective function `f` (`FnBasedFitness`, src/ga/operators/fitness.rs:17-21). -/
def withObjective {W I C K : Type} (T : IndTrait I C K) (ops : Ops W I K) (f : C → Fl K) : Ops W I K := { ops with fitnessFn := fnFitness T f }

section blackbox
variable {W I C K : Type} [LinearOrder K] (T : IndTrait I C K) (ops : Ops W I K) (p : GAParams)

/-- Specification: how many different chromosomes a run can look at: the first population, and in each generation the next population, and
the (at most `c`) children if the replacement wants them evaluated. -/
def budget (ops : Ops W I K) (p : GAParams) (c : Nat) : Nat :=
  p.populationSize + p.generationLimit * (p.populationSize + if ops.requiresChildrenFitness then c else 0)

variable {T ops p}

theorem evalPop_congr {f f' : C → Fl K} {pop : List I} (h : ∀ i ∈ pop, f' (T.chromosome i) = f (T.chromosome i)) :
    evalPop T (withObjective T ops f') pop = evalPop T (withObjective T ops f) pop := by
  unfold evalPop
  induction pop with
  | nil => rfl
  | cons a l ih =>
    have e : evalOne T (withObjective T ops f') a = evalOne T (withObjective T ops f) a := by
      show (if T.requiresEval a then (fnFitness T f' a >>= fun r => pure (T.setFitness r.1 r.2) : M W I) else pure a) =
        if T.requiresEval a then (fnFitness T f a >>= fun r => pure (T.setFitness r.1 r.2)) else pure a
      unfold fnFitness
      rw [h a (by simp)]
    rw [M.forEach, M.forEach, e, ih fun i hi => h i (by simp [hi])]

theorem evalPop_chroms {f : C → Fl K} : ∀ {pop pop' : List I} {w w' : W}, evalPop T (withObjective T ops f) pop w = .ok (pop', w') →
    pop'.map T.chromosome = pop.map T.chromosome
  | [], pop', w, w', h => by
    cases h
    rfl
  | a :: l, pop', w, w', h => by
    unfold evalPop at h
    rw [M.forEach] at h
    obtain ⟨y, w1, h1, h⟩ := M.bind_ok_iff.1 h
    obtain ⟨ys, w2, h2, h⟩ := M.bind_ok_iff.1 h
    obtain ⟨rfl, -⟩ := Prod.mk.inj (M.pure_ok_iff.1 h)
    rw [List.map_cons, List.map_cons, evalPop_chroms (pop := l) h2]
    congr 1
    have h1' : (if T.requiresEval a then (fnFitness T f a >>= fun r => pure (T.setFitness r.1 r.2) : M W I) else pure a) w = .ok (y, w1) := h1
    split at h1'
    · obtain ⟨r, w3, h3, h4⟩ := M.bind_ok_iff.1 h1'
      obtain ⟨rfl, -⟩ := Prod.mk.inj (M.pure_ok_iff.1 h3)
      obtain ⟨rfl, -⟩ := Prod.mk.inj (M.pure_ok_iff.1 h4)
      exact T.chromosome_set _ _
    · obtain ⟨rfl, -⟩ := Prod.mk.inj (M.pure_ok_iff.1 h1')
      rfl

theorem forEach_length' {α β : Type} {g : α → M W β} : ∀ {l : List α} {ys : List β} {w w' : W}, M.forEach g l w = .ok (ys, w') → ys.length = l.length
  | [], ys, w, w', h => by cases h; rfl
  | a :: l, ys, w, w', h => by
    rw [M.forEach] at h
    obtain ⟨y, w1, h1, h⟩ := M.bind_ok_iff.1 h
    obtain ⟨zs, w2, h2, h⟩ := M.bind_ok_iff.1 h
    obtain ⟨rfl, -⟩ := Prod.mk.inj (M.pure_ok_iff.1 h)
    rw [List.length_cons, List.length_cons, forEach_length' h2]

variable [DecidableEq C]

theorem card_chroms (l : List I) : (l.map T.chromosome).toFinset.card ≤ l.length := by
  refine (List.toFinset_card_le _).trans ?_
  rw [List.length_map]

/-- One generation looks at the next population and, if asked, at the children. -/
theorem iteration_blind {f : C → Fl K} {c : Nat}
    (hc : ops.requiresChildrenFitness = true → ∀ m pool w ch w', ops.cross m pool w = .ok (ch, w') → ch.length ≤ c)
    {g : Nat} {s s' : St I} {stop : Bool} {w w' : W} (h : iteration T (withObjective T ops f) p g s w = .ok ((s', stop), w')) :
    ∃ Q : Finset C, Q.card ≤ p.populationSize + (if ops.requiresChildrenFitness then c else 0) ∧
      (∀ i ∈ s'.pop, T.chromosome i ∈ Q) ∧
      ∀ f' : C → Fl K, (∀ i ∈ s.pop, f' (T.chromosome i) = f (T.chromosome i)) → (∀ x ∈ Q, f' x = f x) →
        iteration T (withObjective T ops f') p g s w = .ok ((s', stop), w') := by
  unfold iteration at h
  obtain ⟨d, w1, h1, h⟩ := M.bind_ok_iff.1 h
  obtain ⟨pop, w2, h2, h⟩ := M.bind_ok_iff.1 h
  obtain ⟨pool, w3, h3, h⟩ := M.bind_ok_iff.1 h
  obtain ⟨crossed, w4, h4, h⟩ := M.bind_ok_iff.1 h
  obtain ⟨mutated, w5, h5, h⟩ := M.bind_ok_iff.1 h
  obtain ⟨children, w6, h6, h⟩ := M.bind_ok_iff.1 h
  obtain ⟨replaced, w7, h7, h⟩ := M.bind_ok_iff.1 h
  obtain ⟨u, w8, h8, h⟩ := M.bind_ok_iff.1 h
  obtain ⟨pop', w9, h9, h⟩ := M.bind_ok_iff.1 h
  obtain ⟨b, w10, h10, h⟩ := M.bind_ok_iff.1 h
  obtain ⟨d', w11, h11, h⟩ := M.bind_ok_iff.1 h
  have hlen : replaced.length = p.populationSize := by
    have := (M.assert_ok_iff.1 h8).1
    exact beq_iff_eq.1 this
  have hpop' := evalPop_chroms h9
  have hs' : s'.pop = pop' := by
    have := (Prod.mk.inj (M.pure_ok_iff.1 h)).1
    rw [(Prod.mk.inj this).1]
  refine ⟨(replaced.map T.chromosome).toFinset ∪ if ops.requiresChildrenFitness then (mutated.map T.chromosome).toFinset else ∅, ?_, ?_, ?_⟩
  · refine (Finset.card_union_le _ _).trans (add_le_add ((card_chroms _).trans hlen.le) ?_)
    split
    · rename_i hr
      exact (card_chroms _).trans ((forEach_length' h5).le.trans (hc hr _ _ _ _ _ h4))
    · simp
  · intro i hi
    rw [hs'] at hi
    refine Finset.mem_union_left _ (List.mem_toFinset.2 ?_)
    rw [← hpop']
    exact List.mem_map.2 ⟨i, hi, rfl⟩
  · intro f' h0 hQ
    have a2 : evalPop T (withObjective T ops f') s.pop w1 = .ok (pop, w2) := by rw [evalPop_congr h0]; exact h2
    have a9 : evalPop T (withObjective T ops f') replaced w8 = .ok (pop', w9) := by
      rw [evalPop_congr (f := f)]
      · exact h9
      · exact fun i hi => hQ _ (Finset.mem_union_left _ (List.mem_toFinset.2 (List.mem_map.2 ⟨i, hi, rfl⟩)))
    have a6 : evalChildren T (withObjective T ops f') mutated w5 = .ok (children, w6) := by
      have h6' : (if ops.requiresChildrenFitness then evalPop T (withObjective T ops f) mutated else pure mutated) w5 = .ok (children, w6) := h6
      show (if ops.requiresChildrenFitness then evalPop T (withObjective T ops f') mutated else pure mutated) w5 = .ok (children, w6)
      split
      · rename_i hr
        rw [if_pos hr] at h6'
        rw [evalPop_congr (f := f)]
        · exact h6'
        · intro i hi
          refine hQ _ (Finset.mem_union_right _ ?_)
          rw [if_pos hr]
          exact List.mem_toFinset.2 (List.mem_map.2 ⟨i, hi, rfl⟩)
      · rename_i hr
        rwa [if_neg hr] at h6'
    unfold iteration
    refine M.bind_ok_iff.2 ⟨d, w1, h1, ?_⟩
    refine M.bind_ok_iff.2 ⟨pop, w2, a2, ?_⟩
    refine M.bind_ok_iff.2 ⟨pool, w3, h3, ?_⟩
    refine M.bind_ok_iff.2 ⟨crossed, w4, h4, ?_⟩
    refine M.bind_ok_iff.2 ⟨mutated, w5, h5, ?_⟩
    refine M.bind_ok_iff.2 ⟨children, w6, a6, ?_⟩
    refine M.bind_ok_iff.2 ⟨replaced, w7, h7, ?_⟩
    refine M.bind_ok_iff.2 ⟨u, w8, h8, ?_⟩
    refine M.bind_ok_iff.2 ⟨pop', w9, a9, ?_⟩
    refine M.bind_ok_iff.2 ⟨b, w10, h10, ?_⟩
    exact M.bind_ok_iff.2 ⟨d', w11, h11, h⟩

theorem loop_blind {f : C → Fl K} {c : Nat}
    (hc : ops.requiresChildrenFitness = true → ∀ m pool w ch w', ops.cross m pool w = .ok (ch, w') → ch.length ≤ c) :
    ∀ (n g : Nat) {s s' : St I} {w w' : W}, loop T (withObjective T ops f) p n g s w = .ok (s', w') →
    ∃ Q : Finset C, Q.card ≤ n * (p.populationSize + if ops.requiresChildrenFitness then c else 0) ∧
      ∀ f' : C → Fl K, (∀ i ∈ s.pop, f' (T.chromosome i) = f (T.chromosome i)) → (∀ x ∈ Q, f' x = f x) →
        loop T (withObjective T ops f') p n g s w = .ok (s', w') := by
  intro n
  induction n with
  | zero => intro g s s' w w' h; exact ⟨∅, by simp, fun _ _ _ => h⟩
  | succ n ih =>
    intro g s s' w w' h
    unfold loop at h
    obtain ⟨⟨s1, stop⟩, w1, h1, h2⟩ := M.bind_ok_iff.1 h
    obtain ⟨Q1, c1, m1, r1⟩ := iteration_blind hc h1
    cases stop with
    | true =>
      refine ⟨Q1, c1.trans (Nat.le_mul_of_pos_left _ (Nat.succ_pos n)), fun f' a b => ?_⟩
      unfold loop
      exact M.bind_ok_iff.2 ⟨_, _, r1 f' a b, h2⟩
    | false =>
      obtain ⟨Q2, c2, r2⟩ := ih (g + 1) h2
      refine ⟨Q1 ∪ Q2, ?_, fun f' a b => ?_⟩
      · refine (Finset.card_union_le _ _).trans ?_
        rw [Nat.succ_mul, Nat.add_comm (n * _)]
        exact add_le_add c1 c2
      · unfold loop
        refine M.bind_ok_iff.2 ⟨_, _, r1 f' a fun x hx => b x (Finset.mem_union_left _ hx), ?_⟩
        exact r2 f' (fun i hi => b _ (Finset.mem_union_left _ (m1 i hi))) fun x hx => b x (Finset.mem_union_right _ hx)

/-- **C168, black box.** Whatever the operators, the objective function and the draws: the result of a returning run of the genetic algorithm –
the returned individual and everything the probe is shown – depends on the objective function only through its values at a set of at most
`populationSize + generations * populationSize` chromosomes (plus the children, if the replacement operator wants them evaluated): every
function agreeing with it there gives exactly the same run. -/
theorem C168_black_box {f : C → Fl K} {c : Nat}
    (hg : ∀ w pop w', ops.generate p.populationSize w = .ok (pop, w') → pop.length = p.populationSize)
    (hc : ops.requiresChildrenFitness = true → ∀ m pool w ch w', ops.cross m pool w = .ok (ch, w') → ch.length ≤ c)
    {m0 : Metrics} {r : I × List (Ev I)} {w w' : W} (h : run T (withObjective T ops f) p m0 w = .ok (r, w')) :
    ∃ Q : Finset C, Q.card ≤ budget ops p c ∧
      ∀ f' : C → Fl K, (∀ x ∈ Q, f' x = f x) → run T (withObjective T ops f') p m0 w = .ok (r, w') := by
  unfold run at h
  obtain ⟨s, w1, h1, h⟩ := M.bind_ok_iff.1 h
  obtain ⟨s', w2, h2, h⟩ := M.bind_ok_iff.1 h
  unfold prologue at h1
  obtain ⟨pop0, v1, g1, h1⟩ := M.bind_ok_iff.1 h1
  obtain ⟨pop, v2, g2, h1⟩ := M.bind_ok_iff.1 h1
  have hch := evalPop_chroms g2
  have hs : s.pop = pop := by
    obtain ⟨b, v3, g3, h1'⟩ := M.bind_ok_iff.1 h1
    obtain ⟨d, v4, g4, h1'⟩ := M.bind_ok_iff.1 h1'
    rw [(Prod.mk.inj (M.pure_ok_iff.1 h1')).1]
  obtain ⟨Q, cQ, rQ⟩ := loop_blind hc p.generationLimit 1 h2
  refine ⟨(pop0.map T.chromosome).toFinset ∪ Q, ?_, fun f' hf => ?_⟩
  · exact (Finset.card_union_le _ _).trans (add_le_add ((card_chroms _).trans (hg _ _ _ g1).le) cQ)
  · unfold run
    refine M.bind_ok_iff.2 ⟨s, w1, ?_, M.bind_ok_iff.2 ⟨s', w2, ?_, h⟩⟩
    · unfold prologue
      refine M.bind_ok_iff.2 ⟨pop0, v1, g1, M.bind_ok_iff.2 ⟨pop, v2, ?_, h1⟩⟩
      rw [evalPop_congr (f := f)]
      · exact g2
      · exact fun i hi => hf _ (Finset.mem_union_left _ (List.mem_toFinset.2 (List.mem_map.2 ⟨i, hi, rfl⟩)))
    · refine rQ f' (fun i hi => hf _ (Finset.mem_union_left _ (List.mem_toFinset.2 ?_))) fun x hx => hf x (Finset.mem_union_right _ hx)
      rw [← hch, ← hs]
      exact List.mem_map.2 ⟨i, hi, rfl⟩

end blackbox

/-! ## Needles -/

/-- The objective function `f` with a needle: the value `v` at the chromosome `t`. -/
def needle {C K : Type} [DecidableEq C] (f : C → Fl K) (v : Fl K) (t : C) : C → Fl K := fun c => if c = t then v else f c

section needles
variable {W C K : Type} [LinearOrder K] [DecidableEq C] {ops : Ops W (Individual C K) K} {p : GAParams}

/-- **C168, one outcome of the draws.** Fix all draws (`w`).  If no chromosome has a value below `b` under `f`, then among the needles hidden
in `f` only `budget` many – as many as the run can look at chromosomes – are found: for all others the returned individual is not below `b`. -/
theorem C168_per_outcome {f : C → Fl K} {b v : Fl K} (hb : ∀ c, ¬ Fl.Lt (f c) b) {c : Nat}
    (hg : ∀ w pop w', ops.generate p.populationSize w = .ok (pop, w') → pop.length = p.populationSize)
    (hc : ops.requiresChildrenFitness = true → ∀ m pool w ch w', ops.cross m pool w = .ok (ch, w') → ch.length ≤ c)
    {m0 : Metrics} {w : W} {r0 : (Individual C K × List (Ev (Individual C K))) × W}
    (hbase : run (Individual.trait C K) (withObjective (Individual.trait C K) ops f) p m0 w = .ok r0) :
    ∃ Q : Finset C, Q.card ≤ budget ops p c ∧ ∀ t r w',
      run (Individual.trait C K) (withObjective (Individual.trait C K) ops (needle f v t)) p m0 w = .ok (r, w') →
      Fl.Lt r.1.fitness b → t ∈ Q := by
  obtain ⟨⟨best, tr⟩, w1⟩ := r0
  obtain ⟨Q, hQ, h⟩ := C168_black_box hg hc hbase
  refine ⟨Q, hQ, fun t r w' hr hlt => ?_⟩
  by_contra hn
  have hsame := h (needle f v t) fun x hx => if_neg fun e : x = t => hn (by rw [← e]; exact hx)
  rw [hr] at hsame
  obtain ⟨rfl, rfl⟩ := Prod.mk.inj (Except.ok.inj hsame)
  have hfresh := (C06_fitness_is_fresh _ _ p (C06_contract_of_individual (withObjective (Individual.trait C K) ops f) f
    fun i => IfReturns.pure (Q := fun r : Individual C K × Fl K => r.2 = f r.1.chromosome) rfl) hbase).1
  have e : best.fitness = f best.chromosome := hfresh
  rw [show ((best, tr) : Individual C K × List (Ev (Individual C K))).1.fitness = f best.chromosome from e] at hlt
  exact hb _ hlt

variable [MeasurableSpace W] {μ : Measure W} [IsProbabilityMeasure μ]

theorem withObjective_lawOps (h : LawOps μ ops) (f : C → Fl K) : LawOps μ (withObjective (Individual.trait C K) ops f) :=
  ⟨h.gen, fun i => .pure _, h.sel, h.cross, h.mutate, h.replace, h.elapsed⟩

/-- **C168, needles.** Summed over any finite set of needles hidden in the same objective function, the probability that the run finds the
needle is at most the number of chromosomes a run can look at – as for a search drawing that many chromosomes blindly without repetition. -/
theorem C168_needles (hl : LawOps μ ops) {f : C → Fl K} {b v : Fl K} (hb : ∀ c, ¬ Fl.Lt (f c) b) {c : Nat}
    (hg : ∀ w pop w', ops.generate p.populationSize w = .ok (pop, w') → pop.length = p.populationSize)
    (hc : ops.requiresChildrenFitness = true → ∀ m pool w ch w', ops.cross m pool w = .ok (ch, w') → ch.length ≤ c) (m0 : Metrics)
    (hbase : Returns (run (Individual.trait C K) (withObjective (Individual.trait C K) ops f) p m0) fun _ => True) (ts : Finset C) :
    ∑ t ∈ ts, chance μ (run (Individual.trait C K) (withObjective (Individual.trait C K) ops (needle f v t)) p m0)
      (fun r => Fl.Lt r.1.fitness b) ≤ budget ops p c := by
  classical
  set E : C → Set W := fun t => {w | ∃ r w', run (Individual.trait C K) (withObjective (Individual.trait C K) ops (needle f v t)) p m0 w =
    .ok (r, w') ∧ Fl.Lt r.1.fitness b} with hE
  have hm : ∀ t, MeasurableSet (E t) := fun t => ((withObjective_lawOps hl (needle f v t)).run (p := p) m0).measurable _
  have h1 : ∑ t ∈ ts, μ (E t) = ∫⁻ w, ∑ t ∈ ts, (E t).indicator (fun _ => (1 : ℝ≥0∞)) w ∂μ := by
    rw [lintegral_finsetSum ts fun t _ => measurable_const.indicator (hm t)]
    exact Finset.sum_congr rfl fun t _ => (lintegral_indicator_one (hm t)).symm
  show ∑ t ∈ ts, μ (E t) ≤ _
  rw [h1]
  calc ∫⁻ w, ∑ t ∈ ts, (E t).indicator (fun _ => (1 : ℝ≥0∞)) w ∂μ ≤ ∫⁻ _, (budget ops p c : ℝ≥0∞) ∂μ := by
        refine lintegral_mono fun w => ?_
        obtain ⟨r0, w0, h0, -⟩ := hbase w
        obtain ⟨Q, hQ, h⟩ := C168_per_outcome (v := v) hb hg hc h0
        have h2 : ∀ t ∈ ts, (E t).indicator (fun _ => (1 : ℝ≥0∞)) w ≤ if t ∈ Q then 1 else 0 := by
          intro t _
          by_cases ht : w ∈ E t
          · obtain ⟨r, w', hr, hlt⟩ := ht
            rw [if_pos (h t r w' hr hlt)]
            exact Set.indicator_le_self' (fun _ _ => zero_le) _
          · rw [Set.indicator_of_notMem ht]; exact zero_le
        refine (Finset.sum_le_sum h2).trans ?_
        rw [Finset.sum_boole]
        refine Nat.cast_le.2 (le_trans (Finset.card_le_card ?_) hQ)
        exact fun t ht => (Finset.mem_filter.1 ht).2
    _ = budget ops p c := by rw [lintegral_const, measure_univ, mul_one]

/-- **C168, some needle.** Whatever the configuration, some needle is found with probability at most the number of chromosomes looked at
divided by the number of places where it may hide. -/
theorem C168_some_needle (hl : LawOps μ ops) {f : C → Fl K} {b v : Fl K} (hb : ∀ c, ¬ Fl.Lt (f c) b) {c : Nat}
    (hg : ∀ w pop w', ops.generate p.populationSize w = .ok (pop, w') → pop.length = p.populationSize)
    (hc : ops.requiresChildrenFitness = true → ∀ m pool w ch w', ops.cross m pool w = .ok (ch, w') → ch.length ≤ c) (m0 : Metrics)
    (hbase : Returns (run (Individual.trait C K) (withObjective (Individual.trait C K) ops f) p m0) fun _ => True)
    {ts : Finset C} (hts : ts.Nonempty) :
    ∃ t ∈ ts, chance μ (run (Individual.trait C K) (withObjective (Individual.trait C K) ops (needle f v t)) p m0)
      (fun r => Fl.Lt r.1.fitness b) ≤ budget ops p c / ts.card := by
  by_contra hn
  push Not at hn
  have hcard : (ts.card : ℝ≥0∞) ≠ 0 := Nat.cast_ne_zero.2 hts.card_ne_zero
  have h1 := ENNReal.sum_lt_sum_of_nonempty hts hn
  rw [Finset.sum_const, nsmul_eq_mul, ENNReal.mul_div_cancel hcard (ENNReal.natCast_ne_top _)] at h1
  exact absurd h1 (not_lt.2 (C168_needles hl hb hg hc m0 hbase ts))

/-- How many chromosomes one generation looks at. -/
def perGeneration (ops : Ops W (Individual C K) K) (n c : Nat) : Nat := n + if ops.requiresChildrenFitness then c else 0

/-- **C168, waiting time.** For some needle the expected number of generations until it is found (the sum, over `k`, of the probability that
a run of `k` generations does not find it), cut off after `m` generations, is at least `(m - 1) / 2` for every `m` up to the number of hiding
places divided by the number of chromosomes a generation looks at: on average at least half of the places have to be tried. -/
theorem C168_waiting (hl : LawOps μ ops) {f : C → Fl K} {b v : Fl K} (hb : ∀ c, ¬ Fl.Lt (f c) b) {n c : Nat} (hp : p.populationSize = n)
    (hg : ∀ w pop w', ops.generate n w = .ok (pop, w') → pop.length = n)
    (hc : ops.requiresChildrenFitness = true → ∀ m pool w ch w', ops.cross m pool w = .ok (ch, w') → ch.length ≤ c) (m0 : Metrics)
    (hret : ∀ k f', (f' = f ∨ ∃ t, f' = needle f v t) → Returns (run (Individual.trait C K) (withObjective (Individual.trait C K) ops f')
      { p with generationLimit := k } m0) fun _ => True)
    {ts : Finset C} (hts : ts.Nonempty) {m : Nat} (hm : perGeneration ops n c * m ≤ ts.card) :
    ∃ t ∈ ts, (m : ℝ≥0∞) ≤ 2 * ∑ k ∈ Finset.range m, chance μ
      (run (Individual.trait C K) (withObjective (Individual.trait C K) ops (needle f v t)) { p with generationLimit := k } m0)
      (fun r => ¬ Fl.Lt r.1.fitness b) + 1 := by
  by_contra hn
  push Not at hn
  set F : C → Nat → ℝ≥0∞ := fun t k => chance μ
    (run (Individual.trait C K) (withObjective (Individual.trait C K) ops (needle f v t)) { p with generationLimit := k } m0)
    (fun r => Fl.Lt r.1.fitness b) with hF
  set N : C → Nat → ℝ≥0∞ := fun t k => chance μ
    (run (Individual.trait C K) (withObjective (Individual.trait C K) ops (needle f v t)) { p with generationLimit := k } m0)
    (fun r => ¬ Fl.Lt r.1.fitness b) with hN
  have hFN : ∀ t k, F t k + N t k = 1 := fun t k =>
    ((withObjective_lawOps hl (needle f v t)).run (p := { p with generationLimit := k }) m0).chance_not (hret k _ (.inr ⟨t, rfl⟩)) _
  have hk : ∀ k, ∑ t ∈ ts, F t k ≤ (perGeneration ops n c * (k + 1) : Nat) := by
    intro k
    refine (C168_needles (p := { p with generationLimit := k }) (c := c) hl hb (by subst hp; exact hg) hc m0 (hret k _ (.inl rfl)) ts).trans ?_
    refine Nat.cast_le.2 ?_
    unfold budget perGeneration
    show p.populationSize + k * (p.populationSize + _) ≤ _
    rw [hp, Nat.mul_succ, Nat.mul_comm k, Nat.add_comm n]
    exact Nat.add_le_add_left (Nat.le_add_right _ _) _
  have htot : ∑ t ∈ ts, ∑ k ∈ Finset.range m, F t k + ∑ t ∈ ts, ∑ k ∈ Finset.range m, N t k = (ts.card * m : Nat) := by
    rw [← Finset.sum_add_distrib]
    have : ∀ t ∈ ts, ∑ k ∈ Finset.range m, F t k + ∑ k ∈ Finset.range m, N t k = (m : ℝ≥0∞) := by
      intro t _
      rw [← Finset.sum_add_distrib, Finset.sum_congr rfl fun k _ => hFN t k]
      simp
    rw [Finset.sum_congr rfl this]
    simp
  have hfound : 2 * ∑ t ∈ ts, ∑ k ∈ Finset.range m, F t k ≤ (ts.card * (m + 1) : Nat) := by
    rw [Finset.sum_comm]
    refine (mul_le_mul_right (Finset.sum_le_sum fun k _ => hk k) 2).trans ?_
    rw [← Nat.cast_sum, ← Finset.mul_sum]
    have e : (∑ k ∈ Finset.range m, (k + 1)) * 2 = m * (m + 1) := by
      have h1 := Finset.sum_range_id_mul_two (m + 1)
      rw [Finset.sum_range_succ'] at h1
      simpa [Nat.mul_comm] using h1
    have : 2 * (perGeneration ops n c * ∑ k ∈ Finset.range m, (k + 1)) ≤ ts.card * (m + 1) := by
      calc 2 * (perGeneration ops n c * ∑ k ∈ Finset.range m, (k + 1)) = perGeneration ops n c * m * (m + 1) := by
            rw [Nat.mul_comm, Nat.mul_assoc, e, Nat.mul_assoc]
        _ ≤ _ := Nat.mul_le_mul_right _ hm
    exact_mod_cast this
  have hlow : 2 * ∑ t ∈ ts, ∑ k ∈ Finset.range m, N t k + ts.card < (ts.card * m : Nat) := by
    have h1 := ENNReal.sum_lt_sum_of_nonempty hts hn
    rw [Finset.sum_add_distrib, ← Finset.mul_sum] at h1
    simpa using h1
  have hfin : ((ts.card * m : Nat) : ℝ≥0∞) ≠ ⊤ := ENNReal.natCast_ne_top _
  have h2 : (2 : ℝ≥0∞) * (ts.card * m : Nat) ≤ (ts.card * m : Nat) + (2 * ∑ t ∈ ts, ∑ k ∈ Finset.range m, N t k + ts.card) := by
    rw [← htot, mul_add, htot]
    refine (add_le_add_left hfound _).trans (le_of_eq ?_)
    push_cast
    ring
  have h3 : ((ts.card * m : Nat) : ℝ≥0∞) + (2 * ∑ t ∈ ts, ∑ k ∈ Finset.range m, N t k + ts.card) <
      (ts.card * m : Nat) + (ts.card * m : Nat) := ENNReal.add_lt_add_left hfin hlow
  rw [two_mul] at h2
  exact absurd (h2.trans_lt h3) (lt_irrefl _)

end needles

/-! ## The bit-string preset -/

section bits
variable {G F : Type} [LinearOrder F] [MeasurableSpace G] {R : Rng G ℝ} {μ : Measure G}

/-- All bit strings of length `dim`. -/
noncomputable def bitStrings (dim : Nat) : Finset (List Bool) := (List.finite_length_eq Bool dim).toFinset

theorem mem_bitStrings {dim : Nat} {t : List Bool} : t ∈ bitStrings dim ↔ t.length = dim := by simp [bitStrings]

theorem card_bitStrings (dim : Nat) : (bitStrings dim).card = 2 ^ dim := by
  have e : bitStrings dim = (Finset.univ : Finset (Fin dim → Bool)).image List.ofFn := by
    ext t
    rw [mem_bitStrings]
    simp only [Finset.mem_image, Finset.mem_univ, true_and]
    constructor
    · rintro rfl; exact ⟨t.get, List.ofFn_get t⟩
    · rintro ⟨g, rfl⟩; simp
  rw [e, Finset.card_image_of_injective _ List.ofFn_injective, Finset.card_univ, Fintype.card_fun, Fintype.card_bool, Fintype.card_fin]

theorem bscOps_sizes (worst : Fl F) (f : List Bool → Fl F) (dim n k : Nat) (elapsed : M G Nat) (w : G) (pop) (w' : G)
    (h : (bscOps R (oneGenerator G) worst f dim n elapsed).generate k w = .ok (pop, w')) : pop.length = k := by
  have h' : ((wholeSlot G).run (bitStringsGenerate R (Individual.chromOps Bool worst) dim k)) w = .ok (pop, w') := h
  rw [wholeSlot_run] at h'
  exact ((C38_bit_strings R (Individual.chromOps Bool worst) dim k).1.ifReturns _ _ _ h').1

theorem needle_isNum {C : Type} [DecidableEq C] {f : C → Fl F} (hf : ∀ c, (f c).IsNum) {v : Fl F} (hv : v.IsNum) (t c : C) :
    (needle f v t c).IsNum := by unfold needle; split; exacts [hv, hf c]

/-- **C168, bit strings.** The bit-string preset with any population of `n` individuals and any number of generations: among the `2 ^ dim`
places for a needle in an objective function there is one where it is found with probability at most `n * (generations + 1) / 2 ^ dim`. -/
theorem C168_bit_string (hR : Ideal R μ) (worst : Fl F) {f : List Bool → Fl F} (hf : ∀ c, (f c).IsNum) {b v : Fl F}
    (hb : ∀ c, ¬ Fl.Lt (f c) b) {dim n : Nat} (hd : 0 < dim) (hn : 0 < n) (he : n % 2 = 0) {elapsed : M G Nat}
    (hlaw : HasLaw μ elapsed) (hel : Returns elapsed fun _ => True) {p : GAParams} (hp : p.populationSize = n) (m0 : Metrics) :
    ∃ t : List Bool, t.length = dim ∧
      chance μ (run (Individual.trait (List Bool) F) (bscOps R (oneGenerator G) worst (needle f v t) dim n elapsed) p m0)
        (fun r => Fl.Lt r.1.fitness b) ≤ (n * (p.generationLimit + 1) : Nat) / (2 ^ dim : Nat) := by
  have := hR.isProbability
  obtain ⟨t, ht, h⟩ := C168_some_needle (p := p) (f := f) (b := b) (v := v) (c := 0) (bscOps_lawOps hR worst f dim n hlaw) hb
    (fun w pop w' h => bscOps_sizes worst f dim n _ elapsed w pop w' h) (fun h => by cases h) m0
    ((bscOps_total R (oneGenerator G) worst hf hd hn he hel).run p hn hp m0) (ts := bitStrings dim)
    ⟨List.replicate dim true, mem_bitStrings.2 (by simp)⟩
  refine ⟨t, mem_bitStrings.1 ht, ?_⟩
  rw [card_bitStrings] at h
  refine h.trans (ENNReal.div_le_div_right (Nat.cast_le.2 ?_) _)
  unfold budget
  rw [hp, if_neg (by intro h; cases h), Nat.add_zero, Nat.mul_succ, Nat.mul_comm n, Nat.add_comm]

/-- **C168, bit strings, waiting time.** For every `m` up to `2 ^ dim / n` there is a needle for which the expected number of generations of
the bit-string preset until the needle is found – cut off at `m` – is at least `(m - 1) / 2`.  With `m = 2 ^ dim / n`: it is exponential in the
length of the bit strings, and the number of evaluations is about one half of the size of the search space. -/
theorem C168_bit_string_waiting (hR : Ideal R μ) (worst : Fl F) {f : List Bool → Fl F} (hf : ∀ c, (f c).IsNum) {b v : Fl F} (hv : v.IsNum)
    (hb : ∀ c, ¬ Fl.Lt (f c) b) {dim n : Nat} (hd : 0 < dim) (hn : 0 < n) (he : n % 2 = 0) {elapsed : M G Nat}
    (hlaw : HasLaw μ elapsed) (hel : Returns elapsed fun _ => True) {p : GAParams} (hp : p.populationSize = n) (m0 : Metrics)
    {m : Nat} (hm : n * m ≤ 2 ^ dim) :
    ∃ t : List Bool, t.length = dim ∧ (m : ℝ≥0∞) ≤ 2 * ∑ k ∈ Finset.range m,
      chance μ (run (Individual.trait (List Bool) F) (bscOps R (oneGenerator G) worst (needle f v t) dim n elapsed)
        { p with generationLimit := k } m0) (fun r => ¬ Fl.Lt r.1.fitness b) + 1 := by
  have := hR.isProbability
  obtain ⟨t, ht, h⟩ := C168_waiting (p := p) (f := f) (b := b) (v := v) (c := 0) (n := n) (bscOps_lawOps hR worst f dim n hlaw) hb hp
    (fun w pop w' h => bscOps_sizes worst f dim n _ elapsed w pop w' h) (fun h => by cases h) m0
    (fun k f' hf' => (bscOps_total R (oneGenerator G) worst (f := f') (by
      rcases hf' with rfl | ⟨t, rfl⟩
      · exact hf
      · exact needle_isNum hf hv t) hd hn he hel).run { p with generationLimit := k } hn hp m0)
    (ts := bitStrings dim) ⟨List.replicate dim true, mem_bitStrings.2 (by simp)⟩ (m := m) (by
      rw [card_bitStrings]; exact hm)
  exact ⟨t, mem_bitStrings.1 ht, h⟩

/-- A geometric bound on the expected number of generations. -/
theorem waiting_le {δ : ℝ≥0∞} (hδ1 : δ ≤ 1) {n : Nat} (hn : 0 < n) {a : Nat → ℝ≥0∞} (h : ∀ k, a k ≤ (1 - δ) ^ (n * k)) :
    ∑' k, a k ≤ δ⁻¹ := by
  calc ∑' k, a k ≤ ∑' k, (1 - δ) ^ k := by
        refine ENNReal.tsum_le_tsum fun k => (h k).trans ?_
        exact pow_le_pow_right_of_le_one' tsub_le_self (Nat.le_mul_of_pos_left k hn)
    _ = δ⁻¹ := by rw [ENNReal.tsum_geometric, ENNReal.sub_sub_cancel ENNReal.one_ne_top hδ1]

/-- **C168, bit strings, upper bound.** For every NaN-free objective function and every bit string `c` of the problem's length, the expected
number of generations the bit-string preset needs to return something at least as good as `c` is at most `20 ^ dim`. -/
theorem C168_bit_string_upper (hR : Ideal R μ) (worst : Fl F) {f : List Bool → Fl F} (hf : ∀ c, (f c).IsNum) {dim n : Nat}
    (hd : 0 < dim) (hn : 0 < n) (he : n % 2 = 0) {elapsed : M G Nat} (hlaw : HasLaw μ elapsed) {p : GAParams}
    (hp : p.populationSize = n) (hel : Returns elapsed fun t => t < p.maxDuration) (m0 : Metrics) {c : List Bool}
    (hc : c.length = dim) :
    ∑' k, chance μ (run (Individual.trait (List Bool) F) (bscOps R (oneGenerator G) worst f dim n elapsed)
        { p with generationLimit := k } m0) (fun r => ¬ Fl.Le r.1.fitness (f c)) ≤ 20 ^ dim := by
  have h := waiting_le (δ := ENNReal.ofReal ((1 / 20) ^ dim))
    (by rw [ENNReal.ofReal_le_one]; exact pow_le_one₀ (by norm_num) (by norm_num)) hn fun k =>
      C135_bit_string_rate hR worst hf hd hn he hlaw (p := { p with generationLimit := k }) hp hel m0 hc
  refine h.trans (le_of_eq ?_)
  rw [← ENNReal.ofReal_inv_of_pos (by positivity), show ((1 / 20 : ℝ) ^ dim)⁻¹ = 20 ^ dim by rw [one_div, inv_pow, inv_inv],
    ENNReal.ofReal_pow (by norm_num)]
  norm_num

end bits

/-! ## Permutation problems -/

section perms
variable {G A F : Type} [DecidableEq A] [LinearOrder F] [MeasurableSpace G] {R : FRng G ℝ} {μ : Measure G}

/-- All orderings of the genes. -/
def orderings (genes : List A) : Finset (List A) := genes.permutations.toFinset

theorem mem_orderings {genes t : List A} : t ∈ orderings genes ↔ t.Perm genes := by simp [orderings, List.mem_permutations]

theorem card_orderings {genes : List A} (hg : genes.Nodup) : (orderings genes).card = genes.length.factorial := by
  rw [orderings, List.toFinset_card_of_nodup (List.nodup_permutations _ hg), List.length_permutations]

theorem permOps_sizes (worst : Fl F) (f : List A → Fl F) (fit : Individual (List A) F → ℝ) (half : ℝ) (fuel n : Nat) (genes : List A)
    (sel : Selection ℝ (Individual (List A) F)) (cr : Crossover ℝ) (rate : ℝ) (debug : Bool) (elapsed : M G Nat) (k : Nat) (w : G) (pop)
    (w' : G) (h : (permOps R (Individual.trait (List A) F) (Individual.chromOps A worst) (oneGenerator G) f fit half fuel n genes sel cr
      (.interchange rate) .bothParents debug elapsed).generate k w = .ok (pop, w')) : pop.length = k := by
  have h' : ((wholeSlot G).run (permutationsGenerate R.toRng (Individual.chromOps A worst) genes k)) w = .ok (pop, w') := h
  rw [wholeSlot_run] at h'
  exact ((C38_random_permutations R.toRng (Individual.chromOps A worst) genes k).ifReturns _ _ _ h').1

/-- **C168, permutations.** A permutation GA made of shipped operators: among the `len!` orderings there is one where a needle is found with
probability at most `n * (generations + 1) / len!`. -/
theorem C168_permutation (hR : Ideal R.toRng μ) (worst : Fl F) {f : List A → Fl F} (hf : ∀ c, (f c).IsNum) {b v : Fl F}
    (hb : ∀ c, ¬ Fl.Lt (f c) b) (fit : Individual (List A) F → ℝ) (half : ℝ) {fuel n : Nat} {genes : List A}
    {sel : Selection ℝ (Individual (List A) F)} (hsel : PlainSelection fit sel)
    {cr : Crossover ℝ} (hcr : cr = .ordered ∨ cr = .pmx ∨ cr = .ppx) (rate : ℝ)
    (debug : Bool) {elapsed : M G Nat} (hlaw : HasLaw μ elapsed) (hel : Returns elapsed fun _ => True) {p : GAParams}
    (hp : p.populationSize = n) (hg : genes.Nodup) (h0 : 0 < genes.length)
    (hfuel : genes.length ≤ fuel) (hpos : 0 < n) (heven : n % 2 = 0) (m0 : Metrics) :
    ∃ t : List A, t.Perm genes ∧
      chance μ (run (Individual.trait (List A) F) (permOps R (Individual.trait (List A) F) (Individual.chromOps A worst)
        (oneGenerator G) (needle f v t) fit half fuel n genes sel cr (.interchange rate) .bothParents debug elapsed) p m0)
        (fun r => Fl.Lt r.1.fitness b) ≤ (n * (p.generationLimit + 1) : Nat) / (genes.length.factorial : Nat) := by
  have := hR.isProbability
  obtain ⟨t, ht, h⟩ := C168_some_needle (p := p) (f := f) (b := b) (v := v) (c := 0)
    (permOps_lawOps hR worst f fit half fuel n genes hsel hcr rate debug hlaw) hb
    (fun w pop w' h => permOps_sizes worst f fit half fuel n genes sel cr rate debug elapsed _ w pop w' h) (fun h => by cases h) m0
    ((permOps_total (R := R) worst hf fit half hsel hcr rate debug hel hg h0 hfuel hpos heven (oneGenerator G)).run p hpos hp m0)
    (ts := orderings genes) ⟨genes, mem_orderings.2 (List.Perm.refl _)⟩
  refine ⟨t, mem_orderings.1 ht, ?_⟩
  rw [card_orderings hg] at h
  refine h.trans (ENNReal.div_le_div_right (Nat.cast_le.2 ?_) _)
  unfold budget
  rw [hp, if_neg (by intro h; cases h), Nat.add_zero, Nat.mul_succ, Nat.mul_comm n, Nat.add_comm]

/-- **C168, permutations, waiting time.** For every `m` up to `len! / n` there is an ordering for which the expected number of generations
until the needle is found – cut off at `m` – is at least `(m - 1) / 2`. -/
theorem C168_permutation_waiting (hR : Ideal R.toRng μ) (worst : Fl F) {f : List A → Fl F} (hf : ∀ c, (f c).IsNum) {b v : Fl F}
    (hv : v.IsNum) (hb : ∀ c, ¬ Fl.Lt (f c) b) (fit : Individual (List A) F → ℝ) (half : ℝ) {fuel n : Nat} {genes : List A}
    {sel : Selection ℝ (Individual (List A) F)} (hsel : PlainSelection fit sel)
    {cr : Crossover ℝ} (hcr : cr = .ordered ∨ cr = .pmx ∨ cr = .ppx) (rate : ℝ)
    (debug : Bool) {elapsed : M G Nat} (hlaw : HasLaw μ elapsed) (hel : Returns elapsed fun _ => True) {p : GAParams}
    (hp : p.populationSize = n) (hg : genes.Nodup) (h0 : 0 < genes.length)
    (hfuel : genes.length ≤ fuel) (hpos : 0 < n) (heven : n % 2 = 0) (m0 : Metrics) {m : Nat} (hm : n * m ≤ genes.length.factorial) :
    ∃ t : List A, t.Perm genes ∧ (m : ℝ≥0∞) ≤ 2 * ∑ k ∈ Finset.range m,
      chance μ (run (Individual.trait (List A) F) (permOps R (Individual.trait (List A) F) (Individual.chromOps A worst)
        (oneGenerator G) (needle f v t) fit half fuel n genes sel cr (.interchange rate) .bothParents debug elapsed)
        { p with generationLimit := k } m0) (fun r => ¬ Fl.Lt r.1.fitness b) + 1 := by
  have := hR.isProbability
  obtain ⟨t, ht, h⟩ := C168_waiting (p := p) (f := f) (b := b) (v := v) (c := 0) (n := n)
    (permOps_lawOps hR worst f fit half fuel n genes hsel hcr rate debug hlaw) hb hp
    (fun w pop w' h => permOps_sizes worst f fit half fuel n genes sel cr rate debug elapsed _ w pop w' h) (fun h => by cases h) m0
    (fun k f' hf' => (permOps_total (R := R) worst (f := f') (by
      rcases hf' with rfl | ⟨t, rfl⟩
      · exact hf
      · exact needle_isNum hf hv t) fit half hsel hcr rate debug hel hg h0 hfuel hpos heven (oneGenerator G)).run
        { p with generationLimit := k } hpos hp m0)
    (ts := orderings genes) ⟨genes, mem_orderings.2 (List.Perm.refl _)⟩ (m := m) (by rw [card_orderings hg]; exact hm)
  exact ⟨t, mem_orderings.1 ht, h⟩

/-- **C168, permutations, upper bound.** With a positive mutation rate the expected number of generations to something at least as good as
any given ordering is at most `(len / rate) ^ len`, for every NaN-free objective function. -/
theorem C168_permutation_upper (hR : Ideal R.toRng μ) (worst : Fl F) {f : List A → Fl F} (hf : ∀ c, (f c).IsNum)
    (fit : Individual (List A) F → ℝ) (half : ℝ) {fuel n : Nat} {genes : List A}
    {sel : Selection ℝ (Individual (List A) F)} (hsel : PlainSelection fit sel)
    {cr : Crossover ℝ} (hcr : cr = .ordered ∨ cr = .pmx ∨ cr = .ppx) {rate : ℝ} (hr0 : 0 ≤ rate) (hr1 : rate ≤ 1)
    (debug : Bool) {elapsed : M G Nat} (hlaw : HasLaw μ elapsed) {p : GAParams} (hp : p.populationSize = n)
    (hel : Returns elapsed fun t => t < p.maxDuration) (hg : genes.Nodup) (h0 : 0 < genes.length)
    (hfuel : genes.length ≤ fuel) (hpos : 0 < n) (heven : n % 2 = 0) (m0 : Metrics) {c : List A} (hc : c.Perm genes) :
    ∑' k, chance μ (run (Individual.trait (List A) F) (permOps R (Individual.trait (List A) F) (Individual.chromOps A worst)
        (oneGenerator G) f fit half fuel n genes sel cr (.interchange rate) .bothParents debug elapsed)
        { p with generationLimit := k } m0) (fun r => ¬ Fl.Le r.1.fitness (f c)) ≤
      (genes.length / ENNReal.ofReal rate) ^ genes.length := by
  have hle : ENNReal.ofReal rate / genes.length ≤ 1 := by
    refine ENNReal.div_le_of_le_mul ?_
    rw [one_mul]
    refine (ENNReal.ofReal_le_one.2 hr1).trans ?_
    exact_mod_cast h0
  have h := waiting_le (δ := (ENNReal.ofReal rate / genes.length) ^ genes.length) (pow_le_one₀ zero_le hle) hpos fun k =>
    C135_permutation_rate hR worst hf fit half hsel hcr hr0 hr1 debug hlaw (p := { p with generationLimit := k }) hp hel hg h0 hfuel
      hpos heven m0 hc
  refine h.trans (le_of_eq ?_)
  rw [ENNReal.inv_pow, ENNReal.inv_div (.inl (ENNReal.natCast_ne_top _)) (.inl (Nat.cast_ne_zero.2 h0.ne'))]

end perms

/-! ## Non-vacuity -/

/-- Twenty bits, four individuals, ten generations: a plateau at one with a needle at zero. -/
example := C168_bit_string (F := ℝ) tapeRng_ideal (.num 0) (f := fun _ => .num 1) (fun _ => trivial) (b := .num 1) (v := .num 0)
  (fun _ => lt_irrefl (1 : ℝ)) (dim := 20) (n := 4) (by decide) (by decide) (by decide) (.pure 0) (Returns.pure trivial)
  (p := ⟨4, 10, 5⟩) rfl ⟨0, 4, none⟩

example := C168_bit_string_waiting (F := ℝ) tapeRng_ideal (.num 0) (f := fun _ => .num 1) (fun _ => trivial) (b := .num 1) (v := .num 0)
  trivial (fun _ => lt_irrefl (1 : ℝ)) (dim := 20) (n := 4) (by decide) (by decide) (by decide) (.pure 0) (Returns.pure trivial)
  (p := ⟨4, 10, 5⟩) rfl ⟨0, 4, none⟩ (m := 2 ^ 18) (by norm_num)

example := C168_bit_string_upper (F := ℝ) tapeRng_ideal (.num 0) (f := needle (fun _ => .num 1) (.num 0) (List.replicate 20 true))
  (needle_isNum (f := fun _ => .num 1) (v := .num 0) (fun _ => trivial) trivial _) (dim := 20) (n := 4) (by decide) (by decide) (by decide) (.pure 0)
  (p := ⟨4, 10, 5⟩) rfl (Returns.pure (by decide)) ⟨0, 4, none⟩ (c := List.replicate 20 true) (by simp)

example := C168_permutation (F := ℝ) (R := tapeFRng) tapeRng_ideal (.num 0) (f := fun _ : List Nat => .num 1) (fun _ => trivial)
  (b := .num 1) (v := .num 0) (fun _ => lt_irrefl (1 : ℝ)) (fun _ => 0) (1 / 2) (fuel := 5) (n := 4) (genes := [0, 1, 2, 3, 4])
  (sel := .tournament (1 / 5)) (.tournament (by norm_num)) (.inr (.inl rfl)) (1 / 10) true (.pure 0) (Returns.pure trivial)
  (p := ⟨4, 10, 5⟩) rfl (by decide) (by decide) (by decide) (by decide) (by decide) ⟨0, 4, none⟩

example := C168_permutation_waiting (F := ℝ) (R := tapeFRng) tapeRng_ideal (.num 0) (f := fun _ : List Nat => .num 1) (fun _ => trivial)
  (b := .num 1) (v := .num 0) trivial (fun _ => lt_irrefl (1 : ℝ)) (fun _ => 0) (1 / 2) (fuel := 5) (n := 4) (genes := [0, 1, 2, 3, 4])
  (sel := .tournament (1 / 5)) (.tournament (by norm_num)) (.inr (.inl rfl)) (1 / 10) true (.pure 0) (Returns.pure trivial)
  (p := ⟨4, 10, 5⟩) rfl (by decide) (by decide) (by decide) (by decide) (by decide) ⟨0, 4, none⟩ (m := 30) (by decide)

example := C168_permutation_upper (F := ℝ) (R := tapeFRng) tapeRng_ideal (.num 0) (f := fun c : List Nat => .num (c.headD 0))
  (fun _ => trivial) (fun _ => 0) (1 / 2) (fuel := 5) (n := 4) (genes := [0, 1, 2, 3, 4])
  (sel := .tournament (1 / 5)) (.tournament (by norm_num)) (.inr (.inl rfl)) (rate := 1 / 10) (by norm_num) (by norm_num) true
  (.pure 0) (p := ⟨4, 10, 5⟩) rfl (Returns.pure (by decide)) (by decide) (by decide) (by decide) (by decide) (by decide) ⟨0, 4, none⟩
  (c := [0, 2, 1, 3, 4]) (by decide)

end Ecrs.Ga
