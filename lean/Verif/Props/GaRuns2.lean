import Verif.Props.GaRuns
import Verif.Ga.Stdout
import Verif.Ga.Population
import Verif.Ga.Assemble
import Verif.Ga.Mutation
import Mathlib.Tactic.Ring

/-!
# C70, C110, C111, C113, C118: families, evaluation budget, reproducibility, the log, the best of each generation
-/

set_option linter.unusedSectionVars false

namespace Ecrs.Ga
open Ecrs

section
variable {W I C K : Type} [LinearOrder K] (T : IndTrait I C K) (ops : Ops W I K) (p : GAParams)

/-! ## C118: the best of each generation -/

/-- The populations of `on_new_generation`. -/
def newGenerations (tr : List (Ev I)) : List (List I) :=
  tr.filterMap fun | .onNewGeneration _ pop => some pop | _ => none

/-- The individuals of `on_best_fit_in_generation`. -/
def bestFits (tr : List (Ev I)) : List I :=
  tr.filterMap fun | .onBestFit _ i => some i | _ => none

/-- The member `b` of `pop` is one of smallest fitness. -/
def IsMinimum (pop : List I) (b : I) : Prop := b ∈ pop ∧ ∀ i ∈ pop, ¬ Fl.Lt (T.fitness i) (T.fitness b)

/-- **C118.** In every generation exactly one individual is passed to `on_best_fit_in_generation`; it is a member of the
population just passed to `on_new_generation` and no member has smaller fitness. -/
theorem C118_best_of_generation {m0 : Metrics} {best : I} {tr : List (Ev I)} {w w' : W}
    (h : run T ops p m0 w = .ok ((best, tr), w')) :
    List.Forall₂ (IsMinimum T) (newGenerations tr) (bestFits tr) := by
  obtain ⟨s, wa, s', wb, d, h1, h2, h3, h4, h5⟩ := run_ok T ops p h
  obtain ⟨pop0, wc, wd, d0, g1, g2, g3, g4, g5, g6⟩ := prologue_ok T ops p h1
  obtain ⟨k, -, hi⟩ := loop_inv T ops p
    (Inv := fun _ s => List.Forall₂ (IsMinimum T) (newGenerations s.trace) (bestFits s.trace))
    (fun g s w s' stop w' hi h => by
      obtain ⟨d, wa, m, pop, wb, pool, wc, crossed, wd, mutated, we, children, wf, replaced, wg, m', wh, b, d',
        wi, -, hm, e1, e2, e3, e4, e5, e6, hm', -, e7, hb, -, hbest, hmet, -, htr⟩ := iteration_ok T ops p h
      have hmin : IsMinimum T s'.pop b :=
        ⟨findBest_mem T hb, fun i hi => findBest_not_lt T hb i hi⟩
      rw [htr]
      simp only [newGenerations, bestFits, List.filterMap_append] at hi ⊢
      have e1 : (if Fl.lt (T.fitness b) (T.fitness s.best) = true then [Ev.onNewBest m' b] else []).filterMap
          (fun | .onNewGeneration _ pop => some pop | _ => none) = ([] : List (List I)) := by split <;> rfl
      have e2 : (if Fl.lt (T.fitness b) (T.fitness s.best) = true then [Ev.onNewBest m' b] else []).filterMap
          (fun | .onBestFit _ i => some i | _ => none) = ([] : List I) := by split <;> rfl
      rw [e1, e2]
      simp only [List.append_nil, List.filterMap_cons, List.filterMap_nil]
      exact List.rel_append hi (List.Forall₂.cons hmin List.Forall₂.nil)) _ _ _ _ _ _ (by rw [g6]; exact List.Forall₂.nil) h2
  rw [h5]
  simpa [newGenerations, bestFits] using hi

/-! ## C110: the evaluation budget -/

/-- The operators count fitness evaluations in `cnt`: every call of the fitness function adds one, nothing else changes the
count, and individuals always ask to be evaluated (the default `requires_evaluation`). -/
structure CountsEvaluations (cnt : W → Nat) : Prop where
  asks : ∀ i, T.requiresEval i = true
  fit : ∀ i w r w', ops.fitnessFn i w = .ok (r, w') → cnt w' = cnt w + 1
  gen : ∀ n w r w', ops.generate n w = .ok (r, w') → cnt w' = cnt w
  sel : ∀ m a w r w', ops.select m a w = .ok (r, w') → cnt w' = cnt w
  cross : ∀ m a w r w', ops.cross m a w = .ok (r, w') → cnt w' = cnt w
  mutate : ∀ m a w r w', ops.mutate m a w = .ok (r, w') → cnt w' = cnt w
  replace : ∀ m a b w r w', ops.replace m a b w = .ok (r, w') → cnt w' = cnt w
  clock : ∀ w r w', ops.elapsed w = .ok (r, w') → cnt w' = cnt w

/-- The numbers of children handed to the replacement. -/
def childrenCounts (tr : List (Ev I)) : List Nat :=
  tr.filterMap fun | .replaceCall _ children => some children.length | _ => none

private theorem evalPop_count {cnt : W → Nat} (hc : CountsEvaluations T ops cnt) : ∀ (pop out : List I) (w w' : W),
    evalPop T ops pop w = .ok (out, w') → cnt w' = cnt w + pop.length := by
  intro pop
  induction pop with
  | nil => intro out w w' h; cases h; rfl
  | cons i pop ih =>
    intro out w w' h
    unfold evalPop M.forEach at h
    obtain ⟨y, w1, h1, h2⟩ := M.bind_ok_iff.1 h
    obtain ⟨ys, w2, h3, h4⟩ := M.bind_ok_iff.1 h2
    have h4 := M.pure_ok_iff.1 h4
    simp only [Prod.mk.injEq] at h4
    obtain ⟨-, rfl⟩ := h4
    unfold evalOne at h1
    rw [if_pos (hc.asks i)] at h1
    obtain ⟨⟨i', v⟩, w3, h5, h6⟩ := M.bind_ok_iff.1 h1
    have h6 := M.pure_ok_iff.1 h6
    simp only [Prod.mk.injEq] at h6
    obtain ⟨-, rfl⟩ := h6
    rw [ih ys _ _ h3, hc.fit _ _ _ _ h5, List.length_cons]
    omega

private theorem mutate_count {cnt : W → Nat} (hc : CountsEvaluations T ops cnt) (m : Metrics) : ∀ (pop out : List I) (w w' : W),
    M.forEach (ops.mutate m) pop w = .ok (out, w') → cnt w' = cnt w := by
  intro pop
  induction pop with
  | nil => intro out w w' h; cases h; rfl
  | cons i pop ih =>
    intro out w w' h
    unfold M.forEach at h
    obtain ⟨y, w1, h1, h2⟩ := M.bind_ok_iff.1 h
    obtain ⟨ys, w2, h3, h4⟩ := M.bind_ok_iff.1 h2
    have h4 := M.pure_ok_iff.1 h4
    simp only [Prod.mk.injEq] at h4
    obtain ⟨-, rfl⟩ := h4
    rw [ih ys _ _ h3, hc.mutate _ _ _ _ _ h1]

private theorem loop_winv {Inv : Nat → St I → W → Prop}
    (step : ∀ g s w s' stop w', Inv g s w → iteration T ops p g s w = .ok ((s', stop), w') → Inv (g + 1) s' w') :
    ∀ (n g : Nat) (s : St I) (w : W) (s' : St I) (w' : W),
      Inv g s w → loop T ops p n g s w = .ok (s', w') → ∃ k ≤ n, Inv (g + k) s' w'
  | 0, g, s, w, s', w', hi, h => by
    simp [loop] at h; obtain ⟨rfl, rfl⟩ := h
    exact ⟨0, Nat.le_refl _, hi⟩
  | n + 1, g, s, w, s', w', hi, h => by
    unfold loop at h
    obtain ⟨⟨s1, stop⟩, w1, h1, h2⟩ := M.bind_ok_iff.1 h
    have hi1 := step g s w s1 stop w1 hi h1
    simp only at h2
    cases stop with
    | true =>
      simp at h2; obtain ⟨rfl, rfl⟩ := h2
      exact ⟨1, by omega, hi1⟩
    | false =>
      simp at h2
      obtain ⟨k, hk, hinv⟩ := loop_winv step n (g + 1) s1 w1 s' w' hi1 h2
      exact ⟨k + 1, by omega, by rw [show g + (k + 1) = g + 1 + k by omega]; exact hinv⟩

/-- **C110.** A run of `k` generations on a population of `n` calls the fitness function `n (1 + 2 k)` times: once per
member of the initial population and *twice* per member and generation (the population is evaluated again, unchanged, when
the next generation starts); replacement operators that ask for the children's fitness cost one more call per child. -/
theorem C110_evaluation_count {cnt : W → Nat} (hc : CountsEvaluations T ops cnt)
    (hgen : ∀ w r w', ops.generate p.populationSize w = .ok (r, w') → r.length = p.populationSize)
    {m0 : Metrics} {best : I} {tr : List (Ev I)} {w w' : W} (h : run T ops p m0 w = .ok ((best, tr), w')) :
    ∃ k, iterationNumbers tr = List.range' 1 k ∧
      cnt w' = cnt w + p.populationSize * (1 + 2 * k) +
        (if ops.requiresChildrenFitness then (childrenCounts tr).sum else 0) := by
  obtain ⟨s, wa, s', wb, d, h1, h2, h3, h4, h5⟩ := run_ok T ops p h
  obtain ⟨pop0, wc, wd, d0, g1, g2, g3, g4, g5, g6⟩ := prologue_ok T ops p h1
  have l1 := evalPop_length T ops g2
  have l0 := hgen _ _ _ g1
  obtain ⟨k, -, hi⟩ := loop_winv T ops p
    (Inv := fun g s v => ∃ k, g = k + 1 ∧ s.pop.length = p.populationSize ∧ iterationNumbers s.trace = List.range' 1 k ∧
      cnt v = cnt w + p.populationSize * (1 + 2 * k) +
        (if ops.requiresChildrenFitness then (childrenCounts s.trace).sum else 0))
    (fun g s v s' stop v' hi h => by
      obtain ⟨k, hg, hl, hn, hcnt⟩ := hi
      obtain ⟨d, wa, m, pop, wb, pool, wc, crossed, wd, mutated, we, children, wf, replaced, wg, m', wh, b, d',
        wi, e0, hm, e1, e2, e3, e4, e5, e6, hm', hrl, e7, hb, e8, hbest, hmet, -, htr⟩ := iteration_ok T ops p h
      have hwi : cnt v' = cnt wh := by
        unfold iteration at h
        rw [M.bind_of_ok e0, M.bind_of_ok e1, ← hm, M.bind_of_ok e2, M.bind_of_ok e3, M.bind_of_ok e4, M.bind_of_ok e5,
          M.bind_of_ok e6] at h
        rw [M.bind_of_ok (show M.assert (replaced.length == p.populationSize) .assertion wg = .ok ((), wg) by
          rw [hrl]; simp [M.assert_true]), M.bind_of_ok e7,
          M.bind_of_ok (show M.ofExcept (findBest T s'.pop) wh = .ok (b, wh) from M.ofExcept_ok_iff.2 ⟨hb, rfl⟩),
          M.bind_of_ok e8] at h
        have h := M.pure_ok_iff.1 h
        simp only [Prod.mk.injEq] at h
        rw [h.2]; exact hc.clock _ _ _ e8
      have c0 := hc.clock _ _ _ e0
      have c1 := evalPop_count T ops hc _ _ _ _ e1
      have c2 := hc.sel _ _ _ _ _ e2
      have c3 := hc.cross _ _ _ _ _ e3
      have c4 := mutate_count T ops hc m _ _ _ _ e4
      have c6 := hc.replace _ _ _ _ _ _ e6
      have c7 := evalPop_count T ops hc _ _ _ _ e7
      have c5 : cnt wf = cnt we + if ops.requiresChildrenFitness then children.length else 0 := by
        unfold evalChildren at e5
        by_cases hr : ops.requiresChildrenFitness = true
        · rw [if_pos hr] at e5 ⊢
          rw [evalPop_count T ops hc _ _ _ _ e5, evalPop_length T ops e5]
        · rw [if_neg hr] at e5 ⊢
          cases e5; rfl
      have l7 := evalPop_length T ops e7
      refine ⟨k + 1, by omega, by rw [l7, hrl], ?_, ?_⟩
      · rw [htr]
        simp only [iterationNumbers, List.filterMap_append] at hn ⊢
        rw [hn]
        have hgm : m.generation = k + 1 := by rw [hm]; exact hg
        rw [List.range'_1_concat]
        split <;> simp [hgm, Nat.add_comm]
      · have hsum : (childrenCounts s'.trace).sum = (childrenCounts s.trace).sum + children.length := by
          rw [htr]
          simp only [childrenCounts, List.filterMap_append]
          split <;> simp
        rw [hwi, c7, c6, c5, c4, c3, c2, c1, c0, hcnt, hrl, hl, hsum]
        split <;> ring) _ _ _ _ _ _ ⟨0, rfl, by rw [l1, l0], by rw [g6]; rfl, by
          rw [hc.clock _ _ _ g4, evalPop_count T ops hc _ _ _ _ g2, hc.gen _ _ _ _ g1, l0, g6]
          simp [childrenCounts]⟩ h2
  obtain ⟨k', hk', -, hn, hcnt⟩ := hi
  refine ⟨k', by rw [h5]; simpa [iterationNumbers] using hn, ?_⟩
  rw [hc.clock _ _ _ h3, hcnt, h5]
  simp [childrenCounts]

end

/-- A counting version of the example GA: the second component of the world counts fitness calls. -/
def countingOps : Ops (Nat × Nat) (Individual Int Int) Int where
  generate _ := pure [⟨5, .nan⟩, ⟨3, .nan⟩]
  fitnessFn i := fun w => .ok ((i, .num (i.chromosome * i.chromosome)), (w.1, w.2 + 1))
  select _ pop := pure pop
  cross _ pool := pure pool
  mutate _ i := pure { i with chromosome := i.chromosome - 2 }
  replace _ _ children := pure children
  requiresChildrenFitness := true
  elapsed := fun w => .ok (w.1, (w.1 + 1, w.2))

/-- Hypotheses of C110 on a concrete run: two individuals, three generations, `2 (1 + 6) + 6 = 20` evaluations. -/
example : CountsEvaluations (Individual.trait Int Int) countingOps (fun w => w.2) ∧
    (∀ w r w', countingOps.generate 2 w = .ok (r, w') → r.length = 2) ∧
    ∃ best tr w', run (Individual.trait Int Int) countingOps ⟨2, 3, 100⟩ (initialMetrics ⟨2, 3, 100⟩) (0, 0)
      = .ok ((best, tr), w') ∧ w'.2 = 20 ∧ childrenCounts tr = [2, 2, 2] := by
  have val : (match run (Individual.trait Int Int) countingOps ⟨2, 3, 100⟩ (initialMetrics ⟨2, 3, 100⟩) (0, 0) with
      | .ok v => v.2.2 == 20 && childrenCounts v.1.2 == [2, 2, 2]
      | .error _ => false) = true := by decide +kernel
  split at val
  case h_2 => cases val
  case h_1 v hv =>
  obtain ⟨⟨best, tr⟩, w'⟩ := v
  simp only [Bool.and_eq_true, beq_iff_eq] at val
  refine ⟨⟨fun _ => rfl, ?_, ?_, ?_, ?_, ?_, ?_, ?_⟩, ?_, best, tr, w', hv, val.1, val.2⟩ <;>
    (intros; rename_i h; cases h; rfl)

/-! ## C70: families in the replacement -/

section
variable {W I C K : Type} [LinearOrder K] (T : IndTrait I C K) (ops : Ops W I K) (p : GAParams)

/-- The populations given to the selection operator. -/
def selectedFrom (tr : List (Ev I)) : List (List I) :=
  tr.filterMap fun | .selectCall pop => some pop | _ => none

/-- The populations given to the replacement operator. -/
def replacedPops (tr : List (Ev I)) : List (List I) :=
  tr.filterMap fun | .replaceCall pop _ => some pop | _ => none

/-- **C70, what the replacement receives.** The `population` argument of the replacement operator is, in every generation,
the population the selection operator chose from, in its order. -/
theorem C70_replacement_receives_population {m0 : Metrics} {best : I} {tr : List (Ev I)} {w w' : W}
    (h : run T ops p m0 w = .ok ((best, tr), w')) : replacedPops tr = selectedFrom tr := by
  obtain ⟨s, wa, s', wb, d, h1, h2, h3, h4, h5⟩ := run_ok T ops p h
  obtain ⟨pop0, wc, wd, d0, g1, g2, g3, g4, g5, g6⟩ := prologue_ok T ops p h1
  obtain ⟨k, -, hi⟩ := loop_inv T ops p (Inv := fun _ s => replacedPops s.trace = selectedFrom s.trace)
    (fun g s w s' stop w' hi h => by
      obtain ⟨d, wa, m, pop, wb, pool, wc, crossed, wd, mutated, we, children, wf, replaced, wg, m', wh, b, d',
        wi, -, hm, e1, e2, e3, e4, e5, e6, hm', -, e7, hb, -, hbest, hmet, -, htr⟩ := iteration_ok T ops p h
      rw [htr]
      simp only [replacedPops, selectedFrom, List.filterMap_append] at hi ⊢
      rw [hi]
      split <;> simp) _ _ _ _ _ _ (by rw [g6]; rfl) h2
  rw [h5]
  simpa [replacedPops, selectedFrom] using hi

end

/-- A GA made of shipped operators: Random selection, SinglePoint, Identity, WeakParent. -/
def familyOps : Ops Nat (Individual (List Nat) Int) Int where
  generate _ := pure [⟨[1, 1, 1], .nan⟩, ⟨[2, 2, 2], .nan⟩, ⟨[3, 3, 3], .nan⟩, ⟨[4, 4, 4], .nan⟩]
  fitnessFn := fnFitness (Individual.trait (List Nat) Int) fun c => .num (c.sum : Nat)
  select _ pop := selRandom counterRng 4 pop
  cross _ pool := Crossover.apply counterRng (Individual.chromOps Nat (.num 0)) (1 / 2) 9 .singlePoint pool
  mutate _ i := applyMutation (Individual.chromOps Nat (.num 0)) (Mutation.run counterRng .identity) i
  replace _ pop children := Replacement.apply (Individual.trait (List Nat) Int) true .weakParent pop children
  requiresChildrenFitness := Replacement.requiresChildrenFitness .weakParent
  elapsed := pure 0

/-- The two chromosomes agree at some locus. -/
def ShareGene (a b : List Nat) : Prop := ∃ i : Nat, i < a.length ∧ a[i]? = b[i]?

/-- **C70, defect.** "At indices `i`, `i + 1` of `population` there are the parents of children `i`, `i + 1`" (documentation
of the replacement operators) fails for a GA made of shipped operators: here the first two children handed to WeakParent
agree with neither of the first two members of `population` at any locus, although nothing mutates; they are children of
the third and fourth member. -/
theorem C70_families_are_not_aligned : ∃ best tr w',
    run (Individual.trait (List Nat) Int) familyOps ⟨4, 1, 100⟩ (initialMetrics ⟨4, 1, 100⟩) 2 = .ok ((best, tr), w') ∧
    ∃ a b c d x y u v, Ev.replaceCall [a, b, c, d] [x, y, u, v] ∈ tr ∧
      ¬ ShareGene x.chromosome a.chromosome ∧ ¬ ShareGene x.chromosome b.chromosome ∧
      ¬ ShareGene y.chromosome a.chromosome ∧ ¬ ShareGene y.chromosome b.chromosome := by
  have val : (match run (Individual.trait (List Nat) Int) familyOps ⟨4, 1, 100⟩ (initialMetrics ⟨4, 1, 100⟩) 2 with
      | .ok v => decide (Ev.replaceCall [⟨[1, 1, 1], .num 3⟩, ⟨[2, 2, 2], .num 6⟩, ⟨[3, 3, 3], .num 9⟩, ⟨[4, 4, 4], .num 12⟩]
          [⟨[3, 3, 4], .num 10⟩, ⟨[4, 4, 3], .num 11⟩, ⟨[2, 2, 2], .num 6⟩, ⟨[1, 1, 1], .num 3⟩] ∈ v.1.2)
      | .error _ => false) = true := by decide +kernel
  split at val
  case h_2 => cases val
  case h_1 v hv =>
  obtain ⟨⟨best, tr⟩, w'⟩ := v
  refine ⟨best, tr, w', hv, _, _, _, _, _, _, _, _, of_decide_eq_true val, ?_⟩
  unfold ShareGene
  refine ⟨?_, ?_, ?_, ?_⟩ <;> decide

/-! ## C111: reproducibility of seeded operators -/

/-- The same generator for the calls made on `self.rng`, another `rand::thread_rng()`. -/
def Rng.SameSeed {G U : Type} [LinearOrder U] [Zero U] [One U] (R R' : Rng G U) : Prop :=
  ∃ t ht, R' = { R with threadBelow := t, threadBelow_spec := ht }

section
variable {G U I A : Type} [LinearOrder U] [Zero U] [One U] {R R' : Rng G U} (X : ChromOps I A)

/-- **C111, crossover.** The children of every shipped crossover operator are determined by the generator it was built with:
they do not depend on `rand::thread_rng()`. -/
theorem C111_crossover_reproducible [DecidableEq A] (h : Rng.SameSeed R R') (half : U) (fuel : Nat) (cr : Crossover U)
    (pool : List I) : cr.apply R X half fuel pool = cr.apply R' X half fuel pool := by
  obtain ⟨t, ht, rfl⟩ := h
  cases cr <;> rfl

private theorem flipBitGo_sameSeed (h : Rng.SameSeed R R') (rate : U) : ∀ (n i : Nat) (c : List Bool),
    flipBitGo R rate i n c = flipBitGo R' rate i n c
  | 0, _, _ => rfl
  | n + 1, i, c => by
    unfold flipBitGo
    have e : R.genUnit = R'.genUnit := by obtain ⟨t, ht, rfl⟩ := h; rfl
    simp only [e, flipBitGo_sameSeed h rate n]

/-- **C111, mutation.** So are the results of Identity, Reversing, Inversion and FlipBit. -/
theorem C111_mutation_reproducible (h : Rng.SameSeed R R') (rate : U) (i : I) :
    applyMutation X (Mutation.run R (.identity)) i = applyMutation X (Mutation.run R' .identity) i ∧
    applyMutation X (Mutation.run R (.reversing rate)) i = applyMutation X (Mutation.run R' (.reversing rate)) i ∧
    applyMutation X (Mutation.run R (.inversion rate)) i = applyMutation X (Mutation.run R' (.inversion rate)) i ∧
    ∀ (XB : ChromOps I Bool), applyMutation XB (flipBit R rate) i = applyMutation XB (flipBit R' rate) i := by
  have hf : flipBit R rate = flipBit R' rate := by
    funext c; exact flipBitGo_sameSeed h rate _ _ _
  obtain ⟨t, ht, rfl⟩ := h
  exact ⟨rfl, rfl, rfl, fun _ => by rw [hf]⟩

/-- **C111, population generators.** BitStrings and RandomPermutations. -/
theorem C111_discrete_population_reproducible (h : Rng.SameSeed R R') (XB : ChromOps I Bool) (dim count : Nat)
    (genes : List A) : bitStringsGenerate R XB dim count = bitStringsGenerate R' XB dim count ∧
      permutationsGenerate R X genes count = permutationsGenerate R' X genes count := by
  obtain ⟨t, ht, rfl⟩ := h
  exact ⟨rfl, rfl⟩

end

section
variable {G K I C F : Type} [Field K] [LinearOrder K] [IsStrictOrderedRing K] [FloorSemiring K] [LinearOrder F]

/-- The same generator, another `rand::thread_rng()`, for operators that also draw reals. -/
def FRng.SameSeed (R R' : FRng G K) : Prop :=
  ∃ t ht, R' = { R with threadBelow := t, threadBelow_spec := ht }

/-- **C111, selection** and RandomPoints. -/
theorem C111_selection_reproducible {R R' : FRng G K} (h : FRng.SameSeed R R') (T : IndTrait I C F) (fit : I → K)
    (fuel count : Nat) (sel : Selection K I) (m : Metrics) (pop : List I) (X : ChromOps I K) (rp : RandomPoints K) :
    sel.apply R T fit fuel count m pop = sel.apply R' T fit fuel count m pop ∧
    rp.generate R.toRng X count = rp.generate R'.toRng X count := by
  obtain ⟨t, ht, rfl⟩ := h
  exact ⟨by cases sel <;> rfl, rfl⟩

/-- **C111, whole runs.** A GA on permutations made of shipped operators other than Interchange, each given its own
generator, is reproducible: same initial generator states and same clock, same result, callbacks and final states. -/
theorem C111_run_reproducible {W A : Type} [DecidableEq A] {R R' : FRng G K} (h : FRng.SameSeed R R')
    (T : IndTrait I C F) (X : ChromOps I A) (S : Slots W G) (f : C → Fl F) (fit : I → K) (half : K) (fuel count : Nat)
    (genes : List A) (sel : Selection K I) (cr : Crossover K) (mu : Mutation K) (hmu : ∀ rate, mu ≠ .interchange rate)
    (re : Replacement) (debug : Bool) (elapsed : M W Nat) (p : GAParams) (m0 : Metrics) (w : W) :
    run T (permOps R T X S f fit half fuel count genes sel cr mu re debug elapsed) p m0 w =
      run T (permOps R' T X S f fit half fuel count genes sel cr mu re debug elapsed) p m0 w := by
  have e : permOps R T X S f fit half fuel count genes sel cr mu re debug elapsed =
      permOps R' T X S f fit half fuel count genes sel cr mu re debug elapsed := by
    obtain ⟨t, ht, rfl⟩ := h
    cases mu with
    | interchange rate => exact absurd rfl (hmu rate)
    | _ => cases sel <;> cases cr <;> rfl
  rw [e]

end

/-- The counter generator with a different `thread_rng`. -/
def otherThread : Rng Nat ℚ :=
  { counterRng with
    threadBelow := fun g _ hi => (hi - 1, g)
    threadBelow_spec := fun _ _ _ h => by simp only; omega }

/-- **C111, defect.** Interchange draws the exchanged position from `rand::thread_rng()` although it was built with a
generator: the same generator state and the same chromosome can give different results. -/
theorem C111_interchange_not_reproducible : Rng.SameSeed counterRng otherThread ∧
    ∃ a b g g', interchange counterRng (1 / 2) [10, 20, 30] 1 = .ok (a, g) ∧
      interchange otherThread (1 / 2) [10, 20, 30] 1 = .ok (b, g') ∧ a ≠ b := by
  have h1 : interchange counterRng (1 / 2) [10, 20, 30] 1 = .ok ([20, 10, 30], 6) := by decide +kernel
  have h2 : interchange otherThread (1 / 2) [10, 20, 30] 1 = .ok ([10, 30, 20], 4) := by decide +kernel
  exact ⟨⟨_, _, rfl⟩, _, _, _, _, h1, h2, by decide⟩

/-! ## C113: the log of StdoutProbe -/

section
variable {W I C K : Type} [LinearOrder K] (T : IndTrait I C K) (ops : Ops W I K) (p : GAParams)

/-- Kind and generation number of a log line; `START` lines carry no generation. -/
def LogLine.kind : LogLine C K → Cb × Option Nat
  | .start => (.start, none)
  | .newBest _ g _ _ => (.newBest, some g)
  | .bestInGen _ g _ _ => (.bestFit, some g)
  | .fin _ g _ _ => (.fin, some g)

/-- The `NEW_BEST` lines' chromosome and fitness. -/
def loggedBests (log : List (LogLine C K)) : List (C × Fl K) :=
  log.filterMap fun | .newBest _ _ c f => some (c, f) | _ => none

private def lineOf : Ev I → List (LogLine C K)
  | .onStart _ => [.start]
  | .onNewBest m i => [.newBest (m.totalDur.getD 0 / 1000000) m.generation (T.chromosome i) (T.fitness i)]
  | .onBestFit m i => [.bestInGen (m.totalDur.getD 0 / 1000000) m.generation (T.chromosome i) (T.fitness i)]
  | .onEnd m _ best => [.fin (m.totalDur.getD 0 / 1000000) m.generation (T.chromosome best) (T.fitness best)]
  | _ => []

omit [LinearOrder K] in
private theorem stdout_step {e : Ev I} (h : HasTime e) (log : List (LogLine C K)) :
    stdoutProbe T e log = .ok ((), log ++ lineOf T e) := by
  cases e with
  | onStart m => rfl
  | onNewBest m i => rfl
  | onBestFit m i =>
    obtain ⟨d, hd⟩ := Option.isSome_iff_exists.1 h
    show ((unwrapMillis m : M (List (LogLine C K)) Nat) >>= _) log =
      .ok ((), log ++ [.bestInGen (m.totalDur.getD 0 / 1000000) m.generation (T.chromosome i) (T.fitness i)])
    unfold unwrapMillis
    rw [hd]; rfl
  | onEnd m pop i =>
    obtain ⟨d, hd⟩ := Option.isSome_iff_exists.1 h
    show ((unwrapMillis m : M (List (LogLine C K)) Nat) >>= _) log =
      .ok ((), log ++ [.fin (m.totalDur.getD 0 / 1000000) m.generation (T.chromosome i) (T.fitness i)])
    unfold unwrapMillis
    rw [hd]; rfl
  | _ => simp [stdoutProbe, lineOf]

omit [LinearOrder K] in
private theorem stdout_feed : ∀ (tr : List (Ev I)), (∀ e ∈ tr, HasTime e) → ∀ log : List (LogLine C K),
    feed (stdoutProbe T) (callbacks tr) log = .ok ((), log ++ tr.flatMap (lineOf T))
  | [], _, log => by simp [callbacks, feed]
  | e :: tr, h, log => by
    have ih := stdout_feed tr (fun x hx => h x (List.mem_cons_of_mem _ hx)) (log ++ lineOf T e)
    have hs := stdout_step T (h e List.mem_cons_self) log
    rw [List.flatMap_cons, ← List.append_assoc, ← ih]
    by_cases hc : e.isCallback = true
    · rw [show callbacks (e :: tr) = e :: callbacks tr by simp [callbacks, hc]]
      show (stdoutProbe T e >>= fun _ => feed (stdoutProbe T) (callbacks tr)) log = _
      rw [M.bind_of_ok hs]
    · rw [show callbacks (e :: tr) = callbacks tr by simp [callbacks, hc]]
      have : lineOf (C := C) T e = [] := by
        cases e <;> first | rfl | (exfalso; exact hc rfl)
      rw [this, List.append_nil]

/-- **C113.** Fed with the callbacks of any completed run, StdoutProbe does not panic and appends to the log: a START line,
a NEW_BEST line, for each generation in order a BEST_IN_GEN line with its number followed by a NEW_BEST line exactly when the
solver reported a new best, and one END line.  The NEW_BEST lines have strictly decreasing fitness and show exactly the
individuals reported to `on_new_best`; the last of them and the END line show the individual returned by `run`. -/
theorem C113_stdout_log {m0 : Metrics} {best : I} {tr : List (Ev I)} {w w' : W}
    (h : run T ops p m0 w = .ok ((best, tr), w')) (log : List (LogLine C K)) :
    ∃ out, feed (stdoutProbe T) (callbacks tr) log = .ok ((), log ++ out) ∧
      (∃ flags : List Bool, flags.length ≤ p.generationLimit ∧
        out.map LogLine.kind = [(.start, none), (.newBest, some m0.generation)] ++
          flags.zipIdx.flatMap (fun x => (.bestFit, some (x.2 + 1)) :: if x.1 then [(.newBest, some (x.2 + 1))] else []) ++
          [(.fin, some (if flags = [] then m0.generation else flags.length))]) ∧
      loggedBests out = (newBests tr).map (fun i => (T.chromosome i, T.fitness i)) ∧
      (loggedBests out).Pairwise (fun a b => Fl.Lt b.2 a.2) ∧
      (loggedBests out).getLast? = some (T.chromosome best, T.fitness best) ∧
      ∃ t g, out.getLast? = some (.fin t g (T.chromosome best) (T.fitness best)) := by
  have ht := C109_time_and_size T ops p h
  obtain ⟨flags, hf, hg⟩ := C109_generation_numbers T ops p h
  obtain ⟨hdec, hlast⟩ := C02_new_best_strictly_improves T ops p h
  have hb : loggedBests (tr.flatMap (lineOf T)) = (newBests tr).map (fun i => (T.chromosome i, T.fitness i)) := by
    clear h ht hg hdec hlast
    induction tr with
    | nil => rfl
    | cons e tr ih =>
      rw [List.flatMap_cons]
      simp only [loggedBests, newBests, List.filterMap_append] at ih ⊢
      rw [ih]
      cases e <;> simp [lineOf]
  refine ⟨tr.flatMap (lineOf T), stdout_feed T tr (fun e he => (ht e he).1) log, ⟨flags, hf, ?_⟩, hb, ?_, ?_, ?_⟩
  · have hk : (tr.flatMap (lineOf T)).map LogLine.kind = (callbackGens tr).flatMap fun x =>
        match x.1 with
        | .start => [(.start, none)]
        | .newBest => [(.newBest, some x.2)]
        | .bestFit => [(.bestFit, some x.2)]
        | .fin => [(.fin, some x.2)]
        | _ => [] := by
      clear h ht hg hdec hlast hb
      induction tr with
      | nil => rfl
      | cons e tr ih =>
        rw [List.flatMap_cons, List.map_append, ih]
        cases e <;> simp [lineOf, callbackGens, LogLine.kind]
    rw [hk, hg, List.flatMap_append, List.flatMap_append, List.flatMap_assoc]
    congr 1
    congr 1
    congr 1
    funext x
    cases x.1 <;> simp
  · rw [hb]
    exact List.pairwise_map.2 hdec
  · rw [hb, List.getLast?_map, hlast]; rfl
  · obtain ⟨s, wa, s', wb, d, h1, h2, h3, h4, h5⟩ := run_ok T ops p h
    rw [h5, List.flatMap_append]
    simp [lineOf, h4]

end

section
variable {W I C K : Type} [LinearOrder K] (T : IndTrait I C K) (ops : Ops W I K) (p : GAParams)

/-- **C113, behind a policy.** Whatever part of the callbacks of a completed run a probing policy lets through, StdoutProbe
does not panic on it and only appends to the log. -/
theorem C113_stdout_behind_policy {m0 : Metrics} {best : I} {tr : List (Ev I)} {w w' : W}
    (h : run T ops p m0 w = .ok ((best, tr), w')) {es : List (Ev I)} (hes : es.Sublist (callbacks tr))
    (log : List (LogLine C K)) : ∃ out, feed (stdoutProbe T) es log = .ok ((), log ++ out) := by
  have ht := C109_time_and_size T ops p h
  have hc : callbacks es = es := by
    refine List.filter_eq_self.2 fun e he => ?_
    exact (List.mem_filter.1 (hes.subset he)).2
  have := stdout_feed T es (fun e he => (ht e (List.mem_filter.1 (hes.subset he)).1).1) log
  rw [hc] at this
  exact ⟨_, this⟩

end

/-- Hypotheses of C113, C118 and C70 on a concrete run; the log it produces has seven lines. -/
example : ∃ best tr w', run (Individual.trait Int Int) exampleOps ⟨2, 3, 100⟩ (initialMetrics ⟨2, 3, 100⟩) 0
      = .ok ((best, tr), w') ∧
    ∃ log : List (LogLine Int Int), feed (stdoutProbe (Individual.trait Int Int)) (callbacks tr) [] = .ok ((), log) ∧
      log.length = 7 := by
  have val : (match run (Individual.trait Int Int) exampleOps ⟨2, 3, 100⟩ (initialMetrics ⟨2, 3, 100⟩) 0 with
      | .ok v => (match feed (stdoutProbe (Individual.trait Int Int)) (callbacks v.1.2) [] with
        | .ok l => l.2.length == 7
        | .error _ => false)
      | .error _ => false) = true := by decide +kernel
  split at val
  case h_2 => cases val
  case h_1 v hv =>
  split at val
  case h_2 => cases val
  case h_1 l hl =>
  exact ⟨v.1.1, v.1.2, v.2, hv, l.2, hl, beq_iff_eq.1 val⟩

/-! ## Every theorem on a concrete case: the runs of the examples above -/

section instances
example {best : Individual Int Int} {tr : List (Ev (Individual Int Int))} {w' : Nat}
    (h : run (Individual.trait Int Int) exampleOps ⟨2, 3, 100⟩ (initialMetrics ⟨2, 3, 100⟩) 0 = .ok ((best, tr), w')) :=
  C118_best_of_generation _ _ _ h
example {best : Individual Int Int} {tr : List (Ev (Individual Int Int))} {w' : Nat × Nat}
    (hc : CountsEvaluations (Individual.trait Int Int) countingOps fun w => w.2)
    (h : run (Individual.trait Int Int) countingOps ⟨2, 3, 100⟩ (initialMetrics ⟨2, 3, 100⟩) (0, 0) = .ok ((best, tr), w')) :=
  C110_evaluation_count _ _ _ hc (fun w r w' h => by cases h; rfl) h
end instances

end Ecrs.Ga
