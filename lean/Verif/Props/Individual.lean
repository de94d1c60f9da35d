import Verif.Ga.Individual
import Verif.Ga.SolverLemmas
import Mathlib.Algebra.Order.Ring.Rat
import Mathlib.Data.List.Rotate

/-!
# Property C159: equality and order of individuals
-/

set_option linter.unusedSectionVars false

namespace Ecrs.Props
open Ecrs Ecrs.Ga

section
variable {C K : Type} [LinearOrder K]

theorem eqFl_iff {a b : Fl K} : eqFl a b = true ↔ ∃ v, a = .num v ∧ b = .num v := by
  cases a <;> cases b <;> simp [eqFl, eq_comm]

/-- **C159, what equality means.** Two individuals are `==` exactly if both fitness values are the same number; the chromosomes play no role. -/
theorem C159_equality (a b : Individual C K) : a.eq b = true ↔ ∃ v, a.fitness = .num v ∧ b.fitness = .num v := eqFl_iff

/-- **C159, equality as a relation.** `==` is symmetric and transitive; it is reflexive exactly for individuals whose fitness is not NaN (`Eq`
promises reflexivity for all). -/
theorem C159_relation (a b c : Individual C K) : (a.eq b = true → b.eq a = true) ∧ (a.eq b = true → b.eq c = true → a.eq c = true) ∧
    (a.eq a = true ↔ a.fitness ≠ .nan) := by
  simp only [C159_equality]
  refine ⟨fun ⟨v, h1, h2⟩ => ⟨v, h2, h1⟩, fun ⟨v, h1, h2⟩ ⟨u, h3, h4⟩ => ?_, ?_⟩
  · rw [h2] at h3
    cases h3
    exact ⟨v, h1, h4⟩
  · cases h : a.fitness <;> simp

/-- **C159, order.** `cmp` panics exactly if a fitness value is NaN (even when an individual is compared with itself); otherwise it is the
comparison of the numbers, agrees with `==`, and swapping the arguments swaps the result. -/
theorem C159_order (a b : Individual C K) : (a.cmp b = .error .nanCompare ↔ a.fitness = .nan ∨ b.fitness = .nan) ∧
    (∀ u v, a.fitness = .num u → b.fitness = .num v → a.cmp b = .ok (compare u v)) ∧ (a.cmp b = .ok .eq ↔ a.eq b = true) ∧
    ∀ o, a.cmp b = .ok o → b.cmp a = .ok o.swap := by
  obtain ⟨ca, fa⟩ := a
  obtain ⟨cb, fb⟩ := b
  cases fa <;> cases fb <;>
    simp [Individual.cmp, Individual.partialCmp, Fl.partialCmp, Individual.eq, eqFl]
  exact Std.OrientedCmp.eq_swap

/-- **C159, transitivity of the order.** -/
theorem C159_order_trans (a b c : Individual C K) (h1 : a.cmp b = .ok .lt) (h2 : b.cmp c = .ok .lt) : a.cmp c = .ok .lt := by
  obtain ⟨ca, fa⟩ := a
  obtain ⟨cb, fb⟩ := b
  obtain ⟨cc, fc⟩ := c
  cases fa <;> cases fb <;> cases fc <;>
    simp_all [Individual.cmp, Individual.partialCmp, Fl.partialCmp, compare_lt_iff_lt]
  exact lt_trans h1 h2

/-- **C159, new individuals are all equal.** Individuals just made from chromosomes are equal whatever the chromosomes, and two populations of
them are equal exactly if they have the same size. -/
theorem C159_fresh_equal (lowest : K) (c d : C) (cs ds : List C) :
    (Individual.ofChromosome lowest c).eq (Individual.ofChromosome lowest d) = true ∧
    (Individual.eqAll (cs.map (Individual.ofChromosome lowest)) (ds.map (Individual.ofChromosome lowest)) = true ↔ cs.length = ds.length) := by
  refine ⟨by simp [Individual.eq, Individual.ofChromosome, eqFl], ?_⟩
  induction cs generalizing ds with
  | nil => cases ds <;> simp [Individual.eqAll]
  | cons c cs ih =>
    cases ds with
    | nil => simp [Individual.eqAll]
    | cons d ds =>
      simp only [List.map_cons, Individual.eqAll, Bool.and_eq_true, ih, List.length_cons, Nat.add_right_cancel_iff]
      simp [Individual.eq, Individual.ofChromosome, eqFl]

/-- **C159, new individuals count as best.** The solver takes the lowest fitness for the best; an individual that was never evaluated has the
lowest number there is. In a population without NaN in which some individual was just made from a chromosome, the individual found best has
this lowest value; if all others are higher, it is the one never evaluated. -/
theorem C159_fresh_is_best {lowest : K} (hlow : ∀ v : K, lowest ≤ v) {pop : List (Individual C K)} {c : C}
    (hc : Individual.ofChromosome lowest c ∈ pop) (hn : ∀ i ∈ pop, i.fitness ≠ .nan) :
    ∃ b, findBest (Individual.trait C K) pop = .ok b ∧ b.fitness = .num lowest ∧
      ((∀ i ∈ pop, i ≠ Individual.ofChromosome lowest c → i.fitness ≠ .num lowest) → b = Individual.ofChromosome lowest c) := by
  have hnum : ∀ i ∈ pop, ((Individual.trait C K).fitness i).IsNum := by
    intro i hi
    have := hn i hi
    show i.fitness.IsNum
    cases h : i.fitness with
    | nan => exact absurd h this
    | num v => trivial
  obtain ⟨b, hb⟩ := findBest_ok (Individual.trait C K) (List.ne_nil_of_mem hc) hnum
  have hle := findBest_le _ hb (.inr hnum) _ hc
  have hmem := findBest_mem _ hb
  have hf : b.fitness = .num lowest := by
    have hle' : Fl.Le b.fitness (.num lowest) := hle
    cases h : b.fitness with
    | nan => exact absurd h (hn b hmem)
    | num v =>
      rw [h] at hle'
      rw [le_antisymm hle' (hlow v)]
  refine ⟨b, hb, hf, fun h => ?_⟩
  by_contra hne
  exact h b hmem hne hf

/-- **C159, the two ways to create an individual.** `Individual::new()` (fitness `0.0`) is worse than any individual made from a chromosome. -/
theorem C159_new_is_worse {lowest zero : K} (h : lowest < zero) (c d : C) :
    (Individual.new d zero).cmp (Individual.ofChromosome lowest c) = .ok .gt := by
  simp only [Individual.cmp, Individual.partialCmp, Individual.new, Individual.ofChromosome, Fl.partialCmp]
  rw [compare_gt_iff_gt.2 h]

end

/-! ## The job shop example and the ants -/

/-- **C159, job shop.** The individuals of the job shop example compare by fitness as well, never panic, and a new one (fitness `usize::MAX`)
is worst: no individual is greater. -/
theorem C159_jssp {X : Type} (usizeMax : Nat) (a b : Jssp.Individual X) (c : List X) (ha : a.fitness ≤ usizeMax) :
    (a.eq b = true ↔ a.fitness = b.fitness) ∧ (a.cmp b = .eq ↔ a.eq b = true) ∧ a.cmp (Jssp.Individual.ofChromosome usizeMax c) ≠ .gt := by
  refine ⟨by simp [Jssp.Individual.eq], by simp [Jssp.Individual.eq, Jssp.Individual.cmp], ?_⟩
  unfold Jssp.Individual.cmp Jssp.Individual.ofChromosome
  rw [Ne, compare_gt_iff_gt]
  exact not_lt.2 ha

/-- **C159, ant solutions.** Solutions are equal if both the fitness values are the same number and the vertex lists are the same; the same
tour started from another vertex is a different solution. -/
theorem C159_solution {K : Type} [LinearOrder K] (a b : Aco.Sol (Fl K)) :
    (a.eq b = true ↔ a.path = b.path ∧ ∃ v, a.fitness = .num v ∧ b.fitness = .num v) ∧
    (∀ k, k % a.path.length ≠ 0 → a.path ≠ [] → a.path.Nodup → Aco.Sol.eq a ⟨a.path.rotate k, a.fitness⟩ = false) := by
  refine ⟨by simp [Aco.Sol.eq, eqFl_iff, and_comm], fun k hk hl hn => ?_⟩
  simp only [Aco.Sol.eq, Bool.and_eq_false_iff, decide_eq_false_iff_not]
  refine .inr fun h => ?_
  rcases (hn.rotate_eq_self_iff (n := k)).1 h.symm with h | h
  · exact hk h
  · rw [h] at hk; exact hl h

/-! ## Examples -/

section examples
/-- Different chromosomes, same fitness: equal. -/
example : Individual.eq (⟨[1, 2], .num 3⟩ : Individual (List Nat) ℚ) ⟨[7], .num 3⟩ = true := by decide
example := C159_relation (⟨[1], .nan⟩ : Individual (List Nat) ℚ) ⟨[2], .num 1⟩ ⟨[3], .num 1⟩
example := C159_order (⟨[1], .num 2⟩ : Individual (List Nat) ℚ) ⟨[2], .num 1⟩
example := C159_order_trans (⟨[1], .num 1⟩ : Individual (List Nat) ℚ) ⟨[2], .num 2⟩ ⟨[3], .num 3⟩ (by decide) (by decide)
example := C159_fresh_equal (-1000 : ℚ) [1, 2] [3] [[1], [2]] [[5], [6], [7]]
/-- Fitness values as natural numbers (lowest 0): two evaluated individuals and one that is not. -/
example := C159_fresh_is_best (lowest := (0 : Nat)) Nat.zero_le
  (pop := [⟨[1], .num 5⟩, Individual.ofChromosome 0 [2], ⟨[3], .num 7⟩]) (c := [2]) (by simp) (by simp [Individual.ofChromosome])
example := C159_new_is_worse (lowest := (-1000 : ℚ)) (zero := 0) (by decide) [1] ([] : List Nat)
example := C159_jssp 1000 (⟨[1], .ofList [], ⟨0, Jssp.Machine.new⟩, 55, true, false⟩ : Jssp.Individual Nat) (.ofChromosome 1000 [2]) [3] (by decide)
example : Aco.Sol.eq (⟨[0, 1, 2], .num 3⟩ : Aco.Sol (Fl ℚ)) ⟨[1, 2, 0], .num 3⟩ = false :=
  (C159_solution ⟨[0, 1, 2], .num 3⟩ ⟨[], .nan⟩).2 1 (by decide) (by decide) (by decide)
end examples

end Ecrs.Props
