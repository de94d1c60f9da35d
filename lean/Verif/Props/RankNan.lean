import Verif.Props.ProbSelection

/-!
# C133: Rank selection when fitness values may be NaN
-/

set_option linter.unusedSectionVars false

namespace Ecrs.Props
open Ecrs Ecrs.Ga MeasureTheory
open scoped ENNReal

section
variable {G I C K : Type} [MeasurableSpace G] {R : Rng G ℝ} {μ : Measure G}

theorem ge_iff_le [LinearOrder K] (a b : Fl K) : Fl.ge a b = true ↔ Fl.Le b a := by
  cases a <;> cases b <;> simp [Fl.ge, Fl.Le]

open Classical in
/-- **C133, Rank, any fitness.** Every slot is, independently, the member `x` with probability `count x · (A + B) / n²`, where `A` members
have a fitness comparably not above that of `x` and `B` members have one not comparably above or equal (NaN compares with nothing). -/
theorem C133_rank_any_fitness [LinearOrder K] (hR : Ideal R μ) (T : IndTrait I C K) {pop : List I} (hp : pop ≠ [])
    {xs : List I} {count : Nat} (hx : xs.length = count) :
    chance μ (selRank R T count pop) (· = xs) = (xs.map fun x => (pop.count x : ℝ≥0∞) *
      ((pop.countP fun y => decide (Fl.Le (T.fitness y) (T.fitness x))) + (pop.countP fun y => decide (¬ Fl.Le (T.fitness x) (T.fitness y)))) /
        pop.length ^ 2).prod := by
  have := hR.isProbability
  have hl := member_law hR hp
  have h1 := hl.bind (f := fun p1 => (R.genRange 0 pop.length >>= idx pop) >>= fun p2 =>
      Pure.pure (if Fl.ge (T.fitness p1) (T.fitness p2) then p1 else p2)) fun a _ =>
        hl.map fun p2 => if Fl.ge (T.fitness a) (T.fitness p2) then a else p2
  have e : rankOne R T pop = (R.genRange 0 pop.length >>= idx pop) >>= fun p1 => (R.genRange 0 pop.length >>= idx pop) >>= fun p2 =>
      Pure.pure (if Fl.ge (T.fitness p1) (T.fitness p2) then p1 else p2) := by
    unfold rankOne
    simp only [bind_assoc]
  unfold selRank
  rw [e, (h1.replicate count).chance_eq, if_pos hx]
  congr 1
  refine List.map_congr_left fun x _ => ?_
  have inner : ∀ a ∈ pop, (∑' b, if (if Fl.ge (T.fitness a) (T.fitness b) then a else b) = x then (pop.count b : ℝ≥0∞) / pop.length else 0) =
      ((if a = x then ((pop.countP fun y => decide (Fl.Le (T.fitness y) (T.fitness x)) : ℕ) : ℝ≥0∞) else 0) +
        (if ¬ Fl.Le (T.fitness x) (T.fitness a) then (pop.count x : ℝ≥0∞) else 0)) / pop.length := by
    intro a ha
    have : ∀ b, (if (if Fl.ge (T.fitness a) (T.fitness b) then a else b) = x then (pop.count b : ℝ≥0∞) / pop.length else 0) =
        (pop.count b : ℝ≥0∞) / pop.length * (if (if Fl.ge (T.fitness a) (T.fitness b) then a else b) = x then 1 else 0) := by
      intro b; split <;> simp
    simp only [this]
    rw [tsum_member]
    congr 1
    have h2 : pop.map (fun b => if (if Fl.ge (T.fitness a) (T.fitness b) then a else b) = x then (1 : ℝ≥0∞) else 0) =
        pop.map (fun b => (if a = x ∧ Fl.Le (T.fitness b) (T.fitness x) then 1 else 0) +
          (if b = x then (if ¬ Fl.Le (T.fitness x) (T.fitness a) then 1 else 0) else 0)) := by
      refine List.map_congr_left fun b hb => ?_
      simp only [ge_iff_le]
      by_cases hab : Fl.Le (T.fitness b) (T.fitness a)
      · rw [if_pos hab]
        by_cases hax : a = x
        · subst hax
          by_cases hbx : b = a
          · subst hbx; simp [hab]
          · simp [hab, hbx]
        · rw [if_neg hax, if_neg (by tauto)]
          by_cases hbx : b = x
          · subst hbx; simp [hab]
          · simp [hbx]
      · rw [if_neg hab]
        by_cases hbx : b = x
        · subst hbx
          by_cases hax : a = b
          · subst hax; simp [hab]
          · simp [hab, hax]
        · rw [if_neg hbx, if_neg hbx]
          by_cases hax : a = x
          · subst hax; simp [hab]
          · simp [hax]
    rw [h2, List.sum_map_add, sum_map_ite]
    congr 1
    · by_cases hax : a = x
      · simp only [hax, true_and, if_true]
        rw [sum_map_countP, mul_one]
      · simp [hax]
    · by_cases hc : Fl.Le (T.fitness x) (T.fitness a) <;> simp [hc]
  have hc : (pop.map fun a => if ¬ Fl.Le (T.fitness x) (T.fitness a) then (pop.count x : ℝ≥0∞) else 0).sum =
      ((pop.countP fun y => decide (¬ Fl.Le (T.fitness x) (T.fitness y)) : ℕ) : ℝ≥0∞) * pop.count x := sum_map_countP ..
  rw [tsum_member, List.map_congr_left inner, sum_map_div, List.sum_map_add, sum_map_ite, hc,
    div_div_ennreal, mul_comm (List.countP (fun y => decide (¬ Fl.Le _ _)) _ : ℝ≥0∞) (List.count _ _ : ℝ≥0∞), ← mul_add, sq]

open Classical in
/-- **C133, Rank, NaN.** A member with a NaN fitness is selected, in each slot, with probability 1/n — as by pure chance, however good or bad
the others are — unlike a number, whose chance depends on its rank. -/
theorem C133_rank_nan [LinearOrder K] (hR : Ideal R μ) (T : IndTrait I C K) {pop : List I} (hp : pop ≠ []) {x : I} (hx : T.fitness x = .nan) :
    chance μ (selRank R T 1 pop) (· = [x]) = (pop.count x : ℝ≥0∞) / pop.length := by
  have h0 : (pop.length : ℝ≥0∞) ≠ 0 := by
    have := List.length_pos_iff.2 hp
    exact_mod_cast this.ne'
  rw [C133_rank_any_fitness hR T hp (xs := [x]) (count := 1) rfl, List.map_singleton, List.prod_singleton, hx]
  have h1 : (pop.countP fun y => decide (Fl.Le (T.fitness y) (.nan : Fl K))) = 0 := by
    rw [List.countP_eq_zero]
    intro y _
    have : ¬ Fl.Le (T.fitness y) (.nan : Fl K) := by cases T.fitness y <;> exact id
    simpa using this
  have h2 : (pop.countP fun y => decide (¬ Fl.Le (.nan : Fl K) (T.fitness y))) = pop.length := by
    rw [List.countP_eq_length]
    intro y _
    have : ¬ Fl.Le (.nan : Fl K) (T.fitness y) := by cases T.fitness y <;> exact id
    simpa using this
  rw [h1, h2, Nat.cast_zero, zero_add, sq, ENNReal.mul_div_mul_right _ _ h0 (ENNReal.natCast_ne_top _)]

end

/-- A case: of two members with fitness NaN and 5, each wins half of the slots. -/
example : chance tapeLaw (selRank tapeRng (Individual.trait Nat ℚ) 1 [⟨1, .nan⟩, ⟨2, .num 5⟩]) (· = [⟨1, .nan⟩]) = 1 / 2 := by
  rw [C133_rank_nan tapeRng_ideal (Individual.trait Nat ℚ) (by simp) (x := ⟨1, .nan⟩) rfl]
  simp

example := C133_rank_any_fitness tapeRng_ideal (Individual.trait Nat ℚ) (pop := [⟨1, .nan⟩, ⟨2, .num 5⟩]) (by simp)
  (xs := [⟨2, .num 5⟩, ⟨1, .nan⟩]) (count := 2) rfl

end Ecrs.Props
