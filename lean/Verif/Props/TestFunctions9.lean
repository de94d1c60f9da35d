import Verif.Props.TestFunctions8

/-!
# C122, continued: `schaffer_n4`
-/

set_option linter.unusedSectionVars false
set_option linter.unusedVariables false

namespace Ecrs.Props
open Ecrs Ecrs.TF Real

private theorem sin_one_sq : 0.708073 ≤ sin 1 ^ 2 ∧ sin 1 ^ 2 ≤ 0.7080735 := by
  have h := abs_le.1 near_1.sin
  constructor <;> nlinarith [h.1, h.2]

/-- The numerator in terms of `t = sin |u|`: `cos² t - 1/2 = 1/2 - sin² t`. -/
private theorem s4_num (u w : ℝ) (h0 : 0 ≤ u) (hw : w = π / 2 - u) (hw0 : 0 ≤ w) :
    sin (sin u) ^ 2 ≤ sin 1 ^ 2 - 0.1 * w ^ 2 := by
  have hpi := pi_pos
  have hpi2 := pi_lt_d2
  have hpi3 := pi_gt_three
  have hcw : sin u = cos w := by rw [hw, cos_pi_div_two_sub]
  rw [hcw]
  have hq := cos_le_one_sub_mul_cos_sq (x := w) (by rw [abs_of_nonneg hw0]; linarith)
  have hc0 : 0 ≤ cos w := cos_nonneg_of_neg_pi_div_two_le_of_le (by linarith) (by linarith)
  have hc1 := cos_le_one w
  generalize cos w = t at *
  have hfac : sin 1 ^ 2 - sin t ^ 2 = sin (1 + t) * sin (1 - t) := by
    rw [sin_add, sin_sub]
    have h1 := sin_sq_add_cos_sq t
    have h2 := sin_sq_add_cos_sq (1 : ℝ)
    linear_combination (-(sin 1 ^ 2)) * h1 + sin t ^ 2 * h2
  have hs1 : 2 / π * (1 - t) ≤ sin (1 - t) := mul_le_sin (by linarith) (by linarith)
  have hs2 : 0.84 ≤ sin (1 + t) := by
    have n1 := abs_le.1 near_1.sin
    have n2 := abs_le.1 near_1.cos
    rw [sin_add]
    -- `sin (1 + t) = sin 1 cos t + cos 1 sin t` with `cos t ≥ 1 - t²/2`, `sin t ≥ t - t³/6`
    have c1 := one_sub_sq_div_two_le_cos (x := t)
    rcases eq_or_lt_of_le hc0 with h | h
    · rw [← h, cos_zero, sin_zero]; linarith
    · have c2 := (sin_gt_sub_cube h).le
      nlinarith [mul_nonneg hc0 hc0, mul_nonneg hc0 (sub_nonneg.2 hc1),
        mul_nonneg (mul_nonneg hc0 hc0) (sub_nonneg.2 hc1)]
  have h2pi : 0.63 ≤ 2 / π := by rw [le_div_iff₀ hpi]; linarith
  have h2pi2 : 0.2 ≤ 2 / π ^ 2 := by rw [le_div_iff₀ (by positivity)]; nlinarith
  have h1t : 0.2 * w ^ 2 ≤ 1 - t := by nlinarith [sq_nonneg w]
  have hs1' : 0.63 * (1 - t) ≤ sin (1 - t) := by nlinarith
  have : 0.5 * (1 - t) ≤ sin (1 + t) * sin (1 - t) := by nlinarith
  nlinarith

private theorem s4_low (u s : ℝ) (h0 : 0 ≤ u) (hs : u ≤ s) :
    0.292579 - 0.00001 ≤ 0.5 + (cos (sin u) ^ 2 - 0.5) / (1 + 0.001 * s) ^ 2 := by
  have hpi := pi_gt_d4
  have hN : cos (sin u) ^ 2 - 0.5 = 0.5 - sin (sin u) ^ 2 := by
    have := sin_sq_add_cos_sq (sin u)
    linarith
  have hD : 0 < (1 + 0.001 * s) ^ 2 := pow_pos (by linarith) 2
  rw [hN, show (0.292579 - 0.00001 : ℝ) = 0.5 + -0.207431 by norm_num]
  apply add_le_add le_rfl
  rw [le_div_iff₀ hD]
  rcases le_total (π / 2) u with h | h
  · have hmono : sin (sin u) ^ 2 ≤ sin 1 ^ 2 := by
      have hp2 : (1 : ℝ) ≤ π / 2 := by linarith
      rw [← sq_abs (sin (sin u))]
      have h1 := neg_one_le_sin u
      have h2 := sin_le_one u
      apply pow_le_pow_left₀ (abs_nonneg _)
      rw [abs_le]
      constructor
      · rw [← sin_neg]; exact sin_le_sin_of_le_of_le_pi_div_two (by linarith) (by linarith) h1
      · exact sin_le_sin_of_le_of_le_pi_div_two (by linarith) hp2 h2
    have := sin_one_sq.2
    nlinarith
  · have hw := s4_num u (π / 2 - u) h0 rfl (by linarith)
    have := sin_one_sq.2
    have hd : 1 + 0.002 * u ≤ (1 + 0.001 * s) ^ 2 := by nlinarith
    nlinarith [sq_nonneg (π / 2 - u - 0.00208)]

/-- **C122**: `schaffer_n4`, documented minima `f(0, ±1.25313) = f(±1.25313, 0) = 0.292579`, up to
0.00001. -/
theorem C122_schaffer_n4 : ∀ p ∈ [[0, 1.25313], [0, -1.25313], [1.25313, 0], [-1.25313, 0]],
    HasMinimumUpTo 0.00001 (· = 2) schaffer_n4 p 0.292579 := by
  have low : ∀ x1 x2 : ℝ, 0.292579 - 0.00001 ≤
      0.5 + (cos (sin |x1 ^ 2 - x2 ^ 2|) ^ 2 - 0.5) / (1 + 0.001 * (x1 ^ 2 + x2 ^ 2)) ^ 2 := by
    intro x1 x2
    refine s4_low _ _ (abs_nonneg _) ?_
    rw [abs_le]
    constructor <;> nlinarith [sq_nonneg x1, sq_nonneg x2]
  have high : 0.5 + (cos (sin (1.25313 ^ 2)) ^ 2 - 0.5) / (1 + 0.001 * 1.25313 ^ 2) ^ 2
      ≤ 0.292579 + 0.00001 := by
    have hpl := pi_gt_d4
    have hpu := pi_lt_d4
    have e1 : sin (1.25313 ^ 2) = cos (π / 2 - 1.25313 ^ 2) := by rw [cos_pi_div_two_sub]
    have hc := one_sub_sq_div_two_le_cos (x := π / 2 - 1.25313 ^ 2)
    have hc1 := cos_le_one (π / 2 - 1.25313 ^ 2)
    rw [← e1] at hc hc1
    have ht : 1 - 0.0000005 ≤ sin (1.25313 ^ 2) := by nlinarith
    generalize sin (1.25313 ^ 2) = t at *
    have hst : sin 1 - 0.0000005 ≤ sin t := by
      have h := abs_le.1 (abs_sin_sub_sin_le 1 t)
      have h2 : |1 - t| ≤ 0.0000005 := by rw [abs_le]; constructor <;> linarith
      linarith [h.2]
    have n := abs_le.1 near_1.sin
    have hsq : 0.70807 ≤ sin t ^ 2 := by nlinarith
    have hN : cos t ^ 2 - 0.5 = 0.5 - sin t ^ 2 := by
      have := sin_sq_add_cos_sq t
      linarith
    rw [hN, show (0.292579 + 0.00001 : ℝ) = 0.5 + -0.207411 by norm_num]
    apply add_le_add le_rfl
    rw [div_le_iff₀ (by norm_num)]
    norm_num
    linarith
  have point : ∀ a b : ℝ, |a ^ 2 - b ^ 2| = 1.25313 ^ 2 → a ^ 2 + b ^ 2 = 1.25313 ^ 2 →
      HasMinimumUpTo 0.00001 (· = 2) schaffer_n4 [a, b] 0.292579 := by
    intro a b h1 h2
    refine ⟨rfl, ⟨_, rfl, ?_⟩, ?_⟩
    · rw [abs_le]
      constructor
      · have := low a b; linarith
      · rw [h1, h2]; linarith
    · intro x hx
      obtain ⟨x1, x2, rfl⟩ := List.length_eq_two.1 hx
      exact ⟨_, rfl, low x1 x2⟩
  intro p hp
  simp only [List.mem_cons, List.not_mem_nil, or_false] at hp
  rcases hp with rfl | rfl | rfl | rfl <;> apply point
  · rw [abs_of_neg (by norm_num)]; norm_num
  · norm_num
  · rw [abs_of_neg (by norm_num)]; norm_num
  · norm_num
  · rw [abs_of_pos (by norm_num)]; norm_num
  · norm_num
  · rw [abs_of_pos (by norm_num)]; norm_num
  · norm_num

end Ecrs.Props
