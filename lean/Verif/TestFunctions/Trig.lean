import Mathlib.Analysis.SpecialFunctions.Trigonometric.Bounds
import Mathlib.Analysis.Complex.Exponential
import Mathlib.Tactic.LinearCombination
import Mathlib.Tactic.NormNum

/-!
# Numerical enclosures of sine and cosine

`Near x c s e` says that the point `(cos x, sin x)` of the unit circle lies within `e` of `(c, s)`.
The lemmas derive enclosures at rational points from the Taylor series and combine them by the
addition theorem.  Used only in proofs about the benchmark functions.
-/

namespace Ecrs.TF
open Real

/-- `(cos x, sin x)` is within `e` of `(c, s)` in the plane. -/
def Near (x c s e : ℝ) : Prop := ‖Complex.exp (x * Complex.I) - (c + s * Complex.I)‖ ≤ e

theorem Near.cos {x c s e : ℝ} (h : Near x c s e) : |Real.cos x - c| ≤ e := by
  have e1 : (Complex.exp (x * Complex.I) - (c + s * Complex.I)).re = Real.cos x - c := by
    rw [Complex.sub_re, Complex.exp_ofReal_mul_I_re]; simp
  have := Complex.abs_re_le_norm (Complex.exp (x * Complex.I) - (c + s * Complex.I))
  rw [e1] at this
  exact this.trans h

theorem Near.sin {x c s e : ℝ} (h : Near x c s e) : |Real.sin x - s| ≤ e := by
  have e1 : (Complex.exp (x * Complex.I) - (c + s * Complex.I)).im = Real.sin x - s := by
    rw [Complex.sub_im, Complex.exp_ofReal_mul_I_im]; simp
  have := Complex.abs_im_le_norm (Complex.exp (x * Complex.I) - (c + s * Complex.I))
  rw [e1] at this
  exact this.trans h

theorem Near.nonneg {x c s e : ℝ} (h : Near x c s e) : 0 ≤ e := le_trans (norm_nonneg _) h

theorem norm_circle (x : ℝ) : ‖Complex.exp (x * Complex.I)‖ = 1 := Complex.norm_exp_ofReal_mul_I x

/-- The addition theorem. -/
theorem Near.add {x y c s e c' s' e' : ℝ} (h : Near x c s e) (h' : Near y c' s' e') :
    Near (x + y) (c * c' - s * s') (s * c' + c * s') (e' + (1 + e') * e) := by
  have hsum : Complex.exp (((x + y : ℝ) : ℂ) * Complex.I)
      = Complex.exp (x * Complex.I) * Complex.exp (y * Complex.I) := by
    rw [← Complex.exp_add]; congr 1; push_cast; ring
  have hprod : (((c * c' - s * s' : ℝ) : ℂ) + ((s * c' + c * s' : ℝ) : ℂ) * Complex.I)
      = (c + s * Complex.I) * (c' + s' * Complex.I) := by
    push_cast
    linear_combination (-(s : ℂ) * s') * Complex.I_sq
  rw [Near, hsum, hprod]
  have e1 : Complex.exp (x * Complex.I) * Complex.exp (y * Complex.I)
      - (c + s * Complex.I) * (c' + s' * Complex.I)
      = Complex.exp (x * Complex.I) * (Complex.exp (y * Complex.I) - (c' + s' * Complex.I))
        + (c' + s' * Complex.I) * (Complex.exp (x * Complex.I) - (c + s * Complex.I)) := by ring
  rw [e1]
  refine (norm_add_le _ _).trans (add_le_add ?_ ?_)
  · rw [norm_mul, norm_circle, one_mul]; exact h'
  · rw [norm_mul]
    refine mul_le_mul ?_ h (norm_nonneg _) (by linarith [h'.nonneg])
    have := norm_add_le (Complex.exp (y * Complex.I)) (-(Complex.exp (y * Complex.I) - (c' + s' * Complex.I)))
    rw [norm_neg, norm_circle] at this
    have e2 : Complex.exp (y * Complex.I) + -(Complex.exp (y * Complex.I) - (c' + s' * Complex.I))
        = c' + s' * Complex.I := by ring
    rw [e2] at this
    have h'' : ‖Complex.exp (y * Complex.I) - (c' + s' * Complex.I)‖ ≤ e' := h'
    linarith

theorem Near.neg {x c s e : ℝ} (h : Near x c s e) : Near (-x) c (-s) e := by
  have hc : Complex.exp (((-x : ℝ) : ℂ) * Complex.I) - (c + ((-s : ℝ) : ℂ) * Complex.I)
      = (starRingEnd ℂ) (Complex.exp (x * Complex.I) - (c + s * Complex.I)) := by
    rw [map_sub, map_add, map_mul, ← Complex.exp_conj, map_mul, Complex.conj_I, Complex.conj_ofReal,
      Complex.conj_ofReal, Complex.conj_ofReal]
    push_cast
    ring_nf
  rw [Near, hc, RCLike.norm_conj]
  exact h

/-- Rounding the centre. -/
theorem Near.round {x c s e c' s' e' : ℝ} (h : Near x c s e) (hb : |c - c'| + |s - s'| + e ≤ e') :
    Near x c' s' e' := by
  have e1 : Complex.exp (x * Complex.I) - (c' + s' * Complex.I)
      = (Complex.exp (x * Complex.I) - (c + s * Complex.I)) + (((c - c' : ℝ) : ℂ) + ((s - s' : ℝ) : ℂ) * Complex.I) := by
    push_cast; ring
  rw [Near, e1]
  refine (norm_add_le _ _).trans ?_
  have h1 : ‖((c - c' : ℝ) : ℂ) + ((s - s' : ℝ) : ℂ) * Complex.I‖ ≤ |c - c'| + |s - s'| := by
    refine (norm_add_le _ _).trans ?_
    rw [norm_mul, Complex.norm_I, mul_one, Complex.norm_real, Complex.norm_real]
    rfl
  have h2 : ‖Complex.exp (x * Complex.I) - (c + s * Complex.I)‖ ≤ e := h
  linarith

/-- Rounding the centre by at most `d` in each coordinate. -/
theorem Near.round' {x c s e c' s' e' d : ℝ} (h : Near x c s e) (h1 : c - c' ≤ d) (h2 : c' - c ≤ d)
    (h3 : s - s' ≤ d) (h4 : s' - s ≤ d) (h5 : e + 2 * d ≤ e') : Near x c' s' e' := by
  refine h.round ?_
  have h6 : |c - c'| ≤ d := abs_le.2 ⟨by linarith, h1⟩
  have h7 : |s - s'| ≤ d := abs_le.2 ⟨by linarith, h3⟩
  linarith

theorem Near.of_eq {x y c s e : ℝ} (h : Near x c s e) (hxy : x = y) : Near y c s e := hxy ▸ h

/-- Changing the angle by at most `d` moves the point by at most `d`. -/
theorem Near.move {x y c s e d : ℝ} (h : Near x c s e) (hxy : |y - x| ≤ d) : Near y c s (e + d) := by
  have h1 : Near y c s (e + |y - x|) := by
    have e1 : Complex.exp (y * Complex.I) - (c + s * Complex.I)
        = (Complex.exp (x * Complex.I) - (c + s * Complex.I))
          + Complex.exp (x * Complex.I) * (Complex.exp (((y - x : ℝ) : ℂ) * Complex.I) - 1) := by
      rw [mul_sub, ← Complex.exp_add, mul_one]
      have : (x : ℂ) * Complex.I + ((y - x : ℝ) : ℂ) * Complex.I = y * Complex.I := by push_cast; ring
      rw [this]; ring
    rw [Near, e1]
    refine (norm_add_le _ _).trans (add_le_add h ?_)
    rw [norm_mul, norm_circle, one_mul]
    have := Real.norm_exp_I_mul_ofReal_sub_one_le (x := y - x)
    rw [mul_comm] at this
    simpa using this
  exact le_trans h1 (by linarith)

/-- The Taylor enclosure of degree 11. -/
theorem near_taylor (x : ℝ) (hx : |x| ≤ 1) : Near x
    (1 - x ^ 2 / 2 + x ^ 4 / 24 - x ^ 6 / 720 + x ^ 8 / 40320 - x ^ 10 / 3628800)
    (x - x ^ 3 / 6 + x ^ 5 / 120 - x ^ 7 / 5040 + x ^ 9 / 362880 - x ^ 11 / 39916800)
    (|x| ^ 12 * (13 / 5748019200)) := by
  have h := Complex.exp_bound (x := x * Complex.I) (by simpa using hx) (n := 12) (by norm_num)
  have hn : ‖(x : ℂ) * Complex.I‖ = |x| := by simp
  rw [hn] at h
  have hI2 : Complex.I ^ 2 = -1 := Complex.I_sq
  have hI3 : Complex.I ^ 3 = -Complex.I := Complex.I_pow_three
  have hI4 : Complex.I ^ 4 = 1 := Complex.I_pow_four
  have hI5 : Complex.I ^ 5 = Complex.I := by rw [show 5 = 4 + 1 by rfl, pow_add, hI4]; simp
  have hI6 : Complex.I ^ 6 = -1 := by rw [show 6 = 4 + 2 by rfl, pow_add, hI4]; simp
  have hI7 : Complex.I ^ 7 = -Complex.I := by rw [show 7 = 4 + 3 by rfl, pow_add, hI4, hI3]; simp
  have hI8 : Complex.I ^ 8 = 1 := by rw [show 8 = 4 + 4 by rfl, pow_add, hI4]; simp
  have hI9 : Complex.I ^ 9 = Complex.I := by rw [show 9 = 8 + 1 by rfl, pow_add, hI8]; simp
  have hI10 : Complex.I ^ 10 = -1 := by rw [show 10 = 8 + 2 by rfl, pow_add, hI8]; simp
  have hI11 : Complex.I ^ 11 = -Complex.I := by rw [show 11 = 8 + 3 by rfl, pow_add, hI8, hI3]; simp
  have hsum : ∑ m ∈ Finset.range 12, ((x : ℂ) * Complex.I) ^ m / (m.factorial : ℂ)
      = ((1 - x ^ 2 / 2 + x ^ 4 / 24 - x ^ 6 / 720 + x ^ 8 / 40320 - x ^ 10 / 3628800 : ℝ) : ℂ)
        + ((x - x ^ 3 / 6 + x ^ 5 / 120 - x ^ 7 / 5040 + x ^ 9 / 362880 - x ^ 11 / 39916800 : ℝ) : ℂ)
          * Complex.I := by
    simp only [Finset.sum_range_succ, Finset.sum_range_zero, mul_pow, hI2, hI3, hI4, hI5, hI6, hI7, hI8, hI9,
      hI10, hI11, Nat.factorial]
    push_cast
    ring
  rw [hsum] at h
  refine h.trans (le_of_eq ?_)
  norm_num [Nat.factorial]

/-- The Taylor enclosure of the exponential, degree 9. -/
theorem exp_taylor (x : ℝ) (hx : |x| ≤ 1) :
    |exp x - (1 + x + x ^ 2 / 2 + x ^ 3 / 6 + x ^ 4 / 24 + x ^ 5 / 120 + x ^ 6 / 720 + x ^ 7 / 5040
      + x ^ 8 / 40320 + x ^ 9 / 362880)| ≤ 11 / 36288000 := by
  have h := Real.exp_bound (x := x) hx (n := 10) (by norm_num)
  have e1 : ∑ m ∈ Finset.range 10, x ^ m / (m.factorial : ℝ) =
      1 + x + x ^ 2 / 2 + x ^ 3 / 6 + x ^ 4 / 24 + x ^ 5 / 120 + x ^ 6 / 720 + x ^ 7 / 5040
      + x ^ 8 / 40320 + x ^ 9 / 362880 := by
    simp only [Finset.sum_range_succ, Finset.sum_range_zero, Nat.factorial]
    push_cast
    ring
  rw [e1] at h
  refine h.trans ?_
  have h1 : |x| ^ 10 ≤ 1 := pow_le_one₀ (abs_nonneg _) hx
  have h2 : (((10 : ℕ).succ : ℝ) / (((10 : ℕ).factorial : ℝ) * ((10 : ℕ) : ℝ))) = 11 / 36288000 := by
    norm_num [Nat.factorial]
  rw [h2]
  nlinarith

end Ecrs.TF
