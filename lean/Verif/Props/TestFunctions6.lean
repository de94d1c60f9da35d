import Verif.TestFunctions.Lemmas
import Mathlib.Tactic.LinearCombination
import Mathlib.Analysis.Complex.ExponentialBounds
import Mathlib.Analysis.Real.Pi.Bounds
import Mathlib.Analysis.SpecialFunctions.Trigonometric.DerivHyp

/-!
# C107, continued: documented minima the code does not have
-/

set_option linter.unusedSectionVars false
set_option linter.unusedVariables false

namespace Ecrs.Props
open Ecrs Ecrs.TF Real

/-- **C107**: `wayburn_seader3`, documented minimum `f(5.611, 6.187) = 21.35`: the value there is
about 21.35, but smaller values exist. -/
theorem C107_wayburn_seader3 :
    (∃ v, wayburn_seader3 [5.611, 6.187] = .ok v ∧ |v - 21.35| < 0.01) ∧
      ∃ v, wayburn_seader3 [5.147, 6.84] = .ok v ∧ v < 19.2 := by
  refine ⟨⟨_, rfl, ?_⟩, _, rfl, ?_⟩
  · rw [abs_lt]; norm_num
  · norm_num

/-- **C107**: `forrester_et_al`, documented minimum `f(0.75) = -5.2911`, has no lower bound (the
documentation states no domain). -/
theorem C107_forrester_et_al (B : ℝ) : ∃ x, forrester_et_al x < B := by
  obtain ⟨k, hk⟩ := exists_nat_gt (|B| + 1)
  refine ⟨(4 + (-(π / 2) + k * (2 * π))) / 12, ?_⟩
  have hpi := pi_gt_three
  have h1 : 12 * ((4 + (-(π / 2) + k * (2 * π))) / 12) - 4 = -(π / 2) + k * (2 * π) := by ring
  have h2 : 6 * ((4 + (-(π / 2) + k * (2 * π))) / 12) - 2 = (-(π / 2) + k * (2 * π)) / 2 := by ring
  rw [forrester_et_al, h1, h2, sin_add_nat_mul_two_pi, sin_neg, sin_pi_div_two]
  have h3 := neg_abs_le B
  have h4 := abs_nonneg B
  have h5 : (k : ℝ) ≤ (-(π / 2) + k * (2 * π)) / 2 := by
    have : 0 ≤ (k - 1 : ℝ) * (π - 3) := mul_nonneg (by linarith) (by linarith)
    have hpi4 := pi_lt_four
    nlinarith
  nlinarith

/-- **C107**: `devilliers_glasser2`, documented minimum `f(0, …, 0) = 0`: the value at the origin is
positive, and the minimum `0` is attained at `(53.81, 1.27, 3.012, 2.13, 0.507)`. -/
theorem C107_devilliers_glasser2 :
    (∃ v, devilliers_glasser2 [0, 0, 0, 0, 0] = .ok v ∧ 0 < v) ∧
    devilliers_glasser2 [53.81, 1.27, 3.012, 2.13, 0.507] = .ok 0 ∧
    ∀ x v, devilliers_glasser2 x = .ok v → 0 ≤ v := by
  refine ⟨?_, ?_, ?_⟩
  · rw [devilliers_glasser2, fn5]
    refine ⟨_, forLoop_add (t := fun i : ℕ => (53.81 * (1.27 : ℝ) ^ (0.1 * ((i - 1 : ℕ) : ℝ))
        * tanh (3.012 * 0.1 * ((i - 1 : ℕ) : ℝ) + sin (2.13 * 0.1 * ((i - 1 : ℕ) : ℝ)))
        * cos (exp 0.507 * 0.1 * ((i - 1 : ℕ) : ℝ))) ^ 2) 0 (fun i _ acc => ?_), ?_⟩
    · rw [powf_ok le_rfl (by positivity), bind_ok']
      show Except.ok _ = Except.ok _
      rw [zero_mul, zero_mul, zero_mul, zero_sub, neg_sq]
    · rw [zero_add]
      have hsplit : List.range' 1 24 = 1 :: 2 :: List.range' 3 22 := rfl
      rw [hsplit, List.map_cons, List.map_cons, List.sum_cons, List.sum_cons]
      have hrest : 0 ≤ ((List.range' 3 22).map fun i : ℕ => (53.81 * (1.27 : ℝ) ^ (0.1 * ((i - 1 : ℕ) : ℝ))
        * tanh (3.012 * 0.1 * ((i - 1 : ℕ) : ℝ) + sin (2.13 * 0.1 * ((i - 1 : ℕ) : ℝ)))
        * cos (exp 0.507 * 0.1 * ((i - 1 : ℕ) : ℝ))) ^ 2).sum := sum_map_nonneg fun i _ => sq_nonneg _
      have h2 : 0 < (53.81 * (1.27 : ℝ) ^ (0.1 * ((2 - 1 : ℕ) : ℝ))
        * tanh (3.012 * 0.1 * ((2 - 1 : ℕ) : ℝ) + sin (2.13 * 0.1 * ((2 - 1 : ℕ) : ℝ)))
        * cos (exp 0.507 * 0.1 * ((2 - 1 : ℕ) : ℝ))) ^ 2 := by
        have hp : 0 < (1.27 : ℝ) ^ (0.1 * ((2 - 1 : ℕ) : ℝ)) := rpow_pos_of_pos (by norm_num) _
        have hs : 0 < sin (2.13 * 0.1 * ((2 - 1 : ℕ) : ℝ)) := by
          apply sin_pos_of_pos_of_lt_pi <;> norm_num
          linarith [pi_gt_three]
        have ht : 0 < tanh (3.012 * 0.1 * ((2 - 1 : ℕ) : ℝ) + sin (2.13 * 0.1 * ((2 - 1 : ℕ) : ℝ))) := by
          rw [tanh_eq_sinh_div_cosh]
          apply div_pos _ (cosh_pos _)
          rw [Real.sinh_pos_iff]
          have : (0 : ℝ) < 3.012 * 0.1 * ((2 - 1 : ℕ) : ℝ) := by norm_num
          linarith
        have he : exp 0.507 < 3 := (exp_lt_exp.2 (by norm_num : (0.507 : ℝ) < 1)).trans
          (exp_one_lt_d9.trans (by norm_num))
        have hc : 0 < cos (exp 0.507 * 0.1 * ((2 - 1 : ℕ) : ℝ)) := by
          apply cos_pos_of_mem_Ioo
          have := exp_pos 0.507
          constructor
          · norm_num; linarith [pi_gt_three]
          · norm_num; linarith [pi_gt_three]
        positivity
      have h1 : 0 ≤ (53.81 * (1.27 : ℝ) ^ (0.1 * ((1 - 1 : ℕ) : ℝ))
        * tanh (3.012 * 0.1 * ((1 - 1 : ℕ) : ℝ) + sin (2.13 * 0.1 * ((1 - 1 : ℕ) : ℝ)))
        * cos (exp 0.507 * 0.1 * ((1 - 1 : ℕ) : ℝ))) ^ 2 := sq_nonneg _
      linarith
  · rw [devilliers_glasser2, fn5, forLoop_add (t := fun _ => 0) 0 (fun i _ acc => ?_)]
    · simp
    · rw [powf_ok (by norm_num) (by positivity), bind_ok']
      show Except.ok _ = Except.ok _
      congr 2
      have e1 : (3.012 : ℝ) * 0.1 * ((i - 1 : ℕ) : ℝ) + sin (2.13 * 0.1 * ((i - 1 : ℕ) : ℝ))
          = 3.012 * 0.1 * ((i - 1 : ℕ) : ℝ) + sin (2.13 * 0.1 * ((i - 1 : ℕ) : ℝ)) := rfl
      have e2 : 0.1 * ((i - 1 : ℕ) : ℝ) * exp 0.507 = exp 0.507 * 0.1 * ((i - 1 : ℕ) : ℝ) := by ring
      rw [e2, sub_self, zero_pow (by norm_num)]
  · intro x v h
    match x, h with
    | [x1, x2, x3, x4, x5], h =>
      by_cases h2 : 0 ≤ x2
      · rw [devilliers_glasser2, fn5, forLoop_add (t := fun i : ℕ =>
          (x1 * x2 ^ (0.1 * ((i - 1 : ℕ) : ℝ)) * tanh (x3 * 0.1 * ((i - 1 : ℕ) : ℝ) + sin (x4 * 0.1 * ((i - 1 : ℕ) : ℝ)))
        * cos (0.1 * ((i - 1 : ℕ) : ℝ) * exp x5)
      - 53.81 * (1.27 : ℝ) ^ (0.1 * ((i - 1 : ℕ) : ℝ))
        * tanh (3.012 * 0.1 * ((i - 1 : ℕ) : ℝ) + sin (2.13 * 0.1 * ((i - 1 : ℕ) : ℝ)))
        * cos (exp 0.507 * 0.1 * ((i - 1 : ℕ) : ℝ))) ^ 2) 0 (fun i _ acc => by
            rw [powf_ok h2 (by positivity), bind_ok']; rfl)] at h
        injection h with h
        rw [← h, zero_add]
        exact sum_map_nonneg fun i _ => sq_nonneg _
      · have hsplit : List.range' 1 24 = 1 :: List.range' 2 23 := rfl
        rw [devilliers_glasser2, fn5, hsplit, forLoop_first (e := .undef)
          (by rw [powf_neg (not_le.1 h2), bind_err'])] at h
        cases h
    | [], h => cases h
    | [_], h => cases h
    | [_, _], h => cases h
    | [_, _, _], h => cases h
    | [_, _, _, _], h => cases h
    | _ :: _ :: _ :: _ :: _ :: _ :: _, h => cases h

/-- **C107**: `holder_table3`, documented minimum `-19.2085`, and `cross_in_tray`, documented minimum
`-2.06261`, have no lower bound (the documentation states no domain). -/
theorem C107_holder_table3 : UnboundedBelow 2 holder_table3 := by
  have hpi := pi_pos
  intro B
  obtain ⟨k, hk⟩ := exists_nat_gt (30 * |B| + 2)
  refine ⟨[k * (2 * π), 0], rfl, _, rfl, ?_⟩
  have h0 : 0 ≤ k * (2 * π) := by positivity
  have h1 : sqrt ((k * (2 * π)) ^ 2 + 0 ^ 2) = k * (2 * π) := by
    rw [zero_pow (by norm_num), add_zero, sqrt_sq h0]
  have h2 : (k * (2 * π)) / π = 2 * k := by field_simp
  rw [h1, h2, cos_nat_mul_two_pi, cos_zero, one_mul, one_mul, abs_of_pos (by positivity),
    abs_of_nonneg (sq_nonneg _)]
  have h3 := neg_abs_le B
  have h4 := abs_nonneg B
  have := add_one_le_exp ((1 - 2 * (k : ℝ)) ^ 2)
  nlinarith

/-- **C107**: see `C107_holder_table3`. -/
theorem C107_cross_in_tray : UnboundedBelow 2 cross_in_tray := by
  have hpi := pi_pos
  intro B
  obtain ⟨k, hk⟩ := exists_nat_gt (100000 * |B| + 102)
  refine ⟨[π / 2 + k * (2 * π), π / 2], rfl, _, rfl, ?_⟩
  have h3 := neg_abs_le B
  have h4 := abs_nonneg B
  set r := sqrt ((π / 2 + k * (2 * π)) ^ 2 + (π / 2) ^ 2) with hr
  have hr1 : k * (2 * π) ≤ r := by
    apply le_sqrt_of_sq_le
    have : 0 ≤ k * (2 * π) := by positivity
    nlinarith
  have hr2 : 2 * (k : ℝ) ≤ r / π := by
    rw [le_div_iff₀ hpi]; linarith
  have habs : k ≤ |100 - r / π| := by
    rw [abs_of_nonpos (by linarith)]; linarith
  rw [sin_add_nat_mul_two_pi, sin_pi_div_two, one_mul, one_mul, abs_of_pos (exp_pos _)]
  have hbase : exp k ≤ exp |100 - r / π| + 1 := by
    have := exp_le_exp.2 habs
    linarith
  have hpow : exp (k * 0.1) ≤ (exp |100 - r / π| + 1) ^ (0.1 : ℝ) := by
    rw [exp_mul]
    exact rpow_le_rpow (exp_pos _).le hbase (by norm_num)
  have hsq : (k * 0.1 : ℝ) ^ 2 / 2 ≤ exp (k * 0.1) := by
    have := quadratic_le_exp_of_nonneg (show (0 : ℝ) ≤ k * 0.1 by positivity)
    have h0 : (0 : ℝ) ≤ k * 0.1 := by positivity
    linarith
  nlinarith

/-- **C107**: `vss`, documented minimum `f(-0.024403, 0.210612) = -3.30686865` (the minimum of
`trefethen`): the value at the origin is `-300`. -/
theorem C107_vss : vss [0, 0] = .ok (-300) := by
  rw [vss, fn2, cos_zero, powf_pos one_pos, one_rpow, bind_ok']
  show Except.ok _ = _
  congr 1
  norm_num

/-- **C107**: `pen_holder`, documented minimum `-0.96354`: every value it returns is below `-1`, and
there is no lower bound. -/
theorem C107_pen_holder : (∀ x v, pen_holder x = .ok v → v < -1) ∧ UnboundedBelow 2 pen_holder := by
  constructor
  · intro x v h
    match x, h with
    | [x1, x2], h =>
      rw [pen_holder, fn2] at h
      generalize hq : |cos x1 * cos x2 * exp (abs (1 - (x1 ^ 2 + x2 ^ 2) ^ (0.5 / π)))| = q at h
      have hq0 : 0 ≤ q := hq ▸ abs_nonneg _
      by_cases hz : q = 0
      · rw [hz, fdiv_zero, bind_err'] at h; cases h
      · rw [fdiv_ok hz, bind_ok'] at h
        injection h with h
        have hpos : 0 < 1 / q := by positivity
        have := one_lt_exp_iff.2 hpos
        linarith
    | [], h => cases h
    | [_], h => cases h
    | _ :: _ :: _ :: _, h => cases h
  · intro B
    -- between 0 and π/2 the cosine takes every small positive value
    set D : ℝ := exp 2 with hD
    obtain ⟨x, hx0, hx1, hc⟩ : ∃ x : ℝ, 0 ≤ x ∧ x ≤ π / 2 ∧ cos x = 1 / ((|B| + 1) * D + 1) := by
      have hpi := pi_pos
      have hmem : 1 / ((|B| + 1) * D + 1) ∈ Set.Icc (cos (π / 2)) (cos 0) := by
        have h4 := abs_nonneg B
        have hDp : 0 < D := exp_pos _
        have hden : 1 ≤ (|B| + 1) * D + 1 := by
          have : 0 ≤ (|B| + 1) * D := by positivity
          linarith
        rw [cos_pi_div_two, cos_zero]
        exact ⟨by positivity, by rw [div_le_one (by linarith)]; exact hden⟩
      obtain ⟨x, hx, hxc⟩ := intermediate_value_Icc' (by linarith) (continuous_cos.continuousOn) hmem
      exact ⟨x, hx.1, hx.2, hxc⟩
    have h4 := abs_nonneg B
    have hDp : 0 < D := exp_pos _
    set K : ℝ := (|B| + 1) * D + 1 with hK
    have hKp : 0 < K := by positivity
    have hc0 : 0 < cos x := by rw [hc]; positivity
    have hpi := pi_pos
    have hexp : exp (abs (1 - (x ^ 2 + 0 ^ 2) ^ (0.5 / π))) ≤ D := by
      rw [hD, exp_le_exp]
      have hb : (x ^ 2 + 0 ^ 2) ^ (0.5 / π) ≤ 3 := by
        have hx2 : x ^ 2 + 0 ^ 2 ≤ 9 := by
          have := pi_lt_four
          nlinarith
        calc (x ^ 2 + 0 ^ 2) ^ (0.5 / π) ≤ 9 ^ (0.5 / π) :=
              rpow_le_rpow (by positivity) hx2 (by positivity)
          _ ≤ 9 ^ (1 / 2 : ℝ) := by
              apply rpow_le_rpow_of_exponent_le (by norm_num)
              rw [div_le_div_iff₀ hpi (by norm_num)]
              linarith [pi_gt_three]
          _ = 3 := by
              rw [show (9 : ℝ) = 3 ^ (2 : ℝ) by norm_num, ← rpow_mul (by norm_num)]
              norm_num
      have hn : 0 ≤ (x ^ 2 + 0 ^ 2) ^ (0.5 / π) := by positivity
      rw [abs_le]
      constructor <;> linarith
    have hval : |cos x * cos 0 * exp (abs (1 - (x ^ 2 + 0 ^ 2) ^ (0.5 / π)))|
        = cos x * exp (abs (1 - (x ^ 2 + 0 ^ 2) ^ (0.5 / π))) := by
      rw [cos_zero, mul_one, abs_of_pos (by positivity)]
    refine ⟨[x, 0], rfl, _, by rw [pen_holder, fn2, hval, fdiv_ok (by positivity), bind_ok']; rfl, ?_⟩
    have h1 : |B| + 1 ≤ 1 / (cos x * exp (abs (1 - (x ^ 2 + 0 ^ 2) ^ (0.5 / π)))) := by
      rw [le_div_iff₀ (by positivity), hc]
      have h5 : 1 / K * exp (abs (1 - (x ^ 2 + 0 ^ 2) ^ (0.5 / π))) ≤ 1 / K * D :=
        mul_le_mul_of_nonneg_left hexp (by positivity)
      calc (|B| + 1) * (1 / K * exp (abs (1 - (x ^ 2 + 0 ^ 2) ^ (0.5 / π))))
          ≤ (|B| + 1) * (1 / K * D) := mul_le_mul_of_nonneg_left h5 (by linarith)
        _ = ((|B| + 1) * D) / K := by ring
        _ ≤ 1 := by rw [div_le_one hKp, hK]; linarith
    have h2 := add_one_le_exp (1 / (cos x * exp (abs (1 - (x ^ 2 + 0 ^ 2) ^ (0.5 / π)))))
    have h3 := neg_abs_le B
    linarith

/-- **C107**: `bartels_conn`, documented minimum `f(0, 0) = 1` in two dimensions: the call panics. -/
theorem C107_bartels_conn : bartels_conn [0, 0] = .error (.panic .assertion) ∧
    ∀ x : List ℝ, x.length = 2 → bartels_conn x = .error (.panic .assertion) := by
  refine ⟨rfl, fun x hx => ?_⟩
  obtain ⟨a, b, rfl⟩ := List.length_eq_two.1 hx
  rfl

/-- **C107**: `chichinadze`, documented minimum `f(5.90133, 0.5) = -43.3159`: the value there is
above `-36`, and `f(6.2, 0.5)` is below `-42`. -/
theorem C107_chichinadze :
    (∃ v, chichinadze [5.90133, 0.5] = .ok v ∧ -36 < v) ∧
      ∃ v, chichinadze [6.2, 0.5] = .ok v ∧ v < -42 := by
  have hroot : (0.2 : ℝ) ^ (0.5 : ℝ) < 0.5 := by
    have h : (0.2 : ℝ) ^ (0.5 : ℝ) < 0.25 ^ (0.5 : ℝ) := rpow_lt_rpow (by norm_num) (by norm_num) (by norm_num)
    have h' : (0.25 : ℝ) ^ (0.5 : ℝ) = 0.5 := by
      rw [show (0.25 : ℝ) = 0.5 ^ (2 : ℝ) by norm_num, ← rpow_mul (by norm_num)]
      norm_num
    linarith
  have hroot0 : 0 < (0.2 : ℝ) ^ (0.5 : ℝ) := rpow_pos_of_pos (by norm_num) _
  have he : exp (-0.5 * ((0.5 : ℝ) - 0.5) ^ 2) = 1 := by norm_num
  refine ⟨⟨_, rfl, ?_⟩, _, rfl, ?_⟩
  · have hs : 0 ≤ sin (5 * π * 5.90133 / 2) := by
      have e : 5 * π * 5.90133 / 2 = (5 * 5.90133 / 2 - 14) * π + (7 : ℕ) * (2 * π) := by
        push_cast; ring
      rw [e, sin_add_nat_mul_two_pi]
      have := pi_pos
      apply sin_nonneg_of_nonneg_of_le_pi
      · apply mul_nonneg _ this.le; norm_num
      · nlinarith
    have hc := neg_one_le_cos (π * 5.90133 / 2)
    rw [he]
    nlinarith
  · have hs : sin (5 * π * 6.2 / 2) = -1 := by
      have e : 5 * π * 6.2 / 2 = -(π / 2) + (8 : ℕ) * (2 * π) := by push_cast; ring
      rw [e, sin_add_nat_mul_two_pi, sin_neg, sin_pi_div_two]
    have hc : cos (π * 6.2 / 2) < -0.94 := by
      have e : π * 6.2 / 2 = (π / 10 + π) + (1 : ℕ) * (2 * π) := by push_cast; ring
      rw [e, cos_add_nat_mul_two_pi, cos_add_pi]
      have h1 := one_sub_sq_div_two_le_cos (x := π / 10)
      have h2 := pi_lt_d2
      have h3 := pi_pos
      nlinarith
    rw [he, hs]
    nlinarith

/-- **C107**: `michalewicz`, documented two-dimensional minimum `f(2.2, 1.57) = -1.8013`: over the
reals (no domain is documented) smaller values exist; in every dimension `n` the values are at
least `-n`. -/
theorem C107_michalewicz :
    (∃ v, michalewicz [π / 2 * sqrt 26, π / 2] = .ok v ∧ v < -1.98) ∧
    ∀ x : List ℝ, x ≠ [] → ∃ v, michalewicz x = .ok v ∧ -(x.length : ℝ) ≤ v := by
  constructor
  · refine ⟨_, rfl, ?_⟩
    show (0 - sin (π / 2 * sqrt 26) * sin (((0 + 1 : ℕ) : ℝ) * (π / 2 * sqrt 26) ^ 2 / π) ^ 20)
      - sin (π / 2) * sin (((0 + 1 + 1 : ℕ) : ℝ) * (π / 2) ^ 2 / π) ^ 20 < -1.98
    have hpi := pi_pos
    have e1 : ((0 + 1 : ℕ) : ℝ) * (π / 2 * sqrt 26) ^ 2 / π = π / 2 + (3 : ℕ) * (2 * π) := by
      rw [mul_pow, sq_sqrt (by norm_num)]
      push_cast
      field_simp
      ring
    have e2 : ((0 + 1 + 1 : ℕ) : ℝ) * (π / 2) ^ 2 / π = π / 2 := by
      push_cast
      field_simp
    rw [e1, e2, sin_add_nat_mul_two_pi, sin_pi_div_two]
    have hs1 : 5.099 < sqrt 26 := lt_sqrt_of_sq_lt (by norm_num)
    have hs2 : sqrt 26 < 5.1 := (sqrt_lt' (by norm_num)).2 (by norm_num)
    have e3 : sin (π / 2 * sqrt 26) = cos (π / 2 * (sqrt 26 - 5)) := by
      have : π / 2 * sqrt 26 = (π / 2 * (sqrt 26 - 5) + π / 2) + (1 : ℕ) * (2 * π) := by push_cast; ring
      rw [this, sin_add_nat_mul_two_pi, sin_add_pi_div_two]
    have h1 := one_sub_sq_div_two_le_cos (x := π / 2 * (sqrt 26 - 5))
    have h2 := pi_lt_d2
    have h3 : π / 2 * (sqrt 26 - 5) ≤ 0.16 := by nlinarith
    have h4 : 0 ≤ π / 2 * (sqrt 26 - 5) := mul_nonneg (by linarith) (by linarith)
    rw [e3]
    norm_num
    nlinarith
  · intro x hx
    refine ⟨_, by rw [michalewicz, require_ok hx, bind_ok']; rfl, ?_⟩
    have hf : ∀ (l : List (ℝ × ℕ)) (c : ℝ), c - l.length ≤ l.foldl (fun result p =>
        result - sin p.1 * sin (((p.2 + 1 : ℕ) : ℝ) * p.1 ^ 2 / π) ^ 20) c := by
      intro l
      induction l with
      | nil => intro c; simp
      | cons p l ih =>
        intro c
        rw [List.foldl_cons]
        refine le_trans ?_ (ih _)
        have h1 := abs_sin_le_one p.1
        have h2 : |sin (((p.2 + 1 : ℕ) : ℝ) * p.1 ^ 2 / π) ^ 20| ≤ 1 := by
          rw [abs_pow]
          exact pow_le_one₀ (abs_nonneg _) (abs_sin_le_one _)
        have h3 : sin p.1 * sin (((p.2 + 1 : ℕ) : ℝ) * p.1 ^ 2 / π) ^ 20 ≤ 1 := by
          refine le_trans (le_abs_self _) ?_
          rw [abs_mul]
          exact mul_le_one₀ h1 (abs_nonneg _) h2
        rw [List.length_cons, Nat.cast_succ]
        linarith
    have := hf x.zipIdx 0
    rw [List.length_zipIdx] at this
    linarith

example : ([1, 2] : List ℝ) ≠ [] := by simp

end Ecrs.Props
