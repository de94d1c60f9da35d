import Verif.TestFunctions.Lemmas
import Mathlib.Tactic.LinearCombination
import Mathlib.Analysis.Complex.ExponentialBounds
import Mathlib.Analysis.Real.Pi.Bounds

/-!
# C122: minima documented as rounded decimals

The documentation of these functions gives the minimiser and the minimum as decimals found
numerically.  The theorems show that the value at the documented point is the documented minimum up
to a stated tolerance, and that no point has a value below the documented minimum by more than that
tolerance.
-/

set_option linter.unusedSectionVars false
set_option linter.unusedVariables false

namespace Ecrs.Props
open Ecrs Ecrs.TF Real

/-! ## `jennrich_sampson` -/

/-- The tangent polynomial at the minimiser: it exceeds its value there by a square times a
polynomial with positive coefficients. -/
private theorem js_tangent (a : ℝ) (ha : 0 < a) :
    (137846264927521255486047616310597236893480507661302241872808779393 / 97656250000000000000000000000000000000000000000000000000000000000) * a ^ 1 + (530109 / 200000) * a ^ 2 + (916357 / 250000) * a ^ 3 + (274411 / 62500) * a ^ 4 + (2370387 / 500000) * a ^ 5 + (287859 / 62500) * a ^ 6 + (153711 / 40000) * a ^ 7 + (1133591 / 500000) * a ^ 8 + (-180019 / 500000) * a ^ 9 + (-2174091 / 500000) * a ^ 10
      ≤ (222703600554666642230842893194735508816590218752524405349406491157071074331 / 4882812500000000000000000000000000000000000000000000000000000000000000000) := by
  have h : 0 ≤ (a - (6470563 / 5000000)) ^ 2 * ((5319160543941475469049655533303175830390478982635127281557699 / 195312500000000000000000000000000000000000000000000000000000) * a ^ 0 + (201398338914567949766293657718599783822467328363673697 / 4882812500000000000000000000000000000000000000000000) * a ^ 1 + (358595074848948010817373484577866948315800512133 / 7812500000000000000000000000000000000000000000) * a ^ 2 + (34468373981535466134063472803377754054739 / 781250000000000000000000000000000000000) * a ^ 3 + (2384735259810052582777125284547451 / 62500000000000000000000000000000) * a ^ 4 + (465518083905936455366090777 / 15625000000000000000000000) * a ^ 5 + (256384203893733410537 / 12500000000000000000) * a ^ 6 + (14517640283233 / 1250000000000) * a ^ 7 + (2174091 / 500000) * a ^ 8) := by positivity
  linarith

private theorem js_term1 (s : ℝ) : 2 * (137846264927521255486047616310597236893480507661302241872808779393 / 97656250000000000000000000000000000000000000000000000000000000000) * (4 - s) - (137846264927521255486047616310597236893480507661302241872808779393 / 97656250000000000000000000000000000000000000000000000000000000000) ^ 2 ≤ (4 - s) ^ 2 := by
  nlinarith [sq_nonneg (4 - s - (137846264927521255486047616310597236893480507661302241872808779393 / 97656250000000000000000000000000000000000000000000000000000000000))]
private theorem js_term2 (s : ℝ) : 2 * (530109 / 200000) * (6 - s) - (530109 / 200000) ^ 2 ≤ (6 - s) ^ 2 := by
  nlinarith [sq_nonneg (6 - s - (530109 / 200000))]
private theorem js_term3 (s : ℝ) : 2 * (916357 / 250000) * (8 - s) - (916357 / 250000) ^ 2 ≤ (8 - s) ^ 2 := by
  nlinarith [sq_nonneg (8 - s - (916357 / 250000))]
private theorem js_term4 (s : ℝ) : 2 * (274411 / 62500) * (10 - s) - (274411 / 62500) ^ 2 ≤ (10 - s) ^ 2 := by
  nlinarith [sq_nonneg (10 - s - (274411 / 62500))]
private theorem js_term5 (s : ℝ) : 2 * (2370387 / 500000) * (12 - s) - (2370387 / 500000) ^ 2 ≤ (12 - s) ^ 2 := by
  nlinarith [sq_nonneg (12 - s - (2370387 / 500000))]
private theorem js_term6 (s : ℝ) : 2 * (287859 / 62500) * (14 - s) - (287859 / 62500) ^ 2 ≤ (14 - s) ^ 2 := by
  nlinarith [sq_nonneg (14 - s - (287859 / 62500))]
private theorem js_term7 (s : ℝ) : 2 * (153711 / 40000) * (16 - s) - (153711 / 40000) ^ 2 ≤ (16 - s) ^ 2 := by
  nlinarith [sq_nonneg (16 - s - (153711 / 40000))]
private theorem js_term8 (s : ℝ) : 2 * (1133591 / 500000) * (18 - s) - (1133591 / 500000) ^ 2 ≤ (18 - s) ^ 2 := by
  nlinarith [sq_nonneg (18 - s - (1133591 / 500000))]
private theorem js_term9 (s : ℝ) : 2 * (-180019 / 500000) * (20 - s) - (-180019 / 500000) ^ 2 ≤ (20 - s) ^ 2 := by
  nlinarith [sq_nonneg (20 - s - (-180019 / 500000))]
private theorem js_term10 (s : ℝ) : 2 * (-2174091 / 500000) * (22 - s) - (-2174091 / 500000) ^ 2 ≤ (22 - s) ^ 2 := by
  nlinarith [sq_nonneg (22 - s - (-2174091 / 500000))]

private theorem js_eq (x1 x2 : ℝ) : (List.range' 1 10).foldl (fun res (i : ℕ) => res +
    (2 + 2 * (i : ℝ) - (exp (i * x1) + exp (i * x2))) ^ 2) 0 =
    (4 - (exp x1 ^ 1 + exp x2 ^ 1)) ^ 2 + (6 - (exp x1 ^ 2 + exp x2 ^ 2)) ^ 2
    + (8 - (exp x1 ^ 3 + exp x2 ^ 3)) ^ 2 + (10 - (exp x1 ^ 4 + exp x2 ^ 4)) ^ 2
    + (12 - (exp x1 ^ 5 + exp x2 ^ 5)) ^ 2 + (14 - (exp x1 ^ 6 + exp x2 ^ 6)) ^ 2
    + (16 - (exp x1 ^ 7 + exp x2 ^ 7)) ^ 2 + (18 - (exp x1 ^ 8 + exp x2 ^ 8)) ^ 2
    + (20 - (exp x1 ^ 9 + exp x2 ^ 9)) ^ 2 + (22 - (exp x1 ^ 10 + exp x2 ^ 10)) ^ 2 := by
  have h : List.range' 1 10 = [1, 2, 3, 4, 5, 6, 7, 8, 9, 10] := rfl
  simp only [h, List.foldl_cons, List.foldl_nil, exp_nat_mul]
  push_cast
  ring

private theorem js_sq {p l u t M : ℝ} (hl : l ≤ p) (hu : p ≤ u) (h1 : (t - 2 * l) ^ 2 ≤ M)
    (h2 : (t - 2 * u) ^ 2 ≤ M) : (t - (p + p)) ^ 2 ≤ M := by
  rcases le_total 0 (t - (p + p)) with h | h
  · nlinarith
  · nlinarith

/-- **C122**: `jennrich_sampson`, documented minimum `f(0.257825, 0.257825) = 124.3612`, up to 0.002;
in fact every value is above `124.362`, so the documented figure has a wrong last digit. -/
theorem C122_jennrich_sampson :
    HasMinimumUpTo 0.002 (· = 2) jennrich_sampson [0.257825, 0.257825] 124.3612 ∧
    ∀ x v, jennrich_sampson x = .ok v → 124.362 < v := by
  have low : ∀ x1 x2 : ℝ, 124.362 < (List.range' 1 10).foldl (fun res (i : ℕ) => res +
    (2 + 2 * (i : ℝ) - (exp (i * x1) + exp (i * x2))) ^ 2) 0 := by
    intro x1 x2
    rw [js_eq]
    have h1 := js_tangent (exp x1) (exp_pos _)
    have h2 := js_tangent (exp x2) (exp_pos _)
    generalize exp x1 = a at *
    generalize exp x2 = b at *
    have t1 := js_term1 (a ^ 1 + b ^ 1)
    have t2 := js_term2 (a ^ 2 + b ^ 2)
    have t3 := js_term3 (a ^ 3 + b ^ 3)
    have t4 := js_term4 (a ^ 4 + b ^ 4)
    have t5 := js_term5 (a ^ 5 + b ^ 5)
    have t6 := js_term6 (a ^ 6 + b ^ 6)
    have t7 := js_term7 (a ^ 7 + b ^ 7)
    have t8 := js_term8 (a ^ 8 + b ^ 8)
    have t9 := js_term9 (a ^ 9 + b ^ 9)
    have t10 := js_term10 (a ^ 10 + b ^ 10)
    refine lt_of_lt_of_le ?_ (add_le_add (add_le_add (add_le_add (add_le_add (add_le_add (add_le_add
      (add_le_add (add_le_add (add_le_add t1 t2) t3) t4) t5) t6) t7) t8) t9) t10)
    linarith
  refine ⟨⟨rfl, ⟨_, rfl, ?_⟩, ?_⟩, ?_⟩
  · have hlow := low 0.257825 0.257825
    rw [js_eq]
    rw [js_eq] at hlow
    have he := Real.exp_bound' (x := 0.257825) (by norm_num) (by norm_num) (n := 8) (by norm_num)
    have he' := Real.sum_le_exp_of_nonneg (x := 0.257825) (by norm_num) 8
    norm_num [Finset.sum_range_succ, Nat.factorial] at he he'
    rw [show (0.257825 : ℝ) = 10313 / 40000 by norm_num] at hlow ⊢
    generalize exp (10313 / 40000) = a at *
    have ha1 : 1.2941123 ≤ a := by linarith
    have ha2 : a ≤ 1.2941124 := by linarith
    have h0 : 0 ≤ a := by linarith
    have u1 := js_sq (l := 1.2941123 ^ 1) (u := 1.2941124 ^ 1) (t := 4) (M := 1.99311) (p := a ^ 1)
      (pow_le_pow_left₀ (by norm_num) ha1 _) (pow_le_pow_left₀ h0 ha2 _) (by norm_num) (by norm_num)
    have u2 := js_sq (l := 1.2941123 ^ 2) (u := 1.2941124 ^ 2) (t := 6) (M := 7.025398) (p := a ^ 2)
      (pow_le_pow_left₀ (by norm_num) ha1 _) (pow_le_pow_left₀ h0 ha2 _) (by norm_num) (by norm_num)
    have u3 := js_sq (l := 1.2941123 ^ 3) (u := 1.2941124 ^ 3) (t := 8) (M := 13.435387) (p := a ^ 3)
      (pow_le_pow_left₀ (by norm_num) ha1 _) (pow_le_pow_left₀ h0 ha2 _) (by norm_num) (by norm_num)
    have u4 := js_sq (l := 1.2941123 ^ 4) (u := 1.2941124 ^ 4) (t := 10) (M := 19.277205) (p := a ^ 4)
      (pow_le_pow_left₀ (by norm_num) ha1 _) (pow_le_pow_left₀ h0 ha2 _) (by norm_num) (by norm_num)
    have u5 := js_sq (l := 1.2941123 ^ 5) (u := 1.2941124 ^ 5) (t := 12) (M := 22.475017) (p := a ^ 5)
      (pow_le_pow_left₀ (by norm_num) ha1 _) (pow_le_pow_left₀ h0 ha2 _) (by norm_num) (by norm_num)
    have u6 := js_sq (l := 1.2941123 ^ 6) (u := 1.2941124 ^ 6) (t := 14) (M := 21.212999) (p := a ^ 6)
      (pow_le_pow_left₀ (by norm_num) ha1 _) (pow_le_pow_left₀ h0 ha2 _) (by norm_num) (by norm_num)
    have u7 := js_sq (l := 1.2941123 ^ 7) (u := 1.2941124 ^ 7) (t := 16) (M := 14.767072) (p := a ^ 7)
      (pow_le_pow_left₀ (by norm_num) ha1 _) (pow_le_pow_left₀ h0 ha2 _) (by norm_num) (by norm_num)
    have u8 := js_sq (l := 1.2941123 ^ 8) (u := 1.2941124 ^ 8) (t := 18) (M := 5.140247) (p := a ^ 8)
      (pow_le_pow_left₀ (by norm_num) ha1 _) (pow_le_pow_left₀ h0 ha2 _) (by norm_num) (by norm_num)
    have u9 := js_sq (l := 1.2941123 ^ 9) (u := 1.2941124 ^ 9) (t := 20) (M := 0.129608) (p := a ^ 9)
      (pow_le_pow_left₀ (by norm_num) ha1 _) (pow_le_pow_left₀ h0 ha2 _) (by norm_num) (by norm_num)
    have u10 := js_sq (l := 1.2941123 ^ 10) (u := 1.2941124 ^ 10) (t := 22) (M := 18.906332) (p := a ^ 10)
      (pow_le_pow_left₀ (by norm_num) ha1 _) (pow_le_pow_left₀ h0 ha2 _) (by norm_num) (by norm_num)
    rw [abs_le]
    constructor
    · linarith
    · refine sub_le_iff_le_add.2 ((add_le_add (add_le_add (add_le_add (add_le_add (add_le_add (add_le_add
        (add_le_add (add_le_add (add_le_add u1 u2) u3) u4) u5) u6) u7) u8) u9) u10).trans ?_)
      norm_num
  · intro x hx
    obtain ⟨x1, x2, rfl⟩ := List.length_eq_two.1 hx
    exact ⟨_, rfl, by have := low x1 x2; linarith⟩
  · intro x v h
    match x, h with
    | [x1, x2], h =>
      injection h with h
      rw [← h]; exact low x1 x2
    | [], h => cases h
    | [_], h => cases h
    | _ :: _ :: _ :: _, h => cases h

/-! ## `bird` -/

/-- The two exponential terms of `bird` in terms of `p = 1 - cos u`, `q = 1 - cos v`. -/
private theorem bird_terms {p q : ℝ} (hp0 : 0 ≤ p) (hp2 : p ≤ 2) (hq0 : 0 ≤ q) (hq2 : q ≤ 2) :
    (1 - p) * exp (-(4 * q - q ^ 2)) + (1 - q) * exp (-(4 * p - p ^ 2)) ≤ 1.91 ∨
      (p + q ≤ 0.02 ∧
        (1 - p) * exp (-(4 * q - q ^ 2)) + (1 - q) * exp (-(4 * p - p ^ 2)) ≤ 2 - 4.8 * (p + q)) := by
  have hyp : 0 ≤ 4 * p - p ^ 2 := by nlinarith
  have hyq : 0 ≤ 4 * q - q ^ 2 := by nlinarith
  have half : ∀ {p q : ℝ}, 0 ≤ p → p ≤ 2 → 0 ≤ q → q ≤ 2 → 0.1 ≤ p →
      (1 - p) * exp (-(4 * q - q ^ 2)) + (1 - q) * exp (-(4 * p - p ^ 2)) ≤ 1.91 := by
    intro p q hp0 hp2 hq0 hq2 h
    have e1 : exp (-(4 * q - q ^ 2)) ≤ 1 := exp_le_one_iff.2 (by nlinarith)
    have e2 : exp (-(4 * p - p ^ 2)) ≤ 1 := exp_le_one_iff.2 (by nlinarith)
    have p1 := exp_pos (-(4 * q - q ^ 2))
    have p2 := exp_pos (-(4 * p - p ^ 2))
    have t1 : (1 - p) * exp (-(4 * q - q ^ 2)) ≤ 0.9 := by
      rcases le_total p 1 with h1 | h1
      · nlinarith
      · nlinarith
    have t2 : (1 - q) * exp (-(4 * p - p ^ 2)) ≤ 1 := by nlinarith
    linarith
  by_cases hp : 0.1 ≤ p
  · exact Or.inl (half hp0 hp2 hq0 hq2 hp)
  by_cases hq : 0.1 ≤ q
  · left
    have := half hq0 hq2 hp0 hp2 hq
    linarith
  rw [not_le] at hp hq
  have quad : ∀ y : ℝ, 0 ≤ y → exp (-y) ≤ 1 - y + y ^ 2 / 2 := by
    intro y hy
    have h1 := quadratic_le_exp_of_nonneg hy
    have h2 : exp (-y) * exp y = 1 := by rw [← exp_add]; simp
    have h3 := exp_pos (-y)
    have h4 : exp (-y) * (1 + y + y ^ 2 / 2) ≤ 1 := by nlinarith
    by_contra hc
    rw [not_le] at hc
    have h5 : (1 - y + y ^ 2 / 2) * (1 + y + y ^ 2 / 2) < exp (-y) * (1 + y + y ^ 2 / 2) :=
      mul_lt_mul_of_pos_right hc (by positivity)
    nlinarith [sq_nonneg (y ^ 2)]
  have e1 := quad _ hyq
  have e2 := quad _ hyp
  have b1 : exp (-(4 * q - q ^ 2)) ≤ 1 - 4 * q + 9 * q ^ 2 := by
    refine e1.trans ?_
    nlinarith [mul_nonneg hq0 hq0, mul_nonneg (mul_nonneg hq0 hq0) hq0]
  have b2 : exp (-(4 * p - p ^ 2)) ≤ 1 - 4 * p + 9 * p ^ 2 := by
    refine e2.trans ?_
    nlinarith [mul_nonneg hp0 hp0, mul_nonneg (mul_nonneg hp0 hp0) hp0]
  have t1 : (1 - p) * exp (-(4 * q - q ^ 2)) ≤ (1 - p) * (1 - 4 * q + 9 * q ^ 2) :=
    mul_le_mul_of_nonneg_left b1 (by linarith)
  have t2 : (1 - q) * exp (-(4 * p - p ^ 2)) ≤ (1 - q) * (1 - 4 * p + 9 * p ^ 2) :=
    mul_le_mul_of_nonneg_left b2 (by linarith)
  have hsum : (1 - p) * (1 - 4 * q + 9 * q ^ 2) + (1 - q) * (1 - 4 * p + 9 * p ^ 2)
      ≤ 2 - (p + q) * (5 - 10 * (p + q)) := by
    nlinarith [mul_nonneg hp0 hq0, mul_nonneg (mul_nonneg hp0 hq0) hq0, mul_nonneg (mul_nonneg hp0 hq0) hp0]
  by_cases hs : p + q ≤ 0.02
  · right
    refine ⟨hs, ?_⟩
    nlinarith
  · left
    rw [not_le] at hs
    have : 0.09 ≤ (p + q) * (5 - 10 * (p + q)) := by nlinarith
    linarith

/-- Every real is a multiple of `2 π` plus a remainder of absolute value at most `π`. -/
private theorem reduce_angle (x : ℝ) : ∃ (k : ℤ) (u : ℝ), x = u + k * (2 * π) ∧ |u| ≤ π := by
  have hpi := pi_pos
  refine ⟨round (x / (2 * π)), x - round (x / (2 * π)) * (2 * π), by ring, ?_⟩
  have h := abs_sub_round (x / (2 * π))
  have e : x - round (x / (2 * π)) * (2 * π) = (x / (2 * π) - round (x / (2 * π))) * (2 * π) := by
    field_simp
  rw [e, abs_mul, abs_of_pos (show 0 < 2 * π by positivity)]
  nlinarith

private theorem exp_four_bounds : 54.59815 ≤ exp 4 ∧ exp 4 ≤ 54.598151 := by
  have h : exp 4 = exp 1 ^ 4 := by rw [← exp_nat_mul]; norm_num
  have h1 := exp_one_gt_d9
  have h2 := exp_one_lt_d9
  rw [h]
  constructor
  · calc (54.59815 : ℝ) ≤ 2.7182818283 ^ 4 := by norm_num
      _ ≤ exp 1 ^ 4 := pow_le_pow_left₀ (by norm_num) h1.le _
  · calc exp 1 ^ 4 ≤ 2.7182818286 ^ 4 := pow_le_pow_left₀ (exp_pos _).le h2.le _
      _ ≤ 54.598151 := by norm_num

/-- `bird` in the coordinates `u`, `v` around the minima of its exponential terms. -/
private theorem bird_eq (u v d : ℝ) :
    -cos u * exp ((1 - -cos v) ^ 2) + -cos v * exp ((1 - -cos u) ^ 2) + d =
      -(exp 4 * ((1 - (1 - cos u)) * exp (-(4 * (1 - cos v) - (1 - cos v) ^ 2))
        + (1 - (1 - cos v)) * exp (-(4 * (1 - cos u) - (1 - cos u) ^ 2)))) + d := by
  have e1 : exp ((1 - -cos v) ^ 2) = exp 4 * exp (-(4 * (1 - cos v) - (1 - cos v) ^ 2)) := by
    rw [← exp_add]; congr 1; ring
  have e2 : exp ((1 - -cos u) ^ 2) = exp 4 * exp (-(4 * (1 - cos u) - (1 - cos u) ^ 2)) := by
    rw [← exp_add]; congr 1; ring
  rw [e1, e2]; ring

private theorem bird_small {u : ℝ} (hu : |u| ≤ π) (h : 1 - cos u ≤ 0.02) :
    0.494 * u ^ 2 ≤ 1 - cos u ∧ |u| ≤ 0.32 := by
  have hq := cos_le_one_sub_mul_cos_sq hu
  have hpi := pi_pos
  have hpi2 := pi_lt_d2
  have h1 : u ^ 2 ≤ 0.1 := by
    have h2 : 2 / π ^ 2 * u ^ 2 ≤ 0.02 := by linarith
    have h3 : 0.2 ≤ 2 / π ^ 2 := by
      rw [le_div_iff₀ (by positivity)]; nlinarith
    nlinarith [sq_nonneg u]
  have habs : |u| ≤ 0.32 := by
    apply abs_le_of_sq_le_sq' _ (by norm_num) |> abs_le.2
    linarith [h1]
  have hb := abs_le.1 (cos_bound (x := u) (by linarith))
  have h4 : |u| ^ 4 = (u ^ 2) ^ 2 := by rw [← sq_abs u]; ring
  rw [h4] at hb
  refine ⟨?_, habs⟩
  nlinarith [sq_nonneg u, hb.2]

private theorem bird_arith1 {w e : ℝ} (h0 : 0 ≤ w) (hw : w ≤ 0.64) (h1 : 54.59815 ≤ e) (h2 : e ≤ 54.598151) :
    -(109.196302 : ℝ) + 64.73 * w ^ 2 ≤ -(e * (2 - 1.1856 * w ^ 2)) := by
  have h : 0 ≤ w ^ 2 := sq_nonneg w
  nlinarith

private theorem bird_arith2 (w : ℝ) : 2.4298 ≤ 64.73 * w ^ 2 + (π / 2 - w) ^ 2 := by
  have hpl := pi_gt_d6
  have h : 0 ≤ (131.46 * w - π) ^ 2 := sq_nonneg _
  have hp : 3.141592 ^ 2 ≤ π ^ 2 := pow_le_pow_left₀ (by norm_num) hpl.le 2
  nlinarith

private theorem bird_low (x1 x2 : ℝ) : -106.764537 - 0.002 ≤
    sin x1 * exp ((1 - cos x2) ^ 2) + cos x2 * exp ((1 - sin x1) ^ 2) + (x1 - x2) ^ 2 := by
  have hpi := pi_pos
  have he := exp_four_bounds
  obtain ⟨k, u, hu, hua⟩ := reduce_angle (x1 + π / 2)
  obtain ⟨m, v, hv, hva⟩ := reduce_angle (x2 - π)
  have hs : sin x1 = -cos u := by
    have : x1 = (u - π / 2) + k * (2 * π) := by linarith
    rw [this, sin_add_int_mul_two_pi, sin_sub_pi_div_two]
  have hc : cos x2 = -cos v := by
    have : x2 = (v + π) + m * (2 * π) := by linarith
    rw [this, cos_add_int_mul_two_pi, cos_add_pi]
  rw [hs, hc, bird_eq]
  have bu := cos_le_one u
  have bu' := neg_one_le_cos u
  have bv := cos_le_one v
  have bv' := neg_one_le_cos v
  rcases bird_terms (p := 1 - cos u) (q := 1 - cos v) (by linarith) (by linarith) (by linarith) (by linarith)
    with h | ⟨hsum, h⟩
  · have hd := sq_nonneg (x1 - x2)
    nlinarith
  · obtain ⟨su, au⟩ := bird_small hua (by linarith)
    obtain ⟨sv, av⟩ := bird_small hva (by linarith)
    set w := |u| + |v| with hw
    have hw2 : w ^ 2 ≤ 2 * (u ^ 2 + v ^ 2) := by
      rw [← sq_abs u, ← sq_abs v, hw]
      nlinarith [sq_nonneg (|u| - |v|)]
    have hdist : (π / 2 - w) ^ 2 ≤ (x1 - x2) ^ 2 := by
      have hx : x1 - x2 = (u - v) + (2 * (k - m) - 3 / 2) * π := by linarith
      have hn : π / 2 ≤ |(2 * ((k : ℝ) - m) - 3 / 2) * π| := by
        rw [abs_mul, abs_of_pos hpi]
        have : (1 / 2 : ℝ) ≤ |2 * ((k : ℝ) - m) - 3 / 2| := by
          rcases le_or_gt (k - m) 0 with hk | hk
          · have : ((k - m : ℤ) : ℝ) ≤ 0 := by exact_mod_cast hk
            push_cast at this
            rw [abs_of_nonpos (by linarith)]; linarith
          · have : (1 : ℝ) ≤ ((k - m : ℤ) : ℝ) := by exact_mod_cast hk
            push_cast at this
            rw [abs_of_nonneg (by linarith)]; linarith
        nlinarith
      have h3 : π / 2 - w ≤ |x1 - x2| := by
        have h4 := abs_add_le (x1 - x2) (-(u - v))
        have h5 : x1 - x2 + -(u - v) = (2 * ((k : ℝ) - m) - 3 / 2) * π := by rw [hx]; ring
        rw [h5] at h4
        have h6 : |-(u - v)| ≤ w := by
          rw [abs_neg]; exact abs_sub u v
        linarith
      rw [← sq_abs (x1 - x2)]
      exact pow_le_pow_left₀ (by linarith [pi_gt_three]) h3 2
    have h1 : 0.247 * w ^ 2 ≤ (1 - cos u) + (1 - cos v) := by linarith
    have hpl := pi_gt_d6
    have h2 : -(exp 4 * ((1 - (1 - cos u)) * exp (-(4 * (1 - cos v) - (1 - cos v) ^ 2))
      + (1 - (1 - cos v)) * exp (-(4 * (1 - cos u) - (1 - cos u) ^ 2)))) ≥
      -(exp 4 * (2 - 1.1856 * w ^ 2)) := by
      apply neg_le_neg
      apply mul_le_mul_of_nonneg_left _ (exp_pos _).le
      linarith
    have h3 : -(109.196302 : ℝ) + 64.73 * w ^ 2 ≤ -(exp 4 * (2 - 1.1856 * w ^ 2)) :=
      bird_arith1 (by rw [hw]; positivity) (by linarith) he.1 he.2
    have h4 := bird_arith2 w
    linarith

/-- **C122**: `bird`, documented minimum `f(4.70104, 3.15294) = -106.764537`, up to 0.002. -/
theorem C122_bird : HasMinimumUpTo 0.002 (· = 2) bird [4.70104, 3.15294] (-106.764537) := by
  have hpi := pi_pos
  have he := exp_four_bounds
  have low := bird_low
  refine ⟨rfl, ⟨_, rfl, ?_⟩, ?_⟩
  · rw [abs_le]
    refine ⟨by have := low 4.70104 3.15294; linarith, ?_⟩
    have hs : sin 4.70104 = -cos (4.70104 - 3 * π / 2) := by
      have : (4.70104 : ℝ) = ((4.70104 - 3 * π / 2) - π / 2) + (1 : ℤ) * (2 * π) := by push_cast; ring
      conv_lhs => rw [this]
      rw [sin_add_int_mul_two_pi, sin_sub_pi_div_two]
    have hc : cos 3.15294 = -cos (3.15294 - π) := by
      have : (3.15294 : ℝ) = (3.15294 - π) + π := by ring
      conv_lhs => rw [this]
      rw [cos_add_pi]
    rw [hs, hc, bird_eq]
    have hpl := pi_gt_d6
    have hpu := pi_lt_d6
    have bu := one_sub_sq_div_two_le_cos (x := 4.70104 - 3 * π / 2)
    have bv := one_sub_sq_div_two_le_cos (x := 3.15294 - π)
    have bu' := cos_le_one (4.70104 - 3 * π / 2)
    have bv' := cos_le_one (3.15294 - π)
    have hu : 1 - cos (4.70104 - 3 * π / 2) ≤ 0.000065 := by nlinarith
    have hv : 1 - cos (3.15294 - π) ≤ 0.000065 := by nlinarith
    generalize cos (4.70104 - 3 * π / 2) = a at *
    generalize cos (3.15294 - π) = b at *
    have e1 : 1 - 0.00026 ≤ exp (-(4 * (1 - b) - (1 - b) ^ 2)) := by
      have := add_one_le_exp (-(4 * (1 - b) - (1 - b) ^ 2))
      nlinarith
    have e2 : 1 - 0.00026 ≤ exp (-(4 * (1 - a) - (1 - a) ^ 2)) := by
      have := add_one_le_exp (-(4 * (1 - a) - (1 - a) ^ 2))
      nlinarith
    have t1 : 0.99967 ≤ (1 - (1 - a)) * exp (-(4 * (1 - b) - (1 - b) ^ 2)) := by nlinarith
    have t2 : 0.99967 ≤ (1 - (1 - b)) * exp (-(4 * (1 - a) - (1 - a) ^ 2)) := by nlinarith
    nlinarith
  · intro x hx
    obtain ⟨x1, x2, rfl⟩ := List.length_eq_two.1 hx
    exact ⟨_, rfl, low x1 x2⟩

end Ecrs.Props
