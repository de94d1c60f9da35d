import Verif.TestFunctions.Lemmas
import Mathlib.Tactic.LinearCombination
import Mathlib.Analysis.Complex.ExponentialBounds
import Mathlib.Analysis.Real.Pi.Bounds

/-!
# C107: documented minima the code does not have

For the functions below the documentation states a global minimum (a point and a value) that the
code contradicts: the value at the documented point is another one, or smaller values exist, or
there is no lower bound at all, or the call yields no number there.  Each theorem is a proof of the
contradiction; where the function has a different minimum that is easy to state, it is proved too.
-/

set_option linter.unusedSectionVars false
set_option linter.unusedVariables false

namespace Ecrs.Props
open Ecrs Ecrs.TF Real

/-- **C107**: `ackley3`, documented minimum about `-219.1418`, is positive everywhere. -/
theorem C107_ackley3 (x : List ℝ) (v : ℝ) (h : ackley3 x = .ok v) : 0 < v := by
  match x, h with
  | [x1, x2], h =>
    injection h with h
    rw [← h]; positivity
  | [], h => cases h
  | [_], h => cases h
  | _ :: _ :: _ :: _, h => cases h

example : ∃ v, ackley3 [1, 2] = .ok v := ⟨_, rfl⟩

/-- **C107**: `alpine2`, documented value `2.808^D` at `(7.917, …)`, is `0` on every vector of
non-negative numbers (the product starts at `0`). -/
theorem C107_alpine2 (x : List ℝ) (h : ∀ a ∈ x, 0 ≤ a) : alpine2 x = .ok 0 := by
  rw [alpine2]
  induction x with
  | nil => rfl
  | cons a l ih =>
    have ha : fsqrt a = .ok (sqrt a) := by
      rw [fsqrt, if_neg (not_lt.mpr (h a (by simp)))]
    rw [forLoop_cons, ha, bind_ok']
    show forLoop l (0 * (sqrt a * sin a)) _ = _
    rw [zero_mul]
    exact ih fun b hb => h b (by simp [hb])

example : ∀ a ∈ [(7.917 : ℝ), 7.917], 0 ≤ a := by intro a ha; simp at ha; rw [ha]; norm_num

/-- **C107**: `brad`, documented minimum `0.00821487` at `(0.0824, 1.133, 2.3437)`: the value there
is above `1`. -/
theorem C107_brad : ∃ v, brad [0.0824, 1.133, 2.3437] = .ok v ∧ 1 < v := by
  have hden : ∀ i ∈ List.range 15, (((16 - i : ℕ) : ℝ) * 1.133 + min (i : ℝ) ((16 - i : ℕ) : ℝ) * 2.3437) ≠ 0 := by
    intro i hi
    have hi := List.mem_range.1 hi
    have h1 : (0 : ℝ) < ((16 - i : ℕ) : ℝ) := by
      have : 0 < 16 - i := by omega
      exact_mod_cast this
    have h2 : (0 : ℝ) ≤ min (i : ℝ) ((16 - i : ℕ) : ℝ) := le_min (by positivity) h1.le
    have : (0 : ℝ) < ((16 - i : ℕ) : ℝ) * 1.133 + min (i : ℝ) ((16 - i : ℕ) : ℝ) * 2.3437 := by positivity
    exact this.ne'
  have hb : TF.get bradY 0 = .ok 0.14 := rfl
  refine ⟨0 + ((List.range 15).map fun i : ℕ => ((((0.14 : ℚ) : ℝ) - 0.0824 - i)
    / (((16 - i : ℕ) : ℝ) * 1.133 + min (i : ℝ) ((16 - i : ℕ) : ℝ) * 2.3437)) ^ 2).sum, ?_, ?_⟩
  · show forLoop _ _ _ = _
    apply forLoop_add
    intro i hi acc
    rw [hb, bind_ok', fdiv_ok (hden i hi), bind_ok']
    rfl
  · have hsplit : List.range 15 = List.range 14 ++ [14] := by decide
    rw [hsplit, List.map_append, List.sum_append]
    have h1 : 0 ≤ ((List.range 14).map fun i : ℕ => ((((0.14 : ℚ) : ℝ) - 0.0824 - i)
      / (((16 - i : ℕ) : ℝ) * 1.133 + min (i : ℝ) ((16 - i : ℕ) : ℝ) * 2.3437)) ^ 2).sum :=
      sum_map_nonneg fun i _ => sq_nonneg _
    have h2 : 1 < ([14].map fun i : ℕ => ((((0.14 : ℚ) : ℝ) - 0.0824 - i)
      / (((16 - i : ℕ) : ℝ) * 1.133 + min (i : ℝ) ((16 - i : ℕ) : ℝ) * 2.3437)) ^ 2).sum := by
      simp only [List.map_cons, List.map_nil, List.sum_cons, List.sum_nil]
      have : min ((14 : ℕ) : ℝ) ((16 - 14 : ℕ) : ℝ) = 2 := by norm_num
      rw [this]
      norm_num
    linarith

private theorem biggs_pos {l : List ℕ} {t : ℕ → ℝ} (h1 : 1 ∈ l) (ht : t 1 < 0) :
    0 < 0 + (l.map fun i => t i ^ 2).sum := by
  rw [zero_add]
  obtain ⟨a, b, rfl⟩ := List.append_of_mem h1
  rw [List.map_append, List.sum_append, List.map_cons, List.sum_cons]
  have h2 : 0 ≤ (a.map fun i => t i ^ 2).sum := sum_map_nonneg fun i _ => sq_nonneg _
  have h3 : 0 ≤ (b.map fun i => t i ^ 2).sum := sum_map_nonneg fun i _ => sq_nonneg _
  have h4 : 0 < t 1 ^ 2 := by nlinarith
  linarith

/-- **C107**: the Biggs functions are not `0` at their documented minimisers. -/
theorem C107_biggs :
    (∃ v, biggs_exp2 [1, 10] = .ok v ∧ 0 < v) ∧ (∃ v, biggs_exp3 [1, 10, 5] = .ok v ∧ 0 < v) ∧
    (∃ v, biggs_exp4 [1, 10, 1, 5] = .ok v ∧ 0 < v) ∧ (∃ v, biggs_exp5 [1, 10, 1, 5, 4] = .ok v ∧ 0 < v) ∧
    ∃ v, biggs_exp6 [1, 10, 1, 5, 4, 3] = .ok v ∧ 0 < v := by
  have e1 := exp_pos ((1 : ℕ) : ℝ)
  have e2 := exp_pos (-0.1 * ((1 : ℕ) : ℝ) * 10)
  have key : 3 * exp (-0.4 * ((1 : ℕ) : ℝ)) < 5 * exp (((1 : ℕ) : ℝ) + 3 * exp (-0.1 * 4)) := by
    have : exp (-0.4 * ((1 : ℕ) : ℝ)) < exp (((1 : ℕ) : ℝ) + 3 * exp (-0.1 * 4)) := by
      rw [exp_lt_exp]
      have := exp_pos (-0.1 * 4 : ℝ)
      push_cast
      linarith
    have := exp_pos (-0.4 * ((1 : ℕ) : ℝ))
    linarith
  refine ⟨⟨_, rfl, ?_⟩, ⟨_, rfl, ?_⟩, ⟨_, rfl, ?_⟩, ⟨_, rfl, ?_⟩, ⟨_, rfl, ?_⟩⟩
  · rw [foldl_add fun i : ℕ => (exp (-0.1 * i * 1) - 5 * exp (-0.1 * i * 10) - exp (-0.1 * i) - 5 * exp (i : ℝ)) ^ 2]
    refine biggs_pos (by decide) ?_
    rw [mul_one (-0.1 * ((1 : ℕ) : ℝ))]
    simp only [Nat.cast_one, mul_one] at e1 e2 ⊢
    linarith
  · rw [foldl_add fun i : ℕ => (exp (-0.1 * i * 1) - 5 * exp (-0.1 * i * 10) - exp (-0.1 * i) - 5 * exp (i : ℝ)) ^ 2]
    refine biggs_pos (by decide) ?_
    rw [mul_one (-0.1 * ((1 : ℕ) : ℝ))]
    simp only [Nat.cast_one, mul_one] at e1 e2 ⊢
    linarith
  · rw [foldl_add fun i : ℕ => (1 * exp (-0.1 * i * 1) - 5 * exp (-0.1 * i * 10) - exp (-0.1 * i) - 5 * exp (i : ℝ)) ^ 2]
    refine biggs_pos (by decide) ?_
    rw [mul_one (-0.1 * ((1 : ℕ) : ℝ))]
    simp only [Nat.cast_one, mul_one] at e1 e2 ⊢
    linarith
  · rw [foldl_add fun i : ℕ => (1 * exp (-0.1 * i * 1) - 5 * exp (-0.1 * i * 10) - exp (-0.1 * i)
      - 5 * exp ((i : ℝ) + 3 * exp (-0.1 * 4)) + 3 * exp (-0.4 * i)) ^ 2]
    refine biggs_pos (by decide) ?_
    rw [mul_one (-0.1 * ((1 : ℕ) : ℝ))]
    linarith
  · rw [foldl_add fun i : ℕ => (1 * exp (-0.1 * i * 1) - 5 * exp (-0.1 * i * 10) - exp (-0.1 * i)
      - 5 * exp ((i : ℝ) + 3 * exp (-0.1 * 4)) + 3 * exp (-0.4 * i)) ^ 2]
    refine biggs_pos (by decide) ?_
    rw [mul_one (-0.1 * ((1 : ℕ) : ℝ))]
    linarith

/-- **C107**: the second minimum documented for the three Bohachevsky functions,
`f(0, 1.25313) = 0.292579`: the value there is above `2`. -/
theorem C107_bohachevsky : ∀ f ∈ [bohachevsky_n1, bohachevsky_n2, bohachevsky_n3],
    ∃ v, f [0, 1.25313] = .ok v ∧ 2 < v := by
  intro f hf
  simp only [List.mem_cons, List.not_mem_nil, or_false] at hf
  rcases hf with rfl | rfl | rfl
  · refine ⟨_, rfl, ?_⟩
    nlinarith [cos_le_one (3 * π * 0), cos_le_one (4 * π * 1.25313)]
  · refine ⟨_, rfl, ?_⟩
    rw [mul_zero, cos_zero]
    nlinarith [cos_le_one (4 * π * 1.25313)]
  · refine ⟨_, rfl, ?_⟩
    nlinarith [cos_le_one (3 * π * 0 + 4 * π * 1.25313)]

/-- **C107**: `box_betts`, documented minimum `f(1, 10, 1) = 0`, is positive everywhere. -/
theorem C107_box_betts (x : List ℝ) (v : ℝ) (h : box_betts x = .ok v) : 0 < v := by
  match x, h with
  | [x1, x2, x3], h =>
    injection h with h
    rw [← h, List.range_succ_eq_map, List.foldl_cons, foldl_add fun i : ℕ =>
      (exp (-0.1 * ((i + 1 : ℕ) : ℝ) * x1) + exp (-0.1 * ((i + 1 : ℕ) : ℝ) * x2)
      + exp (x3 * (-0.1 * i) - exp (-1 * ((i + 1 : ℕ) : ℝ)))) ^ 2]
    have : 0 ≤ ((List.map Nat.succ (List.range 2)).map fun i : ℕ =>
      (exp (-0.1 * ((i + 1 : ℕ) : ℝ) * x1) + exp (-0.1 * ((i + 1 : ℕ) : ℝ) * x2)
      + exp (x3 * (-0.1 * i) - exp (-1 * ((i + 1 : ℕ) : ℝ)))) ^ 2).sum :=
      sum_map_nonneg fun i _ => sq_nonneg _
    positivity
  | [], h => cases h
  | [_], h => cases h
  | [_, _], h => cases h
  | _ :: _ :: _ :: _ :: _, h => cases h

example : ∃ v, box_betts [1, 10, 1] = .ok v := ⟨_, rfl⟩

/-- **C107**: `branin_rcos`, documented minimum `f(-3.2, 12.53) = 5.559037`: the value there is
above `1000` (`x / 4 * π²` stands for `x / (4 π²)`). -/
theorem C107_branin_rcos : ∃ v, branin_rcos [-3.2, 12.53] = .ok v ∧ 1000 < v := by
  refine ⟨_, rfl, ?_⟩
  have h1 := pi_gt_d2
  have h2 := pi_lt_d2
  have hpi : (0 : ℝ) < π := pi_pos
  have hsq : 9.8 < π ^ 2 := by nlinarith
  have hdiv : 5 * (-3.2 : ℝ) / π < 0 := div_neg_of_neg_of_pos (by norm_num) hpi
  have ht : (12.53 : ℝ) - 5.1 * (-3.2) ^ 2 / 4 * π ^ 2 + 5 * (-3.2) / π - 6 < -100 := by nlinarith
  have hs : 10000 < ((12.53 : ℝ) - 5.1 * (-3.2) ^ 2 / 4 * π ^ 2 + 5 * (-3.2) / π - 6) ^ 2 := by nlinarith
  have hc := neg_one_le_cos (-3.2)
  have hc' : |10 * (1 - 1 / 8 * π) * cos (-3.2)| ≤ 10 := by
    rw [abs_mul]
    have := abs_cos_le_one (-3.2)
    have h3 : |10 * (1 - 1 / 8 * π)| ≤ 10 := by rw [abs_le]; constructor <;> linarith
    nlinarith [abs_nonneg (10 * (1 - 1 / 8 * π)), abs_nonneg (cos (-3.2))]
  have := (abs_le.1 hc').1
  linarith

/-- **C107**: `branin_default`, documented minimum `f(-π, 2.275) = 0.397887`: the value there is
above `1000`. -/
theorem C107_branin_default : ∃ v, branin_default [-π, 2.275] = .ok v ∧ 1000 < v := by
  refine ⟨_, rfl, ?_⟩
  have h1 := pi_gt_d2
  have h2 := pi_lt_d2
  have hpi : (0 : ℝ) < π := pi_pos
  have hsq : 9.8 < π ^ 2 := by nlinarith
  have hdiv : 5 / π * (-π) = -5 := by field_simp
  have h4 : 96 < π ^ 2 * π ^ 2 := by nlinarith
  have ht : (2.275 : ℝ) - 5.1 / 4 * π ^ 2 * (-π) ^ 2 + 5 / π * (-π) - 6 < -100 := by
    rw [hdiv, neg_sq]; nlinarith
  have hs : 10000 < ((2.275 : ℝ) - 5.1 / 4 * π ^ 2 * (-π) ^ 2 + 5 / π * (-π) - 6) ^ 2 := by nlinarith
  simp only [cos_neg, cos_pi]
  linarith

/-- **C107**: `branin_rcos2`, documented minimum `f(-π, 12.275) = 0.3978873`: the value there is
above `1000`. -/
theorem C107_branin_rcos2 : ∃ v, branin_rcos2 [-π, 12.275] = .ok v ∧ 1000 < v := by
  refine ⟨_, rfl, ?_⟩
  have h1 := pi_gt_d2
  have h2 := pi_lt_d2
  have hpi : (0 : ℝ) < π := pi_pos
  have hsq : 9.8 < π ^ 2 := by nlinarith
  have hsq2 : π ^ 2 < 10 := by nlinarith
  have hdiv : 5 * (-π) / π = -5 := by field_simp
  have h4 : 96 < π ^ 2 * π ^ 2 := by nlinarith
  have ht : (12.275 : ℝ) - 5.1 * (-π) ^ 2 / 4 * π ^ 2 + 5 * (-π) / π - 6 < -100 := by
    rw [hdiv, neg_sq]; nlinarith
  have hs : 10000 < ((12.275 : ℝ) - 5.1 * (-π) ^ 2 / 4 * π ^ 2 + 5 * (-π) / π - 6) ^ 2 := by nlinarith
  have hl0 : 0 ≤ log ((-π) ^ 2 + 12.275 ^ 2 + 1) := log_nonneg (by nlinarith [sq_nonneg (-π)])
  have hl1 : log ((-π) ^ 2 + 12.275 ^ 2 + 1) ≤ 162 := by
    have := log_le_sub_one_of_pos (show (0 : ℝ) < (-π) ^ 2 + 12.275 ^ 2 + 1 by positivity)
    rw [neg_sq] at *
    nlinarith
  have hc := abs_le.1 (abs_cos_le_one (12.275 : ℝ))
  have hk : |10 * (1 - 1 / 8 * π) * cos (-π) * cos 12.275 * log ((-π) ^ 2 + 12.275 ^ 2 + 1)| ≤ 1620 := by
    rw [abs_mul, abs_mul, abs_of_nonneg hl0]
    have a1 : |10 * (1 - 1 / 8 * π) * cos (-π)| ≤ 10 := by
      rw [cos_neg, cos_pi, abs_le]; constructor <;> linarith
    have a2 := abs_cos_le_one (12.275 : ℝ)
    have a3 : |10 * (1 - 1 / 8 * π) * cos (-π)| * |cos 12.275| ≤ 10 := by
      nlinarith [abs_nonneg (10 * (1 - 1 / 8 * π) * cos (-π)), abs_nonneg (cos (12.275 : ℝ))]
    nlinarith [abs_nonneg (10 * (1 - 1 / 8 * π) * cos (-π)), abs_nonneg (cos (12.275 : ℝ))]
  have := (abs_le.1 hk).1
  linarith

/-- **C107**: `brent`, documented minimum `f(0, 0) = 0`: the value there is `201`, and `(-10, -10)`
has a value of at most `1`. -/
theorem C107_brent : brent [0, 0] = .ok 201 ∧ ∃ v, brent [-10, -10] = .ok v ∧ v ≤ 1 := by
  constructor
  · show Except.ok _ = _
    norm_num
  · refine ⟨_, rfl, ?_⟩
    have : exp (-1 * (-10 : ℝ) ^ 2 - (-10) ^ 2) ≤ 1 := by rw [exp_le_one_iff]; norm_num
    linarith

/-- **C107**: `bukin_2`, documented minimum `f(-10, 0) = 0`, has no lower bound. -/
theorem C107_bukin_2 : UnboundedBelow 2 bukin_2 := by
  intro B
  refine ⟨[-10, -|B| - 1], rfl, _, rfl, ?_⟩
  have := neg_abs_le B
  have := abs_nonneg B
  linarith

/-- **C107**: `six_hump_camel`, documented minimum `-1.0316`, has no lower bound (`x1³ / 3` stands for
`x1⁴ / 3`). -/
theorem C107_six_hump_camel : UnboundedBelow 2 six_hump_camel := by
  intro B
  refine ⟨[-(|B| + 4), 0], rfl, _, rfl, ?_⟩
  have h0 := neg_abs_le B
  have h1 := abs_nonneg B
  set t := |B| + 4 with ht
  have h4 : 4 ≤ t := by linarith
  have : (4 - 2.1 * (-t) ^ 2 + (-t) ^ 3 / 3) * (-t) ^ 2 + -t * 0 + (-4 + 4 * (0 : ℝ) ^ 2) * 0 ^ 2 ≤ -t := by
    have h5 : 4 - 2.1 * (-t) ^ 2 + (-t) ^ 3 / 3 ≤ -1 := by nlinarith [pow_pos (by linarith : 0 < t) 3]
    have h6 : 16 ≤ (-t) ^ 2 := by nlinarith
    nlinarith
  linarith

/-- **C107**: `chen_bird`, documented minimum `-2000` at `(-7/18, -13/18)`: the value there is above
`-1001`; the minimum `-2000` is attained at `(5/18, 17/18)`. -/
theorem C107_chen_bird : (∃ v, chen_bird [-7 / 18, -13 / 18] = .ok v ∧ -1001 < v) ∧
    HasMinimum (· = 2) chen_bird [5 / 18, 17 / 18] (-2000) := by
  constructor
  · refine ⟨_, rfl, ?_⟩
    norm_num
  · refine fn2_min (by norm_num) fun x1 x2 => ?_
    have h1 : -1000 ≤ -0.001 / (0.001 * 0.001 + (x1 - 0.4 * x2 + 0.1) ^ 2) := by
      rw [le_div_iff₀ (by positivity)]
      nlinarith [sq_nonneg (x1 - 0.4 * x2 + 0.1)]
    have h2 : 0.001 / (0.001 * 0.001 + (2 * x1 + x2 - 1.5) ^ 2) ≤ 1000 := by
      rw [div_le_iff₀ (by positivity)]
      nlinarith [sq_nonneg (2 * x1 + x2 - 1.5)]
    linarith

/-- **C107**: `chen_v`, documented minimum `-2000` at `(-0.3888889, 0.7222222)`: the value there is
above `-1`, and `(1/2, 1/2)` has a value below `-2000`. -/
theorem C107_chen_v : (∃ v, chen_v [-0.3888889, 0.7222222] = .ok v ∧ -1 < v) ∧
    ∃ v, chen_v [1 / 2, 1 / 2] = .ok v ∧ v < -2000 := by
  constructor
  · refine ⟨_, rfl, ?_⟩
    norm_num
  · refine ⟨_, rfl, ?_⟩
    norm_num

/-- **C107**: `cosine_mixture`, documented minimum `f(0, …, 0) = 0`: the value there is `-0.1 n`, and
in every dimension ≥ 1 there is no lower bound. -/
theorem C107_cosine_mixture (n : ℕ) :
    cosine_mixture (List.replicate n 0) = .ok (-0.1 * n) ∧ (0 < n → UnboundedBelow n cosine_mixture) := by
  have hf : ∀ x : List ℝ, cosine_mixture x =
      .ok (-0.1 * (0 + (x.map fun a => cos (5 * π * a)).sum) - (0 + (x.map (· ^ 2)).sum)) := by
    intro x
    rw [cosine_mixture, foldl_add fun a => cos (5 * π * a), foldl_add fun a : ℝ => a ^ 2]
    rfl
  constructor
  · rw [hf, sum_map_const (c := 1) fun a ha => by rw [mem_replicate_eq ha]; simp,
      sum_map_zero fun a ha => by rw [mem_replicate_eq ha]; norm_num]
    simp
  · intro hn B
    refine ⟨List.replicate n (|B| + 1), by simp, _, hf _, ?_⟩
    rw [sum_map_const (c := cos (5 * π * (|B| + 1))) fun a ha => by rw [mem_replicate_eq ha],
      sum_map_const (c := (|B| + 1) ^ 2) fun a ha => by rw [mem_replicate_eq ha], List.length_replicate]
    have h1 := neg_one_le_cos (5 * π * (|B| + 1))
    have h2 : (1 : ℝ) ≤ n := by exact_mod_cast hn
    have h3 := abs_nonneg B
    have h4 := neg_abs_le B
    nlinarith [mul_nonneg (by linarith : (0 : ℝ) ≤ n - 1) h3, mul_nonneg (by linarith : (0 : ℝ) ≤ n - 1) (sq_nonneg |B|),
      mul_nonneg (by linarith : (0 : ℝ) ≤ n) (by linarith : (0 : ℝ) ≤ cos (5 * π * (|B| + 1)) + 1)]

/-- **C107**: `csendes`, documented minimum `f(0, …, 0) = 0`, yields no number there (it divides by
the coordinate), in any dimension ≥ 1. -/
theorem C107_csendes (n : ℕ) (hn : 0 < n) : csendes (List.replicate n 0) = .error .undef := by
  obtain ⟨k, rfl⟩ : ∃ k, n = k + 1 := ⟨n - 1, by omega⟩
  rw [csendes, List.replicate_succ]
  exact forLoop_first (by rw [fdiv_zero, bind_err'])

example : (0 : ℕ) < 2 := by norm_num

/-- **C107**: `cube`, documented minimum `f(-1, 1) = 0`: the value there is `404`; the minimum `0` is
attained at `(1, 1)`. -/
theorem C107_cube : cube [-1, 1] = .ok 404 ∧ HasMinimum (· = 2) cube [1, 1] 0 := by
  constructor
  · show Except.ok _ = _
    norm_num
  · exact fn2_min (by norm_num) fun x1 x2 => by positivity

/-- **C107**: `damavandi`, documented minimum `f(-1, 1) = 0`: the value there is `138`. -/
theorem C107_damavandi : damavandi [-1, 1] = .ok 138 := by
  show Except.ok _ = _
  have : sin (π * ((1 : ℝ) - 2)) = 0 := by
    have : π * ((1 : ℝ) - 2) = -π := by ring
    rw [this, sin_neg, sin_pi, neg_zero]
  rw [this]
  norm_num

/-- **C107**: `deb1`, documented minimum `f(0, …, 0) = 0`: in every dimension `n ≥ 2` the value at
`(0.1, …, 0.1)` is `-n / (n - 1)`, below the documented minimum. -/
theorem C107_deb1 (n : ℕ) (hn : 2 ≤ n) :
    ∃ v, deb1 (List.replicate n 0.1) = .ok v ∧ v = -1 / ((n - 1 : ℕ) : ℝ) * n ∧ v < 0 := by
  have hs : sin (5 * π * 0.1) = 1 := by
    have : 5 * π * 0.1 = π / 2 := by ring
    rw [this, sin_pi_div_two]
  have hpos : (0 : ℝ) < ((n - 1 : ℕ) : ℝ) := by
    have : 0 < n - 1 := by omega
    exact_mod_cast this
  refine ⟨-1 / ((n - 1 : ℕ) : ℝ) * n, ?_, rfl, ?_⟩
  · rw [deb1, List.length_replicate, usub_ok (by omega), bind_ok', fdiv_ok hpos.ne', bind_ok',
      foldl_add fun a => sin (5 * π * a) ^ 6,
      sum_map_const (c := 1) fun a ha => by rw [mem_replicate_eq ha, hs]; norm_num]
    simp [pure, Except.pure]
  · have hn' : (0 : ℝ) < n := by positivity
    exact mul_neg_of_neg_of_pos (div_neg_of_neg_of_pos (by norm_num) hpos) hn'

/-- **C107**: `deb3`, documented minimum `f(0, …, 0) = 0`: in every dimension `n ≥ 2` the value there
is `-n / (8 (n - 1))`. -/
theorem C107_deb3 (n : ℕ) (hn : 2 ≤ n) :
    ∃ v, deb3 (List.replicate n 0) = .ok v ∧ v = -1 / ((n - 1 : ℕ) : ℝ) * (n * (1 / 8)) ∧ v < 0 := by
  have hp : powf 0 0.75 = .ok 0 := by
    rw [powf_ok le_rfl (by norm_num), zero_rpow (by norm_num)]
  have hs : sin (5 * π * (0 - 0.05)) ^ 6 = 1 / 8 := by
    have : 5 * π * (0 - 0.05) = -(π / 4) := by ring
    rw [this, sin_neg, sin_pi_div_four]
    have h2 : sqrt 2 ^ 2 = 2 := sq_sqrt (by norm_num)
    have : (-(sqrt 2 / 2)) ^ 6 = (sqrt 2 ^ 2) ^ 3 / 64 := by ring
    rw [this, h2]; norm_num
  have hpos : (0 : ℝ) < ((n - 1 : ℕ) : ℝ) := by
    have : 0 < n - 1 := by omega
    exact_mod_cast this
  refine ⟨-1 / ((n - 1 : ℕ) : ℝ) * (n * (1 / 8)), ?_, rfl, ?_⟩
  · rw [deb3, forLoop_add (t := fun _ => 1 / 8) 0 fun a ha acc => by
      rw [mem_replicate_eq ha, hp, bind_ok', hs]; rfl]
    rw [bind_ok', List.length_replicate, usub_ok (by omega), bind_ok', fdiv_ok hpos.ne', bind_ok',
      sum_map_const (c := 1 / 8) fun a ha => rfl, List.length_replicate, zero_add]
    rfl
  · have hn' : (0 : ℝ) < n := by positivity
    exact mul_neg_of_neg_of_pos (div_neg_of_neg_of_pos (by norm_num) hpos) (by positivity)

/-- **C107**: `deckkers_aarts`, documented minimum `-24777`, has no lower bound (`1 / 100000` is an
integer division and removes the last summand). -/
theorem C107_deckkers_aarts : UnboundedBelow 2 deckkers_aarts := by
  intro B
  refine ⟨[0, |B| + 2], rfl, _, rfl, ?_⟩
  have h0 := neg_abs_le B
  have h1 := abs_nonneg B
  set t := |B| + 2 with ht
  have h2 : 2 ≤ t := by linarith
  have h3 : 4 ≤ t ^ 2 := by nlinarith
  have hz : (1 / 100000 : ℕ) = 0 := by norm_num
  simp only [hz, Nat.cast_zero, zero_mul, add_zero]
  nlinarith

/-- **C107**: `dolan`, documented minimum `f(0, 0, 0, 0, 0) = 0`: the value there is `-1`, and there
is no lower bound. -/
theorem C107_dolan : dolan [0, 0, 0, 0, 0] = .ok (-1) ∧ UnboundedBelow 5 dolan := by
  constructor
  · show Except.ok _ = _
    norm_num
  · intro B
    refine ⟨[0, 0, |B|, 0, 0], rfl, _, rfl, ?_⟩
    have h0 := neg_abs_le B
    have h1 := abs_nonneg B
    norm_num
    nlinarith

/-- **C107**: `eavd`, documented minimum `0.470427` at `(2.842503, 1.920175)`: the value there is
above `100`. -/
theorem C107_eavd : ∃ v, eavd [2.842503, 1.920175] = .ok v ∧ 100 < v := by
  refine ⟨_, rfl, ?_⟩
  norm_num

/-- **C107**: `egg_crate`, documented minimum `0.470427` at `(2.842503, 1.920175)`: the value there
is above `8`; the minimum `0` is attained at `(0, 0)`. -/
theorem C107_egg_crate : (∃ v, egg_crate [2.842503, 1.920175] = .ok v ∧ 8 < v) ∧
    HasMinimum (· = 2) egg_crate [0, 0] 0 := by
  constructor
  · refine ⟨_, rfl, ?_⟩
    nlinarith [sq_nonneg (sin (2.842503 : ℝ)), sq_nonneg (sin (1.920175 : ℝ))]
  · exact fn2_min (by norm_num) fun x1 x2 => by positivity

/-- **C107**: `exponential`, documented minimum `f(0, …, 0) = 1`: the value there is `-1`, which is the
minimum. -/
theorem C107_exponential (n : ℕ) : HasMinimum (fun _ => True) exponential (List.replicate n 0) (-1) := by
  refine guarded_min (g := fun x => -1 * exp (-0.5 * (0 + (x.map (· ^ 2)).sum))) ?_ trivial ?_ ?_
  · intro x _; rw [exponential, foldl_add (fun a => a ^ 2)]; rfl
  · have h1 : ((List.replicate n (0 : ℝ)).map (· ^ 2)).sum = 0 :=
      sum_map_zero fun a ha => by rw [mem_replicate_eq ha]; norm_num
    simp only [h1]; norm_num
  · intro x _
    have h : 0 ≤ (x.map (· ^ 2)).sum := sum_map_nonneg fun a _ => sq_nonneg a
    have : exp (-0.5 * (0 + (x.map (· ^ 2)).sum)) ≤ 1 := by
      rw [exp_le_one_iff]; linarith
    linarith

/-- **C107**: `exp2`, documented minimum `f(1, 10) = 0`: the value there is positive (`-i / 10` is an
integer division). -/
theorem C107_exp2 : ∃ v, exp2 [1, 10] = .ok v ∧ 0 < v := by
  refine ⟨_, rfl, ?_⟩
  rw [foldl_add fun i : ℕ => (exp (-1 * i * 1 / 10) - 5 * exp (-1 * i * 10 / 10)
    - exp 1 ^ (Int.tdiv (-(i : ℤ)) 10) + 5 * exp 1 ^ (-(i : ℤ))) ^ 2]
  refine biggs_pos (by decide) ?_
  have h0 : Int.tdiv (-((1 : ℕ) : ℤ)) 10 = 0 := by decide
  have h1 : exp 1 ^ (-((1 : ℕ) : ℤ)) = exp (-1) := by
    rw [zpow_neg, Nat.cast_one, zpow_one, exp_neg]
  have h2 : exp (-1 * ((1 : ℕ) : ℝ) * 10 / 10) = exp (-1) := by congr 1; norm_num
  have h3 : exp (-1 * ((1 : ℕ) : ℝ) * 1 / 10) < 1 := by
    rw [exp_lt_one_iff]; norm_num
  rw [h0, h1, h2, zpow_zero]
  linarith

/-- **C107**: `giunta`, documented minimum `0.060447` at `(0.45834282, 0.45834282)`: the value there
is negative (`16 / 15` is an integer division, and the constant summand is missing). -/
theorem C107_giunta : ∃ v, giunta [0.45834282, 0.45834282] = .ok v ∧ v < 0 := by
  refine ⟨_, rfl, ?_⟩
  have hz : (16 / 15 : ℕ) = 1 := by norm_num
  simp only [hz, Nat.cast_one, one_mul, List.foldl_cons, List.foldl_nil]
  have h1 : sin ((0.45834282 : ℝ) - 1) = -sin 0.54165718 := by
    rw [← sin_neg]; norm_num
  have h2 := sin_gt_sub_cube (x := 0.54165718) (by norm_num)
  have h3 := sin_le_one (4 * ((0.45834282 : ℝ) - 1))
  rw [h1]
  norm_num at *
  linarith

/-- **C107**: `hosaki`, documented minimum about `-2.3458`, has no lower bound. -/
theorem C107_hosaki : UnboundedBelow 2 hosaki := by
  intro B
  refine ⟨[4, -(|B| + 1)], rfl, _, rfl, ?_⟩
  have h0 := neg_abs_le B
  have h1 := abs_nonneg B
  set t := |B| + 1 with ht
  have h2 : 1 ≤ t := by linarith
  have h3 : 1 ≤ exp (-1 * -t) := by rw [one_le_exp_iff]; linarith
  have h4 : t ≤ t ^ 2 := by nlinarith
  have e : (1 - 8 * 4 + 7 * (4 : ℝ) ^ 2 - 7 / 3 * 4 ^ 3 + 0.25 * 4 ^ 4) = -13 / 3 := by norm_num
  rw [e, neg_sq]
  nlinarith [mul_nonneg (sq_nonneg t) (by linarith : 0 ≤ exp (-1 * -t) - 1)]

/-- **C107**: `adijman`, documented minimum about `-2.02181`, has no lower bound (the documentation
states no domain). -/
theorem C107_adijman : UnboundedBelow 2 adijman := by
  intro B
  refine ⟨[|B| + 1, 0], rfl, _, rfl, ?_⟩
  have h0 := neg_abs_le B
  simp only [sin_zero, mul_zero]
  norm_num
  linarith

/-- **C107**: `mcormick`, documented minimum `-1.9133`, has no lower bound (the documentation states
no domain). -/
theorem C107_mcormick : UnboundedBelow 2 mcormick := by
  intro B
  refine ⟨[-(|B| + 2) + 1 / 2, -(|B| + 2) - 1 / 2], rfl, _, rfl, ?_⟩
  have h0 := neg_abs_le B
  have h := sin_le_one (-(|B| + 2) + 1 / 2 + (-(|B| + 2) - 1 / 2))
  nlinarith

private theorem pi_large (B : ℝ) : ∃ k : ℕ, B < (π / 2 + k * (2 * π)) ^ 2 ∧ |B| + 1 ≤ π / 2 + k * (2 * π) := by
  obtain ⟨k, hk⟩ := exists_nat_gt (|B| + 1)
  refine ⟨k, ?_, ?_⟩
  · have h1 := pi_gt_three
    have h2 := le_abs_self B
    have h3 := abs_nonneg B
    have h4 : |B| + 1 ≤ π / 2 + k * (2 * π) := by nlinarith
    nlinarith
  · have h1 := pi_gt_three
    have h3 := abs_nonneg B
    nlinarith

/-- **C107**: `schwefel`, documented minimum `0`, has no lower bound in any dimension ≥ 1 (the
documentation states no domain). -/
theorem C107_schwefel (n : ℕ) (hn : 0 < n) : UnboundedBelow n schwefel := by
  intro B
  obtain ⟨k, hk, -⟩ := pi_large (|B| + 420)
  set s := π / 2 + k * (2 * π) with hs
  have hs0 : 0 ≤ s := by have := pi_pos; positivity
  refine ⟨List.replicate n (s ^ 2), by simp,
    418.9829 * n - ((List.replicate n (s ^ 2)).map fun a => a * sin (sqrt |a|)).sum, ?_, ?_⟩
  · rw [schwefel, require_ok (ne_nil_of (by simpa using hn)), bind_ok',
      foldl_sub fun a => a * sin (sqrt |a|), List.length_replicate]
    rfl
  · have h1 : sin (sqrt |s ^ 2|) = 1 := by
      rw [abs_of_nonneg (sq_nonneg s), sqrt_sq hs0, hs, sin_add_nat_mul_two_pi, sin_pi_div_two]
    rw [sum_map_const (c := s ^ 2) fun a ha => by rw [mem_replicate_eq ha, h1, mul_one],
      List.length_replicate]
    have h2 : (1 : ℝ) ≤ n := by exact_mod_cast hn
    have h3 := neg_abs_le B
    have h4 := abs_nonneg B
    nlinarith

/-- **C107**: `eggholder`, documented minimum `-959.6407`, has no lower bound (the documentation
states no domain). -/
theorem C107_eggholder : UnboundedBelow 2 eggholder := by
  intro B
  obtain ⟨k, hk, -⟩ := pi_large (|B|)
  set s := π / 2 + k * (2 * π) with hs
  have hs0 : 0 ≤ s := by have := pi_pos; positivity
  refine ⟨[0, s ^ 2 - 47], rfl, _, rfl, ?_⟩
  have e : (0 : ℝ) / 2 + (s ^ 2 - 47) + 47 = s ^ 2 := by ring
  have h1 : sin (sqrt |s ^ 2|) = 1 := by
    rw [abs_of_nonneg (sq_nonneg s), sqrt_sq hs0, hs, sin_add_nat_mul_two_pi, sin_pi_div_two]
  rw [e, h1]
  have h3 := neg_abs_le B
  linarith

/-- **C107**: `holder_table`, documented minimum `-19.2085`, and `holder_table2`, documented minimum
`-26.920336`, have no lower bound (the documentation states no domain). -/
theorem C107_holder_table : UnboundedBelow 2 holder_table ∧ UnboundedBelow 2 holder_table2 := by
  have hpi := pi_pos
  constructor
  · intro B
    obtain ⟨k, hk⟩ := exists_nat_gt (|B| + 2)
    refine ⟨[π / 2 + k * (2 * π), 0], rfl, _, rfl, ?_⟩
    have h0 : 0 ≤ π / 2 + k * (2 * π) := by positivity
    have h1 : sqrt ((π / 2 + k * (2 * π)) ^ 2 + 0 ^ 2) = π / 2 + k * (2 * π) := by
      rw [zero_pow (by norm_num), add_zero, sqrt_sq h0]
    have h2 : (π / 2 + k * (2 * π)) / π = 1 / 2 + 2 * k := by field_simp
    rw [h1, h2, sin_add_nat_mul_two_pi, sin_pi_div_two, cos_zero, one_mul, one_mul, abs_of_pos (exp_pos _)]
    have h3 := neg_abs_le B
    have h4 := abs_nonneg B
    have h5 : abs (1 - (1 / 2 + 2 * (k : ℝ))) = 2 * k - 1 / 2 := by
      rw [abs_of_neg (by linarith)]; ring
    rw [h5]
    have := add_one_le_exp (2 * (k : ℝ) - 1 / 2)
    linarith
  · intro B
    obtain ⟨k, hk⟩ := exists_nat_gt (|B| + 2)
    refine ⟨[k * (2 * π), 0], rfl, _, rfl, ?_⟩
    have h0 : 0 ≤ k * (2 * π) := by positivity
    have h1 : sqrt ((k * (2 * π)) ^ 2 + 0 ^ 2) = k * (2 * π) := by
      rw [zero_pow (by norm_num), add_zero, sqrt_sq h0]
    have h2 : (k * (2 * π)) / π = 2 * k := by field_simp
    rw [h1, h2, cos_nat_mul_two_pi, cos_zero, one_mul, one_mul, abs_of_pos (exp_pos _)]
    have h3 := neg_abs_le B
    have h4 := abs_nonneg B
    have h5 : abs (1 - 2 * (k : ℝ)) = 2 * k - 1 := by
      rw [abs_of_neg (by linarith)]; ring
    rw [h5]
    have := add_one_le_exp (2 * (k : ℝ) - 1)
    linarith

/-- **C107**: `keane`, documented minimum `-0.673668`, is never negative, and yields no number at the
origin. -/
theorem C107_keane : (∀ x v, keane x = .ok v → 0 ≤ v) ∧ keane [0, 0] = .error .undef := by
  constructor
  · intro x v h
    match x, h with
    | [x1, x2], h =>
      rw [show keane [x1, x2] = fdiv (sin (x1 - x2) ^ 2 * sin (x1 + x2) ^ 2) (sqrt (x1 ^ 2 + x2 ^ 2)) from rfl,
        fdiv] at h
      split at h
      · cases h
      · injection h with h
        rw [← h]; positivity
    | [], h => cases h
    | [_], h => cases h
    | _ :: _ :: _ :: _, h => cases h
  · show fdiv _ (sqrt (0 ^ 2 + 0 ^ 2)) = _
    norm_num
    exact fdiv_zero

example : ∃ v, keane [0, 1] = .ok v := by
  apply Exists.intro
  show fdiv _ (sqrt (0 ^ 2 + 1 ^ 2)) = _
  rw [fdiv_ok (by norm_num)]

/-- **C107**: `paviani`, documented minimum about `-45.778`, is never negative (its product starts at
`0`). -/
theorem C107_paviani (x : List ℝ) (v : ℝ) (h : paviani x = .ok v) : 0 ≤ v := by
  by_cases hx : x.length = 10
  · rw [paviani, require_ok hx, bind_ok'] at h
    cases hf : forLoop x 0 (fun res arg => (do
      let u ← fln (arg - 2)
      let v ← fln (10 - arg)
      pure (res + (u ^ 2 + v ^ 2)) : R)) with
    | error e => rw [hf, bind_err'] at h; cases h
    | ok r =>
      have hr : ∀ (l : List ℝ) (c r : ℝ), 0 ≤ c → forLoop l c (fun res arg => (do
          let u ← fln (arg - 2)
          let v ← fln (10 - arg)
          pure (res + (u ^ 2 + v ^ 2)) : R)) = .ok r → 0 ≤ r := by
        intro l
        induction l with
        | nil => intro c r hc h; injection h with h; rw [← h]; exact hc
        | cons a l ih =>
          intro c r hc h
          rw [forLoop_cons] at h
          cases h1 : fln (a - 2) with
          | error e => rw [h1, bind_err', bind_err'] at h; cases h
          | ok u =>
            rw [h1, bind_ok'] at h
            cases h2 : fln (10 - a) with
            | error e => rw [h2, bind_err', bind_err'] at h; cases h
            | ok w =>
              rw [h2, bind_ok'] at h
              exact ih (c + (u ^ 2 + w ^ 2)) r (by positivity) h
      have hz : ∀ l : List ℝ, l.foldl (fun s a => s * a) (0 : ℝ) = 0 := by
        intro l
        induction l with
        | nil => rfl
        | cons a l ih => rw [List.foldl_cons, zero_mul]; exact ih
      rw [hf, bind_ok', hz] at h
      dsimp only at h
      rw [powf_ok le_rfl (by norm_num), zero_rpow (by norm_num), bind_ok'] at h
      injection h with h
      rw [← h, sub_zero]
      exact hr x 0 r le_rfl hf
  · rw [paviani, require_err hx, bind_err'] at h; cases h

/-- **C107**: `paviani` does return, at its documented minimiser for instance. -/
theorem C107_paviani_returns : ∃ v, paviani (List.replicate 10 9.351) = .ok v := by
  have h1 : fln ((9.351 : ℝ) - 2) = .ok (log (9.351 - 2)) := by rw [fln, if_neg (by norm_num)]
  have h2 : fln (10 - (9.351 : ℝ)) = .ok (log (10 - 9.351)) := by rw [fln, if_neg (by norm_num)]
  apply Exists.intro
  rw [paviani, require_ok (by simp), bind_ok',
    forLoop_add (t := fun _ => log (9.351 - 2) ^ 2 + log (10 - 9.351) ^ 2) 0 fun a ha acc => by
      rw [mem_replicate_eq ha, h1, bind_ok', h2, bind_ok']; rfl, bind_ok']
  have hz : ∀ l : List ℝ, l.foldl (fun s a => s * a) (0 : ℝ) = 0 := by
    intro l
    induction l with
    | nil => rfl
    | cons a l ih => rw [List.foldl_cons, zero_mul]; exact ih
  rw [hz]
  dsimp only
  rw [powf_ok le_rfl (by norm_num), bind_ok']
  rfl

/-- **C107**: `power_sum`, documented minimum `f(0, …, 0) = 0`: with `b = (0, …, 0)` the value there
is `n²`. -/
theorem C107_power_sum (n : ℕ) : power_sum (List.replicate n 0) (List.replicate n 0) = .ok ((n : ℝ) ^ 2) := by
  rw [power_sum, require_ok (by simp), bind_ok']
  have hin : ∀ i : ℕ, (List.replicate n (0 : ℝ)).foldl (fun sum j => sum + j ^ i) 0 = if i = 0 then (n : ℝ) else 0 := by
    intro i
    rw [foldl_add fun j : ℝ => j ^ i]
    split
    · next h => subst h; rw [sum_map_const (c := 1) fun a ha => by norm_num]; simp
    · next h => rw [sum_map_zero fun a ha => by rw [mem_replicate_eq ha, zero_pow h]]; simp
  rw [foldl_add fun p : ℝ × ℕ => (((List.replicate n (0 : ℝ)).foldl (fun sum j => sum + j ^ p.2) 0) - p.1) ^ 2]
  simp only [hin]
  cases n with
  | zero => simp [pure, Except.pure]
  | succ k =>
    rw [List.replicate_succ, List.zipIdx_cons, List.map_cons, List.sum_cons, sum_map_zero]
    · simp [pure, Except.pure]
    · intro p hp
      have h1 := mem_zipIdx_replicate_from hp
      rw [h1.1, if_neg (by have := h1.2; omega)]
      norm_num
where
  mem_zipIdx_replicate_from {k : ℕ} {p : ℝ × ℕ} (h : p ∈ (List.replicate k (0 : ℝ)).zipIdx (0 + 1)) :
      p.1 = 0 ∧ 1 ≤ p.2 := by
    refine ⟨mem_replicate_eq (List.fst_mem_of_mem_zipIdx h), ?_⟩
    have := List.le_snd_of_mem_zipIdx h
    omega

/-- **C107**: `price3`, documented minimum `f(±5, ±5) = 0`: all four values are above `1000`. -/
theorem C107_price3 (s t : ℝ) (hs : s = 5 ∨ s = -5) (ht : t = 5 ∨ t = -5) :
    ∃ v, price3 [s, t] = .ok v ∧ 1000 < v := by
  refine ⟨_, rfl, ?_⟩
  rcases hs with rfl | rfl <;> rcases ht with rfl | rfl <;> norm_num

/-- **C107**: `quadratic`, documented minimum `-3873.7243`, has no lower bound (the coefficient of
`x2²` is `23.64` instead of `203.64`, which makes the form indefinite). -/
theorem C107_quadratic : UnboundedBelow 2 quadratic := by
  intro B
  refine ⟨[-(|B| + 1), |B| + 1], rfl, _, rfl, ?_⟩
  have h0 := neg_abs_le B
  have h1 := abs_nonneg B
  nlinarith

/-- **C107**: `rosenbrock_modified`, documented minimum `f(-1, -1) = 0`: the value there is `78`, and
`(0, 1)` has a negative one. -/
theorem C107_rosenbrock_modified : rosenbrock_modified [-1, -1] = .ok 78 ∧
    ∃ v, rosenbrock_modified [0, 1] = .ok v ∧ v < 0 := by
  constructor
  · show Except.ok _ = _
    norm_num
  · refine ⟨_, rfl, ?_⟩
    have : 1 ≤ exp (-1 * ((0 : ℝ) + 1) ^ 2 + (1 + 1) ^ 2 / 0.1) := by rw [one_le_exp_iff]; norm_num
    nlinarith

/-- **C107**: `rump`, documented minimum `f(0, 0) = 0`: the value at `(1, 0)` is `-2`. -/
theorem C107_rump : rump [0, 0] = .ok 0 ∧ rump [1, 0] = .ok (-2) := by
  constructor <;> show Except.ok _ = _ <;> norm_num

/-- **C107**: `schmidt_vetters`, documented minimum `3` at `(0.78547, 0.78547, 0.78547)`: the value
there is above `3.4`. -/
theorem C107_schmidt_vetters : ∃ v, schmidt_vetters [0.78547, 0.78547, 0.78547] = .ok v ∧ 3.4 < v := by
  refine ⟨_, rfl, ?_⟩
  have h1 := neg_one_le_sin ((π * 0.78547 + 0.78547) / 2)
  have h2 := quadratic_le_exp_of_nonneg (x := (((0.78547 : ℝ) + 0.78547) / 2 - 2) ^ 2) (by positivity)
  norm_num at *
  linarith

/-- **C107**: `testtube_holder`, documented minimum `-10.872300`, is above `-5` everywhere. -/
theorem C107_testtube_holder (x : List ℝ) (v : ℝ) (h : testtube_holder x = .ok v) : -5 < v := by
  match x, h with
  | [x1, x2], h =>
    injection h with h
    rw [← h]
    have h1 : |cos (x1 ^ 2 + x2 ^ 2) / 200| ≤ 1 / 200 := by
      rw [abs_div, abs_of_pos (by norm_num : (0 : ℝ) < 200)]
      have := abs_cos_le_one (x1 ^ 2 + x2 ^ 2)
      linarith
    have h2 : exp |cos (x1 ^ 2 + x2 ^ 2) / 200| ≤ 1.1 := by
      have := exp_bound_div_one_sub_of_interval' (by norm_num : (0 : ℝ) < 1 / 200) (by norm_num)
      refine (exp_le_exp.2 h1).trans (this.le.trans (by norm_num))
    have h3 := (exp_pos |cos (x1 ^ 2 + x2 ^ 2) / 200|).le
    have h4 : |sin x1 * cos x2| ≤ 1 := by
      rw [abs_mul]; exact mul_le_one₀ (abs_sin_le_one _) (abs_nonneg _) (abs_cos_le_one _)
    have h5 : abs (sin x1 * cos x2 * exp (abs (cos (x1 ^ 2 + x2 ^ 2) / 200))) ≤ 1.1 := by
      rw [abs_mul, abs_of_nonneg h3]
      nlinarith [abs_nonneg (sin x1 * cos x2)]
    have := (abs_le.1 h5).2
    nlinarith
  | [], h => cases h
  | [_], h => cases h
  | _ :: _ :: _ :: _, h => cases h

example : ∃ v, testtube_holder [π / 2, 0] = .ok v := ⟨_, rfl⟩

/-- **C107**: `trecanni`, documented minima `f(0, 0) = f(-2, 0) = 0`: the value at `(-2, 0)` is `40`,
and at `(2, 0)` it is `-8` (`4 x1` stands for `4 x1²`). -/
theorem C107_trecanni : trecanni [-2, 0] = .ok 40 ∧ trecanni [2, 0] = .ok (-8) := by
  constructor <;> show Except.ok _ = _ <;> norm_num

/-- **C107**: `trigonometric2`, documented minimum `f(0.9, …, 0.9) = 0`: the value there is
`1 + n cos 0.9`, above `1`. -/
theorem C107_trigonometric2 (n : ℕ) (hn : 2 ≤ n) :
    trigonometric2 (List.replicate n 0.9) = .ok (1 + n * cos 0.9) ∧ 1 < 1 + n * cos 0.9 := by
  constructor
  · have h0 : TF.get (List.replicate n (0.9 : ℝ)) 0 = .ok 0.9 :=
      get_ok (by rw [List.getElem?_replicate, if_pos (by omega)])
    rw [trigonometric2, require_ok (by simpa using hn), bind_ok', h0, bind_ok', foldl_add cos,
      foldl_add fun a : ℝ => 8 * sin (7 * (a - 0.9) ^ 2) ^ 2
      + 6 * sin (14 * ((0.9 : ℝ) - 0.9) ^ 2) ^ 2 + (a - 0.9) ^ 2,
      sum_map_const (c := cos 0.9) fun a ha => by rw [mem_replicate_eq ha],
      sum_map_zero fun a ha => by rw [mem_replicate_eq ha]; norm_num]
    simp [pure, Except.pure]
  · have : 0 < cos 0.9 := cos_pos_of_mem_Ioo ⟨by linarith [pi_pos], by linarith [pi_gt_three]⟩
    have hn' : (0 : ℝ) < n := by positivity
    nlinarith

/-- **C107**: `wayburn_seader1`, documented minimum `-0.003791` at `(-0.0299, 0)`: the minimum is `0`,
attained at `(1, 2)`, and the value at the documented point is above `100`. -/
theorem C107_wayburn_seader1 : HasMinimum (· = 2) wayburn_seader1 [1, 2] 0 ∧
    ∃ v, wayburn_seader1 [-0.0299, 0] = .ok v ∧ 100 < v := by
  refine ⟨fn2_min (by norm_num) fun x1 x2 => by positivity, _, rfl, ?_⟩
  norm_num

/-- **C107**: `wayburn_seader2`, documented minimum `f(0.2, 1) = 0`: the value there is above `3`
(`(x1 - 2)²` stands for `(x2 - 1)²`). -/
theorem C107_wayburn_seader2 : ∃ v, wayburn_seader2 [0.2, 1] = .ok v ∧ 3 < v := by
  refine ⟨_, rfl, ?_⟩
  norm_num

/-- **C107**: `wolfe`, documented minimum `f(0, 0, 0) = 0`, has no lower bound. -/
theorem C107_wolfe : UnboundedBelow 3 wolfe := by
  intro B
  have h0 := neg_abs_le B
  refine ⟨[0, 0, -|B| - 1], rfl, ((4 / 3 : ℕ) : ℝ) * 0 + (-|B| - 1), ?_, by rw [mul_zero]; linarith⟩
  show (powf (0 ^ 2 + 0 ^ 2 - 0 * 0) 0.75 >>= _) = _
  have : ((0 : ℝ) ^ 2 + 0 ^ 2 - 0 * 0) = 0 := by norm_num
  rw [this, powf_ok le_rfl (by norm_num), zero_rpow (by norm_num), bind_ok']
  rfl

end Ecrs.Props
