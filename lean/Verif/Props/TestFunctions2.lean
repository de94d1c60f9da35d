import Verif.TestFunctions.Lemmas
import Mathlib.Tactic.LinearCombination
import Mathlib.Analysis.Complex.ExponentialBounds

/-!
# C67, continued: the functions of fixed dimension, and `trid`, `dixon_price`, `styblinski_tang`
-/

set_option linter.unusedSectionVars false
set_option linter.unusedVariables false

namespace Ecrs.Props
open Ecrs Ecrs.TF Real

/-! ## Trid -/

/-- The first `k + 1` summands of `trid`. -/
private noncomputable def tridPartial (x : List ℝ) (k : ℕ) : ℝ :=
  (x.getD 0 0 - 1) ^ 2 + ((List.range' 1 k).map fun i =>
    (x.getD i 0 - 1) ^ 2 - x.getD i 0 * x.getD (i - 1) 0).sum

private theorem tridPartial_succ (x : List ℝ) (k : ℕ) : tridPartial x (k + 1) =
    tridPartial x k + ((x.getD (k + 1) 0 - 1) ^ 2 - x.getD (k + 1) 0 * x.getD k 0) := by
  have hk : 1 + k = k + 1 := by omega
  simp only [tridPartial, List.range'_1_concat, List.map_append, List.sum_append, List.map_cons,
    List.map_nil, List.sum_cons, List.sum_nil, hk, Nat.add_sub_cancel]
  ring

private noncomputable def tridC (n : ℝ) (i : ℕ) : ℝ := (i + 1) * (n - i)
private noncomputable def tridT (n : ℝ) (k : ℕ) : ℝ :=
  (k + 1) - ((n + 1) * (k + 1) * (k + 2) / 2 - (k + 1) * (k + 2) * (2 * k + 3) / 6)
    + tridC n k * tridC n (k + 1) / 2

private theorem trid_lower (x : List ℝ) (n : ℝ) (k : ℕ) :
    tridT n k + (x.getD k 0 - tridC n k) ^ 2 / 2 + tridC n (k + 1) * (x.getD k 0 - tridC n k)
      ≤ tridPartial x k := by
  induction k with
  | zero =>
    simp only [tridPartial, tridT, tridC, List.range'_zero, List.map_nil, List.sum_nil, Nat.cast_zero]
    push_cast
    nlinarith [sq_nonneg (x.getD 0 0 - n)]
  | succ k ih =>
    rw [tridPartial_succ]
    refine le_trans ?_ (add_le_add_left ih _)
    have := sq_nonneg ((x.getD k 0 - tridC n k) - (x.getD (k + 1) 0 - tridC n (k + 1)))
    simp only [tridT, tridC] at *
    push_cast at *
    nlinarith [this]

private theorem trid_at (x : List ℝ) (n : ℝ) (k : ℕ) (h : ∀ i ≤ k, x.getD i 0 = tridC n i) :
    tridPartial x k = tridT n k := by
  induction k with
  | zero =>
    simp only [tridPartial, List.range'_zero, List.map_nil, List.sum_nil]
    rw [h 0 le_rfl]
    simp only [tridT, tridC]
    push_cast
    ring
  | succ k ih =>
    rw [tridPartial_succ, ih fun i hi => h i (by omega), h (k + 1) le_rfl, h k (by omega)]
    simp only [tridT, tridC]
    push_cast
    ring

/-- **C67**: `trid`, documented minimum `f(x) = -n (n + 4) (n - 1) / 6` at
`x_i = i (n + 1 - i)`, in every dimension `n ≥ 2`. -/
theorem C67_trid (n : ℕ) (hn : 2 ≤ n) :
    HasMinimum (· = n) trid ((List.range' 1 n).map fun i : ℕ => (i : ℝ) * (n + 1 - i))
      (-(n : ℝ) * (n + 4) * (n - 1) / 6) := by
  have hT : tridT n (n - 1) = -(n : ℝ) * (n + 4) * (n - 1) / 6 := by
    obtain ⟨m, rfl⟩ : ∃ m, n = m + 1 := ⟨n - 1, by omega⟩
    simp only [tridT, tridC, Nat.add_sub_cancel]
    push_cast
    ring
  have hC : tridC n (n - 1 + 1) = 0 := by
    rw [Nat.sub_add_cancel (by omega)]
    simp [tridC]
  refine guarded_min (g := fun x => tridPartial x (x.length - 1)) ?_ (by simp) ?_ ?_
  · intro x hx
    have hx' : x.length ≥ 2 := by omega
    rw [trid, require_ok hx', bind_ok', get_lt (by omega), bind_ok']
    apply forLoop_add
    intro i hi acc
    have hi := List.mem_range'_1.1 hi
    rw [get_lt (by omega), bind_ok', get_lt (by omega), bind_ok']
    rfl
  · rw [← hT]
    simp only [List.length_map, List.length_range']
    refine trid_at _ _ _ fun i hi => ?_
    have : i < n := by omega
    simp [List.getD, this, tridC]
    ring
  · intro x hx
    have := trid_lower x n (n - 1)
    rw [hC, hT, zero_mul, add_zero] at this
    rw [hx]
    have h2 := sq_nonneg (x.getD (n - 1) 0 - tridC n (n - 1))
    linarith

/-! ## Dixon-Price -/

/-- **C67**: `dixon_price`, documented minimum `f(x) = 0` at `x_i = 2^(-(2^i - 2) / 2^i)`, in every
dimension `n ≥ 2`. -/
theorem C67_dixon_price (n : ℕ) (hn : 2 ≤ n) :
    HasMinimum (2 ≤ ·) dixon_price
      ((List.range' 1 n).map fun i : ℕ => (2 : ℝ) ^ (-((2 : ℝ) ^ i - 2) / 2 ^ i)) 0 := by
  refine guarded_min (g := fun x => (x.getD 0 0 - 1) ^ 2 + ((List.range' 1 (x.length - 1)).map fun i : ℕ =>
    (i : ℝ) * (2 * x.getD i 0 ^ 2 - x.getD (i - 1) 0) ^ 2).sum) ?_ (by simpa using hn) ?_ ?_
  · intro x hx
    have hx' : x.length ≥ 2 := hx
    rw [dixon_price, require_ok hx', bind_ok', get_lt (by omega), bind_ok']
    apply forLoop_add
    intro i hi acc
    have hi := List.mem_range'_1.1 hi
    rw [get_lt (by omega), bind_ok', get_lt (by omega), bind_ok']
    rfl
  · have hg : ∀ j, j < n → ((List.range' 1 n).map fun i : ℕ => (2 : ℝ) ^ (-((2 : ℝ) ^ i - 2) / 2 ^ i)).getD j 0
        = (2 : ℝ) ^ (-((2 : ℝ) ^ (1 + j) - 2) / 2 ^ (1 + j)) := by
      intro j hj
      simp [List.getD, hj]
    simp only [List.length_map, List.length_range']
    rw [hg 0 (by omega), sum_map_zero]
    · norm_num
    · intro i hi
      have hi := List.mem_range'_1.1 hi
      rw [hg i (by omega), hg (i - 1) (by omega)]
      have h1 : ((2 : ℝ) ^ (-((2 : ℝ) ^ (1 + i) - 2) / 2 ^ (1 + i))) ^ 2
          = (2 : ℝ) ^ (2 * (-((2 : ℝ) ^ (1 + i) - 2) / 2 ^ (1 + i))) := by
        rw [← rpow_natCast, ← rpow_mul (by norm_num), mul_comm]
        norm_num
      have h2 : (2 : ℝ) * (2 : ℝ) ^ (2 * (-((2 : ℝ) ^ (1 + i) - 2) / 2 ^ (1 + i)))
          = (2 : ℝ) ^ (1 + 2 * (-((2 : ℝ) ^ (1 + i) - 2) / 2 ^ (1 + i))) := by
        rw [rpow_add (by norm_num), rpow_one]
      have h3 : 1 + 2 * (-((2 : ℝ) ^ (1 + i) - 2) / 2 ^ (1 + i))
          = -((2 : ℝ) ^ (1 + (i - 1)) - 2) / 2 ^ (1 + (i - 1)) := by
        obtain ⟨k, rfl⟩ : ∃ k, i = k + 1 := ⟨i - 1, by omega⟩
        simp only [Nat.add_sub_cancel]
        have : (2 : ℝ) ^ (1 + (k + 1)) = 2 * 2 ^ (1 + k) := by ring
        rw [this]
        have hp : (2 : ℝ) ^ (1 + k) ≠ 0 := by positivity
        field_simp
        ring
      rw [h1, h2, h3]
      ring
  · intro x _
    have : 0 ≤ ((List.range' 1 (x.length - 1)).map fun i : ℕ =>
        (i : ℝ) * (2 * x.getD i 0 ^ 2 - x.getD (i - 1) 0) ^ 2).sum :=
      sum_map_nonneg fun i _ => by positivity
    positivity

/-! ## Styblinski-Tang -/

private theorem styblinski_term (t : ℝ) : -78.33234 ≤ t ^ 4 - 16 * t ^ 2 + 5 * t := by
  nlinarith [mul_nonneg (sq_nonneg (t + 2.903534)) (sq_nonneg (t - 2.903534)), sq_nonneg (t + 2.903534),
    sq_nonneg (t + 2.9036), sq_nonneg (t + 2.9034)]

/-- **C67**: `styblinski_tang`, documented minimum `-39.16599 n` at `(-2.903534, …)`: the value there
is within `0.0002` per dimension of the documented one, and no value is lower than that. -/
theorem C67_styblinski_tang (n : ℕ) (hn : 0 < n) :
    HasMinimumUpTo (0.0002 * n) (· = n) styblinski_tang (List.replicate n (-2.903534)) (-39.16599 * n) := by
  have hf : ∀ x : List ℝ, 0 < x.length →
      styblinski_tang x = .ok ((0 + (x.map fun a => a ^ 4 - 16 * a ^ 2 + 5 * a).sum) * 0.5) := by
    intro x hx
    rw [styblinski_tang, require_ok (ne_nil_of hx), bind_ok', foldl_add fun a => a ^ 4 - 16 * a ^ 2 + 5 * a]
    rfl
  refine ⟨by simp, ⟨_, hf _ (by simpa using hn), ?_⟩, ?_⟩
  · rw [sum_map_const (c := (-2.903534 : ℝ) ^ 4 - 16 * (-2.903534) ^ 2 + 5 * (-2.903534))
      fun a ha => by rw [mem_replicate_eq ha], List.length_replicate]
    have hn' : (0 : ℝ) ≤ n := by positivity
    rw [abs_le]
    constructor <;> norm_num <;> nlinarith
  · intro x hx
    refine ⟨_, hf x (by omega), ?_⟩
    have := sum_map_le (l := x) (t := fun a => a ^ 4 - 16 * a ^ 2 + 5 * a) (c := -78.33234)
      fun a _ => styblinski_term a
    rw [hx] at this
    have hn' : (0 : ℝ) ≤ n := by positivity
    rw [zero_add]
    nlinarith

/-- **C67**: the last two decimals of the documented minimum of `styblinski_tang` are not those of
the function: at the documented minimiser it is lower than the documented minimum. -/
theorem C67_styblinski_tang_decimals (n : ℕ) (hn : 0 < n) :
    ∃ v, styblinski_tang (List.replicate n (-2.903534)) = .ok v ∧ v < -39.16599 * n := by
  refine ⟨(0 + ((List.replicate n (-2.903534 : ℝ)).map fun a => a ^ 4 - 16 * a ^ 2 + 5 * a).sum) * 0.5, ?_, ?_⟩
  · rw [styblinski_tang, require_ok (ne_nil_of (by simpa using hn)), bind_ok',
      foldl_add fun a => a ^ 4 - 16 * a ^ 2 + 5 * a]
    rfl
  · rw [sum_map_const (c := (-2.903534 : ℝ) ^ 4 - 16 * (-2.903534) ^ 2 + 5 * (-2.903534))
      fun a ha => by rw [mem_replicate_eq ha], List.length_replicate]
    have hn' : (0 : ℝ) < n := by exact_mod_cast hn
    norm_num
    nlinarith

example : (0 : ℕ) < 2 := by norm_num

/-! ## Polynomials in fixed dimension -/

/-- **C67**: `beale`, documented minimum `f(3, 0.5) = 0`. -/
theorem C67_beale : HasMinimum (· = 2) beale [3, 0.5] 0 :=
  fn2_min (by norm_num) fun x1 x2 => by positivity

/-- **C67**: `booth`, documented minimum `f(1, 3) = 0`. -/
theorem C67_booth : HasMinimum (· = 2) booth [1, 3] 0 :=
  fn2_min (by norm_num) fun x1 x2 => by positivity

/-- **C67**: `bukin_4`, documented minimum `f(-10, 0) = 0`. -/
theorem C67_bukin_4 : HasMinimum (· = 2) bukin_4 [-10, 0] 0 :=
  fn2_min (by norm_num) fun x1 x2 => by positivity

/-- **C67**: `bukin_n6`, documented minimum `f(-10, 1) = 0`. -/
theorem C67_bukin_n6 : HasMinimum (· = 2) bukin_n6 [-10, 1] 0 :=
  fn2_min (by norm_num) fun x1 x2 => by positivity

/-- **C67**: `three_hump_camel`, documented minimum `f(0, 0) = 0`. -/
theorem C67_three_hump_camel : HasMinimum (· = 2) three_hump_camel [0, 0] 0 :=
  fn2_min (by norm_num) fun x1 x2 => by
    nlinarith [sq_nonneg (x2 + x1 / 2), mul_nonneg (sq_nonneg x1) (sq_nonneg (x1 ^ 2 - 3.15)), sq_nonneg x1]

/-- **C67**: `colville`, documented minimum `f(1, 1, 1, 1) = 0`. -/
theorem C67_colville : HasMinimum (· = 4) colville [1, 1, 1, 1] 0 :=
  fn4_min (by norm_num) fun x1 x2 x3 x4 => by
    nlinarith [sq_nonneg (x1 ^ 2 - x2), sq_nonneg (x1 - 1), sq_nonneg (x3 - 1), sq_nonneg (x3 ^ 2 - x4),
      sq_nonneg ((x2 - 1) + (x4 - 1)), sq_nonneg ((x2 - 1) - (x4 - 1))]

/-- **C67**: `freudenstein_roth`, documented minimum `f(5, 4) = 0`. -/
theorem C67_freudenstein_roth : HasMinimum (· = 2) freudenstein_roth [5, 4] 0 :=
  fn2_min (by norm_num) fun x1 x2 => by positivity

/-- **C67**: `goldstein_price`, documented minimum `f(0, -1) = 3`. -/
theorem C67_goldstein_price : HasMinimum (· = 2) goldstein_price [0, -1] 3 := by
  refine fn2_min (by norm_num) fun x1 x2 => ?_
  have h1 : 1 ≤ 1 + (x1 + x2 + 1) ^ 2
      * (19 - 14 * x1 + 3 * x1 ^ 2 - 14 * x2 + 6 * x1 * x2 + 3 * x2 ^ 2) := by
    have : 0 ≤ 19 - 14 * x1 + 3 * x1 ^ 2 - 14 * x2 + 6 * x1 * x2 + 3 * x2 ^ 2 := by
      nlinarith [sq_nonneg (x1 + x2 - 7 / 3)]
    have := mul_nonneg (sq_nonneg (x1 + x2 + 1)) this
    linarith
  have h2 : 3 ≤ 30 + (2 * x1 - 3 * x2) ^ 2
      * (18 - 32 * x1 + 12 * x1 ^ 2 + 48 * x2 - 36 * x1 * x2 + 27 * x2 ^ 2) := by
    have e : 30 + (2 * x1 - 3 * x2) ^ 2
        * (18 - 32 * x1 + 12 * x1 ^ 2 + 48 * x2 - 36 * x1 * x2 + 27 * x2 ^ 2) - 3
        = ((2 * x1 - 3 * x2) - 3) ^ 2 * (3 * (2 * x1 - 3 * x2) ^ 2 + 2 * (2 * x1 - 3 * x2) + 3) := by ring
    have : 0 ≤ 3 * (2 * x1 - 3 * x2) ^ 2 + 2 * (2 * x1 - 3 * x2) + 3 := by
      nlinarith [sq_nonneg ((2 * x1 - 3 * x2) + 1 / 3)]
    have := mul_nonneg (sq_nonneg ((2 * x1 - 3 * x2) - 3)) this
    linarith
  nlinarith

/-- **C67**: `himmelblau`, documented minimum `f(3, 2) = 0`; the other three documented minimisers
are rounded, there the value is `0` up to `10⁻⁹`. -/
theorem C67_himmelblau :
    HasMinimum (· = 2) himmelblau [3, 2] 0 ∧
      HasMinimumUpTo 0.000000001 (· = 2) himmelblau [-2.805118, 3.131312] 0 ∧
      HasMinimumUpTo 0.000000001 (· = 2) himmelblau [-3.779310, -3.283186] 0 ∧
      HasMinimumUpTo 0.000000001 (· = 2) himmelblau [3.584428, -1.848126] 0 := by
  have hl : ∀ x : List ℝ, x.length = 2 → ∃ v, himmelblau x = .ok v ∧ (0 : ℝ) - 0.000000001 ≤ v := by
    intro x hx
    obtain ⟨x1, x2, rfl⟩ := List.length_eq_two.1 hx
    refine ⟨_, rfl, ?_⟩
    nlinarith [sq_nonneg (x1 ^ 2 + x2 - 11), sq_nonneg (x1 + x2 ^ 2 - 7)]
  refine ⟨fn2_min (by norm_num) fun x1 x2 => by positivity, ⟨rfl, ⟨_, rfl, ?_⟩, hl⟩,
    ⟨rfl, ⟨_, rfl, ?_⟩, hl⟩, ⟨rfl, ⟨_, rfl, ?_⟩, hl⟩⟩
  all_goals rw [abs_le]; constructor <;> norm_num

/-- **C67**: `leon`, documented minimum `f(1, 1) = 0`. -/
theorem C67_leon : HasMinimum (· = 2) leon [1, 1] 0 :=
  fn2_min (by norm_num) fun x1 x2 => by positivity

/-- **C67**: `matyas`, documented minimum `f(0, 0) = 0`. -/
theorem C67_matyas : HasMinimum (· = 2) matyas [0, 0] 0 :=
  fn2_min (by norm_num) fun x1 x2 => by nlinarith [sq_nonneg (x1 - x2), sq_nonneg x1, sq_nonneg x2]

/-- **C67**: `price1`, documented minimum `f(±5, ±5) = 0`, all four sign combinations. -/
theorem C67_price1 (s t : ℝ) (hs : s = 5 ∨ s = -5) (ht : t = 5 ∨ t = -5) :
    HasMinimum (· = 2) price1 [s, t] 0 := by
  refine fn2_min ?_ fun x1 x2 => by positivity
  rcases hs with rfl | rfl <;> rcases ht with rfl | rfl <;> norm_num

example : (5 : ℝ) = 5 ∨ (5 : ℝ) = -5 := .inl rfl

/-- **C67**: `price4`, documented minimum `f(0, 0) = 0`. -/
theorem C67_price4 : HasMinimum (· = 2) price4 [0, 0] 0 :=
  fn2_min (by norm_num) fun x1 x2 => by positivity

/-- **C67**: `rotated_ellipse`, documented minimum `f(0, 0) = 0`. -/
theorem C67_rotated_ellipse : HasMinimum (· = 2) rotated_ellipse [0, 0] 0 := by
  refine fn2_min (by norm_num) fun x1 x2 => ?_
  have h3 : sqrt 3 ^ 2 = 3 := sq_sqrt (by norm_num)
  nlinarith [sq_nonneg (7 * x1 - 3 * sqrt 3 * x2), sq_nonneg x2]

/-- **C67**: `rotated_ellipse2`, documented minimum `f(0, 0) = 0`. -/
theorem C67_rotated_ellipse2 : HasMinimum (· = 2) rotated_ellipse2 [0, 0] 0 :=
  fn2_min (by norm_num) fun x1 x2 => by nlinarith [sq_nonneg (x1 - x2), sq_nonneg (x1 + x2)]

/-- **C67**: `zettl`, documented minimum `f(-0.0299, 0) = -0.003791`, up to `10⁻⁶`. -/
theorem C67_zettl : HasMinimumUpTo 0.000001 (· = 2) zettl [-0.0299, 0] (-0.003791) := by
  refine ⟨rfl, ⟨_, rfl, ?_⟩, ?_⟩
  · rw [abs_le]; constructor <;> norm_num
  · intro x hx
    obtain ⟨x, y, rfl⟩ := List.length_eq_two.1 hx
    refine ⟨_, rfl, ?_⟩
    rcases le_or_gt 0 x with h | h
    · nlinarith [sq_nonneg (x ^ 2 + y ^ 2 - 2 * x)]
    · have hu : 0 ≤ x ^ 2 - 2 * x := by nlinarith [sq_nonneg x]
      have hle : x ^ 2 - 2 * x ≤ x ^ 2 + y ^ 2 - 2 * x := by nlinarith [sq_nonneg y]
      have hsq : (x ^ 2 - 2 * x) ^ 2 ≤ (x ^ 2 + y ^ 2 - 2 * x) ^ 2 := by
        exact pow_le_pow_left₀ hu hle 2
      have : (-0.003792 : ℝ) ≤ (x ^ 2 - 2 * x) ^ 2 + 0.25 * x := by
        nlinarith [mul_nonneg (sq_nonneg (x + 0.0299)) (neg_pos.2 h).le,
          mul_nonneg (sq_nonneg (x + 0.0299)) (sq_nonneg x), sq_nonneg (x + 0.0299),
          sq_nonneg (x + 0.02992), sq_nonneg (x + 0.02988)]
      linarith

/-- **C67**: `zirilli`, documented minimum `f(-1.0465, 0) ≈ -0.3523`, up to `10⁻⁴`. -/
theorem C67_zirilli : HasMinimumUpTo 0.0001 (· = 2) zirilli [-1.0465, 0] (-0.3523) := by
  refine ⟨rfl, ⟨_, rfl, ?_⟩, ?_⟩
  · rw [abs_le]; constructor <;> norm_num
  · intro x hx
    obtain ⟨x, y, rfl⟩ := List.length_eq_two.1 hx
    refine ⟨_, rfl, ?_⟩
    nlinarith [mul_nonneg (sq_nonneg (x + 1.0465)) (sq_nonneg (x - 1.0465)), sq_nonneg (x + 1.0465),
      sq_nonneg (x + 1.047), sq_nonneg (x + 1.046), sq_nonneg y]

/-! ## Trigonometric and exponential functions in fixed dimension -/

/-- **C67**: `bohachevsky_n1`, documented minimum `f(0, 0) = 0`. -/
theorem C67_bohachevsky_n1 : HasMinimum (· = 2) bohachevsky_n1 [0, 0] 0 :=
  fn2_min (by norm_num) fun x1 x2 => by
    nlinarith [sq_nonneg x1, sq_nonneg x2, cos_le_one (3 * π * x1), cos_le_one (4 * π * x2)]

/-- **C67**: `bohachevsky_n2`, documented minimum `f(0, 0) = 0`. -/
theorem C67_bohachevsky_n2 : HasMinimum (· = 2) bohachevsky_n2 [0, 0] 0 := by
  refine fn2_min (by norm_num) fun x1 x2 => ?_
  have : cos (3 * π * x1) * cos (4 * π * x2) ≤ 1 := by
    have h1 := abs_cos_le_one (3 * π * x1)
    have h2 := abs_cos_le_one (4 * π * x2)
    have := mul_le_one₀ h1 (abs_nonneg _) h2
    rw [← abs_mul] at this
    exact (abs_le.1 this).2
  nlinarith [sq_nonneg x1, sq_nonneg x2]

/-- **C67**: `bohachevsky_n3`, documented minimum `f(0, 0) = 0`. -/
theorem C67_bohachevsky_n3 : HasMinimum (· = 2) bohachevsky_n3 [0, 0] 0 :=
  fn2_min (by norm_num) fun x1 x2 => by
    nlinarith [sq_nonneg x1, sq_nonneg x2, cos_le_one (3 * π * x1 + 4 * π * x2)]

/-- **C67**: `drop_wave`, documented minimum `f(0, 0) = -1`. -/
theorem C67_drop_wave : HasMinimum (· = 2) drop_wave [0, 0] (-1) := by
  refine fn2_min (by norm_num) fun x1 x2 => ?_
  have hd : (0 : ℝ) < 0.5 * (x1 ^ 2 + x2 ^ 2) + 2 := by positivity
  rw [le_div_iff₀ hd]
  nlinarith [cos_le_one (12 * sqrt (x1 ^ 2 + x2 ^ 2)), sq_nonneg x1, sq_nonneg x2]

/-- **C67**: `easom`, documented minimum `f(π, π) = -1`. -/
theorem C67_easom : HasMinimum (· = 2) easom [π, π] (-1) := by
  refine fn2_min (by simp) fun x1 x2 => ?_
  have h1 : |cos x1 * cos x2| ≤ 1 := by
    rw [abs_mul]; exact mul_le_one₀ (abs_cos_le_one _) (abs_nonneg _) (abs_cos_le_one _)
  have h2 : exp (-1 * ((x1 - π) ^ 2 + (x2 - π) ^ 2)) ≤ 1 := by
    rw [exp_le_one_iff]; nlinarith [sq_nonneg (x1 - π), sq_nonneg (x2 - π)]
  have h3 := (exp_pos (-1 * ((x1 - π) ^ 2 + (x2 - π) ^ 2))).le
  have h4 : |cos x1 * cos x2 * exp (-1 * ((x1 - π) ^ 2 + (x2 - π) ^ 2))| ≤ 1 := by
    rw [abs_mul, abs_of_nonneg h3]; exact mul_le_one₀ h1 h3 h2
  have := (abs_le.1 h4).2
  nlinarith

/-- **C67**: `levy_n13`, documented minimum `f(1, 1) = 0`. -/
theorem C67_levy_n13 : HasMinimum (· = 2) levy_n13 [1, 1] 0 := by
  refine fn2_min ?_ fun x1 x2 => by positivity
  have : sin (3 * π * 1) = 0 := by
    have := sin_nat_mul_pi 3
    push_cast at this
    rw [mul_one]; exact this
  rw [this]; norm_num

/-- **C67**: `miele_cantrell`, documented minimum `f(0, 1, 1, 1) = 0`. -/
theorem C67_miele_cantrell : HasMinimum (· = 4) miele_cantrell [0, 1, 1, 1] 0 :=
  fn4_min (by norm_num) fun x1 x2 x3 x4 => by positivity

private theorem exp_neg_sq (a b : ℝ) : exp (-1 * (a ^ 2 + b ^ 2)) ≤ 1 := by
  rw [exp_le_one_iff]; nlinarith [sq_nonneg a, sq_nonneg b]

/-- **C67**: `periodic`, documented minimum `f(0, 0) = 0.9`. -/
theorem C67_periodic : HasMinimum (· = 2) periodic [0, 0] 0.9 :=
  fn2_min (by norm_num) fun x1 x2 => by
    nlinarith [exp_neg_sq x1 x2, sq_nonneg (sin x1), sq_nonneg (sin x2)]

/-- **C67**: `price2`, documented minimum `f(0, 0) = 0.9`. -/
theorem C67_price2 : HasMinimum (· = 2) price2 [0, 0] 0.9 := by
  refine fn2_min (by norm_num) fun x1 x2 => ?_
  have h : -1 * x1 ^ 2 - x2 ^ 2 = -1 * (x1 ^ 2 + x2 ^ 2) := by ring
  rw [h]
  nlinarith [exp_neg_sq x1 x2, sq_nonneg (sin x1), sq_nonneg (sin x2)]

/-- **C67**: `schaffer_n1`, documented minimum `f(0, 0) = 0`. -/
theorem C67_schaffer_n1 : HasMinimum (· = 2) schaffer_n1 [0, 0] 0 := by
  refine fn2_min (by norm_num) fun x1 x2 => ?_
  have hd : (0 : ℝ) ≤ 0.001 * (x1 ^ 2 + x2 ^ 2) := by positivity
  have : (-0.5 : ℝ) ≤ (sin (x1 ^ 2 + x2 ^ 2) ^ 2 - 0.5) / (1 + 0.001 * (x1 ^ 2 + x2 ^ 2)) := by
    rw [le_div_iff₀ (by linarith)]
    nlinarith [sq_nonneg (sin (x1 ^ 2 + x2 ^ 2))]
  linarith

/-- **C67**: `schaffer_n2`, documented minimum `f(0, 0) = 0`. -/
theorem C67_schaffer_n2 : HasMinimum (· = 2) schaffer_n2 [0, 0] 0 := by
  refine fn2_min (by norm_num) fun x1 x2 => ?_
  have hd : (0 : ℝ) ≤ 0.001 * (x1 ^ 2 + x2 ^ 2) := by positivity
  have : (-0.5 : ℝ) ≤ (sin (x1 ^ 2 - x2 ^ 2) ^ 2 - 0.5) / (1 + 0.001 * (x1 ^ 2 + x2 ^ 2)) ^ 2 := by
    rw [le_div_iff₀ (by positivity)]
    nlinarith [sq_nonneg (sin (x1 ^ 2 - x2 ^ 2))]
  linarith

/-- **C67**: `hosaki`, documented minimum `f(4, 2) ≈ -2.3458`: the value at `(4, 2)` is the
documented one up to `10⁻⁴`, and no point with a non-negative second coordinate has a smaller one
(below zero the function has no lower bound, see `C107_hosaki`). -/
theorem C67_hosaki : ∃ m, hosaki [4, 2] = .ok m ∧ |m - -2.3458| ≤ 0.0001 ∧
    ∀ x1 x2, 0 ≤ x2 → ∃ v, hosaki [x1, x2] = .ok v ∧ m ≤ v := by
  have hm : (1 - 8 * 4 + 7 * (4 : ℝ) ^ 2 - 7 / 3 * 4 ^ 3 + 0.25 * 4 ^ 4) * 2 ^ 2 * exp (-1 * 2)
      = -(52 / 3) * exp (-2) := by norm_num
  refine ⟨_, rfl, ?_, ?_⟩
  · rw [hm]
    have h1 := exp_one_gt_d9
    have h2 := exp_one_lt_d9
    have he : exp (-2) * (exp 1 * exp 1) = 1 := by
      rw [← exp_add, ← exp_add]; norm_num
    have hpos := exp_pos (-2)
    have hlo : exp (-2) ≤ 0.1353353 := by nlinarith
    have hhi : 0.1353352 ≤ exp (-2) := by nlinarith
    rw [abs_le]; constructor <;> linarith
  · intro x1 x2 h2
    refine ⟨_, rfl, ?_⟩
    rw [hm]
    have hp : -(13 / 3) ≤ 1 - 8 * x1 + 7 * x1 ^ 2 - 7 / 3 * x1 ^ 3 + 0.25 * x1 ^ 4 := by
      nlinarith [mul_nonneg (sq_nonneg (x1 - 4)) (sq_nonneg (x1 - 2 / 3)), sq_nonneg (x1 - 4)]
    have hq : x2 ^ 2 * exp (-1 * x2) ≤ 4 * exp (-2) := by
      have h := add_one_le_exp ((x2 - 2) / 2)
      have h' : x2 ≤ 2 * exp ((x2 - 2) / 2) := by linarith
      have hsq : x2 ^ 2 ≤ (2 * exp ((x2 - 2) / 2)) ^ 2 := pow_le_pow_left₀ h2 h' 2
      have e : (2 * exp ((x2 - 2) / 2)) ^ 2 = 4 * exp (x2 - 2) := by
        rw [mul_pow, ← exp_nat_mul]
        norm_num
        ring_nf
      rw [e] at hsq
      calc x2 ^ 2 * exp (-1 * x2) ≤ 4 * exp (x2 - 2) * exp (-1 * x2) :=
            mul_le_mul_of_nonneg_right hsq (exp_pos _).le
        _ = 4 * exp (-2) := by rw [mul_assoc, ← exp_add]; ring_nf
    have hq0 : 0 ≤ x2 ^ 2 * exp (-1 * x2) := by positivity
    nlinarith

/-! ## The bit-string benchmark -/

/-- **C67**: `wordmax` lies between `0` and the length of the word and takes its documented maximum
`chromosome.len()` exactly at the all-true word. -/
theorem C67_wordmax (c : List Bool) :
    wordmax c ≤ c.length ∧ (wordmax c = c.length ↔ ∀ b ∈ c, b = true) := by
  refine ⟨List.length_filter_le _ _, ?_⟩
  rw [wordmax, List.length_filter_eq_length_iff]

/-- **C67**: `wordmax` counts the true genes: flipping one false gene to true raises it by one. -/
theorem C67_wordmax_step (l r : List Bool) :
    wordmax (l ++ true :: r) = wordmax (l ++ false :: r) + 1 := by
  simp [wordmax]; omega

example := C67_trid 6 (by decide)
example := C67_dixon_price 4 (by decide)
example := C67_styblinski_tang 3 (by decide)
example := C67_styblinski_tang_decimals 3 (by decide)

end Ecrs.Props
