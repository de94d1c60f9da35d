import Mathlib.Analysis.Complex.Exponential
import Mathlib.Analysis.Complex.Trigonometric
import Mathlib.Analysis.Real.Pi.Bounds
import Mathlib.Analysis.SpecialFunctions.Trigonometric.Deriv
import Mathlib.Analysis.SpecialFunctions.Trigonometric.Bounds
import Mathlib.Analysis.Calculus.MeanValue
import Mathlib.Analysis.SpecialFunctions.ExpDeriv

/-!
# Verified interval arithmetic

Lower bounds of expressions in one real variable built from `+`, `*`, `sin`, `cos`, `exp` and rational constants, by bisection with
the mean value form.  Intervals have fixed-point end points (integers over `2^48`); the kernel evaluates the bisection, `bisect_sound`
says what follows from its success.  No part of the codebase is modelled here.
-/

namespace Ecrs.Interval
open Finset

/-- The scale of the end points. -/
def S : Int := 281474976710656

theorem S_real : ((S : Int) : ℝ) = 2 ^ 48 := by norm_num [S]

theorem S_pos : (0 : ℝ) < ((S : Int) : ℝ) := by rw [S_real]; positivity

/-- An interval: lower and upper end point in units of `2^-48`. -/
structure Iv where
  lo : Int
  hi : Int

/-- The real number lies in the interval. -/
def Iv.has (i : Iv) (x : ℝ) : Prop := (i.lo : ℝ) ≤ x * (S : ℝ) ∧ x * (S : ℝ) ≤ (i.hi : ℝ)

/-- Division rounding up. -/
def cdiv (a b : Int) : Int := -((-a) / b)

theorem div_le {a b : Int} (hb : 0 < b) : ((a / b : Int) : ℝ) ≤ (a : ℝ) / (b : ℝ) := by
  have hb' : (0 : ℝ) < (b : ℝ) := by exact_mod_cast hb
  rw [le_div_iff₀ hb']
  have := Int.ediv_mul_le a (ne_of_gt hb)
  exact_mod_cast this

theorem le_cdiv {a b : Int} (hb : 0 < b) : (a : ℝ) / (b : ℝ) ≤ ((cdiv a b : Int) : ℝ) := by
  have := div_le (a := -a) hb
  unfold cdiv
  push_cast at this ⊢
  rw [neg_div] at this
  linarith

/-! ## Arithmetic -/

def add (a b : Iv) : Iv := ⟨a.lo + b.lo, a.hi + b.hi⟩

theorem add_has {a b : Iv} {x y : ℝ} (ha : a.has x) (hb : b.has y) : (add a b).has (x + y) := by
  unfold Iv.has add at *
  push_cast
  constructor <;> nlinarith [ha.1, ha.2, hb.1, hb.2]

def neg (a : Iv) : Iv := ⟨-a.hi, -a.lo⟩

theorem neg_has {a : Iv} {x : ℝ} (ha : a.has x) : (neg a).has (-x) := by
  unfold Iv.has neg at *
  push_cast
  constructor <;> nlinarith [ha.1, ha.2]

def min2 (a b : Int) : Int := if a ≤ b then a else b
def max2 (a b : Int) : Int := if a ≤ b then b else a

theorem min2_le (a b : Int) : min2 a b ≤ a ∧ min2 a b ≤ b := by unfold min2; split <;> omega
theorem le_max2 (a b : Int) : a ≤ max2 a b ∧ b ≤ max2 a b := by unfold max2; split <;> omega

def mulLo (a b : Iv) : Int := min2 (min2 (a.lo * b.lo) (a.lo * b.hi)) (min2 (a.hi * b.lo) (a.hi * b.hi))
def mulHi (a b : Iv) : Int := max2 (max2 (a.lo * b.lo) (a.lo * b.hi)) (max2 (a.hi * b.lo) (a.hi * b.hi))

def mul (a b : Iv) : Iv := ⟨mulLo a b / S, cdiv (mulHi a b) S⟩

/-- A product lies between the products of the end points. -/
theorem mul_between {l h l' h' x y m M : ℝ} (hx : l ≤ x ∧ x ≤ h) (hy : l' ≤ y ∧ y ≤ h') (h1 : m ≤ l * l') (h2 : m ≤ l * h')
    (h3 : m ≤ h * l') (h4 : m ≤ h * h') (g1 : l * l' ≤ M) (g2 : l * h' ≤ M) (g3 : h * l' ≤ M) (g4 : h * h' ≤ M) :
    m ≤ x * y ∧ x * y ≤ M := by
  have a1 : min (l * y) (h * y) ≤ x * y ∧ x * y ≤ max (l * y) (h * y) := by
    rcases le_total 0 y with hy0 | hy0
    · exact ⟨min_le_of_left_le (by nlinarith), le_max_of_le_right (by nlinarith)⟩
    · exact ⟨min_le_of_right_le (by nlinarith), le_max_of_le_left (by nlinarith)⟩
  have a2 : ∀ c : ℝ, min (c * l') (c * h') ≤ c * y ∧ c * y ≤ max (c * l') (c * h') := by
    intro c
    rcases le_total 0 c with hc | hc
    · exact ⟨min_le_of_left_le (by nlinarith), le_max_of_le_right (by nlinarith)⟩
    · exact ⟨min_le_of_right_le (by nlinarith), le_max_of_le_left (by nlinarith)⟩
  constructor
  · refine le_trans (le_min ?_ ?_) a1.1
    · exact le_trans (le_min h1 h2) (a2 l).1
    · exact le_trans (le_min h3 h4) (a2 h).1
  · refine le_trans a1.2 (max_le ?_ ?_)
    · exact le_trans (a2 l).2 (max_le g1 g2)
    · exact le_trans (a2 h).2 (max_le g3 g4)

theorem mul_has {a b : Iv} {x y : ℝ} (ha : a.has x) (hb : b.has y) : (mul a b).has (x * y) := by
  have hm : ∀ p q r s : Int, (((min2 (min2 p q) (min2 r s) : Int) : ℝ) ≤ p ∧ ((min2 (min2 p q) (min2 r s) : Int) : ℝ) ≤ q ∧
      ((min2 (min2 p q) (min2 r s) : Int) : ℝ) ≤ r ∧ ((min2 (min2 p q) (min2 r s) : Int) : ℝ) ≤ s) := by
    intro p q r s
    have h1 := min2_le p q
    have h2 := min2_le r s
    have h3 := min2_le (min2 p q) (min2 r s)
    refine ⟨?_, ?_, ?_, ?_⟩ <;> exact_mod_cast (by omega)
  have hM : ∀ p q r s : Int, ((p : ℝ) ≤ ((max2 (max2 p q) (max2 r s) : Int) : ℝ) ∧ (q : ℝ) ≤ ((max2 (max2 p q) (max2 r s) : Int) : ℝ) ∧
      (r : ℝ) ≤ ((max2 (max2 p q) (max2 r s) : Int) : ℝ) ∧ (s : ℝ) ≤ ((max2 (max2 p q) (max2 r s) : Int) : ℝ)) := by
    intro p q r s
    have h1 := le_max2 p q
    have h2 := le_max2 r s
    have h3 := le_max2 (max2 p q) (max2 r s)
    refine ⟨?_, ?_, ?_, ?_⟩ <;> exact_mod_cast (by omega)
  obtain ⟨m1, m2, m3, m4⟩ := hm (a.lo * b.lo) (a.lo * b.hi) (a.hi * b.lo) (a.hi * b.hi)
  obtain ⟨M1, M2, M3, M4⟩ := hM (a.lo * b.lo) (a.lo * b.hi) (a.hi * b.lo) (a.hi * b.hi)
  push_cast at m1 m2 m3 m4 M1 M2 M3 M4
  have key := mul_between ha hb m1 m2 m3 m4 M1 M2 M3 M4
  have hS := S_pos
  have hSi : (0 : Int) < S := by decide
  have e1 := div_le (a := mulLo a b) hSi
  have e2 := le_cdiv (a := mulHi a b) hSi
  have e3 : x * y * (S : ℝ) = (x * (S : ℝ)) * (y * (S : ℝ)) / (S : ℝ) := by field_simp
  constructor
  · show ((mulLo a b / S : Int) : ℝ) ≤ _
    rw [e3]
    refine le_trans e1 ?_
    exact (div_le_div_iff_of_pos_right hS).2 key.1
  · show _ ≤ ((cdiv (mulHi a b) S : Int) : ℝ)
    rw [e3]
    refine le_trans ?_ e2
    exact (div_le_div_iff_of_pos_right hS).2 key.2

def divN (a : Iv) (n : Int) : Iv := ⟨a.lo / n, cdiv a.hi n⟩

theorem divN_has {a : Iv} {x : ℝ} {n : Int} (hn : 0 < n) (ha : a.has x) : (divN a n).has (x / (n : ℝ)) := by
  have hn' : (0 : ℝ) < (n : ℝ) := by exact_mod_cast hn
  have e3 : x / (n : ℝ) * (S : ℝ) = x * (S : ℝ) / (n : ℝ) := by ring
  constructor
  · show ((a.lo / n : Int) : ℝ) ≤ _
    rw [e3]
    exact le_trans (div_le hn) ((div_le_div_iff_of_pos_right hn').2 ha.1)
  · show _ ≤ ((cdiv a.hi n : Int) : ℝ)
    rw [e3]
    exact le_trans ((div_le_div_iff_of_pos_right hn').2 ha.2) (le_cdiv hn)

/-- A rational constant. -/
def ofRat (n d : Int) : Iv := ⟨n * S / d, cdiv (n * S) d⟩

theorem ofRat_has {n d : Int} (hd : 0 < d) : (ofRat n d).has ((n : ℝ) / (d : ℝ)) := by
  have e3 : (n : ℝ) / (d : ℝ) * (S : ℝ) = ((n * S : Int) : ℝ) / (d : ℝ) := by push_cast; ring
  constructor
  · rw [e3]; exact div_le hd
  · rw [e3]; exact le_cdiv hd

def one : Iv := ⟨S, S⟩

theorem one_has : one.has 1 := by unfold Iv.has one; simp

/-- The point `m`. -/
def pt (m : Int) : Iv := ⟨m, m⟩

theorem pt_has (m : Int) : (pt m).has ((m : ℝ) / (S : ℝ)) := by
  have := S_pos
  unfold Iv.has pt
  rw [div_mul_cancel₀ _ (ne_of_gt this)]
  exact ⟨le_refl _, le_refl _⟩

/-- Widened by `w` units. -/
def widen (a : Iv) (w : Int) : Iv := ⟨a.lo - w, a.hi + w⟩

theorem widen_has {a : Iv} {x y : ℝ} {w : Int} (ha : a.has x) (h : |y - x| * (S : ℝ) ≤ (w : ℝ)) : (widen a w).has y := by
  have hS := S_pos
  have h1 := abs_le.1 (le_refl |y - x|)
  unfold Iv.has widen at *
  push_cast
  constructor <;> nlinarith [h1.1, h1.2, ha.1, ha.2]

/-! ## Sine -/

/-- The Taylor polynomial of `sin t / t`, from the term `j` on, in `t²`. -/
noncomputable def sinPolyR (x2 : ℝ) : Nat → Nat → ℝ
  | 0, _ => 1
  | f + 1, j => 1 - x2 * sinPolyR x2 f (j + 1) / (((2 * j + 2) * (2 * j + 3) : Nat) : ℝ)

theorem sinPolyR_sum (t : ℝ) : ∀ f j : Nat, (-1 : ℝ) ^ j * t ^ (2 * j + 1) / ((2 * j + 1).factorial : ℝ) * sinPolyR (t ^ 2) f j =
    ∑ m ∈ range (f + 1), (-1 : ℝ) ^ (j + m) * t ^ (2 * (j + m) + 1) / ((2 * (j + m) + 1).factorial : ℝ) := by
  intro f
  induction f with
  | zero => intro j; simp [sinPolyR]
  | succ f ih =>
    intro j
    rw [sum_range_succ']
    have h := ih (j + 1)
    have e : ∑ m ∈ range (f + 1), (-1 : ℝ) ^ (j + (m + 1)) * t ^ (2 * (j + (m + 1)) + 1) / ((2 * (j + (m + 1)) + 1).factorial : ℝ) =
        ∑ m ∈ range (f + 1), (-1 : ℝ) ^ (j + 1 + m) * t ^ (2 * (j + 1 + m) + 1) / ((2 * (j + 1 + m) + 1).factorial : ℝ) := by
      refine sum_congr rfl fun m _ => ?_
      rw [show j + (m + 1) = j + 1 + m by omega]
    rw [e, ← h, sinPolyR]
    have hf : ((2 * (j + 1) + 1).factorial : ℝ) = ((2 * j + 1).factorial : ℝ) * (((2 * j + 2) * (2 * j + 3) : Nat) : ℝ) := by
      rw [show 2 * (j + 1) + 1 = (2 * j + 1) + 1 + 1 by ring, Nat.factorial_succ, Nat.factorial_succ]
      push_cast; ring
    have h0 : ((2 * j + 1).factorial : ℝ) ≠ 0 := by exact_mod_cast Nat.factorial_ne_zero _
    have h1 : (((2 * j + 2) * (2 * j + 3) : Nat) : ℝ) ≠ 0 := by
      have : (2 * j + 2) * (2 * j + 3) ≠ 0 := by positivity
      exact_mod_cast this
    rw [hf]
    simp only [Nat.add_zero]
    field_simp
    ring

theorem im_sum (t : ℝ) : ∀ n : Nat, (∑ m ∈ range (2 * n), ((t : ℂ) * Complex.I) ^ m / (m.factorial : ℂ)).im =
    ∑ m ∈ range n, (-1 : ℝ) ^ m * t ^ (2 * m + 1) / ((2 * m + 1).factorial : ℝ) := by
  intro n
  induction n with
  | zero => simp
  | succ n ih =>
    rw [show 2 * (n + 1) = 2 * n + 1 + 1 by ring, sum_range_succ, sum_range_succ, sum_range_succ, Complex.add_im, Complex.add_im, ih]
    have h1 : ((t : ℂ) * Complex.I) ^ (2 * n) = (((-1) ^ n * t ^ (2 * n) : ℝ) : ℂ) := by
      rw [mul_pow, pow_mul Complex.I, Complex.I_sq]; push_cast; ring
    have h2 : ((t : ℂ) * Complex.I) ^ (2 * n + 1) = (((-1) ^ n * t ^ (2 * n + 1) : ℝ) : ℂ) * Complex.I := by
      rw [pow_succ, h1]; push_cast; ring
    have e1 : (((t : ℂ) * Complex.I) ^ (2 * n) / ((2 * n).factorial : ℂ)).im = 0 := by
      rw [h1]
      have : ((((-1) ^ n * t ^ (2 * n) : ℝ) : ℂ) / ((2 * n).factorial : ℂ)) = ((((-1) ^ n * t ^ (2 * n) / ((2 * n).factorial : ℝ)) : ℝ) : ℂ) := by
        push_cast; ring
      rw [this, Complex.ofReal_im]
    have e2 : (((t : ℂ) * Complex.I) ^ (2 * n + 1) / ((2 * n + 1).factorial : ℂ)).im =
        (-1 : ℝ) ^ n * t ^ (2 * n + 1) / ((2 * n + 1).factorial : ℝ) := by
      rw [h2]
      have : ((((-1) ^ n * t ^ (2 * n + 1) : ℝ) : ℂ) * Complex.I / ((2 * n + 1).factorial : ℂ)) =
          ((((-1) ^ n * t ^ (2 * n + 1) / ((2 * n + 1).factorial : ℝ)) : ℝ) : ℂ) * Complex.I := by
        push_cast; ring
      rw [this, Complex.mul_im]; simp only [Complex.ofReal_re, Complex.ofReal_im, Complex.I_re, Complex.I_im]; ring
    rw [e1, e2]; ring


theorem sin_poly (t : ℝ) (ht : |t| ≤ 3.2) : |Real.sin t - t * sinPolyR (t ^ 2) 13 0| * (S : ℝ) ≤ 1 := by
  have hn : ‖(t : ℂ) * Complex.I‖ = |t| := by rw [norm_mul, Complex.norm_I, mul_one, Complex.norm_real, Real.norm_eq_abs]
  have hb := Complex.exp_bound' (x := (t : ℂ) * Complex.I) (n := 28) (by rw [hn]; norm_num at ht ⊢; linarith)
  have him := Complex.abs_im_le_norm (Complex.exp ((t : ℂ) * Complex.I) - ∑ m ∈ range 28, ((t : ℂ) * Complex.I) ^ m / (m.factorial : ℂ))
  have h1 := im_sum t 14
  have h2 := sinPolyR_sum t 13 0
  norm_num at h2
  rw [Complex.sub_im, show 28 = 2 * 14 from rfl, h1, Complex.exp_ofReal_mul_I_im] at him
  rw [h2]
  have h3 : |t| ^ 28 ≤ 3.2 ^ 28 := pow_le_pow_left₀ (abs_nonneg t) ht 28
  rw [hn] at hb
  have h4 : |t| ^ 28 / ((28 : ℕ).factorial : ℝ) * 2 ≤ 3.2 ^ 28 / ((28 : ℕ).factorial : ℝ) * 2 := by gcongr
  have h5 := him.trans (hb.trans h4)
  rw [S_real]
  have h6 : (3.2 : ℝ) ^ 28 / ((28 : ℕ).factorial : ℝ) * 2 * 2 ^ 48 ≤ 1 := by norm_num [Nat.factorial]
  refine le_trans ?_ h6
  exact mul_le_mul_of_nonneg_right h5 (by positivity)

/-- The Taylor polynomial of `sin t / t` in fixed-point arithmetic. -/
def sinPoly (x2 : Int) : Nat → Nat → Int
  | 0, _ => S
  | f + 1, j => S - x2 * sinPoly x2 f (j + 1) / (S * ((2 * j + 2) * (2 * j + 3) : Nat))

theorem sinPolyR_le {y : ℝ} (h0 : 0 ≤ y) (h1 : y ≤ 11) : ∀ f j : Nat, 1 ≤ j → |sinPolyR y f j| ≤ 3 := by
  intro f
  induction f with
  | zero => intro j _; simp [sinPolyR]
  | succ f ih =>
    intro j hj
    have h := ih (j + 1) (by omega)
    have hN : (20 : ℝ) ≤ (((2 * j + 2) * (2 * j + 3) : Nat) : ℝ) := by
      have : 20 ≤ (2 * j + 2) * (2 * j + 3) := by nlinarith
      exact_mod_cast this
    rw [sinPolyR]
    refine (abs_sub _ _).trans ?_
    rw [abs_one, abs_div, abs_mul, abs_of_nonneg h0, abs_of_pos (by linarith : (0 : ℝ) < (((2 * j + 2) * (2 * j + 3) : Nat) : ℝ))]
    have : y * |sinPolyR y f (j + 1)| / (((2 * j + 2) * (2 * j + 3) : Nat) : ℝ) ≤ 2 := by
      rw [div_le_iff₀ (by linarith)]
      nlinarith [abs_nonneg (sinPolyR y f (j + 1))]
    linarith

/-- Rounding a quotient changes it by at most one. -/
theorem div_near {a b : Int} (hb : 0 < b) : |((a / b : Int) : ℝ) - (a : ℝ) / (b : ℝ)| ≤ 1 := by
  have hb' : (0 : ℝ) < (b : ℝ) := by exact_mod_cast hb
  rw [abs_le]
  constructor
  · have h := Int.lt_ediv_add_one_mul_self a hb
    have h2 : (a : ℝ) < (((a / b : Int) : ℝ) + 1) * (b : ℝ) := by exact_mod_cast h
    rw [← div_lt_iff₀ hb'] at h2
    linarith
  · linarith [div_le (a := a) hb]

/-- One step of the evaluation. -/
theorem sin_step {x2 q : Int} {y P E : ℝ} {N : Nat} (hN : 0 < N) (hy : |y * (S : ℝ) - (x2 : ℝ)| ≤ 1) (h0 : 0 ≤ (x2 : ℝ))
    (h1 : (x2 : ℝ) ≤ 10.5 * (S : ℝ)) (hq : |(q : ℝ) - P * (S : ℝ)| ≤ E) (hP : |P| ≤ 3) :
    |((S - x2 * q / (S * (N : Nat)) : Int) : ℝ) - (1 - y * P / (N : ℝ)) * (S : ℝ)| ≤ (10.5 * E + 3) / (N : ℝ) + 1 := by
  have hS := S_pos
  have hN' : (0 : ℝ) < (N : ℝ) := by exact_mod_cast hN
  have hd := div_near (a := x2 * q) (b := S * (N : Nat)) (by
    have : (0 : Int) < S := by decide
    positivity)
  push_cast at hd ⊢
  have e : (S : ℝ) - ((x2 * q / (S * (N : Nat)) : Int) : ℝ) - (1 - y * P / (N : ℝ)) * (S : ℝ) =
      -(((x2 * q / (S * (N : Nat)) : Int) : ℝ) - (x2 : ℝ) * (q : ℝ) / ((S : ℝ) * (N : ℝ)))
        - ((x2 : ℝ) / (S : ℝ) * ((q : ℝ) - P * (S : ℝ)) - P * (y * (S : ℝ) - (x2 : ℝ))) / (N : ℝ) := by
    field_simp
    ring
  rw [e]
  refine (abs_sub _ _).trans ?_
  rw [abs_neg, abs_div, abs_of_pos hN', add_comm]
  refine add_le_add ?_ hd
  refine div_le_div_of_nonneg_right ?_ hN'.le
  refine (abs_sub _ _).trans ?_
  rw [abs_mul, abs_mul, abs_div, abs_of_nonneg h0, abs_of_pos hS]
  have h2 : (x2 : ℝ) / (S : ℝ) ≤ 10.5 := by rw [div_le_iff₀ hS]; exact h1
  have h3 : 0 ≤ (x2 : ℝ) / (S : ℝ) := by positivity
  refine add_le_add ?_ ?_
  · exact mul_le_mul h2 hq (abs_nonneg _) (by norm_num)
  · calc _ ≤ 3 * 1 := mul_le_mul hP hy (abs_nonneg _) (by norm_num)
      _ = 3 := by norm_num

theorem sinPoly_near {x2 : Int} {y : ℝ} (hy : |y * (S : ℝ) - (x2 : ℝ)| ≤ 1) (h0 : 0 ≤ (x2 : ℝ)) (hy0 : 0 ≤ y)
    (h1 : (x2 : ℝ) ≤ 10.5 * (S : ℝ)) : ∀ f j : Nat, 1 ≤ j → |(sinPoly x2 f j : ℝ) - sinPolyR y f j * (S : ℝ)| ≤ 3 := by
  have hy11 : y ≤ 11 := by
    have hS := S_pos
    have hS1 : (1 : ℝ) ≤ (S : ℝ) * 0.5 := by rw [S_real]; norm_num
    have := (abs_le.1 hy).2
    nlinarith
  intro f
  induction f with
  | zero => intro j _; simp [sinPolyR, sinPoly]
  | succ f ih =>
    intro j hj
    have hN : (20 : ℝ) ≤ (((2 * j + 2) * (2 * j + 3) : Nat) : ℝ) := by
      have : 20 ≤ (2 * j + 2) * (2 * j + 3) := by nlinarith
      exact_mod_cast this
    refine (sin_step (by positivity) hy h0 h1 (ih (j + 1) (by omega)) (sinPolyR_le hy0 hy11 f (j + 1) (by omega))).trans ?_
    have : (10.5 * 3 + 3) / (((2 * j + 2) * (2 * j + 3) : Nat) : ℝ) ≤ 2 := by
      rw [div_le_iff₀ (by linarith)]
      norm_num at hN ⊢; linarith
    linarith

/-- The sine of a point of absolute value at most 3.2. -/
def sinPt (m : Int) : Iv :=
  let v := m * sinPoly (m * m / S) 13 0 / S
  ⟨v - 30, v + 30⟩

theorem sinPt_has {m : Int} (hm : |(m : ℝ) / (S : ℝ)| ≤ 3.2) : (sinPt m).has (Real.sin ((m : ℝ) / (S : ℝ))) := by
  have hS := S_pos
  have hSi : (0 : Int) < S := by decide
  generalize ht : (m : ℝ) / (S : ℝ) = t at hm ⊢
  have hmt : (m : ℝ) = t * (S : ℝ) := by rw [← ht]; field_simp
  have hp := sin_poly t hm
  have hx := div_near (a := m * m) (b := S) hSi
  have hx0 : 0 ≤ m * m / S := Int.ediv_nonneg (mul_self_nonneg m) hSi.le
  have hxr : (0 : ℝ) ≤ ((m * m / S : Int) : ℝ) := by exact_mod_cast hx0
  have hy : |t ^ 2 * (S : ℝ) - ((m * m / S : Int) : ℝ)| ≤ 1 := by
    rw [abs_sub_comm]
    have e : t ^ 2 * (S : ℝ) = ((m * m : Int) : ℝ) / ((S : Int) : ℝ) := by
      push_cast; rw [hmt]; field_simp
    rw [e]; exact hx
  have ht2 : t ^ 2 ≤ 10.24 := by
    have := sq_le_sq' (abs_le.1 hm).1 (abs_le.1 hm).2
    norm_num at this ⊢; linarith
  have hx1 : ((m * m / S : Int) : ℝ) ≤ 10.5 * (S : ℝ) := by
    have hS1 : (1 : ℝ) ≤ (S : ℝ) * 0.26 := by rw [S_real]; norm_num
    have := (abs_le.1 hy).1
    nlinarith
  have hyy : t ^ 2 ≤ 11 := by linarith
  have h1 := sinPoly_near hy hxr (sq_nonneg t) hx1 12 1 (by omega)
  have h2 := sin_step (N := 6) (by norm_num) hy hxr hx1 h1 (sinPolyR_le (sq_nonneg t) hyy 12 1 (by omega))
  generalize hq : sinPoly (m * m / S) 13 0 = q
  have hq' : S - m * m / S * sinPoly (m * m / S) 12 1 / (S * (6 : Nat)) = q := by rw [← hq]; rfl
  have hP : 1 - t ^ 2 * sinPolyR (t ^ 2) 12 1 / ((6 : Nat) : ℝ) = sinPolyR (t ^ 2) 13 0 := rfl
  rw [hq', hP] at h2
  have h3 := div_near (a := m * q) (b := S) hSi
  have h4 : |Real.sin t * (S : ℝ) - ((m * q / S : Int) : ℝ)| ≤ 30 := by
    have e : Real.sin t * (S : ℝ) - ((m * q / S : Int) : ℝ) = (Real.sin t - t * sinPolyR (t ^ 2) 13 0) * (S : ℝ)
        - t * ((q : ℝ) - sinPolyR (t ^ 2) 13 0 * (S : ℝ)) - (((m * q / S : Int) : ℝ) - ((m * q : Int) : ℝ) / ((S : Int) : ℝ)) := by
      push_cast; rw [hmt]; field_simp; ring
    rw [e]
    refine (abs_sub _ _).trans ?_
    refine (add_le_add (abs_sub _ _) h3).trans ?_
    rw [abs_mul, abs_mul, abs_of_pos hS]
    have h5 : |t| * |(q : ℝ) - sinPolyR (t ^ 2) 13 0 * (S : ℝ)| ≤ 3.2 * ((10.5 * 3 + 3) / ((6 : Nat) : ℝ) + 1) :=
      mul_le_mul hm h2 (abs_nonneg _) (by norm_num)
    norm_num at h5
    linarith
  have h6 := abs_le.1 h4
  unfold sinPt
  rw [hq]
  constructor
  · show ((m * q / S - 30 : Int) : ℝ) ≤ _
    push_cast at h6 ⊢; linarith
  · show _ ≤ ((m * q / S + 30 : Int) : ℝ)
    push_cast at h6 ⊢; linarith

/-- `2π` in units of `2^-48`, to the nearest. -/
def twoPi : Int := 1768559438007110
def halfPi : Int := 442139859501778

theorem twoPi_near : |2 * Real.pi * (S : ℝ) - (twoPi : ℝ)| ≤ 1 := by
  have h1 := Real.pi_gt_d20
  have h2 := Real.pi_lt_d20
  rw [S_real, abs_le]
  norm_num [twoPi] at h1 h2 ⊢
  constructor <;> linarith

theorem halfPi_near : |Real.pi / 2 * (S : ℝ) - (halfPi : ℝ)| ≤ 1 := by
  have h1 := Real.pi_gt_d20
  have h2 := Real.pi_lt_d20
  rw [S_real, abs_le]
  norm_num [halfPi] at h1 h2 ⊢
  constructor <;> linarith

def absI (a : Int) : Int := max2 a (-a)

theorem absI_real (a : Int) : ((absI a : Int) : ℝ) = |(a : ℝ)| := by
  unfold absI max2
  split
  · rename_i h
    have : (a : ℝ) ≤ 0 := by exact_mod_cast (by omega : a ≤ 0)
    rw [abs_of_nonpos this]; push_cast; rfl
  · rename_i h
    have : (0 : ℝ) ≤ a := by exact_mod_cast (by omega : 0 ≤ a)
    rw [abs_of_nonneg this]

def mid (a : Iv) : Int := (a.lo + a.hi) / 2
def rad (a : Iv) : Int := max2 (a.hi - mid a) (mid a - a.lo)

theorem rad_near {a : Iv} {x : ℝ} (ha : a.has x) : |x * (S : ℝ) - (mid a : ℝ)| ≤ (rad a : ℝ) := by
  have h1 := le_max2 (a.hi - mid a) (mid a - a.lo)
  have h2 : ((a.hi - mid a : Int) : ℝ) ≤ (rad a : ℝ) := by exact_mod_cast h1.1
  have h3 : ((mid a - a.lo : Int) : ℝ) ≤ (rad a : ℝ) := by exact_mod_cast h1.2
  push_cast at h2 h3
  rw [abs_le]
  constructor <;> linarith [ha.1, ha.2]

def clamp (a : Iv) : Iv := ⟨max2 a.lo (-S), min2 a.hi S⟩

theorem clamp_has {a : Iv} {x : ℝ} (ha : a.has x) (h1 : -1 ≤ x) (h2 : x ≤ 1) : (clamp a).has x := by
  have hS := S_pos
  unfold Iv.has clamp max2 min2 at *
  constructor
  · show ((if a.lo ≤ -S then -S else a.lo : Int) : ℝ) ≤ _
    split
    · push_cast; nlinarith
    · exact ha.1
  · show _ ≤ ((if a.hi ≤ S then a.hi else S : Int) : ℝ)
    split
    · exact ha.2
    · nlinarith

/-- Sine of an interval: the sine of its middle, reduced by a multiple of `2π`, widened by the radius. -/
def sinI (a : Iv) : Iv :=
  let k := (mid a + halfPi + halfPi) / twoPi
  let m := mid a - k * twoPi
  if absI m * 10 ≤ 32 * S then clamp (widen (sinPt m) (rad a + absI k)) else ⟨-S, S⟩

theorem sinI_has {a : Iv} {x : ℝ} (ha : a.has x) : (sinI a).has (Real.sin x) := by
  have hS := S_pos
  have l1 := Real.neg_one_le_sin x
  have l2 := Real.sin_le_one x
  unfold sinI
  generalize (mid a + halfPi + halfPi) / twoPi = k
  simp only
  split
  · rename_i hm
    generalize hm' : mid a - k * twoPi = m at hm
    refine clamp_has ?_ l1 l2
    have hm2 : |(m : ℝ) / (S : ℝ)| ≤ 3.2 := by
      have : ((absI m * 10 : Int) : ℝ) ≤ ((32 * S : Int) : ℝ) := by exact_mod_cast hm
      push_cast at this
      rw [absI_real] at this
      rw [abs_div, abs_of_pos hS, div_le_iff₀ hS]
      linarith
    refine widen_has (sinPt_has hm2) ?_
    have e : Real.sin x = Real.sin (x - k * (2 * Real.pi)) := (Real.sin_sub_int_mul_two_pi x k).symm
    rw [e]
    have h1 := Real.abs_sin_sub_sin_le (x - k * (2 * Real.pi)) ((m : ℝ) / (S : ℝ))
    refine le_trans (mul_le_mul_of_nonneg_right h1 hS.le) ?_
    have h2 : |x - k * (2 * Real.pi) - (m : ℝ) / (S : ℝ)| * (S : ℝ) =
        |(x * (S : ℝ) - (mid a : ℝ)) - (k : ℝ) * (2 * Real.pi * (S : ℝ) - (twoPi : ℝ))| := by
      rw [← abs_of_pos hS, ← abs_mul, abs_of_pos hS, ← hm']
      congr 1
      push_cast
      field_simp
      ring
    rw [h2]
    refine le_trans (abs_sub _ _) ?_
    rw [abs_mul]
    push_cast
    rw [absI_real]
    have h3 := rad_near ha
    have h4 := twoPi_near
    have h5 := abs_nonneg (k : ℝ)
    nlinarith
  · constructor
    · push_cast; nlinarith
    · push_cast; nlinarith

/-- Cosine of an interval. -/
def cosI (a : Iv) : Iv := sinI (widen (add a (pt halfPi)) 1)

theorem cosI_has {a : Iv} {x : ℝ} (ha : a.has x) : (cosI a).has (Real.cos x) := by
  have hS := S_pos
  rw [← Real.sin_add_pi_div_two]
  refine sinI_has (widen_has (add_has ha (pt_has halfPi)) ?_)
  have h := halfPi_near
  have e : |x + Real.pi / 2 - (x + (halfPi : ℝ) / (S : ℝ))| * (S : ℝ) = |Real.pi / 2 * (S : ℝ) - (halfPi : ℝ)| := by
    rw [← abs_of_pos hS, ← abs_mul, abs_of_pos hS]
    congr 1
    field_simp
    ring
  rw [e]
  exact_mod_cast h

/-! ## The exponential function -/

noncomputable def expPolyR (x : ℝ) : Nat → Nat → ℝ
  | 0, _ => 1
  | f + 1, j => 1 + x * expPolyR x f (j + 1) / ((j + 1 : Nat) : ℝ)

theorem expPolyR_sum (t : ℝ) : ∀ f j : Nat, t ^ j / (j.factorial : ℝ) * expPolyR t f j =
    ∑ m ∈ range (f + 1), t ^ (j + m) / ((j + m).factorial : ℝ) := by
  intro f
  induction f with
  | zero => intro j; simp [expPolyR]
  | succ f ih =>
    intro j
    rw [sum_range_succ']
    have h := ih (j + 1)
    have e : ∑ m ∈ range (f + 1), t ^ (j + (m + 1)) / ((j + (m + 1)).factorial : ℝ) =
        ∑ m ∈ range (f + 1), t ^ (j + 1 + m) / ((j + 1 + m).factorial : ℝ) := by
      refine sum_congr rfl fun m _ => ?_
      rw [show j + (m + 1) = j + 1 + m by omega]
    rw [e, ← h, expPolyR, Nat.factorial_succ]
    have h0 : (j.factorial : ℝ) ≠ 0 := by exact_mod_cast Nat.factorial_ne_zero _
    have h1 : ((j + 1 : Nat) : ℝ) ≠ 0 := by positivity
    rw [Nat.cast_mul]
    simp only [Nat.add_zero]
    field_simp
    ring

theorem exp_poly (t : ℝ) (ht : |t| ≤ 1.5) : |Real.exp t - expPolyR t 19 0| * (S : ℝ) ≤ 1 := by
  have hn : ‖(t : ℂ)‖ = |t| := by rw [Complex.norm_real, Real.norm_eq_abs]
  have hb := Complex.exp_bound' (x := (t : ℂ)) (n := 20) (by rw [hn]; norm_num at ht ⊢; linarith)
  have h2 := expPolyR_sum t 19 0
  norm_num at h2
  have e : (Complex.exp (t : ℂ) - ∑ m ∈ range 20, (t : ℂ) ^ m / (m.factorial : ℂ)) =
      ((Real.exp t - ∑ m ∈ range 20, t ^ m / (m.factorial : ℝ) : ℝ) : ℂ) := by push_cast; rfl
  rw [e, Complex.norm_real, Real.norm_eq_abs, hn] at hb
  rw [h2]
  have h3 : |t| ^ 20 ≤ 1.5 ^ 20 := pow_le_pow_left₀ (abs_nonneg t) ht 20
  have h4 : |t| ^ 20 / ((20 : ℕ).factorial : ℝ) * 2 ≤ 1.5 ^ 20 / ((20 : ℕ).factorial : ℝ) * 2 := by gcongr
  rw [S_real]
  have h6 : (1.5 : ℝ) ^ 20 / ((20 : ℕ).factorial : ℝ) * 2 * 2 ^ 48 ≤ 1 := by norm_num [Nat.factorial]
  refine le_trans ?_ h6
  exact mul_le_mul_of_nonneg_right (hb.trans h4) (by positivity)

def expPoly (x : Int) : Nat → Nat → Int
  | 0, _ => S
  | f + 1, j => S + x * expPoly x f (j + 1) / (S * (j + 1 : Nat))

theorem exp_step {x q : Int} {P E : ℝ} {N : Nat} (hN : 0 < N) (h1 : |(x : ℝ) / (S : ℝ)| ≤ 1.5) (hq : |(q : ℝ) - P * (S : ℝ)| ≤ E) :
    |((S + x * q / (S * (N : Nat)) : Int) : ℝ) - (1 + (x : ℝ) / (S : ℝ) * P / (N : ℝ)) * (S : ℝ)| ≤ 1.5 * E / (N : ℝ) + 1 := by
  have hS := S_pos
  have hN' : (0 : ℝ) < (N : ℝ) := by exact_mod_cast hN
  have hd := div_near (a := x * q) (b := S * (N : Nat)) (by
    have : (0 : Int) < S := by decide
    positivity)
  push_cast at hd ⊢
  have e : (S : ℝ) + ((x * q / (S * (N : Nat)) : Int) : ℝ) - (1 + (x : ℝ) / (S : ℝ) * P / (N : ℝ)) * (S : ℝ) =
      (((x * q / (S * (N : Nat)) : Int) : ℝ) - (x : ℝ) * (q : ℝ) / ((S : ℝ) * (N : ℝ)))
        + ((x : ℝ) / (S : ℝ) * ((q : ℝ) - P * (S : ℝ))) / (N : ℝ) := by
    field_simp
    ring
  rw [e, add_comm]
  refine (abs_add_le _ _).trans (add_le_add ?_ hd)
  rw [abs_div, abs_of_pos hN', abs_mul]
  refine div_le_div_of_nonneg_right ?_ hN'.le
  exact mul_le_mul h1 hq (abs_nonneg _) (by norm_num)

theorem expPoly_near {x : Int} (h1 : |(x : ℝ) / (S : ℝ)| ≤ 1.5) : ∀ f j : Nat, 1 ≤ j →
    |(expPoly x f j : ℝ) - expPolyR ((x : ℝ) / (S : ℝ)) f j * (S : ℝ)| ≤ 4 := by
  intro f
  induction f with
  | zero => intro j _; simp [expPolyR, expPoly]
  | succ f ih =>
    intro j hj
    have hN : (2 : ℝ) ≤ ((j + 1 : Nat) : ℝ) := by exact_mod_cast (by omega : 2 ≤ j + 1)
    refine (exp_step (by positivity) h1 (ih (j + 1) (by omega))).trans ?_
    have : 1.5 * 4 / ((j + 1 : Nat) : ℝ) ≤ 3 := by
      rw [div_le_iff₀ (by linarith)]
      norm_num at hN ⊢; linarith
    linarith

def expPt (m : Int) : Iv :=
  let v := expPoly m 19 0
  ⟨v - 8, v + 8⟩

theorem expPt_has {m : Int} (hm : absI m * 10 ≤ 15 * S) : (expPt m).has (Real.exp ((m : ℝ) / (S : ℝ))) := by
  have hS := S_pos
  have hm2 : |(m : ℝ) / (S : ℝ)| ≤ 1.5 := by
    have : ((absI m * 10 : Int) : ℝ) ≤ ((15 * S : Int) : ℝ) := by exact_mod_cast hm
    push_cast at this
    rw [absI_real] at this
    rw [abs_div, abs_of_pos hS, div_le_iff₀ hS]
    linarith
  have h1 := expPoly_near hm2 18 1 (by omega)
  have h2 := exp_step (N := 1) (by norm_num) hm2 h1
  have h3 := exp_poly _ hm2
  generalize hq : expPoly m 19 0 = q
  have hq' : S + m * expPoly m 18 1 / (S * (1 : Nat)) = q := by rw [← hq]; rfl
  have hP : 1 + (m : ℝ) / (S : ℝ) * expPolyR ((m : ℝ) / (S : ℝ)) 18 1 / ((1 : Nat) : ℝ) = expPolyR ((m : ℝ) / (S : ℝ)) 19 0 := rfl
  rw [hq', hP] at h2
  rw [← abs_of_pos hS, ← abs_mul, abs_of_pos hS, sub_mul] at h3
  have h4 := abs_le.1 h2
  have h5 := abs_le.1 h3
  norm_num at h4
  unfold expPt
  rw [hq]
  constructor
  · show ((q - 8 : Int) : ℝ) ≤ _
    push_cast; linarith
  · show _ ≤ ((q + 8 : Int) : ℝ)
    push_cast; linarith

/-- The exponential of an interval within `[-1.5, 1.5]`. -/
def expI (a : Iv) : Option Iv :=
  if absI a.lo * 10 ≤ 15 * S ∧ absI a.hi * 10 ≤ 15 * S then some ⟨(expPt a.lo).lo, (expPt a.hi).hi⟩ else none

theorem expI_has {a b : Iv} {x : ℝ} (ha : a.has x) (h : expI a = some b) : b.has (Real.exp x) := by
  have hS := S_pos
  unfold expI at h
  split at h
  · rename_i hc
    cases h
    have h1 := (expPt_has hc.1).1
    have h2 := (expPt_has hc.2).2
    have e1 : Real.exp ((a.lo : ℝ) / (S : ℝ)) ≤ Real.exp x := Real.exp_le_exp.2 (by rw [div_le_iff₀ hS]; exact ha.1)
    have e2 : Real.exp x ≤ Real.exp ((a.hi : ℝ) / (S : ℝ)) := Real.exp_le_exp.2 (by rw [le_div_iff₀ hS]; exact ha.2)
    exact ⟨h1.trans (mul_le_mul_of_nonneg_right e1 hS.le), (mul_le_mul_of_nonneg_right e2 hS.le).trans h2⟩
  · cases h

/-! ## Expressions -/

/-- Expressions in one variable; `c n d` is the constant `n / (d + 1)`. -/
inductive Ex where
  | x
  | c (n : Int) (d : Nat)
  | add (a b : Ex)
  | mul (a b : Ex)
  | sin (a : Ex)
  | cos (a : Ex)
  | exp (a : Ex)

namespace Ex

/-- The value of the expression at `t`. -/
noncomputable def val (t : ℝ) : Ex → ℝ
  | x => t
  | c n d => (n : ℝ) / ((d : ℝ) + 1)
  | add a b => a.val t + b.val t
  | mul a b => a.val t * b.val t
  | sin a => Real.sin (a.val t)
  | cos a => Real.cos (a.val t)
  | exp a => Real.exp (a.val t)

/-- Its derivative. -/
def der : Ex → Ex
  | x => c 1 0
  | c _ _ => c 0 0
  | add a b => add a.der b.der
  | mul a b => add (mul a.der b) (mul a b.der)
  | sin a => mul (cos a) a.der
  | cos a => mul (c (-1) 0) (mul (sin a) a.der)
  | exp a => mul (exp a) a.der

/-- An enclosure on an interval. -/
def iv (i : Iv) : Ex → Option Iv
  | x => some i
  | c n d => some (ofRat n ((d : Int) + 1))
  | add a b => match a.iv i, b.iv i with
    | some p, some q => some (Interval.add p q)
    | _, _ => none
  | mul a b => match a.iv i, b.iv i with
    | some p, some q => some (Interval.mul p q)
    | _, _ => none
  | sin a => match a.iv i with
    | some p => some (sinI p)
    | none => none
  | cos a => match a.iv i with
    | some p => some (cosI p)
    | none => none
  | exp a => match a.iv i with
    | some p => expI p
    | none => none

theorem iv_has {i : Iv} {t : ℝ} (h : i.has t) : ∀ (e : Ex) {j : Iv}, e.iv i = some j → j.has (e.val t) := by
  intro e
  induction e with
  | x => intro j hj; cases hj; exact h
  | c n d =>
    intro j hj; cases hj
    have := ofRat_has (n := n) (d := (d : Int) + 1) (by positivity)
    push_cast at this
    exact this
  | add a b iha ihb =>
    intro j hj
    simp only [iv] at hj
    split at hj
    · rename_i p q hp hq; cases hj; exact add_has (iha hp) (ihb hq)
    · cases hj
  | mul a b iha ihb =>
    intro j hj
    simp only [iv] at hj
    split at hj
    · rename_i p q hp hq; cases hj; exact mul_has (iha hp) (ihb hq)
    · cases hj
  | sin a iha =>
    intro j hj
    simp only [iv] at hj
    split at hj
    · rename_i p hp; cases hj; exact sinI_has (iha hp)
    · cases hj
  | cos a iha =>
    intro j hj
    simp only [iv] at hj
    split at hj
    · rename_i p hp; cases hj; exact cosI_has (iha hp)
    · cases hj
  | exp a iha =>
    intro j hj
    simp only [iv] at hj
    split at hj
    · rename_i p hp; exact expI_has (iha hp) hj
    · cases hj

theorem hasDeriv (t : ℝ) : ∀ e : Ex, HasDerivAt (fun t => e.val t) (e.der.val t) t := by
  intro e
  induction e with
  | x =>
    have h : (Ex.x.der).val t = 1 := by simp [val, der]
    rw [h]
    exact hasDerivAt_id t
  | c n d => simpa [val, der] using hasDerivAt_const t ((n : ℝ) / ((d : ℝ) + 1))
  | add a b iha ihb => exact iha.add ihb
  | mul a b iha ihb => exact iha.mul ihb
  | sin a iha => exact iha.sin
  | cos a iha =>
    have := iha.cos
    simp only [val, der]
    convert this using 1
    push_cast; ring
  | exp a iha => exact iha.exp

/-- A lower bound of the values on `[a, b]` (in units): the value in the middle less the greatest slope times the radius. -/
def lower (e d : Ex) (a b : Int) : Option Int :=
  let i : Iv := ⟨a, b⟩
  match e.iv (pt (mid i)), d.iv i with
  | some f, some s => some (f.lo - cdiv (max2 (absI s.lo) (absI s.hi) * rad i) S)
  | _, _ => none

theorem lower_sound {e : Ex} {a b v : Int} (h : lower e e.der a b = some v) {t : ℝ} (ht : Iv.has ⟨a, b⟩ t) :
    (v : ℝ) ≤ e.val t * (S : ℝ) := by
  have hS := S_pos
  unfold lower at h
  simp only at h
  split at h
  · rename_i f s hf hs
    cases h
    have hm := iv_has (pt_has (mid ⟨a, b⟩)) e hf
    have hmid : Iv.has ⟨a, b⟩ ((mid ⟨a, b⟩ : ℝ) / (S : ℝ)) := by
      unfold Iv.has
      rw [div_mul_cancel₀ _ (ne_of_gt hS)]
      have hab : (a : ℝ) ≤ b := ht.1.trans ht.2
      have hab' : a ≤ b := by exact_mod_cast hab
      unfold mid
      constructor
      · have : a ≤ (a + b) / 2 := by omega
        exact_mod_cast this
      · have : (a + b) / 2 ≤ b := by omega
        exact_mod_cast this
    have conv : ∀ z : ℝ, z ∈ Set.Icc ((a : ℝ) / (S : ℝ)) ((b : ℝ) / (S : ℝ)) ↔ Iv.has ⟨a, b⟩ z := by
      intro z
      unfold Iv.has
      rw [Set.mem_Icc, div_le_iff₀ hS, le_div_iff₀ hS]
    let M : Int := max2 (absI s.lo) (absI s.hi)
    have slope : ∀ z ∈ Set.Icc ((a : ℝ) / (S : ℝ)) ((b : ℝ) / (S : ℝ)), ‖e.der.val z‖ ≤ (M : ℝ) / (S : ℝ) := by
      intro z hz
      have h1 := iv_has ((conv z).1 hz) e.der hs
      rw [Real.norm_eq_abs, le_div_iff₀ hS]
      have h2 := le_max2 (absI s.lo) (absI s.hi)
      have h3 : ((absI s.lo : Int) : ℝ) ≤ (M : ℝ) := by exact_mod_cast h2.1
      have h4 : ((absI s.hi : Int) : ℝ) ≤ (M : ℝ) := by exact_mod_cast h2.2
      rw [absI_real] at h3 h4
      have h5 := abs_le.1 h3
      have h6 := abs_le.1 h4
      have h7 : |e.der.val z| * (S : ℝ) = |e.der.val z * (S : ℝ)| := by rw [abs_mul, abs_of_pos hS]
      rw [h7, abs_le]
      constructor
      · linarith [h1.1]
      · linarith [h1.2]
    have key := (convex_Icc ((a : ℝ) / (S : ℝ)) ((b : ℝ) / (S : ℝ))).norm_image_sub_le_of_norm_hasDerivWithin_le
      (f := fun t => e.val t) (fun z _ => (hasDeriv z e).hasDerivWithinAt) slope ((conv _).2 hmid) ((conv _).2 ht)
    have k2 := (abs_le.1 (by simpa [Real.norm_eq_abs] using key :
      |e.val t - e.val ((mid ⟨a, b⟩ : ℝ) / (S : ℝ))| ≤ (M : ℝ) / (S : ℝ) * |t - (mid ⟨a, b⟩ : ℝ) / (S : ℝ)|)).1
    have k3 : |t - (mid ⟨a, b⟩ : ℝ) / (S : ℝ)| = |t * (S : ℝ) - (mid ⟨a, b⟩ : ℝ)| / (S : ℝ) := by
      rw [← abs_of_pos hS, ← abs_div, abs_of_pos hS]
      congr 1
      field_simp
    have hMnn : (0 : ℝ) ≤ M := by
      have h2 := le_max2 (absI s.lo) (absI s.hi)
      have h3 : ((absI s.lo : Int) : ℝ) ≤ (M : ℝ) := by exact_mod_cast h2.1
      rw [absI_real] at h3
      exact (abs_nonneg _).trans h3
    have k4 := rad_near ht
    have k5 := le_cdiv (a := M * rad ⟨a, b⟩) (b := S) (by decide)
    push_cast at k5 ⊢
    have k6 : (M : ℝ) / (S : ℝ) * |t - (mid ⟨a, b⟩ : ℝ) / (S : ℝ)| * (S : ℝ) ≤ (M : ℝ) * (rad ⟨a, b⟩ : ℝ) / (S : ℝ) := by
      rw [k3]
      have : (M : ℝ) / (S : ℝ) * (|t * (S : ℝ) - (mid ⟨a, b⟩ : ℝ)| / (S : ℝ)) * (S : ℝ) =
          (M : ℝ) * |t * (S : ℝ) - (mid ⟨a, b⟩ : ℝ)| / (S : ℝ) := by field_simp
      rw [this]
      gcongr
    have k7 := hm.1
    show (f.lo : ℝ) - ((cdiv (M * rad ⟨a, b⟩) S : Int) : ℝ) ≤ _
    nlinarith
  · cases h

/-- Bisection: every cell of `[a, b]` has the lower bound `T`. -/
def bisect (e d : Ex) (T : Int) : Nat → Int → Int → Bool
  | 0, _, _ => false
  | n + 1, a, b =>
    match lower e d a b with
    | none => bisect e d T n a ((a + b) / 2) && bisect e d T n ((a + b) / 2) b
    | some v => if T ≤ v then true else bisect e d T n a ((a + b) / 2) && bisect e d T n ((a + b) / 2) b

theorem bisect_sound {e : Ex} {T : Int} : ∀ {n : Nat} {a b : Int}, bisect e e.der T n a b = true →
    ∀ {t : ℝ}, Iv.has ⟨a, b⟩ t → (T : ℝ) ≤ e.val t * (S : ℝ) := by
  intro n
  induction n with
  | zero => intro a b h; cases h
  | succ n ih =>
    intro a b h t ht
    have two : bisect e e.der T n a ((a + b) / 2) && bisect e e.der T n ((a + b) / 2) b → (T : ℝ) ≤ e.val t * (S : ℝ) := by
      intro h
      rw [Bool.and_eq_true] at h
      rcases le_total (t * (S : ℝ)) (((a + b) / 2 : Int) : ℝ) with h1 | h1
      · exact ih h.1 ⟨ht.1, h1⟩
      · exact ih h.2 ⟨h1, ht.2⟩
    unfold bisect at h
    split at h
    · exact two h
    · rename_i v hv
      split at h
      · rename_i hT
        exact le_trans (by exact_mod_cast hT) (lower_sound hv ht)
      · exact two h

/-- `T·10⁻¹²` is a lower bound on `[p·10⁻⁷, q·10⁻⁷]`. -/
def check (e : Ex) (n : Nat) (T p q : Int) : Bool :=
  bisect e e.der (cdiv (T * S) 1000000000000) n (p * S / 10000000) (cdiv (q * S) 10000000)

theorem check_sound {e : Ex} {n : Nat} {T p q : Int} (h : check e n T p q = true) {t : ℝ} (h1 : (p : ℝ) / 10000000 ≤ t)
    (h2 : t ≤ (q : ℝ) / 10000000) : (T : ℝ) / 1000000000000 ≤ e.val t := by
  have hS := S_pos
  have hp : ((p * S / 10000000 : Int) : ℝ) ≤ t * (S : ℝ) := by
    have := div_le (a := p * S) (b := 10000000) (by decide)
    push_cast at this ⊢
    refine this.trans ?_
    rw [mul_div_right_comm]
    exact mul_le_mul_of_nonneg_right h1 hS.le
  have hq : t * (S : ℝ) ≤ ((cdiv (q * S) 10000000 : Int) : ℝ) := by
    have := le_cdiv (a := q * S) (b := 10000000) (by decide)
    push_cast at this ⊢
    refine le_trans ?_ this
    rw [mul_div_right_comm]
    exact mul_le_mul_of_nonneg_right h2 hS.le
  have hT := le_cdiv (a := T * S) (b := 1000000000000) (by decide)
  have := hT.trans (bisect_sound h ⟨hp, hq⟩)
  push_cast at this
  rw [mul_div_right_comm] at this
  exact le_of_mul_le_mul_right this hS

/-- At `p·10⁻⁶` the value lies between `A·10⁻¹²` and `B·10⁻¹²`. -/
def within (e : Ex) (p A B : Int) : Bool :=
  match e.iv (ofRat p 1000000) with
  | some j => decide (cdiv (A * S) 1000000000000 ≤ j.lo) && decide (j.hi ≤ B * S / 1000000000000)
  | none => false

theorem within_sound {e : Ex} {p A B : Int} (h : within e p A B = true) :
    (A : ℝ) / 1000000000000 ≤ e.val ((p : ℝ) / 1000000) ∧ e.val ((p : ℝ) / 1000000) ≤ (B : ℝ) / 1000000000000 := by
  have hS := S_pos
  unfold within at h
  split at h
  · rename_i j hj
    rw [Bool.and_eq_true, decide_eq_true_iff, decide_eq_true_iff] at h
    have hp := ofRat_has (n := p) (d := 1000000) (by decide)
    push_cast at hp
    have hv := iv_has hp e hj
    have h1 : ((cdiv (A * S) 1000000000000 : Int) : ℝ) ≤ (j.lo : ℝ) := by exact_mod_cast h.1
    have h2 : (j.hi : ℝ) ≤ ((B * S / 1000000000000 : Int) : ℝ) := by exact_mod_cast h.2
    have h3 := (le_cdiv (a := A * S) (b := 1000000000000) (by decide)).trans (h1.trans hv.1)
    have h4 := (hv.2.trans h2).trans (div_le (a := B * S) (b := 1000000000000) (by decide))
    push_cast at h3 h4
    rw [mul_div_right_comm] at h3 h4
    exact ⟨le_of_mul_le_mul_right h3 hS, le_of_mul_le_mul_right h4 hS⟩
  · cases h

end Ex

end Ecrs.Interval
