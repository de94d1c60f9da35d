import Mathlib.Data.Int.Log
import Mathlib.Algebra.Order.Round
import Mathlib.Algebra.Order.Field.Basic
import Mathlib.Tactic.Linarith
import Mathlib.Tactic.Ring
import Mathlib.Tactic.FieldSimp
import Mathlib.Data.Rat.Floor

/-!
# Rounded arithmetic

`Rounding K` is what the theorems about floating point assume of the rounding of a result: it is monotone, leaves numbers that are
already rounded alone, and zero and one are such numbers.  Every IEEE 754 rounding mode satisfies this as long as nothing overflows.
`nearestEven p` is round-to-nearest, ties-to-even, with a significand of `p` bits and an unbounded exponent; `f64` is `p = 53`
(exponent range, infinities, NaN and signed zeros are not modelled here).
-/

namespace Ecrs

/-- A rounding of real numbers, as performed after every floating point operation. -/
structure Rounding (K : Type) [LinearOrder K] [Zero K] [One K] where
  rnd : K → K
  mono : ∀ {a b}, a ≤ b → rnd a ≤ rnd b
  idem : ∀ a, rnd (rnd a) = rnd a
  zero : rnd 0 = 0
  one : rnd 1 = 1

/-- Exact arithmetic. -/
def exact (K : Type) [LinearOrder K] [Zero K] [One K] : Rounding K where
  rnd := id
  mono h := h
  idem _ := rfl
  zero := rfl
  one := rfl

/-! ## Nearest, ties to even -/

/-- Round to the nearest integer, a half to the even neighbour. -/
def roundEven (x : ℚ) : ℤ :=
  if 2 * (x - ⌊x⌋) < 1 then ⌊x⌋ else if 2 * (x - ⌊x⌋) = 1 ∧ ⌊x⌋ % 2 = 0 then ⌊x⌋ else ⌊x⌋ + 1

theorem roundEven_floor (x : ℚ) : ⌊x⌋ ≤ roundEven x ∧ roundEven x ≤ ⌊x⌋ + 1 := by
  unfold roundEven; split
  · omega
  · split <;> omega

theorem roundEven_mono {x y : ℚ} (h : x ≤ y) : roundEven x ≤ roundEven y := by
  rcases (Int.floor_mono h).lt_or_eq with hlt | heq
  · have := (roundEven_floor x).2
    have := (roundEven_floor y).1
    omega
  · unfold roundEven
    rw [← heq]
    by_cases h1 : 2 * (y - ⌊x⌋) < 1
    · rw [if_pos h1, if_pos (by linarith)]
    · rw [if_neg h1]
      split
      · split <;> omega
      · rename_i h2
        by_cases h3 : 2 * (y - ⌊x⌋) = 1 ∧ ⌊x⌋ % 2 = 0
        · rw [if_pos h3, if_pos ⟨by linarith [h3.1, not_lt.1 h2], h3.2⟩]
        · rw [if_neg h3]; split <;> omega

theorem roundEven_int (n : ℤ) : roundEven (n : ℚ) = n := by
  unfold roundEven; rw [Int.floor_intCast, sub_self, if_pos (by norm_num)]

theorem roundEven_near (x : ℚ) : |(roundEven x : ℚ) - x| ≤ 1 / 2 := by
  have h1 := Int.floor_le x
  have h2 := Int.lt_floor_add_one x
  unfold roundEven
  rw [abs_le]
  split
  · constructor <;> linarith
  · rename_i h
    push Not at h
    split
    · rename_i h3; constructor <;> linarith [h3.1]
    · push_cast; constructor <;> linarith

/-- A number nearer to `n` than one half rounds to `n`. -/
theorem roundEven_eq {x : ℚ} {n : ℤ} (h : |x - n| < 1 / 2) : roundEven x = n := by
  have h1 := abs_lt.1 h
  have h2 := abs_le.1 (roundEven_near x)
  have h3 : ((roundEven x : ℤ) : ℚ) < (n : ℚ) + 1 := by linarith
  have h4 : (n : ℚ) < ((roundEven x : ℤ) : ℚ) + 1 := by linarith
  have h5 : roundEven x < n + 1 := by exact_mod_cast h3
  have h6 : n < roundEven x + 1 := by exact_mod_cast h4
  omega

/-- The half way points go to the even neighbour. -/
theorem roundEven_half {n : ℤ} (h : n % 2 = 0) : roundEven ((n : ℚ) + 1 / 2) = n ∧ roundEven ((n : ℚ) - 1 / 2) = n := by
  have f1 : ⌊(n : ℚ) + 1 / 2⌋ = n := by rw [Int.floor_eq_iff]; constructor <;> linarith
  have f2 : ⌊(n : ℚ) - 1 / 2⌋ = n - 1 := by rw [Int.floor_eq_iff]; push_cast; constructor <;> linarith
  constructor
  · unfold roundEven
    rw [f1, if_neg (by norm_num), if_pos ⟨by norm_num, h⟩]
  · unfold roundEven
    rw [f2, if_neg (by push_cast; norm_num), if_neg (by omega)]
    omega

/-- The unit in the last place of a number with `p` significant bits. -/
def ulp (p : Nat) (x : ℚ) : ℚ := (2 : ℚ) ^ (Int.log 2 |x| + 1 - (p : ℤ))

theorem ulp_pos (p : Nat) (x : ℚ) : 0 < ulp p x := zpow_pos (by norm_num) _

/-- Round to nearest, ties to even, with `p` significant bits. -/
def nearest (p : Nat) (x : ℚ) : ℚ := roundEven (x / ulp p x) * ulp p x

theorem nearest_zero (p : Nat) : nearest p 0 = 0 := by
  unfold nearest; rw [zero_div]
  have := roundEven_int 0
  push_cast at this
  rw [this]; simp

/-- Within a binade: a positive number between two powers of two. -/
theorem nearest_binade {p : Nat} {x : ℚ} {e : ℤ} (h1 : (2 : ℚ) ^ e ≤ x) (h2 : x < (2 : ℚ) ^ (e + 1)) :
    nearest p x = roundEven (x / (2 : ℚ) ^ (e + 1 - (p : ℤ))) * (2 : ℚ) ^ (e + 1 - (p : ℤ)) := by
  have hx : 0 < x := lt_of_lt_of_le (zpow_pos (by norm_num) _) h1
  have hl : Int.log 2 |x| = e := by
    rw [abs_of_pos hx]
    have a := Int.zpow_log_le_self (b := 2) (r := x) (by norm_num) hx
    have b := Int.lt_zpow_succ_log_self (b := 2) (by norm_num) x
    push_cast at a b
    have c : e < Int.log 2 x + 1 := (zpow_lt_zpow_iff_right₀ (by norm_num : (1 : ℚ) < 2)).1 (lt_of_le_of_lt h1 b)
    have d : Int.log 2 x < e + 1 := (zpow_lt_zpow_iff_right₀ (by norm_num : (1 : ℚ) < 2)).1 (lt_of_le_of_lt a h2)
    omega
  unfold nearest ulp
  rw [hl]

/-- Rounding stays in the closed binade. -/
theorem nearest_mem {p : Nat} (hp : 1 ≤ p) {x : ℚ} {e : ℤ} (h1 : (2 : ℚ) ^ e ≤ x) (h2 : x < (2 : ℚ) ^ (e + 1)) :
    (2 : ℚ) ^ e ≤ nearest p x ∧ nearest p x ≤ (2 : ℚ) ^ (e + 1) := by
  have hu : (0 : ℚ) < (2 : ℚ) ^ (e + 1 - (p : ℤ)) := zpow_pos (by norm_num) _
  have hN : (2 : ℚ) ^ e = (((2 : ℤ) ^ (p - 1) : ℤ) : ℚ) * (2 : ℚ) ^ (e + 1 - (p : ℤ)) := by
    push_cast
    rw [← zpow_natCast, ← zpow_add₀ (by norm_num)]
    congr 1; omega
  have hM : (2 : ℚ) ^ (e + 1) = (((2 : ℤ) ^ p : ℤ) : ℚ) * (2 : ℚ) ^ (e + 1 - (p : ℤ)) := by
    push_cast
    rw [← zpow_natCast, ← zpow_add₀ (by norm_num)]
    congr 1; omega
  rw [nearest_binade h1 h2, hN, hM]
  constructor
  · refine mul_le_mul_of_nonneg_right ?_ hu.le
    have : roundEven (((2 : ℤ) ^ (p - 1) : ℤ) : ℚ) ≤ roundEven (x / (2 : ℚ) ^ (e + 1 - (p : ℤ))) :=
      roundEven_mono (by rw [le_div_iff₀ hu, ← hN]; exact h1)
    rw [roundEven_int] at this
    exact_mod_cast this
  · refine mul_le_mul_of_nonneg_right ?_ hu.le
    have : roundEven (x / (2 : ℚ) ^ (e + 1 - (p : ℤ))) ≤ roundEven (((2 : ℤ) ^ p : ℤ) : ℚ) :=
      roundEven_mono (by rw [div_le_iff₀ hu, ← hM]; exact h2.le)
    rw [roundEven_int] at this
    exact_mod_cast this

theorem binade {x : ℚ} (hx : 0 < x) : ∃ e : ℤ, (2 : ℚ) ^ e ≤ x ∧ x < (2 : ℚ) ^ (e + 1) := by
  have a := Int.zpow_log_le_self (b := 2) (r := x) (by norm_num) hx
  have b := Int.lt_zpow_succ_log_self (b := 2) (by norm_num) x
  push_cast at a b
  exact ⟨_, a, b⟩

theorem roundEven_even {x : ℚ} (h : |x - (roundEven x : ℚ)| = 1 / 2) : roundEven x % 2 = 0 := by
  have h1 := Int.floor_le x
  have h2 := Int.lt_floor_add_one x
  unfold roundEven at h ⊢
  split at h
  · rename_i h3
    rw [abs_of_nonneg (by linarith)] at h
    exfalso; linarith
  · rename_i h3
    push Not at h3
    split at h
    · rename_i h4; rw [if_neg (not_lt.2 h3), if_pos h4]; exact h4.2
    · rename_i h4
      rw [if_neg (not_lt.2 h3), if_neg h4]
      push_cast at h
      rw [abs_of_nonpos (by linarith)] at h
      have : ¬ ⌊x⌋ % 2 = 0 := fun h5 => h4 ⟨by linarith, h5⟩
      omega

theorem roundEven_neg (x : ℚ) : roundEven (-x) = -roundEven x := by
  have h := roundEven_near x
  rw [abs_sub_comm] at h
  rcases h.lt_or_eq with h1 | h1
  · refine roundEven_eq ?_
    push_cast
    rw [← abs_neg]
    have : -(-x - -(roundEven x : ℚ)) = x - roundEven x := by ring
    rw [this]; exact h1
  · have he := roundEven_even h1
    have he' : (-roundEven x) % 2 = 0 := by omega
    have := roundEven_half he'
    push_cast at this
    rcases (abs_eq (by norm_num)).1 h1 with h2 | h2
    · rw [show -x = -(roundEven x : ℚ) - 1 / 2 by linarith]; exact this.2
    · rw [show -x = -(roundEven x : ℚ) + 1 / 2 by linarith]; exact this.1

theorem nearest_neg (p : Nat) (x : ℚ) : nearest p (-x) = -nearest p x := by
  unfold nearest ulp
  rw [abs_neg, neg_div, roundEven_neg]; push_cast; ring

theorem nearest_pos {p : Nat} (hp : 1 ≤ p) {x : ℚ} (hx : 0 < x) : 0 < nearest p x := by
  obtain ⟨e, h1, h2⟩ := binade hx
  exact lt_of_lt_of_le (zpow_pos (by norm_num) _) (nearest_mem hp h1 h2).1

theorem nearest_mono_pos {p : Nat} (hp : 1 ≤ p) {x y : ℚ} (hx : 0 < x) (h : x ≤ y) : nearest p x ≤ nearest p y := by
  obtain ⟨e, h1, h2⟩ := binade hx
  obtain ⟨f, k1, k2⟩ := binade (lt_of_lt_of_le hx h)
  have hef : e < f + 1 := (zpow_lt_zpow_iff_right₀ (by norm_num : (1 : ℚ) < 2)).1 (lt_of_le_of_lt (h1.trans h) k2)
  rcases (by omega : e = f ∨ e + 1 ≤ f) with rfl | hlt
  · rw [nearest_binade h1 h2, nearest_binade k1 k2]
    have hu : (0 : ℚ) < (2 : ℚ) ^ (e + 1 - (p : ℤ)) := zpow_pos (by norm_num) _
    refine mul_le_mul_of_nonneg_right ?_ hu.le
    have := roundEven_mono (div_le_div_of_nonneg_right h hu.le)
    exact_mod_cast this
  · exact (nearest_mem hp h1 h2).2.trans ((zpow_le_zpow_right₀ (by norm_num) hlt).trans (nearest_mem hp k1 k2).1)

theorem nearest_mono {p : Nat} (hp : 1 ≤ p) {x y : ℚ} (h : x ≤ y) : nearest p x ≤ nearest p y := by
  have nonneg : ∀ z : ℚ, 0 ≤ z → 0 ≤ nearest p z := by
    intro z hz
    rcases hz.lt_or_eq with h1 | rfl
    · exact (nearest_pos hp h1).le
    · rw [nearest_zero]
  rcases lt_or_ge 0 x with hx | hx
  · exact nearest_mono_pos hp hx h
  · have hx' : nearest p x ≤ 0 := by
      have := nonneg (-x) (by linarith)
      rw [nearest_neg] at this; linarith
    rcases le_or_gt 0 y with hy | hy
    · exact hx'.trans (nonneg y hy)
    · have := nearest_mono_pos hp (x := -y) (y := -x) (by linarith) (by linarith)
      rw [nearest_neg, nearest_neg] at this
      linarith

/-- A number with at most `p` significant bits is not changed. -/
theorem nearest_exact {p : Nat} {e : ℤ} {n : ℤ} (h1 : (2 : ℚ) ^ e ≤ n * (2 : ℚ) ^ (e + 1 - (p : ℤ)))
    (h2 : n * (2 : ℚ) ^ (e + 1 - (p : ℤ)) < (2 : ℚ) ^ (e + 1)) :
    nearest p (n * (2 : ℚ) ^ (e + 1 - (p : ℤ))) = n * (2 : ℚ) ^ (e + 1 - (p : ℤ)) := by
  have hu : (2 : ℚ) ^ (e + 1 - (p : ℤ)) ≠ 0 := (zpow_pos (by norm_num) _).ne'
  rw [nearest_binade h1 h2, mul_div_cancel_right₀ _ hu, roundEven_int]

theorem nearest_zpow {p : Nat} (hp : 1 ≤ p) (e : ℤ) : nearest p ((2 : ℚ) ^ e) = (2 : ℚ) ^ e := by
  have hN : (2 : ℚ) ^ e = (((2 : ℤ) ^ (p - 1) : ℤ) : ℚ) * (2 : ℚ) ^ (e + 1 - (p : ℤ)) := by
    push_cast
    rw [← zpow_natCast, ← zpow_add₀ (by norm_num)]
    congr 1; omega
  have := nearest_exact (p := p) (e := e) (n := (2 : ℤ) ^ (p - 1)) (by rw [← hN])
    (by rw [← hN]; exact zpow_lt_zpow_right₀ (by norm_num) (by omega))
  rw [← hN] at this
  exact this

theorem nearest_idem {p : Nat} (hp : 1 ≤ p) (x : ℚ) : nearest p (nearest p x) = nearest p x := by
  have pos : ∀ z : ℚ, 0 < z → nearest p (nearest p z) = nearest p z := by
    intro z hz
    obtain ⟨e, h1, h2⟩ := binade hz
    obtain ⟨m1, m2⟩ := nearest_mem hp h1 h2
    rcases m2.lt_or_eq with m | m
    · rw [nearest_binade h1 h2] at m1 m ⊢
      exact nearest_exact m1 m
    · rw [m, nearest_zpow hp]
  rcases lt_trichotomy 0 x with h | rfl | h
  · exact pos x h
  · rw [nearest_zero, nearest_zero]
  · have := pos (-x) (by linarith)
    rw [nearest_neg, nearest_neg] at this
    linarith

/-- Round to nearest, ties to even, `p` significant bits. -/
def nearestEven (p : Nat) (hp : 1 ≤ p) : Rounding ℚ where
  rnd := nearest p
  mono := nearest_mono hp
  idem := nearest_idem hp
  zero := nearest_zero p
  one := by have := nearest_zpow hp 0; rwa [zpow_zero] at this

/-- The rounding of `f64`. -/
def binary64 : Rounding ℚ := nearestEven 53 (by norm_num)

/-- Evaluation: the significand is the nearest integer. -/
theorem binary64_eq {x : ℚ} (e : ℤ) (n : ℤ) (h1 : (2 : ℚ) ^ e ≤ x) (h2 : x < (2 : ℚ) ^ (e + 1))
    (h3 : |x / (2 : ℚ) ^ (e - 52) - n| < 1 / 2) : binary64.rnd x = n * (2 : ℚ) ^ (e - 52) := by
  show nearest 53 x = _
  rw [nearest_binade h1 h2, show e + 1 - ((53 : Nat) : ℤ) = e - 52 by push_cast; ring, roundEven_eq h3]

/-- Evaluation of a tie. -/
theorem binary64_tie {x : ℚ} (e : ℤ) (n : ℤ) (h1 : (2 : ℚ) ^ e ≤ x) (h2 : x < (2 : ℚ) ^ (e + 1)) (hn : n % 2 = 0)
    (h3 : x / (2 : ℚ) ^ (e - 52) = n + 1 / 2 ∨ x / (2 : ℚ) ^ (e - 52) = n - 1 / 2) : binary64.rnd x = n * (2 : ℚ) ^ (e - 52) := by
  show nearest 53 x = _
  rw [nearest_binade h1 h2, show e + 1 - ((53 : Nat) : ℤ) = e - 52 by push_cast; ring]
  rcases h3 with h3 | h3 <;> rw [h3]
  · rw [(roundEven_half hn).1]
  · rw [(roundEven_half hn).2]

end Ecrs
