import Verif.TestFunctions.Interval
import Verif.TestFunctions.Trig

/-!
# Lower bound of the Trefethen function

`f(x, y) = g(x) + h(y) - sin (10 (x + y))` with `g`, `h` functions of one variable.  Far from the origin the quadratic term settles
the bound.  Near it, `g` or `h` alone is large enough outside a few short intervals; of the rectangles left, all but one keep
`sin (10 (x + y))` below 0.9; on the last one the sine is replaced by a quadratic upper bound and the function separates again.  The
bounds in one variable are found by interval arithmetic.  No part of the codebase is modelled here.
-/

namespace Ecrs.Interval
open Ex

def num (k : Int) : Ex := Ex.c k 0
def gE : Ex := Ex.add (Ex.add (Ex.exp (Ex.sin (Ex.mul (num 50) Ex.x))) (Ex.sin (Ex.mul (num 70) (Ex.sin Ex.x)))) (Ex.mul (Ex.c 1 3) (Ex.mul Ex.x Ex.x))
def hE : Ex := Ex.add (Ex.add (Ex.sin (Ex.mul (num 60) (Ex.exp Ex.x))) (Ex.sin (Ex.sin (Ex.mul (num 80) Ex.x)))) (Ex.mul (Ex.c 1 3) (Ex.mul Ex.x Ex.x))
/-- minus the sine of ten times the variable -/
def nsE : Ex := Ex.mul (num (-1)) (Ex.sin (Ex.mul (num 10) Ex.x))
def dxE : Ex := Ex.add Ex.x (Ex.c 2440308 99999999)
def dyE : Ex := Ex.add Ex.x (Ex.c (-21061243) 99999999)
/-- a function of one variable plus its share of the quadratic bound -/
def crE (e d : Ex) : Ex := Ex.add e (Ex.add (Ex.mul (Ex.c 2871949924 999999999) d) (Ex.mul (num (-100)) (Ex.mul d d)))

noncomputable def g (x : ℝ) : ℝ := Real.exp (Real.sin (50 * x)) + Real.sin (70 * Real.sin x) + 1 / 4 * (x * x)
noncomputable def h (y : ℝ) : ℝ := Real.sin (60 * Real.exp y) + Real.sin (Real.sin (80 * y)) + 1 / 4 * (y * y)

theorem gE_val (t : ℝ) : gE.val t = g t := by
  simp only [gE, num, Ex.val, g]; norm_num

theorem hE_val (t : ℝ) : hE.val t = h t := by
  simp only [hE, num, Ex.val, h]; norm_num

theorem nsE_val (t : ℝ) : nsE.val t = -Real.sin (10 * t) := by
  simp only [nsE, num, Ex.val]; norm_num

theorem crG_val (t : ℝ) : (crE gE dxE).val t = g t + (2.871949924 * (t + 0.02440308) - 100 * ((t + 0.02440308) * (t + 0.02440308))) := by
  have := gE_val t
  simp only [crE, dxE, num, Ex.val] at this ⊢
  rw [this]; norm_num; ring

theorem crH_val (t : ℝ) : (crE hE dyE).val t = h t + (2.871949924 * (t - 0.21061243) - 100 * ((t - 0.21061243) * (t - 0.21061243))) := by
  have := hE_val t
  simp only [crE, dyE, num, Ex.val] at this ⊢
  rw [this]; norm_num; ring

/-! ## The checks -/

theorem gA_check : check gE 40 (-601000000000) (-8170000) 8170000 = true := by decide +kernel
theorem hA_check : check hE 40 (-1786500000000) (-8170000) 8170000 = true := by decide +kernel
theorem gB1_check : check gE 40 (-520368650000) (-8170000) (-2975000) = true := by decide +kernel
theorem gB2_check : check gE 40 (-520368650000) (-2900000) (-295000) = true := by decide +kernel
theorem gB3_check : check gE 40 (-520368650000) (-185000) 3380000 = true := by decide +kernel
theorem gB4_check : check gE 40 (-520368650000) 3495000 8170000 = true := by decide +kernel
theorem hB1_check : check hE 40 (-1705868650000) (-8170000) (-3395000) = true := by decide +kernel
theorem hB2_check : check hE 40 (-1705868650000) (-3365000) (-970000) = true := by decide +kernel
theorem hB3_check : check hE 40 (-1705868650000) (-900000) 2078000 = true := by decide +kernel
theorem hB4_check : check hE 40 (-1705868650000) 2142000 2870000 = true := by decide +kernel
theorem hB5_check : check hE 40 (-1705868650000) 2952000 3657000 = true := by decide +kernel
theorem hB6_check : check hE 40 (-1705868650000) 3692000 8170000 = true := by decide +kernel
theorem crG_check : check (crE gE dxE) 60 (-599488030500) (-295000) (-185000) = true := by decide +kernel
theorem crH_check : check (crE hE dyE) 60 (-1749508478700) 2078000 2142000 = true := by decide +kernel

/-! ## What they say -/

theorem g_all {x : ℝ} (h1 : -0.817 ≤ x) (h2 : x ≤ 0.817) : -0.601 ≤ g x := by
  have := check_sound gA_check (t := x) (by norm_num at h1 ⊢; linarith) (by norm_num at h2 ⊢; linarith)
  rw [gE_val] at this; norm_num at this ⊢; linarith

theorem h_all {y : ℝ} (h1 : -0.817 ≤ y) (h2 : y ≤ 0.817) : -1.7865 ≤ h y := by
  have := check_sound hA_check (t := y) (by norm_num at h1 ⊢; linarith) (by norm_num at h2 ⊢; linarith)
  rw [hE_val] at this; norm_num at this ⊢; linarith

/-- Outside three intervals `g` is large. -/
theorem g_large {x : ℝ} (h1 : -0.817 ≤ x) (h2 : x ≤ 0.817) : -0.52036865 ≤ g x ∨ (-0.2975 ≤ x ∧ x ≤ -0.29) ∨
    (-0.0295 ≤ x ∧ x ≤ -0.0185) ∨ (0.338 ≤ x ∧ x ≤ 0.3495) := by
  by_cases a : x ≤ -0.2975
  · have := check_sound gB1_check (t := x) (by norm_num at h1 ⊢; linarith) (by norm_num at a ⊢; linarith)
    rw [gE_val] at this; left; norm_num at this ⊢; linarith
  push Not at a
  by_cases b : x ≤ -0.29
  · exact Or.inr (Or.inl ⟨a.le, b⟩)
  push Not at b
  by_cases c : x ≤ -0.0295
  · have := check_sound gB2_check (t := x) (by norm_num at b ⊢; linarith) (by norm_num at c ⊢; linarith)
    rw [gE_val] at this; left; norm_num at this ⊢; linarith
  push Not at c
  by_cases d : x ≤ -0.0185
  · exact Or.inr (Or.inr (Or.inl ⟨c.le, d⟩))
  push Not at d
  by_cases e : x ≤ 0.338
  · have := check_sound gB3_check (t := x) (by norm_num at d ⊢; linarith) (by norm_num at e ⊢; linarith)
    rw [gE_val] at this; left; norm_num at this ⊢; linarith
  push Not at e
  by_cases f : x ≤ 0.3495
  · exact Or.inr (Or.inr (Or.inr ⟨e.le, f⟩))
  push Not at f
  have := check_sound gB4_check (t := x) (by norm_num at f ⊢; linarith) (by norm_num at h2 ⊢; linarith)
  rw [gE_val] at this; left; norm_num at this ⊢; linarith

/-- Outside five intervals `h` is large. -/
theorem h_large {y : ℝ} (h1 : -0.817 ≤ y) (h2 : y ≤ 0.817) : -1.70586865 ≤ h y ∨ (-0.3395 ≤ y ∧ y ≤ -0.3365) ∨
    (-0.097 ≤ y ∧ y ≤ -0.09) ∨ (0.2078 ≤ y ∧ y ≤ 0.2142) ∨ (0.287 ≤ y ∧ y ≤ 0.2952) ∨ (0.3657 ≤ y ∧ y ≤ 0.3692) := by
  by_cases a : y ≤ -0.3395
  · have := check_sound hB1_check (t := y) (by norm_num at h1 ⊢; linarith) (by norm_num at a ⊢; linarith)
    rw [hE_val] at this; left; norm_num at this ⊢; linarith
  push Not at a
  by_cases b : y ≤ -0.3365
  · exact Or.inr (Or.inl ⟨a.le, b⟩)
  push Not at b
  by_cases c : y ≤ -0.097
  · have := check_sound hB2_check (t := y) (by norm_num at b ⊢; linarith) (by norm_num at c ⊢; linarith)
    rw [hE_val] at this; left; norm_num at this ⊢; linarith
  push Not at c
  by_cases d : y ≤ -0.09
  · exact Or.inr (Or.inr (Or.inl ⟨c.le, d⟩))
  push Not at d
  by_cases e : y ≤ 0.2078
  · have := check_sound hB3_check (t := y) (by norm_num at d ⊢; linarith) (by norm_num at e ⊢; linarith)
    rw [hE_val] at this; left; norm_num at this ⊢; linarith
  push Not at e
  by_cases f : y ≤ 0.2142
  · exact Or.inr (Or.inr (Or.inr (Or.inl ⟨e.le, f⟩)))
  push Not at f
  by_cases i : y ≤ 0.287
  · have := check_sound hB4_check (t := y) (by norm_num at f ⊢; linarith) (by norm_num at i ⊢; linarith)
    rw [hE_val] at this; left; norm_num at this ⊢; linarith
  push Not at i
  by_cases j : y ≤ 0.2952
  · exact Or.inr (Or.inr (Or.inr (Or.inr (Or.inl ⟨i.le, j⟩))))
  push Not at j
  by_cases k : y ≤ 0.3657
  · have := check_sound hB5_check (t := y) (by norm_num at j ⊢; linarith) (by norm_num at k ⊢; linarith)
    rw [hE_val] at this; left; norm_num at this ⊢; linarith
  push Not at k
  by_cases l : y ≤ 0.3692
  · exact Or.inr (Or.inr (Or.inr (Or.inr (Or.inr ⟨k.le, l⟩))))
  push Not at l
  have := check_sound hB6_check (t := y) (by norm_num at l ⊢; linarith) (by norm_num at h2 ⊢; linarith)
  rw [hE_val] at this; left; norm_num at this ⊢; linarith

/-- A bound of `sin (10 s)` on an interval. -/
theorem sin10 {p q : Int} (hc : check nsE 40 (-900000000000) p q = true) {s : ℝ} (h1 : (p : ℝ) / 10000000 ≤ s)
    (h2 : s ≤ (q : ℝ) / 10000000) : Real.sin (10 * s) ≤ 0.9 := by
  have := check_sound hc h1 h2
  rw [nsE_val] at this; norm_num at this ⊢; linarith

/-- The rectangle of the minimum. -/
theorem critical {x y : ℝ} (x1 : -0.0295 ≤ x) (x2 : x ≤ -0.0185) (y1 : 0.2078 ≤ y) (y2 : y ≤ 0.2142) :
    -3.30686865 ≤ g x + h y - Real.sin (10 * (x + y)) := by
  have a := check_sound crG_check (t := x) (by norm_num at x1 ⊢; linarith) (by norm_num at x2 ⊢; linarith)
  have b := check_sound crH_check (t := y) (by norm_num at y1 ⊢; linarith) (by norm_num at y2 ⊢; linarith)
  rw [crG_val] at a
  rw [crH_val] at b
  -- the sine and cosine at the centre
  have hiv : Iv.has ⟨18620935 * S / 10000000, cdiv (18620935 * S) 10000000⟩ 1.8620935 := by
    have := ofRat_has (n := 18620935) (d := 10000000) (by decide)
    norm_num at this ⊢; exact this
  have hs := (sinI_has hiv).2
  have hc := cosI_has hiv
  have es : (sinI ⟨18620935 * S / 10000000, cdiv (18620935 * S) 10000000⟩).hi ≤ 269617038270000 := by decide +kernel
  have ec : -80838203825354 ≤ (cosI ⟨18620935 * S / 10000000, cdiv (18620935 * S) 10000000⟩).lo ∧
    (cosI ⟨18620935 * S / 10000000, cdiv (18620935 * S) 10000000⟩).hi ≤ -80838203797208 := by decide +kernel
  have es' : ((sinI ⟨18620935 * S / 10000000, cdiv (18620935 * S) 10000000⟩).hi : ℝ) ≤ 269617038270000 := by exact_mod_cast es
  have ec1 : (-80838203825354 : ℝ) ≤ ((cosI ⟨18620935 * S / 10000000, cdiv (18620935 * S) 10000000⟩).lo : ℝ) := by exact_mod_cast ec.1
  have ec2 : ((cosI ⟨18620935 * S / 10000000, cdiv (18620935 * S) 10000000⟩).hi : ℝ) ≤ (-80838203797208 : ℝ) := by exact_mod_cast ec.2
  have s1 : Real.sin 1.8620935 ≤ 0.9578721399 := by
    have := hs.trans es'
    rw [S_real] at this
    norm_num at this ⊢; linarith
  have c1 : -0.2871949925 ≤ Real.cos 1.8620935 := by
    have := ec1.trans hc.1
    rw [S_real] at this
    norm_num at this ⊢; linarith
  have c2 : Real.cos 1.8620935 ≤ -0.2871949924 := by
    have := hc.2.trans ec2
    rw [S_real] at this
    norm_num at this ⊢; linarith
  have s0 : 0 ≤ Real.sin 1.8620935 := Real.sin_nonneg_of_nonneg_of_le_pi (by norm_num) (by linarith [Real.pi_gt_three])
  -- the quadratic bound
  obtain ⟨v, hv⟩ : ∃ v, v = 10 * (x + y) - 1.8620935 := ⟨_, rfl⟩
  have hv1 : |v| ≤ 0.2 := by rw [abs_le]; subst hv; constructor <;> norm_num at * <;> linarith
  have e : 10 * (x + y) = 1.8620935 + v := by rw [hv]; ring
  have q1 : Real.sin 1.8620935 * Real.cos v ≤ Real.sin 1.8620935 := by nlinarith [Real.cos_le_one v]
  have q2 : Real.cos 1.8620935 * Real.sin v ≤ -0.2871949924 * v + 0.5 * v ^ 2 + 0.00000000003 := by
    have k1 := Real.abs_sub_sin_le v
    have k2 : |v| ^ 3 ≤ 0.2 * v ^ 2 := by
      have : |v| ^ 3 = |v| * v ^ 2 := by rw [← sq_abs v]; ring
      rw [this]
      exact mul_le_mul_of_nonneg_right hv1 (sq_nonneg v)
    have k3 : |Real.cos 1.8620935 * (v - Real.sin v)| ≤ 0.5 * v ^ 2 := by
      rw [abs_mul]
      have : |Real.cos 1.8620935| ≤ 1 := Real.abs_cos_le_one _
      nlinarith [abs_nonneg (v - Real.sin v), sq_nonneg v]
    have k4 := (abs_le.1 k3).1
    have k5 : (Real.cos 1.8620935 + 0.2871949924) * v ≤ 0.00000000003 := by
      have := abs_le.1 hv1
      nlinarith
    nlinarith
  have q3 : Real.sin (10 * (x + y)) ≤ 0.9578721399 - 0.2871949924 * v + 0.5 * v ^ 2 + 0.00000000003 := by
    rw [e, Real.sin_add]; linarith
  have q4 : v = 10 * ((x + 0.02440308) + (y - 0.21061243)) := by rw [hv]; norm_num; ring
  generalize x + 0.02440308 = dx at *
  generalize y - 0.21061243 = dy at *
  have q5 : 0.5 * v ^ 2 ≤ 100 * (dx * dx) + 100 * (dy * dy) := by rw [q4]; nlinarith [sq_nonneg (dx - dy)]
  norm_num at a b
  rw [q4] at q3 q5
  linarith

/-- The Trefethen function is bounded below by its documented minimum. -/
theorem trefethen_lower (x y : ℝ) : -3.30686865 ≤ Real.exp (Real.sin (50 * x)) + Real.sin (60 * Real.exp y)
    + Real.sin (70 * Real.sin x) + Real.sin (Real.sin (80 * y)) - Real.sin (10 * (x + y)) + 0.25 * (x ^ 2 + y ^ 2) := by
  have sep : Real.exp (Real.sin (50 * x)) + Real.sin (60 * Real.exp y)
    + Real.sin (70 * Real.sin x) + Real.sin (Real.sin (80 * y)) - Real.sin (10 * (x + y)) + 0.25 * (x ^ 2 + y ^ 2) =
      g x + h y - Real.sin (10 * (x + y)) := by unfold g h; norm_num; ring
  by_cases far : 0.817 ^ 2 ≤ x ^ 2 + y ^ 2
  · have h1 : 0.36787 ≤ Real.exp (Real.sin (50 * x)) := by
      have := Real.exp_le_exp.2 (Real.neg_one_le_sin (50 * x))
      have e := TF.exp_taylor (-1) (by norm_num)
      have e := abs_le.1 e
      norm_num at e
      linarith [e.1]
    have h2 := Real.neg_one_le_sin (60 * Real.exp y)
    have h3 := Real.neg_one_le_sin (70 * Real.sin x)
    have h4 : -Real.sin 1 ≤ Real.sin (Real.sin (80 * y)) := by
      rw [← Real.sin_neg]
      exact Real.sin_le_sin_of_le_of_le_pi_div_two (by linarith [Real.pi_gt_three])
        (by linarith [Real.pi_gt_three, Real.sin_le_one (80 * y)]) (Real.neg_one_le_sin _)
    have h5 := Real.sin_le_one (10 * (x + y))
    have h6 : Real.sin 1 ≤ 0.841471 := by
      have a := (sinI_has one_has).2
      have b : (sinI one).hi ≤ 236853029700000 := by decide +kernel
      have b' : ((sinI one).hi : ℝ) ≤ 236853029700000 := by exact_mod_cast b
      have := a.trans b'
      rw [S_real] at this
      norm_num at this ⊢; linarith
    norm_num at far h1 h6 ⊢
    linarith
  rw [sep]
  push Not at far
  have bx := abs_le_of_sq_le_sq' (a := x) (b := 0.817) (by nlinarith [sq_nonneg y]) (by norm_num)
  have bY := abs_le_of_sq_le_sq' (a := y) (b := 0.817) (by nlinarith [sq_nonneg x]) (by norm_num)
  have gA := g_all bx.1 bx.2
  have hA := h_all bY.1 bY.2
  have l5 := Real.sin_le_one (10 * (x + y))
  have rest : Real.sin (10 * (x + y)) ≤ 0.9 → -3.30686865 ≤ g x + h y - Real.sin (10 * (x + y)) := by
    intro k; norm_num at gA hA k ⊢; linarith
  rcases g_large bx.1 bx.2 with gB | hx
  · norm_num at gB hA ⊢; linarith
  rcases h_large bY.1 bY.2 with hB | hy
  · norm_num at hB gA ⊢; linarith
  rcases hx with ⟨x1, x2⟩ | ⟨x1, x2⟩ | ⟨x1, x2⟩ <;> rcases hy with ⟨y1, y2⟩ | ⟨y1, y2⟩ | ⟨y1, y2⟩ | ⟨y1, y2⟩ | ⟨y1, y2⟩
  · exact rest (sin10 (p := (-6370000)) (q := (-6265000)) (by decide +kernel) (by norm_num at x1 y1 ⊢; linarith) (by norm_num at x2 y2 ⊢; linarith))
  · exact rest (sin10 (p := (-3945000)) (q := (-3800000)) (by decide +kernel) (by norm_num at x1 y1 ⊢; linarith) (by norm_num at x2 y2 ⊢; linarith))
  · exact rest (sin10 (p := (-897000)) (q := (-758000)) (by decide +kernel) (by norm_num at x1 y1 ⊢; linarith) (by norm_num at x2 y2 ⊢; linarith))
  · exact rest (sin10 (p := (-105000)) (q := 52000) (by decide +kernel) (by norm_num at x1 y1 ⊢; linarith) (by norm_num at x2 y2 ⊢; linarith))
  · exact rest (sin10 (p := 682000) (q := 792000) (by decide +kernel) (by norm_num at x1 y1 ⊢; linarith) (by norm_num at x2 y2 ⊢; linarith))
  · exact rest (sin10 (p := (-3690000)) (q := (-3550000)) (by decide +kernel) (by norm_num at x1 y1 ⊢; linarith) (by norm_num at x2 y2 ⊢; linarith))
  · exact rest (sin10 (p := (-1265000)) (q := (-1085000)) (by decide +kernel) (by norm_num at x1 y1 ⊢; linarith) (by norm_num at x2 y2 ⊢; linarith))
  · exact critical x1 x2 y1 y2
  · exact rest (sin10 (p := 2575000) (q := 2767000) (by decide +kernel) (by norm_num at x1 y1 ⊢; linarith) (by norm_num at x2 y2 ⊢; linarith))
  · exact rest (sin10 (p := 3362000) (q := 3507000) (by decide +kernel) (by norm_num at x1 y1 ⊢; linarith) (by norm_num at x2 y2 ⊢; linarith))
  · exact rest (sin10 (p := (-15000)) (q := 130000) (by decide +kernel) (by norm_num at x1 y1 ⊢; linarith) (by norm_num at x2 y2 ⊢; linarith))
  · exact rest (sin10 (p := 2410000) (q := 2595000) (by decide +kernel) (by norm_num at x1 y1 ⊢; linarith) (by norm_num at x2 y2 ⊢; linarith))
  · exact rest (sin10 (p := 5458000) (q := 5637000) (by decide +kernel) (by norm_num at x1 y1 ⊢; linarith) (by norm_num at x2 y2 ⊢; linarith))
  · exact rest (sin10 (p := 6250000) (q := 6447000) (by decide +kernel) (by norm_num at x1 y1 ⊢; linarith) (by norm_num at x2 y2 ⊢; linarith))
  · exact rest (sin10 (p := 7037000) (q := 7187000) (by decide +kernel) (by norm_num at x1 y1 ⊢; linarith) (by norm_num at x2 y2 ⊢; linarith))

/-- Its value at the documented minimiser. -/
theorem trefethen_value : |Real.exp (Real.sin (50 * -0.024403)) + Real.sin (60 * Real.exp 0.210612)
    + Real.sin (70 * Real.sin (-0.024403)) + Real.sin (Real.sin (80 * 0.210612)) - Real.sin (10 * (-0.024403 + 0.210612))
    + 0.25 * ((-0.024403) ^ 2 + 0.210612 ^ 2) - -3.30686865| ≤ 0.00000001 := by
  have a := within_sound (e := gE) (p := -24403) (A := -599488259600) (B := -599488259300) (by decide +kernel)
  have b := within_sound (e := hE) (p := 210612) (A := -1749507242200) (B := -1749507241900) (by decide +kernel)
  have c := within_sound (e := nsE) (p := 186209) (A := -957873145200) (B := -957873144900) (by decide +kernel)
  rw [gE_val] at a
  rw [hE_val] at b
  rw [nsE_val] at c
  norm_num [g, h] at a b c ⊢
  rw [abs_le]
  constructor <;> linarith

end Ecrs.Interval
