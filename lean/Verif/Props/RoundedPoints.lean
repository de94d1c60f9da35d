import Verif.Ga.RoundedPoints
import Verif.Props.Population
import Verif.RepoTests
import Verif.Scripted
import Verif.Props.Overflow
import Mathlib.Tactic.Positivity

/-!
# Property C161: random points in f64 arithmetic
-/

set_option linter.unusedSectionVars false

namespace Ecrs.Ga
open Ecrs

/-! ## Rounding to nearest: a product with a factor below one -/

/-- A rounded number, made smaller by at least one part in `2^p`, rounds to a smaller number. -/
theorem nearest_lt {p : Nat} (hp : 1 ≤ p) {w v : ℚ} (hw : 0 < w) (hr : nearest p w = w) (hv : v ≤ w * (1 - 1 / 2 ^ p)) : nearest p v < w := by
  obtain ⟨e, h1, h2⟩ := binade hw
  set u : ℚ := (2 : ℚ) ^ (e + 1 - (p : ℤ)) with hu
  have hu0 : 0 < u := zpow_pos (by norm_num) _
  have hpow : (2 : ℚ) ^ e = 2 ^ (p - 1) * u := by
    rw [hu, ← zpow_natCast, ← zpow_add₀ (by norm_num)]; congr 1; omega
  have hpp : (2 : ℚ) ^ p = 2 * 2 ^ (p - 1) := by
    conv_lhs => rw [show p = (p - 1) + 1 by omega]
    rw [pow_succ]; ring
  have hq : (0 : ℚ) < 2 ^ (p - 1) := by positivity
  obtain ⟨m, hm⟩ : ∃ m : ℤ, w = m * u := ⟨roundEven (w / u), by rw [nearest_binade h1 h2] at hr; exact hr.symm⟩
  have hshrink : w * (1 - 1 / 2 ^ p) = w - w / 2 ^ p := by ring
  rcases h1.lt_or_eq with h1' | h1'
  · -- inside the binade: the next smaller number is `(m - 1) u`
    have hm1 : (2 : ℤ) ^ (p - 1) + 1 ≤ m := by
      have : ((2 : ℤ) ^ (p - 1) : ℚ) < m := by
        rw [hpow, hm] at h1'
        push_cast
        exact lt_of_mul_lt_mul_right h1' hu0.le
      exact_mod_cast this
    have hm1' : (2 : ℚ) ^ (p - 1) + 1 ≤ m := by exact_mod_cast hm1
    have hhalf : v < (m - 1 / 2) * u := by
      have : u / 2 < w / 2 ^ p := by
        rw [lt_div_iff₀ (by positivity), hpp]
        calc u / 2 * (2 * 2 ^ (p - 1)) = 2 ^ (p - 1) * u := by ring
          _ = 2 ^ e := hpow.symm
          _ < w := h1'
      rw [hshrink] at hv
      calc v ≤ w - w / 2 ^ p := hv
        _ < w - u / 2 := by linarith
        _ = _ := by rw [hm]; ring
    set v' := max v ((m - 1) * u) with hv'
    have l1 : (m - 1) * u ≤ v' := le_max_right _ _
    have l2 : v' < (m - 1 / 2) * u := max_lt hhalf (by nlinarith)
    have b1 : (2 : ℚ) ^ e ≤ v' := by
      rw [hpow]; refine le_trans ?_ l1
      exact mul_le_mul_of_nonneg_right (by linarith) hu0.le
    have b2 : v' < (2 : ℚ) ^ (e + 1) := by
      refine lt_trans l2 (lt_trans ?_ h2)
      rw [hm]; nlinarith
    have hround : roundEven (v' / u) = m - 1 := roundEven_eq (by
      push_cast
      have a1 : (m - 1 : ℚ) ≤ v' / u := by rw [le_div_iff₀ hu0]; exact l1
      have a2 : v' / u < m - 1 / 2 := by rw [div_lt_iff₀ hu0]; exact l2
      rw [abs_of_nonneg (by linarith)]; linarith)
    have hn : nearest p v' = (m - 1) * u := by
      rw [nearest_binade b1 b2, ← hu, hround]; push_cast; ring
    calc nearest p v ≤ nearest p v' := nearest_mono hp (le_max_left _ _)
      _ = (m - 1) * u := hn
      _ < w := by rw [hm]; nlinarith
  · -- a power of two: the shrunken number is itself a number
    set r : ℚ := (((2 : ℤ) ^ p - 1 : ℤ) : ℚ) * (2 : ℚ) ^ ((e - 1) + 1 - (p : ℤ)) with hrdef
    have hz : (2 : ℚ) ^ ((e - 1) + 1 - (p : ℤ)) * 2 ^ p = w := by
      rw [← h1', ← zpow_natCast, ← zpow_add₀ (by norm_num)]; congr 1; ring
    have hz0 : 0 < (2 : ℚ) ^ ((e - 1) + 1 - (p : ℤ)) := zpow_pos (by norm_num) _
    have hrw : r = w * (1 - 1 / 2 ^ p) := by
      rw [hrdef, ← hz]; push_cast; field_simp
    have h1p : (1 : ℚ) ≤ 2 ^ (p - 1) := one_le_pow₀ (by norm_num)
    have hr1 : (2 : ℚ) ^ (e - 1) ≤ r := by
      have : (2 : ℚ) ^ (e - 1) = w / 2 := by rw [← h1', zpow_sub_one₀ (by norm_num)]; ring
      rw [this, hrw, hpp]
      rw [mul_sub, mul_one]
      have : w * (1 / (2 * 2 ^ (p - 1))) ≤ w / 2 := by
        rw [mul_one_div]; exact div_le_div_of_nonneg_left hw.le (by norm_num) (by linarith)
      linarith
    have hlt : r < w := by
      rw [hrw]
      have : 0 < w * (1 / 2 ^ p) := by positivity
      nlinarith
    have hex : nearest p r = r := nearest_exact hr1 (by
      have : (2 : ℚ) ^ (e - 1 + 1) = w := by rw [sub_add_cancel, h1']
      rw [this]; exact hlt)
    calc nearest p v ≤ nearest p r := nearest_mono hp (by rw [hrw]; exact hv)
      _ = r := hex
      _ < w := hlt

/-! ## The coordinates -/

section any
variable {G K I : Type} [Field K] [LinearOrder K] [IsStrictOrderedRing K] {A : Rounding K}

theorem rnd_nonneg {x : K} (h : 0 ≤ x) : 0 ≤ A.rnd x := by
  have := A.mono h; rwa [A.zero] at this

/-- With any rounding: a coordinate is never below the start of its range. -/
theorem coordR_ge {c : K × K} {u : K} (hc : c.1 ≤ c.2) (hs : A.rnd c.1 = c.1) (hu : 0 ≤ u) : c.1 ≤ coordR A c u := by
  have h1 : 0 ≤ A.rnd (A.rnd (c.2 - c.1) * u) := rnd_nonneg (mul_nonneg (rnd_nonneg (sub_nonneg.2 hc)) hu)
  have := A.mono (show c.1 ≤ A.rnd (A.rnd (c.2 - c.1) * u) + c.1 by linarith)
  rwa [hs] at this

end any

/-- A draw of rand's `Uniform::new(0.0, 1.0)`: 52 random bits. -/
def IsDraw (u : ℚ) : Prop := ∃ k : ℕ, k < 2 ^ 52 ∧ u = k / 2 ^ 52

theorem IsDraw.bounds {u : ℚ} (h : IsDraw u) : 0 ≤ u ∧ u ≤ 1 - 1 / 2 ^ 52 := by
  obtain ⟨k, hk, rfl⟩ := h
  have : (k : ℚ) + 1 ≤ 2 ^ 52 := by exact_mod_cast hk
  constructor
  · positivity
  · rw [div_le_iff₀ (by positivity)]
    have : (1 - 1 / 2 ^ 52 : ℚ) * 2 ^ 52 = 2 ^ 52 - 1 := by norm_num
    rw [this]; linarith

/-- An integer below `2^53`, scaled by any power of two, is a number. -/
theorem binary64_scaled {k : ℕ} (hk : k < 2 ^ 53) (j : ℤ) : binary64.rnd (k * (2 : ℚ) ^ j) = k * (2 : ℚ) ^ j := by
  rcases Nat.eq_zero_or_pos k with rfl | hk0
  · simpa using binary64.zero
  · set l := Nat.log 2 k with hl
    have hl1 : 2 ^ l ≤ k := Nat.pow_log_le_self 2 hk0.ne'
    have hl2 : k < 2 ^ (l + 1) := Nat.lt_pow_succ_log_self (by norm_num) k
    have hl3 : l < 53 := (Nat.log_lt_iff_lt_pow (by norm_num) hk0.ne').2 hk
    have hj : (0 : ℚ) < 2 ^ j := zpow_pos (by norm_num) _
    have e1 : (k : ℚ) * 2 ^ j = ((k * 2 ^ (52 - l) : ℕ) : ℤ) * (2 : ℚ) ^ (((l : ℤ) + j) + 1 - ((53 : ℕ) : ℤ)) := by
      push_cast
      rw [mul_assoc, ← zpow_natCast, ← zpow_add₀ (by norm_num)]
      congr 2; omega
    have z1 : (2 : ℚ) ^ ((l : ℤ) + j) = 2 ^ l * 2 ^ j := by rw [zpow_add₀ (by norm_num), zpow_natCast]
    have z2 : (2 : ℚ) ^ ((l : ℤ) + j + 1) = 2 ^ (l + 1) * 2 ^ j := by
      rw [zpow_add_one₀ (by norm_num), z1, pow_succ]; ring
    have := nearest_exact (p := 53) (e := (l : ℤ) + j) (n := ((k * 2 ^ (52 - l) : ℕ) : ℤ))
      (by rw [← e1, z1]; exact mul_le_mul_of_nonneg_right (by exact_mod_cast hl1) hj.le)
      (by rw [← e1, z2]; exact mul_lt_mul_of_pos_right (by exact_mod_cast hl2) hj)
    rw [← e1] at this
    exact this

theorem IsDraw.rounded {u : ℚ} (h : IsDraw u) : binary64.rnd u = u := by
  obtain ⟨k, hk, rfl⟩ := h
  have := binary64_scaled (k := k) (lt_trans hk (by norm_num)) (-52)
  rw [zpow_neg, ← div_eq_mul_inv] at this
  exact_mod_cast this

theorem IsDraw.rounded_two {u : ℚ} (h : IsDraw u) : binary64.rnd (2 * u) = 2 * u := by
  obtain ⟨k, hk, rfl⟩ := h
  have := binary64_scaled (k := k) (lt_trans hk (by norm_num)) (-51)
  have e : 2 * ((k : ℚ) / 2 ^ 52) = k * 2 ^ (-51 : ℤ) := by
    rw [zpow_neg, ← div_eq_mul_inv]; norm_num; ring
  rw [e]; exact this

/-- With the rounding of `f64` and draws of 52 bits a coordinate is never above the end of its range, and below it when the range starts at
zero. -/
theorem coordR_le {c : ℚ × ℚ} {u : ℚ} (hc : c.1 < c.2) (he : binary64.rnd c.2 = c.2) (hu : IsDraw u) :
    coordR binary64 c u ≤ c.2 ∧ (c.1 = 0 → coordR binary64 c u < c.2) := by
  obtain ⟨hu0, hu1⟩ := hu.bounds
  set w := binary64.rnd (c.2 - c.1) with hw
  have hw0 : 0 < w := nearest_pos (by norm_num) (sub_pos.2 hc)
  set z := binary64.rnd (w * u) with hz
  have hzw : z < w := by
    refine nearest_lt (p := 53) (by norm_num) hw0 (nearest_idem (by norm_num) _) (mul_le_mul_of_nonneg_left (hu1.trans ?_) hw0.le)
    norm_num
  have hzx : z ≤ c.2 - c.1 := by
    by_contra h
    push Not at h
    have := binary64.mono h.le
    rw [show binary64.rnd z = z from binary64.idem _, ← hw] at this
    linarith
  constructor
  · have := binary64.mono (show z + c.1 ≤ c.2 by linarith)
    rwa [he] at this
  · intro h0
    have e1 : coordR binary64 c u = z := by
      show binary64.rnd (z + c.1) = z
      rw [h0, add_zero]; exact binary64.idem _
    rw [e1]
    refine lt_of_lt_of_eq hzw ?_
    rw [hw, h0, sub_zero, he]

section
variable {G I : Type} (R : Rng G ℚ)

/-- **C161, the box is kept.** In `f64` arithmetic, with ranges `start..end` whose bounds are `f64` numbers and `start < end`: `RandomPoints`
returns exactly `count` individuals of `dim` coordinates, coordinate `i` in the *closed* interval `[start, end]` of range `i`; for a range that
starts at zero the end is not reached. -/
theorem C161_box (X : ChromOps I ℚ) {dim count : Nat} {cs : List (ℚ × ℚ)} {g0 g1 : G} {rp : RandomPoints ℚ}
    (hnew : RandomPoints.withConstraints dim cs g0 = .ok (rp, g1)) (hR : ∀ g, IsDraw (R.unit g).1)
    (hcs : ∀ c ∈ cs, c.1 < c.2 ∧ binary64.rnd c.1 = c.1 ∧ binary64.rnd c.2 = c.2) :
    Returns (rp.generateR binary64 R X count) fun pop => pop.length = count ∧
      ∀ i ∈ pop, (X.ch i).length = dim ∧ List.Forall₂ (fun c x => c.1 ≤ x ∧ x ≤ c.2 ∧ (c.1 = 0 → x < c.2)) cs (X.ch i) := by
  obtain ⟨_, hdim⟩ := (C37_random_points_new dim cs g0).1 ⟨_, hnew⟩
  have hrp : rp = ⟨dim, cs⟩ := by
    unfold RandomPoints.withConstraints at hnew
    obtain ⟨_, _, _, h2⟩ := M.bind_ok_iff.1 hnew
    obtain ⟨_, _, _, h4⟩ := M.bind_ok_iff.1 h2
    exact (Prod.ext_iff.1 (M.pure_ok_iff.1 h4)).1
  subst hrp
  unfold RandomPoints.generateR generateWithConstraintsR
  refine Returns.bind (R.onClone_returns (Returns.bind (Returns.assert (by simp [hdim])) fun _ _ =>
    Returns.replicate (Returns.forEach cs (R := fun c x => c.1 ≤ x ∧ x ≤ c.2 ∧ (c.1 = 0 → x < c.2)) fun c hc => ?_) count)) fun pts hp => Returns.pure ?_
  · obtain ⟨h1, h2, h3⟩ := hcs c hc
    refine Returns.bind (Returns.lift (Q := IsDraw) hR) fun u hu => Returns.pure ⟨coordR_ge h1.le h2 hu.bounds.1, ?_⟩
    exact coordR_le h1 h3 hu
  · refine ⟨by simp [hp.1], fun i hi => ?_⟩
    obtain ⟨p, hp', rfl⟩ := List.mem_map.1 hi
    rw [X.ch_ofCh]
    exact ⟨by rw [hdim, (hp.2 p hp').length_eq], hp.2 p hp'⟩

/-- **C161, the unit box.** For the default range `0.0..1.0` the coordinate is the draw itself. -/
theorem C161_unit {u : ℚ} (hu : IsDraw u) : coordR binary64 (0, 1) u = u := by
  have hd : binary64.rnd u = u := hu.rounded
  unfold coordR
  simp only [sub_zero, add_zero]
  rw [binary64.one, one_mul, hd, hd]

/-- **C161, the excluded end is reached.** `with_single_constraint(n, -5.0..-4.0)`: the draws `1 - 2^-52` and `1 - 2^-51` give exactly `-4.0`,
which `(-5.0..-4.0).contains` rejects. This is a range of the repository's test `points_follow_explicit_constraints`. -/
theorem C161_end_reached (u : ℚ) (hu : u = 1 - 1 / 2 ^ 52 ∨ u = 1 - 1 / 2 ^ 51) :
    IsDraw u ∧ coordR binary64 (-5, -4) u = -4 ∧ RepoTests.contains (-5, -4) (coordR binary64 (-5, -4) u) = false ∧
    (-5, -4) ∈ (RepoTests.fourConstraints : List (ℚ × ℚ)) := by
  have hd : IsDraw u := by
    rcases hu with rfl | rfl
    · exact ⟨2 ^ 52 - 1, by norm_num, by norm_num⟩
    · exact ⟨2 ^ 52 - 2, by norm_num, by norm_num⟩
  have key : coordR binary64 (-5, -4) u = -4 := by
    have e0 : coordR binary64 (-5, -4) u = binary64.rnd (coordR binary64 (0, 1) u - 5) := by
      unfold coordR
      simp only [sub_zero, add_zero]
      rw [show (-4 : ℚ) - -5 = 1 by norm_num, binary64.one, one_mul, binary64.idem, ← sub_eq_add_neg]
    rw [e0, C161_unit hd]
    have neg : ∀ x : ℚ, binary64.rnd (-x) = -binary64.rnd x := nearest_neg 53
    rw [show u - 5 = -(5 - u) by ring, neg]
    have : binary64.rnd (5 - u) = 4 := by
      rcases hu with rfl | rfl
      · rw [binary64_eq 2 (2 ^ 52) (by norm_num) (by norm_num) (by norm_num [abs_lt])]; norm_num
      · rw [binary64_tie 2 (2 ^ 52) (by norm_num) (by norm_num) (by norm_num) (.inl (by norm_num))]; norm_num
    rw [this]
  refine ⟨hd, key, ?_, by simp [RepoTests.fourConstraints]⟩
  rw [key]
  simp [RepoTests.contains]

/-- **C161, a coarse range.** Where the `f64` numbers are two apart, the range `2^53 .. 2^53 + 2` contains one number, its start; every draw
above one half gives the excluded end instead. -/
theorem C161_coarse {u : ℚ} (hu : IsDraw u) :
    coordR binary64 (2 ^ 53, 2 ^ 53 + 2) u = if u ≤ 1 / 2 then 2 ^ 53 else 2 ^ 53 + 2 := by
  obtain ⟨hu0, hu1⟩ := hu.bounds
  have h2u : binary64.rnd (2 * u) = 2 * u := hu.rounded_two
  have hw : binary64.rnd ((2 ^ 53 + 2 : ℚ) - 2 ^ 53) = 2 := by
    rw [show ((2 ^ 53 + 2 : ℚ) - 2 ^ 53) = 2 ^ (1 : ℤ) by norm_num]
    have := nearest_zpow (p := 53) (by norm_num) 1
    exact this.trans (by norm_num)
  unfold coordR
  simp only
  rw [hw, h2u]
  have b1 : (2 : ℚ) ^ (53 : ℤ) ≤ 2 * u + 2 ^ 53 := by norm_num; linarith
  have b2 : 2 * u + 2 ^ 53 < (2 : ℚ) ^ ((53 : ℤ) + 1) := by
    have : (1 : ℚ) - 1 / 2 ^ 52 < 1 := by norm_num
    have h : u < 1 := by linarith
    norm_num
    linarith
  have hdiv : (2 * u + 2 ^ 53) / (2 : ℚ) ^ ((53 : ℤ) - 52) = u + 2 ^ 52 := by norm_num; ring
  split
  · rename_i h
    rcases h.lt_or_eq with h | h
    · rw [binary64_eq 53 (2 ^ 52) b1 b2 (by rw [hdiv, abs_lt]; push_cast; constructor <;> linarith)]; norm_num
    · rw [binary64_tie 53 (2 ^ 52) b1 b2 (by norm_num) (.inl (by rw [hdiv, h]; push_cast; ring))]; norm_num
  · rename_i h
    push Not at h
    have : (1 : ℚ) - 1 / 2 ^ 52 < 1 := by norm_num
    rw [binary64_eq 53 (2 ^ 52 + 1) b1 b2 (by rw [hdiv, abs_lt]; push_cast; constructor <;> linarith)]; norm_num

end

/-- **C161, the whole line.** `with_single_constraint(n, f64::MIN..f64::MAX)`: the width overflows, and no coordinate is a number of the range;
each is infinite, or NaN for the draw zero. (Any rounding in which `f64::MAX` doubled exceeds `f64::MAX`.) -/
theorem C161_whole_line {K : Type} [Field K] [LinearOrder K] [IsStrictOrderedRing K] {A : Rounding K} {maxv u : K}
    (hmax : maxv < A.rnd (maxv + maxv)) (hu : 0 ≤ u) :
    coordF A maxv (.fin (-maxv), .fin maxv) u = if u = 0 then .nan else .pinf := by
  have h1 : addF A maxv (.fin maxv) (Ext.neg (.fin (-maxv))) = .pinf := by
    simp [addF, Ext.neg, Ext.add, overflow, hmax]
  unfold coordF
  simp only
  rw [h1]
  split
  · rename_i h; subst h
    simp [mulF, addF, overflow, Ext.mul, Ext.infMul, Ext.add]
  · rename_i h
    have : ¬ u < 0 := not_lt.2 hu
    simp [mulF, addF, overflow, Ext.mul, Ext.infMul, Ext.signed, Ext.add, h, this]

/-- **C161, without overflow.** If the width of the range and the coordinate do not exceed `f64::MAX`, the coordinate on all `f64` values is
the rounded one of the other theorems. -/
theorem C161_no_overflow {K : Type} [Field K] [LinearOrder K] [IsStrictOrderedRing K] {A : Rounding K} {maxv u : K} {c : K × K}
    (hc : c.1 ≤ c.2) (hs : A.rnd c.1 = c.1) (hlo : -maxv ≤ c.1) (hw : A.rnd (c.2 - c.1) ≤ maxv) (hu : 0 ≤ u ∧ u < 1) (hx : coordR A c u ≤ maxv) :
    coordF A maxv (.fin c.1, .fin c.2) u = .fin (coordR A c u) := by
  have w0 : 0 ≤ A.rnd (c.2 - c.1) := rnd_nonneg (sub_nonneg.2 hc)
  have z0 : 0 ≤ A.rnd (A.rnd (c.2 - c.1) * u) := rnd_nonneg (mul_nonneg w0 hu.1)
  have z1 : A.rnd (A.rnd (c.2 - c.1) * u) ≤ A.rnd (c.2 - c.1) := by
    have := A.mono (show A.rnd (c.2 - c.1) * u ≤ A.rnd (c.2 - c.1) by nlinarith [hu.2])
    rwa [A.idem] at this
  have e1 : addF A maxv (.fin c.2) (Ext.neg (.fin c.1)) = .fin (A.rnd (c.2 - c.1)) := by
    rw [sub_eq_add_neg]
    exact addF_fin (by rw [← sub_eq_add_neg]; linarith) (by rw [← sub_eq_add_neg]; exact hw)
  have e2 : mulF A maxv (.fin (A.rnd (c.2 - c.1))) (.fin u) = .fin (A.rnd (A.rnd (c.2 - c.1) * u)) :=
    overflow_fin (by linarith) (z1.trans hw)
  unfold coordF
  rw [e1, e2]
  exact addF_fin (le_trans hlo (coordR_ge hc hs hu.1)) hx

/-! ## Examples -/

section examples

theorem counterRng_isDraw (g : Nat) : IsDraw (counterRng.unit g).1 := by
  show IsDraw (if g % 2 = 0 then 1 / 4 else 3 / 4)
  split
  · exact ⟨2 ^ 50, by norm_num, by norm_num⟩
  · exact ⟨3 * 2 ^ 50, by norm_num, by norm_num⟩

/-- Seven points in `[-5, -4] x [0, 3]`. -/
example := C161_box counterRng (Individual.chromOps ℚ (.nan : Fl ℚ)) (dim := 2) (count := 7) (cs := [(-5, -4), (0, 3)]) (g0 := 0) (g1 := 0)
  (rp := ⟨2, [(-5, -4), (0, 3)]⟩) rfl counterRng_isDraw (by
    intro c hc
    simp only [List.mem_cons, List.not_mem_nil, or_false] at hc
    rcases hc with rfl | rfl
    · exact ⟨by norm_num, by decide +kernel, by decide +kernel⟩
    · exact ⟨by norm_num, by decide +kernel, by decide +kernel⟩)
example := C161_unit (u := 1 - 1 / 2 ^ 52) ⟨2 ^ 52 - 1, by norm_num, by norm_num⟩
/-- With the draw three quarters the excluded end is returned. -/
example : coordR binary64 (2 ^ 53, 2 ^ 53 + 2) (3 / 4) = 2 ^ 53 + 2 :=
  (C161_coarse (u := 3 / 4) ⟨3 * 2 ^ 50, by norm_num, by norm_num⟩).trans (if_neg (by norm_num))
example : coordF binary64 f64Max (.fin (-f64Max), .fin f64Max) (1 / 2) = .pinf :=
  (C161_whole_line (A := binary64) (by decide +kernel) (by norm_num)).trans (if_neg (by norm_num))
example := C161_no_overflow (A := binary64) (maxv := f64Max) (u := 3 / 4) (c := (-5, -4)) (by norm_num) (by decide +kernel) (by decide +kernel)
  (by decide +kernel) (by norm_num) (by decide +kernel)

end examples

end Ecrs.Ga
