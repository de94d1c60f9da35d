import Verif.Props.Published
import Mathlib.Analysis.Complex.ExponentialBounds
import Mathlib.Analysis.SpecialFunctions.Trigonometric.DerivHyp

/-!
# C147: the remaining benchmark functions against the published formulas

The published forms (same sources as `Verif/TestFunctions/Published.lean`) of the functions that
file leaves out, and what the crate computes instead.
-/

set_option linter.unusedSectionVars false
set_option linter.unusedVariables false

namespace Ecrs.Published
open Real

variable {n : ℕ}

/-- The time of the `i`-th measurement (`i` counted from `0`). -/
noncomputable def time (i : ℕ) : ℝ := 0.1 * i
/-- The model the second deVilliers-Glasser function fits. -/
noncomputable def devilliersModel (x1 x2 x3 x4 x5 t : ℝ) : ℝ :=
  x1 * x2 ^ t * tanh (x3 * t + sin (x4 * t)) * cos (t * exp x5)
/-- Least squares against the data produced by the parameters `53.81, 1.27, 3.012, 2.13, 0.507`. -/
noncomputable def devilliers_glasser2 (x1 x2 x3 x4 x5 : ℝ) : ℝ :=
  ∑ i ∈ Finset.range 24, (devilliersModel x1 x2 x3 x4 x5 (time i)
    - devilliersModel 53.81 1.27 3.012 2.13 0.507 (time i)) ^ 2
noncomputable def biggs_exp5 (x1 x2 x3 x4 x5 : ℝ) : ℝ :=
  ∑ i ∈ Finset.Icc (1 : ℕ) 11, (x3 * exp (-(0.1 * i) * x1) - x4 * exp (-(0.1 * i) * x2)
    + 3 * exp (-(0.1 * i) * x5) - biggsData5 i) ^ 2
noncomputable def biggs_exp6 (x1 x2 x3 x4 x5 x6 : ℝ) : ℝ :=
  ∑ i ∈ Finset.Icc (1 : ℕ) 13, (x3 * exp (-(0.1 * i) * x1) - x4 * exp (-(0.1 * i) * x2)
    + x6 * exp (-(0.1 * i) * x5) - biggsData5 i) ^ 2
/-- The envelope of the ripple functions: a bell around `0.1`. -/
noncomputable def rippleBell (t : ℝ) : ℝ := exp (-2 * log 2 * ((t - 0.1) / 0.8) ^ 2)
noncomputable def ripple1 (x : Fin 2 → ℝ) : ℝ :=
  ∑ i, -rippleBell (x i) * (sin (5 * π * x i) ^ 6 + 0.1 * cos (500 * π * x i) ^ 2)
noncomputable def ripple25 (x : Fin 2 → ℝ) : ℝ := ∑ i, -rippleBell (x i) * sin (5 * π * x i) ^ 6
/-- The squared distance the Langermann function is built on. -/
noncomputable def sqDist (x a : Fin n → ℝ) : ℝ := ∑ j, (x j - a j) ^ 2
noncomputable def langermann {m : ℕ} (c : Fin m → ℝ) (a : Fin m → Fin n → ℝ) (x : Fin n → ℝ) : ℝ :=
  ∑ i, c i * exp (-(1 / π) * sqDist x (a i)) * cos (π * sqDist x (a i))

end Ecrs.Published

namespace Ecrs.Props
open Ecrs Ecrs.TF Real

variable {n : ℕ}

/-- **C147** `devilliers_glasser2` is the published function wherever it yields a number. -/
theorem C147_devilliers_glasser2 (x1 x2 x3 x4 x5 : ℝ) (h : 0 ≤ x2) :
    devilliers_glasser2 [x1, x2, x3, x4, x5] = .ok (Published.devilliers_glasser2 x1 x2 x3 x4 x5) := by
  unfold devilliers_glasser2 fn5
  dsimp only
  rw [forLoop_range' 1 24 (t := fun i : Fin 24 => (Published.devilliersModel x1 x2 x3 x4 x5 (Published.time i)
    - Published.devilliersModel 53.81 1.27 3.012 2.13 0.507 (Published.time i)) ^ 2) 0, zero_add]
  · unfold Published.devilliers_glasser2
    rw [Finset.sum_range]
  · intro i acc
    have ht : (0.1 * ((1 + (i : ℕ) - 1 : ℕ) : ℝ)) = Published.time i := by
      rw [Nat.add_sub_cancel_left]; rfl
    have ht' : ∀ c : ℝ, c * 0.1 * ((1 + (i : ℕ) - 1 : ℕ) : ℝ) = c * Published.time i := by
      intro c; rw [mul_assoc, ht]
    have hp : powf x2 (0.1 * ((1 + (i : ℕ) - 1 : ℕ) : ℝ)) = .ok (x2 ^ Published.time i) := by
      rw [ht]
      unfold powf
      rw [if_neg (not_lt.2 h), if_neg]
      rintro ⟨_, hlt⟩
      exact absurd hlt (not_lt.2 (by unfold Published.time; positivity))
    rw [hp, bind_ok']
    simp only [ht', ht]
    refine congrArg Except.ok ?_
    unfold Published.devilliersModel
    rw [mul_comm (exp 0.507)]

/-- **C107, C147** Its least value `0` is attained at the parameters that generated the data, and
not, as the documentation says, at the origin. -/
theorem C147_devilliers_glasser2_minimum :
    devilliers_glasser2 [53.81, 1.27, 3.012, 2.13, 0.507] = .ok 0 ∧
    ∃ v, devilliers_glasser2 [0, 0, 0, 0, 0] = .ok v ∧ 0 < v := by
  constructor
  · rw [C147_devilliers_glasser2 _ _ _ _ _ (by norm_num)]
    simp [Published.devilliers_glasser2]
  · refine ⟨_, C147_devilliers_glasser2 0 0 0 0 0 le_rfl, ?_⟩
    unfold Published.devilliers_glasser2
    have h0 : ∀ t, Published.devilliersModel 0 0 0 0 0 t = 0 := by
      intro t; simp [Published.devilliersModel]
    simp only [h0, zero_sub]
    refine lt_of_lt_of_le ?_ (Finset.single_le_sum (f := fun i : ℕ =>
      (-Published.devilliersModel 53.81 1.27 3.012 2.13 0.507 (Published.time i)) ^ 2)
      (fun i _ => sq_nonneg _) (Finset.mem_range.2 (show 1 < 24 by norm_num)))
    have hpi := pi_gt_three
    have hs : 0 < sin (2.13 * Published.time 1) := by
      apply sin_pos_of_pos_of_lt_pi <;> unfold Published.time <;> norm_num
      linarith
    have hth : 0 < tanh (3.012 * Published.time 1 + sin (2.13 * Published.time 1)) := by
      rw [tanh_eq_sinh_div_cosh]
      refine div_pos (sinh_pos_iff.2 (add_pos (by unfold Published.time; norm_num) hs)) (cosh_pos _)
    have he : exp (0.507 : ℝ) < 2.7182818286 :=
      lt_trans (exp_lt_exp.2 (by norm_num)) exp_one_lt_d9
    have hc : 0 < cos (Published.time 1 * exp 0.507) := by
      have hp := exp_pos (0.507 : ℝ)
      apply cos_pos_of_mem_Ioo
      unfold Published.time
      constructor <;> norm_num <;> linarith
    have : 0 < Published.devilliersModel 53.81 1.27 3.012 2.13 0.507 (Published.time 1) := by
      unfold Published.devilliersModel
      have : (0 : ℝ) < 1.27 ^ Published.time 1 := rpow_pos_of_pos (by norm_num) _
      positivity
    rw [neg_sq]
    positivity

/-- **C147** `biggs_exp5` and `biggs_exp6` put the last exponential of the model inside the
exponential of the data, and stop one (two) measurements early. -/
theorem C147_biggs56 (x1 x2 x3 x4 x5 x6 : ℝ) :
    biggs_exp5 [x1, x2, x3, x4, x5] = .ok (∑ i ∈ Finset.Icc (1 : ℕ) 10,
      (x3 * exp (-(0.1 * i) * x1) - x4 * exp (-(0.1 * i) * x2) + 3 * exp (-(0.1 * i) * x5) - Published.biggsData5 i
        + (6 * exp (-(4 * (0.1 * i))) - 5 * exp (-(10 * (0.1 * i))) - 3 * exp (-(0.1 * i) * x5)
          - 5 * exp (i + 3 * exp (-0.1 * x5)))) ^ 2) ∧
    biggs_exp6 [x1, x2, x3, x4, x5, x6] = .ok (∑ i ∈ Finset.Icc (1 : ℕ) 11,
      (x3 * exp (-(0.1 * i) * x1) - x4 * exp (-(0.1 * i) * x2) + x6 * exp (-(0.1 * i) * x5) - Published.biggsData5 i
        + (6 * exp (-(4 * (0.1 * i))) - 5 * exp (-(10 * (0.1 * i))) - x6 * exp (-(0.1 * i) * x5)
          - 5 * exp (i + x6 * exp (-0.1 * x5)))) ^ 2) := by
  refine ⟨congrArg Except.ok ?_, congrArg Except.ok ?_⟩ <;>
  · rw [foldl_add, sum_range'_Icc, zero_add]
    refine Finset.sum_congr rfl fun i _ => ?_
    unfold Published.biggsData5 Published.biggsData2
    rw [show -(4 * (0.1 * (i : ℝ))) = -0.4 * i from by ring, show -(0.1 * (i : ℝ)) = -0.1 * i from by ring]
    ring

/-- What the ripple functions of the crate have for an envelope: `e^(-2 ln (2 s²))` instead of
`e^(-2 ln 2 · s²)`, centred at `1` instead of `0.1`. -/
theorem ripple_envelope {t : ℝ} (h : t ≠ 1) :
    fln (2 * ((t - 1) / 0.8) ^ 2) = .ok (log (2 * ((t - 1) / 0.8) ^ 2)) ∧
    exp (-2 * log (2 * ((t - 1) / 0.8) ^ 2)) = 0.8 ^ 4 / (4 * (t - 1) ^ 4) := by
  have h1 : t - 1 ≠ 0 := sub_ne_zero.2 h
  have hpos : 0 < 2 * ((t - 1) / 0.8) ^ 2 := by positivity
  constructor
  · unfold fln
    rw [if_neg (not_le.2 hpos)]
  · rw [show -2 * log (2 * ((t - 1) / 0.8) ^ 2) = -(log (2 * ((t - 1) / 0.8) ^ 2) + log (2 * ((t - 1) / 0.8) ^ 2))
      from by ring, exp_neg, exp_add, exp_log hpos]
    field_simp
    ring

/-- **C147** The ripple functions: the bell `2^(-2 ((x - 0.1) / 0.8)²)` of the literature is
replaced by the pole `0.8⁴ / (4 (x - 1)⁴)`. -/
theorem C147_ripple (x y : ℝ) (hx : x ≠ 1) (hy : y ≠ 1) :
    ripple1 [x, y] = .ok (-(0.8 ^ 4 / (4 * (x - 1) ^ 4)) * (sin (5 * π * x) ^ 6 + 0.1 * cos (500 * π * x) ^ 2)
      - 0.8 ^ 4 / (4 * (y - 1) ^ 4) * (sin (5 * π * y) ^ 6 + 0.1 * cos (500 * π * y) ^ 2)) ∧
    ripple25 [x, y] = .ok (-(0.8 ^ 4 / (4 * (x - 1) ^ 4)) * sin (5 * π * x) ^ 6
      - 0.8 ^ 4 / (4 * (y - 1) ^ 4) * sin (5 * π * y) ^ 6) := by
  obtain ⟨fx, ex⟩ := ripple_envelope hx
  obtain ⟨fy, ey⟩ := ripple_envelope hy
  constructor
  · unfold ripple1
    rw [require_ok (by simp), bind_ok', forLoop_cons, fx, bind_ok', ex]
    rw [show ∀ (v : ℝ) (k : ℝ → R), ((pure v : R) >>= k) = k v from fun _ _ => rfl, forLoop_cons, fy, bind_ok', ey]
    exact congrArg Except.ok (by ring)
  · unfold ripple25
    rw [require_ok (by simp), bind_ok', forLoop_cons, fx, bind_ok', ex]
    rw [show ∀ (v : ℝ) (k : ℝ → R), ((pure v : R) >>= k) = k v from fun _ _ => rfl, forLoop_cons, fy, bind_ok', ey]
    exact congrArg Except.ok (by ring)

/-- **C107, C147** The published `ripple1` is nowhere below `-2.2`; the crate's is unbounded below
on the search box: an optimiser is drawn into the pole at `1`, whatever its budget. -/
theorem C147_ripple1_unbounded :
    (∀ x, -2.2 ≤ Published.ripple1 x) ∧
    ∀ B : ℝ, ∃ x v, 0 ≤ x ∧ x < 1 ∧ ripple1 [x, x] = .ok v ∧ v < -B := by
  refine ⟨fun x => ?_, fun B => ?_⟩
  case refine_1 =>
    unfold Published.ripple1
    have hb : ∀ t : ℝ, 0 < Published.rippleBell t ∧ Published.rippleBell t ≤ 1 := by
      intro t
      refine ⟨exp_pos _, exp_le_one_iff.2 ?_⟩
      have := log_pos (show (1 : ℝ) < 2 by norm_num)
      have := mul_nonneg this.le (sq_nonneg ((t - 0.1) / 0.8))
      linarith
    have hterm : ∀ t : ℝ, -1.1 ≤ -Published.rippleBell t * (sin (5 * π * t) ^ 6 + 0.1 * cos (500 * π * t) ^ 2) := by
      intro t
      obtain ⟨h1, h2⟩ := hb t
      have h3 := sin_sq_le_one (5 * π * t)
      have h4 := cos_sq_le_one (500 * π * t)
      have h5 : sin (5 * π * t) ^ 6 ≤ 1 := by
        rw [show 6 = 2 * 3 from rfl, pow_mul]
        exact pow_le_one₀ (sq_nonneg _) h3
      have h6 : 0 ≤ sin (5 * π * t) ^ 6 := by positivity
      have h7 := sq_nonneg (cos (500 * π * t))
      generalize sin (5 * π * t) ^ 6 = s at *
      generalize cos (500 * π * t) ^ 2 = c at *
      nlinarith [mul_le_mul h2 (show s + 0.1 * c ≤ 1.1 by linarith) (by linarith) zero_le_one]
    rw [Fin.sum_univ_two]
    linarith [hterm (x 0), hterm (x 1)]
  obtain ⟨k, hk⟩ := exists_nat_gt (max B 4)
  have hk1 : (4 : ℝ) < k := lt_of_le_of_lt (le_max_right _ _) hk
  have hkB : B < k := lt_of_le_of_lt (le_max_left _ _) hk
  have hk0 : (0 : ℝ) < k := by linarith
  have hq : 0 < 1 / (500 * (k : ℝ)) := by positivity
  have hq1 : 1 / (500 * (k : ℝ)) ≤ 1 := by
    rw [div_le_one (by positivity)]; linarith
  have hne : 1 - 1 / (500 * (k : ℝ)) ≠ 1 := by intro h; linarith
  have hcos : 1 / 4 ≤ cos (500 * π * (1 - 1 / (500 * (k : ℝ)))) ^ 2 := by
    rw [show 500 * π * (1 - 1 / (500 * (k : ℝ))) = (250 : ℕ) * (2 * π) - π / k from by
      push_cast; field_simp; ring, cos_nat_mul_two_pi_sub]
    have h1 := one_sub_sq_div_two_le_cos (x := π / k)
    have h2 : π / k ≤ 1 := by rw [div_le_one hk0]; linarith [pi_lt_four]
    have h3 : 0 ≤ π / k := div_nonneg pi_pos.le hk0.le
    have h4 : (π / k) ^ 2 ≤ 1 := pow_le_one₀ h3 h2
    have h5 : 1 / 2 ≤ cos (π / k) := by linarith
    calc (1 / 4 : ℝ) = (1 / 2) ^ 2 := by norm_num
      _ ≤ _ := pow_le_pow_left₀ (by norm_num) h5 2
  refine ⟨1 - 1 / (500 * k), _, by linarith, by linarith, (C147_ripple _ _ hne hne).1, ?_⟩
  · rw [show 1 - 1 / (500 * (k : ℝ)) - 1 = -(1 / (500 * k)) from by ring]
    have hs : 0 ≤ sin (5 * π * (1 - 1 / (500 * (k : ℝ)))) ^ 6 := by positivity
    generalize sin (5 * π * (1 - 1 / (500 * (k : ℝ)))) ^ 6 = s at hs
    generalize cos (500 * π * (1 - 1 / (500 * (k : ℝ)))) ^ 2 = c at hcos
    have he : (0.8 : ℝ) ^ 4 / (4 * (-(1 / (500 * (k : ℝ)))) ^ 4) = 0.1024 * (500 * k) ^ 4 := by
      field_simp; norm_num
    rw [he]
    have hk4 : (k : ℝ) ≤ (500 * k) ^ 4 / 125000 := by
      have : (1 : ℝ) ≤ (k : ℝ) ^ 3 := one_le_pow₀ (by linarith)
      nlinarith
    have hX : 0 < (500 * (k : ℝ)) ^ 4 := by positivity
    generalize (500 * (k : ℝ)) ^ 4 = X at hk4 hX
    nlinarith [mul_le_mul_of_nonneg_left (show (0.025 : ℝ) ≤ s + 0.1 * c by linarith) hX.le]

/-- **C147** `langermann` never reads the first row of its tables, and divides `π` by the squared
distance where the published function divides the squared distance by `π`. -/
theorem C147_langermann {m : ℕ} (c : Fin (m + 1) → ℝ) (a : Fin (m + 1) → Fin n → ℝ) (x : Fin n → ℝ)
    (h : ∀ i : Fin m, x ≠ a i.succ) :
    langermann (List.ofFn x) m (List.ofFn c) (List.ofFn fun i => List.ofFn (a i)) =
      .ok (∑ i : Fin m, c i.succ * exp (-(π / Published.sqDist x (a i.succ)))
        * cos (π * Published.sqDist x (a i.succ))) := by
  unfold langermann
  rw [forLoop_range' 1 m (t := fun i : Fin m => c i.succ * exp (-(π / Published.sqDist x (a i.succ)))
        * cos (π * Published.sqDist x (a i.succ))) 0, zero_add]
  intro i acc
  have hin : (forLoop (List.range (List.ofFn x).length) 0 fun inner j => do
      let xj ← get (List.ofFn x) j
      let ar ← get (List.ofFn fun i => List.ofFn (a i)) (1 + (i : ℕ))
      let av ← get ar j
      pure (inner + (xj - av) ^ 2)) = .ok (Published.sqDist x (a i.succ)) := by
    rw [List.length_ofFn, forLoop_range n (t := fun j => (x j - a i.succ j) ^ 2) 0, zero_add]
    · rfl
    · intro j acc
      have hrow : get (List.ofFn fun i => List.ofFn (a i)) (1 + (i : ℕ)) = .ok (List.ofFn (a i.succ)) := by
        apply get_ok
        simp [Nat.add_comm 1 (i : ℕ), Fin.succ]
      rw [get_ofFn, bind_ok', hrow, bind_ok', get_ofFn, bind_ok']
      rfl
  have hne : Published.sqDist x (a i.succ) ≠ 0 := by
    intro h0
    apply h i
    funext j
    have := (Finset.sum_eq_zero_iff_of_nonneg fun j _ => sq_nonneg (x j - a i.succ j)).1 h0 j (Finset.mem_univ _)
    have := pow_eq_zero_iff (two_ne_zero) |>.1 this
    linarith
  have hc : get (List.ofFn c) (1 + (i : ℕ)) = .ok (c i.succ) := by
    have := get_ofFn c i.succ
    rwa [Fin.val_succ, Nat.add_comm (i : ℕ)] at this
  rw [hin, bind_ok', hc, bind_ok', fdiv_ok hne, bind_ok']
  refine congrArg Except.ok ?_
  rw [show -1 * π / Published.sqDist x (a i.succ) = -(π / Published.sqDist x (a i.succ)) from by ring]

/-- The hypotheses are met away from the pole and by a table whose rows differ from the point. -/
example := C147_ripple 0.1 0.1 (by norm_num) (by norm_num)
example := C147_devilliers_glasser2 1 2 3 4 5 (by norm_num)
example := C147_langermann (m := 1) (n := 2) ![7, 1] ![![0, 0], ![1, 1]] ![2, 3] (by
  intro i h
  have := congrFun h 0
  fin_cases i
  norm_num at this)

end Ecrs.Props
