import Mathlib.Probability.Independence.Integration
import Mathlib.MeasureTheory.Function.LpSeminorm.CompareExp
import Mathlib.MeasureTheory.Integral.IntervalIntegral.Basic
import Mathlib.Analysis.SpecialFunctions.Integrals.Basic
import Mathlib.Analysis.SpecificLimits.Basic
import Mathlib.Analysis.Real.Sqrt
import Mathlib.MeasureTheory.Constructions.Polish.Basic
import Mathlib.Probability.ProductMeasure
import Mathlib.Probability.Independence.InfinitePi
import Mathlib.Tactic.Linarith
import Mathlib.Tactic.LinearCombination
import Mathlib.Tactic.FieldSimp

/-!
# Moments of a second-order recurrence with multiplicative noise

The mathematics behind C153 (particle swarm optimisation, src/pso/particle.rs:55-99): expectations of one coordinate of a particle
whose bests do not change.  The only definitions about the code are `sample` and `FairDraws`.
-/

set_option linter.unusedSectionVars false

namespace Ecrs.Pso
open MeasureTheory ProbabilityTheory Filter Topology

/-- One of the two samples of `update_velocity` (src/pso/particle.rs:73-74), as a function on the probability space; the index is
(iteration, particle, coordinate, which of the two). -/
def sample {Ω : Type} (D : Ω → ℕ → ℕ → ℕ → ℝ × ℝ) (i : ℕ × ℕ × ℕ × Bool) (ω : Ω) : ℝ :=
  if i.2.2.2 then (D ω i.1 i.2.1 i.2.2.1).2 else (D ω i.1 i.2.1 i.2.2.1).1

/-- Specification: every sample that the run draws is uniform on the unit interval, and they are all independent. -/
structure FairDraws {Ω : Type} [MeasurableSpace Ω] (P : Measure Ω) (D : Ω → ℕ → ℕ → ℕ → ℝ × ℝ) : Prop where
  measurable : ∀ i, Measurable (sample D i)
  independent : iIndepFun (sample D) P
  uniform : ∀ i, P.map (sample D i) = volume.restrict (Set.Icc 0 1)

variable {Ω : Type} [mΩ : MeasurableSpace Ω] {P : Measure Ω}

/-- What the samples of the first `t` iterations determine. -/
@[instance_reducible] def past (D : Ω → ℕ → ℕ → ℕ → ℝ × ℝ) (t : ℕ) : MeasurableSpace Ω :=
  ⨆ i ∈ {i : ℕ × ℕ × ℕ × Bool | i.1 ≤ t}, MeasurableSpace.comap (sample D i) inferInstance

/-- What the samples of the later iterations determine. -/
@[instance_reducible] def future (D : Ω → ℕ → ℕ → ℕ → ℝ × ℝ) (t : ℕ) : MeasurableSpace Ω :=
  ⨆ i ∈ {i : ℕ × ℕ × ℕ × Bool | t < i.1}, MeasurableSpace.comap (sample D i) inferInstance

section
variable {D : Ω → ℕ → ℕ → ℕ → ℝ × ℝ}

theorem past_mono {t t' : ℕ} (h : t ≤ t') : past D t ≤ past D t' :=
  biSup_mono fun _ hi => le_trans hi h

theorem measurable_past {t : ℕ} {i : ℕ × ℕ × ℕ × Bool} (h : i.1 ≤ t) : Measurable[past D t] (sample D i) :=
  measurable_iff_comap_le.2 (le_biSup (fun i => MeasurableSpace.comap (sample D i) inferInstance) h)

theorem measurable_future {t : ℕ} {i : ℕ × ℕ × ℕ × Bool} (h : t < i.1) : Measurable[future D t] (sample D i) :=
  measurable_iff_comap_le.2 (le_biSup (fun i => MeasurableSpace.comap (sample D i) inferInstance) h)

variable (h : FairDraws P D)
include h

theorem FairDraws.past_le (t : ℕ) : past D t ≤ mΩ :=
  iSup₂_le fun i _ => measurable_iff_comap_le.1 (h.measurable i)

theorem FairDraws.future_le (t : ℕ) : future D t ≤ mΩ :=
  iSup₂_le fun i _ => measurable_iff_comap_le.1 (h.measurable i)

theorem FairDraws.indep (t : ℕ) {a b : Ω → ℝ} (ha : Measurable[future D t] a) (hb : Measurable[past D t] b) :
    IndepFun a b P := by
  have := indep_iSup_of_disjoint (fun i => measurable_iff_comap_le.1 (h.measurable i)) h.independent
    (S := {i : ℕ × ℕ × ℕ × Bool | t < i.1}) (T := {i | i.1 ≤ t}) (by
      rw [Set.disjoint_left]; intro i h1 h2; exact absurd (show t < i.1 from h1) (not_lt.2 (show i.1 ≤ t from h2)))
  rw [IndepFun_iff_Indep]
  exact indep_of_indep_of_le_left (indep_of_indep_of_le_right this (measurable_iff_comap_le.1 hb)) (measurable_iff_comap_le.1 ha)

theorem FairDraws.isProbability : IsProbabilityMeasure P := by
  constructor
  have h1 := h.uniform (0, 0, 0, true)
  have h2 : P.map (sample D (0, 0, 0, true)) Set.univ = 1 := by rw [h1]; simp
  rwa [Measure.map_apply (h.measurable _) MeasurableSet.univ, Set.preimage_univ] at h2

theorem FairDraws.integral_comp (i : ℕ × ℕ × ℕ × Bool) {φ : ℝ → ℝ} (hφ : Continuous φ) :
    ∫ ω, φ (sample D i ω) ∂P = ∫ x in (0:ℝ)..1, φ x := by
  rw [intervalIntegral.integral_of_le (by norm_num), ← integral_Icc_eq_integral_Ioc, ← h.uniform i,
    integral_map (h.measurable i).aemeasurable hφ.aestronglyMeasurable]

theorem FairDraws.mean (i) : ∫ ω, (sample D i ω - 1 / 2) ∂P = 0 := by
  rw [h.integral_comp i (φ := fun x => x - 1 / 2) (by fun_prop)]
  rw [intervalIntegral.integral_sub (Continuous.intervalIntegrable (by fun_prop) _ _) (Continuous.intervalIntegrable (by fun_prop) _ _)]
  simp

theorem FairDraws.variance (i) : ∫ ω, (sample D i ω - 1 / 2) ^ 2 ∂P = 1 / 12 := by
  rw [h.integral_comp i (φ := fun x => (x - 1 / 2) ^ 2) (by fun_prop)]
  rw [intervalIntegral.integral_comp_sub_right (fun x => x ^ 2)]
  rw [integral_pow]; norm_num

theorem FairDraws.covariance {i j} (hij : i ≠ j) : ∫ ω, (sample D i ω - 1 / 2) * (sample D j ω - 1 / 2) ∂P = 0 := by
  have h1 : IndepFun (fun ω => sample D i ω - 1 / 2) (fun ω => sample D j ω - 1 / 2) P :=
    (h.independent.indepFun hij).comp (φ := fun x => x - 1 / 2) (ψ := fun x => x - 1 / 2) (by fun_prop) (by fun_prop)
  rw [h1.integral_fun_mul_eq_mul_integral ((h.measurable i).sub_const _).aestronglyMeasurable
    ((h.measurable j).sub_const _).aestronglyMeasurable, h.mean i, zero_mul]

theorem FairDraws.unit (i) : ∀ᵐ ω ∂P, sample D i ω ∈ Set.Icc (0:ℝ) 1 := by
  have : ∀ᵐ x ∂(P.map (sample D i)), x ∈ Set.Icc (0:ℝ) 1 := by
    rw [h.uniform i]; exact ae_restrict_mem measurableSet_Icc
  exact ae_of_ae_map (h.measurable i).aemeasurable this

theorem FairDraws.memLp (i) : MemLp (fun ω => sample D i ω - 1 / 2) ⊤ P := by
  refine memLp_top_of_bound ((h.measurable i).sub_const _).aestronglyMeasurable 1 ?_
  filter_upwards [h.unit i] with ω hω
  rw [Real.norm_eq_abs, abs_le]
  constructor <;> linarith [hω.1, hω.2]

end

/-- Determined by the first `t` iterations, and bounded. -/
def Past (P : Measure Ω) (D : Ω → ℕ → ℕ → ℕ → ℝ × ℝ) (t : ℕ) (q : Ω → ℝ) : Prop := Measurable[past D t] q ∧ MemLp q ⊤ P

namespace Past
variable {D : Ω → ℕ → ℕ → ℕ → ℝ × ℝ} {t : ℕ} {q q' : Ω → ℝ}

theorem const [IsFiniteMeasure P] (c : ℝ) : Past P D t (fun _ => c) := ⟨measurable_const, memLp_const c⟩
theorem add (h : Past P D t q) (h' : Past P D t q') : Past P D t (fun ω => q ω + q' ω) := ⟨h.1.add h'.1, h.2.add h'.2⟩
theorem sub (h : Past P D t q) (h' : Past P D t q') : Past P D t (fun ω => q ω - q' ω) := ⟨h.1.sub h'.1, h.2.sub h'.2⟩
theorem mul (h : Past P D t q) (h' : Past P D t q') : Past P D t (fun ω => q ω * q' ω) := ⟨h.1.mul h'.1, MemLp.mul' h'.2 h.2⟩
theorem smul (h : Past P D t q) (c : ℝ) : Past P D t (fun ω => c * q ω) := ⟨h.1.const_mul c, h.2.const_mul c⟩
theorem sq (h : Past P D t q) : Past P D t (fun ω => q ω ^ 2) := by simpa only [pow_two] using h.mul h
theorem next {t' : ℕ} (h : Past P D t q) (ht : t ≤ t') : Past P D t' q := ⟨h.1.mono (past_mono ht) le_rfl, h.2⟩
theorem integrable [IsFiniteMeasure P] (h : Past P D t q) : Integrable q P := h.2.integrable le_top
end Past

/-- The expectation of a quadratic polynomial in the next two samples with coefficients from the past. -/
theorem FairDraws.expand {D : Ω → ℕ → ℕ → ℕ → ℝ × ℝ} (h : FairDraws P D) {t : ℕ} {i j : ℕ × ℕ × ℕ × Bool} (hi : t < i.1) (hj : t < j.1)
    (hij : i ≠ j) {q0 q1 q2 q3 q4 q5 : Ω → ℝ} (h0 : Past P D t q0) (h1 : Past P D t q1) (h2 : Past P D t q2)
    (h3 : Past P D t q3) (h4 : Past P D t q4) (h5 : Past P D t q5) :
    ∫ ω, (q0 ω + (sample D i ω - 1 / 2) * q1 ω + (sample D j ω - 1 / 2) * q2 ω + (sample D i ω - 1 / 2) ^ 2 * q3 ω +
      (sample D j ω - 1 / 2) ^ 2 * q4 ω + ((sample D i ω - 1 / 2) * (sample D j ω - 1 / 2)) * q5 ω) ∂P =
    ∫ ω, q0 ω ∂P + 1 / 12 * ∫ ω, q3 ω ∂P + 1 / 12 * ∫ ω, q4 ω ∂P := by
  have := h.isProbability
  have mi : Measurable[future D t] fun ω => sample D i ω - 1 / 2 := (measurable_future hi).sub measurable_const
  have mj : Measurable[future D t] fun ω => sample D j ω - 1 / 2 := (measurable_future hj).sub measurable_const
  have li := h.memLp i
  have lj := h.memLp j
  -- one product
  have prod : ∀ {a q : Ω → ℝ}, Measurable[future D t] a → MemLp a ⊤ P → Past P D t q →
      Integrable (fun ω => a ω * q ω) P ∧ ∫ ω, a ω * q ω ∂P = (∫ ω, a ω ∂P) * ∫ ω, q ω ∂P := by
    intro a q ha la hq
    refine ⟨(MemLp.mul' hq.2 la).integrable (q := ⊤) le_top, ?_⟩
    exact (h.indep t ha hq.1).integral_fun_mul_eq_mul_integral (ha.mono (h.future_le t) le_rfl).aestronglyMeasurable
      (hq.1.mono (h.past_le t) le_rfl).aestronglyMeasurable
  obtain ⟨i1, e1⟩ := prod mi li h1
  obtain ⟨i2, e2⟩ := prod mj lj h2
  obtain ⟨i3, e3⟩ := prod (a := fun ω => (sample D i ω - 1 / 2) ^ 2) (mi.pow_const 2) (by simpa only [pow_two] using MemLp.mul' (r := ⊤) li li) h3
  obtain ⟨i4, e4⟩ := prod (a := fun ω => (sample D j ω - 1 / 2) ^ 2) (mj.pow_const 2) (by simpa only [pow_two] using MemLp.mul' (r := ⊤) lj lj) h4
  obtain ⟨i5, e5⟩ := prod (a := fun ω => (sample D i ω - 1 / 2) * (sample D j ω - 1 / 2)) (mi.mul mj) (MemLp.mul' lj li) h5
  have i0 := h0.integrable
  have add : ∀ {a b : Ω → ℝ}, Integrable a P → Integrable b P → Integrable (fun ω => a ω + b ω) P := fun ha hb => ha.add hb
  rw [integral_add (add (add (add (add i0 i1) i2) i3) i4) i5, integral_add (add (add (add i0 i1) i2) i3) i4,
    integral_add (add (add i0 i1) i2) i3, integral_add (add i0 i1) i2, integral_add i0 i1, e1, e2, e3, e4, e5,
    h.mean, h.mean, h.variance, h.variance, h.covariance hij]
  ring

/-- The stationarity triangle of the recurrence `u (t+2) = a₁ u (t+1) + a₂ u t`. -/
structure Triangle (a1 a2 : ℝ) : Prop where
  low : -1 < a2
  high : a2 < 1
  slope : |a1| < 1 - a2

namespace Triangle
variable {a1 a2 : ℝ} (h : Triangle a1 a2)
include h

theorem sq : a1 ^ 2 < (1 - a2) ^ 2 := by
  have := h.slope
  have h2 : 0 < 1 - a2 := by linarith [h.high]
  rw [← sq_abs a1]
  exact pow_lt_pow_left₀ this (abs_nonneg _) (by norm_num)

theorem pos : 0 < (1 + a2) * ((1 - a2) ^ 2 - a1 ^ 2) := mul_pos (by linarith [h.low]) (by linarith [h.sq])

end Triangle

/-- A quadratic form with non-negative diagonal and determinant, averaged. -/
theorem form_nonneg {a b c e e' f : ℝ} (ha : 0 < a) (hd : b ^ 2 ≤ a * c) (hq : ∀ x y : ℝ, 0 ≤ x ^ 2 * e' + 2 * (x * y) * f + y ^ 2 * e) :
    0 ≤ a * e' + 2 * b * f + c * e := by
  have h1 := hq a b
  have h2 : 0 ≤ e := by simpa using hq 0 1
  have h3 : 0 ≤ (a * c - b ^ 2) * e := mul_nonneg (by linarith) h2
  have : 0 ≤ a * (a * e' + 2 * b * f + c * e) := by nlinarith
  exact nonneg_of_mul_nonneg_right this ha

/-- The moments `m = E u`, `e = E u²`, `f t = E (u (t+1) u t)` of a sequence `u (t+2) = a₁ u (t+1) + a₂ u t + noise`, where the
noise has mean zero given the past and second moment `σ² u² - 2 ρ u + τ²` with `u = u (t+1)`. -/
structure Moments (a1 a2 s2 rho t2 : ℝ) (m e f : ℕ → ℝ) : Prop where
  mean : ∀ t, m (t + 2) = a1 * m (t + 1) + a2 * m t
  cross : ∀ t, f (t + 1) = a1 * e (t + 1) + a2 * f t
  square : ∀ t, e (t + 2) = a1 ^ 2 * e (t + 1) + 2 * (a1 * a2) * f t + a2 ^ 2 * e t + (s2 * e (t + 1) - 2 * rho * m (t + 1) + t2)
  form : ∀ t (x y : ℝ), 0 ≤ x ^ 2 * e (t + 1) + 2 * (x * y) * f t + y ^ 2 * e t

namespace Moments
variable {a1 a2 s2 rho t2 : ℝ} {m e f : ℕ → ℝ} (h : Moments a1 a2 s2 rho t2 m e f)
include h

theorem e_nonneg (t : ℕ) : 0 ≤ e t := by simpa using h.form t 0 1

theorem f_le (t : ℕ) : 2 * |f t| ≤ e (t + 1) + e t := by
  have h1 := h.form t 1 1
  have h2 := h.form t 1 (-1)
  rcases abs_cases (f t) with ⟨h3, -⟩ | ⟨h3, -⟩ <;> rw [h3] <;> nlinarith

end Moments

/-- The Lyapunov function. -/
def lyap (a1 a2 s2 : ℝ) (e f : ℕ → ℝ) (t : ℕ) : ℝ :=
  (1 - a2) * e (t + 1) + 2 * (a1 * a2) * f t + ((1 - a2) * a2 ^ 2 + (1 + a2) * ((1 - a2) ^ 2 - a1 ^ 2) - (1 - a2) * s2) * e t

theorem lyap_step {a1 a2 s2 rho t2 : ℝ} {m e f : ℕ → ℝ} (h : Moments a1 a2 s2 rho t2 m e f) (t : ℕ) :
    lyap a1 a2 s2 e f (t + 1) = lyap a1 a2 s2 e f t + ((1 - a2) * s2 - (1 + a2) * ((1 - a2) ^ 2 - a1 ^ 2)) * e t +
      (1 - a2) * (t2 - 2 * rho * m (t + 1)) := by
  unfold lyap
  have h1 := h.cross t
  have h2 := h.square t
  rw [show t + 1 + 1 = t + 2 from rfl, h2, h1]
  ring

/-- The means tend to zero. -/
theorem mean_tendsto {a1 a2 : ℝ} (ht : Triangle a1 a2) {m : ℕ → ℝ} (hm : ∀ t, m (t + 2) = a1 * m (t + 1) + a2 * m t) :
    Tendsto m atTop (𝓝 0) := by
  have h : Moments a1 a2 0 0 0 m (fun t => m t ^ 2) (fun t => m (t + 1) * m t) := by
    refine ⟨hm, fun t => ?_, fun t => ?_, fun t x y => ?_⟩
    · simp only [hm t]; ring
    · simp only [hm t]; ring
    · nlinarith [sq_nonneg (x * m (t + 1) + y * m t)]
  have hK := ht.pos
  set K := (1 + a2) * ((1 - a2) ^ 2 - a1 ^ 2) with hKdef
  have hstep : ∀ t, lyap a1 a2 0 (fun t => m t ^ 2) (fun t => m (t + 1) * m t) (t + 1) =
      lyap a1 a2 0 (fun t => m t ^ 2) (fun t => m (t + 1) * m t) t - K * m t ^ 2 := by
    intro t
    rw [lyap_step h t]; rw [← hKdef]; ring
  have hnn : ∀ t, 0 ≤ lyap a1 a2 0 (fun t => m t ^ 2) (fun t => m (t + 1) * m t) t := by
    intro t
    refine form_nonneg (by linarith [ht.high]) ?_ (h.form t)
    have h1 := ht.sq
    have h2 : 0 ≤ (1 - a2) * K := mul_nonneg (by linarith [ht.high]) hK.le
    nlinarith [mul_nonneg (sq_nonneg a2) (sub_nonneg.2 h1.le)]
  have hsum : ∀ n, K * ∑ t ∈ Finset.range n, m t ^ 2 ≤ lyap a1 a2 0 (fun t => m t ^ 2) (fun t => m (t + 1) * m t) 0 := by
    have : ∀ n, K * ∑ t ∈ Finset.range n, m t ^ 2 + lyap a1 a2 0 (fun t => m t ^ 2) (fun t => m (t + 1) * m t) n =
        lyap a1 a2 0 (fun t => m t ^ 2) (fun t => m (t + 1) * m t) 0 := by
      intro n
      induction n with
      | zero => simp
      | succ n ih => rw [Finset.sum_range_succ, hstep n]; linarith
    intro n
    linarith [this n, hnn n]
  have hs : Summable fun t => m t ^ 2 := by
    refine summable_of_sum_range_le (c := lyap a1 a2 0 (fun t => m t ^ 2) (fun t => m (t + 1) * m t) 0 / K) (fun t => sq_nonneg _) fun n => ?_
    rw [le_div_iff₀ hK]; linarith [hsum n]
  have h0 := hs.tendsto_atTop_zero
  have h1 : Tendsto (fun t => Real.sqrt (m t ^ 2)) atTop (𝓝 (Real.sqrt 0)) := (Real.continuous_sqrt.tendsto 0).comp h0
  simp only [Real.sqrt_sq_eq_abs, Real.sqrt_zero] at h1
  exact tendsto_zero_iff_abs_tendsto_zero _ |>.2 h1

/-- Below the threshold the Lyapunov function is non-negative. -/
theorem lyap_nonneg {a1 a2 s2 rho t2 : ℝ} (ht : Triangle a1 a2) {m e f : ℕ → ℝ} (h : Moments a1 a2 s2 rho t2 m e f)
    (hs : (1 - a2) * s2 ≤ (1 + a2) * ((1 - a2) ^ 2 - a1 ^ 2)) (t : ℕ) : 0 ≤ lyap a1 a2 s2 e f t := by
  refine form_nonneg (by linarith [ht.high]) ?_ (h.form t)
  have h1 := ht.sq
  have h3 : 0 < 1 - a2 := by linarith [ht.high]
  have h2 : 0 ≤ (1 - a2) * ((1 + a2) * ((1 - a2) ^ 2 - a1 ^ 2) - (1 - a2) * s2) := mul_nonneg h3.le (by linarith)
  nlinarith [mul_nonneg (sq_nonneg a2) (sub_nonneg.2 h1.le)]

/-- Below the threshold and without offset the mean squares are summable. -/
theorem squares_summable {a1 a2 s2 : ℝ} (ht : Triangle a1 a2) {m e f : ℕ → ℝ} (h : Moments a1 a2 s2 0 0 m e f)
    (hs : (1 - a2) * s2 < (1 + a2) * ((1 - a2) ^ 2 - a1 ^ 2)) : Summable e := by
  set d := (1 + a2) * ((1 - a2) ^ 2 - a1 ^ 2) - (1 - a2) * s2 with hd
  have hd0 : 0 < d := by linarith
  have : ∀ n, d * ∑ t ∈ Finset.range n, e t + lyap a1 a2 s2 e f n = lyap a1 a2 s2 e f 0 := by
    intro n
    induction n with
    | zero => simp
    | succ n ih => rw [Finset.sum_range_succ, lyap_step h n]; linear_combination ih + hd * e n
  refine summable_of_sum_range_le (c := lyap a1 a2 s2 e f 0 / d) h.e_nonneg fun n => ?_
  rw [le_div_iff₀ hd0]
  linarith [this n, lyap_nonneg ht h hs.le n]

theorem lyap_le {a1 a2 s2 rho t2 : ℝ} {m e f : ℕ → ℝ} (h : Moments a1 a2 s2 rho t2 m e f) :
    ∃ C, 0 < C ∧ ∀ t, lyap a1 a2 s2 e f t ≤ C * (e (t + 1) + e t) := by
  refine ⟨|1 - a2| + |a1 * a2| + |(1 - a2) * a2 ^ 2 + (1 + a2) * ((1 - a2) ^ 2 - a1 ^ 2) - (1 - a2) * s2| + 1, by positivity, fun t => ?_⟩
  have h0 := h.e_nonneg t
  have h1 := h.e_nonneg (t + 1)
  have h2 := h.f_le t
  unfold lyap
  have k1 : (1 - a2) * e (t + 1) ≤ |1 - a2| * e (t + 1) := mul_le_mul_of_nonneg_right (le_abs_self _) h1
  have k2 : ((1 - a2) * a2 ^ 2 + (1 + a2) * ((1 - a2) ^ 2 - a1 ^ 2) - (1 - a2) * s2) * e t ≤
    |(1 - a2) * a2 ^ 2 + (1 + a2) * ((1 - a2) ^ 2 - a1 ^ 2) - (1 - a2) * s2| * e t := mul_le_mul_of_nonneg_right (le_abs_self _) h0
  have k3 : 2 * (a1 * a2) * f t ≤ |a1 * a2| * (e (t + 1) + e t) := by
    calc 2 * (a1 * a2) * f t ≤ |2 * (a1 * a2) * f t| := le_abs_self _
      _ = |a1 * a2| * (2 * |f t|) := by rw [abs_mul, abs_mul]; norm_num; ring
      _ ≤ _ := mul_le_mul_of_nonneg_left h2 (abs_nonneg _)
  have k4 := abs_nonneg (1 - a2)
  have k5 := abs_nonneg ((1 - a2) * a2 ^ 2 + (1 + a2) * ((1 - a2) ^ 2 - a1 ^ 2) - (1 - a2) * s2)
  nlinarith [mul_nonneg k4 h0, mul_nonneg k5 h1]

theorem two_step_bounded {x : ℕ → ℝ} {q B : ℝ} (hq0 : 0 ≤ q) (hq1 : q < 1) (h : ∀ t, x (t + 2) ≤ q * x t + B) :
    ∃ M, ∀ t, x t ≤ M := by
  set M := max (max (x 0) (x 1)) (B / (1 - q))
  have hM : B ≤ (1 - q) * M := by
    have : B / (1 - q) ≤ M := le_max_right _ _
    rw [div_le_iff₀ (by linarith)] at this
    linarith
  refine ⟨M, fun t => ?_⟩
  induction t using Nat.twoStepInduction with
  | zero => exact (le_max_left _ _).trans (le_max_left _ _)
  | one => exact (le_max_right _ _).trans (le_max_left _ _)
  | more t ih _ =>
    have := mul_le_mul_of_nonneg_left ih hq0
    linarith [h t]

/-- Below the threshold the mean squares stay bounded. -/
theorem squares_bounded {a1 a2 s2 rho t2 : ℝ} (ht : Triangle a1 a2) {m e f : ℕ → ℝ} (h : Moments a1 a2 s2 rho t2 m e f)
    (hs : (1 - a2) * s2 < (1 + a2) * ((1 - a2) ^ 2 - a1 ^ 2)) : ∃ B, ∀ t, e t ≤ B := by
  obtain ⟨C0, hC0, hC⟩ := lyap_le h
  obtain ⟨mb, hmb⟩ := (mean_tendsto ht h.mean).abs.bddAbove_range
  have hmb : ∀ t, |m t| ≤ mb := fun t => hmb ⟨t, rfl⟩
  set d := (1 + a2) * ((1 - a2) ^ 2 - a1 ^ 2) - (1 - a2) * s2 with hd
  have hd0 : 0 < d := by linarith
  have ha : 0 < 1 - a2 := by linarith [ht.high]
  set W := lyap a1 a2 s2 e f with hW
  set b := (1 - a2) * (|t2| + 2 * (|rho| * mb)) with hb
  have hoff : ∀ t, (1 - a2) * (t2 - 2 * rho * m (t + 1)) ≤ b := by
    intro t
    refine mul_le_mul_of_nonneg_left ?_ ha.le
    have h1 := le_abs_self t2
    have h2 : -(rho * m (t + 1)) ≤ |rho| * mb := by
      calc -(rho * m (t + 1)) ≤ |rho * m (t + 1)| := neg_le_abs _
        _ = |rho| * |m (t + 1)| := abs_mul _ _
        _ ≤ _ := mul_le_mul_of_nonneg_left (hmb _) (abs_nonneg _)
    linarith
  have hstep : ∀ t, W (t + 1) ≤ W t - d * e t + b := by
    intro t
    have := lyap_step h t
    have h2 := hoff t
    have h3 : W (t + 1) = W t - d * e t + (1 - a2) * (t2 - 2 * rho * m (t + 1)) := by
      rw [hW, this]; rw [hd]; ring
    linarith
  set C := C0 + d with hCd
  have hC1 : ∀ t, W t ≤ C * (e (t + 1) + e t) := fun t => (hC t).trans
    (mul_le_mul_of_nonneg_right (by linarith) (add_nonneg (h.e_nonneg _) (h.e_nonneg _)))
  have hCpos : 0 < C := by linarith
  obtain ⟨M, hM⟩ := two_step_bounded (x := W) (q := 1 - d / C) (B := 2 * b)
    (by rw [sub_nonneg, div_le_one hCpos]; linarith) (by linarith [div_pos hd0 hCpos]) (fun t => by
      have h1 := hstep t
      have h2 := hstep (t + 1)
      have h3 : d / C * W t ≤ d * (e (t + 1) + e t) := by
        have := mul_le_mul_of_nonneg_left (hC1 t) (div_pos hd0 hCpos).le
        calc d / C * W t ≤ d / C * (C * (e (t + 1) + e t)) := this
          _ = _ := by field_simp
      have e1 : W (t + 2) = W (t + 1 + 1) := rfl
      rw [e1]
      linarith)
  refine ⟨(M + b) / d, fun t => ?_⟩
  rw [le_div_iff₀ hd0]
  have h1 := hstep t
  have h2 : 0 ≤ W (t + 1) := lyap_nonneg ht h hs.le (t + 1)
  linarith [hM t]

theorem growth {W : ℕ → ℝ} {eps : ℝ} (he : 0 < eps) {T : ℕ} (hT : 0 < W T) (h1 : ∀ t, T ≤ t → W t ≤ W (t + 1))
    (h2 : ∀ t, T ≤ t → (1 + eps) * W t ≤ W (t + 2)) : ∃ c lam : ℝ, 0 < c ∧ 1 < lam ∧ ∀ t, T ≤ t → c * lam ^ t ≤ W t := by
  have hl : 1 < Real.sqrt (1 + eps) := by
    rw [Real.lt_sqrt (by norm_num)]; linarith
  have hl2 : Real.sqrt (1 + eps) ^ 2 = 1 + eps := Real.sq_sqrt (by linarith)
  set lam := Real.sqrt (1 + eps)
  have hlp : 0 < lam := by linarith
  refine ⟨W T / lam ^ (T + 1), lam, by positivity, hl, ?_⟩
  have key : ∀ j, W T / lam ^ (T + 1) * lam ^ (T + j) ≤ W (T + j) := by
    intro j
    induction j using Nat.twoStepInduction with
    | zero =>
      rw [div_mul_eq_mul_div, div_le_iff₀ (by positivity)]
      refine mul_le_mul_of_nonneg_left ?_ hT.le
      exact pow_le_pow_right₀ hl.le (by omega)
    | one =>
      rw [div_mul_cancel₀ _ (by positivity)]
      exact h1 T le_rfl
    | more j ih _ =>
      have := h2 (T + j) (by omega)
      rw [show T + (j + 2) = T + j + 2 by omega, pow_add lam (T + j) 2, hl2]
      have h3 := mul_le_mul_of_nonneg_left ih (show 0 ≤ 1 + eps by linarith)
      calc W T / lam ^ (T + 1) * (lam ^ (T + j) * (1 + eps)) = (1 + eps) * (W T / lam ^ (T + 1) * lam ^ (T + j)) := by ring
        _ ≤ _ := h3.trans this
  intro t ht
  obtain ⟨j, rfl⟩ := Nat.exists_eq_add_of_le ht
  exact key j

/-- Above the threshold the mean squares grow exponentially. -/
theorem squares_explode {a1 a2 s2 rho t2 : ℝ} (ht : Triangle a1 a2) {m e f : ℕ → ℝ} (h : Moments a1 a2 s2 rho t2 m e f)
    (hs : (1 + a2) * ((1 - a2) ^ 2 - a1 ^ 2) < (1 - a2) * s2)
    (hstart : (rho = 0 ∧ t2 = 0 ∧ (0 < e 1 ∨ a2 ≠ 0 ∧ 0 < e 0)) ∨ 0 < t2) :
    ∃ c lam : ℝ, 0 < c ∧ 1 < lam ∧ ∀ᶠ t in atTop, c * lam ^ t ≤ e t := by
  obtain ⟨C, hC0, hC⟩ := lyap_le h
  have hm0 := mean_tendsto ht h.mean
  have ha : 0 < 1 - a2 := by linarith [ht.high]
  have hs0 : 0 < s2 := by
    have := ht.pos.trans hs
    exact (mul_pos_iff_of_pos_left ha).1 this
  set d := (1 - a2) * s2 - (1 + a2) * ((1 - a2) ^ 2 - a1 ^ 2) with hd
  have hd0 : 0 < d := by linarith
  set W := lyap a1 a2 s2 e f with hW
  have hstep : ∀ t, W (t + 1) = W t + d * e t + (1 - a2) * (t2 - 2 * rho * m (t + 1)) := lyap_step h
  -- from some point on the offset does not hurt, and the Lyapunov function is positive
  have hT : ∃ T, 0 < W T ∧ ∀ t, T ≤ t → 0 ≤ t2 - 2 * rho * m (t + 1) := by
    rcases hstart with ⟨hr, htau, h0⟩ | htau
    · refine ⟨1, ?_, fun t _ => by rw [hr, htau]; simp⟩
      have h1 := hstep 0
      rw [hr, htau] at h1
      have h2 : W 1 = (1 - a2) * e 1 + 2 * (a1 * a2) * f 0 + (1 - a2) * a2 ^ 2 * e 0 := by
        show W (0 + 1) = _
        rw [h1, hW]
        unfold lyap
        rw [hd]; ring
      rw [h2]
      -- a positive definite form
      have hp : 0 < ((1 - a2) ^ 2 - a1 ^ 2) := by linarith [ht.sq]
      have h3 := h.form 0 (1 - a2) (a1 * a2)
      have h4 := h.form 0 (a1) ((1 - a2) * a2)
      have he0 := h.e_nonneg 0
      have he1 := h.e_nonneg 1
      simp only [zero_add] at h3 h4
      have k1 : (1 - a2) * ((1 - a2) * e 1 + 2 * (a1 * a2) * f 0 + (1 - a2) * a2 ^ 2 * e 0) =
          ((1 - a2) ^ 2 * e 1 + 2 * ((1 - a2) * (a1 * a2)) * f 0 + (a1 * a2) ^ 2 * e 0) + ((1 - a2) ^ 2 - a1 ^ 2) * a2 ^ 2 * e 0 := by ring
      have k2 : (1 - a2) * ((1 - a2) * e 1 + 2 * (a1 * a2) * f 0 + (1 - a2) * a2 ^ 2 * e 0) =
          (a1 ^ 2 * e 1 + 2 * (a1 * ((1 - a2) * a2)) * f 0 + ((1 - a2) * a2) ^ 2 * e 0) + ((1 - a2) ^ 2 - a1 ^ 2) * e 1 := by ring
      refine (mul_pos_iff_of_pos_left ha).1 ?_
      rcases h0 with h0 | ⟨hne, h0⟩
      · rw [k2]; have := mul_pos hp h0; linarith
      · rw [k1]
        have : 0 < ((1 - a2) ^ 2 - a1 ^ 2) * a2 ^ 2 * e 0 := by positivity
        linarith
    · -- the offset is eventually at least half of `t2`
      have hb : Tendsto (fun t => t2 - 2 * rho * m (t + 1)) atTop (𝓝 (t2 - 2 * rho * 0)) :=
        tendsto_const_nhds.sub (((tendsto_add_atTop_iff_nat 1).2 hm0).const_mul _)
      rw [mul_zero, sub_zero] at hb
      have hev := hb.eventually (lt_mem_nhds (show t2 / 2 < t2 by linarith))
      obtain ⟨T0, hT0⟩ := eventually_atTop.1 hev
      have hgrow : ∀ j : ℕ, W T0 + j * ((1 - a2) * (t2 / 2)) ≤ W (T0 + j) := by
        intro j
        induction j with
        | zero => simp
        | succ j ih =>
          have h1 := hstep (T0 + j)
          have h2 := mul_le_mul_of_nonneg_left (hT0 (T0 + j) (by omega)).le ha.le
          have h3 := mul_nonneg hd0.le (h.e_nonneg (T0 + j))
          rw [← add_assoc, h1]
          push_cast
          linarith
      obtain ⟨j, hj⟩ := exists_nat_gt (-W T0 / ((1 - a2) * (t2 / 2)))
      rw [div_lt_iff₀ (by positivity)] at hj
      refine ⟨T0 + j, by linarith [hgrow j], fun t h' => ?_⟩
      exact (half_pos htau).le.trans (hT0 t (by omega)).le
  obtain ⟨T, hWT, hoff⟩ := hT
  have hmono : ∀ t, T ≤ t → W t ≤ W (t + 1) := by
    intro t h'
    rw [hstep]
    linarith [mul_nonneg hd0.le (h.e_nonneg t), mul_nonneg ha.le (hoff t h')]
  obtain ⟨c, lam, hc, hlam, hgr⟩ := growth (W := W) (eps := d / C) (div_pos hd0 hC0) hWT hmono (fun t h' => by
    have h1 := hstep t
    have h2 := hstep (t + 1)
    have h3 := mul_nonneg ha.le (hoff t h')
    have h4 := mul_nonneg ha.le (hoff (t + 1) (by omega))
    have h5 : d / C * W t ≤ d * (e (t + 1) + e t) := by
      calc d / C * W t ≤ d / C * (C * (e (t + 1) + e t)) := mul_le_mul_of_nonneg_left (hC t) (div_pos hd0 hC0).le
        _ = _ := by field_simp
    have e1 : W (t + 2) = W (t + 1 + 1) := rfl
    rw [e1]
    linarith)
  -- both of two neighbouring terms
  obtain ⟨mb, hmb⟩ := hm0.abs.bddAbove_range
  have hmb : ∀ t, |m t| ≤ mb := fun t => hmb ⟨t, rfl⟩
  set B := |t2| + 2 * (|rho| * mb) with hB
  have hnext : ∀ t, s2 * e (t + 1) ≤ e (t + 2) + B := by
    intro t
    have h1 := h.square t
    have h2 := h.form t a1 a2
    have h3 := neg_abs_le t2
    have h4 : rho * m (t + 1) ≤ |rho| * mb := by
      calc rho * m (t + 1) ≤ |rho * m (t + 1)| := le_abs_self _
        _ = |rho| * |m (t + 1)| := abs_mul _ _
        _ ≤ _ := mul_le_mul_of_nonneg_left (hmb _) (abs_nonneg _)
    linarith
  have hlp : 0 < lam := by linarith
  set c' := s2 * c / C / (s2 + 1) / lam with hc'
  have hc'0 : 0 < c' := by positivity
  refine ⟨c' / 2, lam, by positivity, hlam, ?_⟩
  have hpow : Tendsto (fun t : ℕ => lam ^ t) atTop atTop := tendsto_pow_atTop_atTop_of_one_lt hlam
  have hlarge := hpow.eventually (eventually_ge_atTop (B / (s2 + 1) / (c' / 2)))
  filter_upwards [hlarge, eventually_ge_atTop (T + 2)] with t h1 h2
  obtain ⟨u, rfl⟩ : ∃ u, t = u + 2 := ⟨t - 2, by omega⟩
  have h3 := hgr (u + 1) (by omega)
  have h4 := hC (u + 1)
  have h5 := hnext u
  have h6 : c * lam ^ (u + 1) ≤ C * (e (u + 2) + e (u + 1)) := h3.trans h4
  have h7 : s2 * c / C * lam ^ (u + 1) ≤ (s2 + 1) * e (u + 2) + B := by
    have : s2 * c / C * lam ^ (u + 1) ≤ s2 * (e (u + 2) + e (u + 1)) := by
      calc s2 * c / C * lam ^ (u + 1) = s2 / C * (c * lam ^ (u + 1)) := by ring
        _ ≤ s2 / C * (C * (e (u + 2) + e (u + 1))) := mul_le_mul_of_nonneg_left h6 (by positivity)
        _ = _ := by field_simp
    linarith
  have h8 : c' * lam ^ (u + 2) ≤ e (u + 2) + B / (s2 + 1) := by
    have : c' * lam ^ (u + 2) = s2 * c / C * lam ^ (u + 1) / (s2 + 1) := by
      rw [hc', pow_succ lam (u + 1)]; field_simp
    rw [this, div_le_iff₀ (by linarith)]
    calc _ ≤ (s2 + 1) * e (u + 2) + B := h7
      _ = _ := by field_simp
  have h9 : B / (s2 + 1) ≤ c' / 2 * lam ^ (u + 2) := by
    rw [div_le_iff₀ (by positivity)] at h1
    linarith
  linarith

/-! ## The moments of one coordinate -/

/-- A bounded combination of two integrals. -/
theorem integral_lin {a b : Ω → ℝ} (x y z : ℝ) [IsProbabilityMeasure P] (ha : Integrable a P) (hb : Integrable b P) :
    ∫ ω, (x * a ω + y * b ω + z) ∂P = x * ∫ ω, a ω ∂P + y * ∫ ω, b ω ∂P + z := by
  have h1 : Integrable (fun ω => x * a ω + y * b ω) P := (ha.const_mul x).add (hb.const_mul y)
  rw [integral_add h1 (integrable_const z), integral_add (ha.const_mul x) (hb.const_mul y), integral_const_mul, integral_const_mul]
  simp

theorem integral_lin3 {a b c : Ω → ℝ} (x y z : ℝ) (ha : Integrable a P) (hb : Integrable b P) (hc : Integrable c P) :
    ∫ ω, (x * a ω + y * b ω + z * c ω) ∂P = x * ∫ ω, a ω ∂P + y * ∫ ω, b ω ∂P + z * ∫ ω, c ω ∂P := by
  have h1 : Integrable (fun ω => x * a ω + y * b ω) P := (ha.const_mul x).add (hb.const_mul y)
  rw [integral_add h1 (hc.const_mul z), integral_add (ha.const_mul x) (hb.const_mul y), integral_const_mul, integral_const_mul,
    integral_const_mul]

section
variable {D : Ω → ℕ → ℕ → ℕ → ℝ × ℝ} {a1 a2 c1 c2 p g : ℝ} {u : ℕ → Ω → ℝ} {i j : ℕ → ℕ × ℕ × ℕ × Bool}

theorem orbit_past (h : FairDraws P D) (hi : ∀ t, (i t).1 = t + 1) (hj : ∀ t, (j t).1 = t + 1)
    (h0 : Past P D 0 (u 0)) (h1 : Past P D 0 (u 1))
    (hstep : ∀ t ω, u (t + 2) ω = a1 * u (t + 1) ω + a2 * u t ω + (sample D (i t) ω - 1 / 2) * (c1 * (p - u (t + 1) ω)) +
      (sample D (j t) ω - 1 / 2) * (c2 * (g - u (t + 1) ω))) (t : ℕ) : Past P D t (u t) ∧ Past P D t (u (t + 1)) := by
  have := h.isProbability
  induction t with
  | zero => exact ⟨h0, h1⟩
  | succ t ih =>
    have k0 := ih.1.next (Nat.le_succ t)
    have k1 := ih.2.next (Nat.le_succ t)
    refine ⟨k1, ?_⟩
    have si : Past P D (t + 1) (fun ω => sample D (i t) ω - 1 / 2) :=
      ⟨(measurable_past (by rw [hi])).sub measurable_const, h.memLp _⟩
    have sj : Past P D (t + 1) (fun ω => sample D (j t) ω - 1 / 2) :=
      ⟨(measurable_past (by rw [hj])).sub measurable_const, h.memLp _⟩
    have := (((k1.smul a1).add (k0.smul a2)).add (si.mul (((Past.const p).sub k1).smul c1))).add
      (sj.mul (((Past.const g).sub k1).smul c2))
    rw [show u (t + 1 + 1) = _ from funext (hstep t)]
    exact this

theorem orbit_moments (h : FairDraws P D) (hi : ∀ t, (i t).1 = t + 1) (hj : ∀ t, (j t).1 = t + 1) (hij : ∀ t, i t ≠ j t)
    (h0 : Past P D 0 (u 0)) (h1 : Past P D 0 (u 1))
    (hstep : ∀ t ω, u (t + 2) ω = a1 * u (t + 1) ω + a2 * u t ω + (sample D (i t) ω - 1 / 2) * (c1 * (p - u (t + 1) ω)) +
      (sample D (j t) ω - 1 / 2) * (c2 * (g - u (t + 1) ω))) :
    Moments a1 a2 ((c1 ^ 2 + c2 ^ 2) / 12) ((c1 ^ 2 * p + c2 ^ 2 * g) / 12) ((c1 ^ 2 * p ^ 2 + c2 ^ 2 * g ^ 2) / 12)
      (fun t => ∫ ω, u t ω ∂P) (fun t => ∫ ω, u t ω ^ 2 ∂P) (fun t => ∫ ω, u (t + 1) ω * u t ω ∂P) := by
  have := h.isProbability
  have hp := orbit_past h hi hj h0 h1 hstep
  refine ⟨fun t => ?_, fun t => ?_, fun t => ?_, fun t x y => ?_⟩
  · obtain ⟨k0, k1⟩ := hp t
    have z : Past P D t (fun _ => 0) := Past.const 0
    have e := h.expand (show t < (i t).1 by rw [hi]; omega) (show t < (j t).1 by rw [hj]; omega) (hij t)
      ((k1.smul a1).add (k0.smul a2)) (((Past.const p).sub k1).smul c1) (((Past.const g).sub k1).smul c2) z z z
    simp only [mul_zero, add_zero, integral_zero] at e
    rw [show u (t + 2) = _ from funext (hstep t), e]
    simpa using integral_lin a1 a2 0 k1.integrable k0.integrable
  · obtain ⟨k0, k1⟩ := hp t
    have z : Past P D t (fun _ => 0) := Past.const 0
    have e := h.expand (show t < (i t).1 by rw [hi]; omega) (show t < (j t).1 by rw [hj]; omega) (hij t)
      ((k1.sq.smul a1).add ((k1.mul k0).smul a2)) ((((Past.const p).sub k1).smul c1).mul k1) ((((Past.const g).sub k1).smul c2).mul k1) z z z
    simp only [mul_zero, add_zero, integral_zero] at e
    have e2 : ∀ ω, u (t + 1 + 1) ω * u (t + 1) ω = a1 * u (t + 1) ω ^ 2 + a2 * (u (t + 1) ω * u t ω) +
        (sample D (i t) ω - 1 / 2) * (c1 * (p - u (t + 1) ω) * u (t + 1) ω) +
        (sample D (j t) ω - 1 / 2) * (c2 * (g - u (t + 1) ω) * u (t + 1) ω) := by
      intro ω; rw [hstep t ω]; ring
    simp only [e2]
    rw [e]
    simpa using integral_lin a1 a2 0 k1.sq.integrable (k1.mul k0).integrable
  · obtain ⟨k0, k1⟩ := hp t
    have kL := (k1.smul a1).add (k0.smul a2)
    have kP := ((Past.const (P := P) (D := D) (t := t) p).sub k1).smul c1
    have kG := ((Past.const (P := P) (D := D) (t := t) g).sub k1).smul c2
    have e := h.expand (show t < (i t).1 by rw [hi]; omega) (show t < (j t).1 by rw [hj]; omega) (hij t)
      kL.sq ((kL.mul kP).smul 2) ((kL.mul kG).smul 2) kP.sq kG.sq ((kP.mul kG).smul 2)
    have e2 : ∀ ω, u (t + 2) ω ^ 2 = (a1 * u (t + 1) ω + a2 * u t ω) ^ 2 +
        (sample D (i t) ω - 1 / 2) * (2 * ((a1 * u (t + 1) ω + a2 * u t ω) * (c1 * (p - u (t + 1) ω)))) +
        (sample D (j t) ω - 1 / 2) * (2 * ((a1 * u (t + 1) ω + a2 * u t ω) * (c2 * (g - u (t + 1) ω)))) +
        (sample D (i t) ω - 1 / 2) ^ 2 * (c1 * (p - u (t + 1) ω)) ^ 2 +
        (sample D (j t) ω - 1 / 2) ^ 2 * (c2 * (g - u (t + 1) ω)) ^ 2 +
        (sample D (i t) ω - 1 / 2) * (sample D (j t) ω - 1 / 2) * (2 * ((c1 * (p - u (t + 1) ω)) * (c2 * (g - u (t + 1) ω)))) := by
      intro ω; rw [hstep t ω]; ring
    simp only [e2]
    rw [e]
    have e3 : ∫ ω, (a1 * u (t + 1) ω + a2 * u t ω) ^ 2 ∂P = a1 ^ 2 * ∫ ω, u (t + 1) ω ^ 2 ∂P +
        2 * (a1 * a2) * ∫ ω, u (t + 1) ω * u t ω ∂P + a2 ^ 2 * ∫ ω, u t ω ^ 2 ∂P := by
      rw [← integral_lin3 _ _ _ k1.sq.integrable (k1.mul k0).integrable k0.sq.integrable]
      congr 1; funext ω; ring
    have e4 : ∀ a b : ℝ, ∫ ω, (a * (b - u (t + 1) ω)) ^ 2 ∂P = a ^ 2 * ∫ ω, u (t + 1) ω ^ 2 ∂P +
        (-(2 * a ^ 2 * b)) * ∫ ω, u (t + 1) ω ∂P + a ^ 2 * b ^ 2 := by
      intro a b
      rw [← integral_lin _ _ _ k1.sq.integrable k1.integrable]
      congr 1; funext ω; ring
    rw [e3, e4, e4]
    ring
  · obtain ⟨k0, k1⟩ := hp t
    rw [← integral_lin3 _ _ _ k1.sq.integrable (k1.mul k0).integrable k0.sq.integrable]
    refine integral_nonneg fun ω => ?_
    show (0:ℝ) ≤ x ^ 2 * u (t + 1) ω ^ 2 + 2 * (x * y) * (u (t + 1) ω * u t ω) + y ^ 2 * u t ω ^ 2
    nlinarith [sq_nonneg (x * u (t + 1) ω + y * u t ω)]

end

/-- Summable mean squares make a sequence converge to zero almost surely. -/
theorem ae_tendsto_zero {u : ℕ → Ω → ℝ} (hm : ∀ t, Measurable (u t)) (hi : ∀ t, Integrable (fun ω => u t ω ^ 2) P)
    (hs : Summable fun t => ∫ ω, u t ω ^ 2 ∂P) : ∀ᵐ ω ∂P, Tendsto (fun t => u t ω) atTop (𝓝 0) := by
  have h1 : ∫⁻ ω, ∑' t, ENNReal.ofReal (u t ω ^ 2) ∂P < ⊤ := by
    rw [lintegral_tsum fun t => ((hm t).pow_const 2).ennreal_ofReal.aemeasurable]
    have : ∀ t, ∫⁻ ω, ENNReal.ofReal (u t ω ^ 2) ∂P = ENNReal.ofReal (∫ ω, u t ω ^ 2 ∂P) := fun t =>
      (ofReal_integral_eq_lintegral_ofReal (hi t) (ae_of_all _ fun ω => sq_nonneg _)).symm
    simp only [this]
    exact hs.tsum_ofReal_lt_top
  have h2 := ae_lt_top (Measurable.tsum fun t => ((hm t).pow_const 2).ennreal_ofReal) h1.ne
  filter_upwards [h2] with ω hω
  have h3 : Tendsto (fun t => ENNReal.ofReal (u t ω ^ 2)) atTop (𝓝 0) := ENNReal.tendsto_atTop_zero_of_tsum_ne_top hω.ne
  have h4 := (ENNReal.tendsto_toReal ENNReal.zero_ne_top).comp h3
  have h5 : Tendsto (fun t => Real.sqrt (u t ω ^ 2)) atTop (𝓝 (Real.sqrt 0)) := by
    refine (Real.continuous_sqrt.tendsto 0).comp ?_
    refine h4.congr fun t => ?_
    simp [ENNReal.toReal_ofReal (sq_nonneg _)]
  simp only [Real.sqrt_sq_eq_abs, Real.sqrt_zero] at h5
  exact tendsto_zero_iff_abs_tendsto_zero _ |>.2 h5

/-- An infinite product of uniform laws. -/
noncomputable def fairLaw : Measure (ℕ × ℕ × ℕ × Bool → ℝ) := Measure.infinitePi fun _ => volume.restrict (Set.Icc (0:ℝ) 1)

/-- The samples read off a point of the product. -/
def fairDraw (ω : ℕ × ℕ × ℕ × Bool → ℝ) (i k d : ℕ) : ℝ × ℝ := (ω (i, k, d, false), ω (i, k, d, true))

/-- Fair draws exist. -/
theorem fairDraws : FairDraws fairLaw fairDraw := by
  have : IsProbabilityMeasure (volume.restrict (Set.Icc (0:ℝ) 1)) := ⟨by simp⟩
  have e : ∀ i : ℕ × ℕ × ℕ × Bool, sample fairDraw i = fun ω => ω i := by
    rintro ⟨i, k, d, b⟩
    funext ω
    cases b <;> simp [sample, fairDraw]
  refine ⟨fun i => ?_, ?_, fun i => ?_⟩
  · rw [e i]; exact measurable_pi_apply i
  · rw [show sample _ = fun i (ω : ℕ × ℕ × ℕ × Bool → ℝ) => ω i from funext e]
    exact iIndepFun_infinitePi (P := fun _ => volume.restrict (Set.Icc (0:ℝ) 1)) (X := fun _ x => x) (fun _ => measurable_id)
  · rw [e i]
    exact (measurePreserving_eval_infinitePi (fun _ => volume.restrict (Set.Icc (0:ℝ) 1)) i).map_eq

end Ecrs.Pso
