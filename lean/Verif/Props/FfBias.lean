import Verif.Props.FfCooling
import Mathlib.MeasureTheory.Measure.Prod
import Mathlib.MeasureTheory.Integral.IntervalIntegral.Basic
import Mathlib.Analysis.SpecialFunctions.Integrals.Basic
import Mathlib.Analysis.SpecialFunctions.Log.Deriv
import Mathlib.Analysis.Complex.ExponentialBounds

/-!
# Property **C166**: the random steps of the firefly algorithm favour the upper bounds

Exact real arithmetic. Every attraction step adds the noise `alfa0 * alfa * (uniform(0.01, 0.99) + sample / generation - 0.5) * scale`
(src/ff.rs:167-172): centred only if the flight length distribution has mean 0. The default distribution `Standard` (src/ff.rs:61) samples the
unit interval.
-/

set_option linter.unusedSectionVars false
set_option linter.unusedVariables false

namespace Ecrs.Ff
open Ecrs MeasureTheory
open scoped ENNReal

/-! ## The draws of an attraction step -/

/-- The law of `thread_rng().gen_range(0.01..0.99)` (src/ff.rs:169): uniform. -/
noncomputable def uniLaw : Measure ℝ := (ENNReal.ofReal (98 / 100))⁻¹ • volume.restrict (Set.Icc (1 / 100) (99 / 100))

/-- The law of a sample of `Standard`, the default flight length distribution (src/ff.rs:61, 170): uniform on the unit interval. -/
noncomputable def stdLaw : Measure ℝ := volume.restrict (Set.Icc 0 1)

/-- Both, drawn independently. -/
noncomputable def noiseLaw : Measure (ℝ × ℝ) := uniLaw.prod stdLaw

instance : IsProbabilityMeasure stdLaw := ⟨by simp [stdLaw]⟩

theorem uniLaw_apply {s : Set ℝ} (hs : MeasurableSet s) :
    uniLaw s = (ENNReal.ofReal (98 / 100))⁻¹ * volume (s ∩ Set.Icc (1 / 100) (99 / 100)) := by
  rw [uniLaw, Measure.smul_apply, Measure.restrict_apply hs, smul_eq_mul]

instance : IsProbabilityMeasure uniLaw := ⟨by
  rw [uniLaw_apply MeasurableSet.univ, Set.univ_inter, Real.volume_Icc, show (99 / 100 - 1 / 100 : ℝ) = 98 / 100 by norm_num]
  exact ENNReal.inv_mul_cancel (by simp) (by simp)⟩

instance : IsProbabilityMeasure noiseLaw := by unfold noiseLaw; infer_instance

/-- How likely the uniform draw exceeds `x` (and is not a given number). -/
theorem uniLaw_above (x q : ℝ) (hx : x ≤ 99 / 100) :
    uniLaw {u | x < u ∧ u ≠ q} = ENNReal.ofReal (min 1 ((99 / 100 - x) / (98 / 100))) := by
  have e : {u : ℝ | x < u ∧ u ≠ q} = Set.Ioi x \ {q} := by ext u; simp
  have hm : MeasurableSet {u : ℝ | x < u ∧ u ≠ q} := by rw [e]; exact measurableSet_Ioi.diff (measurableSet_singleton q)
  rw [uniLaw_apply hm]
  have h1 : volume ({u : ℝ | x < u ∧ u ≠ q} ∩ Set.Icc (1 / 100) (99 / 100)) = ENNReal.ofReal (min (98 / 100) (99 / 100 - x)) := by
    have h2 : {u : ℝ | x < u ∧ u ≠ q} ∩ Set.Icc (1 / 100) (99 / 100) = (Set.Ioi x ∩ Set.Icc (1 / 100) (99 / 100)) \ {q} := by
      rw [e]; ext u; simp; tauto
    rw [h2, measure_sdiff_null (by simp)]
    by_cases hx1 : x < 1 / 100
    · have : Set.Ioi x ∩ Set.Icc (1 / 100 : ℝ) (99 / 100) = Set.Icc (1 / 100) (99 / 100) := by
        ext u; simp only [Set.mem_inter_iff, Set.mem_Ioi, Set.mem_Icc]; constructor
        · exact fun h => h.2
        · exact fun h => ⟨by linarith [h.1], h⟩
      rw [this, Real.volume_Icc, min_eq_left (by linarith)]
      norm_num
    · have : Set.Ioi x ∩ Set.Icc (1 / 100 : ℝ) (99 / 100) = Set.Ioc x (99 / 100) := by
        ext u; simp only [Set.mem_inter_iff, Set.mem_Ioi, Set.mem_Icc, Set.mem_Ioc]; constructor
        · exact fun h => ⟨h.1, h.2.2⟩
        · exact fun h => ⟨h.1, by linarith [h.1], h.2⟩
      rw [this, Real.volume_Ioc, min_eq_right (by linarith)]
  rw [h1, ← ENNReal.ofReal_inv_of_pos (by norm_num), ← ENNReal.ofReal_mul (by norm_num)]
  congr 1
  rw [min_def, min_def]
  split_ifs with h2 h3 h3 <;> linarith

theorem noise_above {g : Nat} (hg : 0 < g) (q : ℝ) :
    noiseLaw {p | 0 < p.1 + p.2 / g - 1 / 2 ∧ p.1 + p.2 / g - 1 / 2 ≠ q} =
      ENNReal.ofReal (∫ s in (0 : ℝ)..1, min 1 ((49 / 100 + s / g) / (98 / 100))) := by
  have hg' : (0 : ℝ) < g := by exact_mod_cast hg
  have hm : MeasurableSet {p : ℝ × ℝ | 0 < p.1 + p.2 / g - 1 / 2 ∧ p.1 + p.2 / g - 1 / 2 ≠ q} := by
    have hf : Measurable fun p : ℝ × ℝ => p.1 + p.2 / g - 1 / 2 := by fun_prop
    exact (measurableSet_lt measurable_const hf).inter ((hf (measurableSet_singleton q)).compl)
  rw [noiseLaw, Measure.prod_apply_symm hm, stdLaw, intervalIntegral.integral_of_le zero_le_one, ← integral_Icc_eq_integral_Ioc,
    ofReal_integral_eq_lintegral_ofReal]
  · refine setLIntegral_congr_fun measurableSet_Icc fun s hs => ?_
    have e : (fun u : ℝ => (u, s)) ⁻¹' {p : ℝ × ℝ | 0 < p.1 + p.2 / g - 1 / 2 ∧ p.1 + p.2 / g - 1 / 2 ≠ q} =
        {u | 1 / 2 - s / g < u ∧ u ≠ q - s / g + 1 / 2} := by
      ext u
      simp only [Set.mem_preimage, Set.mem_ofPred_eq]
      refine and_congr ⟨fun h => by linarith, fun h => by linarith⟩ (not_congr ⟨fun h => by linarith, fun h => by linarith⟩)
    have hs0 : 0 ≤ s / g := div_nonneg hs.1 hg'.le
    show uniLaw ((fun u : ℝ => (u, s)) ⁻¹' _) = _
    rw [e, uniLaw_above _ _ (by linarith)]
    congr 2
    ring
  · refine ContinuousOn.integrableOn_compact isCompact_Icc ?_
    fun_prop
  · refine (ae_restrict_iff' measurableSet_Icc).2 (Filter.Eventually.of_forall fun s hs => ?_)
    have hs0 : 0 ≤ s / g := div_nonneg hs.1 hg'.le
    exact le_min zero_le_one (by positivity)

/-- The integral for generations from the third on. -/
theorem above_late {g : Nat} (hg : 3 ≤ g) : ∫ s in (0 : ℝ)..1, min 1 ((49 / 100 + s / g) / (98 / 100)) = 1 / 2 + 25 / 49 / g := by
  have hg' : (3 : ℝ) ≤ g := by exact_mod_cast hg
  have : ∫ s in (0 : ℝ)..1, min 1 ((49 / 100 + s / g) / (98 / 100)) = ∫ s in (0 : ℝ)..1, (1 / 2 + s * (50 / 49 / g)) := by
    refine intervalIntegral.integral_congr fun s hs => ?_
    rw [Set.uIcc_of_le zero_le_one] at hs
    have h1 : s / g ≤ 1 / 3 := by
      rw [div_le_div_iff₀ (by linarith) (by norm_num)]
      linarith [hs.2]
    show min 1 _ = _
    rw [min_eq_right (by rw [div_le_one (by norm_num)]; linarith)]
    field_simp
    ring
  rw [this, intervalIntegral.integral_add (by simp) (Continuous.intervalIntegrable (by fun_prop) _ _), intervalIntegral.integral_mul_const, integral_id]
  simp
  ring

theorem above_split {a : ℝ} (h0 : 0 ≤ a) (h1 : a ≤ 1) {g : ℝ} (hg : 0 < g) (ha : a = 49 / 100 * g) :
    ∫ s in (0 : ℝ)..1, min 1 ((49 / 100 + s / g) / (98 / 100)) = a * (1 / 2) + a ^ 2 / 2 * (50 / 49 / g) + (1 - a) := by
  have hi : ∀ x y : ℝ, IntervalIntegrable (fun s : ℝ => min 1 ((49 / 100 + s / g) / (98 / 100))) volume x y := fun x y => by
    refine Continuous.intervalIntegrable ?_ x y
    fun_prop
  rw [← intervalIntegral.integral_add_adjacent_intervals (hi 0 a) (hi a 1)]
  have e1 : ∫ s in (0 : ℝ)..a, min 1 ((49 / 100 + s / g) / (98 / 100)) = ∫ s in (0 : ℝ)..a, (1 / 2 + s * (50 / 49 / g)) := by
    refine intervalIntegral.integral_congr fun s hs => ?_
    rw [Set.uIcc_of_le h0] at hs
    have h2 : s / g ≤ 49 / 100 := by rw [div_le_iff₀ hg]; linarith [hs.2]
    show min 1 _ = _
    rw [min_eq_right (by rw [div_le_one (by norm_num)]; linarith)]
    field_simp
    ring
  have e2 : ∫ s in a..(1 : ℝ), min 1 ((49 / 100 + s / g) / (98 / 100)) = ∫ s in a..(1 : ℝ), 1 := by
    refine intervalIntegral.integral_congr fun s hs => ?_
    rw [Set.uIcc_of_le h1] at hs
    have h2 : 49 / 100 ≤ s / g := by rw [le_div_iff₀ hg]; linarith [hs.1]
    show min 1 _ = _
    rw [min_eq_left (by rw [one_le_div (by norm_num)]; linarith)]
  rw [e1, e2, intervalIntegral.integral_add (by simp) (Continuous.intervalIntegrable (by fun_prop) _ _), intervalIntegral.integral_mul_const, integral_id]
  simp

/-- The means of the draws. -/
theorem uniLaw_mean : ∫ u, u ∂uniLaw = 1 / 2 := by
  rw [uniLaw, integral_smul_measure, integral_Icc_eq_integral_Ioc, ← intervalIntegral.integral_of_le (by norm_num), integral_id]
  rw [ENNReal.toReal_inv, ENNReal.toReal_ofReal (by norm_num)]
  norm_num

theorem stdLaw_mean : ∫ s, s ∂stdLaw = 1 / 2 := by
  rw [stdLaw, integral_Icc_eq_integral_Ioc, ← intervalIntegral.integral_of_le (by norm_num), integral_id]
  norm_num

/-! ## One attraction step -/

/-- Specification: what is stored for a candidate coordinate `p`. -/
noncomputable def boxed (lo up p : ℝ) : ℝ := if lo < p ∧ p < up then p else if up < p then up else lo

/-- Specification: where firefly at coordinate `a` is drawn to by a brighter one at coordinate `b` and distance `r`. -/
noncomputable def pulled (b0 γ r a b : ℝ) : ℝ := a + b0 * Real.exp (-γ * r ^ 2) * (b - a)

/-- Coordinate `d` of firefly `i` (0 if there is none or it is not a number). -/
def coord (st : St (Ext ℝ)) (i d : Nat) : ℝ :=
  match (st.pop[i]?).bind (·[d]?) with
  | some (.fin x) => x
  | _ => 0

theorem clamp_boxed {c : Cfg (Ext ℝ)} {lo up : ℝ} (hlo : c.lower = .fin lo) (hup : c.upper = .fin up) (hlt : lo < up) (p : ℝ) :
    clamp opsR c (.fin p) = .fin (boxed lo up p) := by
  unfold boxed
  have lt_fin : ∀ {a b : ℝ}, a < b → Fl.Lt (opsR.view (.fin a)) (opsR.view (.fin b)) :=
    fun h => Fl.lt_iff.1 ((fin_lt_fin expR sqrtR _).2 h)
  have hb := C78_bounds_test (A := opsR) c (.fin p) (by rw [hlo]; trivial) (by rw [hup]; trivial)
  by_cases h1 : lo < p ∧ p < up
  · rw [if_pos h1, hb.2.1 (by rw [hlo]; exact lt_fin h1.1) (by rw [hup]; exact lt_fin h1.2)]
  · rw [if_neg h1]
    by_cases h2 : up < p
    · rw [if_pos h2, hb.2.2.1 (by rw [hup]; exact lt_fin h2), hup]
    · rw [if_neg h2]
      by_cases h3 : p = up
      · subst h3
        rw [C78_upper_bound_teleports (A := opsR) c (.fin p) (by rw [hup]) (by rw [hlo, hup]; exact lt_fin hlt), hlo]
      · have h4 : p < up := lt_of_le_of_ne (not_lt.1 h2) h3
        have h5 : p ≤ lo := not_lt.1 fun h => h1 ⟨h, h4⟩
        unfold opsR
        rw [clamp_below expR sqrtR _ hlo hup h4 hlt, max_eq_left h5]

/-- The numbers of the configuration. -/
structure Numbers (c : Cfg (Ext ℝ)) (lo up a0 b0 γ : ℝ) : Prop where
  lower : c.lower = .fin lo
  upper : c.upper = .fin up
  order : lo < up
  alfa0 : c.alfa0 = .fin a0
  beta0 : c.beta0 = .fin b0
  gamma : c.gamma = .fin γ

/-- The new coordinate of an attracted firefly. -/
theorem new_coord {c : Cfg (Ext ℝ)} {f : List (Ext ℝ) → Ext ℝ} {dist : List (Ext ℝ) → List (Ext ℝ) → Except Panic (Ext ℝ)} {dr : Draws (Ext ℝ)}
    {lo up a0 b0 γ α : ℝ} (hc : Numbers c lo up a0 b0 γ) {g : Nat} (hg : 0 < g) {st st' : St (Ext ℝ)} {evs : List (Ev (Ext ℝ))}
    (h : generation opsR c f dist dr g st = .ok (st', evs)) (hα : st.alfa = .fin α) {i j : Nat} (hi : i < st.pop.length)
    (hl : LastBrighter opsR st.bright i c.populationSize j) {xi xj : List (Ext ℝ)} (hxi : st.pop[i]? = some xi) (hxj : st.pop[j]? = some xj)
    {r : ℝ} (hr : dist xi xj = .ok (.fin r)) {d : Nat} {a b : ℝ} (ha : xi[d]? = some (.fin a)) (hb : xj[d]? = some (.fin b))
    {u s : ℝ} (hu : dr.uni g i j d = .fin u) (hs : dr.dist g i j d = .fin s) :
    coord st' i d = boxed lo up (pulled b0 γ r a b + a0 * α * (u + s / g - 1 / 2) * (up - lo)) := by
  obtain ⟨xi', xj', y, dd, g1, g2, g3, g4, g5, g6⟩ := C86_last_brighter_wins h hi hl
  rw [hxi] at g1
  obtain rfl := Option.some.inj g1
  rw [hxj] at g2
  obtain rfl := Option.some.inj g2
  rw [hr] at g4
  obtain rfl := Except.ok.inj g4
  obtain ⟨b', hb', hy⟩ := g6 d _ ha
  rw [hb] at hb'
  obtain rfl := Option.some.inj hb'
  have hg0 : (g : ℝ) ≠ 0 := by exact_mod_cast hg.ne'
  have hdiv : opsR.div (.fin s) (opsR.ofNat g) = .fin (s / (g : ℝ)) := by
    show (if (g : ℝ) = 0 then (if s = 0 then Ext.nan else Ext.signed s) else Ext.fin (s / (g : ℝ))) = _
    rw [if_neg hg0]
  have hz : opsR.mul c.beta0 (opsR.expo (opsR.mul (opsR.mul opsR.minusOne c.gamma) (opsR.sq (.fin r)))) = .fin (b0 * Real.exp (-γ * r ^ 2)) := by
    rw [hc.beta0, hc.gamma]
    show Ext.fin (b0 * Real.exp (-1 * γ * (r * r))) = _
    congr 3
    ring
  rw [hz, hc.alfa0, hα, hu, hs, hdiv, hc.upper, hc.lower] at hy
  have hy' := hy.trans (congrArg (fun q => some (clamp opsR c q)) (candidate_eq (expo := expR) (sqrt := sqrtR) (maxv := (2 ^ 53 - 1) * 2 ^ 971)
    a (b0 * Real.exp (-γ * r ^ 2)) b a0 α u (s / (g : ℝ)) up lo))
  rw [clamp_boxed hc.lower hc.upper hc.order] at hy'
  unfold coord
  rw [g3, Option.bind_some, hy']
  show boxed lo up _ = _
  congr 1
  unfold pulled
  ring

/-- A generation whose draws `u ω`, `s ω` for the attracted firefly `i`, its brightest-indexed neighbour `j` and coordinate `d` are random;
`a`, `b` are their coordinates, `r` their distance, `α` the randomness coefficient. -/
structure Attracted {Ω : Type*} (c : Cfg (Ext ℝ)) (f : List (Ext ℝ) → Ext ℝ) (dist : List (Ext ℝ) → List (Ext ℝ) → Except Panic (Ext ℝ))
    (dr : Ω → Draws (Ext ℝ)) (g : Nat) (st : St (Ext ℝ)) (st' : Ω → St (Ext ℝ)) (i j d : Nat) (a b r α : ℝ) (u s : Ω → ℝ) : Prop where
  generation : ∀ ω, ∃ evs, generation opsR c f dist (dr ω) g st = .ok (st' ω, evs)
  coefficient : st.alfa = .fin α
  firefly : i < st.pop.length
  brighter : LastBrighter opsR st.bright i c.populationSize j
  distance : ∃ xi xj, st.pop[i]? = some xi ∧ st.pop[j]? = some xj ∧ dist xi xj = .ok (.fin r) ∧ xi[d]? = some (.fin a) ∧ xj[d]? = some (.fin b)
  uni : ∀ ω, (dr ω).uni g i j d = .fin (u ω)
  flight : ∀ ω, (dr ω).dist g i j d = .fin (s ω)

section random
variable {Ω : Type*} {c : Cfg (Ext ℝ)} {f : List (Ext ℝ) → Ext ℝ} {dist : List (Ext ℝ) → List (Ext ℝ) → Except Panic (Ext ℝ)}
  {dr : Ω → Draws (Ext ℝ)} {lo up a0 b0 γ : ℝ} {g : Nat} {st : St (Ext ℝ)} {st' : Ω → St (Ext ℝ)} {i j d : Nat} {a b r α : ℝ} {u s : Ω → ℝ}

theorem Attracted.coord (hc : Numbers c lo up a0 b0 γ) (hg : 0 < g) (h : Attracted c f dist dr g st st' i j d a b r α u s) (ω : Ω) :
    coord (st' ω) i d = boxed lo up (pulled b0 γ r a b + a0 * α * (u ω + s ω / g - 1 / 2) * (up - lo)) := by
  obtain ⟨evs, e⟩ := h.generation ω
  obtain ⟨xi, xj, h1, h2, h3, h4, h5⟩ := h.distance
  exact new_coord hc hg e h.coefficient h.firefly h.brighter h1 h2 h3 h4 h5 (h.uni ω) (h.flight ω)

/-- **C166, the mean step is not zero.** Whatever the objective and the fireflies: if the uniform draw has mean 1/2 (as `gen_range(0.01..0.99)`
has) and the flight length has mean `m`, the mean of the new coordinate of an attracted firefly (as long as it stays in the box) is where the
brighter firefly draws it *plus* `alfa0 * alfa * (upper - lower) * m / generation`. -/
theorem C166_mean [MeasurableSpace Ω] {ν : Measure Ω} [IsProbabilityMeasure ν] (hc : Numbers c lo up a0 b0 γ) (hg : 0 < g)
    (h : Attracted c f dist dr g st st' i j d a b r α u s) (hu : Integrable u ν) (hs : Integrable s ν) {m : ℝ} (hu1 : ∫ ω, u ω ∂ν = 1 / 2)
    (hs1 : ∫ ω, s ω ∂ν = m)
    (hbox : ∀ᵐ ω ∂ν, lo < pulled b0 γ r a b + a0 * α * (u ω + s ω / g - 1 / 2) * (up - lo) ∧
      pulled b0 γ r a b + a0 * α * (u ω + s ω / g - 1 / 2) * (up - lo) < up) :
    ∫ ω, coord (st' ω) i d ∂ν = pulled b0 γ r a b + a0 * α * (up - lo) * m / g := by
  have e : ∀ᵐ ω ∂ν, coord (st' ω) i d = pulled b0 γ r a b + (a0 * α * (up - lo)) * (u ω + s ω * (g : ℝ)⁻¹ - 1 / 2) := hbox.mono fun ω hω => by
    rw [h.coord hc hg ω, boxed, if_pos hω, div_eq_mul_inv]
    ring
  rw [integral_congr_ae e]
  have i1 : Integrable (fun ω => u ω + s ω * (g : ℝ)⁻¹) ν := hu.add (hs.mul_const _)
  have i2 : Integrable (fun ω => u ω + s ω * (g : ℝ)⁻¹ - 1 / 2) ν := i1.sub (integrable_const _)
  rw [integral_add (integrable_const _) (i2.const_mul _), integral_const_mul, integral_sub i1 (integrable_const _),
    integral_add hu (hs.mul_const _), integral_mul_const, hu1, hs1]
  simp
  rw [div_eq_mul_inv]
  ring

/-- **C166, with the default flight lengths** (`Standard`, mean 1/2) the excess is `alfa0 * alfa * (upper - lower) / (2 * generation)`. -/
theorem C166_default_mean [MeasurableSpace Ω] {ν : Measure Ω} [IsProbabilityMeasure ν] (hc : Numbers c lo up a0 b0 γ) (hg : 0 < g)
    (h : Attracted c f dist dr g st st' i j d a b r α u s) (hus : MeasurePreserving (fun ω => (u ω, s ω)) ν noiseLaw)
    (hbox : ∀ᵐ ω ∂ν, lo < pulled b0 γ r a b + a0 * α * (u ω + s ω / g - 1 / 2) * (up - lo) ∧
      pulled b0 γ r a b + a0 * α * (u ω + s ω / g - 1 / 2) * (up - lo) < up) :
    ∫ ω, coord (st' ω) i d ∂ν = pulled b0 γ r a b + a0 * α * (up - lo) / (2 * g) := by
  have iu : Integrable (fun x : ℝ => x) uniLaw := by
    refine Integrable.smul_measure ?_ (by simp)
    exact continuousOn_id.integrableOn_compact isCompact_Icc
  have is : Integrable (fun x : ℝ => x) stdLaw := continuousOn_id.integrableOn_compact isCompact_Icc
  have m1 : MeasurePreserving u ν uniLaw := measurePreserving_fst.comp hus
  have m2 : MeasurePreserving s ν stdLaw := measurePreserving_snd.comp hus
  have e1 : ∫ ω, u ω ∂ν = 1 / 2 := by
    rw [← uniLaw_mean, ← m1.map_eq, integral_map m1.measurable.aemeasurable (by fun_prop)]
  have e2 : ∫ ω, s ω ∂ν = 1 / 2 := by
    rw [← stdLaw_mean, ← m2.map_eq, integral_map m2.measurable.aemeasurable (by fun_prop)]
  have j1 : Integrable u ν := by
    have := (m1.integrable_comp iu.aestronglyMeasurable).2 iu
    exact this
  have j2 : Integrable s ν := by
    have := (m2.integrable_comp is.aestronglyMeasurable).2 is
    exact this
  rw [C166_mean hc hg h j1 j2 e1 e2 hbox]
  have : (g : ℝ) ≠ 0 := by exact_mod_cast hg.ne'
  field_simp

/-- **C166, more steps up than down.** With the default flight lengths (`Standard`) the new coordinate exceeds the place the brighter firefly
draws it to (if that is in the box) with probability exactly `1/2 + 25/(49 g)` in generation `g ≥ 3`, 0.8775 in generation 1 and 0.755 in
generation 2 – whatever the objective, the randomness coefficient and the box. -/
theorem C166_up [MeasurableSpace Ω] {ν : Measure Ω} (hc : Numbers c lo up a0 b0 γ) (hg : 0 < g)
    (h : Attracted c f dist dr g st st' i j d a b r α u s) (hus : MeasurePreserving (fun ω => (u ω, s ω)) ν noiseLaw)
    (ht : lo < pulled b0 γ r a b ∧ pulled b0 γ r a b < up) (hα : 0 < a0 * α) :
    ν {ω | pulled b0 γ r a b < coord (st' ω) i d} =
      ENNReal.ofReal (if g = 1 then 0.8775 else if g = 2 then 0.755 else 1 / 2 + 25 / 49 / g) := by
  have hs : 0 < a0 * α * (up - lo) := mul_pos hα (by linarith [hc.order])
  have hm : MeasurableSet {p : ℝ × ℝ | 0 < p.1 + p.2 / g - 1 / 2 ∧ p.1 + p.2 / g - 1 / 2 ≠ (up - pulled b0 γ r a b) / (a0 * α * (up - lo))} := by
    have hf : Measurable fun p : ℝ × ℝ => p.1 + p.2 / g - 1 / 2 := by fun_prop
    exact (measurableSet_lt measurable_const hf).inter ((hf (measurableSet_singleton _)).compl)
  have e : {ω | pulled b0 γ r a b < coord (st' ω) i d} = (fun ω => (u ω, s ω)) ⁻¹'
      {p : ℝ × ℝ | 0 < p.1 + p.2 / g - 1 / 2 ∧ p.1 + p.2 / g - 1 / 2 ≠ (up - pulled b0 γ r a b) / (a0 * α * (up - lo))} := by
    ext ω
    simp only [Set.mem_ofPred_eq, Set.mem_preimage]
    rw [h.coord hc hg ω, ne_eq, eq_div_iff hs.ne']
    generalize u ω + s ω / g - 1 / 2 = n
    generalize pulled b0 γ r a b = t at ht ⊢
    have e1 : a0 * α * n * (up - lo) = n * (a0 * α * (up - lo)) := by ring
    rw [e1]
    unfold boxed
    constructor
    · intro hlt
      split_ifs at hlt with h1 h2
      · refine ⟨pos_of_mul_pos_left (by linarith : 0 < n * (a0 * α * (up - lo))) hs.le, by linarith [h1.2]⟩
      · refine ⟨pos_of_mul_pos_left (by linarith : 0 < n * (a0 * α * (up - lo))) hs.le, by linarith⟩
      · linarith
    · rintro ⟨hn, hne⟩
      have h0 : 0 < n * (a0 * α * (up - lo)) := mul_pos hn hs
      split_ifs with h1 h2
      · linarith
      · exact ht.2
      · exact absurd (by
          by_contra hne2
          rcases lt_or_gt_of_ne (fun hh => hne2 hh : n * (a0 * α * (up - lo)) ≠ up - t) with h3 | h3
          · exact h1 ⟨by linarith, by linarith⟩
          · exact h2 (by linarith)) hne
  rw [e, hus.measure_preimage hm.nullMeasurableSet, noise_above hg]
  congr 1
  split_ifs with h1 h2
  · subst h1
    rw [above_split (a := 49 / 100) (by norm_num) (by norm_num) (by norm_num) (by norm_num)]
    norm_num
  · subst h2
    rw [above_split (a := 98 / 100) (by norm_num) (by norm_num) (by norm_num) (by norm_num)]
    norm_num
  · exact above_late (by omega)

end random

/-- **C166, the only unbiased step.** The step of a firefly without a brighter one has mean 0: if the draw has mean 0 (as `gen_range(-1.0..1.0)`
has) its mean position after the generation is where it was, as long as it stays in the box. -/
theorem C166_walk_mean {Ω : Type*} [MeasurableSpace Ω] {ν : Measure Ω} [IsProbabilityMeasure ν] {c : Cfg (Ext ℝ)} {f : List (Ext ℝ) → Ext ℝ}
    {dist : List (Ext ℝ) → List (Ext ℝ) → Except Panic (Ext ℝ)} {dr : Ω → Draws (Ext ℝ)} {lo up a0 b0 γ α : ℝ} {g : Nat} {st : St (Ext ℝ)}
    {st' : Ω → St (Ext ℝ)} (hc : Numbers c lo up a0 b0 γ) (h : ∀ ω, ∃ evs, generation opsR c f dist (dr ω) g st = .ok (st' ω, evs))
    (hα : st.alfa = .fin α) {i : Nat} {x : List (Ext ℝ)} (hx : st.pop[i]? = some x)
    (hno : ∀ k, k < c.populationSize → ∀ bi bk, st.bright[i]? = some bi → st.bright[k]? = some bk → opsR.lt bi bk = false)
    {d : Nat} {a : ℝ} (ha : x[d]? = some (.fin a)) {w : Ω → ℝ} (hw : ∀ ω, (dr ω).brown g i d = .fin (w ω)) (hwi : Integrable w ν)
    (hw0 : ∫ ω, w ω ∂ν = 0)
    (hbox : ∀ᵐ ω ∂ν, lo < a + w ω * α ^ 2 * Real.exp (-(b0 * γ)) ∧ a + w ω * α ^ 2 * Real.exp (-(b0 * γ)) < up) :
    ∫ ω, coord (st' ω) i d ∂ν = a := by
  have e : ∀ᵐ ω ∂ν, coord (st' ω) i d = a + (α ^ 2 * Real.exp (-(b0 * γ))) * w ω := hbox.mono fun ω hω => by
    obtain ⟨evs, hg⟩ := h ω
    obtain ⟨y, hy, -, hd⟩ := C86_brightest_walks hg hx hno
    have hd' := hd d _ ha
    rw [hw, hα, hc.beta0, hc.gamma] at hd'
    have e1 : opsR.add (.fin a) (opsR.mul (opsR.mul (.fin (w ω)) (opsR.sq (.fin α))) (opsR.expo (opsR.mul (opsR.mul opsR.minusOne (.fin b0)) (.fin γ)))) =
        .fin (a + w ω * α ^ 2 * Real.exp (-(b0 * γ))) := by
      show Ext.fin (a + w ω * (α * α) * Real.exp (-1 * b0 * γ)) = _
      rw [show -1 * b0 * γ = -(b0 * γ) by ring, pow_two]
    rw [e1, clamp_boxed hc.lower hc.upper hc.order, boxed, if_pos hω] at hd'
    unfold coord
    rw [hy, Option.bind_some, hd']
    show a + _ = _
    ring
  rw [integral_congr_ae e, integral_add (integrable_const _) (hwi.const_mul _), integral_const_mul, hw0]
  simp

/-- **C166, how much it adds up to.** The upward drifts of the generations `1, 2, …` (with `alfa = alfa0 * delta^generation`, C79, C81) sum to
`alfa0^2 * (upper - lower) / 2 * -log (1 - delta)`. -/
theorem C166_total_drift (a0 lo up : ℝ) {δ : ℝ} (h0 : 0 ≤ δ) (h1 : δ < 1) :
    HasSum (fun k : Nat => a0 * (a0 * δ ^ (k + 1)) * (up - lo) * (1 / 2) / ((k + 1 : Nat) : ℝ)) (a0 ^ 2 * (up - lo) / 2 * -Real.log (1 - δ)) := by
  have h := (Real.hasSum_pow_div_log_of_abs_lt_one (x := δ) (by rw [abs_of_nonneg h0]; exact h1)).mul_left (a0 ^ 2 * (up - lo) / 2)
  refine h.congr_fun ?_ |> fun h => h
  intro k
  push_cast
  ring

/-- **C166, the default configuration.** With the default coefficients (`alfa0 = 1`, `delta = 0.97`, box of width 10) the upward drifts sum
to more than 17, although the box is 10 wide; those of the first ten generations alone exceed its width. -/
theorem C166_default_drift : 17 < (1 : ℝ) ^ 2 * (5 - -5) / 2 * -Real.log (1 - 97 / 100) ∧
    (10 : ℝ) < ((List.range 10).map fun k => (1 : ℝ) * (1 * (97 / 100) ^ (k + 1)) * (5 - -5) * (1 / 2) / ((k + 1 : Nat) : ℝ)).sum := by
  refine ⟨?_, by norm_num [List.range_succ]⟩
  have h : Real.log (1 - 97 / 100) < -(17 / 5) := by
    rw [Real.log_lt_iff_lt_exp (by norm_num), Real.exp_neg, lt_inv_comm₀ (by norm_num) (Real.exp_pos _)]
    have : Real.exp (17 / 5) = Real.exp 1 ^ (17 / 5 : ℝ) := by rw [← Real.exp_mul, one_mul]
    have h2 : Real.exp (17 / 5) ^ 5 = Real.exp 1 ^ 17 := by
      rw [← Real.exp_nat_mul, ← Real.exp_nat_mul]; norm_num
    have h3 : Real.exp 1 ^ 17 < 2.7182818286 ^ 17 := pow_lt_pow_left₀ Real.exp_one_lt_d9 (Real.exp_pos _).le (by norm_num)
    have h4 : (2.7182818286 : ℝ) ^ 17 < (1 - 97 / 100 : ℝ)⁻¹ ^ 5 := by norm_num
    exact lt_of_pow_lt_pow_left₀ 5 (by norm_num) (by rw [h2]; exact h3.trans h4)
  linarith

/-! ## Examples -/

theorem generation_returns {c : Cfg (Ext ℝ)} {f : List (Ext ℝ) → Ext ℝ} {dist : List (Ext ℝ) → List (Ext ℝ) → Except Panic (Ext ℝ)} {dr : Draws (Ext ℝ)}
    {dim g : Nat} {st : St (Ext ℝ)} (hd : ∀ x y : List (Ext ℝ), x.length = dim → y.length = dim → ∃ z, dist x y = .ok z)
    (hg : GoodPop c dim st.pop) (hbl : st.bright.length = st.pop.length) : ∃ st' evs, generation opsR c f dist dr g st = .ok (st', evs) := by
  obtain ⟨ys, hys⟩ := moveAll_returns (A := opsR) (dr := dr) (g := g) (alfa := st.alfa) hd hbl hg (n := st.pop.length) (i := 0) (by omega)
  obtain ⟨l1, -⟩ := moveAll_ok hys
  have hpos : 0 < ys.length := by rw [l1]; exact List.length_pos_iff.2 hg.1
  have hmax : brightest opsR 0 ((brightness opsR f ys).take c.populationSize) 0 opsR.zero < ys.length := by
    refine brightest_le opsR _ _ _ _ _ hpos ?_
    simp [brightness]
  unfold generation
  rw [except_bind_of_ok hys]
  simp only
  rw [except_bind_of_ok (index_ok.2 (List.getElem?_eq_getElem hmax))]
  exact ⟨_, _, rfl⟩

/-- Two fireflies at 3 and 1 on the line, the second one brighter; generation 5 with randomness coefficient 1/100. -/
noncomputable def biasSt : St (Ext ℝ) := { pop := [[.fin 3], [.fin 1]], bright := [.fin (1 / 9), .fin 1], alfa := .fin (1 / 100), best := .fin 1 }

noncomputable def biasCfg : Cfg (Ext ℝ) := { defaultCfg with dimensions := 1, populationSize := 2 }

noncomputable def biasDr (p : ℝ × ℝ) : Draws (Ext ℝ) := { uni := fun _ _ _ _ => .fin p.1, dist := fun _ _ _ _ => .fin p.2, brown := fun _ _ _ => .fin (p.2 - 1 / 2) }

/-- The distance: always 2 here. -/
def biasDist (_ _ : List (Ext ℝ)) : Except Panic (Ext ℝ) := .ok (.fin 2)

theorem biasGen (p : ℝ × ℝ) : ∃ st' evs, generation opsR biasCfg sphereR biasDist (biasDr p) 5 biasSt = .ok (st', evs) :=
  generation_returns (dim := 1) (fun _ _ _ _ => ⟨_, rfl⟩) ⟨by simp [biasSt], by show 2 ≤ 2; omega, by simp [biasSt]⟩ rfl

/-- The state after it. -/
noncomputable def biasNext (p : ℝ × ℝ) : St (Ext ℝ) := (biasGen p).choose

theorem biasAttracted : Attracted biasCfg sphereR biasDist biasDr 5 biasSt biasNext 0 1 0 3 1 2 (1 / 100) Prod.fst Prod.snd where
  generation p := (biasGen p).choose_spec
  coefficient := rfl
  firefly := by show 0 < 2; omega
  brighter := ⟨by show 1 < 2; omega, ⟨_, _, rfl, rfl, (fin_lt_fin expR sqrtR _).2 (by norm_num)⟩, fun k h1 (h2 : k < 2) => by omega⟩
  distance := ⟨_, _, rfl, rfl, rfl, rfl, rfl⟩
  uni _ := rfl
  flight _ := rfl

theorem biasNumbers : Numbers biasCfg (-5) 5 1 1 (1 / 100) := ⟨rfl, rfl, by norm_num, rfl, rfl, rfl⟩

theorem biasPulled : 1 < pulled 1 (1 / 100) 2 3 1 ∧ pulled 1 (1 / 100) 2 3 1 < 3 := by
  have h1 : Real.exp (-(1 / 100) * 2 ^ 2) < 1 := by rw [Real.exp_lt_one_iff]; norm_num
  have h2 := Real.exp_pos (-(1 / 100) * 2 ^ 2)
  unfold pulled
  constructor <;> linarith

theorem biasBox : ∀ᵐ p ∂noiseLaw, (-5 : ℝ) < pulled 1 (1 / 100) 2 3 1 + 1 * (1 / 100) * (p.1 + p.2 / (5 : Nat) - 1 / 2) * (5 - -5) ∧
    pulled 1 (1 / 100) 2 3 1 + 1 * (1 / 100) * (p.1 + p.2 / (5 : Nat) - 1 / 2) * (5 - -5) < 5 := by
  have m1 : ∀ᵐ u ∂uniLaw, u ∈ Set.Icc (1 / 100 : ℝ) (99 / 100) := by
    refine Measure.ae_smul_measure ?_ _
    exact ae_restrict_mem measurableSet_Icc
  have m2 : ∀ᵐ s ∂stdLaw, s ∈ Set.Icc (0 : ℝ) 1 := ae_restrict_mem measurableSet_Icc
  have h1 : ∀ᵐ p ∂noiseLaw, p.1 ∈ Set.Icc (1 / 100 : ℝ) (99 / 100) := Measure.quasiMeasurePreserving_fst.ae m1
  have h2 : ∀ᵐ p ∂noiseLaw, p.2 ∈ Set.Icc (0 : ℝ) 1 := Measure.quasiMeasurePreserving_snd.ae m2
  filter_upwards [h1, h2] with p a b
  obtain ⟨q1, q2⟩ := biasPulled
  obtain ⟨a1, a2⟩ := a
  obtain ⟨b1, b2⟩ := b
  push_cast
  constructor <;> linarith

/-- Hypotheses of C166. -/
example := C166_up biasNumbers (by norm_num) biasAttracted (MeasurePreserving.id noiseLaw) ⟨by linarith [biasPulled.1], by linarith [biasPulled.2]⟩ (by norm_num)
example := C166_default_mean biasNumbers (by norm_num) biasAttracted (MeasurePreserving.id noiseLaw) biasBox
example := C166_total_drift 1 (-5) 5 (δ := 97 / 100) (by norm_num) (by norm_num)


theorem biasWalkBox (p : ℝ × ℝ) (h : p.2 ∈ Set.Icc (0 : ℝ) 1) : (-5 : ℝ) < 1 + (p.2 - 1 / 2) * (1 / 100) ^ 2 * Real.exp (-(1 * (1 / 100))) ∧
    1 + (p.2 - 1 / 2) * (1 / 100) ^ 2 * Real.exp (-(1 * (1 / 100))) < 5 := by
  have h1 : Real.exp (-(1 * (1 / 100))) ≤ 1 := by rw [Real.exp_le_one_iff]; norm_num
  have h2 := Real.exp_pos (-(1 * (1 / 100)))
  obtain ⟨b1, b2⟩ := h
  constructor <;> nlinarith

theorem biasFlight : Integrable (fun p : ℝ × ℝ => p.2 - 1 / 2) noiseLaw ∧ ∫ p, (p.2 - 1 / 2) ∂noiseLaw = 0 := by
  have i1 : Integrable (fun x : ℝ => x) stdLaw := continuousOn_id.integrableOn_compact isCompact_Icc
  have i2 : Integrable (fun p : ℝ × ℝ => p.2) noiseLaw := by
    have m2 : MeasurePreserving (Prod.snd : ℝ × ℝ → ℝ) noiseLaw stdLaw := measurePreserving_snd
    exact (m2.integrable_comp i1.aestronglyMeasurable).2 i1
  refine ⟨i2.sub (integrable_const _), ?_⟩
  rw [integral_sub i2 (integrable_const _)]
  have : ∫ p : ℝ × ℝ, p.2 ∂noiseLaw = ∫ s, s ∂stdLaw := by
    have m2 : MeasurePreserving (Prod.snd : ℝ × ℝ → ℝ) noiseLaw stdLaw := measurePreserving_snd
    rw [← m2.map_eq, integral_map m2.measurable.aemeasurable (by fun_prop)]
  rw [this, stdLaw_mean]
  simp

example := C166_walk_mean (ν := noiseLaw) (i := 1) (x := [.fin 1]) (a := 1) (d := 0) (w := fun p => p.2 - 1 / 2) biasNumbers biasAttracted.generation rfl rfl
  (fun k (hk : k < 2) bi bk h1 h2 => by
    obtain rfl : Ext.fin 1 = bi := Option.some.inj h1
    rcases k with _ | _ | k
    · obtain rfl : Ext.fin (1 / 9) = bk := Option.some.inj h2
      exact Bool.eq_false_iff.2 fun h => absurd ((fin_lt_fin expR sqrtR _).1 h) (by norm_num)
    · obtain rfl : Ext.fin 1 = bk := Option.some.inj h2
      exact Bool.eq_false_iff.2 fun h => absurd ((fin_lt_fin expR sqrtR _).1 h) (by norm_num)
    · omega)
  rfl (fun _ => rfl) biasFlight.1 biasFlight.2
  ((Measure.quasiMeasurePreserving_snd.ae (ae_restrict_mem measurableSet_Icc : ∀ᵐ s ∂stdLaw, s ∈ Set.Icc (0 : ℝ) 1)).mono fun p hp => biasWalkBox p hp)

end Ecrs.Ff
