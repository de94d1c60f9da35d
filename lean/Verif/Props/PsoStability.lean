import Verif.PsoMoments
import Verif.Props.Pso2

/-!
# C153: do particles settle once the bests no longer change?

The classical stability analysis of particle swarm optimisation, proved of the code: exact real arithmetic, independent uniform samples.
-/

set_option linter.unusedSectionVars false

namespace Ecrs.Props
open Ecrs Ecrs.Pso MeasureTheory ProbabilityTheory Filter Topology

/-- Specification: no point improves on the best value of particle `k` or on the swarm's best, and in coordinate `d` the particle is at `x`
with velocity `v`, its own best is at `p` and the swarm's best is at `g`. -/
structure Stagnant {K : Type} [LinearOrder K] (f : List ℝ → Fl K) (s : Swarm ℝ K) (k d : Nat) (x v p g : ℝ) : Prop where
  particle : ∃ q, s.particles[k]? = some q ∧ q.position[d]? = some x ∧ q.velocity[d]? = some v ∧ q.bestPosition[d]? = some p ∧
    ∀ z, ¬ Fl.lt (f z) q.bestValue
  swarm : s.bestPosition[d]? = some g
  best : ∀ z, ¬ Fl.lt (f z) (f s.bestPosition)

/-- Specification: coordinate `d` of the position of particle `k` is `x`. -/
def At {K : Type} (s : Swarm ℝ K) (k d : Nat) (x : ℝ) : Prop := ∃ q, s.particles[k]? = some q ∧ q.position[d]? = some x

variable {K : Type} [LinearOrder K]

theorem foldl_bestStep_stuck (f : List ℝ → Fl K) (b : List ℝ × Fl K) (h : ∀ z, ¬ Fl.lt (f z) (f b.1)) (qs : List (Particle ℝ K)) :
    qs.foldl (bestStep f) b = b := by
  induction qs with
  | nil => rfl
  | cons q qs ih =>
    rw [List.foldl_cons]
    have : bestStep f b q = b := by unfold bestStep; rw [if_neg (h _)]
    rw [this, ih]

/-- One iteration of a stagnant particle. -/
theorem Stagnant.step {f : List ℝ → Fl K} {s : Swarm ℝ K} {k d : Nat} {x v p g : ℝ} (h : Stagnant f s k d x v p g) (c : Coeffs ℝ)
    (draw : Nat → Nat → ℝ × ℝ) :
    Stagnant f (s.iterate c f draw) k d
      (x + (c.inertia * v + c.cognitive * (draw k d).1 * (p - x) + c.social * (draw k d).2 * (g - x)))
      (c.inertia * v + c.cognitive * (draw k d).1 * (p - x) + c.social * (draw k d).2 * (g - x)) p g := by
  obtain ⟨⟨q, hq, hx, hv, hp, hbest⟩, hg, hsw⟩ := h
  have hsb : (s.iterate c f draw).bestPosition = s.bestPosition := by
    show (List.foldl (bestStep f) (s.bestPosition, s.bestValue) _).1 = _
    rw [foldl_bestStep_stuck f _ hsw]
  refine ⟨?_, by rw [hsb]; exact hg, by rw [hsb]; exact hsw⟩
  obtain ⟨q', hq', hv', hx', -⟩ := C119_movement c f draw s k d q hq v x p g hv hx hp hg
  refine ⟨q', hq', hx', hv', ?_⟩
  rw [iterate_particle, hq] at hq'
  have e := Option.some.inj hq'
  have hup : q'.bestPosition = q.bestPosition ∧ q'.bestValue = q.bestValue := by
    rw [← e]
    unfold Particle.updatePosition Particle.updateVelocity
    simp only
    rw [if_neg (hbest _)]
    exact ⟨rfl, rfl⟩
  rw [hup.1, hup.2]
  exact ⟨hp, hbest⟩

/-- Position and velocity of a stagnant particle in one coordinate. -/
noncomputable def orbit (c : Coeffs ℝ) (draw : Nat → Nat → Nat → ℝ × ℝ) (k d : Nat) (x v p g : ℝ) : Nat → ℝ × ℝ
  | 0 => (x, v)
  | t + 1 =>
    let xv := orbit c draw k d x v p g t
    let v' := c.inertia * xv.2 + c.cognitive * (draw (t + 1) k d).1 * (p - xv.1) + c.social * (draw (t + 1) k d).2 * (g - xv.1)
    (xv.1 + v', v')

theorem Stagnant.orbit {f : List ℝ → Fl K} {s : Swarm ℝ K} {k d : Nat} {x v p g : ℝ} (h : Stagnant f s k d x v p g) (c : Coeffs ℝ)
    (draw : Nat → Nat → Nat → ℝ × ℝ) (t : Nat) :
    Stagnant f (swarmAfter c f draw s t) k d (orbit c draw k d x v p g t).1 (Props.orbit c draw k d x v p g t).2 p g := by
  induction t with
  | zero => exact h
  | succ t ih => exact ih.step c (draw (t + 1))

/-- The point between the own best and the swarm's best around which the particle moves. -/
noncomputable def centre (c : Coeffs ℝ) (p g : ℝ) : ℝ := (c.cognitive * p + c.social * g) / (c.cognitive + c.social)

/-- The deviation from the centre, preceded by the point the particle would have come from. -/
noncomputable def deviation {Ω : Type} (c : Coeffs ℝ) (D : Ω → Nat → Nat → Nat → ℝ × ℝ) (k d : Nat) (x v p g : ℝ) : Nat → Ω → ℝ
  | 0, _ => x - v - centre c p g
  | t + 1, ω => (orbit c (D ω) k d x v p g t).1 - centre c p g

section
variable {Ω : Type} [MeasurableSpace Ω] {P : Measure Ω} {D : Ω → Nat → Nat → Nat → ℝ × ℝ} {c : Coeffs ℝ} {k d : Nat} {x v p g : ℝ}

theorem orbit_velocity (t : Nat) (ω : Ω) :
    (orbit c (D ω) k d x v p g t).2 = deviation c D k d x v p g (t + 1) ω - deviation c D k d x v p g t ω := by
  cases t with
  | zero => simp only [deviation, orbit]; ring
  | succ t => simp only [deviation, orbit]; ring

theorem deviation_step (hc : c.cognitive + c.social ≠ 0) (t : Nat) (ω : Ω) :
    deviation c D k d x v p g (t + 2) ω =
      (1 + c.inertia - (c.cognitive + c.social) / 2) * deviation c D k d x v p g (t + 1) ω +
      (-c.inertia) * deviation c D k d x v p g t ω +
      (sample D (t + 1, k, d, false) ω - 1 / 2) * (c.cognitive * ((p - centre c p g) - deviation c D k d x v p g (t + 1) ω)) +
      (sample D (t + 1, k, d, true) ω - 1 / 2) * (c.social * ((g - centre c p g) - deviation c D k d x v p g (t + 1) ω)) := by
  have e1 : deviation c D k d x v p g (t + 2) ω = deviation c D k d x v p g (t + 1) ω +
      (c.inertia * (orbit c (D ω) k d x v p g t).2 +
        c.cognitive * (D ω (t + 1) k d).1 * (p - (orbit c (D ω) k d x v p g t).1) +
        c.social * (D ω (t + 1) k d).2 * (g - (orbit c (D ω) k d x v p g t).1)) := by
    simp only [deviation, orbit]; ring
  have e2 : (orbit c (D ω) k d x v p g t).1 = deviation c D k d x v p g (t + 1) ω + centre c p g := by
    simp only [deviation]; ring
  have e3 : c.cognitive * (p - centre c p g) + c.social * (g - centre c p g) = 0 := by
    unfold centre; field_simp; ring
  rw [e1, e2, orbit_velocity]
  simp only [sample, if_true, Bool.false_eq_true, if_false]
  linear_combination (1 / 2) * e3

theorem deviation_past [IsProbabilityMeasure P] (t : Nat) (ht : t ≤ 1) : Past P D 0 (deviation c D k d x v p g t) := by
  have : deviation c D k d x v p g t = fun _ => if t = 0 then x - v - centre c p g else x - centre c p g := by
    funext ω
    rcases t with _ | _ | t
    · simp [deviation]
    · simp [deviation, orbit]
    · omega
  rw [this]
  exact Past.const _

theorem deviation_moments (hD : FairDraws P D) (hc : c.cognitive + c.social ≠ 0) :
    Moments (1 + c.inertia - (c.cognitive + c.social) / 2) (-c.inertia) ((c.cognitive ^ 2 + c.social ^ 2) / 12)
      ((c.cognitive ^ 2 * (p - centre c p g) + c.social ^ 2 * (g - centre c p g)) / 12)
      ((c.cognitive ^ 2 * (p - centre c p g) ^ 2 + c.social ^ 2 * (g - centre c p g) ^ 2) / 12)
      (fun t => ∫ ω, deviation c D k d x v p g t ω ∂P) (fun t => ∫ ω, deviation c D k d x v p g t ω ^ 2 ∂P)
      (fun t => ∫ ω, deviation c D k d x v p g (t + 1) ω * deviation c D k d x v p g t ω ∂P) := by
  have := hD.isProbability
  exact orbit_moments hD (i := fun t => (t + 1, k, d, false)) (j := fun t => (t + 1, k, d, true)) (fun _ => rfl) (fun _ => rfl)
    (fun _ => by simp) (deviation_past 0 (by omega)) (deviation_past 1 le_rfl) (deviation_step hc)

theorem deviation_all_past (hD : FairDraws P D) (hc : c.cognitive + c.social ≠ 0) (t : Nat) :
    Past P D t (deviation c D k d x v p g (t + 1)) := by
  have := hD.isProbability
  exact (orbit_past hD (i := fun t => (t + 1, k, d, false)) (j := fun t => (t + 1, k, d, true)) (fun _ => rfl) (fun _ => rfl)
    (deviation_past 0 (by omega)) (deviation_past 1 le_rfl) (deviation_step hc) t).2

/-- Specification: the classical region in which the mean position converges: `|w| < 1` and `0 < φ₁ + φ₂ < 4 (1 + w)`. -/
def MeanStable (c : Coeffs ℝ) : Prop :=
  |c.inertia| < 1 ∧ 0 < c.cognitive + c.social ∧ c.cognitive + c.social < 4 * (1 + c.inertia)

theorem MeanStable.triangle (h : MeanStable c) : Triangle (1 + c.inertia - (c.cognitive + c.social) / 2) (-c.inertia) := by
  obtain ⟨h1, h2, h3⟩ := h
  rw [abs_lt] at h1
  refine ⟨by linarith, by linarith, ?_⟩
  rw [abs_lt]; constructor <;> linarith

/-- Specification: the bound on the coefficients that separates settling from spreading,
`(φ₁² + φ₂²)(1 + w) < 3 (1 - w)(φ₁ + φ₂)(4 (1 + w) - (φ₁ + φ₂))`. -/
def SquareStable (c : Coeffs ℝ) : Prop :=
  (c.cognitive ^ 2 + c.social ^ 2) * (1 + c.inertia) <
    3 * (1 - c.inertia) * (c.cognitive + c.social) * (4 * (1 + c.inertia) - (c.cognitive + c.social))

/-- Specification: the coefficients lie beyond that bound. -/
def SquareUnstable (c : Coeffs ℝ) : Prop :=
  3 * (1 - c.inertia) * (c.cognitive + c.social) * (4 * (1 + c.inertia) - (c.cognitive + c.social)) <
    (c.cognitive ^ 2 + c.social ^ 2) * (1 + c.inertia)

variable {f : List ℝ → Fl K} {s : Swarm ℝ K}

/-- **C153, means.** While neither the particle's own best nor the swarm's best changes, every coordinate of the particle has a mean that
converges to the weighted middle `(c₁ p + c₂ g) / (c₁ + c₂)` of the two bests, if `|w| < 1` and `0 < c₁ + c₂ < 4 (1 + w)`. -/
theorem C153_mean (hD : FairDraws P D) (hc : MeanStable c) (hs : Stagnant f s k d x v p g) :
    ∃ X : Nat → Ω → ℝ, (∀ t ω, At (swarmAfter c f (D ω) s t) k d (X t ω)) ∧
      Tendsto (fun t => ∫ ω, X t ω ∂P) atTop (𝓝 ((c.cognitive * p + c.social * g) / (c.cognitive + c.social))) := by
  have := hD.isProbability
  refine ⟨fun t ω => (orbit c (D ω) k d x v p g t).1, fun t ω => ?_, ?_⟩
  · obtain ⟨⟨q, hq, hx, -⟩, -⟩ := hs.orbit c (D ω) t
    exact ⟨q, hq, hx⟩
  have hm := mean_tendsto (m := fun t => ∫ ω, deviation c D k d x v p g t ω ∂P) hc.triangle (deviation_moments (k := k) (d := d) (x := x) (v := v) (p := p) (g := g) hD hc.2.1.ne').mean
  have h1 := ((tendsto_add_atTop_iff_nat 1).2 hm).add_const (centre c p g)
  rw [zero_add] at h1
  refine h1.congr fun t => ?_
  have hi := (deviation_all_past (k := k) (d := d) (x := x) (v := v) (p := p) (g := g) hD hc.2.1.ne' t).integrable
  have h2 : ∫ ω, (deviation c D k d x v p g (t + 1) ω + centre c p g) ∂P =
      ∫ ω, deviation c D k d x v p g (t + 1) ω ∂P + centre c p g := by
    rw [integral_add hi (integrable_const _)]; simp
  rw [← h2]
  congr 1; funext ω; simp only [deviation]; ring

theorem threshold_iff : (1 - -c.inertia) * ((c.cognitive ^ 2 + c.social ^ 2) / 12) <
      (1 + -c.inertia) * ((1 - -c.inertia) ^ 2 - (1 + c.inertia - (c.cognitive + c.social) / 2) ^ 2) ↔ SquareStable c := by
  unfold SquareStable
  constructor <;> intro h <;> nlinarith

theorem threshold_iff' : (1 + -c.inertia) * ((1 - -c.inertia) ^ 2 - (1 + c.inertia - (c.cognitive + c.social) / 2) ^ 2) <
    (1 - -c.inertia) * ((c.cognitive ^ 2 + c.social ^ 2) / 12) ↔ SquareUnstable c := by
  unfold SquareUnstable
  constructor <;> intro h <;> nlinarith

/-- **C153, settling.** If moreover `(c₁² + c₂²)(1 + w) < 3 (1 - w)(c₁ + c₂)(4 (1 + w) - (c₁ + c₂))` and the particle's own best is the swarm's
best in that coordinate, then the coordinate converges to that best with probability one, and its expected squared distances from it have a
finite sum. -/
theorem C153_settles (hD : FairDraws P D) (hc : MeanStable c) (hc2 : SquareStable c) (hs : Stagnant f s k d x v g g) :
    ∃ X : Nat → Ω → ℝ, (∀ t ω, At (swarmAfter c f (D ω) s t) k d (X t ω)) ∧ (Summable fun t => ∫ ω, (X t ω - g) ^ 2 ∂P) ∧
      ∀ᵐ ω ∂P, Tendsto (fun t => X t ω) atTop (𝓝 g) := by
  have := hD.isProbability
  have hne := hc.2.1.ne'
  have hcen : centre c g g = g := by unfold centre; field_simp
  have hdev : ∀ t ω, deviation c D k d x v g g (t + 1) ω = (orbit c (D ω) k d x v g g t).1 - g := fun t ω => by
    simp only [deviation, hcen]
  have hmom := deviation_moments (k := k) (d := d) (x := x) (v := v) (p := g) (g := g) hD hne
  rw [hcen] at hmom
  simp only [sub_self, mul_zero, add_zero, zero_div, ne_eq, OfNat.ofNat_ne_zero, not_false_eq_true, zero_pow] at hmom
  have hsum := squares_summable hc.triangle hmom (threshold_iff.2 hc2)
  have hsum1 := (summable_nat_add_iff 1).2 hsum
  have hpast := fun t => deviation_all_past (k := k) (d := d) (x := x) (v := v) (p := g) (g := g) hD hne t
  have hae := ae_tendsto_zero (P := P) (u := fun t => deviation c D k d x v g g (t + 1))
    (fun t => (hpast t).1.mono (hD.past_le t) le_rfl) (fun t => (hpast t).sq.integrable) hsum1
  refine ⟨fun t ω => (orbit c (D ω) k d x v g g t).1, fun t ω => ?_, ?_, ?_⟩
  · obtain ⟨⟨q, hq, hx, -⟩, -⟩ := hs.orbit c (D ω) t
    exact ⟨q, hq, hx⟩
  · simpa only [hdev] using hsum1
  · filter_upwards [hae] with ω hω
    simp only [hdev] at hω
    simpa using hω.add_const g

/-- **C153, bounded.** Under the same bounds but with different bests the expected squared distance from their weighted middle stays bounded. -/
theorem C153_bounded (hD : FairDraws P D) (hc : MeanStable c) (hc2 : SquareStable c) (hs : Stagnant f s k d x v p g) :
    ∃ X : Nat → Ω → ℝ, (∀ t ω, At (swarmAfter c f (D ω) s t) k d (X t ω)) ∧
      ∃ B, ∀ t, ∫ ω, (X t ω - (c.cognitive * p + c.social * g) / (c.cognitive + c.social)) ^ 2 ∂P ≤ B := by
  obtain ⟨B, hB⟩ := squares_bounded hc.triangle (deviation_moments (k := k) (d := d) (x := x) (v := v) (p := p) (g := g) hD hc.2.1.ne')
    (threshold_iff.2 hc2)
  refine ⟨fun t ω => (orbit c (D ω) k d x v p g t).1, fun t ω => ?_, B, fun t => ?_⟩
  · obtain ⟨⟨q, hq, hx, -⟩, -⟩ := hs.orbit c (D ω) t
    exact ⟨q, hq, hx⟩
  · exact hB (t + 1)

/-- **C153, spreading.** If `(c₁² + c₂²)(1 + w)` exceeds that bound instead, then, unless the particle rests at the middle of the bests (and no
sample can move it from there), its expected squared distance from the middle grows exponentially: although the bests never change and although
the mean converges.  This is a statement about the mean square; it does not say that almost every path diverges. -/
theorem C153_spreads (hD : FairDraws P D) (hc : MeanStable c) (hc2 : SquareUnstable c) (hs : Stagnant f s k d x v p g)
    (hstart : c.cognitive * c.social * (p - g) ≠ 0 ∨ x ≠ (c.cognitive * p + c.social * g) / (c.cognitive + c.social) ∨
      c.inertia ≠ 0 ∧ v ≠ 0) :
    ∃ X : Nat → Ω → ℝ, (∀ t ω, At (swarmAfter c f (D ω) s t) k d (X t ω)) ∧
      ∃ a r : ℝ, 0 < a ∧ 1 < r ∧
        ∀ᶠ t in atTop, a * r ^ t ≤ ∫ ω, (X t ω - (c.cognitive * p + c.social * g) / (c.cognitive + c.social)) ^ 2 ∂P := by
  have := hD.isProbability
  have hne := hc.2.1.ne'
  have hmom := deviation_moments (k := k) (d := d) (x := x) (v := v) (p := p) (g := g) hD hne
  have hP : p - centre c p g = c.social * (p - g) / (c.cognitive + c.social) := by unfold centre; field_simp; ring
  have hG : g - centre c p g = -(c.cognitive * (p - g)) / (c.cognitive + c.social) := by unfold centre; field_simp; ring
  obtain ⟨a, r, ha, hr, hev⟩ := squares_explode hc.triangle hmom (threshold_iff'.2 hc2) (by
    rcases eq_or_ne (c.cognitive * c.social * (p - g)) 0 with h0 | h0
    · left
      refine ⟨?_, ?_, ?_⟩
      · rw [hP, hG]; field_simp; linear_combination (c.cognitive - c.social) * h0
      · rw [hP, hG]; field_simp; linear_combination 2 * (c.cognitive * c.social * (p - g)) * h0
      · have e1 : ∫ ω, deviation c D k d x v p g 1 ω ^ 2 ∂P = (x - centre c p g) ^ 2 := by simp [deviation, orbit]
        have e0 : ∫ ω, deviation c D k d x v p g 0 ω ^ 2 ∂P = (x - v - centre c p g) ^ 2 := by simp [deviation]
        simp only [e1, e0]
        by_cases hx : x = centre c p g
        · right
          rcases hstart with h | h | ⟨hw, hv⟩
          · exact absurd h0 h
          · exact absurd hx h
          · refine ⟨neg_ne_zero.2 hw, ?_⟩
            rw [hx]; have : centre c p g - v - centre c p g = -v := by ring
            rw [this]; exact sq_pos_iff.2 (neg_ne_zero.2 hv)
        · left
          have : x - centre c p g ≠ 0 := sub_ne_zero.2 hx
          positivity
    · right
      rw [hP, hG]
      have h1 : c.cognitive ≠ 0 := fun h => h0 (by rw [h]; ring)
      have h2 : c.social ≠ 0 := fun h => h0 (by rw [h]; ring)
      have h3 : p - g ≠ 0 := fun h => h0 (by rw [h]; ring)
      have h4 : c.social * (p - g) / (c.cognitive + c.social) ≠ 0 := div_ne_zero (mul_ne_zero h2 h3) hne
      have h5 := sq_pos_iff.2 h4
      have h6 := sq_pos_iff.2 h1
      exact div_pos (add_pos_of_pos_of_nonneg (mul_pos h6 h5) (mul_nonneg (sq_nonneg _) (sq_nonneg _))) (by norm_num))
  refine ⟨fun t ω => (orbit c (D ω) k d x v p g t).1, fun t ω => ?_, a * r, r, by positivity, hr, ?_⟩
  · obtain ⟨⟨q, hq, hx, -⟩, -⟩ := hs.orbit c (D ω) t
    exact ⟨q, hq, hx⟩
  · filter_upwards [(tendsto_add_atTop_nat 1).eventually hev] with t ht
    calc a * r * r ^ t = a * r ^ (t + 1) := by ring
      _ ≤ _ := ht

/-- The coefficients of `PSOAlgorithmCfg::default` (src/pso.rs:53-55). -/
noncomputable def defaultCoeffs : Coeffs ℝ := { inertia := 1 / 2, cognitive := 1, social := 3 }

/-- **C153, the shipped defaults spread.** With the default coefficients (inertia 0.5, cognitive 1, social 3) a particle whose bests no longer
change has a mean position that converges to `(p + 3 g) / 4`, but, unless it rests at its own best and the swarm's best, an expected squared distance from there that grows
exponentially. -/
theorem C153_default (hD : FairDraws P D) (hs : Stagnant f s k d x v p g) (hstart : ¬ (p = g ∧ x = g ∧ v = 0)) :
    ∃ X : Nat → Ω → ℝ, (∀ t ω, At (swarmAfter defaultCoeffs f (D ω) s t) k d (X t ω)) ∧
      Tendsto (fun t => ∫ ω, X t ω ∂P) atTop (𝓝 ((p + 3 * g) / 4)) ∧
      ∃ a r : ℝ, 0 < a ∧ 1 < r ∧ ∀ᶠ t in atTop, a * r ^ t ≤ ∫ ω, (X t ω - (p + 3 * g) / 4) ^ 2 ∂P := by
  have hm : MeanStable defaultCoeffs := by
    refine ⟨?_, ?_, ?_⟩ <;> simp only [defaultCoeffs]
    · rw [abs_lt]; norm_num
    · norm_num
    · norm_num
  have hu : SquareUnstable defaultCoeffs := by unfold SquareUnstable defaultCoeffs; norm_num
  have hcen : (defaultCoeffs.cognitive * p + defaultCoeffs.social * g) / (defaultCoeffs.cognitive + defaultCoeffs.social) = (p + 3 * g) / 4 := by
    simp only [defaultCoeffs]; ring
  obtain ⟨X, hX, hlim⟩ := C153_mean (P := P) hD hm hs
  obtain ⟨Y, hY, hgrow⟩ := C153_spreads (P := P) hD hm hu hs (by
    rw [hcen]
    by_contra hcon
    push Not at hcon
    obtain ⟨h1, h2, h3⟩ := hcon
    have hpg : p = g := by simp only [defaultCoeffs] at h1; linarith
    refine hstart ⟨hpg, by rw [h2, hpg]; ring, h3 (by simp [defaultCoeffs])⟩)
  have hXY : Y = X := by
    funext t ω
    obtain ⟨q, hq, hx⟩ := hX t ω
    obtain ⟨q', hq', hx'⟩ := hY t ω
    rw [hq] at hq'; cases hq'
    rw [hx] at hx'; exact (Option.some.inj hx').symm
  rw [hcen] at hlim
  rw [hXY, hcen] at hgrow
  exact ⟨X, hX, hlim, hgrow⟩

end

/-! ## Concrete cases -/

/-- A swarm of two particles on a plateau: nothing is better than anything else. -/
noncomputable def plateauSwarm : Swarm ℝ ℕ where
  particles := [⟨[4, 0], [1, 0], [2, 0], .num 0, .num 0⟩, ⟨[6, 1], [0, 1], [6, 1], .num 0, .num 0⟩]
  bestPosition := [6, 1]
  bestValue := .num 0

theorem plateau_stagnant : Stagnant (fun _ => (.num 0 : Fl ℕ)) plateauSwarm 0 0 4 1 2 6 :=
  ⟨⟨_, rfl, rfl, rfl, rfl, fun _ h => absurd h (by show ¬ Fl.lt (.num 0 : Fl ℕ) (.num 0) = true; decide)⟩, rfl, fun _ h => absurd h (by decide)⟩

theorem plateau_stagnant' : Stagnant (fun _ => (.num 0 : Fl ℕ)) plateauSwarm 1 1 1 1 1 1 :=
  ⟨⟨_, rfl, rfl, rfl, rfl, fun _ h => absurd h (by show ¬ Fl.lt (.num 0 : Fl ℕ) (.num 0) = true; decide)⟩, rfl, fun _ h => absurd h (by decide)⟩

/-- Common coefficients (inertia 0.7, twice 1.5) are on the settling side. -/
noncomputable def commonCoeffs : Coeffs ℝ := { inertia := 7 / 10, cognitive := 3 / 2, social := 3 / 2 }

theorem commonCoeffs_stable : MeanStable commonCoeffs ∧ SquareStable commonCoeffs := by
  refine ⟨⟨?_, ?_, ?_⟩, ?_⟩ <;> simp only [commonCoeffs, SquareStable]
  · rw [abs_lt]; norm_num
  · norm_num
  · norm_num
  · norm_num

example := C153_mean fairDraws commonCoeffs_stable.1 plateau_stagnant
example := C153_settles fairDraws commonCoeffs_stable.1 commonCoeffs_stable.2 plateau_stagnant'
example := C153_bounded fairDraws commonCoeffs_stable.1 commonCoeffs_stable.2 plateau_stagnant
example := C153_spreads (c := { inertia := 0, cognitive := 1, social := 5 / 2 }) fairDraws
  ⟨by norm_num, by norm_num, by norm_num⟩ (by unfold SquareUnstable; norm_num) plateau_stagnant (.inl (by norm_num))
example := C153_default fairDraws plateau_stagnant (by norm_num)

end Ecrs.Props
