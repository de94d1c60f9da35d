import Verif.Props.Pso
import Mathlib.Tactic.LinearCombination

set_option linter.unusedSectionVars false

/-!
# Properties of particle swarm optimisation, part 2: C119 (the movement of a particle), C50 (when it holds)
-/

namespace Ecrs.Pso
open Ecrs

section general
variable {X K : Type} [Add X] [Sub X] [Mul X] [Neg X] [LinearOrder K]

theorem velocityFrom_getElem? (c : Coeffs X) (draw : Nat → X × X) :
    ∀ (d k : Nat) (vs xs ps gs : List X) (v x p g : X), vs[d]? = some v → xs[d]? = some x → ps[d]? = some p →
      gs[d]? = some g → (velocityFrom c draw k vs xs ps gs)[d]? = some
        (c.inertia * v + c.cognitive * (draw (k + d)).1 * (p - x) + c.social * (draw (k + d)).2 * (g - x)) := by
  intro d
  induction d with
  | zero =>
    intro k vs xs ps gs v x p g h1 h2 h3 h4
    match vs, xs, ps, gs, h1, h2, h3, h4 with
    | _ :: _, _ :: _, _ :: _, _ :: _, h1, h2, h3, h4 =>
      simp at h1 h2 h3 h4
      subst h1 h2 h3 h4
      simp [velocityFrom, velocityAt]
  | succ d ih =>
    intro k vs xs ps gs v x p g h1 h2 h3 h4
    match vs, xs, ps, gs, h1, h2, h3, h4 with
    | _ :: _, _ :: _, _ :: _, _ :: _, h1, h2, h3, h4 =>
      simp only [List.getElem?_cons_succ] at h1 h2 h3 h4
      have := ih (k + 1) _ _ _ _ v x p g h1 h2 h3 h4
      rw [velocityFrom, List.getElem?_cons_succ, this]
      have e : k + 1 + d = k + (d + 1) := by omega
      rw [e]

/-- **C119.** One iteration of `run`, particle `k`, coordinate `d` with current velocity `v`, position `x`, the
particle's own best `p` and the swarm's best `g` as they were before the iteration, and the two samples `r` of this
particle and coordinate: the new velocity is `inertia·v + cognitive·r₁·(p − x) + social·r₂·(g − x)`, the new position is
the old one plus the new velocity, and the value is the objective there. -/
theorem C119_movement (c : Coeffs X) (f : List X → Fl K) (draw : Nat → Nat → X × X) (s : Swarm X K) (k d : Nat)
    (q : Particle X K) (hq : s.particles[k]? = some q) (v x p g : X) (hv : q.velocity[d]? = some v)
    (hx : q.position[d]? = some x) (hp : q.bestPosition[d]? = some p) (hg : s.bestPosition[d]? = some g) :
    ∃ q', (s.iterate c f draw).particles[k]? = some q' ∧
      q'.velocity[d]? = some
        (c.inertia * v + c.cognitive * (draw k d).1 * (p - x) + c.social * (draw k d).2 * (g - x)) ∧
      q'.position[d]? = some
        (x + (c.inertia * v + c.cognitive * (draw k d).1 * (p - x) + c.social * (draw k d).2 * (g - x))) ∧
      q'.value = f q'.position := by
  have hvel := velocityFrom_getElem? c (draw k) d 0 _ _ _ _ v x p g hv hx hp hg
  rw [Nat.zero_add] at hvel
  refine ⟨(q.updateVelocity c (draw k) s.bestPosition).updatePosition f, by rw [iterate_particle, hq]; rfl, ?_⟩
  have hpos : (List.zipWith (fun x v => x + v) q.position
      (velocityFrom c (draw k) 0 q.velocity q.position q.bestPosition s.bestPosition))[d]? = some
        (x + (c.inertia * v + c.cognitive * (draw k d).1 * (p - x) + c.social * (draw k d).2 * (g - x))) := by
    rw [List.getElem?_zipWith, hx, hvel]
  unfold Particle.updatePosition Particle.updateVelocity
  simp only
  split
  · exact ⟨hvel, hpos, rfl⟩
  · exact ⟨hvel, hpos, rfl⟩

end general

/-! ## Exact arithmetic -/

section field
variable {F K : Type} [Field F] [LinearOrder F] [IsStrictOrderedRing F] [LinearOrder K]

/-- **C119, step length.** With samples from [0, 1] and non-negative coefficients a particle moves in each coordinate by at
most `inertia·|v| + cognitive·|p − x| + social·|g − x|`. -/
theorem C119_step_bound (c : Coeffs F) (h0 : 0 ≤ c.inertia) (h1 : 0 ≤ c.cognitive) (h2 : 0 ≤ c.social)
    (f : List F → Fl K) (draw : Nat → Nat → F × F) (hd : UnitDraws draw) (s : Swarm F K) (k d : Nat)
    (q : Particle F K) (hq : s.particles[k]? = some q) (v x p g : F) (hv : q.velocity[d]? = some v)
    (hx : q.position[d]? = some x) (hp : q.bestPosition[d]? = some p) (hg : s.bestPosition[d]? = some g) :
    ∃ q' x', (s.iterate c f draw).particles[k]? = some q' ∧ q'.position[d]? = some x' ∧
      |x' - x| ≤ c.inertia * |v| + c.cognitive * |p - x| + c.social * |g - x| := by
  obtain ⟨q', hq', -, hx', -⟩ := C119_movement c f draw s k d q hq v x p g hv hx hp hg
  refine ⟨q', _, hq', hx', ?_⟩
  obtain ⟨⟨a0, a1⟩, b0, b1⟩ := hd k d
  rw [add_sub_cancel_left]
  have e1 : |c.inertia * v| = c.inertia * |v| := by rw [abs_mul, abs_of_nonneg h0]
  have e2 : |c.cognitive * (draw k d).1 * (p - x)| ≤ c.cognitive * |p - x| := by
    rw [abs_mul, abs_mul, abs_of_nonneg h1, abs_of_nonneg a0]
    exact mul_le_mul_of_nonneg_right (by nlinarith) (abs_nonneg _)
  have e3 : |c.social * (draw k d).2 * (g - x)| ≤ c.social * |g - x| := by
    rw [abs_mul, abs_mul, abs_of_nonneg h2, abs_of_nonneg b0]
    exact mul_le_mul_of_nonneg_right (by nlinarith) (abs_nonneg _)
  have := abs_add_le (c.inertia * v + c.cognitive * (draw k d).1 * (p - x)) (c.social * (draw k d).2 * (g - x))
  have := abs_add_le (c.inertia * v) (c.cognitive * (draw k d).1 * (p - x))
  linarith

/-- Specification: positions, own bests and the swarm's best lie in the box. -/
def AllInBounds (lo hi : F) (s : Swarm F K) : Prop :=
  (∀ x ∈ s.bestPosition, lo ≤ x ∧ x ≤ hi) ∧ ∀ q ∈ s.particles, (∀ x ∈ q.position, lo ≤ x ∧ x ≤ hi) ∧
    ∀ x ∈ q.bestPosition, lo ≤ x ∧ x ≤ hi

theorem convex_step {lo hi a b x p g : F} (ha : 0 ≤ a) (hb : 0 ≤ b) (hab : a + b ≤ 1) (hx : lo ≤ x ∧ x ≤ hi)
    (hp : lo ≤ p ∧ p ≤ hi) (hg : lo ≤ g ∧ g ≤ hi) :
    lo ≤ x + (a * (p - x) + b * (g - x)) ∧ x + (a * (p - x) + b * (g - x)) ≤ hi := by
  have e : x + (a * (p - x) + b * (g - x)) = (1 - a - b) * x + a * p + b * g := by ring
  have h1 : 0 ≤ 1 - a - b := by linarith
  rw [e]
  constructor
  · have := mul_le_mul_of_nonneg_left hx.1 h1
    have := mul_le_mul_of_nonneg_left hp.1 ha
    have := mul_le_mul_of_nonneg_left hg.1 hb
    have e2 : (1 - a - b) * lo + a * lo + b * lo = lo := by ring
    linarith
  · have := mul_le_mul_of_nonneg_left hx.2 h1
    have := mul_le_mul_of_nonneg_left hp.2 ha
    have := mul_le_mul_of_nonneg_left hg.2 hb
    have e2 : (1 - a - b) * hi + a * hi + b * hi = hi := by ring
    linarith

theorem iterate_allInBounds {lo hi : F} {dim : Nat} (c : Coeffs F) (h0 : c.inertia = 0) (h1 : 0 ≤ c.cognitive)
    (h2 : 0 ≤ c.social) (h3 : c.cognitive + c.social ≤ 1) (f : List F → Fl K) (draw : Nat → Nat → F × F)
    (hd : UnitDraws draw) (s : Swarm F K) (hdim : HasDim dim s) (hs : AllInBounds lo hi s) :
    AllInBounds lo hi (s.iterate c f draw) := by
  have hq' : ∀ q ∈ (s.iterate c f draw).particles, (∀ x ∈ q.position, lo ≤ x ∧ x ≤ hi) ∧
      ∀ x ∈ q.bestPosition, lo ≤ x ∧ x ≤ hi := by
    intro q' hq'
    obtain ⟨k, hk⟩ := List.mem_iff_getElem?.1 hq'
    have hk0 := hk
    rw [iterate_particle] at hk0
    obtain ⟨q, hq, he⟩ := Option.map_eq_some_iff.1 hk0
    have hqm := List.mem_of_getElem? hq
    obtain ⟨l1, l2, l3⟩ := hdim.2 q hqm
    have hl := ((C49_dimension_invariant c f draw hdim).1.2 q' hq').1
    have hpos : ∀ x ∈ q'.position, lo ≤ x ∧ x ≤ hi := by
      intro x' hx'
      obtain ⟨d, hdx⟩ := List.mem_iff_getElem?.1 hx'
      have hd1 : d < dim := by rw [← hl]; exact (List.getElem?_eq_some_iff.1 hdx).1
      obtain ⟨q2, e2, -, e3, -⟩ := C119_movement c f draw s k d q hq _ _ _ _
        (List.getElem?_eq_getElem (l2 ▸ hd1)) (List.getElem?_eq_getElem (l1 ▸ hd1))
        (List.getElem?_eq_getElem (l3 ▸ hd1)) (List.getElem?_eq_getElem (hdim.1 ▸ hd1))
      rw [hk] at e2; cases e2
      rw [hdx] at e3
      have e4 := Option.some.inj e3
      rw [e4, h0, zero_mul, zero_add]
      obtain ⟨⟨a0, a1⟩, b0, b1⟩ := hd k d
      refine convex_step (mul_nonneg h1 a0) (mul_nonneg h2 b0) ?_ ((hs.2 q hqm).1 _ (List.getElem_mem _))
        ((hs.2 q hqm).2 _ (List.getElem_mem _)) (hs.1 _ (List.getElem_mem _))
      nlinarith
    refine ⟨hpos, ?_⟩
    have hb : q'.bestPosition = q'.position ∨ q'.bestPosition = q.bestPosition := by
      rw [← he]
      unfold Particle.updatePosition Particle.updateVelocity
      simp only
      split
      · exact .inl rfl
      · exact .inr rfl
    rcases hb with hb | hb
    · rw [hb]; exact hpos
    · rw [hb]; exact (hs.2 q hqm).2
  refine ⟨?_, hq'⟩
  have : (s.iterate c f draw).bestPosition =
      ((s.iterate c f draw).particles.foldl (bestStep f) (s.bestPosition, s.bestValue)).1 := rfl
  rw [this]
  rcases foldl_bestStep_mem f (s.iterate c f draw).particles (s.bestPosition, s.bestValue) with h | ⟨q, hq, h⟩
  · rw [h]; exact hs.1
  · rw [h]; exact (hq' q hq).2

/-- **C50, where it holds.** With inertia weight 0 and non-negative cognitive and social coefficients that sum to at most
1, no particle ever leaves the box, in any generation, for any objective and any samples from [0, 1].  (By
`C50_particles_can_leave_the_bounds` every positive inertia weight lets particles leave.) -/
theorem C50_stays_without_inertia (c : Coeffs F) (h0 : c.inertia = 0) (h1 : 0 ≤ c.cognitive) (h2 : 0 ≤ c.social)
    (h3 : c.cognitive + c.social ≤ 1) (count dim : Nat) (lo hi : F) (hlh : lo ≤ hi) (f : List F → Fl K)
    (init : Nat → Nat → F × F) (hi0 : UnitDraws init) (s : Swarm F K)
    (hs : Swarm.generate (fun x => |x|) count dim lo hi f init = .ok s)
    (draw : Nat → Nat → Nat → F × F) (hd : ∀ g, UnitDraws (draw g)) (n : Nat) :
    InBounds lo hi (swarmAfter c f draw s n) := by
  have key : HasDim dim (swarmAfter c f draw s n) ∧ AllInBounds lo hi (swarmAfter c f draw s n) := by
    induction n with
    | zero =>
      refine ⟨(C49_dimension_initial hs).1, ?_⟩
      have hq : ∀ q ∈ s.particles, (∀ x ∈ q.position, lo ≤ x ∧ x ≤ hi) ∧ ∀ x ∈ q.bestPosition, lo ≤ x ∧ x ≤ hi := by
        intro q hq
        obtain ⟨a1, -, a2⟩ := C49_initial_bounds hi0 hs q hq
        rw [min_eq_left hlh, max_eq_right hlh] at a1
        exact ⟨a1, by rw [a2]; exact a1⟩
      refine ⟨?_, hq⟩
      obtain ⟨g1, q0, g2, g3, -⟩ := generate_shape hs
      rw [show (swarmAfter c f draw s 0).bestPosition = s.bestPosition from rfl, g3]
      rcases (initialBest_spec f s.particles q0.position).1 with h5 | ⟨q, hq', h5⟩
      · rw [h5]; exact (hq q0 (List.mem_of_getElem? g2)).1
      · rw [h5]; exact (hq q hq').1
    | succ n ih =>
      exact ⟨(C49_dimension_invariant c f _ ih.1).1, iterate_allInBounds c h0 h1 h2 h3 f _ (hd _) _ ih.1 ih.2⟩
  exact fun q hq => (key.2.2 q hq).1

end field

/-! ## Non-vacuity -/

section examples

/-- The hypotheses of `C119_movement` are met by a concrete particle; its new velocity is 1·2 + 2·1·(3−1) + 1·1·(5−1). -/
example : ∃ q', ((⟨[⟨[1], [2], [3], .num 0, .num 0⟩], [5], .num 0⟩ : Swarm ℚ ℚ).iterate ⟨1, 2, 1⟩
    (fun _ => .num 0) (fun _ _ => (1, 1))).particles[0]? = some q' ∧ q'.velocity[0]? = some 10 := by
  obtain ⟨q', h1, h2, -⟩ := C119_movement (X := ℚ) (K := ℚ) ⟨1, 2, 1⟩ (fun _ => .num 0) (fun _ _ => (1, 1))
    ⟨[⟨[1], [2], [3], .num 0, .num 0⟩], [5], .num 0⟩ 0 0 ⟨[1], [2], [3], .num 0, .num 0⟩ rfl 2 1 3 5 rfl rfl rfl rfl
  refine ⟨q', h1, ?_⟩
  rw [h2]; norm_num

/-- The hypotheses of `C50_stays_without_inertia` are met by a swarm of two particles in [0, 1]. -/
example : ∃ s : Swarm ℚ ℚ, Swarm.generate (fun x => |x|) 2 1 (0 : ℚ) 1 (fun x => (.num x.sum : Fl ℚ))
      (fun j _ => (((min j 1 : Nat) : ℚ), 0)) = .ok s ∧
    InBounds 0 1 (swarmAfter ⟨0, 1 / 2, 1 / 2⟩ (fun x => .num x.sum) (fun _ _ _ => (1, 1)) s 5) := by
  refine ⟨_, rfl, ?_⟩
  refine C50_stays_without_inertia _ rfl (by norm_num) (by norm_num) (by norm_num) 2 1 0 1 (by norm_num) _
    (fun j _ => (((min j 1 : Nat) : ℚ), 0)) ?_ _ rfl _ ?_ 5
  · intro j i
    have : ((min j 1 : Nat) : ℚ) ≤ 1 := by exact_mod_cast Nat.min_le_right j 1
    exact ⟨⟨by positivity, this⟩, by simp⟩
  · intro g j i; simp

end examples

example := C119_step_bound (K := ℚ) (⟨1, 2, 1⟩ : Coeffs ℚ) (by norm_num) (by norm_num) (by norm_num) (fun _ => .num 0)
  (fun _ _ => (1, 1)) (fun _ _ => by norm_num) ⟨[⟨[1], [2], [3], .num 0, .num 0⟩], [5], .num 0⟩ 0 0 ⟨[1], [2], [3], .num 0, .num 0⟩ rfl
  2 1 3 5 rfl rfl rfl rfl

end Ecrs.Pso
