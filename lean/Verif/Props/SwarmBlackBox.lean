import Verif.Pso.Pso
import Verif.Props.FfCooling
import Verif.Props.Pso
import Mathlib.MeasureTheory.Integral.Lebesgue.Markov
import Mathlib.MeasureTheory.Measure.Typeclasses.Probability
import Mathlib.Probability.Distributions.Uniform

/-!
# Property **C169**: the swarms cannot find what they do not look at either

What C168 says of the genetic solver, for particle swarms and fireflies: a run depends on the objective function only through its values at
a bounded number of points. Needles are sets of points here (`hidden`), since the search space is a continuum.
-/

set_option linter.unusedSectionVars false
set_option linter.unusedVariables false

namespace Ecrs
open MeasureTheory
open scoped ENNReal Classical

/-- The objective function `f` with the value `v` on the set `A`. -/
noncomputable def hidden {P V : Type} (f : P → V) (v : V) (A : Set P) : P → V := fun x => if x ∈ A then v else f x

/-- If a program `go` depends on its objective function only through the values at `N` points, then of any family of pairwise disjoint sets
at most `N` make a difference. -/
theorem few_matter {P V R ι : Type} {go : (P → V) → R} {f : P → V} {Q : List P} {N : Nat} (hN : Q.length ≤ N)
    (h : ∀ f', (∀ x ∈ Q, f' x = f x) → go f' = go f) (v : V) {A : ι → Set P} {ts : Finset ι}
    (hA : ∀ t ∈ ts, ∀ t' ∈ ts, t ≠ t' → Disjoint (A t) (A t')) : (ts.filter fun t => go (hidden f v (A t)) ≠ go f).card ≤ N := by
  refine le_trans ?_ hN
  have hex : ∀ t ∈ ts.filter (fun t => go (hidden f v (A t)) ≠ go f), ∃ x, x ∈ Q ∧ x ∈ A t := by
    intro t ht
    by_contra hn
    push Not at hn
    refine (Finset.mem_filter.1 ht).2 (h _ fun x hx => ?_)
    unfold hidden
    rw [if_neg (hn x hx)]
  rcases isEmpty_or_nonempty P with hP | hP
  · have : ts.filter (fun t => go (hidden f v (A t)) ≠ go f) = ∅ := Finset.eq_empty_of_forall_notMem fun t ht =>
      hP.elim (hex t ht).choose
    rw [this]
    exact Nat.zero_le _
  choose! g hg using hex
  refine le_trans (Finset.card_le_card_of_injOn g (t := Q.toFinset) (fun t ht => List.mem_toFinset.2 (hg t ht).1) ?_) (List.toFinset_card_le Q)
  intro t ht t' ht' e
  by_contra hne
  have h1 := (Finset.mem_filter.1 (Finset.mem_coe.1 ht)).1
  have h2 := (Finset.mem_filter.1 (Finset.mem_coe.1 ht')).1
  refine Set.disjoint_left.1 (hA t h1 t' h2 hne) (hg t ht).2 ?_
  rw [e]
  exact (hg t' ht').2

/-- If for every outcome at most `N` of the events happen, their probabilities add up to at most `N`, and one of them is at most the average. -/
theorem sum_le_of_few {Ω ι : Type} [MeasurableSpace Ω] {ν : Measure Ω} [IsProbabilityMeasure ν] {E : ι → Set Ω} (hm : ∀ t, MeasurableSet (E t))
    {ts : Finset ι} {N : Nat} (h : ∀ ω, (ts.filter fun t => ω ∈ E t).card ≤ N) :
    ∑ t ∈ ts, ν (E t) ≤ N ∧ (ts.Nonempty → ∃ t ∈ ts, ν (E t) ≤ N / ts.card) := by
  have hsum : ∑ t ∈ ts, ν (E t) ≤ N := by
    have h1 : ∑ t ∈ ts, ν (E t) = ∫⁻ ω, ∑ t ∈ ts, (E t).indicator (fun _ => (1 : ℝ≥0∞)) ω ∂ν := by
      rw [lintegral_finsetSum ts fun t _ => measurable_const.indicator (hm t)]
      exact Finset.sum_congr rfl fun t _ => (lintegral_indicator_one (hm t)).symm
    rw [h1]
    calc ∫⁻ ω, ∑ t ∈ ts, (E t).indicator (fun _ => (1 : ℝ≥0∞)) ω ∂ν ≤ ∫⁻ _, (N : ℝ≥0∞) ∂ν := by
          refine lintegral_mono fun ω => ?_
          have h2 : ∑ t ∈ ts, (E t).indicator (fun _ => (1 : ℝ≥0∞)) ω = ((ts.filter fun t => ω ∈ E t).card : ℝ≥0∞) := by
            rw [← Finset.sum_boole]
            exact Finset.sum_congr rfl fun t _ => Set.indicator_apply _ _ _
          show ∑ t ∈ ts, (E t).indicator (fun _ => (1 : ℝ≥0∞)) ω ≤ N
          rw [h2]
          exact_mod_cast h ω
      _ = N := by rw [lintegral_const, measure_univ, mul_one]
  refine ⟨hsum, fun hts => ?_⟩
  by_contra hn
  push Not at hn
  have h1 := ENNReal.sum_lt_sum_of_nonempty hts hn
  rw [Finset.sum_const, nsmul_eq_mul, ENNReal.mul_div_cancel (Nat.cast_ne_zero.2 hts.card_ne_zero) (ENNReal.natCast_ne_top _)] at h1
  exact absurd h1 (not_lt.2 hsum)

end Ecrs

/-! ## Particle swarms -/

namespace Ecrs.Pso
open Ecrs MeasureTheory
open scoped ENNReal Classical

section
variable {X K : Type} [Add X] [Sub X] [Mul X] [Neg X] [LinearOrder K] {c : Coeffs X} {f f' : List X → Fl K}

/-- What a swarm remembers are points of `Q`. -/
def Seen (Q : List (List X)) (s : Swarm X K) : Prop := s.bestPosition ∈ Q ∧ ∀ q ∈ s.particles, q.bestPosition ∈ Q

/-- Where the particles go next. -/
def targets (s : Swarm X K) : List (List X) := s.particles.map fun q => List.zipWith (fun x v => x + v) q.position q.velocity

theorem updateVelocities_best (c : Coeffs X) (draw : Nat → Nat → X × X) {Q : List (List X)} {s : Swarm X K} (h : Seen Q s) :
    Seen Q (s.updateVelocities c draw) ∧ (s.updateVelocities c draw).particles.length = s.particles.length := by
  refine ⟨⟨h.1, ?_⟩, by simp [Swarm.updateVelocities]⟩
  intro q hq
  simp only [Swarm.updateVelocities, List.mem_mapIdx] at hq
  obtain ⟨i, hi, rfl⟩ := hq
  exact h.2 s.particles[i] (List.getElem_mem hi)

theorem updatePositions_blind {Q : List (List X)} {s : Swarm X K} (h : Seen Q s) (f : List X → Fl K) :
    Seen (targets s ++ Q) (s.updatePositions f) ∧
      ∀ f' : List X → Fl K, (∀ x ∈ targets s ++ Q, f' x = f x) → s.updatePositions f' = s.updatePositions f := by
  refine ⟨⟨List.mem_append_right _ h.1, ?_⟩, fun f' hf => ?_⟩
  · intro q hq
    obtain ⟨q0, h0, rfl⟩ := List.mem_map.1 hq
    unfold Particle.updatePosition
    dsimp only
    split
    · exact List.mem_append_left _ (List.mem_map.2 ⟨q0, h0, rfl⟩)
    · exact List.mem_append_right _ (h.2 q0 h0)
  · unfold Swarm.updatePositions
    congr 1
    refine List.map_congr_left fun q hq => ?_
    unfold Particle.updatePosition
    dsimp only
    rw [hf _ (List.mem_append_left _ (List.mem_map.2 ⟨q, hq, rfl⟩))]

theorem foldl_best_blind {Q : List (List X)} {f f' : List X → Fl K} (hf : ∀ x ∈ Q, f' x = f x) :
    ∀ {qs : List (Particle X K)} {b : List X × Fl K}, b.1 ∈ Q → (∀ q ∈ qs, q.bestPosition ∈ Q) →
      (qs.foldl (bestStep f) b).1 ∈ Q ∧ qs.foldl (bestStep f') b = qs.foldl (bestStep f) b
  | [], b, hb, _ => ⟨hb, rfl⟩
  | q :: qs, b, hb, hq => by
    have e : bestStep f' b q = bestStep f b q := by
      unfold bestStep
      rw [hf _ hb, hf _ (hq q (by simp))]
    have hb' : (bestStep f b q).1 ∈ Q := by
      unfold bestStep
      split
      · exact hq q (by simp)
      · exact hb
    rw [List.foldl_cons, List.foldl_cons, e]
    exact foldl_best_blind hf hb' fun p hp => hq p (by simp [hp])

theorem iterate_blind (c : Coeffs X) (draw : Nat → Nat → X × X) {Q : List (List X)} {s : Swarm X K} (h : Seen Q s) (f : List X → Fl K) :
    ∃ Q', Q'.length = s.particles.length ∧ Seen (Q' ++ Q) (s.iterate c f draw) ∧
      (s.iterate c f draw).particles.length = s.particles.length ∧
      ∀ f' : List X → Fl K, (∀ x ∈ Q' ++ Q, f' x = f x) → s.iterate c f' draw = s.iterate c f draw := by
  obtain ⟨hv, hl⟩ := updateVelocities_best c draw h
  obtain ⟨hp, he⟩ := updatePositions_blind hv f
  refine ⟨targets (s.updateVelocities c draw), by unfold targets; rw [List.length_map, hl], ⟨?_, ?_⟩, ?_, fun f' hf => ?_⟩
  · exact (foldl_best_blind (f := f) (f' := f) (fun _ _ => rfl) hp.1 hp.2).1
  · exact hp.2
  · show (((s.updateVelocities c draw).updatePositions f).particles).length = _
    unfold Swarm.updatePositions
    dsimp only
    rw [List.length_map, hl]
  · unfold Swarm.iterate
    rw [he f' hf]
    unfold Swarm.updateBest
    rw [(foldl_best_blind hf hp.1 hp.2).2]

/-- The number of completed generations among the callbacks. -/
def generationCount : List (Ev X K) → Nat
  | [] => 0
  | .onNewGeneration _ _ :: es => generationCount es + 1
  | _ :: es => generationCount es

variable {W : Type} {isMet : Term W X K} {draw : Nat → Nat → Nat → X × X}

theorem loop_blind (f : List X → Fl K) : ∀ (fuel i : Nat) {Q : List (List X)} {s r : Swarm X K} {evs : List (Ev X K)} {w w' : W},
    Seen Q s → loop isMet c f draw fuel i s w = .ok ((r, evs), w') →
    ∃ Q', Q'.length = s.particles.length * generationCount evs ∧
      ∀ f' : List X → Fl K, (∀ x ∈ Q' ++ Q, f' x = f x) → loop isMet c f' draw fuel i s w = .ok ((r, evs), w')
  | 0, i, Q, s, r, evs, w, w', _, h => by cases h
  | fuel + 1, i, Q, s, r, evs, w, w', hs, h => by
    unfold loop at h
    obtain ⟨stop, w1, h1, h⟩ := M.bind_ok_iff.1 h
    cases stop with
    | true =>
      have h' := h
      rw [if_pos rfl] at h
      obtain ⟨e, -⟩ := Prod.mk.inj (M.pure_ok_iff.1 h)
      obtain ⟨rfl, rfl⟩ := Prod.mk.inj e
      refine ⟨[], by simp [generationCount], fun f' _ => ?_⟩
      unfold loop
      exact M.bind_ok_iff.2 ⟨true, w1, h1, h⟩
    | false =>
      rw [if_neg (by simp)] at h
      obtain ⟨⟨r1, evs1⟩, w2, h2, h3⟩ := M.bind_ok_iff.1 h
      obtain ⟨Q1, c1, s1, l1, b1⟩ := iterate_blind c (draw (i + 1)) hs f
      obtain ⟨Q2, c2, b2⟩ := loop_blind f fuel (i + 1) s1 h2
      have h3' := h3
      obtain ⟨e, -⟩ := Prod.mk.inj (M.pure_ok_iff.1 h3)
      obtain ⟨rfl, rfl⟩ := Prod.mk.inj e
      refine ⟨Q2 ++ Q1, ?_, fun f' hf => ?_⟩
      · rw [List.length_append, c1, c2, l1]
        show _ = s.particles.length * (generationCount evs1 + 1)
        rw [Nat.mul_succ]
      · have e1 : s.iterate c f' (draw (i + 1)) = s.iterate c f (draw (i + 1)) := b1 f' fun x hx => hf x (by
          rw [List.append_assoc]; exact List.mem_append_right _ hx)
        unfold loop
        refine M.bind_ok_iff.2 ⟨false, w1, h1, ?_⟩
        rw [if_neg (by simp), e1]
        exact M.bind_ok_iff.2 ⟨_, w2, b2 f' fun x hx => hf x (by rw [List.append_assoc]; exact hx), h3'⟩

theorem initialBest_blind {Q : List (List X)} {f f' : List X → Fl K} (hf : ∀ x ∈ Q, f' x = f x) :
    ∀ {qs : List (Particle X K)} {b : List X}, b ∈ Q → (∀ q ∈ qs, q.position ∈ Q) →
      initialBest f b qs ∈ Q ∧ initialBest f' b qs = initialBest f b qs
  | [], b, hb, _ => ⟨hb, rfl⟩
  | q :: qs, b, hb, hq => by
    have hq0 := hq q (by simp)
    have hqs : ∀ p ∈ qs, p.position ∈ Q := fun p hp => hq p (by simp [hp])
    unfold initialBest
    rw [hf _ hb, hf _ hq0]
    split
    · exact initialBest_blind hf hq0 hqs
    · exact initialBest_blind hf hb hqs

theorem generate_blind (abs : X → X) (count dim : Nat) (lo hi : X) (f : List X → Fl K) (d0 : Nat → Nat → X × X) {s : Swarm X K}
    (h : Swarm.generate abs count dim lo hi f d0 = .ok s) :
    ∃ Q, Q.length = count ∧ s.particles.length = count ∧ Seen Q s ∧
      ∀ f' : List X → Fl K, (∀ x ∈ Q, f' x = f x) → Swarm.generate abs count dim lo hi f' d0 = .ok s := by
  set Q : List (List X) := (List.range count).map fun j => (Particle.generate abs dim lo hi f (d0 j)).position with hQ
  have hmem : ∀ q ∈ (List.range count).map (fun j => Particle.generate abs dim lo hi f (d0 j)), q.position ∈ Q ∧ q.bestPosition ∈ Q := by
    intro q hq
    obtain ⟨j, hj, rfl⟩ := List.mem_map.1 hq
    exact ⟨List.mem_map.2 ⟨j, hj, rfl⟩, List.mem_map.2 ⟨j, hj, rfl⟩⟩
  have hlen : ((List.range count).map fun j => Particle.generate abs dim lo hi f (d0 j)).length = count := by simp
  have hsame : ∀ f' : List X → Fl K, (∀ x ∈ Q, f' x = f x) →
      (List.range count).map (fun j => Particle.generate abs dim lo hi f' (d0 j)) =
        (List.range count).map fun j => Particle.generate abs dim lo hi f (d0 j) := by
    intro f' hf
    refine List.map_congr_left fun j hj => ?_
    have := hf _ (List.mem_map.2 ⟨j, hj, rfl⟩)
    unfold Particle.generate at this ⊢
    dsimp only at this ⊢
    rw [this]
  unfold Swarm.generate at h
  cases hl : (List.range count).map fun j => Particle.generate abs dim lo hi f (d0 j) with
  | nil =>
    rw [hl] at h
    cases h
  | cons q qs =>
    rw [hl] at h hmem hlen
    obtain rfl := Except.ok.inj h
    have hb := (hmem q (by simp)).2
    have hp : ∀ p ∈ q :: qs, p.position ∈ Q := fun p hp => (hmem p hp).1
    refine ⟨Q, by simp [hQ], hlen, ⟨(initialBest_blind (f := f) (f' := f) (fun _ _ => rfl) hb hp).1, fun p hp => (hmem p hp).2⟩, fun f' hf => ?_⟩
    unfold Swarm.generate
    rw [hsame f' hf, hl]
    obtain ⟨h1, h2⟩ := initialBest_blind hf hb hp
    dsimp only
    rw [h2, hf _ h1]

/-- Building a swarm and running it: `PSOAlgorithmBuilder::build` and `PSOAlgorithm::run` (src/pso/builder.rs:79-81, src/pso.rs:88-114). -/
def search (abs : X → X) (count dim : Nat) (lo hi : X) (d0 : Nat → Nat → X × X) (isMet : Term W X K) (c : Coeffs X)
    (draw : Nat → Nat → Nat → X × X) (fuel : Nat) (f : List X → Fl K) : M W (Swarm X K × List (Ev X K)) := do
  let s ← M.ofExcept (Swarm.generate abs count dim lo hi f d0)
  run isMet c f draw fuel s

/-- **C169, particle swarm, black box.** Whatever the draws, the coefficients and the stopping condition: the result of building and running
a swarm of `count` particles – the final swarm and everything the probe is shown – depends on the objective function only through its values
at `count * (generations + 1)` points. -/
theorem C169_pso {abs : X → X} {count dim : Nat} {lo hi : X} {d0 : Nat → Nat → X × X} {fuel : Nat} {f : List X → Fl K}
    {r : Swarm X K} {evs : List (Ev X K)} {w w' : W}
    (h : search abs count dim lo hi d0 isMet c draw fuel f w = .ok ((r, evs), w')) :
    ∃ Q : List (List X), Q.length = count * (generationCount evs + 1) ∧
      ∀ f' : List X → Fl K, (∀ x ∈ Q, f' x = f x) → search abs count dim lo hi d0 isMet c draw fuel f' w = .ok ((r, evs), w') := by
  unfold search at h
  obtain ⟨s, w1, h1, h2⟩ := M.bind_ok_iff.1 h
  obtain ⟨hgen, hw⟩ := M.ofExcept_ok_iff.1 h1
  have hgen : Swarm.generate abs count dim lo hi f d0 = .ok s := hgen
  obtain ⟨Q0, c0, l0, s0, b0⟩ := generate_blind abs count dim lo hi f d0 hgen
  unfold run at h2
  obtain ⟨⟨r1, evs1⟩, w2, h2, h3⟩ := M.bind_ok_iff.1 h2
  obtain ⟨Q1, c1, b1⟩ := loop_blind f fuel 0 s0 h2
  have h3' := h3
  obtain ⟨e, -⟩ := Prod.mk.inj (M.pure_ok_iff.1 h3)
  obtain ⟨rfl, rfl⟩ := Prod.mk.inj e
  refine ⟨Q1 ++ Q0, ?_, fun f' hf => ?_⟩
  · rw [List.length_append, c0, c1, l0]
    show _ = count * (generationCount evs1 + 1)
    rw [Nat.mul_succ]
  · unfold search
    refine M.bind_ok_iff.2 ⟨s, w1, M.ofExcept_ok_iff.2 ⟨b0 f' fun x hx => hf x (List.mem_append_right _ hx), hw⟩, ?_⟩
    unfold run
    exact M.bind_ok_iff.2 ⟨_, w2, b1 f' hf, h3'⟩

/-- **C169, particle swarm, needles.** Of any pairwise disjoint sets, at most `count * (generations + 1)` make any difference to the run when
the objective function takes another value on them: from all others the needle is not found. -/
theorem C169_pso_needles {ι : Type} {abs : X → X} {count dim : Nat} {lo hi : X} {d0 : Nat → Nat → X × X} {fuel : Nat} {f : List X → Fl K}
    {r : Swarm X K} {evs : List (Ev X K)} {w w' : W}
    (h : search abs count dim lo hi d0 isMet c draw fuel f w = .ok ((r, evs), w')) (v : Fl K) {A : ι → Set (List X)} {ts : Finset ι}
    (hA : ∀ t ∈ ts, ∀ t' ∈ ts, t ≠ t' → Disjoint (A t) (A t')) :
    (ts.filter fun t => search abs count dim lo hi d0 isMet c draw fuel (hidden f v (A t)) w ≠ .ok ((r, evs), w')).card ≤
      count * (generationCount evs + 1) := by
  obtain ⟨Q, hQ, hb⟩ := C169_pso h
  rw [← h]
  exact few_matter (go := fun f => search abs count dim lo hi d0 isMet c draw fuel f w) hQ.le (fun f' hf => by rw [hb f' hf, h]) v hA

/-- **C169, particle swarm, random draws.** If the draws are random (`ω`), some of the sets matters with probability at most
`count * (limit + 1)` divided by the number of sets, with the stopping condition `GenerationLimit(limit)`. -/
theorem C169_pso_chance {Ω ι : Type} [MeasurableSpace Ω] {ν : Measure Ω} [IsProbabilityMeasure ν] {abs : X → X} {count dim : Nat} {lo hi : X}
    {d0 : Ω → Nat → Nat → X × X} {draw : Ω → Nat → Nat → Nat → X × X} {fuel : Nat} {f : List X → Fl K} {w : W} {N : Nat}
    (hret : ∀ ω, ∃ r evs w', search abs count dim lo hi (d0 ω) isMet c (draw ω) fuel f w = .ok ((r, evs), w') ∧
      generationCount evs ≤ N) (v : Fl K) {A : ι → Set (List X)} {ts : Finset ι}
    (hA : ∀ t ∈ ts, ∀ t' ∈ ts, t ≠ t' → Disjoint (A t) (A t'))
    (hm : ∀ t, MeasurableSet {ω | search abs count dim lo hi (d0 ω) isMet c (draw ω) fuel (hidden f v (A t)) w ≠
      search abs count dim lo hi (d0 ω) isMet c (draw ω) fuel f w}) (hts : ts.Nonempty) :
    ∃ t ∈ ts, ν {ω | search abs count dim lo hi (d0 ω) isMet c (draw ω) fuel (hidden f v (A t)) w ≠
      search abs count dim lo hi (d0 ω) isMet c (draw ω) fuel f w} ≤ (count * (N + 1) : Nat) / ts.card := by
  refine (sum_le_of_few hm (N := count * (N + 1)) fun ω => ?_).2 hts
  obtain ⟨r, evs, w', h, hN⟩ := hret ω
  have := C169_pso_needles h v hA
  rw [← h] at this
  refine le_trans (le_of_eq ?_) (this.trans (Nat.mul_le_mul_left _ (Nat.succ_le_succ hN)))
  congr

theorem generationCount_new (k : Nat → Swarm X K) : ∀ (l : List Nat) (tail : List (Ev X K)),
    generationCount ((l.map fun i => Ev.onNewGeneration (k i) i) ++ tail) = l.length + generationCount tail
  | [], tail => by simp
  | i :: l, tail => by
    rw [List.map_cons, List.cons_append, List.length_cons]
    show generationCount _ + 1 = _
    rw [generationCount_new k l tail]
    omega

/-- **C169, particle swarm, generation limit.** With `GenerationLimit(limit)` every run returns, so of pairwise disjoint sets some matters
with probability at most `count * (limit + 1)` divided by their number. -/
theorem C169_pso_limit {Ω ι : Type} [MeasurableSpace Ω] {ν : Measure Ω} [IsProbabilityMeasure ν] {abs : X → X} {count dim : Nat} {lo hi : X}
    (d0 : Ω → Nat → Nat → X × X) (draw : Ω → Nat → Nat → Nat → X × X) {limit fuel : Nat} (hfuel : limit < fuel) (hcount : 0 < count)
    (f : List X → Fl K) (w : W) (v : Fl K) {A : ι → Set (List X)} {ts : Finset ι}
    (hA : ∀ t ∈ ts, ∀ t' ∈ ts, t ≠ t' → Disjoint (A t) (A t'))
    (hm : ∀ t, MeasurableSet {ω | search abs count dim lo hi (d0 ω) (generationLimit limit) c (draw ω) fuel (hidden f v (A t)) w ≠
      search abs count dim lo hi (d0 ω) (generationLimit limit) c (draw ω) fuel f w}) (hts : ts.Nonempty) :
    ∃ t ∈ ts, ν {ω | search abs count dim lo hi (d0 ω) (generationLimit limit) c (draw ω) fuel (hidden f v (A t)) w ≠
      search abs count dim lo hi (d0 ω) (generationLimit limit) c (draw ω) fuel f w} ≤ (count * (limit + 1) : Nat) / ts.card := by
  refine C169_pso_chance (fun ω => ?_) v hA hm hts
  cases hg : Swarm.generate abs count dim lo hi f (d0 ω) with
  | error e => exact absurd ((C48_new_panics_iff abs count dim lo hi f (d0 ω)).1 ⟨e, hg⟩) hcount.ne'
  | ok s =>
    have hr := C48_generation_limit limit c f (draw ω) fuel hfuel s w
    refine ⟨_, _, w, M.bind_ok_iff.2 ⟨s, w, M.ofExcept_ok_iff.2 ⟨hg, rfl⟩, hr⟩, ?_⟩
    rw [List.append_assoc]
    show generationCount ((List.map _ _) ++ _) ≤ limit
    rw [generationCount_new (fun k => swarmAfter c f (draw ω) s k)]
    simp [generationCount]

end

/-- A case that meets the hypotheses: two particles on the plane, three generations, and a thousand far away spots. -/
example : ∃ t ∈ Finset.range 1000, (PMF.uniformOfFintype Bool).toMeasure {ω | search (fun x => |x|) 2 2 (-10) 10 (fun j i =>
      if ω then demoInit j i else demoInit i j) (generationLimit 3) demoCoeffs demoDraw 4 (hidden demoF (.num (-1)) {x | x = [(t : ℚ), 0]}) () ≠
    search (fun x => |x|) 2 2 (-10) 10 (fun j i => if ω then demoInit j i else demoInit i j) (generationLimit 3) demoCoeffs demoDraw 4 demoF
      ()} ≤ (2 * (3 + 1) : Nat) / (Finset.range 1000).card :=
  C169_pso_limit (ι := Nat) (c := demoCoeffs) (fun (ω : Bool) j i => if ω then demoInit j i else demoInit i j) (fun _ => demoDraw)
    (by decide) (by decide) demoF () (.num (-1)) (A := fun t => {x | x = [(t : ℚ), 0]})
    (fun t _ t' _ hne => Set.disjoint_left.2 fun x h1 h2 => hne (by
      have h3 : x = [(t : ℚ), 0] := h1
      have h4 : x = [(t' : ℚ), 0] := h2
      rw [h3] at h4
      have h5 := (List.cons.inj h4).1
      exact_mod_cast h5))
    (fun _ => .of_discrete) ⟨0, by simp⟩

end Ecrs.Pso

/-! ## Fireflies -/

namespace Ecrs.Ff
open Ecrs MeasureTheory
open scoped ENNReal Classical

section
variable {X K : Type} [LinearOrder K] {A : FloatOps X K} {c : Cfg X} {dist : List X → List X → Except Panic X} {dr : Draws X}

theorem brightness_congr {f f' : List X → X} {pop : List (List X)} (h : ∀ x ∈ pop, f' x = f x) : brightness A f' pop = brightness A f pop := by
  unfold brightness
  exact List.map_congr_left fun x hx => by rw [h x hx]

theorem moveAll_length {g : Nat} {alfa : X} {bright : List X} {pop : List (List X)} : ∀ (n i : Nat) {out : List (List X)},
    moveAll A c dist dr g alfa bright pop i n = .ok out → out.length = n
  | 0, i, out, h => by cases h; rfl
  | n + 1, i, out, h => by
    unfold moveAll at h
    obtain ⟨x, -, h⟩ := except_bind_ok.1 h
    obtain ⟨xs, h1, h⟩ := except_bind_ok.1 h
    obtain rfl := except_pure_ok.1 h
    rw [List.length_cons, moveAll_length n (i + 1) h1]

theorem generation_blind {f : List X → X} {g : Nat} {st st' : St X} {evs : List (Ev X)}
    (h : generation A c f dist dr g st = .ok (st', evs)) :
    st'.pop.length = st.pop.length ∧
      ∀ f' : List X → X, (∀ x ∈ st'.pop, f' x = f x) → generation A c f' dist dr g st = .ok (st', evs) := by
  unfold generation at h
  obtain ⟨pop, h1, h⟩ := except_bind_ok.1 h
  obtain ⟨x, h2, h⟩ := except_bind_ok.1 h
  have h' := except_pure_ok.1 h
  obtain ⟨rfl, rfl⟩ := Prod.mk.inj h'
  refine ⟨moveAll_length _ _ h1, fun f' hf => ?_⟩
  have hx : x ∈ pop := by
    have := index_ok.1 h2
    exact List.mem_of_getElem? this
  unfold generation
  rw [except_bind_of_ok h1]
  have e := brightness_congr (A := A) hf
  show (index pop (brightest A 0 ((brightness A f' pop).take c.populationSize) 0 A.zero) >>= _) = _
  rw [show brightness A f' pop = brightness A f pop from e, except_bind_of_ok h2, hf x hx]
  rfl

theorem generations_blind {f : List X → X} : ∀ (n g : Nat) {st : St X} {sts : List (St X)} {evs : List (Ev X)},
    generations A c f dist dr g n st = .ok (sts, evs) →
    ∃ Q : List (List X), Q.length = st.pop.length * n ∧
      ∀ f' : List X → X, (∀ x ∈ Q, f' x = f x) → generations A c f' dist dr g n st = .ok (sts, evs)
  | 0, g, st, sts, evs, h => ⟨[], rfl, fun f' _ => h⟩
  | n + 1, g, st, sts, evs, h => by
    unfold generations at h
    obtain ⟨⟨st', ev1⟩, h1, h⟩ := except_bind_ok.1 h
    obtain ⟨⟨sts', ev2⟩, h2, h⟩ := except_bind_ok.1 h
    obtain ⟨l1, b1⟩ := generation_blind h1
    obtain ⟨Q, c2, b2⟩ := generations_blind n (g + 1) h2
    refine ⟨st'.pop ++ Q, ?_, fun f' hf => ?_⟩
    · rw [List.length_append, c2, l1, Nat.mul_succ, Nat.add_comm]
    · unfold generations
      rw [except_bind_of_ok (b1 f' fun x hx => hf x (List.mem_append_left _ hx))]
      dsimp only
      rw [except_bind_of_ok (b2 f' fun x hx => hf x (List.mem_append_right _ hx))]
      exact h

/-- **C169, fireflies, black box.** Whatever the draws and the configuration: the result of a firefly run – all populations and everything the
probe is shown – depends on the objective function only through its values at `fireflies * (max_generations + 1)` points. -/
theorem C169_ff {f : List X → X} {pop : List (List X)} {sts : List (St X)} {evs : List (Ev X)}
    (h : run A c f dist dr pop = .ok (sts, evs)) :
    ∃ Q : List (List X), Q.length = pop.length * (c.maxGenerations + 1) ∧
      ∀ f' : List X → X, (∀ x ∈ Q, f' x = f x) → run A c f' dist dr pop = .ok (sts, evs) := by
  unfold run at h
  obtain ⟨⟨sts', evs'⟩, h1, h⟩ := except_bind_ok.1 h
  obtain ⟨Q, c1, b1⟩ := generations_blind _ _ h1
  refine ⟨pop ++ Q, ?_, fun f' hf => ?_⟩
  · rw [List.length_append, c1, Nat.mul_succ, Nat.add_comm]
    rfl
  · have e : initial A c f' pop = initial A c f pop := by
      unfold initial
      rw [brightness_congr fun x hx => hf x (List.mem_append_left _ hx)]
    unfold run
    rw [e, except_bind_of_ok (b1 f' fun x hx => hf x (List.mem_append_right _ hx))]
    exact h

/-- **C169, fireflies, needles.** Of any pairwise disjoint sets, at most `fireflies * (max_generations + 1)` make any difference to the run
when the objective function takes another value on them. -/
theorem C169_ff_needles {ι : Type} {f : List X → X} {pop : List (List X)} {sts : List (St X)} {evs : List (Ev X)}
    (h : run A c f dist dr pop = .ok (sts, evs)) (v : X) {S : ι → Set (List X)} {ts : Finset ι}
    (hS : ∀ t ∈ ts, ∀ t' ∈ ts, t ≠ t' → Disjoint (S t) (S t')) :
    (ts.filter fun t => run A c (hidden f v (S t)) dist dr pop ≠ .ok (sts, evs)).card ≤ pop.length * (c.maxGenerations + 1) := by
  obtain ⟨Q, hQ, hb⟩ := C169_ff h
  rw [← h]
  refine le_trans (le_of_eq ?_) (few_matter (go := fun f => run A c f dist dr pop) hQ.le (fun f' hf => by rw [hb f' hf, h]) v hS)
  congr

/-- **C169, fireflies, random draws.** If the population and the draws are random, some of the sets matters with probability at most
`fireflies * (max_generations + 1)` divided by the number of sets. -/
theorem C169_ff_chance {Ω ι : Type} [MeasurableSpace Ω] {ν : Measure Ω} [IsProbabilityMeasure ν] {f : List X → X}
    {pop : Ω → List (List X)} {draws : Ω → Draws X} {n : Nat} (hn : ∀ ω, (pop ω).length = n)
    (hret : ∀ ω, ∃ r, run A c f dist (draws ω) (pop ω) = .ok r) (v : X) {S : ι → Set (List X)} {ts : Finset ι}
    (hS : ∀ t ∈ ts, ∀ t' ∈ ts, t ≠ t' → Disjoint (S t) (S t'))
    (hm : ∀ t, MeasurableSet {ω | run A c (hidden f v (S t)) dist (draws ω) (pop ω) ≠ run A c f dist (draws ω) (pop ω)})
    (hts : ts.Nonempty) :
    ∃ t ∈ ts, ν {ω | run A c (hidden f v (S t)) dist (draws ω) (pop ω) ≠ run A c f dist (draws ω) (pop ω)} ≤
      (n * (c.maxGenerations + 1) : Nat) / ts.card := by
  refine (sum_le_of_few hm (N := n * (c.maxGenerations + 1)) fun ω => ?_).2 hts
  obtain ⟨⟨sts, evs⟩, h⟩ := hret ω
  have := C169_ff_needles h v hS
  rw [← h, hn ω] at this
  refine le_trans (le_of_eq ?_) this
  congr

end

/-- A case that meets the hypotheses: two fireflies on a line, four generations, a hundred far away spots. -/
example : ∃ t ∈ Finset.range 100, (PMF.uniformOfFintype Bool).toMeasure {ω |
    run (Ext.ops (fun _ => .fin 1) id 1000) exCfg (hidden exF (.fin (-1)) {x | x = [.fin (t : ℚ)]}) (taxi (Ext.ops (fun _ => .fin 1) id 1000))
      exDraws (if ω then [[.fin 1], [.fin 3]] else [[.fin 2], [.fin 3]]) ≠
    run (Ext.ops (fun _ => .fin 1) id 1000) exCfg exF (taxi (Ext.ops (fun _ => .fin 1) id 1000))
      exDraws (if ω then [[.fin 1], [.fin 3]] else [[.fin 2], [.fin 3]])} ≤ (2 * (4 + 1) : Nat) / (Finset.range 100).card :=
  C169_ff_chance (ι := Nat) (c := exCfg) (n := 2) (pop := fun ω : Bool => if ω then [[.fin 1], [.fin 3]] else [[.fin 2], [.fin 3]])
    (draws := fun _ => exDraws) (fun ω => by cases ω <;> rfl)
    (fun ω => by
      refine C80_run_returns (dim := 1) (fun x y h1 h2 => ?_) ?_
      · match x, y, h1, h2 with
        | [a], [b], _, _ => exact ⟨_, rfl⟩
      · cases ω <;> exact ⟨by decide, by decide, by simp⟩)
    (.fin (-1)) (S := fun t => {x | x = [.fin (t : ℚ)]})
    (fun t _ t' _ hne => Set.disjoint_left.2 fun x h1 h2 => hne (by
      have h3 : x = [.fin (t : ℚ)] := h1
      have h4 : x = [.fin (t' : ℚ)] := h2
      rw [h3] at h4
      have h5 := Ext.fin.inj (List.cons.inj h4).1
      exact_mod_cast h5))
    (fun _ => .of_discrete) ⟨0, by simp⟩

end Ecrs.Ff
