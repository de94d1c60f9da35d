import Verif.Pso.Pso
import Verif.Props.Presets
import Mathlib.Algebra.Order.Field.Basic
import Mathlib.Algebra.Order.Ring.Rat
import Mathlib.Tactic.Linarith
import Mathlib.Tactic.Ring

set_option linter.unusedSectionVars false

/-!
# Properties of particle swarm optimisation: C45-C51, C73-C76
-/

namespace Ecrs.Pso
open Ecrs

section general
variable {X K : Type} [Add X] [Sub X] [Mul X] [Neg X] [LinearOrder K]

/-! ## Specifications -/

/-- Specification: `History c f h s`: `h` lists the swarms of an algorithm object from its construction to its
current swarm `s` (the last of `h`), with arbitrary configuration of the construction and arbitrary random draws.
Calls to `run` only ever extend a history (`C45_run_extends_history`). -/
inductive History (c : Coeffs X) (f : List X → Fl K) : List (Swarm X K) → Swarm X K → Prop
  | new (abs : X → X) (count dim : Nat) (lo hi : X) (draw : Nat → Nat → X × X) (s : Swarm X K)
      (h : Swarm.generate abs count dim lo hi f draw = .ok s) : History c f [s] s
  | step (h : List (Swarm X K)) (s : Swarm X K) (draw : Nat → Nat → X × X) (hh : History c f h s) :
      History c f (h ++ [s.iterate c f draw]) (s.iterate c f draw)

/-- Specification: the objective is a number (not NaN) at every particle's initial position. -/
def NumericStart (f : List X → Fl K) (h : List (Swarm X K)) : Prop :=
  ∀ s0, h.head? = some s0 → ∀ q ∈ s0.particles, (f q.position).IsNum

/-- Specification: particle number `k` was at position `x` in some swarm of the history. -/
def VisitedBy (h : List (Swarm X K)) (k : Nat) (x : List X) : Prop :=
  ∃ s ∈ h, ∃ q, s.particles[k]? = some q ∧ q.position = x

/-- Specification: the swarm a callback shows. -/
def Ev.swarm : Ev X K → Swarm X K
  | .onBegin s => s
  | .onNewGeneration s _ => s
  | .onEnd s _ => s

/-- Specification: the swarms shown by the `on_new_generation` callbacks. -/
def generations (evs : List (Ev X K)) : List (Swarm X K) :=
  evs.filterMap fun | .onNewGeneration s _ => some s | _ => none

/-! ## Lemmas about one iteration -/

theorem bestStep_foldl (f : List X → Fl K) (qs : List (Particle X K)) (b : List X × Fl K)
    (hq : ∀ q ∈ qs, q.bestValue = f q.bestPosition) (hb : b.2 = f b.1) :
    let r := qs.foldl (bestStep f) b
    r.2 = f r.1 ∧ (r = b ∨ ∃ q ∈ qs, r = (q.bestPosition, q.bestValue)) ∧ (r.2 = b.2 ∨ Fl.Lt r.2 b.2) ∧
    (b.2.IsNum → r.2.IsNum ∧ ∀ q ∈ qs, q.bestValue.IsNum → Fl.Le r.2 q.bestValue) := by
  induction qs generalizing b with
  | nil => simp [hb]
  | cons q qs ih =>
    have hqv := hq q (by simp)
    have hqs : ∀ q ∈ qs, q.bestValue = f q.bestPosition := fun q h => hq q (by simp [h])
    simp only [List.foldl_cons]
    have hs : (bestStep f b q).2 = f (bestStep f b q).1 := by
      unfold bestStep; split
      · exact hqv
      · exact hb
    obtain ⟨h1, h2, h3, h4⟩ := ih (bestStep f b q) hqs hs
    have hcase : (Fl.Lt q.bestValue b.2 ∧ bestStep f b q = (q.bestPosition, q.bestValue)) ∨
        (¬ Fl.Lt q.bestValue b.2 ∧ bestStep f b q = b) := by
      unfold bestStep
      rw [← hqv, ← hb]
      by_cases h : Fl.lt q.bestValue b.2 = true
      · rw [if_pos h]; exact .inl ⟨Fl.lt_iff.1 h, rfl⟩
      · rw [if_neg h]; exact .inr ⟨fun h' => h (Fl.lt_iff.2 h'), rfl⟩
    refine ⟨h1, ?_, ?_, ?_⟩
    · rcases h2 with h2 | ⟨q', hq', h2⟩
      · rcases hcase with ⟨-, hc⟩ | ⟨-, hc⟩
        · exact .inr ⟨q, by simp, by rw [h2, hc]⟩
        · exact .inl (by rw [h2, hc])
      · exact .inr ⟨q', by simp [hq'], h2⟩
    · rcases hcase with ⟨hl, hc⟩ | ⟨hl, hc⟩
      · rw [hc] at h3 ⊢
        right
        rcases h3 with h3 | h3
        · rw [h3]; exact hl
        · exact h3.trans_le hl.le
      · rw [hc] at h3 ⊢; exact h3
    · intro hbn
      have hsn : (bestStep f b q).2.IsNum := by
        rcases hcase with ⟨hl, hc⟩ | ⟨hl, hc⟩
        · rw [hc]; exact hl.le.isNum_left
        · rw [hc]; exact hbn
      obtain ⟨h5, h6⟩ := h4 hsn
      refine ⟨h5, fun q' hq' hn => ?_⟩
      rcases List.mem_cons.1 hq' with rfl | hq'
      · have hle : Fl.Le (bestStep f b q').2 q'.bestValue := by
          rcases hcase with ⟨hl, hc⟩ | ⟨hl, hc⟩
          · rw [hc]; exact Fl.le_refl hn
          · rw [hc]; exact (Fl.not_lt hn hbn).1 hl
        rcases h3 with h3 | h3
        · rw [h3]; exact hle
        · exact h3.le.trans hle
      · exact h6 q' hq' hn

theorem initialBest_spec (f : List X → Fl K) (qs : List (Particle X K)) (b : List X) :
    (initialBest f b qs = b ∨ ∃ q ∈ qs, initialBest f b qs = q.position) ∧
    (f (initialBest f b qs) = f b ∨ Fl.Lt (f (initialBest f b qs)) (f b)) ∧
    ((f b).IsNum → (f (initialBest f b qs)).IsNum ∧
      ∀ q ∈ qs, (f q.position).IsNum → Fl.Le (f (initialBest f b qs)) (f q.position)) := by
  induction qs generalizing b with
  | nil => simp [initialBest]
  | cons q qs ih =>
    by_cases h : Fl.lt (f q.position) (f b) = true
    · have hl := Fl.lt_iff.1 h
      have he : initialBest f b (q :: qs) = initialBest f q.position qs := by rw [initialBest, if_pos h]
      obtain ⟨h2, h3, h4⟩ := ih q.position
      rw [he]
      refine ⟨?_, ?_, fun _ => ?_⟩
      · rcases h2 with h2 | ⟨q', hq', h2⟩
        · exact .inr ⟨q, by simp, h2⟩
        · exact .inr ⟨q', by simp [hq'], h2⟩
      · right
        rcases h3 with h3 | h3
        · rw [h3]; exact hl
        · exact h3.trans_le hl.le
      · obtain ⟨h5, h6⟩ := h4 hl.le.isNum_left
        refine ⟨h5, fun q' hq' hn => ?_⟩
        rcases List.mem_cons.1 hq' with rfl | hq'
        · rcases h3 with h3 | h3
          · rw [h3]; exact Fl.le_refl hn
          · exact h3.le
        · exact h6 q' hq' hn
    · have hl : ¬ Fl.Lt (f q.position) (f b) := fun h' => h (Fl.lt_iff.2 h')
      have he : initialBest f b (q :: qs) = initialBest f b qs := by rw [initialBest, if_neg h]
      obtain ⟨h2, h3, h4⟩ := ih b
      rw [he]
      refine ⟨?_, h3, fun hb => ?_⟩
      · rcases h2 with h2 | ⟨q', hq', h2⟩
        · exact .inl h2
        · exact .inr ⟨q', by simp [hq'], h2⟩
      · obtain ⟨h5, h6⟩ := h4 hb
        refine ⟨h5, fun q' hq' hn => ?_⟩
        rcases List.mem_cons.1 hq' with rfl | hq'
        · have hle := (Fl.not_lt hn hb).1 hl
          rcases h3 with h3 | h3
          · rw [h3]; exact hle
          · exact h3.le.trans hle
        · exact h6 q' hq' hn

/-- What one iteration does to a particle's record. -/
theorem updatePosition_spec (f : List X → Fl K) (q : Particle X K) (hv : q.bestValue = f q.bestPosition) :
    let r := q.updatePosition f
    r.value = f r.position ∧ r.bestValue = f r.bestPosition ∧
    (r.bestPosition = q.bestPosition ∨ r.bestPosition = r.position) ∧
    (r.bestValue = q.bestValue ∨ Fl.Lt r.bestValue q.bestValue) ∧
    (q.bestValue.IsNum → r.bestValue.IsNum ∧ ((f r.position).IsNum → Fl.Le r.bestValue (f r.position))) := by
  unfold Particle.updatePosition
  simp only
  generalize List.zipWith (fun x v => x + v) q.position q.velocity = pos
  by_cases h : Fl.lt (f pos) q.bestValue = true
  · rw [if_pos h]
    have hl := Fl.lt_iff.1 h
    exact ⟨rfl, rfl, .inr rfl, .inr hl, fun _ => ⟨hl.le.isNum_left, fun hn => Fl.le_refl hn⟩⟩
  · rw [if_neg h]
    have hl : ¬ Fl.Lt (f pos) q.bestValue := fun h' => h (Fl.lt_iff.2 h')
    exact ⟨rfl, hv, .inl rfl, .inl rfl, fun hq => ⟨hq, fun hn => (Fl.not_lt hn hq).1 hl⟩⟩

theorem iterate_particle (c : Coeffs X) (f : List X → Fl K) (draw : Nat → Nat → X × X) (s : Swarm X K) (k : Nat) :
    (s.iterate c f draw).particles[k]? =
      (s.particles[k]?).map fun q => (q.updateVelocity c (draw k) s.bestPosition).updatePosition f := by
  show (((s.particles.mapIdx fun j q => q.updateVelocity c (draw j) s.bestPosition)).map
    (Particle.updatePosition f))[k]? = _
  rw [List.getElem?_map, List.getElem?_mapIdx, Option.map_map]
  rfl

theorem iterate_length (c : Coeffs X) (f : List X → Fl K) (draw : Nat → Nat → X × X) (s : Swarm X K) :
    (s.iterate c f draw).particles.length = s.particles.length := by
  show ((s.particles.mapIdx fun j q => q.updateVelocity c (draw j) s.bestPosition).map
    (Particle.updatePosition f)).length = _
  simp

/-- Values recorded by a swarm are the objective at the recorded positions. -/
structure Consistent (f : List X → Fl K) (s : Swarm X K) : Prop where
  best : s.bestValue = f s.bestPosition
  value : ∀ q ∈ s.particles, q.value = f q.position
  pbest : ∀ q ∈ s.particles, q.bestValue = f q.bestPosition

theorem generate_shape {abs : X → X} {count dim : Nat} {lo hi : X} {f : List X → Fl K}
    {draw : Nat → Nat → X × X} {s : Swarm X K} (h : Swarm.generate abs count dim lo hi f draw = .ok s) :
    s.particles = (List.range count).map (fun j => Particle.generate abs dim lo hi f (draw j)) ∧
    ∃ q0, s.particles[0]? = some q0 ∧ s.bestPosition = initialBest f q0.position s.particles ∧
      s.bestValue = f s.bestPosition := by
  unfold Swarm.generate at h
  split at h
  · cases h
  · rename_i q qs hq
    cases h
    refine ⟨hq.symm, q, rfl, ?_, rfl⟩
    have : q ∈ (List.range count).map (fun j => Particle.generate abs dim lo hi f (draw j)) := by rw [hq]; simp
    obtain ⟨j, -, rfl⟩ := List.mem_map.1 this
    rfl

theorem History.consistent {c : Coeffs X} {f : List X → Fl K} {h : List (Swarm X K)} {s : Swarm X K}
    (hh : History c f h s) : Consistent f s := by
  induction hh with
  | new abs count dim lo hi draw s hs =>
    obtain ⟨h1, q0, h2, h3, h4⟩ := generate_shape hs
    refine ⟨h4, ?_, ?_⟩ <;>
    · intro q hq
      rw [h1] at hq
      obtain ⟨j, -, rfl⟩ := List.mem_map.1 hq
      rfl
  | step h s draw hh ih =>
    have hp : ∀ q ∈ (s.iterate c f draw).particles, q.value = f q.position ∧ q.bestValue = f q.bestPosition := by
      intro q hq
      obtain ⟨k, hk⟩ := List.mem_iff_getElem?.1 hq
      rw [iterate_particle] at hk
      obtain ⟨q0, hq0, rfl⟩ := Option.map_eq_some_iff.1 hk
      have := updatePosition_spec f (q0.updateVelocity c (draw k) s.bestPosition)
        (ih.pbest q0 (List.mem_of_getElem? hq0))
      exact ⟨this.1, this.2.1⟩
    refine ⟨?_, fun q hq => (hp q hq).1, fun q hq => (hp q hq).2⟩
    exact (bestStep_foldl f _ (s.bestPosition, s.bestValue) (fun q hq => (hp q hq).2) ih.best).1

/-- The invariant behind C45. -/
structure Inv (f : List X → Fl K) (h : List (Swarm X K)) (s : Swarm X K) : Prop where
  last : h.getLast? = some s
  lengths : ∀ s' ∈ h, s'.particles.length = s.particles.length
  num : s.bestValue.IsNum
  bestVisited : ∃ k, VisitedBy h k s.bestPosition
  own : ∀ (k : Nat) q, s.particles[k]? = some q → q.bestValue.IsNum ∧ Fl.Le s.bestValue q.bestValue ∧
    VisitedBy h k q.bestPosition ∧
    ∀ x, VisitedBy h k x → (f x).IsNum → Fl.Le q.bestValue (f x)

theorem VisitedBy.mono {h h' : List (Swarm X K)} {k : Nat} {x : List X} (hv : VisitedBy h k x) :
    VisitedBy (h ++ h') k x := by
  obtain ⟨s, hs, q, h1, h2⟩ := hv
  exact ⟨s, by simp [hs], q, h1, h2⟩

theorem visitedBy_append {h : List (Swarm X K)} {s : Swarm X K} {k : Nat} {x : List X}
    (hv : VisitedBy (h ++ [s]) k x) : VisitedBy h k x ∨ ∃ q, s.particles[k]? = some q ∧ q.position = x := by
  obtain ⟨s', hs, q, h1, h2⟩ := hv
  rcases List.mem_append.1 hs with hs | hs
  · exact .inl ⟨s', hs, q, h1, h2⟩
  · simp at hs; subst hs; exact .inr ⟨q, h1, h2⟩

theorem History.ne_nil {c : Coeffs X} {f : List X → Fl K} {h : List (Swarm X K)} {s : Swarm X K}
    (hh : History c f h s) : h ≠ [] := by
  cases hh <;> simp

theorem History.inv {c : Coeffs X} {f : List X → Fl K} {h : List (Swarm X K)} {s : Swarm X K}
    (hh : History c f h s) (hn : NumericStart f h) : Inv f h s := by
  induction hh with
  | new abs count dim lo hi draw s hs =>
    obtain ⟨h1, q0, h2, h3, h4⟩ := generate_shape hs
    have hnum : ∀ q ∈ s.particles, (f q.position).IsNum := hn s rfl
    have hq0 : q0 ∈ s.particles := List.mem_of_getElem? h2
    obtain ⟨g1, g2, g3⟩ := initialBest_spec f s.particles q0.position
    rw [← h3] at g1 g2 g3
    obtain ⟨g4, g5⟩ := g3 (hnum _ hq0)
    have hown : ∀ q ∈ s.particles, q.bestPosition = q.position ∧ q.bestValue = f q.position := by
      intro q hq
      rw [h1] at hq
      obtain ⟨j, -, rfl⟩ := List.mem_map.1 hq
      exact ⟨rfl, rfl⟩
    refine ⟨rfl, by simp, by rw [h4]; exact g4, ?_, fun k q hq => ?_⟩
    · rcases g1 with g1 | ⟨q, hq, g1⟩
      · exact ⟨0, s, by simp, q0, h2, g1.symm⟩
      · obtain ⟨k, hk⟩ := List.mem_iff_getElem?.1 hq
        exact ⟨k, s, by simp, q, hk, g1.symm⟩
    · have hm := List.mem_of_getElem? hq
      obtain ⟨e1, e2⟩ := hown q hm
      refine ⟨by rw [e2]; exact hnum q hm, by rw [e2, h4]; exact g5 q hm (hnum q hm),
        ⟨s, by simp, q, hq, e1.symm⟩, fun x hx hxn => ?_⟩
      obtain ⟨s', hs', q', hq', rfl⟩ := hx
      simp at hs'; subst hs'
      rw [hq] at hq'; cases hq'
      rw [e2]; exact Fl.le_refl hxn
  | step h s draw hh ih =>
    have hne := hh.ne_nil
    have hn' : NumericStart f h := by
      intro s0 hs0; exact hn s0 (by rw [List.head?_append_of_ne_nil _ hne]; exact hs0)
    obtain ⟨i1, i2, i3, ⟨kb, i4⟩, i5⟩ := ih hn'
    have hc := hh.consistent
    have hc' := (History.step h s draw hh).consistent
    have hfold := bestStep_foldl f (s.iterate c f draw).particles (s.bestPosition, s.bestValue) hc'.pbest hc.best
    have e1 : (s.iterate c f draw).bestPosition =
        ((s.iterate c f draw).particles.foldl (bestStep f) (s.bestPosition, s.bestValue)).1 := rfl
    have e2 : (s.iterate c f draw).bestValue =
        ((s.iterate c f draw).particles.foldl (bestStep f) (s.bestPosition, s.bestValue)).2 := rfl
    simp only at hfold
    rw [← e1, ← e2] at hfold
    obtain ⟨-, f2, -, f4⟩ := hfold
    obtain ⟨f5, f6⟩ := f4 i3
    have hpart : ∀ (k : Nat) q, (s.iterate c f draw).particles[k]? = some q →
        q.bestValue.IsNum ∧ VisitedBy (h ++ [s.iterate c f draw]) k q.bestPosition ∧
        ∀ x, VisitedBy (h ++ [s.iterate c f draw]) k x → (f x).IsNum → Fl.Le q.bestValue (f x) := by
      intro k q hq
      have hq1 := hq
      rw [iterate_particle] at hq
      obtain ⟨q0, hq0, rfl⟩ := Option.map_eq_some_iff.1 hq
      obtain ⟨j1, j2, j3, j4⟩ := i5 k q0 hq0
      obtain ⟨p1, p2, p3, p4, p5⟩ := updatePosition_spec f (q0.updateVelocity c (draw k) s.bestPosition)
        (hc.pbest q0 (List.mem_of_getElem? hq0))
      obtain ⟨p6, p7⟩ := p5 j1
      refine ⟨p6, ?_, fun x hx hxn => ?_⟩
      · rcases p3 with p3 | p3
        · rw [p3]; exact j3.mono
        · rw [p3]; exact ⟨_, by simp, _, hq1, rfl⟩
      · rcases visitedBy_append hx with hx | ⟨q', hq', rfl⟩
        · have := j4 x hx hxn
          rcases p4 with p4 | p4
          · rw [p4]; exact this
          · exact p4.le.trans this
        · rw [hq1] at hq'; cases hq'
          exact p7 hxn
    refine ⟨by simp, ?_, f5, ?_, fun k q hq => ?_⟩
    · intro s' hs'
      rw [iterate_length]
      rcases List.mem_append.1 hs' with hs' | hs'
      · exact i2 s' hs'
      · simp at hs'; subst hs'; exact iterate_length ..
    · rcases f2 with f2 | ⟨q, hq, f2⟩
      · have : (s.iterate c f draw).bestPosition = s.bestPosition := by rw [e1, f2]
        rw [this]; exact ⟨kb, i4.mono⟩
      · have : (s.iterate c f draw).bestPosition = q.bestPosition := by rw [e1, f2]
        obtain ⟨k, hk⟩ := List.mem_iff_getElem?.1 hq
        rw [this]; exact ⟨k, (hpart k q hk).2.1⟩
    · obtain ⟨a1, a2, a3⟩ := hpart k q hq
      exact ⟨a1, f6 q (List.mem_of_getElem? hq) a1, a2, a3⟩

/-! ## C45, C46 -/

/-- **C45, swarm.** At every moment of the life of a PSO object whose objective is a number at the initial
positions: the swarm's best value is the objective at its best position, that position was visited, and no visited
position (with a non-NaN value) has a smaller value. -/
theorem C45_swarm_best {c : Coeffs X} {f : List X → Fl K} {h : List (Swarm X K)} {s : Swarm X K}
    (hh : History c f h s) (hn : NumericStart f h) :
    s.bestValue = f s.bestPosition ∧ (∃ k, VisitedBy h k s.bestPosition) ∧
    ∀ k x, VisitedBy h k x → (f x).IsNum → Fl.Le s.bestValue (f x) := by
  have hi := hh.inv hn
  refine ⟨hh.consistent.best, hi.bestVisited, fun k x hx hxn => ?_⟩
  have hk : k < s.particles.length := by
    obtain ⟨s', hs', q, hq, -⟩ := hx
    rw [← hi.lengths s' hs']
    exact (List.getElem?_eq_some_iff.1 hq).1
  obtain ⟨j1, j2, j3, j4⟩ := hi.own k _ (List.getElem?_eq_getElem hk)
  exact j2.trans (j4 x hx hxn)

/-- **C45, particles.** Each particle's own best is a minimum of the objective over that particle's own
trajectory, and is attained on it. -/
theorem C45_particle_best {c : Coeffs X} {f : List X → Fl K} {h : List (Swarm X K)} {s : Swarm X K}
    (hh : History c f h s) (hn : NumericStart f h) (k : Nat) (q : Particle X K) (hq : s.particles[k]? = some q) :
    q.value = f q.position ∧ q.bestValue = f q.bestPosition ∧ VisitedBy h k q.bestPosition ∧
    ∀ x, VisitedBy h k x → (f x).IsNum → Fl.Le q.bestValue (f x) := by
  obtain ⟨j1, j2, j3, j4⟩ := (hh.inv hn).own k q hq
  have hm := List.mem_of_getElem? hq
  exact ⟨hh.consistent.value q hm, hh.consistent.pbest q hm, j3, j4⟩

/-- What a returning loop did. -/
theorem loop_ok {W : Type} {isMet : Term W X K} {c : Coeffs X} {f : List X → Fl K}
    {draw : Nat → Nat → Nat → X × X} :
    ∀ {fuel i : Nat} {s s' : Swarm X K} {evs : List (Ev X K)} {w w' : W},
      loop isMet c f draw fuel i s w = .ok ((s', evs), w') →
      (evs = [.onEnd s i] ∧ s' = s ∧ isMet i s w = .ok (true, w')) ∨
      ∃ evs' w1, evs = .onNewGeneration (s.iterate c f (draw (i + 1))) (i + 1) :: evs' ∧
        isMet i s w = .ok (false, w1) ∧ ∃ fuel', fuel = fuel' + 1 ∧
        loop isMet c f draw fuel' (i + 1) (s.iterate c f (draw (i + 1))) w1 = .ok ((s', evs'), w')
  | 0, i, s, s', evs, w, w', h => by simp [loop] at h
  | fuel + 1, i, s, s', evs, w, w', h => by
    rw [loop] at h
    obtain ⟨stop, w1, h1, h2⟩ := M.bind_ok_iff.1 h
    cases stop with
    | true =>
      rw [if_pos rfl] at h2
      rw [M.pure_ok_iff] at h2
      cases h2
      exact .inl ⟨rfl, rfl, h1⟩
    | false =>
      rw [if_neg (by simp)] at h2
      obtain ⟨⟨r, e⟩, w2, h3, h4⟩ := M.bind_ok_iff.1 h2
      have h5 := M.pure_ok_iff.1 h4
      cases h5
      exact .inr ⟨e, w1, rfl, h1, fuel, rfl, h3⟩

theorem loop_history {W : Type} {isMet : Term W X K} {c : Coeffs X} {f : List X → Fl K}
    {draw : Nat → Nat → Nat → X × X} (fuel : Nat) :
    ∀ {i : Nat} {s s' : Swarm X K} {evs : List (Ev X K)} {w w' : W} {h : List (Swarm X K)},
      loop isMet c f draw fuel i s w = .ok ((s', evs), w') → History c f h s →
      History c f (h ++ generations evs) s' := by
  induction fuel with
  | zero => intro i s s' evs w w' h hl; simp [loop] at hl
  | succ fuel ih =>
    intro i s s' evs w w' h hl hh
    rcases loop_ok hl with ⟨rfl, rfl, -⟩ | ⟨evs', w1, rfl, -, fuel', hf, hl'⟩
    · simpa [generations] using hh
    · cases hf
      have := ih hl' (History.step h s (draw (i + 1)) hh)
      simpa [generations, List.append_assoc] using this

/-- **C45, link to `run`.** Whatever the termination condition and the draws, a returning `run` extends the history
of the object by exactly the swarms shown to `on_new_generation`; so C45 holds during and after any number of
runs of the same object. -/
theorem C45_run_extends_history {W : Type} {isMet : Term W X K} {c : Coeffs X} {f : List X → Fl K}
    {draw : Nat → Nat → Nat → X × X} {fuel : Nat} {s s' : Swarm X K} {evs : List (Ev X K)} {w w' : W}
    {h : List (Swarm X K)} (hr : run isMet c f draw fuel s w = .ok ((s', evs), w')) (hh : History c f h s) :
    History c f (h ++ generations evs) s' := by
  unfold run at hr
  obtain ⟨⟨r, e⟩, w1, h1, h2⟩ := M.bind_ok_iff.1 hr
  have h3 := M.pure_ok_iff.1 h2
  cases h3
  have := loop_history fuel h1 hh
  simpa [generations] using this

/-- The best value after an iteration is unchanged or strictly smaller. -/
theorem iterate_best {c : Coeffs X} {f : List X → Fl K} {h : List (Swarm X K)} {s : Swarm X K}
    (hh : History c f h s) (draw : Nat → Nat → X × X) :
    (s.iterate c f draw).bestValue = s.bestValue ∨ Fl.Lt (s.iterate c f draw).bestValue s.bestValue :=
  (bestStep_foldl f (s.iterate c f draw).particles (s.bestPosition, s.bestValue)
    (History.step h s draw hh).consistent.pbest hh.consistent.best).2.2.1

theorem loop_best {W : Type} {isMet : Term W X K} {c : Coeffs X} {f : List X → Fl K}
    {draw : Nat → Nat → Nat → X × X} (fuel : Nat) :
    ∀ {i : Nat} {s s' : Swarm X K} {evs : List (Ev X K)} {w w' : W} {h : List (Swarm X K)},
      loop isMet c f draw fuel i s w = .ok ((s', evs), w') → History c f h s →
      (∀ e ∈ evs, e.swarm.bestValue = s.bestValue ∨ Fl.Lt e.swarm.bestValue s.bestValue) ∧
      evs.Pairwise (fun a b => b.swarm.bestValue = a.swarm.bestValue ∨ Fl.Lt b.swarm.bestValue a.swarm.bestValue) := by
  induction fuel with
  | zero => intro i s s' evs w w' h hl; simp [loop] at hl
  | succ fuel ih =>
    intro i s s' evs w w' h hl hh
    rcases loop_ok hl with ⟨rfl, rfl, -⟩ | ⟨evs', w1, rfl, -, fuel', hf, hl'⟩
    · simp [Ev.swarm]
    · cases hf
      obtain ⟨h1, h2⟩ := ih hl' (History.step h s (draw (i + 1)) hh)
      have hb := iterate_best hh (draw (i + 1))
      refine ⟨fun e he => ?_, List.pairwise_cons.2 ⟨fun e he => h1 e he, h2⟩⟩
      rcases List.mem_cons.1 he with rfl | he
      · exact hb
      · rcases h1 e he with h3 | h3
        · rw [h3]; exact hb
        · right
          rcases hb with hb | hb
          · rw [hb] at h3; exact h3
          · exact h3.trans_le hb.le

/-- **C46.** Over the callbacks of any returning run, the best value shown never gets worse: each later callback
shows the same value or a strictly smaller one (no hypothesis on NaN). -/
theorem C46_best_never_worsens {W : Type} {isMet : Term W X K} {c : Coeffs X} {f : List X → Fl K}
    {draw : Nat → Nat → Nat → X × X} {fuel : Nat} {s s' : Swarm X K} {evs : List (Ev X K)} {w w' : W}
    {h : List (Swarm X K)} (hr : run isMet c f draw fuel s w = .ok ((s', evs), w')) (hh : History c f h s) :
    evs.Pairwise fun a b =>
      b.swarm.bestValue = a.swarm.bestValue ∨ Fl.Lt b.swarm.bestValue a.swarm.bestValue := by
  unfold run at hr
  obtain ⟨⟨r, e⟩, w1, h1, h2⟩ := M.bind_ok_iff.1 hr
  have h3 := M.pure_ok_iff.1 h2
  cases h3
  obtain ⟨h4, h5⟩ := loop_best fuel h1 hh
  exact List.pairwise_cons.2 ⟨fun e he => h4 e he, h5⟩

/-- **C45 is false with NaN.** If the objective is NaN where particle 0 starts, the swarm's best stays at that NaN position for ever, whatever the particles find later. -/
theorem C45_nan_start_is_never_left {c : Coeffs X} {f : List X → Fl K} {h : List (Swarm X K)} {s s0 : Swarm X K}
    (hh : History c f h s) (h0 : h.head? = some s0) (q0 : Particle X K) (hq : s0.particles[0]? = some q0)
    (hnan : f q0.position = .nan) : s.bestPosition = q0.position ∧ s.bestValue = .nan := by
  have hlt : ∀ a : Fl K, Fl.lt a .nan = false := by intro a; cases a <;> rfl
  induction hh with
  | new abs count dim lo hi draw s hs =>
    obtain ⟨h1, q, h2, h3, h4⟩ := generate_shape hs
    simp at h0; subst h0
    rw [hq] at h2; cases h2
    have : ∀ qs : List (Particle X K), initialBest f q0.position qs = q0.position := by
      intro qs
      induction qs with
      | nil => rfl
      | cons q qs ih => rw [initialBest, hnan, hlt]; simpa using ih
    rw [this] at h3
    exact ⟨h3, by rw [h4, h3, hnan]⟩
  | step h s draw hh ih =>
    have hne := hh.ne_nil
    rw [List.head?_append_of_ne_nil _ hne] at h0
    obtain ⟨h1, h2⟩ := ih h0
    have : ∀ qs : List (Particle X K), qs.foldl (bestStep f) (s.bestPosition, s.bestValue) =
        (s.bestPosition, s.bestValue) := by
      intro qs
      induction qs with
      | nil => rfl
      | cons q qs ih =>
        rw [List.foldl_cons]
        have : bestStep f (s.bestPosition, s.bestValue) q = (s.bestPosition, s.bestValue) := by
          unfold bestStep; simp only [h1, hnan, hlt]; simp
        rw [this]; exact ih
    have e : (s.iterate c f draw).particles.foldl (bestStep f) (s.bestPosition, s.bestValue) = _ :=
      this (s.iterate c f draw).particles
    constructor
    · show ((s.iterate c f draw).particles.foldl (bestStep f) (s.bestPosition, s.bestValue)).1 = _
      rw [e]; exact h1
    · show ((s.iterate c f draw).particles.foldl (bestStep f) (s.bestPosition, s.bestValue)).2 = _
      rw [e]; exact h2

/-! ## C47 -/

/-- **C47, velocities.** Whatever the interleaving of the worker tasks' steps, once all tasks have finished the
particles are those of `update_velocities`: the result does not depend on the schedule. -/
theorem C47_velocities_schedule_independent (c : Coeffs X) (draw : Nat → Nat → X × X) (s : Swarm X K)
    (sched : List Nat)
    (hdone : ∀ t ∈ VTask.schedule c draw sched (s.particles.map (VTask.start s.bestPosition)), t.done = true) :
    (VTask.schedule c draw sched (s.particles.map (VTask.start s.bestPosition))).map VTask.particle =
      (s.updateVelocities c draw).particles := by
  -- invariant of one task
  let J : Nat → Particle X K → VTask X K → Prop := fun j q t =>
    (t.done = false → t.particle = q ∧
      velocityFrom c (draw j) 0 q.velocity q.position q.bestPosition s.bestPosition =
        t.acc ++ velocityFrom c (draw j) t.idx t.rest.1 t.rest.2.1 t.rest.2.2.1 t.rest.2.2.2) ∧
    (t.done = true → t.particle = q.updateVelocity c (draw j) s.bestPosition)
  have hstep : ∀ j q t, J j q t → J j q (t.step c (draw j)) := by
    intro j q t ⟨h1, h2⟩
    unfold VTask.step
    cases hd : t.done with
    | true => rw [if_pos rfl]; exact ⟨h1, h2⟩
    | false =>
      rw [if_neg (by simp)]
      obtain ⟨e1, e2⟩ := h1 hd
      rcases hr : t.rest with ⟨v, x, p, g⟩
      rw [hr] at e2
      simp only at e2
      cases v with
      | nil => exact ⟨fun h => by simp at h, fun _ => by
          simp only [e1, Particle.updateVelocity]; rw [e2]; simp [velocityFrom]⟩
      | cons v vs =>
        cases x with
        | nil => exact ⟨fun h => by simp at h, fun _ => by
            simp only [e1, Particle.updateVelocity]; rw [e2]; simp [velocityFrom]⟩
        | cons x xs =>
          cases p with
          | nil => exact ⟨fun h => by simp at h, fun _ => by
              simp only [e1, Particle.updateVelocity]; rw [e2]; simp [velocityFrom]⟩
          | cons p ps =>
            cases g with
            | nil => exact ⟨fun h => by simp at h, fun _ => by
                simp only [e1, Particle.updateVelocity]; rw [e2]; simp [velocityFrom]⟩
            | cons g gs =>
              refine ⟨fun _ => ⟨e1, ?_⟩, fun h => ?_⟩
              · rw [e2]; simp [velocityFrom]
              · simp at h
  -- invariant of the whole pool
  have key : ∀ (sched : List Nat) (ts : List (VTask X K)), ts.length = s.particles.length →
      (∀ (j : Nat) (q : Particle X K) (t : VTask X K), s.particles[j]? = some q → ts[j]? = some t → J j q t) →
      (VTask.schedule c draw sched ts).length = s.particles.length ∧
      (∀ (j : Nat) (q : Particle X K) (t : VTask X K), s.particles[j]? = some q →
        (VTask.schedule c draw sched ts)[j]? = some t → J j q t) := by
    intro sched
    induction sched with
    | nil => intro ts hl h; exact ⟨hl, h⟩
    | cons i is ih =>
      intro ts hl h
      refine ih (ts.modify i (VTask.step c (draw i))) (by simpa using hl) fun j q t hq ht => ?_
      rw [List.getElem?_modify] at ht
      obtain ⟨t0, ht0, rfl⟩ := Option.map_eq_some_iff.1 ht
      have := h j q t0 hq ht0
      split
      · rename_i hij; subst hij; exact hstep _ q t0 this
      · exact this
  obtain ⟨hl, hJ⟩ := key sched (s.particles.map (VTask.start s.bestPosition)) (by simp) (by
    intro j q t hq ht
    rw [List.getElem?_map, hq] at ht
    simp at ht; subst ht
    exact ⟨fun _ => ⟨rfl, rfl⟩, fun h => by simp [VTask.start] at h⟩)
  apply List.ext_getElem?
  intro j
  show _ = (s.particles.mapIdx fun j q => q.updateVelocity c (draw j) s.bestPosition)[j]?
  rw [List.getElem?_map, List.getElem?_mapIdx]
  cases hq : s.particles[j]? with
  | none =>
    have : (VTask.schedule c draw sched (s.particles.map (VTask.start s.bestPosition)))[j]? = none := by
      rw [List.getElem?_eq_none_iff] at hq ⊢; omega
    rw [this]; rfl
  | some q =>
    have hj : j < (VTask.schedule c draw sched (s.particles.map (VTask.start s.bestPosition))).length := by
      rw [hl]; exact (List.getElem?_eq_some_iff.1 hq).1
    have ht := List.getElem?_eq_getElem hj
    have hdn := hdone _ (List.mem_of_getElem? ht)
    rw [ht, Option.map_some, Option.map_some, (hJ j q _ hq ht).2 hdn]

/-- **C47, positions.** Updating the particles in any order (every particle exactly once) gives the swarm of
`update_positions`. -/
theorem C47_positions_schedule_independent (f : List X → Fl K) (s : Swarm X K) (sched : List Nat)
    (hp : sched.Perm (List.range s.particles.length)) :
    schedulePositions f sched s.particles = (s.updatePositions f).particles := by
  have key : ∀ (sched : List Nat) (qs : List (Particle X K)), sched.Nodup →
      schedulePositions f sched qs = qs.mapIdx fun j q => if j ∈ sched then q.updatePosition f else q := by
    intro sched
    induction sched with
    | nil =>
      intro qs _
      apply List.ext_getElem?
      intro j
      simp [schedulePositions, List.getElem?_mapIdx]
    | cons i is ih =>
      intro qs hn
      obtain ⟨h1, h2⟩ := List.nodup_cons.1 hn
      rw [schedulePositions, ih _ h2]
      apply List.ext_getElem?
      intro j
      rw [List.getElem?_mapIdx, List.getElem?_mapIdx, List.getElem?_modify, Option.map_eq_map, Option.map_map]
      congr 1
      funext q
      simp only [Function.comp]
      by_cases hij : i = j
      · subst hij; simp [h1]
      · have : ¬ j = i := fun h => hij h.symm
        simp [hij, this]
  rw [key sched _ (hp.nodup_iff.2 List.nodup_range)]
  apply List.ext_getElem?
  intro j
  show _ = (s.particles.map (Particle.updatePosition f))[j]?
  rw [List.getElem?_mapIdx, List.getElem?_map]
  cases hq : s.particles[j]? with
  | none => rfl
  | some q =>
    have hj : j ∈ sched := by
      rw [hp.mem_iff, List.mem_range]; exact (List.getElem?_eq_some_iff.1 hq).1
    simp [hj]

/-! ## C48 -/

/-- Specification: the swarm after `k` iterations. -/
def swarmAfter (c : Coeffs X) (f : List X → Fl K) (draw : Nat → Nat → Nat → X × X) (s : Swarm X K) : Nat → Swarm X K
  | 0 => s
  | k + 1 => (swarmAfter c f draw s k).iterate c f (draw (k + 1))

theorem loop_events {W : Type} {isMet : Term W X K} {c : Coeffs X} {f : List X → Fl K}
    {draw : Nat → Nat → Nat → X × X} {s0 : Swarm X K} (fuel : Nat) :
    ∀ {i : Nat} {s' : Swarm X K} {evs : List (Ev X K)} {w w' : W},
      loop isMet c f draw fuel i (swarmAfter c f draw s0 i) w = .ok ((s', evs), w') →
      ∃ n, i ≤ n ∧ s' = swarmAfter c f draw s0 n ∧
        evs = ((List.range' (i + 1) (n - i)).map fun k => Ev.onNewGeneration (swarmAfter c f draw s0 k) k) ++
          [.onEnd (swarmAfter c f draw s0 n) n] ∧
        (∃ w1, isMet n (swarmAfter c f draw s0 n) w1 = .ok (true, w')) ∧
        ∀ k, i ≤ k → k < n → ∃ w1 w2, isMet k (swarmAfter c f draw s0 k) w1 = .ok (false, w2) := by
  induction fuel with
  | zero => intro i s' evs w w' hl; simp [loop] at hl
  | succ fuel ih =>
    intro i s' evs w w' hl
    rcases loop_ok hl with ⟨rfl, rfl, hm⟩ | ⟨evs', w1, rfl, hm, fuel', hf, hl'⟩
    · exact ⟨i, le_refl _, rfl, by simp, ⟨w, hm⟩, fun k h1 h2 => by omega⟩
    · cases hf
      obtain ⟨n, h1, h2, h3, h4, h5⟩ := ih hl'
      refine ⟨n, by omega, h2, ?_, h4, fun k hk1 hk2 => ?_⟩
      · rw [h3, show n - i = (n - (i + 1)) + 1 by omega, List.range'_succ]
        rfl
      · rcases Nat.eq_or_lt_of_le hk1 with rfl | hk1
        · exact ⟨w, w1, hm⟩
        · exact h5 k hk1 hk2

/-- **C48, protocol.** For every termination condition: a run that returns performed some number `n` of iterations
and called `on_begin` once, `on_new_generation` with the numbers `1..n` and the swarm after that many iterations,
and `on_end` once with `n` and the final swarm; the condition was false before every iteration and true at the
end. -/
theorem C48_callbacks {W : Type} {isMet : Term W X K} {c : Coeffs X} {f : List X → Fl K}
    {draw : Nat → Nat → Nat → X × X} {fuel : Nat} {s s' : Swarm X K} {evs : List (Ev X K)} {w w' : W}
    (hr : run isMet c f draw fuel s w = .ok ((s', evs), w')) :
    ∃ n, s' = swarmAfter c f draw s n ∧
      evs = [.onBegin s] ++
        ((List.range' 1 n).map fun k => Ev.onNewGeneration (swarmAfter c f draw s k) k) ++ [.onEnd s' n] ∧
      (∃ w1, isMet n s' w1 = .ok (true, w')) ∧
      ∀ k, k < n → ∃ w1 w2, isMet k (swarmAfter c f draw s k) w1 = .ok (false, w2) := by
  unfold run at hr
  obtain ⟨⟨r, e⟩, w1, h1, h2⟩ := M.bind_ok_iff.1 hr
  have h3 := M.pure_ok_iff.1 h2
  cases h3
  obtain ⟨n, g1, g2, g3, g4, g5⟩ := loop_events (s0 := s) fuel (i := 0) h1
  refine ⟨n, g2, ?_, by rw [g2]; exact g4, fun k hk => g5 k (by omega) hk⟩
  rw [g3, g2]; simp

theorem loop_generationLimit {W : Type} (limit : Nat) (c : Coeffs X) (f : List X → Fl K)
    (draw : Nat → Nat → Nat → X × X) (w : W) :
    ∀ (fuel i : Nat) (s : Swarm X K), i ≤ limit → limit < fuel + i →
      ∃ r, loop (generationLimit limit) c f draw fuel i s w = .ok (r, w)
  | 0, i, s, h1, h2 => by omega
  | fuel + 1, i, s, h1, h2 => by
    rw [loop]
    have hm : (generationLimit limit : Term W X K) i s w = .ok (decide (limit ≤ i), w) := rfl
    rw [M.bind_of_ok hm]
    by_cases h : limit ≤ i
    · simp only [h, decide_true, if_true]; exact ⟨_, rfl⟩
    · simp only [h, decide_false, Bool.false_eq_true, if_false]
      obtain ⟨⟨r, e⟩, hr⟩ := loop_generationLimit limit c f draw w fuel (i + 1)
        (s.iterate c f (draw (i + 1))) (by omega) (by omega)
      rw [M.bind_of_ok hr]
      exact ⟨_, rfl⟩

/-- **C48, generation limit.** With `GenerationLimit(n)` a run always returns, after exactly `n` iterations. -/
theorem C48_generation_limit {W : Type} (n : Nat) (c : Coeffs X) (f : List X → Fl K)
    (draw : Nat → Nat → Nat → X × X) (fuel : Nat) (hf : n < fuel) (s : Swarm X K) (w : W) :
    run (generationLimit n) c f draw fuel s w = .ok ((swarmAfter c f draw s n,
      [.onBegin s] ++ ((List.range' 1 n).map fun k => Ev.onNewGeneration (swarmAfter c f draw s k) k) ++
        [.onEnd (swarmAfter c f draw s n) n]), w) := by
  obtain ⟨⟨r, e⟩, hr⟩ := loop_generationLimit n c f draw w fuel 0 s (by omega) (by omega)
  have hrun : run (generationLimit n) c f draw fuel s w = .ok ((r, .onBegin s :: e), w) := by
    unfold run; rw [M.bind_of_ok hr]; rfl
  obtain ⟨k, h1, h2, ⟨w1, h3⟩, h4⟩ := C48_callbacks hrun
  have hk : k = n := by
    have h5 : n ≤ k := by
      have : (generationLimit n : Term W X K) k r w1 = .ok (decide (n ≤ k), w1) := rfl
      rw [this] at h3
      by_contra hc
      simp [hc] at h3
    rcases Nat.lt_or_eq_of_le h5 with h6 | h6
    · obtain ⟨w2, w3, h7⟩ := h4 n h6
      have : (generationLimit n : Term W X K) n (swarmAfter c f draw s n) w2 = .ok (decide (n ≤ n), w2) := rfl
      rw [this] at h7
      simp at h7
    · exact h6.symm
  subst hk
  rw [hrun, h2, h1]

/-- **C48, construction.** `PSOAlgorithm::new` panics exactly when the particle count is 0. -/
theorem C48_new_panics_iff (abs : X → X) (count dim : Nat) (lo hi : X) (f : List X → Fl K)
    (draw : Nat → Nat → X × X) :
    (∃ e, Swarm.generate abs count dim lo hi f draw = .error e) ↔ count = 0 := by
  unfold Swarm.generate
  cases count with
  | zero => simp
  | succ n => rw [List.range_succ_eq_map]; simp

/-! ## C73: the time limit -/

/-- Specification: the property C73 claims: a run whose first check of the condition happens less than the limit
after its start performs at least one iteration.  It is false (next theorem). -/
def TimedFromRunStart (isMet : Term Nat X K) (limit : Nat) : Prop :=
  ∀ (now : Nat) (s : Swarm X K), 0 < limit → isMet 0 s now = .ok (false, now)

/-- **C73 is false of the code.** The time limit counts from the creation of the condition object (`run` never
calls `initialize`): a run started `limit` seconds or more after `set_time_limit` performs no iteration at all. -/
theorem C73_time_limit_counts_from_construction (created limit : Nat) (c : Coeffs X) (f : List X → Fl K)
    (draw : Nat → Nat → Nat → X × X) (fuel : Nat) (s : Swarm X K) (now : Nat)
    (hlate : created + limit * 1000000000 ≤ now) :
    run (timeLimit (fun t => .ok (t, t)) created limit) c f draw (fuel + 1) s now =
      .ok ((s, [.onBegin s, .onEnd s 0]), now) := by
  unfold run
  have hm : (timeLimit (fun t => .ok (t, t)) created limit : Term Nat X K) 0 s now = .ok (true, now) := by
    have : limit ≤ (now - created) / 1000000000 := by
      rw [Nat.le_div_iff_mul_le (by decide)]; omega
    show Except.ok (decide (limit ≤ (now - created) / 1000000000), now) = _
    rw [decide_eq_true this]
  have hl : loop (timeLimit (fun t => .ok (t, t)) created limit) c f draw (fuel + 1) 0 s now =
      .ok ((s, [.onEnd s 0]), now) := by
    rw [loop, M.bind_of_ok hm]; rfl
  rw [M.bind_of_ok hl]; rfl

/-- **C73, negation.** -/
theorem C73_not_timed_from_run_start (created limit : Nat) (hl : 0 < limit) (s : Swarm X K) :
    ¬ TimedFromRunStart (timeLimit (fun t => .ok (t, t)) created limit : Term Nat X K) limit := by
  intro h
  have h1 := h (created + limit * 1000000000) s hl
  have h2 : (timeLimit (fun t => .ok (t, t)) created limit : Term Nat X K) 0 s (created + limit * 1000000000) =
      .ok (decide (limit ≤ (created + limit * 1000000000 - created) / 1000000000),
        created + limit * 1000000000) := rfl
  rw [h2] at h1
  simp at h1

/-! ## C51: policies -/

/-- **C51.** In every returning run of `n` iterations a probe wrapped with `GenerationInterval(interval ≥ 1)`
(fresh policy) receives: `on_begin`, `on_new_generation` exactly for the multiples of the interval among `1..n`
and for `n` itself if it is not a multiple, in increasing order and once each, then `on_end`. -/
theorem C51_generation_interval {W : Type} {isMet : Term W X K} {c : Coeffs X} {f : List X → Fl K}
    {draw : Nat → Nat → Nat → X × X} {fuel : Nat} {s s' : Swarm X K} {evs : List (Ev X K)} {w w' : W}
    (hr : run isMet c f draw fuel s w = .ok ((s', evs), w')) (interval : Nat) (hi : 0 < interval) (v : Unit) :
    ∃ n st, s' = swarmAfter c f draw s n ∧ evs.getLast? = some (.onEnd s' n) ∧
      policyDriven (generationInterval interval) 0 evs v = .ok (([.onBegin s] ++
        (((List.range' 1 n).filter fun g => decide (g % interval = 0 ∨ g = n)).map fun k =>
          Ev.onNewGeneration (swarmAfter c f draw s k) k) ++ [.onEnd s' n], st), v) := by
  obtain ⟨n, h1, h2, -, -⟩ := C48_callbacks hr
  refine ⟨n, ?_⟩
  -- the part after `on_begin`, starting with `i` generations done and `last` the last logged generation
  have key : ∀ (k i last : Nat), i + k = n → last ≤ i →
      (last = i ∨ ¬ i % interval = 0) →
      ∃ st, policyDriven (generationInterval interval) last
        (((List.range' (i + 1) k).map fun k => Ev.onNewGeneration (swarmAfter c f draw s k) k) ++ [.onEnd s' n]) v =
      .ok (((((List.range' (i + 1) k).filter fun g => decide (g % interval = 0 ∨ g = n)).map fun k =>
          Ev.onNewGeneration (swarmAfter c f draw s k) k) ++
          (if k = 0 ∧ last < i then [Ev.onNewGeneration s' n] else []) ++ [.onEnd s' n], st), v) := by
    intro k
    induction k with
    | zero =>
      intro i last hik hl hc
      have hin : i = n := by omega
      subst hin
      refine ⟨last, ?_⟩
      by_cases hlt : last < i <;>
        simp [policyDriven, policyStep, generationInterval, M.bind_run, hlt]
    | succ k ih =>
      intro i last hik hl hc
      rw [List.range'_succ]
      simp only [List.map_cons, List.cons_append, List.filter_cons]
      by_cases hm : (i + 1) % interval = 0
      · obtain ⟨st, hst⟩ := ih (i + 1) (i + 1) (by omega) (le_refl _) (.inl rfl)
        refine ⟨st, ?_⟩
        have hp : (policyStep (generationInterval interval) last
            (Ev.onNewGeneration (swarmAfter c f draw s (i + 1)) (i + 1)) : M Unit _) v =
            .ok (([.onNewGeneration (swarmAfter c f draw s (i + 1)) (i + 1)], i + 1), v) := by
          simp [policyStep, generationInterval, M.bind_run, hm, Nat.pos_iff_ne_zero.1 hi]
        rw [policyDriven, M.bind_of_ok hp]
        simp only
        rw [M.bind_of_ok hst]
        simp [hm]
      · obtain ⟨st, hst⟩ := ih (i + 1) last (by omega) (by omega) (.inr hm)
        refine ⟨st, ?_⟩
        have hp : (policyStep (generationInterval interval) last
            (Ev.onNewGeneration (swarmAfter c f draw s (i + 1)) (i + 1)) : M Unit _) v =
            .ok (([], last), v) := by
          simp [policyStep, generationInterval, M.bind_run, hm, Nat.pos_iff_ne_zero.1 hi]
        rw [policyDriven, M.bind_of_ok hp]
        simp only
        rw [M.bind_of_ok hst]
        by_cases hk : k = 0
        · subst hk
          have hin : i + 1 = n := by omega
          have hli : last < i + 1 := by omega
          simp only [hin, or_true, decide_true, if_true, List.range'_zero, List.filter_nil, List.map_nil]
          simp [h1, hin ▸ hli]
        · have hin : ¬ (i + 1 = n) := by omega
          simp [hm, hin, hk]
  obtain ⟨st, hst⟩ := key n 0 0 (by omega) (le_refl _) (.inl rfl)
  refine ⟨st, h1, by rw [h2, List.getLast?_concat], ?_⟩
  rw [h2]
  have hp : (policyStep (generationInterval interval) 0 (Ev.onBegin s) : M Unit _) v =
      .ok (([.onBegin s], 0), v) := rfl
  rw [List.append_assoc, List.singleton_append, policyDriven, M.bind_of_ok hp]
  simp only
  rw [M.bind_of_ok hst]
  simp

/-- **C51, interval 0.** With interval 0 the policy panics (remainder by zero) as soon as there is a generation to
ask about. -/
theorem C51_interval_zero_panics (st : Nat) (s : Swarm X K) (g : Nat) :
    Panics (policyStep (W := Unit) (generationInterval 0) st (Ev.onNewGeneration s g)) := by
  intro w
  exact ⟨.divByZero, rfl⟩

/-! ## C74: recorded files -/

/-- **C74.** The CSV and JSON probes record, for every returning run of `n` iterations, exactly one line per
generation `0, 1, …, n` in order, each with the best value (and position) after that many iterations. -/
theorem C74_records {W : Type} {isMet : Term W X K} {c : Coeffs X} {f : List X → Fl K}
    {draw : Nat → Nat → Nat → X × X} {fuel : Nat} {s s' : Swarm X K} {evs : List (Ev X K)} {w w' : W}
    (hr : run isMet c f draw fuel s w = .ok ((s', evs), w')) :
    ∃ n, s' = swarmAfter c f draw s n ∧
      csvRecords evs = (List.range (n + 1)).map (fun k => (k, (swarmAfter c f draw s k).bestValue)) ∧
      jsonRecords evs = (List.range (n + 1)).map
        (fun k => (k, (swarmAfter c f draw s k).bestValue, (swarmAfter c f draw s k).bestPosition)) := by
  obtain ⟨n, h1, h2, -, -⟩ := C48_callbacks hr
  refine ⟨n, h1, ?_, ?_⟩
  · have : ∀ (l : List Nat), csvRecords ((l.map fun k => Ev.onNewGeneration (swarmAfter c f draw s k) k) ++
        [.onEnd s' n]) = l.map fun k => (k, (swarmAfter c f draw s k).bestValue) := by
      intro l; induction l with
      | nil => rfl
      | cons a l ih => simp [csvRecords, ih]
    rw [h2, List.append_assoc, List.singleton_append, csvRecords, this, List.range_eq_range', List.range'_succ]
    rfl
  · have : ∀ (l : List Nat), jsonRecords ((l.map fun k => Ev.onNewGeneration (swarmAfter c f draw s k) k) ++
        [.onEnd s' n]) =
        l.map fun k => (k, (swarmAfter c f draw s k).bestValue, (swarmAfter c f draw s k).bestPosition) := by
      intro l; induction l with
      | nil => rfl
      | cons a l ih => simp [jsonRecords, ih]
    rw [h2, List.append_assoc, List.singleton_append, jsonRecords, this, List.range_eq_range', List.range'_succ]
    rfl

/-! ## C49: dimensions -/

/-- Specification: all vectors of the swarm have length `dim`. -/
def HasDim (dim : Nat) (s : Swarm X K) : Prop :=
  s.bestPosition.length = dim ∧ ∀ q ∈ s.particles, q.position.length = dim ∧ q.velocity.length = dim ∧
    q.bestPosition.length = dim

theorem velocityFrom_length (c : Coeffs X) (draw : Nat → X × X) (n : Nat) :
    ∀ (k : Nat) (v x p g : List X), v.length = n → x.length = n → p.length = n → g.length = n →
      (velocityFrom c draw k v x p g).length = n := by
  induction n with
  | zero =>
    intro k v x p g h1 h2 h3 h4
    rw [List.length_eq_zero_iff] at h1; subst h1
    simp [velocityFrom]
  | succ n ih =>
    intro k v x p g h1 h2 h3 h4
    match v, x, p, g, h1, h2, h3, h4 with
    | v :: vs, x :: xs, p :: ps, g :: gs, h1, h2, h3, h4 =>
      rw [velocityFrom, List.length_cons, ih]
      all_goals simp_all

/-- **C49, dimension.** Every vector of the swarm has the configured dimension at construction. -/
theorem C49_dimension_initial {abs : X → X} {count dim : Nat} {lo hi : X} {f : List X → Fl K}
    {draw : Nat → Nat → X × X} {s : Swarm X K} (h : Swarm.generate abs count dim lo hi f draw = .ok s) :
    HasDim dim s ∧ s.particles.length = count := by
  obtain ⟨h1, q0, h2, h3, h4⟩ := generate_shape h
  have hq : ∀ q ∈ s.particles, q.position.length = dim ∧ q.velocity.length = dim ∧ q.bestPosition.length = dim := by
    intro q hq
    rw [h1] at hq
    obtain ⟨j, -, rfl⟩ := List.mem_map.1 hq
    simp [Particle.generate]
  refine ⟨⟨?_, hq⟩, by rw [h1]; simp⟩
  rw [h3]
  rcases (initialBest_spec f s.particles q0.position).1 with h5 | ⟨q, hq', h5⟩
  · rw [h5]; exact (hq q0 (List.mem_of_getElem? h2)).1
  · rw [h5]; exact (hq q hq').1

theorem foldl_bestStep_mem (f : List X → Fl K) (qs : List (Particle X K)) (b : List X × Fl K) :
    (qs.foldl (bestStep f) b).1 = b.1 ∨ ∃ q ∈ qs, (qs.foldl (bestStep f) b).1 = q.bestPosition := by
  induction qs generalizing b with
  | nil => simp
  | cons q qs ih =>
    rw [List.foldl_cons]
    rcases ih (bestStep f b q) with h | ⟨q', hq', h⟩
    · rw [h]
      unfold bestStep
      split
      · exact .inr ⟨q, by simp, rfl⟩
      · exact .inl rfl
    · exact .inr ⟨q', by simp [hq'], h⟩

/-- **C49, dimension.** Every iteration keeps the dimension of every vector and the number of particles. -/
theorem C49_dimension_invariant {dim : Nat} {s : Swarm X K} (c : Coeffs X) (f : List X → Fl K)
    (draw : Nat → Nat → X × X) (h : HasDim dim s) :
    HasDim dim (s.iterate c f draw) ∧ (s.iterate c f draw).particles.length = s.particles.length := by
  have hq : ∀ q ∈ (s.iterate c f draw).particles,
      q.position.length = dim ∧ q.velocity.length = dim ∧ q.bestPosition.length = dim := by
    intro q hq
    obtain ⟨k, hk⟩ := List.mem_iff_getElem?.1 hq
    rw [iterate_particle] at hk
    obtain ⟨q0, hq0, rfl⟩ := Option.map_eq_some_iff.1 hk
    obtain ⟨h1, h2, h3⟩ := h.2 q0 (List.mem_of_getElem? hq0)
    have hv := velocityFrom_length c (draw k) dim 0 _ _ _ _ h2 h1 h3 h.1
    unfold Particle.updatePosition Particle.updateVelocity
    simp only
    split <;> simp [hv, h1, h3]
  refine ⟨⟨?_, hq⟩, iterate_length ..⟩
  show ((s.iterate c f draw).particles.foldl (bestStep f) (s.bestPosition, s.bestValue)).1.length = dim
  rcases foldl_bestStep_mem f (s.iterate c f draw).particles (s.bestPosition, s.bestValue) with h1 | ⟨q, hq', h1⟩
  · rw [h1]; exact h.1
  · rw [h1]; exact (hq q hq').2.2

/-- **C51, elapsed time.** With the `ElapsedTime` policy, whatever the clock shows: the wrapped probe receives
`on_begin`, then `on_new_generation` for some increasing sequence of generations without repetition that ends with
the final generation (if there is one), then `on_end`. -/
theorem C51_elapsed_time {W V : Type} {isMet : Term W X K} {c : Coeffs X} {f : List X → Fl K}
    {draw : Nat → Nat → Nat → X × X} {fuel : Nat} {s s' : Swarm X K} {evs : List (Ev X K)} {w w' : W}
    (hr : run isMet c f draw fuel s w = .ok ((s', evs), w')) (now : M V Nat)
    (hnow : ∀ v, ∃ t v', now v = .ok (t, v')) (interval t0 : Nat) (v : V) :
    ∃ (n : Nat) (logged : List Nat) (st : ElapsedState) (v' : V), s' = swarmAfter c f draw s n ∧
      logged.Sublist (List.range' 1 n) ∧ (0 < n → n ∈ logged) ∧
      policyDriven (elapsedTime now interval) ⟨t0, 0⟩ evs v = .ok (([.onBegin s] ++
        (logged.map fun k => Ev.onNewGeneration (swarmAfter c f draw s k) k) ++ [.onEnd s' n], st), v') := by
  obtain ⟨n, h1, h2, -, -⟩ := C48_callbacks hr
  refine ⟨n, ?_⟩
  have key : ∀ (k i : Nat) (st : ElapsedState) (v : V), i + k = n → st.lastGeneration ≤ i →
      ∃ (logged : List Nat) (st' : ElapsedState) (v' : V), logged.Sublist (List.range' (i + 1) k) ∧
        (0 < k → n ∈ logged) ∧
        policyDriven (elapsedTime now interval) st
          (((List.range' (i + 1) k).map fun k => Ev.onNewGeneration (swarmAfter c f draw s k) k) ++ [.onEnd s' n]) v =
        .ok (((logged.map fun k => Ev.onNewGeneration (swarmAfter c f draw s k) k) ++
          (if k = 0 ∧ st.lastGeneration < i then [Ev.onNewGeneration s' n] else []) ++ [.onEnd s' n], st'), v') := by
    intro k
    induction k with
    | zero =>
      intro i st v hik hl
      have hin : i = n := by omega
      subst hin
      refine ⟨[], st, v, List.Sublist.refl _, by simp, ?_⟩
      by_cases hlt : st.lastGeneration < i <;>
        simp [policyDriven, policyStep, elapsedTime, M.bind_run, hlt]
    | succ k ih =>
      intro i st v hik hl
      rw [List.range'_succ]
      simp only [List.map_cons, List.cons_append]
      obtain ⟨t, v1, ht⟩ := hnow v
      by_cases hm : interval ≤ (t - st.lastTime) / 1000000000
      · obtain ⟨t', v2, ht'⟩ := hnow v1
        obtain ⟨logged, st', v', g1, g2, g3⟩ := ih (i + 1) ⟨t', i + 1⟩ v2 (by omega) (le_refl _)
        have hp : (policyStep (elapsedTime now interval) st
            (Ev.onNewGeneration (swarmAfter c f draw s (i + 1)) (i + 1)) : M V _) v =
            .ok (([.onNewGeneration (swarmAfter c f draw s (i + 1)) (i + 1)], ⟨t', i + 1⟩), v2) := by
          have : (elapsedTime now interval).onNewGeneration st (i + 1) v = .ok ((true, ⟨t', i + 1⟩), v2) := by
            show (now >>= _) v = _
            rw [M.bind_of_ok ht, if_pos hm, M.bind_of_ok ht']; rfl
          rw [policyStep, M.bind_of_ok this]; rfl
        refine ⟨(i + 1) :: logged, st', v', g1.cons_cons _, fun _ => ?_, ?_⟩
        · rcases Nat.eq_zero_or_pos k with rfl | hk
          · simp; omega
          · simp [g2 hk]
        · rw [policyDriven, M.bind_of_ok hp]
          simp only
          rw [M.bind_of_ok g3]
          simp
      · obtain ⟨logged, st', v', g1, g2, g3⟩ := ih (i + 1) st v1 (by omega) (by omega)
        have hp : (policyStep (elapsedTime now interval) st
            (Ev.onNewGeneration (swarmAfter c f draw s (i + 1)) (i + 1)) : M V _) v = .ok (([], st), v1) := by
          have : (elapsedTime now interval).onNewGeneration st (i + 1) v = .ok ((false, st), v1) := by
            show (now >>= _) v = _
            rw [M.bind_of_ok ht, if_neg hm]; rfl
          rw [policyStep, M.bind_of_ok this]; rfl
        rcases Nat.eq_zero_or_pos k with rfl | hk
        · have hin : i + 1 = n := by omega
          have hlt : st.lastGeneration < i + 1 := by omega
          refine ⟨[i + 1], st', v', by simp, fun _ => by simp [hin], ?_⟩
          rw [policyDriven, M.bind_of_ok hp]
          simp only
          rw [M.bind_of_ok g3]
          have hlog : logged = [] := by simpa using g1
          subst hlog
          rw [if_pos ⟨rfl, hlt⟩]
          simp [h1, hin]
        · refine ⟨logged, st', v', g1.cons _, fun _ => g2 hk, ?_⟩
          rw [policyDriven, M.bind_of_ok hp]
          simp only
          rw [M.bind_of_ok g3]
          simp [Nat.pos_iff_ne_zero.1 hk]
  obtain ⟨t, v1, ht⟩ := hnow v
  obtain ⟨logged, st', v', g1, g2, g3⟩ := key n 0 ⟨t, 0⟩ v1 (by omega) (le_refl _)
  refine ⟨logged, st', v', h1, g1, g2, ?_⟩
  have hp : (policyStep (elapsedTime now interval) ⟨t0, 0⟩ (Ev.onBegin s) : M V _) v =
      .ok (([.onBegin s], ⟨t, 0⟩), v1) := by
    have : (elapsedTime now interval).onBegin ⟨t0, 0⟩ v = .ok ((true, ⟨t, 0⟩), v1) := by
      show (now >>= _) v = _
      rw [M.bind_of_ok ht]; rfl
    rw [policyStep, M.bind_of_ok this]; rfl
  rw [h2, List.append_assoc, List.singleton_append, policyDriven, M.bind_of_ok hp]
  simp only
  rw [M.bind_of_ok g3]
  simp

/-! ## C77: the builder -/

/-- **C77.** The configuration a PSO builder ends with has, for each field, the last value set for it, or the
initial one if it was never set: setters of different fields commute and nothing else is touched. -/
theorem C77_builder_last_setter_wins {G Tm : Type} (c0 : Cfg X G Tm) (l : List (Setter X G Tm)) :
    let c := l.foldl Setter.apply c0
    c.dimensions = (l.filterMap fun | .dimensions n => some n | _ => none).getLast?.getD c0.dimensions ∧
    c.lower = (l.filterMap fun | .lower n => some n | _ => none).getLast?.getD c0.lower ∧
    c.upper = (l.filterMap fun | .upper n => some n | _ => none).getLast?.getD c0.upper ∧
    c.count = (l.filterMap fun | .count n => some n | _ => none).getLast?.getD c0.count ∧
    c.coeffs.inertia = (l.filterMap fun | .inertia n => some n | _ => none).getLast?.getD c0.coeffs.inertia ∧
    c.coeffs.cognitive = (l.filterMap fun | .cognitive n => some n | _ => none).getLast?.getD c0.coeffs.cognitive ∧
    c.coeffs.social = (l.filterMap fun | .social n => some n | _ => none).getLast?.getD c0.coeffs.social ∧
    c.function = (l.filterMap fun | .function n => some n | _ => none).getLast?.getD c0.function ∧
    c.term = (l.filterMap fun | .term n => some n | _ => none).getLast?.getD c0.term := by
  induction l using List.reverseRecOn with
  | nil => simp
  | append_singleton l a ih =>
    simp only [List.foldl_append, List.foldl_cons, List.foldl_nil, List.filterMap_append, List.getLast?_append]
    obtain ⟨h1, h2, h3, h4, h5, h6, h7, h8, h9⟩ := ih
    cases a <;> simp [Setter.apply, h1, h2, h3, h4, h5, h6, h7, h8, h9]

/-- **C77, effect.** The built algorithm has the configured number of particles, each of the configured
dimension. -/
theorem C77_built_shape {Tm : Type} (abs : X → X) (draw : Nat → Nat → X × X) (c : Cfg X (List X → Fl K) Tm)
    (hc : 0 < c.count) : ∃ s, c.build abs draw = .ok s ∧ s.particles.length = c.count ∧ HasDim c.dimensions s := by
  unfold Cfg.build
  cases hg : Swarm.generate abs c.count c.dimensions c.lower c.upper c.function draw with
  | ok s =>
    obtain ⟨h1, h2⟩ := C49_dimension_initial hg
    exact ⟨s, rfl, h2, h1⟩
  | error e =>
    have := (C48_new_panics_iff abs c.count c.dimensions c.lower c.upper c.function draw).1 ⟨e, hg⟩
    omega

end general

/-! ## C49, C50: bounds (exact arithmetic) -/

section field
variable {F K : Type} [Field F] [LinearOrder F] [IsStrictOrderedRing F] [LinearOrder K]

/-- Specification: samples of `Uniform::new_inclusive(0.0, 1.0)`. -/
def UnitDraws (draw : Nat → Nat → F × F) : Prop :=
  ∀ j i, (0 ≤ (draw j i).1 ∧ (draw j i).1 ≤ 1) ∧ (0 ≤ (draw j i).2 ∧ (draw j i).2 ≤ 1)

theorem scaled_mem {lo hi u : F} (h0 : 0 ≤ u) (h1 : u ≤ 1) :
    min lo hi ≤ scaled lo hi u ∧ scaled lo hi u ≤ max lo hi := by
  unfold scaled
  rcases le_total lo hi with h | h
  · rw [min_eq_left h, max_eq_right h]
    have := mul_nonneg h0 (sub_nonneg.2 h)
    have := mul_le_mul_of_nonneg_right h1 (sub_nonneg.2 h)
    constructor <;> linarith
  · rw [min_eq_right h, max_eq_left h]
    have := mul_nonneg h0 (sub_nonneg.2 h)
    have := mul_le_mul_of_nonneg_right h1 (sub_nonneg.2 h)
    constructor <;> nlinarith

/-- **C49, bounds.** Initially every coordinate of every particle lies between the two bounds (given in either
order) and every velocity component is at most their distance in absolute value. -/
theorem C49_initial_bounds {count dim : Nat} {lo hi : F} {f : List F → Fl K} {draw : Nat → Nat → F × F}
    {s : Swarm F K} (hd : UnitDraws draw) (h : Swarm.generate (fun x => |x|) count dim lo hi f draw = .ok s) :
    ∀ q ∈ s.particles, (∀ x ∈ q.position, min lo hi ≤ x ∧ x ≤ max lo hi) ∧
      (∀ v ∈ q.velocity, |v| ≤ |hi - lo|) ∧ q.bestPosition = q.position := by
  intro q hq
  obtain ⟨h1, -⟩ := generate_shape h
  rw [h1] at hq
  obtain ⟨j, -, rfl⟩ := List.mem_map.1 hq
  refine ⟨fun x hx => ?_, fun v hv => ?_, rfl⟩
  · obtain ⟨i, -, rfl⟩ := List.mem_map.1 hx
    exact scaled_mem (hd j i).1.1 (hd j i).1.2
  · obtain ⟨i, -, rfl⟩ := List.mem_map.1 hv
    obtain ⟨g1, g2⟩ := scaled_mem (lo := -|hi - lo|) (hi := |hi - lo|) (hd j i).2.1 (hd j i).2.2
    have ha := abs_nonneg (hi - lo)
    rw [min_eq_left (by linarith)] at g1
    rw [max_eq_right (by linarith)] at g2
    exact abs_le.2 ⟨g1, g2⟩

/-- Specification: every position in the swarm lies inside the bounds (the English C50). -/
def InBounds (lo hi : F) (s : Swarm F K) : Prop := ∀ q ∈ s.particles, ∀ x ∈ q.position, lo ≤ x ∧ x ≤ hi

/-- **C50 is false of the code, for every configuration.** Whatever the objective, the bounds `lo < hi`, the
dimension and particle count (at least 1), for every positive inertia weight there are admissible draws such that
after one iteration a particle has left the box: positions are never clamped. -/
theorem C50_particles_can_leave_the_bounds (count dim : Nat) (hc : 0 < count) (hdim : 0 < dim) (lo hi : F)
    (hlh : lo < hi) (f : List F → Fl K) (c : Coeffs F) (hw : 0 < c.inertia) :
    ∃ (init draw : Nat → Nat → F × F) (s : Swarm F K), UnitDraws init ∧ UnitDraws draw ∧
      Swarm.generate (fun x => |x|) count dim lo hi f init = .ok s ∧ InBounds lo hi s ∧
      ¬ InBounds lo hi (s.iterate c f draw) := by
  have hok : ∃ s, Swarm.generate (fun x => |x|) count dim lo hi f (fun _ _ => (1, 1)) = .ok s := by
    cases hg : Swarm.generate (fun x => |x|) count dim lo hi f (fun _ _ => (1, 1)) with
    | ok s => exact ⟨s, rfl⟩
    | error e =>
      have := (C48_new_panics_iff (fun x : F => |x|) count dim lo hi f (fun _ _ => (1, 1))).1 ⟨e, hg⟩
      omega
  obtain ⟨s, hs⟩ := hok
  have hd1 : UnitDraws (fun _ _ => ((1 : F), (1 : F))) := by
    intro j i; simp
  have hd0 : UnitDraws (fun _ _ => ((0 : F), (0 : F))) := by
    intro j i; simp
  refine ⟨fun _ _ => (1, 1), fun _ _ => (0, 0), s, hd1, hd0, hs, ?_, ?_⟩
  · intro q hq x hx
    have := (C49_initial_bounds hd1 hs q hq).1 x hx
    rwa [min_eq_left hlh.le, max_eq_right hlh.le] at this
  · intro hb
    obtain ⟨h1, q0, h2, h3, h4⟩ := generate_shape hs
    obtain ⟨⟨hdb, hdp⟩, -⟩ := C49_dimension_initial hs
    have hq0 := List.mem_of_getElem? h2
    have hq0' := hq0
    rw [h1] at hq0'
    obtain ⟨j, -, hj⟩ := List.mem_map.1 hq0'
    -- the new position of particle 0
    have hk := iterate_particle c f (fun _ _ => ((0 : F), (0 : F))) s 0
    rw [h2, Option.map_some] at hk
    have hmem := List.mem_of_getElem? hk
    obtain ⟨l1, l2, l3⟩ := hdp q0 hq0
    obtain ⟨d, rfl⟩ : ∃ d, dim = d + 1 := ⟨dim - 1, by omega⟩
    have hpos : ∃ xs, q0.position = hi :: xs := by
      rw [← hj]
      simp only [Particle.generate]
      rw [List.range_succ_eq_map]
      simp only [List.map_cons, scaled, one_mul, sub_add_cancel]
      exact ⟨_, rfl⟩
    have hvel : ∃ vs, q0.velocity = (hi - lo) :: vs := by
      rw [← hj]
      simp only [Particle.generate]
      rw [List.range_succ_eq_map, abs_of_pos (sub_pos.2 hlh)]
      simp only [List.map_cons, scaled, one_mul, sub_add_cancel]
      exact ⟨_, rfl⟩
    have hbest : q0.bestPosition = q0.position := by rw [← hj]; rfl
    obtain ⟨xs, hx⟩ := hpos
    obtain ⟨vs, hv⟩ := hvel
    have hg : ∃ g gs, s.bestPosition = g :: gs := by
      cases hbp : s.bestPosition with
      | nil => rw [hbp] at hdb; simp at hdb
      | cons g gs => exact ⟨g, gs, rfl⟩
    obtain ⟨g, gs, hg⟩ := hg
    have hnew : hi + c.inertia * (hi - lo) ∈
        ((q0.updateVelocity c (fun _ => ((0 : F), (0 : F))) s.bestPosition).updatePosition f).position := by
      unfold Particle.updatePosition Particle.updateVelocity
      simp only
      rw [hbest, hx, hv, hg, velocityFrom, List.zipWith_cons_cons]
      have : velocityAt c ((0 : F), (0 : F)) (hi - lo) hi hi g = c.inertia * (hi - lo) := by
        unfold velocityAt; ring
      rw [this]
      split <;> simp
    have := hb _ hmem _ hnew
    have hp := mul_pos hw (sub_pos.2 hlh)
    linarith [this.2]

/-! ## C75: a converged swarm is a fixed point -/

/-- Specification: all particles rest at the swarm's best position. -/
def Converged (s : Swarm F K) : Prop :=
  ∀ q ∈ s.particles, q.position = s.bestPosition ∧ q.bestPosition = s.bestPosition ∧
    q.velocity = List.replicate s.bestPosition.length 0

/-- **C75.** Once all particles rest at the common best position, no further iteration moves anything, whatever the
coefficients and the draws: the search has stopped for good. -/
theorem C75_converged_is_fixed (c : Coeffs F) (f : List F → Fl K) (draw : Nat → Nat → F × F) (s : Swarm F K)
    (hs : Converged s) (hcon : Consistent f s) : s.iterate c f draw = s := by
  have hvel : ∀ (d : Nat → F × F) (k : Nat) (x : List F),
      velocityFrom c d k (List.replicate x.length 0) x x x = List.replicate x.length 0 := by
    intro d k x
    induction x generalizing k with
    | nil => rfl
    | cons a x ih =>
      rw [List.length_cons, List.replicate_succ, velocityFrom, ih]
      congr 1
      unfold velocityAt; ring
  have hadd : ∀ x : List F, List.zipWith (fun a b => a + b) x (List.replicate x.length 0) = x := by
    intro x; induction x with
    | nil => rfl
    | cons a x ih => rw [List.length_cons, List.replicate_succ, List.zipWith_cons_cons, ih]; simp
  have hirr : ∀ a : Fl K, Fl.lt a a = false := by
    intro a
    cases h : Fl.lt a a with
    | false => rfl
    | true =>
      have := Fl.lt_iff.1 h
      cases a <;> simp [Fl.Lt] at this
  have hq : ∀ q ∈ s.particles, ∀ k, (q.updateVelocity c (draw k) s.bestPosition).updatePosition f = q := by
    intro q hq k
    obtain ⟨h1, h2, h3⟩ := hs q hq
    have hv : q.updateVelocity c (draw k) s.bestPosition = q := by
      unfold Particle.updateVelocity
      have : velocityFrom c (draw k) 0 q.velocity q.position q.bestPosition s.bestPosition = q.velocity := by
        rw [h1, h2, h3, hvel]
      rw [this]
    rw [hv]
    unfold Particle.updatePosition
    simp only
    have hp : List.zipWith (fun a b => a + b) q.position q.velocity = q.position := by
      rw [h3, ← h1]; exact hadd _
    rw [hp, ← hcon.value q hq]
    have : q.bestValue = q.value := by rw [hcon.pbest q hq, hcon.value q hq, h1, h2]
    have hlt : Fl.lt q.value q.bestValue = false := by rw [this, hirr]
    rw [hlt, if_neg (by simp)]
  have hps : (s.iterate c f draw).particles = s.particles := by
    apply List.ext_getElem?
    intro k
    rw [iterate_particle]
    cases h : s.particles[k]? with
    | none => rfl
    | some q => rw [Option.map_some, hq q (List.mem_of_getElem? h) k]
  have hfold : ∀ qs : List (Particle F K), (∀ q ∈ qs, q ∈ s.particles) →
      qs.foldl (bestStep f) (s.bestPosition, s.bestValue) = (s.bestPosition, s.bestValue) := by
    intro qs
    induction qs with
    | nil => intro _; rfl
    | cons q qs ih =>
      intro h
      rw [List.foldl_cons]
      have : bestStep f (s.bestPosition, s.bestValue) q = (s.bestPosition, s.bestValue) := by
        unfold bestStep
        rw [(hs q (h q (by simp))).2.1, hirr]
        rfl
      rw [this]
      exact ih fun q hq => h q (by simp [hq])
  have e := hfold (s.iterate c f draw).particles (by rw [hps]; exact fun q h => h)
  have e1 : (s.iterate c f draw).bestPosition = s.bestPosition := by
    show ((s.iterate c f draw).particles.foldl (bestStep f) (s.bestPosition, s.bestValue)).1 = _
    rw [e]
  have e2 : (s.iterate c f draw).bestValue = s.bestValue := by
    show ((s.iterate c f draw).particles.foldl (bestStep f) (s.bestPosition, s.bestValue)).2 = _
    rw [e]
  cases hs' : s.iterate c f draw with
  | mk a b d =>
    rw [hs'] at hps e1 e2
    cases s
    simp_all

end field

/-! ## C76: printed vectors -/

/-- **C76.** `print_generic_vector` prints the elements separated by `", "` between square brackets, without a
trailing separator, for every vector (including the empty one). -/
theorem C76_print_vector (vs : List String) : printVector vs = "[" ++ String.intercalate ", " vs ++ "]" := by
  have key : ∀ (vs : List String) (i : Nat), printLoop (i + vs.length) i vs = String.intercalate ", " vs := by
    intro vs
    induction vs with
    | nil => intro i; rfl
    | cons v vs ih =>
      intro i
      rw [printLoop]
      cases vs with
      | nil => simp [printLoop]
      | cons v' vs =>
        have hne : i ≠ i + (v :: v' :: vs).length - 1 := by simp
        rw [if_pos hne]
        have := ih (i + 1)
        rw [show i + (v :: v' :: vs).length = i + 1 + (v' :: vs).length by simp; omega, this]
        simp [String.intercalate_cons_cons]
  unfold printVector
  have := key vs 0
  rw [Nat.zero_add] at this
  rw [this]

/-! ## Non-vacuity -/

section examples

/-- One-dimensional sphere. -/
def demoF (x : List ℚ) : Fl ℚ := .num ((x.map fun a => a * a).sum)
def demoCoeffs : Coeffs ℚ := ⟨1 / 2, 1, 3⟩
def demoInit (j i : Nat) : ℚ × ℚ := (((j + 1 : Nat) : ℚ) / 4, ((i + 2 * j : Nat) : ℚ) / 8)
def demoDraw (_ j i : Nat) : ℚ × ℚ := (1 / 2, ((i + j : Nat) : ℚ) / 4)
def demoSwarm : Swarm ℚ ℚ :=
  { particles := [⟨[-5, -5], [-20, -15], [-5, -5], .num 50, .num 50⟩,
      ⟨[0, 0], [-10, -5], [0, 0], .num 0, .num 0⟩]
    bestPosition := [0, 0]
    bestValue := .num 0 }

theorem demo_generated : Swarm.generate (fun x => |x|) 2 2 (-10) 10 demoF demoInit = .ok demoSwarm := by
  decide +kernel

/-- C45, C46: the hypotheses are met by a run of three generations in which the particles move. -/
example : ∃ r : (Swarm ℚ ℚ × List (Ev ℚ ℚ)) × Unit,
    run (generationLimit 3) demoCoeffs demoF demoDraw 4 demoSwarm () = .ok r ∧
    History demoCoeffs demoF [demoSwarm] demoSwarm ∧
    History demoCoeffs demoF ([demoSwarm] ++ generations r.1.2) r.1.1 ∧
    NumericStart demoF ([demoSwarm] ++ generations r.1.2) ∧ r.1.1 ≠ demoSwarm := by
  have hh := History.new (c := demoCoeffs) (fun x => |x|) 2 2 (-10) 10 demoInit demoSwarm demo_generated
  have hr := C48_generation_limit 3 demoCoeffs demoF demoDraw 4 (by decide) demoSwarm ()
  refine ⟨_, hr, hh, C45_run_extends_history hr hh, ?_, ?_⟩
  · intro s0 h0 q hq
    simp at h0; subst h0
    trivial
  · decide +kernel

/-- C45 with NaN: an objective that is NaN at particle 0's start. -/
def nanF (x : List ℚ) : Fl ℚ := if x = [-5] then .nan else demoF x
example : ∃ s q0, Swarm.generate (fun x => |x|) 2 1 (-10) 10 nanF demoInit = .ok s ∧
    s.particles[0]? = some q0 ∧ nanF q0.position = .nan ∧ ∃ q1 ∈ s.particles, nanF q1.position = .num 0 := by
  refine ⟨⟨[⟨[-5], [-20], [-5], .nan, .nan⟩, ⟨[0], [-10], [0], .num 0, .num 0⟩], [-5], .nan⟩, _, ?_, rfl, ?_,
    ⟨_, .tail _ (.head _), ?_⟩⟩ <;> decide +kernel

/-- C47: an interleaved schedule after which all tasks are done. -/
example : ∀ t ∈ VTask.schedule demoCoeffs (demoDraw 1) [0, 1, 1, 0, 1, 0]
    (demoSwarm.particles.map (VTask.start demoSwarm.bestPosition)), t.done = true := by decide +kernel
example : ([1, 0] : List Nat).Perm (List.range demoSwarm.particles.length) := by decide

/-- C51: interval 2, three generations: generations 2 and 3 are logged. -/
example : Pso.generations (X := ℚ) (K := ℚ) (match (policyDriven (generationInterval 2) 0
    (match run (generationLimit 3) demoCoeffs demoF demoDraw 4 demoSwarm () with | .ok r => r.1.2 | .error _ => [])
      () : Except Panic _) with | .ok r => r.1.1 | .error _ => []) =
    [swarmAfter demoCoeffs demoF demoDraw demoSwarm 2, swarmAfter demoCoeffs demoF demoDraw demoSwarm 3] := by
  decide +kernel

/-- C49, C50: the draws are admissible. -/
example : UnitDraws (fun j i => if j < 2 ∧ i < 2 then demoInit j i else (1, 1)) := by
  intro j i
  by_cases h : j < 2 ∧ i < 2
  · have : (j = 0 ∨ j = 1) ∧ (i = 0 ∨ i = 1) := by omega
    rcases this with ⟨rfl | rfl, rfl | rfl⟩ <;> decide +kernel
  · simp [h]
example : HasDim 2 demoSwarm := by
  refine ⟨rfl, ?_⟩; decide +kernel

/-- C75: a converged, consistent swarm of two particles. -/
example : ∃ s : Swarm ℚ ℚ, Converged s ∧ Consistent demoF s ∧ s.particles.length = 2 := by
  refine ⟨⟨[⟨[1, 2], [0, 0], [1, 2], .num 5, .num 5⟩, ⟨[1, 2], [0, 0], [1, 2], .num 5, .num 5⟩], [1, 2], .num 5⟩,
    ?_, ⟨?_, ?_, ?_⟩, rfl⟩
  · intro q hq; simp at hq; subst hq; exact ⟨rfl, rfl, rfl⟩
  all_goals decide +kernel

/-- C76. -/
example : printVector ["1", "2"] = "[1, 2]" := by decide +kernel

end examples

section instances
theorem demo_history : History demoCoeffs demoF [demoSwarm] demoSwarm :=
  History.new (c := demoCoeffs) (fun x => |x|) 2 2 (-10) 10 demoInit demoSwarm demo_generated
theorem demo_numeric : NumericStart demoF [demoSwarm] := by
  intro s0 h0 q hq
  simp at h0; subst h0
  trivial
example := C45_swarm_best demo_history demo_numeric
example {q} (hq : demoSwarm.particles[1]? = some q) := C45_particle_best demo_history demo_numeric 1 q hq
example := C46_best_never_worsens (C48_generation_limit 3 demoCoeffs demoF demoDraw 4 (by decide) demoSwarm ()) demo_history
example {s q0} (h : Swarm.generate (fun x => |x|) 2 1 (-10) 10 nanF demoInit = .ok s) (hq : s.particles[0]? = some q0)
    (hn : nanF q0.position = .nan) :=
  C45_nan_start_is_never_left (History.new (c := demoCoeffs) (fun x => |x|) 2 1 (-10) 10 demoInit s h) rfl q0 hq hn
example := C47_velocities_schedule_independent demoCoeffs (demoDraw 1) demoSwarm [0, 1, 1, 0, 1, 0] (by decide +kernel)
example := C47_positions_schedule_independent demoF demoSwarm [1, 0] (by decide)
example := (C48_new_panics_iff (fun x : ℚ => |x|) 0 2 (-10) 10 demoF demoInit).2 rfl
example := C73_time_limit_counts_from_construction 5 3 demoCoeffs demoF demoDraw 7 demoSwarm 4000000000 (by decide)
example := C73_not_timed_from_run_start 5 3 (by decide) demoSwarm
example := C51_interval_zero_panics 0 demoSwarm 2
example := C74_records (C48_generation_limit 3 demoCoeffs demoF demoDraw 4 (by decide) demoSwarm ())
example := C49_dimension_initial demo_generated
example := C51_elapsed_time (C48_generation_limit 3 demoCoeffs demoF demoDraw 4 (by decide) demoSwarm ())
  (fun t => .ok (t, t + 7)) (fun v => ⟨v, v + 7, rfl⟩) 10 0 0
example (G Tm : Type) (c0 : Cfg ℚ G Tm) := (C77_builder_last_setter_wins c0 [.dimensions 3, .count 5, .dimensions 4]).1
example := C77_built_shape (Tm := Unit) (fun x => |x|) demoInit ⟨2, -10, 10, 5, demoCoeffs, demoF, ()⟩ (by decide)
example {s} (h : Swarm.generate (fun x => |x|) 2 2 (-10) 10 demoF (fun _ _ => (1 / 2, 1)) = .ok s) :=
  C49_initial_bounds (fun _ _ => by norm_num) h
example := C50_particles_can_leave_the_bounds 2 2 (by decide) (by decide) (-10 : ℚ) 10 (by norm_num) demoF demoCoeffs (by decide +kernel)
example {s} (hs : Converged s) (hc : Consistent demoF s) := C75_converged_is_fixed demoCoeffs demoF (demoDraw 1) s hs hc
end instances

end Ecrs.Pso
