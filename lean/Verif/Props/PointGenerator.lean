import Verif.Props.Population
import Mathlib.Tactic.Ring

/-!
# Property C37: the point generator as an API of its own
-/

set_option linter.unusedSectionVars false

namespace Ecrs.Ga
open Ecrs

variable {G K : Type} [Field K] [LinearOrder K] [IsStrictOrderedRing K] (R : Rng G K)

/-- Points within copies of one range. -/
theorem within_replicate {n : Nat} {c : K × K} {p : List K} (h : List.Forall₂ Within (List.replicate n c) p) : ∀ x ∈ p, Within c x := by
  induction n generalizing p with
  | zero => cases h; simp
  | succ n ih =>
    rw [List.replicate_succ] at h
    cases h with
    | cons h1 h2 =>
      intro x hx
      rcases List.mem_cons.1 hx with rfl | hx
      · exact h1
      · exact ih h2 x hx

/-- The points lie on the segment drawn: each coordinate is `start + (end - start) u` for some `u` of the source, `0 ≤ u < 1`. -/
theorem generateWithConstraints_draws {dim n : Nat} {cs : List (K × K)} (h : dim = cs.length) :
    Returns (generateWithConstraints R dim n cs) fun pts => pts.length = n ∧
      ∀ p ∈ pts, List.Forall₂ (fun c x => ∃ u : K, 0 ≤ u ∧ u < 1 ∧ x = (c.2 - c.1) * u + c.1) cs p := by
  unfold generateWithConstraints
  refine Returns.bind (Returns.assert (by simp [h])) fun _ _ => ?_
  refine Returns.replicate (Returns.forEach cs fun c _ => ?_) n
  unfold pointCoord
  exact Returns.bind R.genUnit_returns fun u hu => Returns.pure ⟨u, hu.1, hu.2, rfl⟩

/-- **C37, PointGenerator.** For every dimension (zero included), number of points and range `a..b` with `a < b`: the points of
`generate_with_single_constraint` are `n` points of `dim` coordinates in `[a, b)`; those of `generate` have them in `[0, 1)`; an empty range
`a..a` gives `a` everywhere; a reversed range is not rejected and gives coordinates in `(b, a]`. -/
theorem C37_point_generator (dim n : Nat) (a b : K) :
    (Returns (generatePoints R dim n) fun pts => pts.length = n ∧ ∀ p ∈ pts, p.length = dim ∧ ∀ x ∈ p, 0 ≤ x ∧ x < 1) ∧
    Returns (generateWithSingleConstraint R dim n (a, b)) fun pts => pts.length = n ∧ ∀ p ∈ pts, p.length = dim ∧
      (a < b → ∀ x ∈ p, a ≤ x ∧ x < b) ∧ (a = b → ∀ x ∈ p, x = a) ∧ (b < a → ∀ x ∈ p, b < x ∧ x ≤ a) := by
  have key : ∀ a b : K, Returns (generateWithSingleConstraint R dim n (a, b)) fun pts => pts.length = n ∧ ∀ p ∈ pts, p.length = dim ∧
      (a < b → ∀ x ∈ p, a ≤ x ∧ x < b) ∧ (a = b → ∀ x ∈ p, x = a) ∧ (b < a → ∀ x ∈ p, b < x ∧ x ≤ a) := by
    intro a b
    unfold generateWithSingleConstraint
    refine (generateWithConstraints_draws R (n := n) (by simp)).mono fun pts h => ⟨h.1, fun p hp => ?_⟩
    have hf := h.2 p hp
    have hx : ∀ x ∈ p, ∃ u : K, 0 ≤ u ∧ u < 1 ∧ x = (b - a) * u + a := by
      have : ∀ (m : Nat) (p : List K), List.Forall₂ (fun c x => ∃ u : K, 0 ≤ u ∧ u < 1 ∧ x = (c.2 - c.1) * u + c.1) (List.replicate m (a, b)) p →
          ∀ x ∈ p, ∃ u : K, 0 ≤ u ∧ u < 1 ∧ x = (b - a) * u + a := by
        intro m
        induction m with
        | zero => intro p h; cases h; simp
        | succ m ih =>
          intro p h x hx
          cases h with
          | cons h1 h2 =>
            rcases List.mem_cons.1 hx with rfl | hx
            · exact h1
            · exact ih _ h2 x hx
      exact this dim p hf
    refine ⟨by rw [← hf.length_eq, List.length_replicate], fun hab x hm => ?_, fun hab x hm => ?_, fun hab x hm => ?_⟩ <;>
      obtain ⟨u, u0, u1, rfl⟩ := hx x hm
    · exact ⟨by nlinarith [mul_nonneg (sub_nonneg.2 hab.le) u0], by nlinarith [mul_lt_of_lt_one_right (sub_pos.2 hab) u1]⟩
    · subst hab; ring
    · exact ⟨by nlinarith [mul_lt_of_lt_one_right (sub_pos.2 hab) u1], by nlinarith [mul_nonneg (sub_nonneg.2 hab.le) u0]⟩
  exact ⟨(key 0 1).mono fun pts h => ⟨h.1, fun p hp => ⟨(h.2 p hp).1, (h.2 p hp).2.1 zero_lt_one⟩⟩, key a b⟩

/-- Two points in three dimensions. -/
example (R : Rng G ℚ) : Returns (generatePoints R 3 2) fun pts => pts.length = 2 ∧ ∀ p ∈ pts, p.length = 3 ∧ ∀ x ∈ p, 0 ≤ x ∧ x < 1 :=
  (C37_point_generator R 3 2 0 1).1

end Ecrs.Ga
