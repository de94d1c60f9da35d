import Verif.Props.AcoBest
import Mathlib.Analysis.InnerProductSpace.PiL2

set_option linter.unusedSectionVars false

/-!
# C94: the generated distances are Euclidean
-/

namespace Ecrs.Aco
open Ecrs

/-- The square root on extended real numbers. -/
noncomputable def realSqrt : Ext ℝ → Ext ℝ
  | .fin x => .fin (Real.sqrt x)
  | .pinf => .pinf
  | _ => .nan

/-- Specification: a point of the plane. -/
noncomputable def point (c : ℝ × ℝ) : EuclideanSpace ℝ (Fin 2) := !₂[c.1, c.2]

/-- **C94, Euclidean.** Over the real numbers the matrix of `generate_tsp_cost` holds, for any cities, the Euclidean distances of
the cities in the plane.  So it is symmetric, has zeros exactly between cities at the same place, and a detour over a third city
is never shorter. -/
theorem C94_euclidean (pow : Ext ℝ → Ext ℝ → Ext ℝ) (maxv : ℝ) (floor : ℝ → Nat) (n : Nat) (cities : Nat → ℝ × ℝ) :
    ∃ (c : Mat (Ext ℝ)) (d : Nat → Nat → ℝ),
      tspCost (exactOps realSqrt pow maxv floor) n (fun i => (.fin (cities i).1, .fin (cities i).2)) = .ok c ∧
      c.rows = n ∧ c.cols = n ∧ (∀ a b, a < n → b < n → c.get a b = .fin (d a b)) ∧
      (∀ a b, d a b = dist (point (cities a)) (point (cities b))) ∧ (∀ a b, d a b = d b a) ∧
      (∀ a b, d a b = 0 ↔ cities a = cities b) ∧ ∀ a b m, d a b ≤ d a m + d m b := by
  obtain ⟨c, h1, h2, h3⟩ := C94_tsp_cost (A := exactOps realSqrt pow maxv floor) n
    (fun i => ((.fin (cities i).1, .fin (cities i).2) : Ext ℝ × Ext ℝ))
  have key : ∀ a b, dist (point (cities a)) (point (cities b)) =
      Real.sqrt (((cities a).1 - (cities b).1) * ((cities a).1 - (cities b).1) + ((cities a).2 - (cities b).2) * ((cities a).2 - (cities b).2)) := by
    intro a b
    rw [EuclideanSpace.dist_eq]
    simp [point, Fin.sum_univ_two, Real.dist_eq, pow_two]
  refine ⟨c, fun a b => dist (point (cities a)) (point (cities b)), h1, h2.1, h2.2.1, ?_, fun _ _ => rfl, fun a b => dist_comm _ _, ?_,
    fun a b m => dist_triangle _ _ _⟩
  · intro a b ha hb
    have e : ∀ i j, cityDist (exactOps realSqrt pow maxv floor) ((.fin (cities i).1, .fin (cities i).2) : Ext ℝ × Ext ℝ)
        (.fin (cities j).1, .fin (cities j).2) = .fin (dist (point (cities i)) (point (cities j))) := by
      intro i j
      rw [key]
      simp only [sub_eq_add_neg]
      rfl
    rw [h3 a b ha hb, e]
    rcases Nat.le_total a b with h | h
    · rw [Nat.min_eq_left h, Nat.max_eq_right h]
    · rw [Nat.min_eq_right h, Nat.max_eq_left h, dist_comm]
  · intro a b
    rw [dist_eq_zero]
    refine ⟨fun h => ?_, fun h => by rw [h]⟩
    have e0 := congrFun (congrArg (WithLp.ofLp) h) 0
    have e1 := congrFun (congrArg (WithLp.ofLp) h) 1
    simp [point] at e0 e1
    exact Prod.ext e0 e1

/-- Two cities three to the right and four above each other are at distance 5. -/
example : ∃ c, tspCost (exactOps realSqrt (fun _ _ => .nan) 1 (fun _ => 0)) 2
    (fun i => (.fin ((fun i => if i = 0 then ((1 : ℝ), (1 : ℝ)) else (4, 5)) i).1, .fin ((fun i => if i = 0 then ((1 : ℝ), (1 : ℝ)) else (4, 5)) i).2)) = .ok c ∧
    c.get 0 1 = .fin 5 := by
  obtain ⟨c, d, h1, -, -, h2, h3, -⟩ := C94_euclidean (fun _ _ => .nan) 1 (fun _ => 0) 2 (fun i => if i = 0 then ((1 : ℝ), (1 : ℝ)) else (4, 5))
  refine ⟨c, h1, ?_⟩
  rw [h2 0 1 (by decide) (by decide), h3, EuclideanSpace.dist_eq]
  congr 1
  simp [point, Fin.sum_univ_two, Real.dist_eq]
  rw [show ((1 : ℝ) - 4) ^ 2 + (1 - 5) ^ 2 = 5 ^ 2 by norm_num]
  exact Real.sqrt_sq (by norm_num)

end Ecrs.Aco
