import Verif.TestFunctions.Lemmas
import Verif.TestFunctions.Trefethen
import Verif.Props.TestFunctions8

/-!
# C122, continued: `trefethen`
-/

set_option linter.unusedSectionVars false
set_option linter.unusedVariables false

namespace Ecrs.Props
open Ecrs Ecrs.TF Real

/-- **C122**: `trefethen`, documented minimum `f(-0.024403, 0.210612) = -3.30686865`: the value there agrees to eight decimals, and
the documented minimum is a lower bound of the function on the whole plane. -/
theorem C122_trefethen :
    (∃ v, trefethen [-0.024403, 0.210612] = .ok v ∧ |v - -3.30686865| ≤ 0.00000001) ∧
    (∀ x y : ℝ, ∃ v, trefethen [x, y] = .ok v ∧ -3.30686865 ≤ v) ∧
    HasMinimumUpTo 0.00000001 (· = 2) trefethen [-0.024403, 0.210612] (-3.30686865) := by
  have value : ∃ v, trefethen [-0.024403, 0.210612] = .ok v ∧ |v - -3.30686865| ≤ 0.00000001 :=
    ⟨_, rfl, Interval.trefethen_value⟩
  have lower : ∀ x y : ℝ, ∃ v, trefethen [x, y] = .ok v ∧ -3.30686865 ≤ v :=
    fun x y => ⟨_, rfl, Interval.trefethen_lower x y⟩
  refine ⟨value, lower, rfl, value, ?_⟩
  intro x hx
  obtain ⟨x1, x2, rfl⟩ := List.length_eq_two.1 hx
  obtain ⟨v, hv, h⟩ := lower x1 x2
  exact ⟨v, hv, by linarith⟩

/-- The hypotheses are met: a point where the function is not minimal. -/
example : ∃ v, trefethen [0, 0] = .ok v ∧ -3.30686865 ≤ v := C122_trefethen.2.1 0 0

end Ecrs.Props
