import Verif.Ff.Auxiliary
import Verif.Props.Published

/-!
# C147, the firefly module's `rastrigin`
-/

namespace Ecrs.Props
open Ecrs Ecrs.TF Real

/-- **C147, the firefly module's own `rastrigin`** is the published function in every dimension; it agrees with the one of
`test_functions` wherever that one has a value, and unlike it accepts the empty vector (value 0). -/
theorem C147_firefly_rastrigin {n : ℕ} (x : Fin n → ℝ) :
    Ff.auxRastrigin (List.ofFn x) = Published.rastrigin x ∧
    (0 < n → GivesAt rastrigin x (Ff.auxRastrigin (List.ofFn x))) ∧
    (n = 0 → Ff.auxRastrigin (List.ofFn x) = 0 ∧ ∃ e, rastrigin (List.ofFn x) = .error e) := by
  have h1 : Ff.auxRastrigin (List.ofFn x) = Published.rastrigin x := by
    unfold Ff.auxRastrigin Published.rastrigin
    rw [foldl_sum fun a => a * a - 10 * cos (2 * π * a), zero_add, List.length_ofFn, add_comm]
    simp only [pow_two]
  refine ⟨h1, fun hn => ?_, ?_⟩
  · rw [h1]
    unfold GivesAt rastrigin Published.rastrigin
    simp only [require_ok (ofFn_ne_nil hn x), bind_ok', foldl_sum fun a => a ^ 2 - 10 * cos (2 * π * a), zero_add,
      List.length_ofFn]
    show Except.ok _ = Except.ok _
    rw [add_comm]
  · rintro rfl
    refine ⟨by rw [h1]; simp [Published.rastrigin], .panic .assertion, ?_⟩
    rw [List.ofFn_zero, rastrigin, require_err (by simp), bind_err']

example : Ff.auxRastrigin [1, 1] = 2 := by
  have := (C147_firefly_rastrigin ![1, 1]).1
  rw [show List.ofFn ![(1 : ℝ), 1] = [1, 1] from rfl] at this
  rw [this]
  unfold Published.rastrigin
  simp [Fin.sum_univ_succ, Real.cos_two_pi]
  norm_num

end Ecrs.Props
