import Verif.Aco.Tsp
import Verif.Float.Rounding

/-!
# The arithmetic of the ant colony module with rounding

The model of src/aco (`Aco/Tsp`, `Aco/Aco`) is written over an arithmetic without laws (`AcoOps`).  `roundedOps A` is exact arithmetic
followed by the rounding `A` after every addition, subtraction, multiplication and division, as `f64` does
(src/aco/tsp/ant.rs:97-110, src/aco/tsp.rs:68-76, src/aco/tsp/pheromone.rs, src/aco/tsp/goodness.rs:63,
src/aco/tsp/local_update.rs:42, 82-83).  Overflow is not modelled; `powf` and `sqrt` are parameters.
-/

namespace Ecrs

/-- Rounds the finite numbers. -/
def Ext.round {F : Type} [LinearOrder F] [Zero F] [One F] (A : Rounding F) : Ext F → Ext F
  | .fin x => .fin (A.rnd x)
  | e => e

/-- Specification: the relative error of the rounding of a non-negative number is at most `u`. -/
def Rounding.RelErr {F : Type} [Field F] [LinearOrder F] (A : Rounding F) (u : F) : Prop :=
  0 ≤ u ∧ u < 1 ∧ ∀ x, 0 ≤ x → (1 - u) * x ≤ A.rnd x ∧ A.rnd x ≤ (1 + u) * x

namespace Aco

/-- Exact arithmetic followed by rounding. -/
def roundedOps {F : Type} [Field F] [LinearOrder F] (A : Rounding F) (sqrt : Ext F → Ext F) (pow : Ext F → Ext F → Ext F) (maxv : F)
    (floor : F → Nat) : AcoOps (Ext F) (WithBot (WithTop F)) :=
  { exactOps sqrt pow maxv floor with
    add := fun a b => (Ext.add a b).round A
    sub := fun a b => (Ext.sub a b).round A
    mul := fun a b => (Ext.mul a b).round A
    div := fun a b => (Ext.div a b).round A
    sq := fun a => (Ext.mul a a).round A
    ofNat := fun n => (Ext.fin (n : F)).round A }

end Aco

/-! ## Relative error of binary64 -/

theorem nearest_relErr (p : Nat) {x : ℚ} (hx : 0 ≤ x) : |nearest p x - x| ≤ (1 / 2) ^ p * x := by
  rcases hx.eq_or_lt with rfl | hx
  · rw [nearest_zero]; simp
  obtain ⟨e, h1, h2⟩ := binade hx
  rw [nearest_binade h1 h2]
  have hu : (0 : ℚ) < (2 : ℚ) ^ (e + 1 - (p : ℤ)) := zpow_pos (by norm_num) _
  have hn := roundEven_near (x / (2 : ℚ) ^ (e + 1 - (p : ℤ)))
  have : (roundEven (x / (2 : ℚ) ^ (e + 1 - (p : ℤ))) : ℚ) * (2 : ℚ) ^ (e + 1 - (p : ℤ)) - x
      = ((roundEven (x / (2 : ℚ) ^ (e + 1 - (p : ℤ))) : ℚ) - x / (2 : ℚ) ^ (e + 1 - (p : ℤ))) * (2 : ℚ) ^ (e + 1 - (p : ℤ)) := by
    field_simp
  rw [this, abs_mul, abs_of_pos hu]
  calc _ ≤ 1 / 2 * (2 : ℚ) ^ (e + 1 - (p : ℤ)) := mul_le_mul_of_nonneg_right hn hu.le
    _ = (1 / 2) ^ p * (2 : ℚ) ^ e := by
      rw [show e + 1 - (p : ℤ) = e + 1 + -(p : ℤ) by ring, zpow_add₀ (by norm_num), zpow_add₀ (by norm_num), zpow_neg, zpow_natCast,
        one_div_pow]
      ring
    _ ≤ _ := mul_le_mul_of_nonneg_left h1 (by positivity)

theorem binary64_relErr : binary64.RelErr ((1 / 2) ^ 53) := by
  refine ⟨by norm_num, by norm_num, fun x hx => ?_⟩
  have := abs_le.1 (nearest_relErr 53 hx)
  show _ ≤ nearest 53 x ∧ nearest 53 x ≤ _
  constructor <;> nlinarith [this.1, this.2]

end Ecrs
