import Verif.FRng
import Mathlib.Algebra.Order.Ring.Rat
import Mathlib.Tactic.NormNum
import Mathlib.Tactic.Linarith

/-! A concrete generator satisfying the `Rng` contract, used only in the non-vacuity examples. -/

namespace Ecrs.Ga
open Ecrs

/-- A concrete generator: a counter; `gen_range` adds the counter modulo the width. -/
def counterRng : Rng Nat ℚ where
  below g lo hi := (lo + g % (hi - lo), g + 1)
  below_spec g lo hi h := by
    have := Nat.mod_lt g (show 0 < hi - lo by omega)
    simp only; omega
  upto g lo hi := (lo + g % (hi - lo + 1), g + 1)
  upto_spec g lo hi h := by
    have := Nat.mod_lt g (show 0 < hi - lo + 1 by omega)
    simp only; omega
  unit g := ((if g % 2 = 0 then 1 / 4 else 3 / 4), g + 1)
  unit_spec g := by simp only; split <;> norm_num
  coin g := (g % 2 == 0, g + 1)
  sample g _ k := (List.range k, g + 1)
  sample_spec g n k h := by
    refine ⟨by simp, List.nodup_range, ?_⟩
    intro i hi; simp at hi; omega
  shuffle g n := ((List.range n).reverse, g + 1)
  shuffle_spec g n := List.reverse_perm _
  threadBelow g lo hi := (lo + g % (hi - lo), g + 1)
  threadBelow_spec g lo hi h := by
    have := Nat.mod_lt g (show 0 < hi - lo by omega)
    simp only; omega
  clonesShareState := false

/-- The counter with real-valued draws: even counters give the lower end of the interval, odd counters its
midpoint; weighted sampling succeeds when there are enough weights. -/
def counterFRng : FRng Nat ℚ where
  toRng := counterRng
  between g lo hi := ((if g % 2 = 0 then lo else (lo + hi) / 2), g + 1)
  between_spec g lo hi h := by
    simp only; split
    · exact ⟨le_rfl, h⟩
    · constructor <;> linarith
  halfOpen g lo hi := ((if g % 2 = 0 then lo else (lo + hi) / 2), g + 1)
  halfOpen_spec g lo hi h := by
    simp only; split
    · exact ⟨le_rfl, h⟩
    · constructor <;> linarith
  weighted g ws k := ((if k ≤ ws.length then some (List.range k) else none), g + 1)
  weighted_spec g ws k l h := by
    simp only at h
    split at h
    · cases h
      refine ⟨by simp, List.nodup_range, ?_⟩
      intro i hi; simp at hi; omega
    · cases h

end Ecrs.Ga
