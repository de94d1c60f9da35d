import Verif.Props.Selection

/-!
# C28 continued: which individuals RankR takes
-/

set_option linter.unusedSectionVars false

namespace Ecrs.Ga
open Ecrs

section
variable {G U I : Type} [LinearOrder U] [Zero U] [One U] (R : Rng G U)

/-- **C28, RankR, who is taken.** If the next three draws are the positions `i`, `j` and the number `u`, the first individual
selected is the one at `i` when `u < r` and the one at `j` otherwise; the others are selected in the same way from the draws
that follow. -/
theorem C28_rank_r_threshold {r : U} {count i j : Nat} {u : U} {pop : List I} (h : 0 < pop.length) {g g1 g2 g3 : G}
    (hi : R.below g 0 pop.length = (i, g1)) (hj : R.below g1 0 pop.length = (j, g2)) (hu : R.unit g2 = (u, g3)) :
    ∃ x, pop[if u < r then i else j]? = some x ∧
      selRankR R r (count + 1) pop g = (selRankR R r count pop >>= fun rest => pure (x :: rest)) g3 := by
  have hil : i < pop.length := by have := (R.below_spec g 0 pop.length h).2; rw [hi] at this; exact this
  have hjl : j < pop.length := by have := (R.below_spec g1 0 pop.length h).2; rw [hj] at this; exact this
  have e : ∀ n, selRankR R r n pop = M.replicate n (rankROne R r pop) := by
    intro n
    unfold selRankR
    rw [show decide (0 < pop.length) = true from by simpa using h]
    rfl
  have h1 : R.genRange 0 pop.length g = .ok (i, g1) := by
    unfold Rng.genRange; rw [if_pos h]; show Except.ok (R.below g 0 pop.length) = _; rw [hi]
  have h2 : R.genRange 0 pop.length g1 = .ok (j, g2) := by
    unfold Rng.genRange; rw [if_pos h]; show Except.ok (R.below g1 0 pop.length) = _; rw [hj]
  have h3 : R.genUnit g2 = .ok (u, g3) := by
    show Except.ok (R.unit g2) = _; rw [hu]
  have hone : rankROne R r pop g = .ok ((if u < r then pop[i] else pop[j]), g3) := by
    unfold rankROne
    rw [M.bind_of_ok h1, idx_of_lt hil, pure_bind, M.bind_of_ok h2, idx_of_lt hjl, pure_bind, M.bind_of_ok h3]
    rfl
  refine ⟨if u < r then pop[i] else pop[j], ?_, ?_⟩
  · split
    · exact List.getElem?_eq_getElem hil
    · exact List.getElem?_eq_getElem hjl
  · rw [e, e]
    show (rankROne R r pop >>= fun y => M.replicate count (rankROne R r pop) >>= fun ys => pure (y :: ys)) g = _
    rw [M.bind_of_ok hone]

end

/-- Counter generator, three individuals, start state 0: draws 0, 1 and 1/4; with threshold 1/2 the first one is taken. -/
example : ∃ x, ([10, 20, 30] : List Nat)[if (1 / 4 : ℚ) < 1 / 2 then 0 else 1]? = some x ∧
    selRankR counterRng (1 / 2) 1 [10, 20, 30] 0 = (selRankR counterRng (1 / 2) 0 [10, 20, 30] >>= fun rest => pure (x :: rest)) 3 :=
  C28_rank_r_threshold counterRng (by decide) (g1 := 1) (g2 := 2) rfl rfl rfl

end Ecrs.Ga
