import Verif.Props.Numbering
import Verif.Props.ProbSelection

set_option linter.unusedSectionVars false
set_option linter.unusedVariables false

/-!
# C178 for selections: the order of the population does not matter
-/

namespace Ecrs.Props
open Ecrs Ecrs.Ga MeasureTheory
open scoped ENNReal

section
variable {G I C K : Type} [MeasurableSpace G] {R : Rng G ℝ} {μ : Measure G} {pop pop' : List I}

/-- **C178, Random selection.** The order in which the individuals stand in the population has no influence on the distribution of the
selected individuals. -/
theorem C178_select_random (hR : Ideal R μ) (h : pop.Perm pop') (hp : pop ≠ []) {xs : List I} {count : Nat} (hx : xs.length = count) :
    chance μ (selRandom R count pop') (· = xs) = chance μ (selRandom R count pop) (· = xs) := by
  have hp' : pop' ≠ [] := fun e => hp (by rw [e] at h; exact h.eq_nil)
  rw [C133_random hR hp hx, C133_random hR hp' hx]
  simp only [List.count, h.countP_eq, h.length_eq]

/-- **C178, RankR selection.** The same for every parameter. -/
theorem C178_select_rank_r (hR : Ideal R μ) {r : ℝ} (h0 : 0 ≤ r) (h1 : r ≤ 1) (h : pop.Perm pop') (hp : pop ≠ []) {xs : List I}
    {count : Nat} (hx : xs.length = count) :
    chance μ (selRankR R r count pop') (· = xs) = chance μ (selRankR R r count pop) (· = xs) := by
  have hp' : pop' ≠ [] := fun e => hp (by rw [e] at h; exact h.eq_nil)
  rw [C133_rank_r hR h0 h1 hp hx, C133_rank_r hR h0 h1 hp' hx]
  simp only [List.count, h.countP_eq, h.length_eq]

/-- **C178, Rank selection.** The same whenever all fitness values are numbers. -/
theorem C178_select_rank [LinearOrder K] (hR : Ideal R μ) (T : IndTrait I C K) (h : pop.Perm pop') (hp : pop ≠ []) (v : I → K)
    (hv : ∀ x ∈ pop, T.fitness x = .num (v x)) {xs : List I} {count : Nat} (hx : xs.length = count) :
    chance μ (selRank R T count pop') (· = xs) = chance μ (selRank R T count pop) (· = xs) := by
  have hp' : pop' ≠ [] := fun e => hp (by rw [e] at h; exact h.eq_nil)
  rw [C133_rank hR T hp v hv hx, C133_rank hR T hp' v (fun x hx => hv x (h.symm.subset hx)) hx]
  simp only [List.count, h.countP_eq, h.length_eq]

/-- **C178, RouletteWheel selection.** The same whenever no fitness is negative and one is positive. -/
theorem C178_select_roulette (hR : Ideal R μ) (fit : I → ℝ) (h : pop.Perm pop') (hf : ∀ y ∈ pop, 0 ≤ fit y) (hs : 0 < (pop.map fit).sum)
    {xs : List I} {count : Nat} (hx : xs.length = count) :
    chance μ (selRoulette R fit count pop') (· = xs) = chance μ (selRoulette R fit count pop) (· = xs) := by
  have e := (h.map fit).sum_eq
  rw [C133_roulette hR fit hf hs hx, C133_roulette hR fit (fun y hy => hf y (h.symm.subset hy)) (by rw [← e]; exact hs) hx]
  simp only [List.count, h.countP_eq, e]

/-- **C178, UniqueRandom selection.** The same for populations without repetitions. -/
theorem C178_select_unique (hR : Ideal R μ) (h : pop.Perm pop') (hp : pop.Nodup) {xs : List I} {count : Nat} (hx : xs.length = count)
    (hn : xs.Nodup) (hm : ∀ x ∈ xs, x ∈ pop) :
    chance μ (selUniqueRandom R count pop') (· = xs) = chance μ (selUniqueRandom R count pop) (· = xs) := by
  rw [C133_unique_random hR hp hx hn hm, C133_unique_random hR (h.nodup_iff.1 hp) hx hn fun x hx => h.subset (hm x hx), h.length_eq]

/-- **C178, Tournament selection.** The probability that all selected individuals are at most `t` does not depend on the order either. -/
theorem C178_select_tournament [LinearOrder K] (hR : Ideal R μ) (T : IndTrait I C K) (h : pop.Perm pop') (hp : pop ≠ []) (v : I → K)
    (hv : ∀ x ∈ pop, T.fitness x = .num (v x)) {factor : ℝ} (hf : factor ≤ 1) (count : Nat) (t : K) :
    chance μ (selTournament R T factor count pop') (fun xs => ∀ x ∈ xs, v x ≤ t) =
      chance μ (selTournament R T factor count pop) (fun xs => ∀ x ∈ xs, v x ≤ t) := by
  have hp' : pop' ≠ [] := fun e => hp (by rw [e] at h; exact h.eq_nil)
  rw [C133_tournament hR T hp v hv hf rfl, C133_tournament hR T hp' v (fun x hx => hv x (h.symm.subset hx)) hf rfl, h.length_eq,
    h.countP_eq]

end

-- hypotheses of the theorems
example := C178_select_random tapeRng_ideal (List.Perm.swap true false []) (by simp) (xs := [true, false]) (count := 2) rfl
example := C178_select_rank_r tapeRng_ideal (r := 1 / 2) (by norm_num) (by norm_num) (List.Perm.swap true false []) (by simp)
  (xs := [true, false]) (count := 2) rfl
example := C178_select_roulette tapeRng_ideal (fun b : Bool => if b then (3 : ℝ) else 1) (List.Perm.swap true false []) (by simp)
  (by norm_num) (xs := [true]) (count := 1) rfl
example := C178_select_unique tapeRng_ideal (List.Perm.swap 1 2 [3]) (by decide) (xs := [3, 1]) (count := 2) rfl (by decide) (by decide)
example := C178_select_rank tapeRng_ideal (Individual.trait (List Nat) Nat) (List.Perm.swap ⟨[1], .num 2⟩ ⟨[0], .num 1⟩ []) (by simp)
  (fun x => match x.fitness with | .num v => v | .nan => 0) (by intro x hx; fin_cases hx <;> rfl) (xs := [⟨[1], .num 2⟩]) (count := 1) rfl
example := C178_select_tournament tapeRng_ideal (Individual.trait (List Nat) Nat)
  (List.Perm.swap ⟨[1], .num 2⟩ ⟨[0], .num 1⟩ [⟨[2], .num 3⟩]) (by simp)
  (fun x => match x.fitness with | .num v => v | .nan => 0) (by intro x hx; fin_cases hx <;> rfl) (factor := 2 / 3) (by norm_num) 2 2

end Ecrs.Props
