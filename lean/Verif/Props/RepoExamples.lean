import Verif.Ga.Crossover
import Verif.Ga.Individual
import Verif.Ga.Builder
import Verif.Ga.Selection
import Verif.Ga.Boltzmann
import Verif.Ga.Replacement
import Verif.Aco.Tsp

/-!
# The repository's tests without random numbers, as closed equations about the model

These are tests of the model against the values the authors wrote down, not properties. The numbers are dyadic (or a single division), so the
arithmetic is exact here and in `f64`.
-/

namespace Ecrs.RepoTests
open Ecrs Ecrs.Ga

/-- The value a program without random numbers returns. -/
def value {α : Type} (m : M Unit α) : Option α :=
  match m () with
  | .ok r => some r.1
  | .error _ => none

/-! ## src/ga/operators/crossover/impls.rs:32-115 -/

/-- `check_ppx_example` (lines 32-46). -/
example : value (ppxChild [1, 2, 3, 4, 5, 6] [3, 1, 2, 6, 4, 5] [true, false, true, true, false, false]) = some [1, 3, 2, 4, 6, 5] := by decide +kernel

/-- `check_pmx_example` (lines 48-60). -/
example : value (pmxChild 100 [8, 4, 7, 3, 6, 2, 5, 1, 9, 0] [0, 1, 2, 3, 4, 5, 6, 7, 8, 9] 3 8) = some [0, 7, 4, 3, 6, 2, 5, 1, 8, 9] := by
  decide +kernel

/-- `fixed_point_works_as_expected` (lines 92-115). -/
example : (value (fixedPoint (Individual.chromOps Nat (.num (0 : Int))) 4 ⟨[8, 4, 7, 3, 6, 2, 5, 1, 9, 0], .num 0⟩ ⟨[0, 1, 2, 3, 4, 5, 6, 7, 8, 9], .num 0⟩)).map
      (fun c => (c.1.chromosome, c.2.chromosome)) =
    some ([8, 4, 7, 3, 4, 5, 6, 7, 8, 9], [0, 1, 2, 3, 6, 2, 5, 1, 9, 0]) := by decide +kernel

/-! ## src/ga/operators/replacement/impls.rs:199-385: `WeakParent` on two parents with fitness 60 and 40 -/

/-- The fitness values after `WeakParent`. -/
def weak (a b c d : Int) : Option (List (Fl Int)) :=
  (value (weakParent (Individual.trait Unit Int) true [⟨(), .num a⟩, ⟨(), .num b⟩] [⟨(), .num c⟩, ⟨(), .num d⟩])).map
    (List.map Individual.fitness)

example : weak 60 40 120 100 = some [.num 120, .num 100] := by decide +kernel
example : weak 60 40 10 12 = some [.num 60, .num 40] := by decide +kernel
example : weak 60 40 50 30 = some [.num 60, .num 50] := by decide +kernel
example : weak 60 40 30 50 = some [.num 60, .num 50] := by decide +kernel
example : weak 60 40 70 50 = some [.num 70, .num 60] := by decide +kernel

/-! ## src/ga/operators/selection/impls.rs:706-740: constructors that must panic -/

example : value (boltzmannNew (5 : ℚ) 100 5 10) = none := by decide +kernel
example : value (boltzmannNew (5 : ℚ) 100 (-1 / 10) 10) = none := by decide +kernel
example : value (boltzmannNew (5 : ℚ) 100 (1 / 2) 4) = none := by decide +kernel
example : value (boltzmannNew (5 : ℚ) 100 (1 / 2) 400) = none := by decide +kernel
example : value (tournamentNew (2 : ℚ)) = none := by decide +kernel
example : value (rankRNew (11 / 10 : ℚ)) = none := by decide +kernel

/-! ## src/ga/builder.rs:324-368, tests/builder_tests.rs -/

/-- `new_param_opt_is_empty`. -/
example : GAParamsOpt.new = ⟨none, none, none⟩ := rfl

/-- `param_opt_fills_correctly`. -/
example : ({ GAParamsOpt.new with generationLimit := some 100 } : GAParamsOpt).fillFrom ⟨100, 200, 10 ^ 9⟩ = ⟨some 100, some 100, some (10 ^ 9)⟩ := rfl

/-- `conversion_works_as_expected`. -/
example : GAParams.tryFrom ⟨some 200, none, none⟩ = .error .missingGenerationLimit ∧
    GAParams.tryFrom ⟨some 200, some 200, none⟩ = .error .missingMaxDuration ∧
    GAParams.tryFrom ⟨some 200, some 200, some 10000⟩ = .ok ⟨200, 200, 10000⟩ := ⟨rfl, rfl, rfl⟩

/-- `generic_does_not_panic_with_some_params_unspecified`: first chain. -/
example : ∃ c, genericBuild (Mu := Unit) (Cr := Unit) (Se := Unit) (Re := Unit) (Po := Unit) (Fi := Unit) (Pr := Unit)
    [.setMaxGenerationCount 500, .setPopulationSize 100, .setFitness (), .setCrossover (), .setReplacement (), .setMutation (),
      .setPopulationGenerator (), .setSelection (), .setProbe ()] = .ok c := ⟨_, rfl⟩

/-- The same: second chain. -/
example : ∃ c, genericBuild (Mu := Unit) (Cr := Unit) (Se := Unit) (Re := Unit) (Po := Unit) (Fi := Unit) (Pr := Unit)
    [.setFitness (), .setCrossover (), .setMutation (), .setReplacement (), .setPopulationGenerator (), .setSelection (), .setProbe ()] = .ok c :=
  ⟨_, rfl⟩

/-- `rvc_does_not_panic_with_some_operators_unspecified` and `bsc_does_not_panic_with_some_operators_unsepcified`. -/
example (checked : Bool) : ∃ c, presetBuild checked [.dim 10, .setFitness ()] = .ok c := by cases checked <;> exact ⟨_, rfl⟩

/-! ## src/aco -/
section aco
open Ecrs.Aco

/-- Powers with a natural exponent, as in the tests. -/
def powQ : Ext ℚ → Ext ℚ → Ext ℚ
  | .fin a, .fin b => .fin (a ^ b.num.toNat)
  | _, _ => .nan

/-- Exact arithmetic on rationals. -/
abbrev opsQ : AcoOps (Ext ℚ) (WithBot (WithTop ℚ)) := exactOps (fun x => x) powQ 1000 fun _ => 0

instance : Inhabited (Ext ℚ) := ⟨.fin 0⟩

/-- `FMatrix::from_column_slice(n, n, l)` and `from_vec(n, n, l)`. -/
def column (n : Nat) (l : List ℚ) : Mat (Ext ℚ) := ⟨n, n, fun i j => .fin (l.getD (j * n + i) 0)⟩

/-- The elements of a matrix of numbers. -/
def numbers (m : Mat (Ext ℚ)) : List (Option ℚ) := m.elems.map fun x => match x with
  | .fin a => some a
  | _ => none

/-- A solution of the tests. -/
def sol (p : List Nat) (f : ℚ) : Sol (Ext ℚ) := ⟨p, .fin f⟩

/-- The fitness of a graded solution. -/
def fitness (s : Sol (Ext ℚ)) : Option ℚ := match s.fitness with
  | .fin a => some a
  | _ => none

/-- `inverse_path_length_grader_returns_correct_fitness` (src/aco/tsp.rs:91-106). -/
example : ((gradeOne opsQ (column 2 [0, 2, 4, 0]) (sol [0, 1] 0)).toOption.bind fitness) = some (1 / 6) ∧
    ((gradeOne opsQ (column 2 [0, 2, 4, 0]) (sol [1, 0] 0)).toOption.bind fitness) = some (1 / 6) := by decide +kernel

/-- The data of src/aco/tsp/pheromone.rs:212-227. -/
def pher : Mat (Ext ℚ) := column 3 [0, 1, 2, 1, 0, 4, 2, 4, 0]
def sols : List (Sol (Ext ℚ)) := [sol [0, 1, 2] (1 / 8), sol [0, 1, 2] (1 / 4)]

/-- `check_ant_system_pu_with_example`. -/
example : (antSystemPU opsQ (.fin (1 / 4)) sols pher).toOption.map numbers =
    some ([0, 9 / 8, 15 / 8, 9 / 8, 0, 27 / 8, 15 / 8, 27 / 8, 0].map some) := by decide +kernel

/-- `check_elitist_ant_system_pu_with_example`. -/
example : (elitistPU opsQ (.fin (1 / 4)) (Sol.default opsQ) sols pher).toOption.map (fun r => numbers r.1) =
    some ([0, 11 / 8, 17 / 8, 11 / 8, 0, 29 / 8, 17 / 8, 29 / 8, 0].map some) := by decide +kernel

/-- `check_max_min_ant_system_pu_with_example`. -/
example : (mmPU opsQ (.fin (1 / 4)) (.fin (3 / 2)) (.fin 3) (overallBest opsQ) (Sol.default opsQ) sols pher).toOption.map (fun r => numbers r.1) =
    some ([0, 3 / 2, 7 / 4, 3 / 2, 0, 3, 7 / 4, 3, 0].map some) := by decide +kernel

/-- `check_ant_colony_system_pu_with_example`. -/
example : (acsPU opsQ (.fin (1 / 4)) (overallBest opsQ) (Sol.default opsQ) sols pher).toOption.map (fun r => numbers r.1) =
    some ([0, 13 / 16, 25 / 16, 13 / 16, 0, 49 / 16, 25 / 16, 49 / 16, 0].map some) := by decide +kernel

/-- `canonical_goodness_calculations_are_right` (src/aco/tsp/goodness.rs:74-90). -/
example : (canonicalGoodness opsQ (.fin 2) (.fin 3) (column 2 [1, 2, 4, 8]) (column 2 [4, 2, 8, 1 / 2])).toOption.map numbers =
    some ([16, 32, 4096, 128 / 1].map some) := by decide +kernel

/-- `iteration_best_returns_correct_pheromones` (src/aco/tsp/pheromone/best_policy.rs:100-134). -/
example : fitness (iterationBest opsQ (Sol.default opsQ) [sol [0] (1 / 2), sol [0] (1 / 4)]) = some (1 / 2) ∧
    fitness (iterationBest opsQ (iterationBest opsQ (Sol.default opsQ) [sol [0] (1 / 2), sol [0] (1 / 4)]) [sol [0] (1 / 8), sol [0] (1 / 16)]) =
      some (1 / 8) := by decide +kernel

/-- `overall_best_returns_correct_pheromones` (lines 136-170). -/
example : fitness (overallBest opsQ (Sol.default opsQ) [sol [0] (1 / 2), sol [0] (1 / 4)]) = some (1 / 2) ∧
    fitness (overallBest opsQ (overallBest opsQ (Sol.default opsQ) [sol [0] (1 / 2), sol [0] (1 / 4)]) [sol [0] (1 / 8), sol [0] (1 / 16)]) =
      some (1 / 2) := by decide +kernel

end aco
end Ecrs.RepoTests
