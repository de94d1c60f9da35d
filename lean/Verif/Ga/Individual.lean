import Verif.Ga.Solver
import Verif.Aco.Tsp
import Verif.Jssp.Model

/-!
# Creation and comparison of individuals (src/ga/individual.rs, examples/jssp/problem/individual.rs) and solutions (src/aco/solution.rs)
-/

namespace Ecrs.Ga
open Ecrs

section
variable {C K : Type} [LinearOrder K]

/-- `a == b` on `f64`: NaN is equal to nothing. -/
def eqFl : Fl K → Fl K → Bool
  | .num a, .num b => decide (a = b)
  | _, _ => false

/-- Models `Individual::new` (src/ga/individual.rs:73-78): default chromosome, fitness `0.0`. -/
def Individual.new (default : C) (zero : K) : Individual C K := ⟨default, .num zero⟩

/-- Models `From<T> for Individual<T>` (src/ga/individual.rs:130-137); `lowest` is `f64::MIN`. -/
def Individual.ofChromosome (lowest : K) (c : C) : Individual C K := ⟨c, .num lowest⟩

/-- Models `PartialEq for Individual` (src/ga/individual.rs:140-144). -/
def Individual.eq (a b : Individual C K) : Bool := eqFl a.fitness b.fitness

/-- Models `==` of two vectors of individuals (std: same length and equal elements), as used by `assert_eq!` on populations. -/
def Individual.eqAll : List (Individual C K) → List (Individual C K) → Bool
  | [], [] => true
  | a :: as, b :: bs => a.eq b && Individual.eqAll as bs
  | _, _ => false

/-- Models `PartialOrd for Individual` (src/ga/individual.rs:148-153). -/
def Individual.partialCmp (a b : Individual C K) : Option Ordering := Fl.partialCmp a.fitness b.fitness

/-- Models `Ord for Individual` (src/ga/individual.rs:157-164). -/
def Individual.cmp (a b : Individual C K) : Except Panic Ordering :=
  match a.partialCmp b with
  | some o => .ok o
  | none => .error .nanCompare

end
end Ecrs.Ga

namespace Ecrs.Jssp
open Ecrs

section
variable {X : Type}

/-- Models `From<Vec<f64>> for JsspIndividual` (examples/jssp/problem/individual.rs:100-111); `usizeMax` is `usize::MAX`. -/
def Individual.ofChromosome (usizeMax : Nat) (c : List X) : Individual X := ⟨c, .ofList [], ⟨0, Machine.new⟩, usizeMax, false, false⟩

/-- Models `PartialEq for JsspIndividual` (examples/jssp/problem/individual.rs:49-53). -/
def Individual.eq (a b : Individual X) : Bool := decide (a.fitness = b.fitness)

/-- Models `Ord for JsspIndividual` (examples/jssp/problem/individual.rs:64-68). -/
def Individual.cmp (a b : Individual X) : Ordering := compare a.fitness b.fitness

end
end Ecrs.Jssp

namespace Ecrs.Aco
open Ecrs

/-- Models `PartialEq for Solution` (src/aco/solution.rs:50-54), on fitness values that may be NaN. -/
def Sol.eq {K : Type} [LinearOrder K] (a b : Sol (Fl K)) : Bool := Ga.eqFl a.fitness b.fitness && decide (a.path = b.path)

end Ecrs.Aco
