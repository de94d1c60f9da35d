import Verif.Ga.Solver

/-!
# Model of the GA builders (src/ga/builder.rs, src/ga/builder/generic.rs, realvalued.rs, bitstring.rs)

A builder is used through a chain of setter calls ended by `build`; the model runs a list of calls.
-/

namespace Ecrs.Ga
open Ecrs

/-- Models `ConfigError` (src/ga/builder.rs:39-45); the strings are constructors here. `NoParams` is never
constructed by the code. -/
inductive ConfigError
  | missingPopulationSize
  | missingGenerationLimit
  | missingMaxDuration
  | missingFitness
  | missingMutation
  | missingCrossover
  | missingSelection
  | missingReplacement
  | missingPopulationFactory
  | noProbe
  deriving DecidableEq, Repr

/-- How a builder chain can panic: an `assert!`/`debug_assert!` in a setter, the `panic!` with a config error in
`build`, or the two extra `panic!`s of the presets (realvalued.rs:136-142). -/
inductive BuildPanic
  | assertion
  | config (e : ConfigError)
  | fitnessNotSet
  | dimensionNotSet
  deriving DecidableEq, Repr

/-- Models `GAParamsOpt` (src/ga/builder.rs:66-70). -/
structure GAParamsOpt where
  populationSize : Option Nat
  generationLimit : Option Nat
  maxDuration : Option Nat
  deriving DecidableEq, Repr

/-- Models `GAParamsOpt::new` (src/ga/builder.rs:74-80). -/
def GAParamsOpt.new : GAParamsOpt := ⟨none, none, none⟩

/-- `Option::get_or_insert`. -/
def getOrInsert {α : Type} (o : Option α) (a : α) : Option α :=
  match o with
  | some x => some x
  | none => some a

/-- Models `GAParamsOpt::fill_from` (src/ga/builder.rs:83-87). -/
def GAParamsOpt.fillFrom (self : GAParamsOpt) (other : GAParams) : GAParamsOpt where
  populationSize := getOrInsert self.populationSize other.populationSize
  generationLimit := getOrInsert self.generationLimit other.generationLimit
  maxDuration := getOrInsert self.maxDuration other.maxDuration

/-- Models `GAParams::try_from` (src/ga/builder.rs:93-115). -/
def GAParams.tryFrom (o : GAParamsOpt) : Except ConfigError GAParams :=
  match o.populationSize with
  | none => .error .missingPopulationSize
  | some populationSize =>
  match o.generationLimit with
  | none => .error .missingGenerationLimit
  | some generationLimit =>
  match o.maxDuration with
  | none => .error .missingMaxDuration
  | some maxDuration => .ok { populationSize, generationLimit, maxDuration }

/-- `usize::MAX` on a 64-bit target. -/
def usizeMax : Nat := 2 ^ 64 - 1

/-- `std::time::Duration::MAX` in nanoseconds: `u64::MAX` seconds and 999 999 999 nanoseconds. -/
def durationMax : Nat := (2 ^ 64 - 1) * 10 ^ 9 + 999999999

/-- Models `DefaultParams::DEFAULT_PARAMS` (src/ga/builder.rs:299-305). -/
def defaultParams : GAParams := ⟨100, usizeMax, durationMax⟩

section
variable {Mu Cr Se Re Po Fi Pr : Type}

/-- Models `GAConfigOpt` (src/ga/builder.rs:122-142) over arbitrary component types. -/
structure GAConfigOpt (Mu Cr Se Re Po Fi Pr : Type) where
  params : GAParamsOpt
  fitness : Option Fi
  mutation : Option Mu
  crossover : Option Cr
  selection : Option Se
  replacement : Option Re
  populationFactory : Option Po
  probe : Option Pr

/-- Models `GAConfig` (src/ga.rs:154-174) as a record of its components. -/
structure GAConfig (Mu Cr Se Re Po Fi Pr : Type) where
  params : GAParams
  fitness : Fi
  mutation : Mu
  crossover : Cr
  selection : Se
  replacement : Re
  populationFactory : Po
  probe : Pr

/-- Models `GAConfigOpt::new` (src/ga/builder.rs:157-169). -/
def GAConfigOpt.new : GAConfigOpt Mu Cr Se Re Po Fi Pr :=
  ⟨GAParamsOpt.new, none, none, none, none, none, none, none⟩

/-- Models `GAConfig::try_from` (src/ga/builder.rs:187-241). -/
def GAConfig.tryFrom (o : GAConfigOpt Mu Cr Se Re Po Fi Pr) :
    Except ConfigError (GAConfig Mu Cr Se Re Po Fi Pr) :=
  match GAParams.tryFrom o.params with
  | .error e => .error e
  | .ok params =>
  match o.fitness with
  | none => .error .missingFitness
  | some fitness =>
  match o.mutation with
  | none => .error .missingMutation
  | some mutation =>
  match o.crossover with
  | none => .error .missingCrossover
  | some crossover =>
  match o.selection with
  | none => .error .missingSelection
  | some selection =>
  match o.replacement with
  | none => .error .missingReplacement
  | some replacement =>
  match o.populationFactory with
  | none => .error .missingPopulationFactory
  | some populationFactory =>
  match o.probe with
  | none => .error .noProbe
  | some probe =>
    .ok { params, fitness, mutation, crossover, selection, replacement, populationFactory, probe }

/-- The setters of `GenericBuilder`. `set_fitness_fn` (generic.rs:51-56) is `set_fitness` of a wrapped
function. -/
inductive Call (Mu Cr Se Re Po Fi Pr : Type)
  | setMaxDuration (d : Nat)
  | setMaxGenerationCount (n : Nat)
  | setPopulationSize (n : Nat)
  | setFitness (x : Fi)
  | setMutation (x : Mu)
  | setCrossover (x : Cr)
  | setSelection (x : Se)
  | setReplacement (x : Re)
  | setPopulationGenerator (x : Po)
  | setProbe (x : Pr)

/-- Models the setters of `GenericBuilder` (generic.rs:83-186). -/
def GAConfigOpt.call (c : GAConfigOpt Mu Cr Se Re Po Fi Pr) :
    Call Mu Cr Se Re Po Fi Pr → Except BuildPanic (GAConfigOpt Mu Cr Se Re Po Fi Pr)
  | .setMaxDuration d => .ok { c with params := { c.params with maxDuration := some d } }
  | .setMaxGenerationCount n =>
    if 1 ≤ n then .ok { c with params := { c.params with generationLimit := some n } } else .error .assertion
  | .setPopulationSize n =>
    if 0 < n then .ok { c with params := { c.params with populationSize := some n } } else .error .assertion
  | .setFitness x => .ok { c with fitness := some x }
  | .setMutation x => .ok { c with mutation := some x }
  | .setCrossover x => .ok { c with crossover := some x }
  | .setSelection x => .ok { c with selection := some x }
  | .setReplacement x => .ok { c with replacement := some x }
  | .setPopulationGenerator x => .ok { c with populationFactory := some x }
  | .setProbe x => .ok { c with probe := some x }

/-- A chain of setter calls. -/
def GAConfigOpt.calls : GAConfigOpt Mu Cr Se Re Po Fi Pr → List (Call Mu Cr Se Re Po Fi Pr) →
    Except BuildPanic (GAConfigOpt Mu Cr Se Re Po Fi Pr)
  | c, [] => .ok c
  | c, x :: xs =>
    match c.call x with
    | .error e => .error e
    | .ok c' => c'.calls xs

/-- Models `GenericBuilder::build` (generic.rs:193-204) up to `GeneticSolver::new`. -/
def GAConfigOpt.build (c : GAConfigOpt Mu Cr Se Re Po Fi Pr) :
    Except BuildPanic (GAConfig Mu Cr Se Re Po Fi Pr) :=
  match GAConfig.tryFrom { c with params := c.params.fillFrom defaultParams } with
  | .ok config => .ok config
  | .error err => .error (.config err)

/-- A whole use of `Builder::new()` (builder.rs:256-269, generic.rs:72-76): setters, then `build`. -/
def genericBuild (xs : List (Call Mu Cr Se Re Po Fi Pr)) : Except BuildPanic (GAConfig Mu Cr Se Re Po Fi Pr) :=
  match (GAConfigOpt.new : GAConfigOpt Mu Cr Se Re Po Fi Pr).calls xs with
  | .error e => .error e
  | .ok c => c.build

end

section presets
variable {Fi : Type}

/-- The state of `RealValuedBuilder` / `BitStringBuilder` (realvalued.rs:22-34, bitstring.rs:23-35); the
operator fields of the config stay `None` until `build`, there being no setters for them. -/
structure PresetOpt (Fi : Type) where
  params : GAParamsOpt
  fitness : Option Fi
  dim : Option Nat

/-- The setters of the two preset builders. -/
inductive PresetCall (Fi : Type)
  | setMaxDuration (d : Nat)
  | setMaxGenerationCount (n : Nat)
  | setPopulationSize (n : Nat)
  | dim (n : Nat)
  | setFitness (x : Fi)

/-- Models the setters (realvalued.rs:64-110 with `checked` = "debug build", since it uses `debug_assert!`;
bitstring.rs:65-111 with `checked = true`). -/
def PresetOpt.call (checked : Bool) (c : PresetOpt Fi) : PresetCall Fi → Except BuildPanic (PresetOpt Fi)
  | .setMaxDuration d => .ok { c with params := { c.params with maxDuration := some d } }
  | .setMaxGenerationCount n =>
    if checked = true → 1 ≤ n then .ok { c with params := { c.params with generationLimit := some n } }
    else .error .assertion
  | .setPopulationSize n =>
    if checked = true → 0 < n then .ok { c with params := { c.params with populationSize := some n } }
    else .error .assertion
  | .dim n => if 0 < n then .ok { c with dim := some n } else .error .assertion
  | .setFitness x => .ok { c with fitness := some x }

/-- A chain of setter calls. -/
def PresetOpt.calls (checked : Bool) : PresetOpt Fi → List (PresetCall Fi) → Except BuildPanic (PresetOpt Fi)
  | c, [] => .ok c
  | c, x :: xs =>
    match c.call checked x with
    | .error e => .error e
    | .ok c' => c'.calls checked xs

/-- What a preset's `build` decides: parameters, dimension and fitness; the operators are fixed
(`rvcOps`, `bscOps`). -/
structure PresetConfig (Fi : Type) where
  params : GAParams
  dim : Nat
  fitness : Fi

/-- Models `build` of both presets (realvalued.rs:134-166, bitstring.rs:135-168).  The operators inserted by
`get_or_insert_with` are always present, so `try_from` can only fail on the parameters. -/
def PresetOpt.build (c : PresetOpt Fi) : Except BuildPanic (PresetConfig Fi) :=
  match c.fitness with
  | none => .error .fitnessNotSet
  | some f =>
  match c.dim with
  | none => .error .dimensionNotSet
  | some dim =>
  match GAConfig.tryFrom (⟨c.params.fillFrom defaultParams, some f, some (), some (), some (), some (), some dim,
      some ()⟩ : GAConfigOpt Unit Unit Unit Unit Nat Fi Unit) with
  | .ok config => .ok ⟨config.params, config.populationFactory, config.fitness⟩
  | .error err => .error (.config err)

/-- A whole use of `Builder::with_rvc()` / `Builder::with_bsc()` (builder.rs:279-293). -/
def presetBuild (checked : Bool) (xs : List (PresetCall Fi)) : Except BuildPanic (PresetConfig Fi) :=
  match (⟨GAParamsOpt.new, none, none⟩ : PresetOpt Fi).calls checked xs with
  | .error e => .error e
  | .ok c => c.build

end presets
end Ecrs.Ga
