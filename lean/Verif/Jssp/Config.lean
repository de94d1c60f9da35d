import Verif.Jssp.Operators

/-!
# Model of the configuration of the job shop example: examples/jssp/config.rs, cli.rs and main.rs

`Path` stands for `PathBuf`, `F` for `f64`.  The file system is a parameter: which paths are files, and what reading a
configuration file gives (`PartialConfig::try_from(PathBuf)`, config.rs:60-68: opening and deserialising).  Not modelled: clap's parsing of
the command line, creation of the output directory, logging.
-/

namespace Ecrs.Jssp
open Ecrs

variable {Path F : Type}

/-- Models `struct Args` (examples/jssp/cli.rs:7-40). -/
structure Args (Path F : Type) where
  inputFile : Option Path
  outputDir : Option Path
  nGen : Option Nat
  popSize : Option Nat
  delayConstFactor : Option F
  cfgFile : Option Path
  performRandomsearch : Option Bool

/-- Models `struct PartialConfig` (examples/jssp/config.rs:38-45). -/
structure PartialConfig (Path F : Type) where
  inputFile : Option Path
  outputDir : Option Path
  nGen : Option Nat
  popSize : Option Nat
  delayConstFactor : Option F
  performRandomsearch : Option Bool

/-- Models `PartialConfig::empty` (config.rs:48-57). -/
def PartialConfig.empty : PartialConfig Path F := ⟨none, none, none, none, none, none⟩

/-- Models `struct Config` (config.rs:14-35). -/
structure Config (Path F : Type) where
  inputFile : Path
  outputDir : Path
  nGen : Option Nat
  popSize : Option Nat
  delayConstFactor : Option F
  performRandomsearch : Bool

/-- The error values of `Config::try_from`. -/
inductive ConfigError
  | inputFileMissing
  | outputDirMissing
  | loading (message : String)
  deriving DecidableEq, Repr

/-- Models `TryFrom<PartialConfig> for Config` (config.rs:70-89). -/
def Config.ofPartial (p : PartialConfig Path F) : Except ConfigError (Config Path F) :=
  match p.inputFile, p.outputDir with
  | none, _ => .error .inputFileMissing
  | some _, none => .error .outputDirMissing
  | some i, some o => .ok ⟨i, o, p.nGen, p.popSize, p.delayConstFactor, p.performRandomsearch.getD false⟩

/-- `if let Some(x) = arg { field = Some(x) }`. -/
def override {α : Type} (field arg : Option α) : Option α :=
  match arg with
  | some x => some x
  | none => field

/-- The initial `partial_cfg` of `Config::try_from(Args)` (config.rs:95-102). -/
def initialConfig (read : Path → Except String (PartialConfig Path F)) (a : Args Path F) : Except ConfigError (PartialConfig Path F) :=
  match a.cfgFile with
  | some f => match read f with
    | .ok c => .ok c
    | .error e => .error (.loading e)
  | none => .ok .empty

/-- Models `TryFrom<Args> for Config` (config.rs:91-125). -/
def Config.ofArgs (read : Path → Except String (PartialConfig Path F)) (a : Args Path F) : Except ConfigError (Config Path F) := do
  let p ← initialConfig read a
  Config.ofPartial {
    inputFile := override p.inputFile a.inputFile
    outputDir := override p.outputDir a.outputDir
    nGen := override p.nGen a.nGen
    popSize := override p.popSize a.popSize
    delayConstFactor := override p.delayConstFactor a.delayConstFactor
    performRandomsearch := override p.performRandomsearch a.performRandomsearch }

/-- Models `validate_args` (examples/jssp/cli.rs:42-54): `true` stands for `Ok(())`. -/
def validateArgs (isFile : Path → Bool) (a : Args Path F) : Bool :=
  (match a.inputFile with | some f => isFile f | none => true) && (match a.cfgFile with | some f => isFile f | none => true)

/-- Which solver `run` starts, with the arguments that it passes to the builder (examples/jssp/main.rs:35-128). -/
structure Launch (F : Type) where
  randomSearch : Bool
  populationSize : Nat
  generations : Nat
  delayConst : F
  deriving DecidableEq, Repr

/-- Models the choice of parameters in `run_randomsearch` and `run_jssp_solver` (main.rs:38-52, 69, 86-100, 121) and of the solver in `run`
(main.rs:147-150); `onePointFive` is the literal `1.5`. -/
def launch (onePointFive : F) (nOps : Nat) (c : Config Path F) : Launch F where
  randomSearch := c.performRandomsearch
  populationSize := match c.popSize with | some ps => ps | none => nOps * 2
  generations := match c.nGen with | some ng => ng | none => 400
  delayConst := onePointFive

/-- Models `run` (main.rs:130-151) up to the start of the solver: arguments, configuration, instance.  Validation and configuration errors
panic. -/
def main (isFile : Path → Bool) (read : Path → Except String (PartialConfig Path F)) (instanceOf : Path → Except Panic Nat)
    (onePointFive : F) (a : Args Path F) : Except Panic (Launch F) :=
  if validateArgs isFile a then
    match Config.ofArgs read a with
    | .error _ => .error .libError
    | .ok c => do
      let nOps ← instanceOf c.inputFile
      pure (launch onePointFive nOps c)
  else .error .libError

end Ecrs.Jssp
