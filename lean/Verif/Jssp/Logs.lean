import Verif.Text.Json
import Verif.Ga.Timed
import Verif.Jssp.Operators
import Verif.Jssp.Report

/-!
# The log files of the job shop example: examples/jssp/problem/probe.rs, logging.rs

Library behaviour (crates `log`, `log4rs`) written down here: a line logged for one of the targets below goes to the file of that target, and
to no other place (`additive(false)`), followed by a line feed (pattern `{m}{n}`), in the order of the calls. Not modelled: the lines for
other targets and `println!` (standard output), the directories, the MD5 hash (a parameter).
-/

namespace Ecrs.Jssp
open Ecrs Ecrs.Csv

/-- The targets that have a file (`create_event_map`, examples/jssp/util.rs:26-34, and "metadata", logging.rs:65-81). -/
inductive Target
  | popmetrics | popgentime | newbest | bestingen | iterinfo | metadata
  deriving DecidableEq, Repr

/-- Values with commas between them, as the format strings of probe.rs have them. -/
def commas (fields : List Text) : Text := List.intercalate [','] fields

/-- `duration.unwrap().as_millis()` in decimal; durations are nanoseconds. -/
def millis : Option Nat → Except Panic Text
  | some d => .ok (natText (d / 1000000))
  | none => .error .unwrapNone

/-- Models `OutputData` (examples/jssp/logging.rs:12-20) and its construction in `JsspProbe::on_end` (probe.rs:198-206), as
`serde_json::to_string_pretty` writes it. `digits` is how `serde_json` writes a finite `f64` (genes are finite). -/
def metadata (digits : ℝ → Text) (hash : Text → Text) (solution : Text) (fitness generation time : Nat) (chromosome : List ℝ) : Text :=
  (structJson [("solution_string", .str solution), ("hash", .str (hash solution)), ("fitness", natJson fitness),
    ("generation_count", natJson generation), ("total_time", natJson time), ("chromosome", listJson (fun x => .num (digits x)) chromosome)]).text 0

/-- Models the callbacks of `JsspProbe` (examples/jssp/problem/probe.rs:82-209): the lines logged, with their targets. `num` is `{}` for an
`f64` (`none`: NaN), `solution` the computation of the solution string (see `SolutionString`). The probe is new: its assertion on `repeated`
(probe.rs:97) holds in the one run. Simplification: when a callback panics, the lines it logged before that are not shown. -/
noncomputable def logged (num : Option ℝ → Text) (digits : ℝ → Text) (hash : Text → Text) (solution : Arr Operation → Except Panic Text) :
    Ga.TEv (Indiv ℝ) → Except Panic (List (Target × Text))
  | (_, .onStart _) => .ok
      [(.popmetrics, "event_name,generation,total_duration,population_size,diversity,distance_avg".toList),
       (.popgentime, "event_name,time".toList),
       (.newbest, "event_name,generation,total_duration,fitness".toList),
       (.bestingen, "event_name,generation,total_duration,fitness".toList),
       (.iterinfo, "event_name,generation,eval_time,sel_time,cross_time,mut_time,repl_time,iter_time".toList)]
  | (ph, .onInitialPopulation _ pop) => do
      let d ← avgDistance (pop.map (·.ind.chromosome))
      let t ← millis ph.popGen
      .ok [(.popmetrics, commas ["diversity".toList, ['0'], ['0'], natText pop.length, num (some 0), num d]),
           (.popgentime, commas ["popgentime".toList, t])]
  | (_, .onNewBest m i) => do
      let t ← millis m.totalDur
      .ok [(.newbest, commas ["newbest".toList, natText m.generation, t, natText i.ind.fitness])]
  | (_, .onNewGeneration m pop) => do
      let d ← avgDistance (pop.map (·.ind.chromosome))
      let t ← millis m.totalDur
      .ok [(.popmetrics, commas ["diversity".toList, natText m.generation, t, natText pop.length, num (some 0), num d])]
  | (_, .onBestFit m i) => do
      let t ← millis m.totalDur
      .ok [(.bestingen, commas ["bestingen".toList, natText m.generation, t, natText i.ind.fitness])]
  | (ph, .onIterationEnd m) => do
      let e ← millis ph.popEval
      let s ← millis ph.selection
      let c ← millis ph.crossover
      let u ← millis ph.mutation
      let r ← millis ph.replacement
      let i ← millis ph.iteration
      .ok [(.iterinfo, commas ["iterinfo".toList, natText m.generation, e, s, c, u, r, i])]
  | (_, .onEnd m _ best) => do
      let s ← solution best.ind.operations
      match m.totalDur with
      | some d => .ok [(.metadata, metadata digits hash s best.ind.fitness m.generation (d / 1000000) best.ind.chromosome)]
      | none => .error .unwrapNone
  | _ => .ok []

/-- What a file contains after the given lines have been logged. -/
def fileText (t : Target) (lines : List (Target × Text)) : Text := (lines.filter fun l => l.1 = t).flatMap fun l => l.2 ++ ['\n']

/-- The log files of a whole run, one text for each target. -/
noncomputable def logFiles (num : Option ℝ → Text) (digits : ℝ → Text) (hash : Text → Text) (solution : Arr Operation → Except Panic Text)
    (tr : List (Ga.TEv (Indiv ℝ))) : Except Panic (Target → Text) := do
  let ls ← tr.mapM (logged num digits hash solution)
  pure fun t => fileText t ls.flatten

end Ecrs.Jssp
