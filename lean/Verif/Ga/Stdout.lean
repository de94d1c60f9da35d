import Verif.Ga.Probe

/-!
# Model of the logging probe `StdoutProbe` (src/ga/probe/stdout_probe.rs)

A log line is modelled by its tag and the values interpolated into it, not by its text.  Durations are nanoseconds;
`as_millis` divides by a million.
-/

namespace Ecrs.Ga
open Ecrs

/-- One line written through `info!` (stdout_probe.rs:15, 20-27, 38-44, 49-55). -/
inductive LogLine (C K : Type)
  | start
  | newBest (millis generation : Nat) (chromosome : C) (fitness : Fl K)
  | bestInGen (millis generation : Nat) (chromosome : C) (fitness : Fl K)
  | fin (millis generation : Nat) (chromosome : C) (fitness : Fl K)
  deriving DecidableEq, Repr

section
variable {I C K : Type}

/-- `info!`: appends a line to the log. -/
def logLine (l : LogLine C K) : M (List (LogLine C K)) Unit := fun log => .ok ((), log ++ [l])

/-- `metrics.total_dur.unwrap().as_millis()`. -/
def unwrapMillis (m : Metrics) : M (List (LogLine C K)) Nat :=
  match m.totalDur with
  | some d => pure (d / 1000000)
  | none => M.fail .unwrapNone

/-- Models `impl Probe for StdoutProbe` (stdout_probe.rs:13-56). `on_new_best` uses `unwrap_or(0 ms)`, the other two
`unwrap`; the remaining callbacks are no-ops (lines 30-33 and the defaults of src/ga/probe.rs). -/
def stdoutProbe (T : IndTrait I C K) : Probe (List (LogLine C K)) I
  | .onStart _ => logLine .start
  | .onNewBest m i => logLine (.newBest (m.totalDur.getD 0 / 1000000) m.generation (T.chromosome i) (T.fitness i))
  | .onBestFit m i => do
    let t ← unwrapMillis m
    logLine (.bestInGen t m.generation (T.chromosome i) (T.fitness i))
  | .onEnd m _ best => do
    let t ← unwrapMillis m
    logLine (.fin t m.generation (T.chromosome best) (T.fitness best))
  | _ => pure ()

end
end Ecrs.Ga
