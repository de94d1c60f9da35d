import Verif.Ga.Solver

/-!
# Model of GA probes and probing policies (src/ga/probe/*.rs)

A probe callback is an `Ev`; the callbacks a probe receives in a run are the callback events of the run's trace.
-/

namespace Ecrs.Ga
open Ecrs

/-- The callbacks of a run, in order: what the probe given to the solver receives. -/
def callbacks {I : Type} (tr : List (Ev I)) : List (Ev I) := tr.filter Ev.isCallback

/-- A probe as an effect per callback (trait `Probe`, src/ga/probe.rs:22-122); `W` is whatever the probes write
to. -/
abbrev Probe (W I : Type) := Ev I → M W Unit

/-- Models every method of `AggregatedProbe` (aggregated_probe.rs:52-162): call all probes in list order. -/
def aggregated {W I : Type} : List (Probe W I) → Probe W I
  | [], _ => pure ()
  | p :: ps, e => do
    p e
    aggregated ps e

/-- Models `AggregatedProbe::add_probe` (aggregated_probe.rs:35-38). -/
def addProbe {W I : Type} (ps : List (Probe W I)) (p : Probe W I) : List (Probe W I) := ps ++ [p]

/-- A probe receiving a sequence of callbacks. -/
def feed {W I : Type} (p : Probe W I) : List (Ev I) → M W Unit
  | [] => pure ()
  | e :: es => do
    p e
    feed p es

/-- Models `PolicyDrivenProbe` (policy_driven_probe.rs:51-158): each callback first asks the policy (which may
change its state) and is passed on iff the answer is `true`.  Result: what the wrapped probe receives and
the final policy state. -/
def policyDriven {σ I : Type} (policy : σ → Ev I → Except Panic (Bool × σ)) :
    σ → List (Ev I) → Except Panic (List (Ev I) × σ)
  | s, [] => .ok ([], s)
  | s, e :: es =>
    match policy s e with
    | .error x => .error x
    | .ok (b, s') =>
      match policyDriven policy s' es with
      | .error x => .error x
      | .ok (out, s'') => .ok (if b then e :: out else out, s'')

/-- Models `struct GenerationInterval` / `struct ElapsedTime` (probing_policy.rs:7-11, 88-92) minus the constant
interval. -/
structure PolicyState where
  threshold : Nat
  shouldLog : Bool
  deriving DecidableEq, Repr

/-- Models `GenerationInterval::new` and `ElapsedTime::new` (probing_policy.rs:20-26, 101-107). -/
def PolicyState.new (threshold : Nat) : PolicyState := ⟨threshold, false⟩

/-- Models `impl ProbingPolicy for GenerationInterval` (probing_policy.rs:29-86). -/
def generationInterval {I : Type} (interval : Nat) (s : PolicyState) : Ev I → Except Panic (Bool × PolicyState)
  | .onStart _ => .ok (true, s)
  | .onInitialPopulation _ _ => .ok (true, s)
  | .onNewBest _ _ => .ok (true, s)
  | .onNewGeneration _ _ => .ok (s.shouldLog, s)
  | .onBestFit _ _ => .ok (s.shouldLog, s)
  | .onIterationStart m =>
    if s.threshold ≤ m.generation then .ok (true, ⟨s.threshold + interval, true⟩) else .ok (false, s)
  | .onIterationEnd _ => .ok (s.shouldLog, { s with shouldLog := false })
  | .onEnd _ _ _ => .ok (true, s)
  | _ => .ok (false, s)

/-- Models `impl ProbingPolicy for ElapsedTime` (probing_policy.rs:110-166); durations in nanoseconds. -/
def elapsedTime {I : Type} (interval : Nat) (s : PolicyState) : Ev I → Except Panic (Bool × PolicyState)
  | .onStart _ => .ok (true, s)
  | .onInitialPopulation _ _ => .ok (true, s)
  | .onNewBest _ _ => .ok (true, s)
  | .onNewGeneration _ _ => .ok (s.shouldLog, s)
  | .onBestFit _ _ => .ok (s.shouldLog, s)
  | .onIterationStart m =>
    match m.totalDur with
    | none => .error .unwrapNone
    | some d => if s.threshold ≤ d then .ok (true, ⟨s.threshold + interval, true⟩) else .ok (false, s)
  | .onIterationEnd _ => .ok (s.shouldLog, { s with shouldLog := false })
  | .onEnd _ _ _ => .ok (true, s)
  | _ => .ok (false, s)

end Ecrs.Ga
