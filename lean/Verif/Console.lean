import Verif.Ff.Ff
import Verif.Pso.Pso
import Verif.Aco.Aco

/-!
# What the `StdoutProbe`s of the swarm, firefly and ant algorithms print

Output is a list of lines.  How a number is printed (`{}` of an `f64`) is an arbitrary function `num`; it is assumed not to
contain a line break, and counters are printed in decimal.  (The logging `StdoutProbe` of the genetic algorithm is in
`Verif.Ga.Stdout`.)
-/

namespace Ecrs.Ff
open Ecrs
variable {X : Type} (num : X → String)

/-- The loop `for (dim, pos) in position.iter().enumerate()` (src/ff/probe/stdout_probe.rs:23-25) from index `d`. -/
def coordLines : Nat → List X → List String
  | _, [] => []
  | d, x :: xs => s!"X{d}: {num x}" :: coordLines (d + 1) xs

/-- Models `StdoutProbe` (src/ff/probe/stdout_probe.rs:11-30): the lines printed by one callback. -/
def consoleLines : Ev X → List String
  | .onStart => ["START"]
  | .onIterationStart g => [s!"--- ITERATION {g} ---"]
  | .onIterationEnd _ => ["################################"]
  | .onCurrentBest v x => s!"Iteration best: {num v}" :: coordLines num 0 x
  | .onEnd => ["END"]

/-- The output for a sequence of callbacks. -/
def console (evs : List (Ev X)) : List String := evs.flatMap (consoleLines num)

end Ecrs.Ff

namespace Ecrs.Pso
open Ecrs
variable {X K : Type} (num : X → String) (val : Fl K → String)

/-- Models `impl Display for Particle` (src/pso/particle.rs:102-114). -/
def Particle.text (p : Particle X K) : String :=
  "Position: " ++ printVector (p.position.map num) ++ ", velocity: " ++ printVector (p.velocity.map num) ++
    ", best position: " ++ printVector (p.bestPosition.map num) ++ ", value: " ++ val p.value ++
    ", best position value: " ++ val p.bestValue

/-- Models `impl Display for Swarm` (src/pso/swarm.rs:84-94), as lines. -/
def Swarm.lines (s : Swarm X K) : List String :=
  ["Particles: " ++ printVector (s.particles.map (Particle.text num val)),
   "Best swarm position: " ++ printVector (s.bestPosition.map num),
   "Best position value: " ++ val s.bestValue]

/-- Models `StdoutProbe` (src/pso/probe/stdout_probe.rs:12-33): the lines printed by one callback. -/
def consoleLines : Ev X K → List String
  | .onBegin s => "Swarm at the start:" :: s.lines num val
  | .onEnd s _ => "" :: "Swarm at the end:" :: s.lines num val
  | .onNewGeneration s g =>
    "" :: s!"Swarm after {g} {if g = 1 then "generation" else "generations"}:" :: s.lines num val

/-- The output for a sequence of callbacks. -/
def console (evs : List (Ev X K)) : List String := evs.flatMap (consoleLines num val)

end Ecrs.Pso

namespace Ecrs.Aco
open Ecrs
variable {X Ph : Type} (num : X → String)

/-- Models `StdoutProbe` (src/aco/probe/stdout_probe.rs:16-34): the counter and the lines printed by one callback
(`on_pheromone_update` is not overridden, src/aco/probe.rs:20). -/
def consoleStep (iteration : Nat) : Event X Ph → Nat × List String
  | .iterationStart => (iteration + 1, [s!"--- ITERATION {iteration + 1} ---"])
  | .currentBest s => (iteration, [s!"Iteration best fitness: {num s.fitness}"])
  | .pheromoneUpdate _ => (iteration, [])
  | .iterationEnd => (iteration, ["################################"])
  | .finish => (iteration, ["END"])

/-- The output for a sequence of callbacks from the counter's value. -/
def consoleFrom : Nat → List (Event X Ph) → List String
  | _, [] => []
  | i, e :: es => (consoleStep num i e).2 ++ consoleFrom (consoleStep num i e).1 es

/-- The output of a fresh probe (src/aco/probe/stdout_probe.rs:11-13). -/
def console (evs : List (Event X Ph)) : List String := consoleFrom num 0 evs

end Ecrs.Aco
