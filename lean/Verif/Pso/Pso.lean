import Verif.Basic

/-!
# Model of particle swarm optimisation (src/pso.rs, src/pso/*.rs)

Coordinates are an arbitrary type `X` with arbitrary operations `+ - * -·` (so `f64` with its rounding is an
instance); theorems that need exact arithmetic say so.  Values of the objective are `Fl K` (a number or NaN).
The objective is a Rust `fn` pointer: it is modelled as a function.  Random draws of `thread_rng()` are an oracle
indexed by iteration, particle and coordinate, universally quantified in every theorem.
-/

namespace Ecrs.Pso
open Ecrs

/-- Models `struct Particle` (src/pso/particle.rs:8-14). -/
structure Particle (X K : Type) where
  position : List X
  velocity : List X
  bestPosition : List X
  value : Fl K
  bestValue : Fl K
  deriving DecidableEq, Repr

/-- Models `struct Swarm` (src/pso/swarm.rs:8-13) minus the constant `distribution`. -/
structure Swarm (X K : Type) where
  particles : List (Particle X K)
  bestPosition : List X
  bestValue : Fl K
  deriving DecidableEq, Repr

/-- The three coefficients of `PSOAlgorithmCfg` (src/pso.rs:38-40). -/
structure Coeffs (X : Type) where
  inertia : X
  cognitive : X
  social : X

section
variable {X K : Type} [Add X] [Sub X] [Mul X] [Neg X] [LinearOrder K]

/-- `sample * (hi - lo) + lo` (src/pso/particle.rs:36-37, 40-41). -/
def scaled (lo hi u : X) : X := u * (hi - lo) + lo

/-- Models `Particle::generate` (src/pso/particle.rs:17-53): `draw i` are the two samples for coordinate `i`,
`abs` is `num::abs`. -/
def Particle.generate (abs : X → X) (dim : Nat) (lo hi : X) (f : List X → Fl K) (draw : Nat → X × X) :
    Particle X K :=
  let position := (List.range dim).map fun i => scaled lo hi (draw i).1
  let velocity := (List.range dim).map fun i => scaled (-(abs (hi - lo))) (abs (hi - lo)) (draw i).2
  { position := position
    velocity := velocity
    bestPosition := position
    value := f position
    bestValue := f position }

/-- One coordinate of the velocity update (src/pso/particle.rs:75-77). -/
def velocityAt (c : Coeffs X) (r : X × X) (v x p g : X) : X :=
  c.inertia * v + c.cognitive * r.1 * (p - x) + c.social * r.2 * (g - x)

/-- The loop of `update_velocity` (src/pso/particle.rs:67-79); `izip!` stops at the shortest vector.  `k` is the
index of the next coordinate. -/
def velocityFrom (c : Coeffs X) (draw : Nat → X × X) : Nat → List X → List X → List X → List X → List X
  | k, v :: vs, x :: xs, p :: ps, g :: gs =>
    velocityAt c (draw k) v x p g :: velocityFrom c draw (k + 1) vs xs ps gs
  | _, _, _, _, _ => []

/-- Models `Particle::update_velocity` (src/pso/particle.rs:55-82). -/
def Particle.updateVelocity (c : Coeffs X) (draw : Nat → X × X) (swarmBest : List X) (q : Particle X K) :
    Particle X K :=
  { q with velocity := velocityFrom c draw 0 q.velocity q.position q.bestPosition swarmBest }

/-- Models `Particle::update_position` (src/pso/particle.rs:84-99). -/
def Particle.updatePosition (f : List X → Fl K) (q : Particle X K) : Particle X K :=
  let position := List.zipWith (fun x v => x + v) q.position q.velocity
  let value := f position
  if Fl.lt value q.bestValue then
    { q with position := position, value := value, bestPosition := position, bestValue := value }
  else
    { q with position := position, value := value }

/-- The loop of `Swarm::generate` over all particles (src/pso/swarm.rs:37-41). -/
def initialBest (f : List X → Fl K) : List X → List (Particle X K) → List X
  | best, [] => best
  | best, q :: qs =>
    if Fl.lt (f q.position) (f best) then initialBest f q.position qs else initialBest f best qs

/-- Models `Swarm::generate` (src/pso/swarm.rs:16-49): `particles[0]` panics when there are none. -/
def Swarm.generate (abs : X → X) (count dim : Nat) (lo hi : X) (f : List X → Fl K)
    (draw : Nat → Nat → X × X) : Except Panic (Swarm X K) :=
  match (List.range count).map fun j => Particle.generate abs dim lo hi f (draw j) with
  | [] => .error .indexOob
  | q :: qs =>
    let best := initialBest f q.bestPosition (q :: qs)
    .ok { particles := q :: qs, bestPosition := best, bestValue := f best }

/-- Models `Swarm::update_velocities` (src/pso/swarm.rs:51-66).  The parallel iterator is modelled here as a map;
`C47` proves that every interleaving gives this result. -/
def Swarm.updateVelocities (c : Coeffs X) (draw : Nat → Nat → X × X) (s : Swarm X K) : Swarm X K :=
  { s with particles := s.particles.mapIdx fun j q => q.updateVelocity c (draw j) s.bestPosition }

/-- Models `Swarm::update_positions` (src/pso/swarm.rs:68-72). -/
def Swarm.updatePositions (f : List X → Fl K) (s : Swarm X K) : Swarm X K :=
  { s with particles := s.particles.map (Particle.updatePosition f) }

/-- The closure of `update_best_position` (src/pso/swarm.rs:75-80). -/
def bestStep (f : List X → Fl K) (b : List X × Fl K) (q : Particle X K) : List X × Fl K :=
  if Fl.lt (f q.bestPosition) (f b.1) then (q.bestPosition, q.bestValue) else b

/-- Models `Swarm::update_best_position` (src/pso/swarm.rs:74-81). -/
def Swarm.updateBest (f : List X → Fl K) (s : Swarm X K) : Swarm X K :=
  let b := s.particles.foldl (bestStep f) (s.bestPosition, s.bestValue)
  { s with bestPosition := b.1, bestValue := b.2 }

/-- Models the three swarm updates of the loop body of `run` (src/pso.rs:104-110). -/
def Swarm.iterate (c : Coeffs X) (f : List X → Fl K) (draw : Nat → Nat → X × X) (s : Swarm X K) : Swarm X K :=
  ((s.updateVelocities c draw).updatePositions f).updateBest f

/-- The probe callbacks (src/pso/probe.rs:10-14). -/
inductive Ev (X K : Type) where
  | onBegin (s : Swarm X K)
  | onNewGeneration (s : Swarm X K) (generation : Nat)
  | onEnd (s : Swarm X K) (generation : Nat)
  deriving DecidableEq, Repr

/-- `TerminationCondition::is_met` (src/pso/termination_condition.rs:6) over an arbitrary world (the clock). -/
abbrev Term (W X K : Type) := Nat → Swarm X K → M W Bool

/-- Models the `while` loop of `run` (src/pso.rs:101-113).  Rust's loop is unbounded; `fuel` bounds the model and
running out of it is the pseudo-panic `outOfFuel`. -/
def loop {W : Type} (isMet : Term W X K) (c : Coeffs X) (f : List X → Fl K) (draw : Nat → Nat → Nat → X × X) :
    Nat → Nat → Swarm X K → M W (Swarm X K × List (Ev X K))
  | 0, _, _ => M.fail .outOfFuel
  | fuel + 1, i, s => do
    let stop ← isMet i s
    if stop then pure (s, [.onEnd s i]) else do
      let s' := s.iterate c f (draw (i + 1))
      let (r, evs) ← loop isMet c f draw fuel (i + 1) s'
      pure (r, .onNewGeneration s' (i + 1) :: evs)

/-- Models `PSOAlgorithm::run` (src/pso.rs:99-114): the final swarm and the probe callbacks. -/
def run {W : Type} (isMet : Term W X K) (c : Coeffs X) (f : List X → Fl K) (draw : Nat → Nat → Nat → X × X)
    (fuel : Nat) (s : Swarm X K) : M W (Swarm X K × List (Ev X K)) := do
  let (r, evs) ← loop isMet c f draw fuel 0 s
  pure (r, .onBegin s :: evs)

/-- Models `GenerationLimit::is_met` (src/pso/termination_condition.rs:22-24). -/
def generationLimit {W : Type} (limit : Nat) : Term W X K := fun g _ => pure (decide (limit ≤ g))

/-- Models `TimeLimit` (src/pso/termination_condition.rs:27-49): `created` is `start_time` as set by
`TimeLimit::new`, `now` reads the clock (nanoseconds).  `initialize` (line 42) is never called by `run`. -/
def timeLimit {W : Type} (now : M W Nat) (created limit : Nat) : Term W X K := fun _ _ => do
  let t ← now
  pure (decide (limit ≤ (t - created) / 1000000000))

end

/-! ## The parallel iterator -/

section par
variable {X K : Type} [Add X] [Sub X] [Mul X] [Neg X] [LinearOrder K]

/-- A worker task of `par_iter_mut().for_each(update_velocity)`: the particle it owns and the local variables of
`update_velocity` (`updated_velocity`, and how far `izip!` has come). -/
structure VTask (X K : Type) where
  particle : Particle X K
  acc : List X
  rest : List X × List X × List X × List X
  idx : Nat
  done : Bool

/-- The task before its first step (src/pso/particle.rs:65-72). -/
def VTask.start (swarmBest : List X) (q : Particle X K) : VTask X K :=
  { particle := q, acc := [], rest := (q.velocity, q.position, q.bestPosition, swarmBest), idx := 0, done := false }

/-- One atomic step of a task: push one coordinate (src/pso/particle.rs:73-78), or store the result (line 81). -/
def VTask.step (c : Coeffs X) (draw : Nat → X × X) (t : VTask X K) : VTask X K :=
  if t.done then t else
  match t.rest with
  | (v :: vs, x :: xs, p :: ps, g :: gs) =>
    { t with acc := t.acc ++ [velocityAt c (draw t.idx) v x p g], rest := (vs, xs, ps, gs), idx := t.idx + 1 }
  | _ => { t with particle := { t.particle with velocity := t.acc }, done := true }

/-- A schedule: the sequence of task indices that take a step.  Tasks share only `&self.best_position`,
`&self.distribution` and the coefficients, none of which changes during the call (src/pso/swarm.rs:57-65). -/
def VTask.schedule (c : Coeffs X) (draw : Nat → Nat → X × X) : List Nat → List (VTask X K) → List (VTask X K)
  | [], ts => ts
  | j :: js, ts => VTask.schedule c draw js (ts.modify j (VTask.step c (draw j)))

/-- `par_iter_mut().for_each(update_position)` (src/pso/swarm.rs:68-72) under a schedule: each task is one call on
its own particle, tasks complete in the order given by the schedule. -/
def schedulePositions (f : List X → Fl K) : List Nat → List (Particle X K) → List (Particle X K)
  | [], qs => qs
  | j :: js, qs => schedulePositions f js (qs.modify j (Particle.updatePosition f))

end par

/-! ## Probes -/

section probes
variable {X K : Type}

/-- A PSO probing policy (src/pso/probe.rs:16-20). -/
structure Policy (W σ : Type) where
  onBegin : σ → M W (Bool × σ)
  onEnd : σ → Nat → M W (Bool × σ)
  onNewGeneration : σ → Nat → M W (Bool × σ)

/-- Models one callback of `PolicyDrivenProbe` (src/pso/probe/policy_driven_probe.rs:15-33): what the wrapped
probe receives, and the policy's new state. -/
def policyStep {W σ : Type} (p : Policy W σ) (st : σ) : Ev X K → M W (List (Ev X K) × σ)
  | .onBegin s => do
    let (b, st') ← p.onBegin st
    pure (if b then [.onBegin s] else [], st')
  | .onNewGeneration s g => do
    let (b, st') ← p.onNewGeneration st g
    pure (if b then [.onNewGeneration s g] else [], st')
  | .onEnd s g => do
    let (b, st') ← p.onEnd st g
    pure ((if b then [.onNewGeneration s g] else []) ++ [.onEnd s g], st')

/-- A `PolicyDrivenProbe` receiving a sequence of callbacks. -/
def policyDriven {W σ : Type} (p : Policy W σ) : σ → List (Ev X K) → M W (List (Ev X K) × σ)
  | st, [] => pure ([], st)
  | st, e :: es => do
    let (out, st') ← policyStep p st e
    let (outs, st'') ← policyDriven p st' es
    pure (out ++ outs, st'')

/-- Models `GenerationInterval` (src/pso/probe/probing_policy.rs:4-35); the state is `last_log_generation`, and
`%` by zero panics. -/
def generationInterval {W : Type} (interval : Nat) : Policy W Nat where
  onBegin st := pure (true, st)
  onEnd st g := pure (decide (st < g), st)
  onNewGeneration st g :=
    if interval = 0 then M.fail .divByZero
    else if g % interval = 0 then pure (true, g) else pure (false, st)

/-- State of `ElapsedTime` (src/pso/probe/probing_policy.rs:37-41). -/
structure ElapsedState where
  lastTime : Nat
  lastGeneration : Nat
  deriving DecidableEq, Repr

/-- Models `ElapsedTime` (src/pso/probe/probing_policy.rs:43-72); `now` reads the clock in nanoseconds. -/
def elapsedTime {W : Type} (now : M W Nat) (interval : Nat) : Policy W ElapsedState where
  onBegin st := do
    let t ← now
    pure (true, { st with lastTime := t })
  onEnd st g := pure (decide (st.lastGeneration < g), st)
  onNewGeneration st g := do
    let t ← now
    if interval ≤ (t - st.lastTime) / 1000000000 then do
      let t' ← now
      pure (true, ⟨t', g⟩)
    else pure (false, st)

/-- Models the record list of `CsvProbe` (src/pso/probe/csv_probe.rs:25-48) after some callbacks: `on_begin`
records generation 0. -/
def csvRecords : List (Ev X K) → List (Nat × Fl K)
  | [] => []
  | .onBegin s :: es => (0, s.bestValue) :: csvRecords es
  | .onNewGeneration s g :: es => (g, s.bestValue) :: csvRecords es
  | .onEnd _ _ :: es => csvRecords es

/-- Models the record list of `JsonProbe` (src/pso/probe/json_probe.rs:29-51). -/
def jsonRecords : List (Ev X K) → List (Nat × Fl K × List X)
  | [] => []
  | .onBegin s :: es => (0, s.bestValue, s.bestPosition) :: jsonRecords es
  | .onNewGeneration s g :: es => (g, s.bestValue, s.bestPosition) :: jsonRecords es
  | .onEnd _ _ :: es => jsonRecords es

/-- Models the loop of `print_generic_vector` (src/pso/util.rs:4-9) from index `i`; `n` is `vector.len()`. -/
def printLoop (n : Nat) : Nat → List String → String
  | _, [] => ""
  | i, v :: vs => v ++ (if i ≠ n - 1 then ", " else "") ++ printLoop n (i + 1) vs

/-- Models `print_generic_vector` (src/pso/util.rs:1-12) on the elements' `to_string()`. -/
def printVector (vs : List String) : String := "[" ++ printLoop vs.length 0 vs ++ "]"

end probes

/-! ## Builder -/

/-- Models `PSOAlgorithmCfg` (src/pso.rs:33-44) without the probe; `Tm` is the termination condition. -/
structure Cfg (X F Tm : Type) where
  dimensions : Nat
  lower : X
  upper : X
  count : Nat
  coeffs : Coeffs X
  function : F
  term : Tm

/-- The builder setters (src/pso/builder.rs:16-77). -/
inductive Setter (X F Tm : Type) where
  | dimensions (n : Nat)
  | lower (x : X)
  | upper (x : X)
  | count (n : Nat)
  | inertia (x : X)
  | cognitive (x : X)
  | social (x : X)
  | function (f : F)
  | term (t : Tm)

/-- Models the setters (src/pso/builder.rs:16-77): each overwrites one field. -/
def Setter.apply {X F Tm : Type} (c : Cfg X F Tm) : Setter X F Tm → Cfg X F Tm
  | .dimensions n => { c with dimensions := n }
  | .lower x => { c with lower := x }
  | .upper x => { c with upper := x }
  | .count n => { c with count := n }
  | .inertia x => { c with coeffs := { c.coeffs with inertia := x } }
  | .cognitive x => { c with coeffs := { c.coeffs with cognitive := x } }
  | .social x => { c with coeffs := { c.coeffs with social := x } }
  | .function f => { c with function := f }
  | .term t => { c with term := t }

/-- Models `PSOAlgorithm::new` as called by `build` (src/pso/builder.rs:79-81, src/pso.rs:88-97). -/
def Cfg.build {X K Tm : Type} [Add X] [Sub X] [Mul X] [Neg X] [LinearOrder K] (abs : X → X)
    (draw : Nat → Nat → X × X) (c : Cfg X (List X → Fl K) Tm) : Except Panic (Swarm X K) :=
  Swarm.generate abs c.count c.dimensions c.lower c.upper c.function draw

end Ecrs.Pso
