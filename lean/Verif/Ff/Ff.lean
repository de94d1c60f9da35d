import Verif.Ff.Arith

/-!
# Model of the firefly algorithm (src/ff.rs, src/ff/*.rs)

Arithmetic is an arbitrary `FloatOps`.  The objective and the distance are `fn` pointers: functions (the distance may
panic).  Random draws are oracles, universally quantified in the theorems.  `pool.install` (src/ff.rs:226) runs one
closure at a time and waits for it: it is modelled as a call.
-/

namespace Ecrs.Ff
open Ecrs

/-- Models `FireflyAlgorithmCfg` (src/ff.rs:20-46) minus `threads` and `distribution` (an oracle). -/
structure Cfg (X : Type) where
  dimensions : Nat
  lower : X
  upper : X
  maxGenerations : Nat
  populationSize : Nat
  alfa0 : X
  beta0 : X
  gamma : X
  delta : X

/-- The draws of a run: `uni g i j d` is `gen_range(0.01..0.99)` and `dist g i j d` the sample of the distribution for
generation `g`, firefly `i`, brighter firefly `j`, dimension `d` (src/ff.rs:169-170); `brown g i d` is
`gen_range(-1.0..1.0)` (line 194). -/
structure Draws (X : Type) where
  uni : Nat → Nat → Nat → Nat → X
  dist : Nat → Nat → Nat → Nat → X
  brown : Nat → Nat → Nat → X

/-- Slice indexing: panics out of bounds. -/
def index {α : Type} (l : List α) (i : Nat) : Except Panic α :=
  match l[i]? with
  | some a => .ok a
  | none => .error .indexOob

section
variable {X K : Type} [LinearOrder K] (A : FloatOps X K)

/-- The bounds test of src/ff.rs:173-187 (and 200-214): what is stored for the candidate coordinate `v`. -/
def clamp (c : Cfg X) (v : X) : X :=
  if A.notGe v c.upper && A.notLe v c.lower then v
  else if A.lt c.upper v then c.upper
  else c.lower

/-- `const1` (src/ff.rs:150-162) for distance `d`. -/
def attraction (c : Cfg X) (d : X) : X :=
  A.mul c.beta0 (A.expo (A.mul (A.mul A.minusOne c.gamma) (A.sq d)))

/-- The step in one dimension (src/ff.rs:165-172) from `x` towards `y`. -/
def attractStep (c : Cfg X) (alfa const1 x y u s gen : X) : X :=
  A.add (A.mul const1 (A.sub y x))
    (A.mul (A.mul (A.mul c.alfa0 alfa) (A.sub (A.add u (A.div s gen)) A.half)) (A.sub c.upper c.lower))

/-- The loop over dimensions (src/ff.rs:164-188) from dimension `d` on: `xs` are the remaining coordinates of the
moving firefly, `target` is the brighter firefly. -/
def moveDims (c : Cfg X) (alfa const1 gen : X) (u s : Nat → X) (target : List X) :
    Nat → List X → Except Panic (List X)
  | _, [] => .ok []
  | d, x :: xs => do
    let y ← index target d
    let rest ← moveDims c alfa const1 gen u s target (d + 1) xs
    pure (clamp A c (A.add x (attractStep A c alfa const1 x y (u d) (s d) gen)) :: rest)

/-- The body of the loop over `inner_index` (src/ff.rs:147-190). -/
def considerOne (c : Cfg X) (dist : List X → List X → Except Panic X) (dr : Draws X) (g i : Nat) (alfa : X)
    (bright : List X) (pop : List (List X)) (j : Nat) (st : List X × Bool) : Except Panic (List X × Bool) := do
  let bi ← index bright i
  let bj ← index bright j
  if A.lt bi bj then do
    let xi ← index pop i
    let xj ← index pop j
    let dd ← dist xi xj
    let res ← moveDims A c alfa (attraction A c dd) (A.ofNat g) (dr.uni g i j) (dr.dist g i j) xj 0 xi
    pure (res, true)
  else pure st

/-- `for inner_index in j..j+n` (src/ff.rs:147-190). -/
def consider (c : Cfg X) (dist : List X → List X → Except Panic X) (dr : Draws X) (g i : Nat) (alfa : X)
    (bright : List X) (pop : List (List X)) : Nat → Nat → List X × Bool → Except Panic (List X × Bool)
  | _, 0, st => .ok st
  | j, n + 1, st => do
    let st' ← considerOne A c dist dr g i alfa bright pop j st
    consider c dist dr g i alfa bright pop (j + 1) n st'

/-- The random walk of a firefly without a brighter one (src/ff.rs:191-217) from dimension `d` on. -/
def brownian (c : Cfg X) (alfa : X) (b : Nat → X) : Nat → List X → List X
  | _, [] => []
  | d, x :: xs =>
    clamp A c (A.add x (A.mul (A.mul (b d) (A.sq alfa))
      (A.expo (A.mul (A.mul A.minusOne c.beta0) c.gamma)))) :: brownian c alfa b (d + 1) xs

/-- Models `move_firefly` (src/ff.rs:139-219). -/
def moveFirefly (c : Cfg X) (dist : List X → List X → Except Panic X) (dr : Draws X) (g : Nat) (alfa : X)
    (bright : List X) (pop : List (List X)) (i : Nat) : Except Panic (List X) := do
  let x ← index pop i
  let (res, moved) ← consider A c dist dr g i alfa bright pop 0 c.populationSize (x, false)
  pure (if moved then res else brownian A c alfa (dr.brown g i) 0 res)

/-- `for (index, _) in population { temp[index] = move_firefly(index, ..) }` (src/ff.rs:223-237), from index `i`. -/
def moveAll (c : Cfg X) (dist : List X → List X → Except Panic X) (dr : Draws X) (g : Nat) (alfa : X)
    (bright : List X) (pop : List (List X)) : Nat → Nat → Except Panic (List (List X))
  | _, 0 => .ok []
  | i, n + 1 => do
    let x ← moveFirefly A c dist dr g alfa bright pop i
    let xs ← moveAll c dist dr g alfa bright pop (i + 1) n
    pure (x :: xs)

/-- `1 / f(x)` for every firefly (src/ff.rs:118-128). -/
def brightness (f : List X → X) (pop : List (List X)) : List X := pop.map fun x => A.div A.one (f x)

/-- The search for the brightest firefly (src/ff.rs:243-260) over the remaining brightnesses, next index `i`. -/
def brightest : Nat → List X → Nat → X → Nat
  | _, [], maxpos, _ => maxpos
  | i, b :: bs, maxpos, maxb =>
    if A.eq b A.infinity then i
    else if A.lt maxb b then brightest (i + 1) bs i b
    else brightest (i + 1) bs maxpos maxb

/-- The probe callbacks (src/ff/probe.rs:10-16). -/
inductive Ev (X : Type) where
  | onStart
  | onIterationStart (g : Nat)
  | onCurrentBest (value : X) (position : List X)
  | onIterationEnd (g : Nat)
  | onEnd
  deriving DecidableEq, Repr

/-- Local variables of the main loop: `population`, `brightness`, `alfa`, `currentbest`. -/
structure St (X : Type) where
  pop : List (List X)
  bright : List X
  alfa : X
  best : X

/-- Models one generation (src/ff.rs:222-268): the new state and the callbacks. -/
def generation (c : Cfg X) (f : List X → X) (dist : List X → List X → Except Panic X) (dr : Draws X) (g : Nat)
    (st : St X) : Except Panic (St X × List (Ev X)) := do
  let pop ← moveAll A c dist dr g st.alfa st.bright st.pop 0 st.pop.length
  let bright := brightness A f pop
  let maxpos := brightest A 0 (bright.take c.populationSize) 0 A.zero
  let x ← index pop maxpos
  let best := if A.lt (f x) st.best then f x else st.best
  pure ({ pop := pop, bright := bright, alfa := A.mul st.alfa c.delta, best := best },
    [.onIterationStart g, .onCurrentBest best x, .onIterationEnd g])

/-- `for generation in g..g+n` (src/ff.rs:221-269): every intermediate state and the callbacks. -/
def generations (c : Cfg X) (f : List X → X) (dist : List X → List X → Except Panic X) (dr : Draws X) :
    Nat → Nat → St X → Except Panic (List (St X) × List (Ev X))
  | _, 0, _ => .ok ([], [])
  | g, n + 1, st => do
    let (st', evs) ← generation A c f dist dr g st
    let (sts, evs') ← generations c f dist dr (g + 1) n st'
    pure (st' :: sts, evs ++ evs')

/-- The state before the first generation (src/ff.rs:116-132). -/
def initial (c : Cfg X) (f : List X → X) (pop : List (List X)) : St X :=
  { pop := pop, bright := brightness A f pop, alfa := c.alfa0, best := A.maxv }

/-- Models `FireflyAlgorithm::run` (src/ff.rs:113-272): the states after each generation and all callbacks. -/
def run (c : Cfg X) (f : List X → X) (dist : List X → List X → Except Panic X) (dr : Draws X)
    (pop : List (List X)) : Except Panic (List (St X) × List (Ev X)) := do
  let (sts, evs) ← generations A c f dist dr 0 c.maxGenerations (initial A c f pop)
  pure (sts, .onStart :: evs ++ [.onEnd])

/-! ## Distances (src/ff/auxiliary.rs:13-29) -/

/-- Models `cartesian_distance` up to the final `sqrt` (src/ff/auxiliary.rs:15-18), from dimension `d`, accumulator
`acc`. -/
def sumSquares (b : List X) : Nat → X → List X → Except Panic X
  | _, acc, [] => .ok acc
  | d, acc, x :: xs => do
    let y ← index b d
    sumSquares b (d + 1) (A.add acc (A.sq (A.sub x y))) xs

/-- Models `cartesian_distance` (src/ff/auxiliary.rs:13-20). -/
def cartesian (a b : List X) : Except Panic X := do
  let s ← sumSquares A b 0 A.zero a
  pure (A.sqrt s)

/-- Models `taxi_measure_distance` (src/ff/auxiliary.rs:22-29). -/
def taxiFrom (b : List X) : Nat → X → List X → Except Panic X
  | _, acc, [] => .ok acc
  | d, acc, x :: xs => do
    let y ← index b d
    taxiFrom b (d + 1) (A.add acc (A.abs (A.sub x y))) xs

/-- Models `taxi_measure_distance` (src/ff/auxiliary.rs:22-29). -/
def taxi (a b : List X) : Except Panic X := taxiFrom A b 0 A.zero a

/-! ## Population and builder -/

/-- Models `Population::from_config` (src/ff/population.rs:55-68): `draw i d` is the sample of
`gen_range(lower..upper)`, which panics on an empty range. -/
def fromConfig (c : Cfg X) (draw : Nat → Nat → X) : Except Panic (List (List X)) :=
  if c.populationSize = 0 ∨ c.dimensions = 0 ∨ A.lt c.lower c.upper then
    .ok ((List.range c.populationSize).map fun i => (List.range c.dimensions).map fun d => draw i d)
  else .error .emptyRange

/-- Models `FireflyAlgorithmBuilder` (src/ff/builder.rs:7-13) minus probe, distance and distribution. -/
structure Builder (X : Type) where
  cfg : Cfg X
  f : List X → X
  pop : List (List X)

/-- Models `FireflyAlgorithmBuilder::new` (src/ff/builder.rs:16-24): the population is generated here, from the default
configuration `c0`. -/
def Builder.new (c0 : Cfg X) (f0 : List X → X) (draw : Nat → Nat → X) : Except Panic (Builder X) := do
  let pop ← fromConfig A c0 draw
  pure { cfg := c0, f := f0, pop := pop }

/-- The setters of the builder (src/ff/builder.rs:26-96). -/
inductive Setter (X : Type) where
  | dimensions (n : Nat)
  | lower (x : X)
  | upper (x : X)
  | maxGenerations (n : Nat)
  | populationSize (n : Nat)
  | alfa0 (x : X)
  | beta0 (x : X)
  | gamma (x : X)
  | delta (x : X)
  | config (c : Cfg X)
  | brightnessFunction (f : List X → X)
  | population (p : List (List X))

/-- Models the setters (src/ff/builder.rs:26-96): each overwrites its field; the population is not regenerated. -/
def Setter.apply (b : Builder X) : Setter X → Builder X
  | .dimensions n => { b with cfg := { b.cfg with dimensions := n } }
  | .lower x => { b with cfg := { b.cfg with lower := x } }
  | .upper x => { b with cfg := { b.cfg with upper := x } }
  | .maxGenerations n => { b with cfg := { b.cfg with maxGenerations := n } }
  | .populationSize n => { b with cfg := { b.cfg with populationSize := n } }
  | .alfa0 x => { b with cfg := { b.cfg with alfa0 := x } }
  | .beta0 x => { b with cfg := { b.cfg with beta0 := x } }
  | .gamma x => { b with cfg := { b.cfg with gamma := x } }
  | .delta x => { b with cfg := { b.cfg with delta := x } }
  | .config c => { b with cfg := c }
  | .brightnessFunction f => { b with f := f }
  | .population p => { b with pop := p }

/-- Does the setter replace the population? -/
def Setter.setsPopulation : Setter X → Bool
  | .population _ => true
  | _ => false

/-- Models `build().run()` (src/ff/builder.rs:98-106). -/
def Builder.buildRun (b : Builder X) (dist : List X → List X → Except Panic X) (dr : Draws X) :
    Except Panic (List (St X) × List (Ev X)) := run A b.cfg b.f dist dr b.pop

/-! ## Probes -/

/-- State of the policies (src/ff/probe/probing_policy.rs:6-10). -/
structure PolicyState where
  threshold : Nat
  shouldLog : Bool
  deriving DecidableEq, Repr

/-- Models `PolicyDrivenProbe` with `GenerationInterval` (src/ff/probe/policy_driven_probe.rs:14-44,
src/ff/probe/probing_policy.rs:28-54): is the callback passed on, and the new state.  `u32` overflow of the threshold
is not modelled. -/
def intervalStep (interval : Nat) (s : PolicyState) : Ev X → Bool × PolicyState
  | .onStart => (true, s)
  | .onIterationStart g =>
    let s' : PolicyState := if s.threshold ≤ g then ⟨s.threshold + interval, true⟩ else s
    (s'.shouldLog, s')
  | .onIterationEnd _ => (s.shouldLog, { s with shouldLog := false })
  | .onCurrentBest _ _ => (s.shouldLog, s)
  | .onEnd => (true, s)

/-- What the wrapped probe receives. -/
def intervalDriven (interval : Nat) : PolicyState → List (Ev X) → List (Ev X)
  | _, [] => []
  | s, e :: es =>
    let r := intervalStep interval s e
    if r.1 then e :: intervalDriven interval r.2 es else intervalDriven interval r.2 es

/-- Models `ElapsedTime::on_iteration_start` (src/ff/probe/probing_policy.rs:81-87) at clock reading `now`; times are
nanoseconds, `Instant::elapsed` saturates at zero, `as_secs` truncates.  The other callbacks are those of
`GenerationInterval`. -/
def elapsedStart (interval : Nat) (s : PolicyState) (now : Nat) : PolicyState :=
  if interval ≤ (now - s.threshold) / 1000000000 then ⟨now, true⟩ else s

/-- Models `ElapsedTime` over a run (src/ff/probe/probing_policy.rs:64-105): for the clock readings at the starts of the
iterations, is the iteration logged (`on_iteration_end`, lines 89-93, clears the flag). -/
def elapsedLogged (interval : Nat) : PolicyState → List Nat → List Bool
  | _, [] => []
  | s, now :: ts =>
    let s' := elapsedStart interval s now
    s'.shouldLog :: elapsedLogged interval { s' with shouldLog := false } ts

/-- Models `ElapsedTime::new` (src/ff/probe/probing_policy.rs:65-74) called at clock reading `t0`. -/
def elapsedNew (first t0 : Nat) : PolicyState := ⟨t0 + first * 1000000000, false⟩

/-- State of `CsvProbe`/`JsonProbe` (src/ff/probe/csv_probe.rs:10-16, src/ff/probe/json_probe.rs:14-20). -/
structure RecState (X : Type) where
  iteration : Nat
  best : X
  position : List X
  records : List (Nat × X × List X)

/-- Models the callbacks of `JsonProbe` (src/ff/probe/json_probe.rs:34-67); `CsvProbe`
(src/ff/probe/csv_probe.rs:30-64) records the first two components. -/
def recStep (r : RecState X) : Ev X → RecState X
  | .onStart => r
  | .onIterationStart g => { r with iteration := g }
  | .onIterationEnd _ => { r with records := r.records ++ [(r.iteration, r.best, r.position)] }
  | .onCurrentBest v x => { r with best := v, position := x }
  | .onEnd => r

end
end Ecrs.Ff
