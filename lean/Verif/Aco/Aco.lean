import Verif.Aco.Tsp

/-!
# Model of the ant colony framework (src/aco.rs, src/aco/builder.rs, pheromone.rs, termination_condition.rs, probe/*)
-/

namespace Ecrs.Aco
open Ecrs

section
variable {X K : Type} [LinearOrder K] (A : AcoOps X K)

/-! ## Graded partition (src/aco/pheromone.rs) -/

/-- The loop of `find_bounds` (src/aco/pheromone.rs:75-82). -/
def boundsLoop : List (Sol X) → X → X → X × X
  | [], lo, hi => (lo, hi)
  | s :: ss, lo, hi =>
    boundsLoop ss (if A.lt s.fitness lo then s.fitness else lo) (if A.lt hi s.fitness then s.fitness else hi)

/-- Models `find_bounds` (src/aco/pheromone.rs:72-84). -/
def findBounds : List (Sol X) → Except Panic (X × X)
  | [] => .error .indexOob
  | s :: ss => .ok (boundsLoop A (s :: ss) s.fitness s.fitness)

/-- The group of a fitness (src/aco/pheromone.rs:53, 58-59) for `k` pheromones. -/
def bucket (k : Nat) (lo hi x : X) : Nat :=
  min (A.toNat (A.div (A.sub x lo) (A.div (A.sub hi lo) (A.ofNat k)))) (k - 1)

/-- The loop filling the groups (src/aco/pheromone.rs:57-61): `groups[i].push(s)` panics out of bounds. -/
def fillGroups (k : Nat) (lo hi : X) : List (Sol X) → List (List (Sol X)) → Except Panic (List (List (Sol X)))
  | [], gs => .ok gs
  | s :: ss, gs =>
    if k = 0 then .error .underflow
    else if bucket A k lo hi s.fitness < gs.length then
      fillGroups k lo hi ss (gs.modify (bucket A k lo hi s.fitness) (· ++ [s]))
    else .error .indexOob

/-- A boxed pheromone update: its state is `U`. -/
abbrev Upd (X U : Type) := U → List (Sol X) → Mat X → Except Panic (U × Mat X)

/-- The `izip!` loop (src/aco/pheromone.rs:63-68): stops at the shortest list. -/
def zipApply {U : Type} (upd : Upd X U) : List U → List (Mat X) → List (List (Sol X)) →
    Except Panic (List U × List (Mat X))
  | u :: us, p :: ps, g :: gs => do
    let r ← upd u g p
    let rs ← zipApply upd us ps gs
    pure (r.1 :: rs.1, r.2 :: rs.2)
  | us, ps, _ => .ok (us, ps)

/-- Models `PartFromEvalPU::apply` (src/aco/pheromone.rs:50-69); the groups are as many as the updates (36-46) and are
cleared first. -/
def partFromEval {U : Type} (upd : Upd X U) (us : List U) (phs : List (Mat X)) (sols : List (Sol X)) :
    Except Panic (List U × List (Mat X)) := do
  let b ← findBounds A sols
  let gs ← fillGroups A phs.length b.1 b.2 sols (List.replicate us.length [])
  zipApply upd us phs gs

/-! ## The algorithm (src/aco.rs) -/

/-- Calls of the probe, in order. -/
inductive Event (X Ph : Type) where
  | iterationStart
  | currentBest (s : Sol X)
  | pheromoneUpdate (ph : Ph)
  | iterationEnd
  | finish

/-- Models `AntColonyOptimization` (src/aco.rs:47-64): the components with their states; `G` is the grader's state. -/
structure Algo (X Ph C G U : Type) where
  /-- `Colony::build_solutions` -/
  build : C → Ph → Except Panic (C × List (List Nat) × Ph)
  /-- `Grader::apply` -/
  grade : G → List (Sol X) → Except Panic (G × List (Sol X))
  /-- `PheromoneUpdate::apply` -/
  update : U → List (Sol X) → Ph → Except Panic (U × Ph)

/-- The mutable state of a run. -/
structure RunState (Ph C G U : Type) where
  colony : C
  grader : G
  upd : U
  ph : Ph

/-- `paths.into_iter().map(Solution::from_path)` (src/aco.rs:115). -/
def fromPaths : List (List Nat) → Except Panic (List (Sol X))
  | [] => .ok []
  | p :: ps => do
    let s ← Sol.fromPath A p
    let ss ← fromPaths ps
    pure (s :: ss)

variable {Ph C G U : Type}

/-- Lines 92-97 of `iterate` (src/aco.rs): the new state, the graded solutions and the best. -/
def buildGrade (al : Algo X Ph C G U) (s : RunState Ph C G U) :
    Except Panic (RunState Ph C G U × List (Sol X) × Sol X) := do
  let b ← al.build s.colony s.ph
  let sols ← fromPaths A b.2.1
  let g ← al.grade s.grader sols
  let best ← findBest A g.2
  pure ({ s with colony := b.1, grader := g.1, ph := b.2.2 }, g.2, best)

/-- Models `iterate` (src/aco.rs:91-105): the probe calls made, and the new state or the panic. -/
def iterate (al : Algo X Ph C G U) (s : RunState Ph C G U) : List (Event X Ph) × Except Panic (RunState Ph C G U) :=
  match buildGrade A al s with
  | .error e => ([], .error e)
  | .ok (s1, sols, best) =>
    match al.update s1.upd sols s1.ph with
    | .error e => ([.currentBest best], .error e)
    | .ok (u, ph) => ([.currentBest best, .pheromoneUpdate ph], .ok { s1 with upd := u, ph := ph })

/-- How a run ends; `fuel` says the bound of the model on the number of iterations was too small. -/
inductive Outcome where
  | done
  | panicked (e : Panic)
  | fuel
  deriving DecidableEq

/-- Models the loop of `run` and `end` (src/aco.rs:79-88, 120-122); `check` is `update_and_check`. -/
def runLoop {T : Type} (al : Algo X Ph C G U) (check : T → Ph → T × Bool) :
    Nat → T → RunState Ph C G U → List (Event X Ph) × Outcome
  | 0, _, _ => ([], .fuel)
  | f + 1, t, s =>
    if (check t s.ph).2 then ([.finish], .done)
    else
      match iterate A al s with
      | (es, .error e) => (.iterationStart :: es, .panicked e)
      | (es, .ok s') =>
        let r := runLoop al check f (check t s.ph).1 s'
        (.iterationStart :: es ++ .iterationEnd :: r.1, r.2)

/-! ## Termination (src/aco/termination_condition.rs) -/

/-- Models `IterationCond` (src/aco/termination_condition.rs:29-32); the limit and the current iteration. -/
structure IterationCond where
  curr : Nat
  limit : Nat

/-- Models `IterationCond::init` (src/aco/termination_condition.rs:48-50). -/
def IterationCond.init (t : IterationCond) : IterationCond := { t with curr := 0 }

/-- Models `IterationCond::update_and_check` (src/aco/termination_condition.rs:52-56). -/
def IterationCond.check (t : IterationCond) (_ : Ph) : IterationCond × Bool :=
  ({ t with curr := t.curr + 1 }, decide (t.limit < t.curr + 1))

/-- Models `TimeCond::update_and_check` (src/aco/termination_condition.rs:87-91): `t` counts the checks, `clock k` is the
time at check `k` and `start` that of `init` (durations in ticks; `Instant` subtraction saturates). -/
def timeCheck (clock : Nat → Nat) (start duration : Nat) (t : Nat) (_ : Ph) : Nat × Bool :=
  (t + 1, decide (duration < clock t - start))

/-- Models `run` (src/aco.rs:77-89) with an `IterationCond`. -/
def runIterations (al : Algo X Ph C G U) (fuel : Nat) (t : IterationCond) (s : RunState Ph C G U) :
    List (Event X Ph) × Outcome :=
  runLoop A al IterationCond.check fuel t.init s

/-- Models `run` with a `TimeCond`: `clock 0` is the time of `init`, `clock (k + 1)` that of the check `k`. -/
def runTime (al : Algo X Ph C G U) (fuel : Nat) (clock : Nat → Nat) (duration : Nat) (s : RunState Ph C G U) :
    List (Event X Ph) × Outcome :=
  runLoop A al (timeCheck (fun k => clock (k + 1)) (clock 0) duration) fuel 0 s

/-! ## TSP instances -/

/-- The random draws of all iterations of a colony. -/
abbrev Draws (X : Type) := Nat → IterDraws X

/-- `TspColony` (src/aco/tsp.rs:23-53) with `AntSystemAB`; the state is the iteration number and the ants. -/
def asColony (goodness : Mat X → Except Panic (Mat X)) (d : Draws X) (c : Nat × List (Ant X)) (ph : Mat X) :
    Except Panic ((Nat × List (Ant X)) × List (List Nat) × Mat X) := do
  let r ← antSystem A goodness (d c.1) c.2 ph
  pure ((c.1 + 1, r.1), r.2)

/-- `TspColony` with `AntColonySystemAB`. -/
def acsColony (goodness : Mat X → Except Panic (Mat X)) (l : LocalRule X) (d : Draws X) (c : Nat × List (Ant X))
    (ph : Mat X) : Except Panic ((Nat × List (Ant X)) × List (List Nat) × Mat X) := do
  let r ← antColonySystem A goodness l (d c.1) c.2 ph
  pure ((c.1 + 1, r.1), r.2)

/-- `PathLengthInverse` as a grader (src/aco/tsp.rs:80-84); it has no state. -/
def tspGrader (w : Mat X) (_ : Unit) (sols : List (Sol X)) : Except Panic (Unit × List (Sol X)) := do
  let r ← gradeAll A w sols
  pure ((), r)

/-- `AntSystemPU` as an update; it has no state (`u` is passed through). -/
def asUpdate (rate : X) (u : Sol X) (sols : List (Sol X)) (ph : Mat X) : Except Panic (Sol X × Mat X) := do
  let r ← antSystemPU A rate sols ph
  pure (u, r)

/-- `AntColonySystemPU` as an update; its state is that of the best policy. -/
def acsUpdate (rate : X) (policy : Sol X → List (Sol X) → Sol X) (u : Sol X) (sols : List (Sol X)) (ph : Mat X) :
    Except Panic (Sol X × Mat X) := do
  let r ← acsPU A rate policy u sols ph
  pure (r.2, r.1)

/-- Ant System for TSP: `TspColony` with `AntSystemAB`, `PathLengthInverse` and `AntSystemPU`. -/
def tspAntSystem (goodness : Mat X → Except Panic (Mat X)) (d : Draws X) (w : Mat X) (rate : X) :
    Algo X (Mat X) (Nat × List (Ant X)) Unit (Sol X) where
  build := asColony A goodness d
  grade := tspGrader A w
  update := asUpdate A rate

/-- Ant Colony System for TSP. -/
def tspAcs (goodness : Mat X → Except Panic (Mat X)) (l : LocalRule X) (d : Draws X) (w : Mat X) (rate : X)
    (policy : Sol X → List (Sol X) → Sol X) : Algo X (Mat X) (Nat × List (Ant X)) Unit (Sol X) where
  build := acsColony A goodness l d
  grade := tspGrader A w
  update := acsUpdate A rate policy

/-! ## Builder (src/aco/builder.rs) -/

/-- Models `Builder` (src/aco/builder.rs:17-36): which component is set to what. -/
structure Builder (P C G T Pr Ph Args : Type) where
  pheromoneUpdate : Option P
  grader : Option G
  colony : Option C
  terminationCond : Option T
  startPheromone : Option Ph
  probe : Option Pr
  args : Option Args

/-- Models the built `AntColonyOptimization` (src/aco.rs:47-64). -/
structure Built (P C G T Pr Ph Args : Type) where
  colony : C
  pheromone : Ph
  pheromoneUpdate : P
  grader : G
  terminationCond : T
  probe : Pr
  args : Args
  deriving DecidableEq

variable {P T Pr Args : Type}

/-- Models `Builder::new` (src/aco/builder.rs:152-163). -/
def Builder.new : Builder P C G T Pr Ph Args := ⟨none, none, none, none, none, none, none⟩

/-- `Option::expect`. -/
def expect {α : Type} : Option α → Except Panic α
  | some a => .ok a
  | none => .error .unwrapNone

/-- Models `build` with additional arguments (src/aco/builder.rs:127-139); the other `build` (196-206) passes `()`. -/
def Builder.build (b : Builder P C G T Pr Ph Args) : Except Panic (Built P C G T Pr Ph Args) := do
  let c ← expect b.colony
  let ph ← expect b.startPheromone
  let p ← expect b.pheromoneUpdate
  let g ← expect b.grader
  let t ← expect b.terminationCond
  let pr ← expect b.probe
  let a ← expect b.args
  pure ⟨c, ph, p, g, t, pr, a⟩

/-- The calls a user makes on a builder (src/aco/builder.rs:54-106, 165-176); `with_iteration_termination` and
`with_stdout_probe` are `termination` and `probe`. -/
inductive Setter (P C G T Pr Ph Args : Type) where
  | probe (x : Pr)
  | update (x : P)
  | grader (x : G)
  | termination (x : T)
  | pheromone (x : Ph)
  | colony (x : C)
  | args (x : Args)

/-- Models the setters (src/aco/builder.rs:54-106, 165-176). -/
def Builder.set (b : Builder P C G T Pr Ph Args) : Setter P C G T Pr Ph Args → Builder P C G T Pr Ph Args
  | .probe x => { b with probe := some x }
  | .update x => { b with pheromoneUpdate := some x }
  | .grader x => { b with grader := some x }
  | .termination x => { b with terminationCond := some x }
  | .pheromone x => { b with startPheromone := some x }
  | .colony x => { b with colony := some x }
  | .args x => { b with args := some x }

/-! ## Probes (src/aco/probe/*.rs) -/

/-- A line of pheromone.csv (src/aco/probe/csv_probe.rs:16-23). -/
structure PherRecord (X : Type) where
  src : Nat
  dst : Nat
  iter : Nat
  val : X
  deriving DecidableEq

/-- Models `CsvProbe` (src/aco/probe/csv_probe.rs:28-33): `bestSols` are the lines (from, to, iter) of best.csv. -/
structure CsvProbe (X : Type) where
  iteration : Nat
  bestSols : List (Nat × Nat × Nat)
  pher : List (PherRecord X)
  bestSol : Sol X
  /-- what was written at the end, if it was -/
  written : Option (List (Nat × Nat × Nat) × List (PherRecord X))

/-- Models `CsvProbe::new` (src/aco/probe/csv_probe.rs:36-43). -/
def CsvProbe.new : CsvProbe X := ⟨0, [], [], Sol.default A, none⟩

/-- The records of one matrix, row by row (src/aco/probe/csv_probe.rs:65-74). -/
def matRecords (it : Nat) (m : Mat X) : List (PherRecord X) :=
  (List.range m.rows).flatMap fun i => (List.range m.cols).map fun j => ⟨i, j, it, m.get i j⟩

/-- Models the callbacks of `CsvProbe` (src/aco/probe/csv_probe.rs:63-103); writing the files is taken to succeed. -/
def CsvProbe.on (p : CsvProbe X) : Event X (Mat X) → CsvProbe X
  | .iterationStart => { p with iteration := p.iteration + 1 }
  | .currentBest s => { p with bestSol := s }
  | .pheromoneUpdate m => { p with pher := p.pher ++ matRecords p.iteration m }
  | .iterationEnd => { p with bestSols := p.bestSols ++ (windows p.bestSol.path).map fun e => (e.1, e.2, p.iteration) }
  | .finish => { p with written := some (p.bestSols, p.pher) }

/-- Models `JsonProbe` (src/aco/probe/json_probe.rs:46-49): the iterations (a pheromone and a solution each). -/
structure JsonProbe (X : Type) where
  iterations : List (Mat X × Sol X)
  written : Option (List (Mat X × Sol X))

/-- `IterationData::default` (src/aco/probe/json_probe.rs:20-27): an empty matrix and the default solution. -/
def iterDefault : Mat X × Sol X := (⟨0, 0, fun _ _ => A.zero⟩, Sol.default A)

/-- `self.iterations.last_mut().unwrap().… = …`. -/
def setLast (f : Mat X × Sol X → Mat X × Sol X) (l : List (Mat X × Sol X)) : Except Panic (List (Mat X × Sol X)) :=
  match l.reverse with
  | [] => .error .unwrapNone
  | x :: xs => .ok (xs.reverse ++ [f x])

/-- Models the callbacks of `JsonProbe` (src/aco/probe/json_probe.rs:71-89). -/
def JsonProbe.on (p : JsonProbe X) : Event X (Mat X) → Except Panic (JsonProbe X)
  | .iterationStart => .ok { p with iterations := p.iterations ++ [iterDefault A] }
  | .currentBest s => do
    let l ← setLast (fun x => (x.1, s)) p.iterations
    pure { p with iterations := l }
  | .pheromoneUpdate m => do
    let l ← setLast (fun x => (m, x.2)) p.iterations
    pure { p with iterations := l }
  | .iterationEnd => .ok p
  | .finish => .ok { p with written := some p.iterations }

end
end Ecrs.Aco
