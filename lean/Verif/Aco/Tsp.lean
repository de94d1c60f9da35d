import Verif.Aco.Matrix

/-!
# Model of the TSP components of the ant colony module (src/aco/tsp.rs, src/aco/tsp/**)

Random draws and the iteration order of `HashSet` are oracles, quantified in the theorems.
-/

namespace Ecrs.Aco
open Ecrs

section
variable {X K : Type} [LinearOrder K] (A : AcoOps X K)

/-- Models `Solution` (src/aco/solution.rs:8-11). -/
structure Sol (X : Type) where
  path : List Nat
  fitness : X
  deriving DecidableEq, Repr

/-- Models `Solution::default` (src/aco/solution.rs:13-20). -/
def Sol.default : Sol X := ⟨[], A.zero⟩

/-- Models `Solution::from_path` (src/aco/solution.rs:23-34): fills a `len × len` matrix (which is dropped), so it panics
when a vertex is not smaller than the length of the path. -/
def Sol.fromPath (p : List Nat) : Except Panic (Sol X) :=
  if (windows p).all fun e => decide (e.1 < p.length) && decide (e.2 < p.length) then .ok ⟨p, A.zero⟩
  else .error .indexOob

/-! ## Ants (src/aco/tsp/ant.rs) -/

/-- The random draws of one call of `go_to_next_place`: the iteration order of the hash set `unvisited` (the same in both
loops over it), the draw of `gen::<f64>()` and of `gen_range(0.0..=s)`. -/
structure StepDraw (X : Type) where
  ord : List Nat → List Nat
  perm : ∀ l, (ord l).Perm l
  unit : X
  range : X → X

/-- Models `CanonicalAnt` and `ExploitingAnt` (src/aco/tsp/ant.rs:52-58, 141-148) minus the generator; `exploit` is the
exploitation rate of an `ExploitingAnt`, `none` for a `CanonicalAnt`. -/
structure Ant (X : Type) where
  unvisited : List Nat
  path : List Nat
  size : Nat
  stuck : Bool
  exploit : Option X

/-- Models `CanonicalAnt::with_rng` (src/aco/tsp/ant.rs:66-74). -/
def Ant.canonical (size : Nat) : Ant X := ⟨[], [], size, false, none⟩

/-- Models `ExploitingAnt::with_rng` (src/aco/tsp/ant.rs:157-170). -/
def Ant.exploiting (size : Nat) (rate : X) : Except Panic (Ant X) :=
  if !A.notLe A.zero rate && A.lt rate A.one then .ok ⟨[], [], size, false, some rate⟩ else .error .assertion

/-- Models `clear` (src/aco/tsp/ant.rs:23-29): `push` on a hash set inserts. -/
def Ant.clear (a : Ant X) : Ant X :=
  { a with
    unvisited := (List.range a.size).foldl (fun u i => if i ∈ u then u else u ++ [i]) a.unvisited
    path := []
    stuck := false }

/-- Models `chose_staring_place` (src/aco/tsp/ant.rs:35-39); the draw is `s % size`. -/
def Ant.start (a : Ant X) (s : Nat) : Except Panic (Ant X) :=
  if a.size = 0 then .error .emptyRange
  else .ok { a with unvisited := a.unvisited.filter (· ≠ s % a.size), path := a.path ++ [s % a.size] }

/-- `goodness_sum` (src/aco/tsp/ant.rs:97-100, 203-206). -/
def rowSum (g : Mat X) (last : Nat) : List Nat → X → Except Panic X
  | [], acc => .ok acc
  | v :: vs, acc => do
    let w ← g.at' last v
    rowSum g last vs (A.add acc w)

/-- The roulette loop (src/aco/tsp/ant.rs:104-110, 209-215): the chosen vertex, if any. -/
def roulette (g : Mat X) (last : Nat) : List Nat → X → Except Panic (Option Nat)
  | [], _ => .ok none
  | v :: vs, r => do
    let w ← g.at' last v
    if !A.notLe (A.sub r w) A.zero then .ok (some v) else roulette g last vs (A.sub r w)

/-- The exploitation loop (src/aco/tsp/ant.rs:196-201). -/
def bestVertex (g : Mat X) (last : Nat) : List Nat → Option Nat → X → Except Panic (Option Nat)
  | [], next, _ => .ok next
  | v :: vs, next, value => do
    let w ← g.at' last v
    if A.lt value w then bestVertex g last vs (some v) w else bestVertex g last vs next value

/-- `gen_range(0.0..=s)` (rand 0.8): panics unless `0 ≤ s` is finite. -/
def genRange (d : StepDraw X) (s : X) : Except Panic X :=
  if !A.notLe A.zero s && A.lt s A.infinity then .ok (d.range s) else .error .emptyRange

/-- Choice by roulette (src/aco/tsp/ant.rs:97-110, 203-215). -/
def byRoulette (g : Mat X) (last : Nat) (order : List Nat) (d : StepDraw X) : Except Panic (Option Nat) := do
  let s ← rowSum A g last order A.zero
  let r ← genRange A d s
  roulette A g last order r

/-- The choice of the next vertex (src/aco/tsp/ant.rs:97-110 and 190-216); `none`: `next` keeps its initial value
`last`. -/
def choose (g : Mat X) (last : Nat) (order : List Nat) (exploit : Option X) (d : StepDraw X) :
    Except Panic (Option Nat) :=
  match exploit with
  | none => byRoulette A g last order d
  | some rate => if A.lt d.unit rate then bestVertex A g last order none A.minv else byRoulette A g last order d

/-- Models `go_to_next_place` (src/aco/tsp/ant.rs:83-120 and 176-226): the new state and the returned edge. -/
def Ant.goNext (a : Ant X) (g : Mat X) (d : StepDraw X) : Except Panic (Ant X × (Nat × Nat)) :=
  match a.path.getLast? with
  | none => .error .unwrapNone
  | some last =>
    if a.stuck then .ok (a, (last, last))
    else if a.unvisited = [] then .error .assertion
    else do
      let c ← choose A g last (d.ord a.unvisited) a.exploit d
      let next := c.getD last
      pure ({ a with
        stuck := next == last
        unvisited := a.unvisited.filter (· ≠ next)
        path := a.path ++ [next] }, (last, next))

/-- `n` calls of `go_to_next_place` with the draws `d 0, d 1, …`. -/
def Ant.walk (g : Mat X) (d : Nat → StepDraw X) : Nat → Nat → Ant X → Except Panic (Ant X)
  | _, 0, a => .ok a
  | k, n + 1, a => do
    let r ← a.goNext A g (d k)
    Ant.walk g d (k + 1) n r.1

/-! ## Goodness (src/aco/tsp/goodness.rs) -/

/-- Models `CanonicalGoodness::apply` (src/aco/tsp/goodness.rs:58-66). -/
def canonicalGoodness [Inhabited X] (alpha beta : X) (heuristic : Mat X) (ph : Mat X) : Except Panic (Mat X) :=
  Mat.ofElems ph.rows (List.zipWith (fun p h => A.mul (A.pow p alpha) (A.pow h beta)) ph.elems heuristic.elems)

/-! ## Local updates (src/aco/tsp/local_update.rs) -/

/-- Models a local update rule. -/
inductive LocalRule (X : Type) where
  | decay (rate : X)
  | decayTo (rate stable : X)

/-- Models `Decay::new` and `DecayTo::new` (src/aco/tsp/local_update.rs:25-31, 63-72): the assertion on the rate. -/
def rateOk (rate : X) : Bool := !A.notLe A.zero rate && A.lt rate A.one

/-- Models `Decay::new` (src/aco/tsp/local_update.rs:25-31). -/
def LocalRule.newDecay (rate : X) : Except Panic (LocalRule X) :=
  if rateOk A rate then .ok (.decay rate) else .error .assertion

/-- Models `DecayTo::new` (src/aco/tsp/local_update.rs:63-72): only the rate is checked. -/
def LocalRule.newDecayTo (rate stable : X) : Except Panic (LocalRule X) :=
  if rateOk A rate then .ok (.decayTo rate stable) else .error .assertion

/-- The edge updated for one partial path (src/aco/tsp/local_update.rs:37-40, 78-80): panics on paths of fewer than two
vertices. -/
def lastEdge (p : List Nat) : Except Panic (Nat × Nat) :=
  match p.reverse with
  | r :: s :: _ => .ok (s, r)
  | _ => .error .assertion

/-- New pheromone on the last traveled edge (src/aco/tsp/local_update.rs:42, 82-83). -/
def LocalRule.value : LocalRule X → X → X
  | .decay rate, p => A.mul p rate
  | .decayTo rate stable, p => A.add (A.mul p rate) (A.mul stable (A.sub A.one rate))

/-- Models `LocalUpdate::apply` of `Decay` and `DecayTo` (src/aco/tsp/local_update.rs:35-44, 76-85). -/
def LocalRule.apply (l : LocalRule X) : List (List Nat) → Mat X → Except Panic (Mat X)
  | [], ph => .ok ph
  | p :: ps, ph => do
    let e ← lastEdge p
    let old ← ph.at' e.1 e.2
    let ph' ← ph.set e.1 e.2 (l.value A old)
    LocalRule.apply l ps ph'

/-! ## Ants behaviour (src/aco/tsp/ants_behaviour.rs) -/

/-- The draws of one iteration: `start k` for ant `k`, `step k t` for step `t` of ant `k`. -/
structure IterDraws (X : Type) where
  start : Nat → Nat
  step : Nat → Nat → StepDraw X

/-- One ant of `AntSystemAB` (src/aco/tsp/ants_behaviour.rs:42-46). -/
def oneAnt (g : Mat X) (n : Nat) (d : IterDraws X) (k : Nat) (a : Ant X) : Except Panic (Ant X) := do
  let a1 ← a.clear.start (d.start k)
  Ant.walk A g (d.step k) 0 (n - 1) a1

/-- Models the loop of `AntSystemAB` (src/aco/tsp/ants_behaviour.rs:41-53) over the ants `k, k+1, …`: the ants afterwards
and the paths.  A stuck ant ends the loop. -/
def asLoop (g : Mat X) (n : Nat) (d : IterDraws X) : Nat → List (Ant X) → Except Panic (List (Ant X) × List (List Nat))
  | _, [] => .ok ([], [])
  | k, a :: as => do
    let a' ← oneAnt A g n d k a
    if a'.stuck then .ok (a' :: as, [])
    else do
      let r ← asLoop g n d (k + 1) as
      pure (a' :: r.1, a'.path :: r.2)

/-- Models `AntSystemAB::simulate_ants` (src/aco/tsp/ants_behaviour.rs:31-56). -/
def antSystem (goodness : Mat X → Except Panic (Mat X)) (d : IterDraws X) (ants : List (Ant X)) (ph : Mat X) :
    Except Panic (List (Ant X) × List (List Nat) × Mat X) := do
  let g ← goodness ph
  let r ← asLoop A g ph.rows d 0 ants
  pure (r.1, r.2, ph)

/-- `clear` and `chose_staring_place` for all ants (src/aco/tsp/ants_behaviour.rs:76-79). -/
def startAll (d : IterDraws X) : Nat → List (Ant X) → Except Panic (List (Ant X))
  | _, [] => .ok []
  | k, a :: as => do
    let a' ← a.clear.start (d.start k)
    let as' ← startAll d (k + 1) as
    pure (a' :: as')

/-- The inner loop of `AntColonySystemAB` (src/aco/tsp/ants_behaviour.rs:86-94): one step of every ant that is not
stuck. -/
def acsStep (g : Mat X) (d : IterDraws X) (t : Nat) : Nat → List (Ant X) → Except Panic (List (Ant X) × List (List Nat))
  | _, [] => .ok ([], [])
  | k, a :: as =>
    if a.stuck then do
      let r ← acsStep g d t (k + 1) as
      pure (a :: r.1, r.2)
    else do
      let a' ← a.goNext A g (d.step k t)
      let r ← acsStep g d t (k + 1) as
      pure (a'.1 :: r.1, a'.1.path :: r.2)

/-- The outer loop of `AntColonySystemAB` (src/aco/tsp/ants_behaviour.rs:83-96), `m` more steps; `paths` are those of the
previous step. -/
def acsLoop (goodness : Mat X → Except Panic (Mat X)) (l : LocalRule X) (d : IterDraws X) :
    Nat → Nat → List (Ant X) → List (List Nat) → Mat X → Except Panic (List (Ant X) × List (List Nat) × Mat X)
  | _, 0, ants, paths, ph => .ok (ants, paths, ph)
  | t, m + 1, ants, _, ph => do
    let g ← goodness ph
    let r ← acsStep A g d t 0 ants
    let ph' ← l.apply A r.2 ph
    acsLoop goodness l d (t + 1) m r.1 r.2 ph'

/-- Models `AntColonySystemAB::simulate_ants` (src/aco/tsp/ants_behaviour.rs:68-98). -/
def antColonySystem (goodness : Mat X → Except Panic (Mat X)) (l : LocalRule X) (d : IterDraws X) (ants : List (Ant X))
    (ph : Mat X) : Except Panic (List (Ant X) × List (List Nat) × Mat X) := do
  let ants' ← startAll d 0 ants
  acsLoop A goodness l d 0 (ph.rows - 1) ants' [] ph

/-! ## Grading (src/aco/tsp.rs) -/

/-- The path cost (src/aco/tsp.rs:68-74) over the remaining edges. -/
def cost (w : Mat X) : List (Nat × Nat) → X → Except Panic X
  | [], acc => .ok acc
  | e :: es, acc => do
    let x ← w.at' e.1 e.2
    cost w es (A.add acc x)

/-- Models `PathLengthInverse::grade_solution` (src/aco/tsp.rs:67-77). -/
def gradeOne (w : Mat X) (s : Sol X) : Except Panic (Sol X) := do
  let c ← cost A w (windows s.path) A.zero
  pure { s with fitness := A.div A.one c }

/-- Models `PathLengthInverse::apply` (src/aco/tsp.rs:81-83). -/
def gradeAll (w : Mat X) : List (Sol X) → Except Panic (List (Sol X))
  | [] => .ok []
  | s :: ss => do
    let s' ← gradeOne A w s
    let ss' ← gradeAll w ss
    pure (s' :: ss')

/-! ## Best policies (src/aco/tsp/pheromone/best_policy.rs) -/

/-- `if a.fitness > b.fitness { a } else { b }`. -/
def better (a b : Sol X) : Sol X := if A.lt b.fitness a.fitness then a else b

/-- Models `find_best` (src/aco/tsp/pheromone/best_policy.rs:88-93 and src/aco.rs:107-112): `reduce`, then `unwrap`. -/
def findBest : List (Sol X) → Except Panic (Sol X)
  | [] => .error .unwrapNone
  | s :: ss => .ok (ss.foldl (better A) s)

/-- Models `IterationBest::update_best` (src/aco/tsp/pheromone/best_policy.rs:42-47). -/
def iterationBest (best : Sol X) : List (Sol X) → Sol X
  | [] => best
  | s :: ss => ss.foldl (better A) s

/-- Models `OverallBest::update_best` (src/aco/tsp/pheromone/best_policy.rs:71-80). -/
def overallBest (best : Sol X) : List (Sol X) → Sol X
  | [] => best
  | s :: ss => let b := ss.foldl (better A) s; if A.lt best.fitness b.fitness then b else best

/-! ## Pheromone updates (src/aco/tsp/pheromone.rs) -/

/-- `pheromone[(i, j)] += x; pheromone[(j, i)] += x` (src/aco/tsp/pheromone.rs:184-185, 201-202). -/
def addBoth (ph : Mat X) (i j : Nat) (x : X) : Except Panic (Mat X) := do
  let a ← ph.at' i j
  let ph1 ← ph.set i j (A.add a x)
  let b ← ph1.at' j i
  ph1.set j i (A.add b x)

/-- The loop over the edges of a path (src/aco/tsp/pheromone.rs:183-186, 200-203). -/
def leaveEdges (x : X) : List (Nat × Nat) → Mat X → Except Panic (Mat X)
  | [], ph => .ok ph
  | e :: es, ph => do
    let ph' ← addBoth A ph e.1 e.2 x
    leaveEdges x es ph'

/-- Models `leave_single_trail` (src/aco/tsp/pheromone.rs:199-204). -/
def leaveTrail (s : Sol X) (ph : Mat X) : Except Panic (Mat X) := leaveEdges A s.fitness (windows s.path) ph

/-- Models `leave_trail` (src/aco/tsp/pheromone.rs:191-195). -/
def leaveTrails : List (Sol X) → Mat X → Except Panic (Mat X)
  | [], ph => .ok ph
  | s :: ss, ph => do
    let ph' ← leaveTrail A s ph
    leaveTrails ss ph'

/-- `pheromone.scale_mut(1.0 - rate)` (src/aco/tsp/pheromone.rs:31, 64, 128, 179). -/
def evaporate (rate : X) (ph : Mat X) : Mat X := ph.map fun p => A.mul p (A.sub A.one rate)

/-- Models `AntSystemPU::apply` (src/aco/tsp/pheromone.rs:30-33). -/
def antSystemPU (rate : X) (sols : List (Sol X)) (ph : Mat X) : Except Panic (Mat X) :=
  leaveTrails A sols (evaporate A rate ph)

/-- Models `ElitistAntSystemPU::apply` (src/aco/tsp/pheromone.rs:61-67): `best` is the state of its `OverallBest`. -/
def elitistPU (rate : X) (best : Sol X) (sols : List (Sol X)) (ph : Mat X) : Except Panic (Mat X × Sol X) := do
  let b := overallBest A best sols
  let ph1 ← leaveTrails A sols (evaporate A rate ph)
  let ph2 ← leaveTrail A b ph1
  pure (ph2, b)

/-- nalgebra's `clamp(val, min, max)`. -/
def clampVal (v lo hi : X) : X := if A.lt lo v then (if A.lt v hi then v else hi) else lo

/-- Models `MMAntSystemPU::with_best_policy` (src/aco/tsp/pheromone.rs:97-101): the assertions. -/
def mmBoundsOk (lo hi : X) : Bool := !A.notLe A.zero lo && A.lt lo hi

/-- Models `MMAntSystemPU::with_best_policy` and `new` (src/aco/tsp/pheromone.rs:91-121): the evaporation rate and the two
bounds of the update; the rate is not checked. -/
def newMM (rate lo hi : X) : Except Panic (X × X × X) :=
  if mmBoundsOk A lo hi then .ok (rate, lo, hi) else .error .assertion

/-- The loop of `MMAntSystemPU::apply` (src/aco/tsp/pheromone.rs:130-137). -/
def mmEdges (x lo hi : X) : List (Nat × Nat) → Mat X → Except Panic (Mat X)
  | [], ph => .ok ph
  | e :: es, ph => do
    let a ← ph.at' e.1 e.2
    let ph1 ← ph.set e.1 e.2 (clampVal A (A.add a x) lo hi)
    let b ← ph1.at' e.1 e.2
    let ph2 ← ph1.set e.2 e.1 b
    mmEdges x lo hi es ph2

/-- Models `MMAntSystemPU::apply` (src/aco/tsp/pheromone.rs:125-138); `policy` is `iterationBest` or `overallBest`. -/
def mmPU (rate lo hi : X) (policy : Sol X → List (Sol X) → Sol X) (best : Sol X) (sols : List (Sol X)) (ph : Mat X) :
    Except Panic (Mat X × Sol X) := do
  let b := policy best sols
  let ph1 ← mmEdges A b.fitness lo hi (windows b.path) (evaporate A rate ph)
  pure (ph1, b)

/-- Models `AntColonySystemPU::apply` (src/aco/tsp/pheromone.rs:176-187). -/
def acsPU (rate : X) (policy : Sol X → List (Sol X) → Sol X) (best : Sol X) (sols : List (Sol X)) (ph : Mat X) :
    Except Panic (Mat X × Sol X) := do
  let b := policy best sols
  let ph1 ← leaveEdges A (A.mul b.fitness rate) (windows b.path) (evaporate A rate ph)
  pure (ph1, b)

/-! ## Utilities (src/aco/tsp/util.rs) -/

/-- Models `create_heuristic_from_weights` (src/aco/tsp/util.rs:6-17). -/
def heuristic (w : Mat X) : Mat X := w.map fun x => if A.eq x A.zero then A.zero else A.div A.one x

/-- The distance of two cities (src/aco/tsp/util.rs:36-41). -/
def cityDist (a b : X × X) : X :=
  A.sqrt (A.add (A.mul (A.sub a.1 b.1) (A.sub a.1 b.1)) (A.mul (A.sub a.2 b.2) (A.sub a.2 b.2)))

/-- The inner loop of `generate_tsp_cost` (src/aco/tsp/util.rs:35-45) for `j, …, j+m-1`. -/
def costRow (cities : Nat → X × X) (i : Nat) : Nat → Nat → Mat X → Except Panic (Mat X)
  | _, 0, c => .ok c
  | j, m + 1, c => do
    let d := cityDist A (cities i) (cities j)
    let c1 ← c.set i j d
    let c2 ← c1.set j i d
    costRow cities i (j + 1) m c2

/-- The outer loop (src/aco/tsp/util.rs:34-46) for `i, …, i+m-1`; `n` cities. -/
def costRows (n : Nat) (cities : Nat → X × X) : Nat → Nat → Mat X → Except Panic (Mat X)
  | _, 0, c => .ok c
  | i, m + 1, c => do
    let c1 ← costRow A cities i i (n - i) c
    costRows n cities (i + 1) m c1

/-- Models `generate_tsp_cost` (src/aco/tsp/util.rs:23-49), given the random cities. -/
def tspCost (n : Nat) (cities : Nat → X × X) : Except Panic (Mat X) :=
  costRows A n cities 0 n { rows := n, cols := n, get := fun _ _ => A.zero }

end
end Ecrs.Aco
