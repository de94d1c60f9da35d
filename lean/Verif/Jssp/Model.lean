import Verif.Exc

/-!
# Model of the job shop example (examples/jssp): instances, machines, evaluation of individuals

Vectors that are indexed and written are functional arrays with Rust's bounds checks.  `usize` is `Nat` (no overflow); the
value `usize::MAX` that marks an operation without finish time is `none`.  The `while` loops have no bound in Rust; `fuel`
bounds the model and running out of it is `Panic.outOfFuel`.
-/

namespace Ecrs.Jssp
open Ecrs

/-- A vector: its length and its elements; `get` is meaningful below `size`. -/
structure Arr (α : Type) where
  size : Nat
  get : Nat → α

namespace Arr
variable {α : Type}

/-- `v[i]`: panics out of bounds. -/
def at' (v : Arr α) (i : Nat) : Except Panic α := if i < v.size then .ok (v.get i) else .error .indexOob

/-- Write access through `v[i]`: panics out of bounds. -/
def modify (v : Arr α) (i : Nat) (f : α → α) : Except Panic (Arr α) :=
  if i < v.size then .ok { v with get := fun k => if k = i then f (v.get i) else v.get k } else .error .indexOob

/-- The elements in order. -/
def toList (v : Arr α) : List α := (List.range v.size).map v.get

/-- `iter_mut().for_each(..)`. -/
def map (f : α → α) (v : Arr α) : Arr α := { v with get := fun k => f (v.get k) }

end Arr

/-- Models `enum EdgeKind` (examples/jssp/problem.rs:16-21). -/
inductive EdgeKind
  | jobSucc
  | machineSucc
  deriving DecidableEq, Repr

/-- Models `struct Edge` (examples/jssp/problem.rs:25-30). -/
structure Edge where
  neigh : Nat
  kind : EdgeKind
  deriving DecidableEq, Repr

/-- Models `struct Operation` (examples/jssp/problem.rs:44-79). -/
structure Operation where
  id : Nat
  duration : Nat
  machine : Nat
  finishTime : Option Nat
  preds : List Nat
  edgesOut : List Edge
  machinePred : Option Nat
  criticalPathEdge : Option Edge
  criticalDistance : Nat
  deriving DecidableEq, Repr

/-- Models `Operation::new` (examples/jssp/problem.rs:82-100). -/
def Operation.new (id duration machine : Nat) (finishTime : Option Nat) (preds : List Nat) : Operation :=
  ⟨id, duration, machine, finishTime, preds, [], none, none, 0⟩

/-- `Vec::swap_remove(i)`: the last element takes the place of the removed one. -/
def swapRemove {α : Type} (l : List α) (i : Nat) : List α :=
  match l.getLast? with
  | none => l
  | some x => (l.set i x).dropLast

/-- The edge part of `Operation::reset` (examples/jssp/problem.rs:108-114). -/
def resetEdges (l : List Edge) : List Edge :=
  match l.findIdx? (fun e => e.kind == .machineSucc) with
  | some i => swapRemove l i
  | none => l

/-- Models `Operation::reset` (examples/jssp/problem.rs:103-125); `critical_path_edge` and `critical_distance` are kept.
The `debug_assert` (115-121) is not modelled here; see `C99_reset_leaves_no_machine_edge`. -/
def Operation.reset (o : Operation) : Operation :=
  { o with finishTime := none, machinePred := none, edgesOut := resetEdges o.edgesOut }

/-- Models `struct Machine` (examples/jssp/problem.rs:131-141); a range `a..b` is a pair. -/
structure Machine where
  id : Nat
  rmc : List (Nat × Nat)
  lastScheduledOp : Option Nat
  deriving DecidableEq, Repr

/-- Models `Machine::new` (examples/jssp/problem.rs:144-151). -/
def Machine.new (id : Nat) : Machine := ⟨id, [], none⟩

/-- Models `Machine::is_idle` (examples/jssp/problem.rs:164-169). -/
def Machine.isIdle (m : Machine) (q : Nat × Nat) : Bool :=
  !(m.rmc.any fun r => decide (r.1 < q.2) && decide (r.2 > q.1))

/-- Models `Machine::reserve` (examples/jssp/problem.rs:174-177). -/
def Machine.reserve (m : Machine) (r : Nat × Nat) (op : Nat) : Machine :=
  { m with rmc := m.rmc ++ [r], lastScheduledOp := some op }

/-- Models `Machine::reset` (examples/jssp/problem.rs:180-183). -/
def Machine.reset (m : Machine) : Machine := { m with rmc := [], lastScheduledOp := none }

/-! ## Instances -/

/-- Models the token level of `JsspInstance::try_from` for one line (examples/jssp/parse.rs:57-73): pairs
`machine duration`, a last unpaired token panics (`op_def[1]`).  Not modelled: file access and parsing of numbers. -/
def parseOps (first : Nat) : Nat → List Nat → Except Panic (List Operation)
  | _, [] => .ok []
  | _, [_] => .error .indexOob
  | opId, m :: d :: rest => do
    let ops ← parseOps first (opId + 1) rest
    pure (Operation.new opId d m none ((List.range (opId - first)).map (first + ·)) :: ops)

/-- Models the loop over the lines of `JsspInstance::try_from` (examples/jssp/parse.rs:57-75). -/
def parseJobs : Nat → List (List Nat) → Except Panic (List (List Operation))
  | _, [] => .ok []
  | opId, line :: lines => do
    let job ← parseOps opId opId line
    let jobs ← parseJobs (opId + job.length) lines
    pure (job :: jobs)

/-- Models `JsspInstance` (examples/jssp/problem.rs:212-217) with the used part of `JsspConfig` (188-197). -/
structure Instance where
  jobs : List (List Operation)
  nMachines : Nat

/-- Models `JsspInstance::try_from` (examples/jssp/parse.rs:32-90) on the file as lines of numbers: an empty file panics
(`last().unwrap()`), and so does a first line without exactly two numbers. -/
def parse : List (List Nat) → Except Panic Instance
  | [] => .error .unwrapNone
  | header :: lines =>
    match header with
    | [_, nMachines] => do
      let jobs ← parseJobs 0 lines
      pure ⟨jobs, nMachines⟩
    | _ => .error .assertion

/-- Models the inner loop of `JsspPopProvider::new` (examples/jssp/problem/population.rs:29-39). -/
def shiftOp (o : Operation) : Operation :=
  { o with id := o.id + 1, preds := 0 :: o.preds.map (· + 1), edgesOut := o.edgesOut ++ [⟨o.id + 2, .jobSucc⟩] }

/-- `edges_out.last_mut().unwrap().neigh_id = dim + 1`. -/
def redirectLast (sink : Nat) (o : Operation) : Except Panic Operation :=
  match o.edgesOut.getLast? with
  | none => .error .unwrapNone
  | some e => .ok { o with edgesOut := o.edgesOut.dropLast ++ [{ e with neigh := sink }] }

/-- `job.last_mut().unwrap()..` (population.rs:40): the last operation of the job is redirected to the sink. -/
def redirectJob (sink : Nat) (job : List Operation) : Except Panic (List Operation) :=
  match job.getLast? with
  | none => .error .unwrapNone
  | some o => do
    let o' ← redirectLast sink o
    pure (job.dropLast ++ [o'])

/-- Models the loop of `JsspPopProvider::new` (examples/jssp/problem/population.rs:28-45): the prepared jobs and the edges of
the zero operation. -/
def prepareJobs (sink : Nat) : List (List Operation) → Except Panic (List (List Operation) × List Edge)
  | [] => .ok ([], [])
  | job :: jobs => do
    let job' ← redirectJob sink (job.map shiftOp)
    let first ← (match job'.head? with | some o => .ok o | none => .error .unwrapNone : Except Panic Operation)
    let (rest, es) ← prepareJobs sink jobs
    pure (job' :: rest, ⟨first.id, .jobSucc⟩ :: es)

/-- `[zero_op].chain(jobs).chain([sink_op]).collect()` as an array. -/
def Arr.ofList {α : Type} [Inhabited α] (l : List α) : Arr α := ⟨l.length, fun i => l.getD i default⟩

instance : Inhabited Operation := ⟨Operation.new 0 0 0 none []⟩

/-- Models `JsspPopProvider::new` (examples/jssp/problem/population.rs:18-56): the operations shared by all individuals.
The `assert_eq!` on the length (53) cannot fail and is left out. -/
def provider (inst : Instance) : Except Panic (List Operation) := do
  let dim := (inst.jobs.map List.length).sum
  let (jobs, es) ← prepareJobs (dim + 1) inst.jobs
  pure ({ Operation.new 0 0 0 none [] with edgesOut := es } :: jobs.flatten ++
    [Operation.new (dim + 1) 0 0 none (List.range (dim + 1))])

/-! ## Individuals -/

/-- Models `struct JsspIndividual` (examples/jssp/problem/individual.rs:11-28). -/
structure Individual (X : Type) where
  chromosome : List X
  operations : Arr Operation
  machines : Arr Machine
  fitness : Nat
  isFitnessValid : Bool
  isDirty : Bool

/-- Models `JsspIndividual::new` (examples/jssp/problem/individual.rs:31-40). -/
def Individual.new {X : Type} (chromosome : List X) (ops : Arr Operation) (machines : Arr Machine) (fitness : Nat) :
    Individual X := ⟨chromosome, ops, machines, fitness, false, false⟩

/-- Models `JsspIndividual::reset` (examples/jssp/problem/individual.rs:43-46). -/
def Individual.reset {X : Type} (i : Individual X) : Individual X :=
  { i with machines := i.machines.map Machine.reset, operations := i.operations.map Operation.reset }

/-! ## Evaluation -/

/-- The `f64` operations of examples/jssp/problem/fitness.rs: `delay gene maxdur` is `gene * delay_const * maxdur`
(line 145), `late finish time delay` is `finish as f64 > time as f64 + delay` (lines 194, 200; `none` is `usize::MAX`), `gt`
compares priorities (209) and `minv` is `f64::MIN` (165).  No laws. -/
structure EvalOps (X : Type) where
  delay : X → Nat → X
  late : Option Nat → Option Nat → X → Bool
  gt : X → X → Bool
  minv : X

/-- `Option::unwrap`. -/
def unwrap {α : Type} : Option α → Except Panic α
  | some a => .ok a
  | none => .error .unwrapNone

/-- `chromosome[i]`. -/
def gene {X : Type} (ch : List X) (i : Nat) : Except Panic X :=
  match ch[i]? with
  | some x => .ok x
  | none => .error .indexOob

section
variable {X : Type} (E : EvalOps X)

/-- Models `delay_for_g` (fitness.rs:144-146). -/
def delayForG (ch : List X) (n g maxdur : Nat) : Except Panic X := do
  let x ← gene ch (n + g - 1)
  pure (E.delay x maxdur)

/-- Models `op_priority` (fitness.rs:149-152); `op_id - 1` underflows for operation 0. -/
def opPriority (ch : List X) (opId : Nat) : Except Panic X :=
  if opId = 0 then .error .underflow else gene ch (opId - 1)

/-- No predecessor of the list is late (fitness.rs:199-203). -/
def noneLate (ft : Arr (Option Nat)) (delay : X) (time : Option Nat) : List Nat → Except Panic Bool
  | [] => .ok true
  | p :: ps => do
    let f ← ft.at' p
    if E.late f time delay then .ok false else noneLate ft delay time ps

/-- Models the second filter of `update_delay_feasibles_and_highest_prior_op` (fitness.rs:170-206). -/
def isFeasible (len : Nat) (ft : Arr (Option Nat)) (delay : X) (time : Option Nat) (op : Operation) : Except Panic Bool :=
  if op.id ≠ len - 1 then
    match op.preds.getLast? with
    | some p => do
      let f ← ft.at' p
      pure (!E.late f time delay)
    | none => .ok true
  else noneLate E ft delay time op.preds

/-- Accumulator of the loop: `delay_feasibles`, `op_id_with_highest_priority`, `highest_priority`. -/
structure Feas (X : Type) where
  feasibles : List Nat
  best : Nat
  prio : X

/-- The closure of `for_each` (fitness.rs:207-213). -/
def pushFeasible (ch : List X) (a : Feas X) (op : Operation) : Except Panic (Feas X) := do
  let p ← opPriority ch op.id
  pure (if E.gt p a.prio then ⟨a.feasibles ++ [op.id], op.id, p⟩ else { a with feasibles := a.feasibles ++ [op.id] })

/-- One element of the iterator chain (fitness.rs:167-213). -/
def feasStep (ch : List X) (len : Nat) (ft : Arr (Option Nat)) (delay : X) (time : Option Nat) (a : Feas X) (op : Operation) :
    Except Panic (Feas X) := do
  let f ← ft.at' op.id
  match f with
  | some _ => pure a
  | none => do
    let ok ← isFeasible E len ft delay time op
    if ok then pushFeasible E ch a op else pure a

/-- Models `update_delay_feasibles_and_highest_prior_op` (fitness.rs:154-215): the feasible operations and the chosen one. -/
def updateFeasibles (ch : List X) (ops : Arr Operation) (ft : Arr (Option Nat)) (delay : X) (time : Option Nat) :
    Except Panic (Feas X) :=
  ops.toList.foldlM (feasStep E ch ops.size ft delay time) ⟨[], 0, E.minv⟩

end

/-- The smallest element. -/
def minimum? : List Nat → Option Nat
  | [] => none
  | x :: xs => some (xs.foldl min x)

/-- The candidates for the start of an operation (fitness.rs:94-98): finish times not before `pred`, at which the machine is
idle for the duration.  `none` (`usize::MAX`) as `pred` admits none. -/
def startCandidates (ft : Arr (Option Nat)) (pred : Option Nat) (m : Machine) (dur : Nat) : List Nat :=
  ft.toList.filterMap fun t =>
    match t, pred with
    | some t, some p => if p ≤ t ∧ m.isIdle (t, t + dur) = true then some t else none
    | _, _ => none

/-- Local state of `evaluate_individual`. -/
structure Sched where
  ops : Arr Operation
  machines : Arr Machine
  ft : Arr (Option Nat)
  count : Nat
  g : Nat
  last : Nat

/-- Models the machine edges of fitness.rs:115-120. -/
def linkMachine (ops : Arr Operation) (last : Option Nat) (j : Nat) : Except Panic (Arr Operation) :=
  match last with
  | none => .ok ops
  | some l => do
    let ops1 ← ops.modify l fun o => { o with edgesOut := o.edgesOut ++ [⟨j, .machineSucc⟩] }
    ops1.modify j fun o => { o with machinePred := some l }

/-- Models the body of the inner loop of `evaluate_individual` (fitness.rs:81-122).  Simplification: the machine is looked up
once, before the candidates are filtered. -/
def scheduleOp (s : Sched) (j : Nat) : Except Panic Sched := do
  let op ← s.ops.at' j
  let p ← unwrap op.preds.getLast?
  let predFinish ← s.ft.at' p
  let m ← s.machines.at' op.machine
  let start ← unwrap (minimum? (startCandidates s.ft predFinish m op.duration))
  let fin := start + op.duration
  let ft ← s.ft.modify op.id fun _ => some fin
  let ops ← s.ops.modify j fun o => { o with finishTime := some fin }
  let ops ← linkMachine ops m.lastScheduledOp j
  let machines ← s.machines.modify op.machine fun m => m.reserve (fin - op.duration, fin) j
  pure ⟨ops, machines, ft, s.count + 1, s.g + 1, max s.last fin⟩

section
variable {X : Type} (E : EvalOps X)

/-- Models the inner loop of `evaluate_individual` (fitness.rs:80-130), given the current feasible operations. -/
def innerLoop (ch : List X) (n maxdur : Nat) (tg : Option Nat) : Nat → Feas X → Sched → Except Panic Sched
  | 0, _, _ => .error .outOfFuel
  | fuel + 1, f, s =>
    if f.feasibles = [] then .ok s
    else do
      let s' ← scheduleOp s f.best
      if n < s'.g then pure s'
      else do
        let delay ← delayForG E ch n s'.g maxdur
        let f' ← updateFeasibles E ch s'.ops s'.ft delay tg
        innerLoop ch n maxdur tg fuel f' s'

/-- `t > t_g` on `usize` values where `none` is `usize::MAX`. -/
def later (tg : Option Nat) : Option Nat → Bool
  | some t => match tg with
    | some x => decide (x < t)
    | none => false
  | none => tg.isSome

/-- Models `*finish_times.iter().filter(|&&t| t > t_g).min().unwrap()` (fitness.rs:132). -/
def nextTime (ft : Arr (Option Nat)) (tg : Option Nat) : Except Panic (Option Nat) :=
  match ft.toList.filter (later tg) with
  | [] => .error .unwrapNone
  | l => .ok (minimum? (l.filterMap id))

/-- Models the outer loop of `evaluate_individual` (fitness.rs:71-133). -/
def outerLoop (ch : List X) (n maxdur : Nat) : Nat → Option Nat → Sched → Except Panic Sched
  | 0, _, _ => .error .outOfFuel
  | fuel + 1, tg, s =>
    if s.count < n + 1 then do
      let delay ← delayForG E ch n s.g maxdur
      let f ← updateFeasibles E ch s.ops s.ft delay tg
      let s' ← innerLoop E ch n maxdur tg (n + 2) f s
      let tg' ← nextTime s'.ft tg
      outerLoop ch n maxdur fuel tg' s'
    else .ok s

end

/-! ## Local search -/

/-- The unvisited heads of the edges, pushed in order (fitness.rs:282-287): the new stack (top first). -/
def pushUnvisited (visited : Arr Bool) : List Edge → List Nat → Except Panic (List Nat × Bool)
  | [], stack => .ok (stack, false)
  | e :: es, stack => do
    let v ← visited.at' e.neigh
    if v then pushUnvisited visited es stack
    else do
      let (st, _) ← pushUnvisited visited es (e.neigh :: stack)
      pure (st, true)

/-- `max_by_key` of `Iterator`: the *last* maximal element. -/
def maxByKey {α : Type} (key : α → Nat) : α → List α → α
  | b, [] => b
  | b, x :: xs => if key x < key b then maxByKey key b xs else maxByKey key x xs

/-- The keys of all edges are looked up in bounds (fitness.rs:297). -/
def allInBounds (ops : Arr Operation) (es : List Edge) : Except Panic Unit :=
  if es.all (fun e => decide (e.neigh < ops.size)) then .ok () else .error .indexOob

/-- Models fitness.rs:293-305: distance and critical edge of a finished vertex. -/
def finishVertex (ops : Arr Operation) (v : Nat) : Except Panic (Arr Operation) := do
  let o ← ops.at' v
  match o.edgesOut with
  | [] => ops.modify v fun o => { o with criticalDistance := o.duration }
  | e :: es => do
    allInBounds ops (e :: es)
    let cp := maxByKey (fun x => (ops.get x.neigh).criticalDistance) e es
    ops.modify v fun o => { o with criticalDistance := o.duration + (ops.get cp.neigh).criticalDistance,
                                   criticalPathEdge := some cp }

/-- One unvisited vertex on top of the stack (fitness.rs:281-306). -/
def dfsVisit (ops : Arr Operation) (visited : Arr Bool) (v : Nat) (stack : List Nat) :
    Except Panic (Arr Operation × Arr Bool × List Nat) := do
  let o ← ops.at' v
  let (st, any) ← pushUnvisited visited o.edgesOut (v :: stack)
  if any then pure (ops, visited, st)
  else do
    let visited' ← visited.modify v fun _ => true
    let ops' ← finishVertex ops v
    pure (ops', visited', stack)

/-- Models `calculate_critical_distance` (fitness.rs:271-311). -/
def dfs : Nat → Arr Operation → Arr Bool → List Nat → Except Panic (Arr Operation)
  | _, ops, _, [] => .ok ops
  | 0, _, _, _ :: _ => .error .outOfFuel
  | fuel + 1, ops, visited, v :: stack => do
    let b ← visited.at' v
    if b then dfs fuel ops visited stack
    else do
      let (ops', visited', stack') ← dfsVisit ops visited v stack
      dfs fuel ops' visited' stack'

/-- Models `determine_critical_path` (fitness.rs:266-269). -/
def criticalPath (fuel : Nat) (ops : Arr Operation) : Except Panic (Arr Operation) :=
  dfs fuel ops ⟨ops.size, fun _ => false⟩ [0]

/-- Models `determine_makespan` (fitness.rs:330-333). -/
def makespan (fuel : Nat) (ops : Arr Operation) : Except Panic (Arr Operation × Nat) := do
  let ops' ← criticalPath fuel ops
  let o ← ops'.at' 0
  pure (ops', o.criticalDistance)

/-- Put an operation into the first block. -/
def consBlock (id : Nat) : List (List Nat) → List (List Nat)
  | [] => [[id]]
  | b :: bs => (id :: b) :: bs

/-- Models the loop of `determine_critical_blocks` (fitness.rs:318-324) from operation `v` on. -/
def blocksFrom (ops : Arr Operation) : Nat → Nat → Except Panic (List (List Nat))
  | 0, _ => .error .outOfFuel
  | fuel + 1, v => do
    let o ← ops.at' v
    match o.criticalPathEdge with
    | none => pure [[]]
    | some e => do
      let rest ← blocksFrom ops fuel e.neigh
      pure (consBlock o.id (if e.kind = .jobSucc then [] :: rest else rest))

/-- Models `determine_critical_blocks` (fitness.rs:313-328); the `debug_assert` is not modelled. -/
def criticalBlocks (fuel : Nat) (ops : Arr Operation) : Except Panic (List (List Nat)) := do
  let z ← ops.at' 0
  let e ← unwrap z.criticalPathEdge
  let bs ← blocksFrom ops fuel e.neigh
  pure bs.dropLast

/-- `edges_out[1].neigh_id = x`: panics without a second edge. -/
def setSecond (ops : Arr Operation) (v x : Nat) : Except Panic (Arr Operation) := do
  let o ← ops.at' v
  match o.edgesOut with
  | a :: b :: rest => ops.modify v fun o => { o with edgesOut := a :: { b with neigh := x } :: rest }
  | _ => .error .indexOob

/-- The first half of `swap_ops` (fitness.rs:340-359): the machine successor. -/
def swapSucc (ops : Arr Operation) (u v : Nat) : Except Panic (Arr Operation) := do
  let o ← ops.at' v
  match o.edgesOut[1]? with
  | some e => do
    let ops1 ← setSecond ops u e.neigh
    let ops2 ← ops1.modify e.neigh fun o => { o with machinePred := some u }
    setSecond ops2 v u
  | none => do
    let ops1 ← ops.modify u fun o => { o with edgesOut := o.edgesOut.dropLast }
    ops1.modify v fun o => { o with edgesOut := o.edgesOut ++ [⟨u, .machineSucc⟩] }

/-- The second half of `swap_ops` (fitness.rs:361-367): the machine predecessor. -/
def swapPred (ops : Arr Operation) (u v : Nat) : Except Panic (Arr Operation) := do
  let o ← ops.at' u
  match o.machinePred with
  | some p => do
    let ops1 ← setSecond ops p v
    ops1.modify v fun o => { o with machinePred := some p }
  | none => ops.modify v fun o => { o with machinePred := none }

/-- Models `swap_ops` (fitness.rs:335-370); the `debug_assert` is not modelled. -/
def swapOps (ops : Arr Operation) (u v : Nat) : Except Panic (Arr Operation) := do
  let ops1 ← swapSucc ops u v
  let ops2 ← swapPred ops1 u v
  ops2.modify u fun o => { o with machinePred := some v }

/-- Models one trial of `local_search` (fitness.rs:235-243, 250-258): swap, evaluate, keep or swap back. -/
def trySwap (fuel : Nat) (ops : Arr Operation) (crt u v : Nat) : Except Panic (Arr Operation × Nat × Bool) := do
  let ops1 ← swapOps ops u v
  let (ops2, new) ← makespan fuel ops1
  if new < crt then pure (ops2, new, true)
  else do
    let ops3 ← swapOps ops2 v u
    pure (ops3, crt, false)

/-- The first trial of a block (fitness.rs:234-244), skipped for the first block and for short blocks. -/
def tryFront (fuel : Nat) (ops : Arr Operation) (crt : Nat) (first : Bool) (block : List Nat) :
    Except Panic (Arr Operation × Nat × Bool) :=
  match first, block with
  | false, u :: v :: _ => trySwap fuel ops crt u v
  | _, _ => .ok (ops, crt, false)

/-- The second trial of a block (fitness.rs:247-259), skipped for the last block and for short blocks. -/
def tryBack (fuel : Nat) (ops : Arr Operation) (crt : Nat) (isLast : Bool) (block : List Nat) :
    Except Panic (Arr Operation × Nat × Bool) :=
  match isLast, block.reverse with
  | false, v :: u :: _ => trySwap fuel ops crt u v
  | _, _ => .ok (ops, crt, false)

/-- Models the loop over the blocks in `local_search` (fitness.rs:228-261). -/
def tryBlocks (fuel : Nat) (ops : Arr Operation) (crt : Nat) : Bool → List (List Nat) →
    Except Panic (Arr Operation × Nat × Bool)
  | _, [] => .ok (ops, crt, false)
  | first, b :: bs => do
    let (ops1, crt1, u1) ← tryFront fuel ops crt first b
    if u1 then pure (ops1, crt1, true)
    else do
      let (ops2, crt2, u2) ← tryBack fuel ops1 crt1 bs.isEmpty b
      if u2 then pure (ops2, crt2, true)
      else tryBlocks fuel ops2 crt2 false bs

/-- Models `local_search` (fitness.rs:217-264); the inner loops get the constant fuel `k`. -/
def localSearch (k : Nat) : Nat → Arr Operation → Except Panic (Arr Operation × Nat)
  | 0, _ => .error .outOfFuel
  | fuel + 1, ops => do
    let (ops1, crt) ← makespan k ops
    let bs ← criticalBlocks k ops1
    let (ops2, crt2, updated) ← tryBlocks k ops1 crt true bs
    if updated then localSearch k fuel ops2 else pure (ops2, crt2)

/-- `iter().map(|op| op.duration).max().unwrap()` (fitness.rs:64). -/
def maxDuration (ops : Arr Operation) : Except Panic Nat :=
  match ops.toList with
  | [] => .error .unwrapNone
  | o :: os => .ok (os.foldl (fun a o => max a o.duration) o.duration)

section
variable {X : Type} (E : EvalOps X)

/-- Models the scheduling part of `evaluate_individual` (fitness.rs:40-133): the state after the outer loop. -/
def schedule (fuel : Nat) (i : Individual X) : Except Panic Sched := do
  if i.operations.size < 2 then .error .underflow
  else do
    let n := i.operations.size - 2
    let ops ← i.operations.modify 0 fun o => { o with finishTime := some 0 }
    let maxdur ← maxDuration ops
    outerLoop E i.chromosome n maxdur fuel (some 0)
      ⟨ops, i.machines, ⟨n + 2, fun k => if k = 0 then some 0 else none⟩, 1, 1, 0⟩

/-- `if indv.is_dirty { indv.reset() }` (fitness.rs:35-37). -/
def Individual.prepare {X : Type} (i : Individual X) : Individual X := if i.isDirty then i.reset else i

/-- Models `evaluate_individual` (fitness.rs:31-141). -/
def evaluate (fuel : Nat) (i : Individual X) : Except Panic (Individual X × Nat) := do
  let s ← schedule E fuel i.prepare
  let (ops, ls) ← localSearch fuel fuel s.ops
  let r := min s.last ls
  pure ({ i with operations := ops, machines := s.machines, fitness := r, isFitnessValid := true, isDirty := true }, r)

end
end Ecrs.Jssp
