import Verif.Aco.Sampled

/-!
# Whole runs of Ant System with a random number generator

`Aco/Aco.lean` models `run` with given draws; here the ants draw from a generator.  The pheromone updates are the shipped
ones.
-/

namespace Ecrs.Aco
open Ecrs

/-- The shipped best policies (src/aco/tsp/pheromone/best_policy.rs:27-80). -/
inductive Policy where
  | iterationBest
  | overallBest

section
variable {X K : Type} [LinearOrder K] (A : AcoOps X K)

/-- The `update_best` of a policy (src/aco/tsp/pheromone/best_policy.rs:42-47, 71-80). -/
def Policy.pick : Policy → Sol X → List (Sol X) → Sol X
  | .iterationBest => Aco.iterationBest A
  | .overallBest => Aco.overallBest A

/-- The shipped pheromone updates (src/aco/tsp/pheromone.rs) without their evaporation rate. -/
inductive Rule (X : Type) where
  | antSystem
  | elitist
  | maxMin (lo hi : X) (policy : Policy)
  | acs (policy : Policy)

/-- `PheromoneUpdate::apply` of the shipped updates (src/aco/tsp/pheromone.rs:30-33, 61-67, 125-138, 176-187); the state is
the best solution kept by the policy. -/
def Rule.update (rate : X) : Rule X → Upd X (Sol X)
  | .antSystem => asUpdate A rate
  | .elitist => fun u sols ph => do
    let r ← elitistPU A rate u sols ph
    pure (r.2, r.1)
  | .maxMin lo hi p => fun u sols ph => do
    let r ← mmPU A rate lo hi (p.pick A) u sols ph
    pure (r.2, r.1)
  | .acs p => acsUpdate A rate (p.pick A)

/-- What one iteration produced: the graded solutions, the best of them and the new pheromone. -/
structure Round (X : Type) where
  sols : List (Sol X)
  best : Sol X
  ph : Mat X

/-- The mutable state of a run: the number of the iteration, the ants, the best kept by the policy and the pheromone. -/
structure AsState (X : Type) where
  iter : Nat
  ants : List (Ant X)
  upd : Sol X
  ph : Mat X

/-- What follows the colony in `iterate` (src/aco.rs:94-104): grading with `PathLengthInverse`, the best of the batch, the
pheromone update. -/
def finishRound (w : Mat X) (upd : Upd X (Sol X)) (u : Sol X) (paths : List (List Nat)) (ph : Mat X) :
    Except Panic (Sol X × Round X) := do
  let sols ← fromPaths A paths
  let gs ← gradeAll A w sols
  let best ← findBest A gs
  let r ← upd u gs ph
  pure (r.1, ⟨gs, best, r.2⟩)

end

noncomputable section
variable {G : Type} (R : Rng G ℝ) (A : AcoOps (Ext ℝ) (WithBot (WithTop ℝ)))

/-- Models `iterate` (src/aco.rs:91-105) for `TspColony` with `AntSystemAB`; `o i k t` is the hash set order of ant `k` in
step `t` of iteration `i`. -/
def roundM (goodness : Mat (Ext ℝ) → Except Panic (Mat (Ext ℝ))) (o : Nat → Nat → Nat → List Nat → List Nat)
    (ho : ∀ i k t l, (o i k t l).Perm l) (w : Mat (Ext ℝ)) (upd : Upd (Ext ℝ) (Sol (Ext ℝ))) (s : AsState (Ext ℝ)) :
    M G (AsState (Ext ℝ) × Round (Ext ℝ)) := do
  let b ← antSystemM R A goodness (o s.iter) (ho s.iter) s.ants s.ph
  let r ← M.ofExcept (finishRound A w upd s.upd b.2.1 b.2.2)
  pure (⟨s.iter + 1, b.1, r.1, r.2.ph⟩, r.2)

/-- Models `run` (src/aco.rs:77-89) with an `IterationCond` of limit `k` (see `C137_refines`): what the iterations
produced. -/
def runM (goodness : Mat (Ext ℝ) → Except Panic (Mat (Ext ℝ))) (o : Nat → Nat → Nat → List Nat → List Nat)
    (ho : ∀ i k t l, (o i k t l).Perm l) (w : Mat (Ext ℝ)) (upd : Upd (Ext ℝ) (Sol (Ext ℝ))) :
    Nat → AsState (Ext ℝ) → M G (List (Round (Ext ℝ)))
  | 0, _ => pure []
  | k + 1, s => do
    let r ← roundM R A goodness o ho w upd s
    let rs ← runM goodness o ho w upd k r.1
    pure (r.2 :: rs)

end
end Ecrs.Aco
