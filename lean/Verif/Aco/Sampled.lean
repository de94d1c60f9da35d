import Verif.Aco.Aco
import Verif.Basic
import Mathlib.Data.Real.Basic

/-!
# The ants with their random number generator

`Aco/Tsp.lean` takes the draws of an iteration as an argument; here they are drawn from a generator when they are needed.
The iteration orders of the hash sets stay given (`o`).  Exact real arithmetic; `gen_range(0.0..=s)` is `s` times a draw
from the unit interval.  All ants share one generator (`ThreadRng`).
-/

namespace Ecrs.Aco
open Ecrs

noncomputable section

variable {G : Type} (R : Rng G ℝ) (A : AcoOps (Ext ℝ) (WithBot (WithTop ℝ)))

/-- `gen_range(0.0..=s)` (src/aco/tsp/ant.rs:102, 207) from a draw of the unit interval. -/
def scaled (w : ℝ) : Ext ℝ → Ext ℝ
  | .fin s => .fin (s * w)
  | _ => .nan

/-- The draws of one step with the hash set order `o`. -/
def stepDraw (o : List Nat → List Nat) (ho : ∀ l, (o l).Perm l) (u w : ℝ) : StepDraw (Ext ℝ) := ⟨o, ho, .fin u, scaled w⟩

/-- Models `go_to_next_place` (src/aco/tsp/ant.rs:83-120 and 176-226) with its generator: a stuck ant draws nothing, an
exploiting ant draws `gen::<f64>()` and then, if it does not exploit, the number of the roulette. -/
def Ant.goNextM (g : Mat (Ext ℝ)) (o : List Nat → List Nat) (ho : ∀ l, (o l).Perm l) (a : Ant (Ext ℝ)) :
    M G (Ant (Ext ℝ) × (Nat × Nat)) :=
  if a.stuck then M.ofExcept (a.goNext A g (stepDraw o ho 0 0))
  else
    match a.exploit with
    | none => do
      let w ← R.genUnit
      M.ofExcept (a.goNext A g (stepDraw o ho 0 w))
    | some rate => do
      let u ← R.genUnit
      if A.lt (.fin u) rate then M.ofExcept (a.goNext A g (stepDraw o ho u 0))
      else do
        let w ← R.genUnit
        M.ofExcept (a.goNext A g (stepDraw o ho u w))

/-- `n` calls of `go_to_next_place`, starting with step `t` (src/aco/tsp/ants_behaviour.rs:44-46). -/
def Ant.walkM (g : Mat (Ext ℝ)) (o : Nat → List Nat → List Nat) (ho : ∀ t l, (o t l).Perm l) :
    Nat → Nat → Ant (Ext ℝ) → M G (Ant (Ext ℝ))
  | _, 0, a => pure a
  | t, n + 1, a => do
    let r ← a.goNextM R A g (o t) (ho t)
    Ant.walkM g o ho (t + 1) n r.1

/-- `clear` and `chose_staring_place`, which draws `gen_range(0..solution_size)` (src/aco/tsp/ant.rs:23-39). -/
def startM (a : Ant (Ext ℝ)) : M G (Ant (Ext ℝ)) := do
  let s ← R.genRange 0 a.size
  M.ofExcept (a.clear.start s)

/-- One ant of `AntSystemAB` (src/aco/tsp/ants_behaviour.rs:42-46). -/
def oneAntM (g : Mat (Ext ℝ)) (n : Nat) (o : Nat → List Nat → List Nat) (ho : ∀ t l, (o t l).Perm l) (a : Ant (Ext ℝ)) :
    M G (Ant (Ext ℝ)) := do
  let a1 ← startM R a
  Ant.walkM R A g o ho 0 (n - 1) a1

/-- Models the loop of `AntSystemAB` (src/aco/tsp/ants_behaviour.rs:41-53) over the ants `k, k+1, …`. -/
def asLoopM (g : Mat (Ext ℝ)) (n : Nat) (o : Nat → Nat → List Nat → List Nat) (ho : ∀ k t l, (o k t l).Perm l) :
    Nat → List (Ant (Ext ℝ)) → M G (List (Ant (Ext ℝ)) × List (List Nat))
  | _, [] => pure ([], [])
  | k, a :: as => do
    let a' ← oneAntM R A g n (o k) (ho k) a
    if a'.stuck then pure (a' :: as, [])
    else do
      let r ← asLoopM g n o ho (k + 1) as
      pure (a' :: r.1, a'.path :: r.2)

/-- Models `AntSystemAB::simulate_ants` (src/aco/tsp/ants_behaviour.rs:31-56). -/
def antSystemM (goodness : Mat (Ext ℝ) → Except Panic (Mat (Ext ℝ))) (o : Nat → Nat → List Nat → List Nat)
    (ho : ∀ k t l, (o k t l).Perm l) (ants : List (Ant (Ext ℝ))) (ph : Mat (Ext ℝ)) :
    M G (List (Ant (Ext ℝ)) × List (List Nat) × Mat (Ext ℝ)) := do
  let g ← M.ofExcept (goodness ph)
  let r ← asLoopM R A g ph.rows o ho 0 ants
  pure (r.1, r.2, ph)

/-- `clear` and `chose_staring_place` for all ants (src/aco/tsp/ants_behaviour.rs:76-79). -/
def startAllM : List (Ant (Ext ℝ)) → M G (List (Ant (Ext ℝ)))
  | [] => pure []
  | a :: as => do
    let a' ← startM R a
    let as' ← startAllM as
    pure (a' :: as')

/-- The inner loop of `AntColonySystemAB` (src/aco/tsp/ants_behaviour.rs:86-94): one step of every ant that is not
stuck; `o k` is the hash set order of ant `k`. -/
def acsStepM (g : Mat (Ext ℝ)) (o : Nat → List Nat → List Nat) (ho : ∀ k l, (o k l).Perm l) :
    Nat → List (Ant (Ext ℝ)) → M G (List (Ant (Ext ℝ)) × List (List Nat))
  | _, [] => pure ([], [])
  | k, a :: as =>
    if a.stuck then do
      let r ← acsStepM g o ho (k + 1) as
      pure (a :: r.1, r.2)
    else do
      let a' ← a.goNextM R A g (o k) (ho k)
      let r ← acsStepM g o ho (k + 1) as
      pure (a'.1 :: r.1, a'.1.path :: r.2)

/-- The outer loop of `AntColonySystemAB` (src/aco/tsp/ants_behaviour.rs:83-96), `m` more steps. -/
def acsLoopM (goodness : Mat (Ext ℝ) → Except Panic (Mat (Ext ℝ))) (l : LocalRule (Ext ℝ))
    (o : Nat → Nat → List Nat → List Nat) (ho : ∀ k t l, (o k t l).Perm l) :
    Nat → Nat → List (Ant (Ext ℝ)) → List (List Nat) → Mat (Ext ℝ) →
      M G (List (Ant (Ext ℝ)) × List (List Nat) × Mat (Ext ℝ))
  | _, 0, ants, paths, ph => pure (ants, paths, ph)
  | t, m + 1, ants, _, ph => do
    let g ← M.ofExcept (goodness ph)
    let r ← acsStepM R A g (fun k => o k t) (fun k => ho k t) 0 ants
    let ph' ← M.ofExcept (l.apply A r.2 ph)
    acsLoopM goodness l o ho (t + 1) m r.1 r.2 ph'

/-- Models `AntColonySystemAB::simulate_ants` (src/aco/tsp/ants_behaviour.rs:68-98). -/
def antColonySystemM (goodness : Mat (Ext ℝ) → Except Panic (Mat (Ext ℝ))) (l : LocalRule (Ext ℝ))
    (o : Nat → Nat → List Nat → List Nat) (ho : ∀ k t l, (o k t l).Perm l) (ants : List (Ant (Ext ℝ)))
    (ph : Mat (Ext ℝ)) : M G (List (Ant (Ext ℝ)) × List (List Nat) × Mat (Ext ℝ)) := do
  let ants' ← startAllM R ants
  acsLoopM R A goodness l o ho 0 (ph.rows - 1) ants' [] ph

end

end Ecrs.Aco
