import Verif.Ga.Selection
import Verif.Ga.Solver
import Verif.Ff.Arith
import Mathlib.Analysis.SpecialFunctions.Pow.Real

/-!
# Boltzmann selection: temperature, weights, weighted sampling

`Ga/Selection.lean` takes the weights and the weighted sampling as given; here both are spelled out.  Numbers are exact reals with
infinities and NaN (`Ext ℝ`): no rounding, no underflow.
-/

namespace Ecrs
open Ecrs.Ga

noncomputable section

/-- `f64::exp`. -/
def Ext.exp : Ext ℝ → Ext ℝ
  | .nan => .nan
  | .ninf => .fin 0
  | .fin x => .fin (Real.exp x)
  | .pinf => .pinf

/-- `base.powf(k)` for a base in `[0, 1]` and `k ≥ 1` (or infinite, or NaN): `1` to any power is `1`, also to NaN; a smaller base
to the power `∞` is `0`. -/
def powf01 (base : ℝ) (k : Ext ℝ) : Ext ℝ :=
  if base = 1 then .fin 1 else
  match k with
  | .fin k => .fin (base ^ k)
  | .pinf => .fin 0
  | .ninf => .pinf
  | .nan => .nan

/-- Models `k` in `Boltzmann::apply` (src/ga/operators/selection/impls.rs:681). -/
def boltzmannK (maxGen gen : Nat) : Ext ℝ :=
  Ext.add (.fin 1) (Ext.div (Ext.mul (.fin 100) (.fin gen)) (.fin maxGen))

/-- Models `temp` in `Boltzmann::apply` (src/ga/operators/selection/impls.rs:682). -/
def boltzmannTemp (alpha temp0 : ℝ) (maxGen gen : Nat) : Ext ℝ :=
  Ext.mul (.fin temp0) (powf01 (1 - alpha) (boltzmannK maxGen gen))

/-- Models the weight of an individual in `Boltzmann::apply` (src/ga/operators/selection/impls.rs:684-686). -/
def boltzmannWeight (temp fitness : Ext ℝ) : Ext ℝ := Ext.exp (Ext.div (Ext.neg fitness) temp)

/-- The order in which a `BinaryHeap` of the keys is emptied: largest first; the order of equal keys is left open. -/
structure HeapOrder where
  order : List ℝ → List Nat
  perm : ∀ ks, (order ks).Perm (List.range ks.length)
  sorted : ∀ ks, (order ks).Pairwise fun i j => ks.getD j 0 ≤ ks.getD i 0

/-- `rng.gen::<f64>().powf(1.0 / weight)` in `sample_weighted` of rand 0.8.5 for a weight that is not NaN or negative, where
`u ∈ [0, 1)`: `1/0 = ∞` and `u^∞ = 0`; `1/∞ = 0` and `u^0 = 1`. -/
def keyOf (u : ℝ) : Ext ℝ → ℝ
  | .fin w => if w = 0 then 0 else u ^ (1 / w)
  | .pinf => 1
  | _ => 0

/-- `!(weight >= 0.)` in `sample_weighted` of rand 0.8.5. -/
def badWeight : Ext ℝ → Prop
  | .fin w => w < 0
  | .pinf => False
  | _ => True

instance : DecidablePred badWeight := fun _ => Classical.propDecidable _

variable {G I : Type} (R : Rng G ℝ) (H : HeapOrder)

/-- The loop of `sample_weighted` of rand 0.8.5 (crate source; called in src/ga/operators/selection/impls.rs:688-692) over the
indices: one draw per index, `Err` on a bad weight (the caller panics). -/
def weightedKeys : List (Ext ℝ) → M G (List ℝ)
  | [] => pure []
  | w :: ws =>
    if badWeight w then M.fail .libError
    else do
      let u ← R.genUnit
      let ks ← weightedKeys ws
      pure (keyOf u w :: ks)

/-- `rand::seq::index::sample_weighted` of rand 0.8.5 (crate source): nothing to sample; too many; otherwise the indices of the
`amount` largest keys. -/
def sampleWeighted (ws : List (Ext ℝ)) (amount : Nat) : M G (List Nat) :=
  if amount = 0 then pure []
  else if ws.length < amount then M.fail .libError
  else do
    let ks ← weightedKeys R ws
    pure ((H.order ks).take amount)

/-- Models `Boltzmann::apply` (src/ga/operators/selection/impls.rs:676-699); `count` is `self.selection_size.get(metrics)`. -/
def boltzmannApply (alpha temp0 : ℝ) (maxGen count : Nat) (fitness : I → Ext ℝ) (m : Metrics) (pop : List I) : M G (List I) := do
  let is ← sampleWeighted R H (pop.map fun x => boltzmannWeight (boltzmannTemp alpha temp0 maxGen m.generation) (fitness x)) count
  M.forEach (idx pop) is

end
end Ecrs
