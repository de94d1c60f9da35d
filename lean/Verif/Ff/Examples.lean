import Verif.Ff.Ff
import Verif.Pso.Pso
import Verif.TestFunctions.Model
import Mathlib.Analysis.SpecialFunctions.Exp
import Mathlib.Analysis.SpecialFunctions.Pow.Real

/-!
# The firefly and PSO example programs (examples/ff.rs, ff_logging.rs, pso_multiple_probes.rs)

Exact real arithmetic (firefly: with infinities and NaN). Printing and writing the files are not modelled: a probe is the list of callbacks
it receives or its list of records.
-/

namespace Ecrs.Ff
open Ecrs

/-- `f64::powf(E, x)` and `f64::sqrt` in exact arithmetic. -/
noncomputable def expR : Ext ℝ → Ext ℝ
  | .fin x => .fin (Real.exp x)
  | .ninf => .fin 0
  | .pinf => .pinf
  | .nan => .nan

/-- See `expR`. -/
noncomputable def sqrtR : Ext ℝ → Ext ℝ
  | .fin x => if x < 0 then .nan else .fin (Real.sqrt x)
  | .ninf => .nan
  | .pinf => .pinf
  | .nan => .nan

/-- Exact real arithmetic with infinities and NaN; `f64::MAX = (2 - 2^(-52)) * 2^1023`. -/
noncomputable def opsR : FloatOps (Ext ℝ) (WithBot (WithTop ℝ)) := Ext.ops expR sqrtR ((2 ^ 53 - 1) * 2 ^ 971)

/-- Models `FireflyAlgorithmCfg::default` (src/ff.rs:48-64). -/
noncomputable def defaultCfg : Cfg (Ext ℝ) where
  dimensions := 2
  lower := .fin (-5)
  upper := .fin 5
  maxGenerations := 1000
  populationSize := 25
  alfa0 := .fin 1
  beta0 := .fin 1
  gamma := .fin (1 / 100)
  delta := .fin (97 / 100)

/-- Models `sphere` (src/test_functions/mod.rs:2426-2436) on a non-empty vector (all fireflies of the default algorithm have two
coordinates). -/
noncomputable def sphereR (x : List (Ext ℝ)) : Ext ℝ := x.foldl (fun r a => opsR.add r (opsR.sq a)) (.fin 0)

/-- Models `main` of examples/ff.rs (lines 5-9), with `FireflyAlgorithm::default` (src/ff.rs:77-92): `draw` are the draws of
`Population::from_config`. The result is the sequence of states and the callbacks of the probe. -/
noncomputable def ffMain (draw : Nat → Nat → Ext ℝ) (dr : Draws (Ext ℝ)) : Except Panic (List (St (Ext ℝ)) × List (Ev (Ext ℝ))) := do
  let pop ← fromConfig opsR defaultCfg draw
  run opsR defaultCfg sphereR (cartesian opsR) dr pop

/-- Models `main` of examples/ff_logging.rs (lines 11-26): what the two probes of the aggregated probe receive
(src/ff/probe/aggregated_probe.rs:22-51: every callback is passed to both), and the records the CSV probe writes. -/
noncomputable def loggingMain (draw : Nat → Nat → Ext ℝ) (dr : Draws (Ext ℝ)) : Except Panic (List (Ev (Ext ℝ)) × List (Nat × Ext ℝ)) := do
  let pop ← fromConfig opsR defaultCfg draw
  let (_, evs) ← run opsR defaultCfg sphereR (cartesian opsR) dr pop
  let received := intervalDriven 15 ⟨25, false⟩ evs
  pure (received, (received.foldl recStep ⟨0, .fin 0, [], []⟩).records.map fun r => (r.1, r.2.1))

end Ecrs.Ff

namespace Ecrs.Pso
open Ecrs

/-- The default objective `rosenbrock` (src/test_functions/mod.rs:2085-2095) as a PSO objective; its panic on vectors shorter than two is
not modelled here (the example has three coordinates). -/
noncomputable def rosenbrockR (x : List ℝ) : Fl ℝ :=
  match TF.rosenbrock x with
  | .ok v => .num v
  | .error _ => .nan

/-- Models `PSOAlgorithmCfg::default` (src/pso.rs:46-61); the termination condition is a generation limit. -/
noncomputable def defaultCfg : Cfg ℝ (List ℝ → Fl ℝ) Nat where
  dimensions := 2
  lower := -10
  upper := 10
  count := 30
  coeffs := ⟨1 / 2, 1, 3⟩
  function := rosenbrockR
  term := 500

/-- Models `main` of examples/pso_multiple_probes.rs (lines 5-24): the final swarm, the callbacks all three probes receive
(src/pso/probe/aggregated_probe.rs:22-40), and the records of the CSV and the JSON probe. `draw0` are the draws of `Swarm::generate`,
`draw` those of the iterations; `fuel` bounds the loop (any value above 2000 gives the same). -/
noncomputable def multipleProbesMain (draw0 : Nat → Nat → ℝ × ℝ) (draw : Nat → Nat → Nat → ℝ × ℝ) (fuel : Nat) :
    M Unit (Swarm ℝ ℝ × List (Ev ℝ ℝ) × List (Nat × Fl ℝ) × List (Nat × Fl ℝ × List ℝ)) := do
  let c := [Setter.dimensions 3, Setter.term 2000].foldl Setter.apply defaultCfg
  let s ← M.ofExcept (c.build abs draw0)
  let (s', evs) ← run (generationLimit c.term) c.coeffs c.function draw fuel s
  let (received, _) ← policyDriven (generationInterval 50) 0 evs
  pure (s', received, csvRecords received, jsonRecords received)

end Ecrs.Pso
