import Verif.Ff.Examples
import Verif.Aco.Tsp
import Verif.Props.AcoMetric
import Verif.Props.ProbAcoRun

/-!
# The benchmark programs (benches/aco_bench.rs, benches/ff_bench.rs)

What one iteration of each benchmark executes; the measuring itself (criterion) is not modelled. Exact real arithmetic; the decimal
constants are the numbers written in the source, not the nearest `f64`.
-/

namespace Ecrs.Benches
open Ecrs

/-! ## benches/aco_bench.rs -/

section aco
open Ecrs.Aco

/-- Models `CITIES_5` (benches/aco_bench.rs:98-104). -/
def cities5 : List (ℚ × ℚ) := [
  (35.940008207230115, 74.07029520995907),
  (62.94267436518637, 72.40259837871687),
  (61.183807718335046, 70.20878271639623),
  (24.031479914616625, 24.53073532750132),
  (86.12206741911965, 66.20895811496419)]

/-- Models `CITIES_15` (benches/aco_bench.rs:106-122). -/
def cities15 : List (ℚ × ℚ) := [
  (18.065450068857935, 88.71382504540846),
  (39.23620808476569, 81.44965158009457),
  (76.75290449417722, 11.061355377746839),
  (18.514245047506538, 50.4579016607233),
  (67.62017702874621, 60.273441999250025),
  (90.54341436801035, 26.047316687118503),
  (74.55222239828714, 91.10875833150453),
  (24.449575356592447, 69.18499769705073),
  (15.060399162180271, 13.977951744369754),
  (83.69681323875658, 25.683306252468196),
  (59.033928897278656, 52.920644309526075),
  (72.85313559195792, 41.02287752019873),
  (25.70405119619188, 6.984200996335677),
  (74.79935959893629, 89.80620989883252),
  (3.3953339453155706, 11.464492662696578)]

/-- The city with index `i` as a pair of exact numbers (index in range in all uses). -/
noncomputable def city (cities : List (ℝ × ℝ)) (i : Nat) : Ext ℝ × Ext ℝ := (.fin (cities.getD i (0, 0)).1, .fin (cities.getD i (0, 0)).2)

/-- The arithmetic: exact, with the real square root and power function. -/
noncomputable abbrev opsAco : AcoOps (Ext ℝ) (WithBot (WithTop ℝ)) := exactOps realSqrt rpow ((2 ^ 53 - 1) * 2 ^ 971) fun x => ⌊x⌋₊

/-- Models the closure of `bench_aco_small` and `bench_aco_medium` (benches/aco_bench.rs:8-35, 37-64) for a list of cities, with
`calc_dist` (lines 78-96), which is the loop of `generate_tsp_cost`: five canonical ants, alpha = beta = 2, pheromone 1 everywhere, Ant
System update with evaporation 0.1, 20 iterations. `d` are the draws, `best0` the initial best solution (`Solution::default`). -/
noncomputable def acoBench (cities : List (ℝ × ℝ)) (d : Draws (Ext ℝ)) (fuel : Nat) :
    Except Panic (List (Event (Ext ℝ) (Mat (Ext ℝ))) × Outcome) := do
  let dist ← tspCost opsAco cities.length (city cities)
  let heu := heuristic opsAco dist
  let ants := List.replicate 5 (Ant.canonical cities.length)
  pure (runIterations opsAco (tspAntSystem opsAco (canonicalGoodness opsAco (.fin 2) (.fin 2) heu) d dist (.fin (1 / 10))) fuel ⟨0, 20⟩
    ⟨(0, ants), (), Sol.default opsAco, ⟨heu.rows, heu.cols, fun _ _ => .fin 1⟩⟩)

end aco

/-! ## benches/ff_bench.rs -/

section ff
open Ecrs.Ff

/-- Models `small_flies` (benches/ff_bench.rs:10-21). -/
def smallFlies : List (ℚ × ℚ) := [
  (-2.474902112144155, -2.1536362875740656),
  (3.8653951722920947, -2.2201668468609492),
  (1.0164102881219117, 2.4781280669119106),
  (-1.8121615279105852, 4.230286526263365),
  (-1.998471672021862, 4.761704776832321),
  (-1.1717511819365445, 0.7299195422915394),
  (4.613365867671519, -4.793012151227323),
  (0.5309418654536424, -4.905729640670433),
  (-0.4076064672067625, 2.83010735845669),
  (-2.2161403148671166, 2.3316005653614074)]

/-- Models `large_flies` (benches/ff_bench.rs:39-60). -/
def largeFlies : List (ℚ × ℚ) := [
  (-1.096708672217388, -2.4925081992981424),
  (-2.217337470948857, 3.6870274697138132),
  (-0.5852573654914313, 2.07858190306019),
  (0.8350311263010237, 4.421696428877633),
  (1.2307497294588217, -1.2977275040319713),
  (-3.5081747701421584, -0.4808682266114639),
  (1.4807090950339656, -4.788982665002752),
  (3.347601243782389, 3.0122589325288303),
  (3.4764538073705094, -3.825105981058119),
  (2.8574385462155742, -4.5813285576664935),
  (-1.0634170839022516, -1.5550446535187246),
  (4.368547372209592, -1.844392848116263),
  (4.591698838864467, -0.24383904791121225),
  (1.0546699882061494, -4.931426872497509),
  (3.0790434931189523, -4.032090346414607),
  (3.2499260908143235, -4.836103255306432),
  (1.2360537193135706, -2.345959946755356),
  (-4.43928824672243, 3.5531369052833455),
  (0.42897629844825147, -1.4553283223745361),
  (-4.70002080799667, 4.109159099580671)]

/-- Models `Population::from_vector` on such a list. -/
noncomputable def positions (l : List (ℚ × ℚ)) : List (List (Ext ℝ)) := l.map fun p => [.fin (p.1 : ℝ), .fin (p.2 : ℝ)]

/-- Models the closures of `ff_bench_quarter`, `ff_bench_half`, `ff_bench_full` (benches/ff_bench.rs:78-124): the default algorithm with
another number of generations. -/
noncomputable def ffBench (generations : Nat) (draw : Nat → Nat → Ext ℝ) (dr : Draws (Ext ℝ)) :
    Except Panic (List (St (Ext ℝ)) × List (Ev (Ext ℝ))) := do
  let pop ← fromConfig opsR defaultCfg draw
  run opsR { defaultCfg with maxGenerations := generations } sphereR (cartesian opsR) dr pop

/-- Models the closure of `ff_bench_preset_small` (benches/ff_bench.rs:9-36; not registered in `criterion_group!`): 500 generations, the
ten fireflies given, the other settings the default ones. -/
noncomputable def presetSmall (dr : Draws (Ext ℝ)) : Except Panic (List (St (Ext ℝ)) × List (Ev (Ext ℝ))) :=
  run opsR { defaultCfg with maxGenerations := 500 } sphereR (cartesian opsR) dr (positions smallFlies)

/-- Models the closure of `preset_large` (benches/ff_bench.rs:38-76; not registered in `criterion_group!`): population size 20 and the
twenty fireflies given. -/
noncomputable def presetLarge (dr : Draws (Ext ℝ)) : Except Panic (List (St (Ext ℝ)) × List (Ev (Ext ℝ))) :=
  run opsR { defaultCfg with populationSize := 20 } sphereR (cartesian opsR) dr (positions largeFlies)

end ff
end Ecrs.Benches
