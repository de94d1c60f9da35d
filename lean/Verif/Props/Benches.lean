import Verif.Benches
import Verif.Props.AcoRun
import Verif.Props.AcoAcs
import Verif.Props.FfExamples

/-!
# Property C156: what the benchmark programs run
-/

set_option linter.unusedSectionVars false

namespace Ecrs.Ff
open Ecrs

variable {X K : Type} [LinearOrder K] {A : FloatOps X K}

/-- **C156, too few fireflies.** Setting a population of fewer fireflies than `population_size` (and at least one) makes the first generation
panic, for every objective, distance function, configuration and draws. -/
theorem C156_too_few_panics {c : Cfg X} {f : List X → X} {dist : List X → List X → Except Panic X} {dr : Draws X} {pop : List (List X)}
    (hne : pop ≠ []) (hlt : pop.length < c.populationSize) (hgen : 0 < c.maxGenerations) : ∃ e, run A c f dist dr pop = .error e := by
  have hpos : 0 < pop.length := List.length_pos_iff.2 hne
  cases hr : run A c f dist dr pop with
  | error e => exact ⟨e, rfl⟩
  | ok r =>
    exfalso
    obtain ⟨sts, evs⟩ := r
    unfold run at hr
    obtain ⟨⟨sts', e⟩, g1, -⟩ := except_bind_ok.1 hr
    obtain ⟨n, hn⟩ : ∃ n, c.maxGenerations = n + 1 := ⟨c.maxGenerations - 1, by omega⟩
    rw [hn] at g1
    obtain ⟨st', e1, sts'', evs', -, -, g2, -⟩ := generations_ok g1
    obtain ⟨x, hm, -⟩ := generation_ok g2
    obtain ⟨-, hk⟩ := moveAll_ok hm
    obtain ⟨y, -, hmv⟩ := hk 0 (by show 0 < pop.length; omega)
    unfold moveFirefly at hmv
    obtain ⟨x0, -, hmv⟩ := except_bind_ok.1 hmv
    obtain ⟨r, hc, -⟩ := except_bind_ok.1 hmv
    have key : ∀ (n j : Nat) (st r : List X × Bool),
        consider A c dist dr 0 (0 + 0) (initial A c f pop).alfa (initial A c f pop).bright (initial A c f pop).pop j n st = .ok r →
        j + n ≤ (initial A c f pop).bright.length ∨ n = 0 := by
      intro n
      induction n with
      | zero => intro j st r _; exact .inr rfl
      | succ n ih =>
        intro j st r h
        left
        rw [consider] at h
        obtain ⟨st', h3, h4⟩ := except_bind_ok.1 h
        unfold considerOne at h3
        obtain ⟨bi, -, h3⟩ := except_bind_ok.1 h3
        obtain ⟨bj, e2, -⟩ := except_bind_ok.1 h3
        have := (List.getElem?_eq_some_iff.1 (index_ok.1 e2)).1
        rcases ih _ _ _ h4 with h5 | h5
        · omega
        · omega
    have hbl : (initial A c f pop).bright.length = pop.length := by simp [initial, brightness]
    rcases key _ _ _ _ hc with h5 | h5 <;> omega

/-- The number of generations is used by the outer loop only. -/
theorem generation_maxGenerations {c : Cfg X} {f : List X → X} {dist : List X → List X → Except Panic X} {dr : Draws X} (m g : Nat) (st : St X) :
    generation A { c with maxGenerations := m } f dist dr g st = generation A c f dist dr g st := by
  have hd : ∀ (alfa const1 gen : X) (u s : Nat → X) (t xs : List X) (d : Nat),
      moveDims A { c with maxGenerations := m } alfa const1 gen u s t d xs = moveDims A c alfa const1 gen u s t d xs := by
    intro alfa const1 gen u s t xs
    induction xs with
    | nil => intro d; rfl
    | cons x xs ih => intro d; rw [moveDims, moveDims]; simp only [ih]; rfl
  have hone : ∀ (i : Nat) (alfa : X) (bright : List X) (pop : List (List X)) (j : Nat) (st : List X × Bool),
      considerOne A { c with maxGenerations := m } dist dr g i alfa bright pop j st = considerOne A c dist dr g i alfa bright pop j st := by
    intro i alfa bright pop j st
    unfold considerOne
    simp only [hd]
    rfl
  have hc : ∀ (i : Nat) (alfa : X) (bright : List X) (pop : List (List X)) (n j : Nat) (st : List X × Bool),
      consider A { c with maxGenerations := m } dist dr g i alfa bright pop j n st = consider A c dist dr g i alfa bright pop j n st := by
    intro i alfa bright pop n
    induction n with
    | zero => intro j st; rfl
    | succ n ih => intro j st; rw [consider, consider]; simp only [ih, hone]
  have hb : ∀ (alfa : X) (b : Nat → X) (xs : List X) (d : Nat),
      brownian A { c with maxGenerations := m } alfa b d xs = brownian A c alfa b d xs := by
    intro alfa b xs
    induction xs with
    | nil => intro d; rfl
    | cons x xs ih => intro d; rw [brownian, brownian, ih]; rfl
  have hf : ∀ (alfa : X) (bright : List X) (pop : List (List X)) (i : Nat),
      moveFirefly A { c with maxGenerations := m } dist dr g alfa bright pop i = moveFirefly A c dist dr g alfa bright pop i := by
    intro alfa bright pop i
    unfold moveFirefly
    simp only [hc, hb]
  have hm : ∀ (alfa : X) (bright : List X) (pop : List (List X)) (n i : Nat),
      moveAll A { c with maxGenerations := m } dist dr g alfa bright pop i n = moveAll A c dist dr g alfa bright pop i n := by
    intro alfa bright pop n
    induction n with
    | zero => intro i; rfl
    | succ n ih => intro i; rw [moveAll, moveAll]; simp only [ih, hf]
  unfold generation
  rw [hm]

theorem generations_take {c c' : Cfg X} {f : List X → X} {dist : List X → List X → Except Panic X} {dr : Draws X}
    (h : ∀ g st, generation A c f dist dr g st = generation A c' f dist dr g st) : ∀ (k n g : Nat) (st : St X) (sts : List (St X))
    (evs : List (Ev X)), generations A c' f dist dr g (k + n) st = .ok (sts, evs) → ∃ rest revs,
      generations A c f dist dr g k st = .ok (sts.take k, rest) ∧ evs = rest ++ revs ∧ sts.length = k + n
  | 0, n, g, st, sts, evs, hr => by
    refine ⟨[], evs, rfl, rfl, ?_⟩
    clear h
    induction n generalizing g st sts evs with
    | zero => cases hr; rfl
    | succ n ih =>
      obtain ⟨st', e, sts', evs', rfl, rfl, -, g2⟩ := generations_ok (show generations A c' f dist dr g ((0 + n) + 1) st = _ from hr)
      have := ih _ _ _ _ g2
      simp only [List.length_cons]
      omega
  | k + 1, n, g, st, sts, evs, hr => by
    obtain ⟨st', e, sts', evs', rfl, rfl, g1, g2⟩ := generations_ok (show generations A c' f dist dr g ((k + n) + 1) st = _ by
      rw [← hr]; congr 1; omega)
    obtain ⟨rest, revs, r1, rfl, r3⟩ := generations_take h k n (g + 1) st' sts' evs' g2
    refine ⟨e ++ rest, revs, ?_, by rw [List.append_assoc], by simp only [List.length_cons]; omega⟩
    rw [generations, except_bind_of_ok ((h g st).trans g1)]
    simp only
    rw [except_bind_of_ok r1]
    rfl

/-- **C156, generations form a prefix.** Running the algorithm with `k` generations does exactly what the first `k` generations of a longer
run with the same draws do: same states, same callbacks (apart from the final `on_end`). So the value the longer run reports last is at
least as good, and the work of the shorter run is part of the work of the longer one. -/
theorem C156_prefix {c : Cfg X} {f : List X → X} {dist : List X → List X → Except Panic X} {dr : Draws X} {pop : List (List X)} {k n : Nat}
    {sts : List (St X)} {evs : List (Ev X)} (hk : k ≤ n) (hr : run A { c with maxGenerations := n } f dist dr pop = .ok (sts, evs)) :
    sts.length = n ∧ ∃ short rest, run A { c with maxGenerations := k } f dist dr pop = .ok (sts.take k, short ++ [.onEnd]) ∧
      evs = short ++ rest ++ [.onEnd] := by
  unfold run at hr
  obtain ⟨⟨sts', e⟩, g1, g2⟩ := except_bind_ok.1 hr
  rw [except_pure_ok] at g2
  cases g2
  obtain ⟨m, rfl⟩ : ∃ m, n = k + m := ⟨n - k, by omega⟩
  obtain ⟨rest, revs, r1, rfl, r3⟩ := generations_take (A := A) (c := { c with maxGenerations := k }) (c' := { c with maxGenerations := k + m })
    (f := f) (dist := dist) (dr := dr) (fun g st => (generation_maxGenerations k g st).trans (generation_maxGenerations (k + m) g st).symm) k m 0 _ _ _ g1
  refine ⟨r3, .onStart :: rest, revs, ?_, by simp⟩
  unfold run
  rw [except_bind_of_ok (show generations A { c with maxGenerations := k } f dist dr 0 k (initial A { c with maxGenerations := k } f pop) = _
    from r1)]
  rfl

end Ecrs.Ff

namespace Ecrs.Benches
open Ecrs

/-! ## benches/ff_bench.rs -/

section ff
open Ecrs.Ff

/-- **C156, firefly benchmarks.** The benchmarks with 250, 500 and 1000 generations never panic; for the same draws the shorter ones do
exactly the first 250 and 500 generations of the longest, which is the program of examples/ff.rs. -/
theorem C156_ff_bench (p : Nat → Nat → ℝ) (dr : Draws (Ext ℝ)) :
    ∃ sts evs, ffMain (fun i d => .fin (p i d)) dr = .ok (sts, evs) ∧ sts.length = 1000 ∧
      ffBench 1000 (fun i d => .fin (p i d)) dr = .ok (sts, evs) ∧
      ∀ k ≤ 1000, ∃ short rest, ffBench k (fun i d => .fin (p i d)) dr = .ok (sts.take k, short ++ [.onEnd]) ∧
        evs = short ++ rest ++ [.onEnd] := by
  obtain ⟨⟨sts, evs⟩, hr⟩ := C80_run_returns (A := opsR) (f := sphereR) (dr := dr) cartesian_returns (start_good p)
  have hp := fun k (hk : k ≤ 1000) => C156_prefix (c := defaultCfg) (k := k) (n := 1000) hk hr
  refine ⟨sts, evs, ?_, (hp 0 (by omega)).1, ?_, fun k hk => ?_⟩
  · unfold ffMain
    rw [fromConfig_default, except_bind_of_ok rfl, hr]
  · unfold ffBench
    rw [fromConfig_default, except_bind_of_ok rfl]
    exact hr
  · obtain ⟨short, rest, h1, h2⟩ := (hp k hk).2
    refine ⟨short, rest, ?_, h2⟩
    unfold ffBench
    rw [fromConfig_default, except_bind_of_ok rfl, h1]

/-- **C156, preset small.** `ff_bench_preset_small` gives ten fireflies and leaves `population_size` at 25: it panics, for all draws. -/
theorem C156_preset_small_panics (dr : Draws (Ext ℝ)) : ∃ e, presetSmall dr = .error e :=
  C156_too_few_panics (by simp [positions, smallFlies]) (by simp [positions, smallFlies, defaultCfg]) (by simp)

/-- **C156, preset large.** `preset_large` sets the population size too: it returns after 1000 generations. -/
theorem C156_preset_large_returns (dr : Draws (Ext ℝ)) : ∃ sts evs, presetLarge dr = .ok (sts, evs) ∧ sts.length = 1000 := by
  obtain ⟨⟨sts, evs⟩, hr⟩ := C80_run_returns (A := opsR) (f := sphereR) (dr := dr) (c := { defaultCfg with populationSize := 20 })
    (pop := positions largeFlies) cartesian_returns ⟨by simp [positions, largeFlies], by simp [positions, largeFlies], by
      intro x hx
      obtain ⟨q, -, rfl⟩ := List.mem_map.1 hx
      rfl⟩
  exact ⟨sts, evs, hr, (C156_prefix (c := { defaultCfg with populationSize := 20 }) (k := 0) (n := 1000) (by omega) hr).1⟩

/-- Concrete draws. -/
noncomputable def someDraws : Draws (Ext ℝ) := ⟨fun _ _ _ _ => .fin (1 / 2), fun _ _ _ _ => .fin (1 / 2), fun _ _ _ => .fin 0⟩

example := C156_preset_small_panics someDraws

/-- The long run exists, and its first 250 generations are the short run. -/
example : ∃ sts evs short rest, run opsR { defaultCfg with maxGenerations := 1000 } sphereR (cartesian opsR) someDraws
      ((start fun _ _ => 1).map fun x => x.map .fin) = .ok (sts, evs) ∧
    run opsR { defaultCfg with maxGenerations := 250 } sphereR (cartesian opsR) someDraws ((start fun _ _ => 1).map fun x => x.map .fin) =
      .ok (sts.take 250, short ++ [.onEnd]) ∧ evs = short ++ rest ++ [.onEnd] := by
  obtain ⟨⟨sts, evs⟩, hr⟩ := C80_run_returns (A := opsR) (f := sphereR) (dr := someDraws) cartesian_returns (start_good fun _ _ => 1)
  obtain ⟨short, rest, h1, h2⟩ := (C156_prefix (c := defaultCfg) (k := 250) (n := 1000) (by omega) hr).2
  exact ⟨sts, evs, short, rest, hr, h1, h2⟩

end ff

/-! ## benches/aco_bench.rs -/

section aco
open Ecrs.Aco

theorem rpow_two_pos : PowPos rpow (.fin 2) := fun x hx => ⟨x ^ (2 : ℝ), rfl, Real.rpow_pos_of_pos hx 2⟩

/-- **C156, ACO benchmarks.** The benchmark closure, for any list of at least two pairwise different cities, any draws in their ranges and
any hash set order: it performs exactly 20 iterations without a panic; each reported best is a tour of all cities with fitness
`1 / length`, the length being the sum of Euclidean distances; each reported pheromone is positive and symmetric. -/
theorem C156_aco_bench (cities : List (ℝ × ℝ)) (h2 : 2 ≤ cities.length) (hnd : cities.Nodup) (d : Draws (Ext ℝ))
    (hd : ∀ i k t, RangeOk ((d i).step k t)) (fuel : Nat) (hf : 20 < fuel) :
    ∃ recs : List (Sol (Ext ℝ) × Mat (Ext ℝ)), recs.length = 20 ∧
      acoBench cities d fuel = .ok (recs.flatMap block ++ [.finish], .done) ∧
      ∀ r ∈ recs, GradedTour cities.length (fun a b => dist (point (cities.getD a (0, 0))) (point (cities.getD b (0, 0)))) r.1 ∧
        AllPos cities.length r.2 ∧ Sym cities.length r.2 := by
  obtain ⟨w, ds, e1, e2, e3, e4, e5, -, e7, -⟩ := C94_euclidean rpow ((2 ^ 53 - 1) * 2 ^ 971) (fun x => ⌊x⌋₊) cities.length
    (fun i => cities.getD i (0, 0))
  have hds : ds = fun a b => dist (point (cities.getD a (0, 0))) (point (cities.getD b (0, 0))) := funext fun a => funext fun b => e5 a b
  have hpos : ∀ i j, i < cities.length → j < cities.length → i ≠ j → 0 < ds i j := by
    intro i j hi hj hij
    refine lt_of_le_of_ne (by rw [e5]; exact dist_nonneg) fun h0 => hij ?_
    have := (e7 i j).1 h0.symm
    rw [List.getD_eq_getElem _ _ hi, List.getD_eq_getElem _ _ hj] at this
    exact (List.Nodup.getElem_inj_iff hnd).1 this
  have hi : Instance cities.length w ds := ⟨h2, ⟨e2, e3, fun a b => e4 a b⟩, hpos⟩
  have hH := C94_heuristic_positive realSqrt rpow ((2 ^ 53 - 1) * 2 ^ 971) (fun x => ⌊x⌋₊) (n := cities.length) (w := w)
    ⟨e2, e3, fun i j hi hj hij => ⟨ds i j, e4 i j hi hj, hpos i j hi hj hij⟩⟩
  obtain ⟨recs, r1, r2, r3⟩ := C91_ant_system_run realSqrt rpow ((2 ^ 53 - 1) * 2 ^ 971) (fun x => ⌊x⌋₊) (by positivity) hi
    (goodness := canonicalGoodness opsAco (.fin 2) (.fin 2) (heuristic opsAco w))
    (fun m hm => C88_goodness_positive _ _ _ _ rpow_two_pos rpow_two_pos hH hm) hd (rho := 1 / 10) (by norm_num)
    (List.replicate 5 (Ant.canonical cities.length)) (by simp) (fun a ha => by rw [List.eq_of_mem_replicate ha]; exact ready_canonical _)
    ⟨w.rows, w.cols, fun _ _ => .fin 1⟩ ⟨fun _ _ => 1, ⟨e2, e3, fun _ _ _ _ => rfl⟩, fun _ _ _ _ => one_pos⟩
    ⟨e2, e3, fun _ _ _ _ => rfl⟩ (Sol.default opsAco) 20 fuel hf
  refine ⟨recs, r1, ?_, fun r hr => by rw [← hds]; exact r3 r hr⟩
  unfold acoBench
  have e1' : tspCost opsAco cities.length (city cities) = .ok w := e1
  rw [Exc.bind_of_ok e1']
  exact congrArg Except.ok r2

/-- The cities as real numbers. -/
noncomputable def real (l : List (ℚ × ℚ)) : List (ℝ × ℝ) := l.map fun p => ((p.1 : ℝ), (p.2 : ℝ))

theorem real_nodup {l : List (ℚ × ℚ)} (h : l.Nodup) : (real l).Nodup :=
  h.map fun a b hab => Prod.ext (by simpa using (Prod.ext_iff.1 hab).1) (by simpa using (Prod.ext_iff.1 hab).2)

/-- **C156, the two ACO benchmarks.** The cities of `bench_aco_small` and `bench_aco_medium` are pairwise different: both benchmarks run
their 20 iterations without a panic, for all draws and hash set orders, and report a tour each time. -/
theorem C156_aco_small_medium {l : List (ℚ × ℚ)} (hl : l = cities5 ∨ l = cities15) (d : Draws (Ext ℝ))
    (hd : ∀ i k t, RangeOk ((d i).step k t)) (fuel : Nat) (hf : 20 < fuel) :
    ∃ recs : List (Sol (Ext ℝ) × Mat (Ext ℝ)), recs.length = 20 ∧
      acoBench (real l) d fuel = .ok (recs.flatMap block ++ [.finish], .done) ∧
      ∀ r ∈ recs, r.1.path.Perm (List.range l.length) := by
  have hn : 2 ≤ l.length ∧ l.Nodup := by
    rcases hl with rfl | rfl
    · exact ⟨by decide, by decide +kernel⟩
    · exact ⟨by decide, by decide +kernel⟩
  obtain ⟨recs, r1, r2, r3⟩ := C156_aco_bench (real l) (by simpa [real] using hn.1) (real_nodup hn.2) d hd fuel hf
  refine ⟨recs, r1, r2, fun r hr => ?_⟩
  have h := (r3 r hr).1.1
  rwa [show (real l).length = l.length by simp [real]] at h

/-- Draws in the middle of their ranges, vertices in reverse order. -/
example := C156_aco_small_medium (.inr rfl)
  (fun _ => ⟨fun k => k, fun _ _ => ⟨List.reverse, List.reverse_perm, .fin (1 / 2), fun | .fin s => .fin (s / 2) | x => x⟩⟩)
  (fun _ _ _ s hs => ⟨s / 2, rfl, by linarith, by linarith⟩) 100 (by decide)

end aco
end Ecrs.Benches
