import Verif.Props.Anytime
import Verif.Props.Ff
import Verif.Props.Ff2

/-!
# C177: calling `run` again on the same object

`run` borrows the object mutably (`&mut self`) in the particle swarm (src/pso.rs:99), the firefly algorithm (src/ff.rs:113) and the genetic
solver (src/ga.rs:277), so it can be called again.
-/

set_option linter.unusedSectionVars false
set_option linter.unusedVariables false

namespace Ecrs.Pso
open Ecrs

section
variable {X K W : Type} [Add X] [Sub X] [Mul X] [Neg X] [LinearOrder K]

/-- Specification: the draws of `k` iterations followed by those of another run. -/
def followedBy (k : Nat) (draw draw' : Nat → Nat → Nat → X × X) : Nat → Nat → Nat → X × X :=
  fun i => if i ≤ k then draw i else draw' (i - k)

theorem swarmAfter_congr (c : Coeffs X) (f : List X → Fl K) {draw draw' : Nat → Nat → Nat → X × X} (s : Swarm X K) :
    ∀ n, (∀ i, i ≤ n → draw i = draw' i) → swarmAfter c f draw s n = swarmAfter c f draw' s n
  | 0, _ => rfl
  | n + 1, h => by
    rw [swarmAfter, swarmAfter, swarmAfter_congr c f s n fun i hi => h i (by omega), h (n + 1) le_rfl]

theorem swarmAfter_add (c : Coeffs X) (f : List X → Fl K) (draw draw' : Nat → Nat → Nat → X × X) (s : Swarm X K) (k : Nat) :
    ∀ n, swarmAfter c f (followedBy k draw draw') s (k + n) = swarmAfter c f draw' (swarmAfter c f draw s k) n
  | 0 => swarmAfter_congr c f s k fun i hi => if_pos hi
  | n + 1 => by
    show swarmAfter c f (followedBy k draw draw') s (k + n + 1) = _
    rw [swarmAfter, swarmAfter, swarmAfter_add c f draw draw' s k n]
    unfold followedBy
    rw [if_neg (by omega), show k + n + 1 - k = n + 1 by omega]

theorem generations_events (g : Nat → Swarm X K) :
    ∀ l : List Nat, generations (l.map fun k => (Ev.onNewGeneration (g k) k : Ev X K)) = l.map g
  | [] => rfl
  | a :: l => congrArg (g a :: ·) (generations_events g l)

theorem generations_append (a b : List (Ev X K)) : generations (a ++ b) = generations a ++ generations b :=
  List.filterMap_append ..

theorem generations_of_events (s s' : Swarm X K) (g : Nat → Swarm X K) (n : Nat) :
    generations ([Ev.onBegin s] ++ ((List.range' 1 n).map fun k => Ev.onNewGeneration (g k) k) ++ [.onEnd s' n]) =
      (List.range' 1 n).map g := by
  rw [generations_append, generations_append, generations_events]
  show [] ++ (List.range' 1 n).map g ++ [] = _
  rw [List.append_nil, List.nil_append]

/-- **C177, particle swarms.** Two runs of `k` and `n` generations on one swarm object are one run of `k + n` generations that makes the
draws of the first run and then those of the second: it ends with the same swarm, and shows the swarms the first run shows followed by
those the second run shows.  (So a run can be resumed; nothing found is forgotten, see C45 and C46.) -/
theorem C177_pso_resumes {k n : Nat} {c : Coeffs X} {f : List X → Fl K} {draw draw' : Nat → Nat → Nat → X × X} {fuel fuel' : Nat}
    (hk : k < fuel) (hn : n < fuel') {s s1 s2 : Swarm X K} {e1 e2 : List (Ev X K)} {w w1 w2 : W}
    (h1 : run (generationLimit k) c f draw fuel s w = .ok ((s1, e1), w1))
    (h2 : run (generationLimit n) c f draw' fuel' s1 w1 = .ok ((s2, e2), w2)) {long : Nat} (hl : k + n < long) :
    ∃ e, run (generationLimit (k + n)) c f (followedBy k draw draw') long s w = .ok ((s2, e), w) ∧
      generations e = generations e1 ++ generations e2 := by
  rw [C48_generation_limit k c f draw fuel hk] at h1
  obtain ⟨a1, -⟩ := Prod.mk.inj (Except.ok.inj h1)
  obtain ⟨rfl, rfl⟩ := Prod.mk.inj a1
  rw [C48_generation_limit n c f draw' fuel' hn] at h2
  obtain ⟨a2, -⟩ := Prod.mk.inj (Except.ok.inj h2)
  obtain ⟨rfl, rfl⟩ := Prod.mk.inj a2
  rw [C48_generation_limit (k + n) c f (followedBy k draw draw') long hl]
  refine ⟨_, by rw [swarmAfter_add], ?_⟩
  rw [generations_of_events, generations_of_events, generations_of_events, ← List.range'_append_1, List.map_append]
  congr 1
  · refine List.map_congr_left fun i hi => ?_
    have : i ≤ k := by have := (List.mem_range'_1.1 hi).2; omega
    exact swarmAfter_congr c f s i fun j hj => if_pos (hj.trans this)
  · rw [show 1 + k = k + 1 from Nat.add_comm _ _, List.range'_eq_map_range, List.range'_eq_map_range, List.map_map, List.map_map]
    refine List.map_congr_left fun i hi => ?_
    show swarmAfter c f (followedBy k draw draw') s (k + 1 + i) = swarmAfter c f draw' (swarmAfter c f draw s k) (1 + i)
    rw [Nat.add_assoc, swarmAfter_add]

end
end Ecrs.Pso

namespace Ecrs.Ff
open Ecrs

section
variable {X K : Type} [LinearOrder K] {A : FloatOps X K}

/-- **C177, fireflies: only the positions survive.** A second run starts where the first one left the fireflies, but with the randomness
coefficient of a new object (it is hot again) and with nothing found: the value its first generation reports is the objective at some
firefly's new position if that is below `f64::MAX`, and `f64::MAX` otherwise – whatever the first run had reported. -/
theorem C177_ff_second_run {c : Cfg X} {f : List X → X} {dist : List X → List X → Except Panic X} {dr dr' : Draws X}
    {pop : List (List X)} {sts sts' : List (St X)} {evs evs' : List (Ev X)} {last : St X}
    (h : run A c f dist dr pop = .ok (sts, evs)) (hl : sts.getLast? = some last) (h2 : run A c f dist dr' last.pop = .ok (sts', evs')) :
    ∃ start first : St X, start.pop = last.pop ∧ start.alfa = c.alfa0 ∧ sts'.head? = some first ∧
      (∃ e, generation A c f dist dr' 0 start = .ok (first, e)) ∧
      ∃ x ∈ first.pop, first.best = if A.lt (f x) A.maxv then f x else A.maxv := by
  unfold run at h2
  obtain ⟨⟨sts1, e1⟩, g1, g2⟩ := except_bind_ok.1 h2
  rw [except_pure_ok] at g2
  cases g2
  have hlen : c.maxGenerations ≠ 0 := by
    intro h0
    have := (C120_states h).1
    rw [h0, List.length_eq_zero_iff] at this
    rw [this] at hl
    cases hl
  obtain ⟨n, hn⟩ : ∃ n, c.maxGenerations = n + 1 := ⟨c.maxGenerations - 1, by omega⟩
  rw [hn, generations] at g1
  obtain ⟨⟨first, e0⟩, g3, g4⟩ := except_bind_ok.1 g1
  obtain ⟨⟨rest, e2⟩, -, g5⟩ := except_bind_ok.1 g4
  rw [except_pure_ok] at g5
  cases g5
  refine ⟨initial A c f last.pop, first, rfl, rfl, rfl, ⟨e0, g3⟩, ?_⟩
  unfold generation at g3
  obtain ⟨pop1, g6, g7⟩ := except_bind_ok.1 g3
  obtain ⟨x, g8, g9⟩ := except_bind_ok.1 g7
  rw [except_pure_ok] at g9
  obtain ⟨rfl, -⟩ := Prod.mk.inj g9
  refine ⟨x, ?_, rfl⟩
  unfold index at g8
  split at g8
  · next y hy =>
    cases g8
    exact List.mem_of_getElem? hy
  · cases g8

end

/-- **C177, fireflies: a second run may end worse than the first.** Three fireflies, two generations: the first run reports `1` at its end;
the second run on the same object, with the same draws, never reports anything below `2`. -/
theorem C177_ff_forgets : ∃ sts sts' evs evs' last, run AQ (cfgQ 2 3 1) absQ (taxi AQ) drQ [[.fin 3], [.fin 2], [.fin 1]] = .ok (sts, evs) ∧
    sts.getLast? = some last ∧ last.best = .fin 1 ∧ run AQ (cfgQ 2 3 1) absQ (taxi AQ) drQ last.pop = .ok (sts', evs') ∧
    sts'.map St.best = [.fin 2, .fin 2] := by
  have h : (match run AQ (cfgQ 2 3 1) absQ (taxi AQ) drQ [[.fin 3], [.fin 2], [.fin 1]] with
      | .ok (sts, _) => sts.getLast?.map fun last => (last.best,
        match run AQ (cfgQ 2 3 1) absQ (taxi AQ) drQ last.pop with
        | .ok (sts', _) => some (sts'.map St.best)
        | .error _ => none)
      | .error _ => none) = some (.fin 1, some [.fin 2, .fin 2]) := by decide +kernel
  split at h
  · next sts evs h1 =>
    obtain ⟨last, hl, h2⟩ := Option.map_eq_some_iff.1 h
    obtain ⟨hb, h3⟩ := Prod.mk.inj h2
    split at h3
    · next sts' evs' h4 => exact ⟨sts, sts', evs, evs', last, h1, hl, hb, h4, Option.some.inj h3⟩
    · cases h3
  · cases h

example : ∃ start first : St (Ext ℚ), start.alfa = .fin 1 ∧ ∃ x ∈ first.pop,
    first.best = if AQ.lt (absQ x) AQ.maxv then absQ x else AQ.maxv := by
  obtain ⟨sts, sts', evs, evs', last, h1, h2, -, h3, -⟩ := C177_ff_forgets
  obtain ⟨start, first, -, b, -, -, d⟩ := C177_ff_second_run h1 h2 h3
  exact ⟨start, first, b, d⟩

end Ecrs.Ff

namespace Ecrs.Ga
open Ecrs

/-- A GA whose initial population depends on the state of the generator (here: how often it was asked). -/
def restartOps : Ops Nat (Individual Int Int) Int :=
  { exampleOps with
    generate := fun _ w => .ok ([⟨w + 1, .nan⟩, ⟨w + 2, .nan⟩], w + 1)
    mutate := fun _ i => pure i
    elapsed := pure 0 }

/-- **C177, genetic algorithms: nothing survives.** A second run makes a new population (C72: apart from metrics it is the run of a new
object), so it may return something worse than the first run did: here `2`, of fitness `4`, after `1`, of fitness `1`. -/
theorem C177_ga_forgets : ∃ tr tr' w w', run (Individual.trait Int Int) restartOps ⟨2, 3, 100⟩ (initialMetrics ⟨2, 3, 100⟩) 0 =
      .ok ((⟨1, .num 1⟩, tr), w) ∧
    ∃ m, finalMetrics tr = some m ∧ run (Individual.trait Int Int) restartOps ⟨2, 3, 100⟩ m w = .ok ((⟨2, .num 4⟩, tr'), w') :=
  ⟨_, _, _, _, rfl, _, rfl, rfl⟩

end Ecrs.Ga

namespace Ecrs.Pso
open Ecrs

/-- One generation and then two more, against three. -/
example := C177_pso_resumes (k := 1) (n := 2) (fuel := 4) (fuel' := 4) (by decide) (by decide)
    (C48_generation_limit 1 demoCoeffs demoF demoDraw 4 (by decide) demoSwarm ())
    (C48_generation_limit 2 demoCoeffs demoF (fun i => demoDraw (i + 1)) 4 (by decide)
      (swarmAfter demoCoeffs demoF demoDraw demoSwarm 1) ()) (long := 10) (by decide)

end Ecrs.Pso
