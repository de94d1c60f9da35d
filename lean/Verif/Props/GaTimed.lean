import Verif.Ga.Timed
import Mathlib.Order.Nat

/-!
# Property C144: the time measurements of a GA run
-/

set_option linter.unusedSectionVars false
set_option linter.unusedVariables false

namespace Ecrs.Ga
open Ecrs

section
variable {W I C K : Type} [LinearOrder K] {T : IndTrait I C K} {ops : Ops W I K} {p : GAParams} {now : M W Nat}

theorem stopwatch_ok {A : Type} {x : M W A} {w w' : W} {a : A} {d : Nat} :
    stopwatch now x w = .ok ((a, d), w') ↔ ∃ s w1 w2 e, now w = .ok (s, w1) ∧ x w1 = .ok (a, w2) ∧ now w2 = .ok (e, w') ∧ d = e - s := by
  unfold stopwatch
  constructor
  · intro h
    obtain ⟨s, w1, h1, h⟩ := M.bind_ok_iff.1 h
    obtain ⟨a', w2, h2, h⟩ := M.bind_ok_iff.1 h
    obtain ⟨e, w3, h3, h⟩ := M.bind_ok_iff.1 h
    rw [M.pure_ok_iff] at h
    cases h
    exact ⟨s, w1, w2, e, h1, h2, h3, rfl⟩
  · rintro ⟨s, w1, w2, e, h1, h2, h3, rfl⟩
    rw [M.bind_of_ok h1, M.bind_of_ok h2, M.bind_of_ok h3]
    rfl

/-- What a completed iteration consists of. -/
theorem timedIteration_ok {start g : Nat} {s s' : TSt I} {stop : Bool} {w w' : W} (h : timedIteration T ops p now start g s w = .ok ((s', stop), w')) :
    ∃ (m m' : Metrics) (t it it' t' dE dS dC dM dR dE' : Nat) (pop pool crossed mutated children replaced : List I) (b : I) (w1 w2 w3 w4 w5 w6 w7 w8 w9 w10 : W),
      now w = .ok (t, w1) ∧ now w1 = .ok (it, w2) ∧
      stopwatch now (evalPop T ops s.pop) w2 = .ok ((pop, dE), w3) ∧
      stopwatch now (ops.select m pop) w3 = .ok ((pool, dS), w4) ∧
      stopwatch now (ops.cross m pool) w4 = .ok ((crossed, dC), w5) ∧
      stopwatch now (M.forEach (ops.mutate m) crossed) w5 = .ok ((mutated, dM), w6) ∧
      evalChildren T ops mutated w6 = .ok (children, w7) ∧
      stopwatch now (ops.replace m pop children) w7 = .ok ((replaced, dR), w8) ∧
      replaced.length = p.populationSize ∧
      stopwatch now (evalPop T ops replaced) w8 = .ok ((s'.pop, dE'), w9) ∧
      now w9 = .ok (it', w10) ∧ now w10 = .ok (t', w') ∧
      s'.phases = ⟨s.phases.popGen, some dE', some dS, some dC, some dM, some dR, some (it' - it)⟩ ∧
      ∃ (improved : List (TEv I)), (∀ x ∈ improved, x = (⟨s.phases.popGen, some dE', some dS, some dC, some dM, some dR, s.phases.iteration⟩, .onNewBest m' b)) ∧
      s'.trace = s.trace ++ ([(s.phases, .onIterationStart m), ({ s.phases with popEval := some dE }, .selectCall pop),
        (⟨s.phases.popGen, some dE, some dS, some dC, some dM, s.phases.replacement, s.phases.iteration⟩, .replaceCall pop children),
        (⟨s.phases.popGen, some dE', some dS, some dC, some dM, some dR, s.phases.iteration⟩, .onNewGeneration m' s'.pop),
        (⟨s.phases.popGen, some dE', some dS, some dC, some dM, some dR, s.phases.iteration⟩, .onBestFit m' b)] ++ improved ++
        [(s'.phases, .onIterationEnd m'), (s'.phases, .clockCheck (t' - start))]) := by
  unfold timedIteration at h
  obtain ⟨t, w1, h1, h⟩ := M.bind_ok_iff.1 h
  obtain ⟨it, w2, h2, h⟩ := M.bind_ok_iff.1 h
  obtain ⟨⟨pop, dE⟩, w3, h3, h⟩ := M.bind_ok_iff.1 h
  obtain ⟨⟨pool, dS⟩, w4, h4, h⟩ := M.bind_ok_iff.1 h
  obtain ⟨⟨crossed, dC⟩, w5, h5, h⟩ := M.bind_ok_iff.1 h
  obtain ⟨⟨mutated, dM⟩, w6, h6, h⟩ := M.bind_ok_iff.1 h
  obtain ⟨children, w7, h7, h⟩ := M.bind_ok_iff.1 h
  obtain ⟨⟨replaced, dR⟩, w8, h8, h⟩ := M.bind_ok_iff.1 h
  obtain ⟨_, w8', ha, h⟩ := M.bind_ok_iff.1 h
  obtain ⟨ha1, ha2⟩ := M.assert_ok_iff.1 ha
  obtain ⟨⟨pop', dE'⟩, w9, h9, h⟩ := M.bind_ok_iff.1 h
  obtain ⟨b, w9', hb, h⟩ := M.bind_ok_iff.1 h
  obtain ⟨hb1, hb2⟩ := M.ofExcept_ok_iff.1 hb
  obtain ⟨it', w10, h10, h⟩ := M.bind_ok_iff.1 h
  obtain ⟨t', w11, h11, hz⟩ := M.bind_ok_iff.1 h
  clear h
  rw [M.pure_ok_iff] at hz
  have e8 : w8' = w8 := congrArg Prod.snd ha2
  have e9 : w9' = w9 := hb2
  subst e8
  subst e9
  cases hz
  refine ⟨_, { s.metrics with generation := g, totalDur := some (t - start), populationSize := replaced.length }, t, it, it', t', dE, dS, dC, dM, dR, dE', pop, pool,
    crossed, mutated, children, replaced, b, w1, w2, w3, w4, w5, w6, w7, _, _, w10, h1, h2, h3, h4, h5, h6, h7, h8, by simpa using ha1, h9, h10, h11, rfl,
    if Fl.lt (T.fitness b) (T.fitness s.best) then
      [(⟨s.phases.popGen, some dE', some dS, some dC, some dM, some dR, s.phases.iteration⟩, .onNewBest
        { s.metrics with generation := g, totalDur := some (t - start), populationSize := replaced.length } b)] else [], ?_, ?_⟩
  rotate_right
  · simp only [List.append_assoc]
  · intro x hx
    split at hx
    · exact List.mem_singleton.1 hx
    · cases hx

/-! ## Time passes -/

/-- `m` never turns the clock back. -/
def Forward (time : W → Nat) {A : Type} (m : M W A) : Prop := ∀ w a w', m w = .ok (a, w') → time w ≤ time w'

/-- Specification of a clock: `time` is the (unobserved) real time; every operation takes time, a reading of the clock gives a moment during
the reading. -/
structure Clocked (ops : Ops W I K) (now : M W Nat) (time : W → Nat) : Prop where
  now : ∀ w t w', now w = .ok (t, w') → time w ≤ t ∧ t ≤ time w'
  generate : ∀ n, Forward time (ops.generate n)
  fitness : ∀ i, Forward time (ops.fitnessFn i)
  select : ∀ m pop, Forward time (ops.select m pop)
  cross : ∀ m pool, Forward time (ops.cross m pool)
  mutate : ∀ m i, Forward time (ops.mutate m i)
  replace : ∀ m a b, Forward time (ops.replace m a b)

theorem Forward.bind {time : W → Nat} {A B : Type} {m : M W A} {f : A → M W B} (hm : Forward time m) (hf : ∀ a, Forward time (f a)) :
    Forward time (m >>= f) := by
  intro w b w' h
  obtain ⟨a, w1, h1, h2⟩ := M.bind_ok_iff.1 h
  exact Nat.le_trans (hm _ _ _ h1) (hf a _ _ _ h2)

theorem Forward.pure {time : W → Nat} {A : Type} (a : A) : Forward time (Pure.pure a : M W A) := by
  intro w b w' h
  rw [M.pure_ok_iff] at h
  cases h
  exact Nat.le_refl _

theorem Forward.forEach {time : W → Nat} {A B : Type} {f : A → M W B} (hf : ∀ a, Forward time (f a)) : ∀ l, Forward time (M.forEach f l)
  | [] => Forward.pure _
  | x :: xs => Forward.bind (hf x) fun y => Forward.bind (Forward.forEach hf xs) fun ys => Forward.pure _

theorem Clocked.evalPop {time : W → Nat} (hc : Clocked ops now time) (pop : List I) : Forward time (evalPop T ops pop) := by
  refine Forward.forEach (fun i => ?_) pop
  unfold evalOne
  split
  · exact Forward.bind (hc.fitness i) fun r => Forward.pure _
  · exact Forward.pure _

theorem Clocked.evalChildren {time : W → Nat} (hc : Clocked ops now time) (pop : List I) : Forward time (evalChildren T ops pop) := by
  unfold Ga.evalChildren
  split
  · exact hc.evalPop pop
  · exact Forward.pure _

/-- A measured duration fits between the times before and after. -/
theorem Clocked.stopwatch {time : W → Nat} (hc : Clocked ops now time) {A : Type} {x : M W A} (hx : Forward time x) {w w' : W} {a : A} {d : Nat}
    (h : stopwatch now x w = .ok ((a, d), w')) : time w + d ≤ time w' := by
  obtain ⟨s, w1, w2, e, h1, h2, h3, rfl⟩ := stopwatch_ok.1 h
  have := hc.now _ _ _ h1
  have := hc.now _ _ _ h3
  have := hx _ _ _ h2
  omega

/-- The durations of the finished iterations that a probe is shown. -/
def iterationTimes (tr : List (TEv I)) : List Nat := tr.filterMap fun x => match x.2 with
  | .onIterationEnd _ => x.1.iteration
  | _ => none

/-- What the metrics say at a given callback. -/
def GoodTimes (x : TEv I) : Prop := match x.2 with
  | .onInitialPopulation _ _ => x.1.popGen.isSome ∧ x.1.popEval.isSome
  | .onNewGeneration _ _ | .onBestFit _ _ => x.1.popGen.isSome ∧ x.1.popEval.isSome ∧ x.1.selection.isSome ∧ x.1.crossover.isSome ∧ x.1.mutation.isSome ∧
      x.1.replacement.isSome
  | .onIterationEnd _ => ∃ g e s c u r i, x.1 = ⟨some g, some e, some s, some c, some u, some r, some i⟩ ∧ e + s + c + u + r ≤ i
  | _ => True

theorem iteration_times {time : W → Nat} (hc : Clocked ops now time) {start g : Nat} {s s' : TSt I} {stop : Bool} {w w' : W}
    (h : timedIteration T ops p now start g s w = .ok ((s', stop), w')) {gen : Nat} (hgen : s.phases.popGen = some gen) :
    s'.phases.popGen = some gen ∧ ∃ new, s'.trace = s.trace ++ new ∧ (∀ x ∈ new, GoodTimes x) ∧ time w + (iterationTimes new).sum ≤ time w' := by
  obtain ⟨m, m', t, it, it', t', dE, dS, dC, dM, dR, dE', pop, pool, crossed, mutated, children, replaced, b, w1, w2, w3, w4, w5, w6, w7, w8, w9, w10, h1, h2, h3, h4, h5, h6,
    h7, h8, -, h9, h10, h11, hph, imp, himp, htr⟩ := timedIteration_ok h
  have k1 := hc.now _ _ _ h1
  have k2 := hc.now _ _ _ h2
  have k3 := hc.stopwatch (hc.evalPop _) h3
  have k4 := hc.stopwatch (hc.select _ _) h4
  have k5 := hc.stopwatch (hc.cross _ _) h5
  have k6 := hc.stopwatch (Forward.forEach (hc.mutate m) _) h6
  have k7 := hc.evalChildren _ _ _ _ h7
  have k8 := hc.stopwatch (hc.replace _ _ _) h8
  have k9 := hc.stopwatch (hc.evalPop _) h9
  have k10 := hc.now _ _ _ h10
  have k11 := hc.now _ _ _ h11
  refine ⟨by rw [hph]; exact hgen, _, htr, ?_, ?_⟩
  · intro x hx
    simp only [List.mem_append, List.mem_cons, List.not_mem_nil, or_false] at hx
    rcases hx with ((rfl | rfl | rfl | rfl | rfl) | hx) | rfl | rfl
    · trivial
    · trivial
    · trivial
    · exact ⟨by rw [hgen]; rfl, rfl, rfl, rfl, rfl, rfl⟩
    · exact ⟨by rw [hgen]; rfl, rfl, rfl, rfl, rfl, rfl⟩
    · rw [himp x hx]; trivial
    · exact ⟨gen, dE', dS, dC, dM, dR, it' - it, by rw [hph, hgen], by omega⟩
    · trivial
  · have himp0 : iterationTimes imp = [] := by
      unfold iterationTimes
      rw [List.filterMap_eq_nil_iff]
      intro x hx
      rw [himp x hx]
    have : iterationTimes ([(s.phases, Ev.onIterationStart m), ({ s.phases with popEval := some dE }, .selectCall pop),
        (⟨s.phases.popGen, some dE, some dS, some dC, some dM, s.phases.replacement, s.phases.iteration⟩, .replaceCall pop children),
        (⟨s.phases.popGen, some dE', some dS, some dC, some dM, some dR, s.phases.iteration⟩, .onNewGeneration m' s'.pop),
        (⟨s.phases.popGen, some dE', some dS, some dC, some dM, some dR, s.phases.iteration⟩, .onBestFit m' b)] ++ imp ++
        [(s'.phases, .onIterationEnd m'), (s'.phases, .clockCheck (t' - start))]) = [it' - it] := by
      have ha : ∀ l1 l2 : List (TEv I), iterationTimes (l1 ++ l2) = iterationTimes l1 ++ iterationTimes l2 := fun l1 l2 => List.filterMap_append
      rw [ha, ha, himp0, hph]
      rfl
    rw [this]
    simp only [List.sum_cons, List.sum_nil]
    omega

theorem timedPrologue_ok {start : Nat} {m0 : Metrics} {ph0 : Phases} {s : TSt I} {w w' : W} (h : timedPrologue T ops p now start m0 ph0 w = .ok (s, w')) :
    ∃ (pop0 : List I) (dG dE t : Nat) (m1 m2 : Metrics) (w1 w2 : W), stopwatch now (ops.generate p.populationSize) w = .ok ((pop0, dG), w1) ∧
      stopwatch now (evalPop T ops pop0) w1 = .ok ((s.pop, dE), w2) ∧ now w2 = .ok (t, w') ∧
      s.phases = { ph0 with popGen := some dG, popEval := some dE } ∧
      s.trace = [(ph0, .onStart m0), (s.phases, .onInitialPopulation m1 s.pop), (s.phases, .onNewBest m2 s.best)] := by
  unfold timedPrologue at h
  obtain ⟨⟨pop0, dG⟩, w1, h1, h⟩ := M.bind_ok_iff.1 h
  obtain ⟨⟨pop, dE⟩, w2, h2, h⟩ := M.bind_ok_iff.1 h
  obtain ⟨b, w3, h3, h⟩ := M.bind_ok_iff.1 h
  obtain ⟨t, w4, h4, hz⟩ := M.bind_ok_iff.1 h
  clear h
  obtain ⟨-, h3b⟩ := M.ofExcept_ok_iff.1 h3
  have e3 : w3 = w2 := h3b
  subst e3
  rw [M.pure_ok_iff] at hz
  cases hz
  exact ⟨pop0, dG, dE, t, { m0 with populationSize := pop0.length }, { m0 with populationSize := pop0.length, totalDur := some (t - start) }, w1, _, h1, h2, h4, rfl, rfl⟩

/-- Induction over the iterations of a run, with the readings of the clock. -/
theorem timedLoop_inv {start : Nat} {Inv : TSt I → W → Prop}
    (hstep : ∀ g s w s' stop w', timedIteration T ops p now start g s w = .ok ((s', stop), w') → Inv s w → Inv s' w') :
    ∀ n g s w s' w', timedLoop T ops p now start n g s w = .ok (s', w') → Inv s w → Inv s' w' := by
  intro n
  induction n with
  | zero =>
    intro g s w s' w' h hi
    have : (s', w') = (s, w) := M.pure_ok_iff.1 h
    cases this
    exact hi
  | succ n ih =>
    intro g s w s' w' h hi
    unfold timedLoop at h
    obtain ⟨⟨s1, stop⟩, w1, h1, h⟩ := M.bind_ok_iff.1 h
    have hi1 := hstep _ _ _ _ _ _ h1 hi
    cases stop with
    | true =>
      have : (s', w') = (s1, w1) := M.pure_ok_iff.1 h
      cases this
      exact hi1
    | false => exact ih _ _ _ _ _ h hi1

theorem timedRun_ok {m0 : Metrics} {ph0 : Phases} {best : I} {tr : List (TEv I)} {w w' : W} (h : timedRun T ops p now m0 ph0 w = .ok ((best, tr), w')) :
    ∃ (start t : Nat) (w1 w2 w3 : W) (s s' : TSt I), now w = .ok (start, w1) ∧ timedPrologue T ops p now start m0 ph0 w1 = .ok (s, w2) ∧
      timedLoop T ops p now start p.generationLimit 1 s w2 = .ok (s', w3) ∧ now w3 = .ok (t, w') ∧ best = s'.best ∧
      tr = s'.trace ++ [(s'.phases, .onEnd { s'.metrics with totalDur := some (t - start) } s'.pop s'.best)] := by
  unfold timedRun at h
  obtain ⟨start, w1, h1, h⟩ := M.bind_ok_iff.1 h
  obtain ⟨s, w2, h2, h⟩ := M.bind_ok_iff.1 h
  obtain ⟨s', w3, h3, h⟩ := M.bind_ok_iff.1 h
  obtain ⟨t, w4, h4, hz⟩ := M.bind_ok_iff.1 h
  clear h
  rw [M.pure_ok_iff] at hz
  cases hz
  exact ⟨start, t, w1, w2, w3, s, s', h1, h2, h3, h4, rfl, rfl⟩

/-- **C144, the phase times.** In every completed run of a solver (also a second run), with any operators and any clock that does not run
backwards: the duration of the generation and evaluation of the initial population is known when it is shown; all phase durations but the
iteration's are known when a new generation is shown; all are known at the end of an iteration, where the five phases together take no longer than
the iteration. The durations of all iterations together with the generation of the initial population do not exceed the total duration reported
at the end. (Hence no `unwrap` of the job shop example's probe panics.) -/
theorem C144_phase_times {time : W → Nat} (hc : Clocked ops now time) {m0 : Metrics} {ph0 : Phases} {best : I} {tr : List (TEv I)} {w w' : W}
    (h : timedRun T ops p now m0 ph0 w = .ok ((best, tr), w')) :
    (∀ ph m pop, (ph, .onInitialPopulation m pop) ∈ tr → ph.popGen.isSome ∧ ph.popEval.isSome) ∧
    (∀ ph m pop, (ph, .onNewGeneration m pop) ∈ tr → ph.popGen.isSome ∧ ph.popEval.isSome ∧ ph.selection.isSome ∧ ph.crossover.isSome ∧ ph.mutation.isSome ∧
      ph.replacement.isSome) ∧
    (∀ ph m, (ph, .onIterationEnd m) ∈ tr →
      ∃ g e s c u r i : Nat, ph = ⟨some g, some e, some s, some c, some u, some r, some i⟩ ∧ e + s + c + u + r ≤ i) ∧
    ∃ (ph : Phases) (m : Metrics) (pop : List I) (g d : Nat), tr.getLast? = some (ph, .onEnd m pop best) ∧ ph.popGen = some g ∧ m.totalDur = some d ∧
      g + (iterationTimes tr).sum ≤ d := by
  obtain ⟨start, t, w1, w2, w3, s, s', h1, h2, h3, h4, rfl, rfl⟩ := timedRun_ok h
  obtain ⟨pop0, dG, dE, t0, m1, m2, v1, v2, k1, k2, k3, k4, k5⟩ := timedPrologue_ok h2
  have a1 := hc.now _ _ _ h1
  have a2 := hc.stopwatch (hc.generate _) k1
  have a3 := hc.stopwatch (hc.evalPop _) k2
  have a4 := hc.now _ _ _ k3
  have a5 := hc.now _ _ _ h4
  obtain ⟨i1, i2, i3⟩ := timedLoop_inv (start := start)
    (Inv := fun s w => s.phases.popGen = some dG ∧ (∀ x ∈ s.trace, GoodTimes x) ∧ start + dG + (iterationTimes s.trace).sum ≤ time w)
    (fun g s w s' stop w' h hi => by
      obtain ⟨i1, i2, i3⟩ := hi
      obtain ⟨j1, new, j2, j3, j4⟩ := iteration_times hc h i1
      refine ⟨j1, ?_, ?_⟩
      · rw [j2]
        intro x hx
        rcases List.mem_append.1 hx with hx | hx
        · exact i2 x hx
        · exact j3 x hx
      · have : iterationTimes s'.trace = iterationTimes s.trace ++ iterationTimes new := by rw [j2]; exact List.filterMap_append
        rw [this, List.sum_append]
        omega) _ _ _ _ _ _ h3
    ⟨by rw [k4], by
      rw [k5, k4]
      intro x hx
      simp only [List.mem_cons, List.not_mem_nil, or_false] at hx
      rcases hx with rfl | rfl | rfl
      · trivial
      · exact ⟨rfl, rfl⟩
      · trivial, by
      rw [k5]
      show start + dG + 0 ≤ _
      omega⟩
  have good : ∀ x ∈ s'.trace ++ [(s'.phases, Ev.onEnd { s'.metrics with totalDur := some (t - start) } s'.pop s'.best)], GoodTimes x := by
    intro x hx
    rcases List.mem_append.1 hx with hx | hx
    · exact i2 x hx
    · rw [List.mem_singleton.1 hx]; trivial
  refine ⟨fun ph m pop hx => good _ hx, fun ph m pop hx => good _ hx, fun ph m hx => good _ hx, s'.phases, { s'.metrics with totalDur := some (t - start) }, s'.pop, dG, t - start,
    by simp, i1, rfl, ?_⟩
  have : iterationTimes (s'.trace ++ [(s'.phases, Ev.onEnd { s'.metrics with totalDur := some (t - start) } s'.pop s'.best)]) = iterationTimes s'.trace ++ [] := List.filterMap_append
  rw [this, List.append_nil]
  omega

/-! ## The duration of the iteration is the previous one's -/

/-- The iteration time a probe has been told last; `init` before the first. -/
def lastReported (init : Option Nat) (tr : List (TEv I)) : Option Nat := tr.foldl (fun acc x => match x.2 with
  | .onIterationEnd _ => x.1.iteration
  | _ => acc) init

/-- Every event but the end of an iteration carries the time last reported. -/
def Tracks (init : Option Nat) (tr : List (TEv I)) : Prop :=
  ∀ pre x post, tr = pre ++ x :: post → (∀ m, x.2 ≠ .onIterationEnd m) → x.1.iteration = lastReported init pre

theorem Tracks.append {init : Option Nat} {a b : List (TEv I)} (ha : Tracks init a) (hb : Tracks (lastReported init a) b) : Tracks init (a ++ b) := by
  intro pre x post h hx
  rcases List.append_eq_append_iff.1 h with ⟨c, rfl, h2⟩ | ⟨c, rfl, h2⟩
  · have := hb c x post h2 hx
    rw [this]
    unfold lastReported
    rw [List.foldl_append]
  · cases c with
    | nil =>
      have := hb [] x post (by simpa using h2.symm) hx
      rw [this]
      simp [lastReported]
    | cons y c =>
      rw [List.cons_append] at h2
      obtain ⟨rfl, -⟩ := List.cons.inj h2
      exact ha pre x c rfl hx

theorem Tracks.cons {init : Option Nat} {y : TEv I} {b : List (TEv I)} (hy : (∀ m, y.2 ≠ .onIterationEnd m) → y.1.iteration = init)
    (hb : Tracks (lastReported init [y]) b) : Tracks init (y :: b) := by
  refine Tracks.append (a := [y]) ?_ hb
  intro pre x post h hx
  cases pre with
  | nil =>
    obtain ⟨rfl, -⟩ := List.cons.inj h
    exact hy hx
  | cons z pre =>
    have := congrArg List.length h
    simp at this

theorem Tracks.nil {init : Option Nat} : Tracks init ([] : List (TEv I)) := by
  intro pre x post h
  have := congrArg List.length h
  simp at this

theorem Tracks.same {init : Option Nat} {l : List (TEv I)} (h : ∀ x ∈ l, x.1.iteration = init ∧ ∀ m, x.2 ≠ .onIterationEnd m) :
    Tracks init l ∧ lastReported init l = init := by
  induction l with
  | nil => exact ⟨Tracks.nil, rfl⟩
  | cons y l ih =>
    obtain ⟨h1, h2⟩ := h y (by simp)
    have hr : lastReported init [y] = init := by
      show (match y.2 with
        | .onIterationEnd _ => y.1.iteration
        | _ => init) = init
      split
      · exact h1
      · rfl
    obtain ⟨i1, i2⟩ := ih fun x hx => h x (by simp [hx])
    refine ⟨Tracks.cons (fun _ => h1) (by rw [hr]; exact i1), ?_⟩
    have : lastReported init (y :: l) = lastReported (lastReported init [y]) l := rfl
    rw [this, hr, i2]

/-- **C144, stale iteration time.** At every callback but the end of an iteration, `iteration_dur` is the duration of the last finished
iteration, i.e. in `on_new_generation`, `on_best_fit_in_generation` and `on_new_best` of generation `g` that of generation `g - 1`; before the first
iteration has ended it is what the metrics contained before the run: `None` for a fresh solver (reading it with `unwrap` panics), the last iteration of
the previous run otherwise. -/
theorem C144_iteration_time_is_previous {m0 : Metrics} {ph0 : Phases} {best : I} {tr : List (TEv I)} {w w' : W}
    (h : timedRun T ops p now m0 ph0 w = .ok ((best, tr), w')) {pre post : List (TEv I)} {x : TEv I} (htr : tr = pre ++ x :: post)
    (hx : ∀ m, x.2 ≠ .onIterationEnd m) : x.1.iteration = lastReported ph0.iteration pre := by
  obtain ⟨start, t, w1, w2, w3, s, s', h1, h2, h3, h4, -, rfl⟩ := timedRun_ok h
  obtain ⟨pop0, dG, dE, t0, m1, m2, v1, v2, k1, k2, k3, k4, k5⟩ := timedPrologue_ok h2
  obtain ⟨i1, i2⟩ := timedLoop_inv (start := start)
    (Inv := fun s w => Tracks ph0.iteration s.trace ∧ lastReported ph0.iteration s.trace = s.phases.iteration)
    (fun g s w s' stop w' h hi => by
      obtain ⟨i1, i2⟩ := hi
      obtain ⟨m, m', t, it, it', t', dE, dS, dC, dM, dR, dE', pop, pool, crossed, mutated, children, replaced, b, w1, w2, w3, w4, w5, w6, w7, w8, w9, w10, -, -, -, -, -, -,
        -, -, -, -, -, -, hph, imp, himp, htr⟩ := timedIteration_ok h
      have key := Tracks.same (init := s.phases.iteration) (l := [(s.phases, Ev.onIterationStart m), ({ s.phases with popEval := some dE }, .selectCall pop),
        (⟨s.phases.popGen, some dE, some dS, some dC, some dM, s.phases.replacement, s.phases.iteration⟩, .replaceCall pop children),
        (⟨s.phases.popGen, some dE', some dS, some dC, some dM, some dR, s.phases.iteration⟩, .onNewGeneration m' s'.pop),
        (⟨s.phases.popGen, some dE', some dS, some dC, some dM, some dR, s.phases.iteration⟩, .onBestFit m' b)] ++ imp) (by
          intro x hx
          simp only [List.mem_append, List.mem_cons, List.not_mem_nil, or_false] at hx
          rcases hx with (rfl | rfl | rfl | rfl | rfl) | hx
          · exact ⟨rfl, fun _ h => by cases h⟩
          · exact ⟨rfl, fun _ h => by cases h⟩
          · exact ⟨rfl, fun _ h => by cases h⟩
          · exact ⟨rfl, fun _ h => by cases h⟩
          · exact ⟨rfl, fun _ h => by cases h⟩
          · rw [himp x hx]
            exact ⟨rfl, fun _ h => by cases h⟩)
      have fold_append : ∀ (o : Option Nat) (a b : List (TEv I)), lastReported o (a ++ b) = lastReported (lastReported o a) b := fun o a b => by
        unfold lastReported
        rw [List.foldl_append]
      constructor
      · rw [htr]
        refine Tracks.append i1 ?_
        rw [i2]
        refine Tracks.append key.1 ?_
        rw [key.2]
        refine Tracks.cons (fun hne => absurd rfl (hne m')) (Tracks.cons (fun _ => rfl) Tracks.nil)
      · rw [htr, fold_append, i2, fold_append, key.2]
        rfl) _ _ _ _ _ _ h3
    (by
      have key := Tracks.same (init := ph0.iteration) (l := s.trace) (by
        rw [k5, k4]
        intro x hx
        simp only [List.mem_cons, List.not_mem_nil, or_false] at hx
        rcases hx with rfl | rfl | rfl
        · exact ⟨rfl, fun _ h => by cases h⟩
        · exact ⟨rfl, fun _ h => by cases h⟩
        · exact ⟨rfl, fun _ h => by cases h⟩)
      exact ⟨key.1, by rw [key.2, k4]⟩)
  refine Tracks.append i1 ?_ pre x post htr hx
  rw [i2]
  exact Tracks.cons (fun _ => rfl) Tracks.nil

/-! ## Only one of the three evaluations of an iteration is reported -/

/-- `m` takes exactly `c` units of time. -/
def Takes (time : W → Nat) (c : Nat) {A : Type} (m : M W A) : Prop := ∀ w a w', m w = .ok (a, w') → time w' = time w + c

/-- Specification: a world in which an evaluation of the fitness takes `c` units of time and everything else none. -/
structure EvalCosts (ops : Ops W I K) (now : M W Nat) (time : W → Nat) (c : Nat) : Prop where
  now : ∀ w t w', now w = .ok (t, w') → t = time w ∧ time w' = time w
  generate : ∀ n, Takes time 0 (ops.generate n)
  fitness : ∀ i, Takes time c (ops.fitnessFn i)
  select : ∀ m pop, Takes time 0 (ops.select m pop)
  cross : ∀ m pool, Takes time 0 (ops.cross m pool)
  mutate : ∀ m i, Takes time 0 (ops.mutate m i)
  replace : ∀ m a b, Takes time 0 (ops.replace m a b)

theorem Takes.forEach {time : W → Nat} {c : Nat} {A B : Type} {f : A → M W B} (hf : ∀ a, Takes time c (f a)) :
    ∀ (l : List A), Takes time (l.length * c) (M.forEach f l) ∧ ∀ w r w', M.forEach f l w = .ok (r, w') → r.length = l.length
  | [] => by
    constructor
    · intro w a w' h
      have := M.pure_ok_iff.1 h
      cases this
      simp
    · intro w r w' h
      have := M.pure_ok_iff.1 h
      cases this
      rfl
  | x :: xs => by
    obtain ⟨h1, h2⟩ := Takes.forEach hf xs
    have : ∀ w r w', M.forEach f (x :: xs) w = .ok (r, w') → time w' = time w + (x :: xs).length * c ∧ r.length = (x :: xs).length := by
      intro w r w' h
      obtain ⟨y, w1, k1, h⟩ := M.bind_ok_iff.1 h
      obtain ⟨ys, w2, k2, h⟩ := M.bind_ok_iff.1 h
      rw [M.pure_ok_iff] at h
      cases h
      refine ⟨?_, by rw [List.length_cons, List.length_cons, h2 _ _ _ k2]⟩
      rw [h1 _ _ _ k2, hf x _ _ _ k1, List.length_cons, Nat.succ_mul]
      omega
    exact ⟨fun w r w' h => (this w r w' h).1, fun w r w' h => (this w r w' h).2⟩

theorem EvalCosts.evalPop {time : W → Nat} {c : Nat} (hc : EvalCosts ops now time c) (hreq : ∀ i, T.requiresEval i = true) (l : List I) :
    Takes time (l.length * c) (evalPop T ops l) ∧ ∀ w r w', evalPop T ops l w = .ok (r, w') → r.length = l.length := by
  refine Takes.forEach (fun i w a w' h => ?_) l
  unfold evalOne at h
  rw [if_pos (hreq i)] at h
  obtain ⟨⟨i', v⟩, w1, h1, h⟩ := M.bind_ok_iff.1 h
  rw [M.pure_ok_iff] at h
  cases h
  exact hc.fitness i _ _ _ h1

theorem EvalCosts.stopwatch {time : W → Nat} {c k : Nat} (hc : EvalCosts ops now time c) {A : Type} {x : M W A} (hx : Takes time k x) {w w' : W} {a : A} {d : Nat}
    (h : stopwatch now x w = .ok ((a, d), w')) : d = k ∧ time w' = time w + k ∧ ∃ w1 w2, x w1 = .ok (a, w2) := by
  obtain ⟨s, w1, w2, e, h1, h2, h3, rfl⟩ := stopwatch_ok.1 h
  have a1 := hc.now _ _ _ h1
  have a2 := hc.now _ _ _ h3
  have a3 := hx _ _ _ h2
  exact ⟨by omega, by omega, w1, w2, h2⟩

/-- **C144, evaluation time.** The reported evaluation time covers one of the three evaluations of an iteration. If evaluating an individual takes
`c` units of time and everything else none, all individuals require evaluation, the generator returns as many individuals as the
population has, selection and crossover keep that number and the replacement wants the fitness of the children, then every iteration reports an evaluation
time of `n·c`, times of 0 for all other phases and a duration of `3·n·c`: two thirds of the time are in no phase. -/
theorem C144_unreported_evaluations {time : W → Nat} {c : Nat} (hc : EvalCosts ops now time c) (hreq : ∀ i, T.requiresEval i = true) (hch : ops.requiresChildrenFitness = true)
    (hgen : ∀ w r w', ops.generate p.populationSize w = .ok (r, w') → r.length = p.populationSize)
    (hsel : ∀ m pop w r w', pop.length = p.populationSize → ops.select m pop w = .ok (r, w') → r.length = p.populationSize)
    (hcross : ∀ m pool w r w', pool.length = p.populationSize → ops.cross m pool w = .ok (r, w') → r.length = p.populationSize)
    {m0 : Metrics} {ph0 : Phases} {best : I} {tr : List (TEv I)} {w w' : W} (h : timedRun T ops p now m0 ph0 w = .ok ((best, tr), w')) :
    ∀ ph m, (ph, .onIterationEnd m) ∈ tr → ph = ⟨some 0, some (p.populationSize * c), some 0, some 0, some 0, some 0, some (3 * p.populationSize * c)⟩ := by
  obtain ⟨start, t, w1, w2, w3, s, s', h1, h2, h3, h4, -, rfl⟩ := timedRun_ok h
  obtain ⟨pop0, dG, dE, t0, m1, m2, v1, v2, k1, k2, k3, k4, k5⟩ := timedPrologue_ok h2
  obtain ⟨g1, -, x1, x2, g2⟩ := hc.stopwatch (hc.generate _) k1
  have hl0 := hgen _ _ _ g2
  obtain ⟨-, -, x3, x4, g3⟩ := hc.stopwatch (hc.evalPop hreq _).1 k2
  have hl : s.pop.length = p.populationSize := by rw [(hc.evalPop hreq _).2 _ _ _ g3, hl0]
  obtain ⟨-, -, i3⟩ := timedLoop_inv (start := start)
    (Inv := fun s w => s.pop.length = p.populationSize ∧ s.phases.popGen = some 0 ∧ ∀ ph m, (ph, .onIterationEnd m) ∈ s.trace →
      ph = ⟨some 0, some (p.populationSize * c), some 0, some 0, some 0, some 0, some (3 * p.populationSize * c)⟩)
    (fun g s w s' stop w' h hi => by
      obtain ⟨i1, i2, i3⟩ := hi
      obtain ⟨m, m', t, it, it', t', dE, dS, dC, dM, dR, dE', pop, pool, crossed, mutated, children, replaced, b, w1, w2, w3, w4, w5, w6, w7, w8, w9, w10, h1, h2, h3, h4, h5, h6,
        h7, h8, hlen, h9, h10, h11, hph, imp, himp, htr⟩ := timedIteration_ok h
      have b1 := hc.now _ _ _ h1
      have b2 := hc.now _ _ _ h2
      obtain ⟨b3, b3', z1, z2, b3''⟩ := hc.stopwatch (hc.evalPop hreq _).1 h3
      obtain ⟨b4, b4', z3, z4, b4''⟩ := hc.stopwatch (hc.select _ _) h4
      have hpool := hsel _ _ _ _ _ (by rw [(hc.evalPop hreq _).2 _ _ _ b3'', i1]) b4''
      obtain ⟨b5, b5', y1, y2, b5''⟩ := hc.stopwatch (hc.cross _ _) h5
      have hm0 := Takes.forEach (hc.mutate m) crossed
      rw [Nat.mul_zero] at hm0
      obtain ⟨b6, b6', y3, y4, b6''⟩ := hc.stopwatch hm0.1 h6
      have hml : mutated.length = p.populationSize := by rw [hm0.2 _ _ _ b6'', hcross _ _ _ _ _ hpool b5'']
      unfold evalChildren at h7
      rw [if_pos hch] at h7
      have b7 := (hc.evalPop hreq _).1 _ _ _ h7
      rw [hml] at b7
      obtain ⟨b8, b8', -⟩ := hc.stopwatch (hc.replace _ _ _) h8
      obtain ⟨b9, b9', y5, y6, b9''⟩ := hc.stopwatch (hc.evalPop hreq _).1 h9
      have b10 := hc.now _ _ _ h10
      have hl' : s'.pop.length = p.populationSize := by rw [(hc.evalPop hreq _).2 _ _ _ b9'', hlen]
      have hiter : it' - it = 3 * p.populationSize * c := by
        have e3 : 3 * p.populationSize * c = p.populationSize * c + (p.populationSize * c + p.populationSize * c) := by rw [Nat.mul_assoc]; omega
        rw [i1] at b3'
        rw [hlen] at b9'
        omega
      have hph' : s'.phases = ⟨some 0, some (p.populationSize * c), some 0, some 0, some 0, some 0, some (3 * p.populationSize * c)⟩ := by
        rw [hph, i2, b9, hlen, b4, b5, b6, b8, hiter]
      refine ⟨hl', by rw [hph'], fun ph m2 hx => ?_⟩
      rw [htr] at hx
      rcases List.mem_append.1 hx with hx | hx
      · exact i3 ph m2 hx
      · simp only [List.mem_append, List.mem_cons, List.not_mem_nil, or_false] at hx
        rcases hx with ((hx | hx | hx | hx | hx) | hx) | hx | hx
        · cases hx
        · cases hx
        · cases hx
        · cases hx
        · cases hx
        · have := himp _ hx
          cases this
        · have e := congrArg Prod.fst hx
          exact e.trans hph'
        · cases hx) _ _ _ _ _ _ h3
    ⟨hl, by rw [k4, g1], fun ph m hx => by
      rw [k5] at hx
      simp only [List.mem_cons, List.not_mem_nil, or_false] at hx
      rcases hx with hx | hx | hx <;> cases hx⟩
  intro ph m hx
  rcases List.mem_append.1 hx with hx | hx
  · exact i3 ph m hx
  · have := List.mem_singleton.1 hx
    cases this

end

/-! ## The measurements change nothing else -/

section conservative
variable {V I C K : Type} [LinearOrder K] (T : IndTrait I C K) (ops : Ops V I K) (p : GAParams) (τ : Nat → Nat)

/-- A program that does not touch the clock. -/
def besideClock {A : Type} (x : M V A) : M (V × Nat) A := fun w => match x w.1 with
  | .error e => .error e
  | .ok (a, v') => .ok (a, (v', w.2))

/-- Operators that do not touch the clock; `elapsed` is given separately. -/
def opsBeside (elapsed : M (V × Nat) Nat) : Ops (V × Nat) I K where
  generate n := besideClock (ops.generate n)
  fitnessFn i := besideClock (ops.fitnessFn i)
  select m pop := besideClock (ops.select m pop)
  cross m pool := besideClock (ops.cross m pool)
  mutate m i := besideClock (ops.mutate m i)
  replace m a b := besideClock (ops.replace m a b)
  requiresChildrenFitness := ops.requiresChildrenFitness
  elapsed := elapsed

/-- A clock showing `τ k` at its `k`-th reading: any behaviour of the real clock. -/
def readClock : M (V × Nat) Nat := M.lift fun w => (τ w.2, (w.1, w.2 + 1))

/-- The elapsed times the solver of `Ga/Solver` is told: of the 6 readings before the loop the last, of the 16 readings of an iteration the
first and the last, each relative to the very first reading. -/
def elapsedSeen (j : Nat) : Nat :=
  if j = 0 then τ 5 - τ 0 else if j % 2 = 1 then τ (6 + 16 * (j / 2)) - τ 0 else τ (6 + 16 * (j / 2 - 1) + 15) - τ 0

/-- The clock of `Ga/Solver`. -/
def readElapsed : M (V × Nat) Nat := M.lift fun w => (elapsedSeen τ w.2, (w.1, w.2 + 1))

/-- Without the durations. -/
def erase (tr : List (TEv I)) : List (Ev I) := tr.map Prod.snd

def TSt.erase (s : TSt I) : St I := { pop := s.pop, best := s.best, metrics := s.metrics, trace := Ga.erase s.trace }


theorem besideClock_error {A : Type} {x : M V A} {v : V} {k : Nat} {e : Panic} (h : x v = .error e) : besideClock x (v, k) = .error e := by
  unfold besideClock
  simp only [h]

theorem besideClock_ok {A : Type} {x : M V A} {v v' : V} {k : Nat} {a : A} (h : x v = .ok (a, v')) : besideClock x (v, k) = .ok (a, (v', k)) := by
  unfold besideClock
  simp only [h]

theorem besideClock_bind {A B : Type} (m : M V A) (f : A → M V B) : besideClock (m >>= f) = (besideClock m >>= fun a => besideClock (f a)) := by
  funext w
  obtain ⟨v, k⟩ := w
  cases h : m v with
  | error e => rw [besideClock_error (M.bind_of_error h), M.bind_of_error (besideClock_error h)]
  | ok r =>
    obtain ⟨a, v'⟩ := r
    rw [M.bind_of_ok (besideClock_ok h)]
    unfold besideClock
    simp only [M.bind_of_ok h]

theorem besideClock_forEach {A B : Type} (f : A → M V B) : ∀ l : List A, M.forEach (fun a => besideClock (f a)) l = besideClock (M.forEach f l)
  | [] => rfl
  | x :: xs => by
    have ih := besideClock_forEach f xs
    show (besideClock (f x) >>= fun y => M.forEach (fun a => besideClock (f a)) xs >>= fun ys => pure (y :: ys)) =
      besideClock (f x >>= fun y => M.forEach f xs >>= fun ys => pure (y :: ys))
    rw [ih, besideClock_bind]
    simp only [besideClock_bind]
    rfl

variable (el : M (V × Nat) Nat)

theorem evalPop_beside (l : List I) : evalPop T (opsBeside ops el) l = besideClock (evalPop T ops l) := by
  have : evalOne T (opsBeside ops el) = fun i => besideClock (evalOne T ops i) := by
    funext i w
    unfold evalOne
    by_cases h : T.requiresEval i
    · rw [if_pos h]
      simp only [if_pos h]
      exact congrFun (besideClock_bind (ops.fitnessFn i) fun r => pure (T.setFitness r.1 r.2)).symm w
    · rw [if_neg h]
      simp only [if_neg h]
      rfl
  unfold evalPop
  rw [this, besideClock_forEach]

theorem evalChildren_beside (l : List I) : evalChildren T (opsBeside ops el) l = besideClock (evalChildren T ops l) := by
  unfold evalChildren
  show (if ops.requiresChildrenFitness then _ else _) = _
  cases ops.requiresChildrenFitness with
  | true => exact evalPop_beside T ops el l
  | false => rfl

theorem stopwatch_error {A : Type} {x : M V A} {v : V} {k : Nat} {e : Panic} (h : x v = .error e) :
    stopwatch (readClock τ) (besideClock x) (v, k) = .error e := by
  unfold stopwatch
  refine (M.bind_of_ok (w' := (v, k + 1)) (a := τ k) rfl).trans ?_
  rw [M.bind_of_error (besideClock_error h)]

theorem stopwatch_beside {A : Type} {x : M V A} {v v' : V} {k : Nat} {a : A} (h : x v = .ok (a, v')) :
    stopwatch (readClock τ) (besideClock x) (v, k) = .ok ((a, τ (k + 1) - τ k), (v', k + 2)) := by
  unfold stopwatch
  refine (M.bind_of_ok (w' := (v, k + 1)) (a := τ k) rfl).trans ?_
  rw [M.bind_of_ok (besideClock_ok h)]
  rfl

/-- Both computations panic alike, or return related results in the same world, with the given numbers of clock readings. -/
def Alike {A B : Type} (f : A → B) (k k' : Nat) (a : Except Panic (A × (V × Nat))) (b : Except Panic (B × (V × Nat))) : Prop :=
  (∃ e, a = .error e ∧ b = .error e) ∨ ∃ x v, a = .ok (x, (v, k)) ∧ b = .ok (f x, (v, k'))

theorem alike_of_eq {A B : Type} {f : A → B} {k k' : Nat} {a a' : Except Panic (A × (V × Nat))} {b b' : Except Panic (B × (V × Nat))} (h1 : a = a') (h2 : b = b')
    (h : Alike f k k' a' b') : Alike f k k' a b := by
  rw [h1, h2]
  exact h

theorem elapsed_start (i : Nat) : elapsedSeen τ (1 + 2 * i) = τ (6 + 16 * i) - τ 0 := by
  unfold elapsedSeen
  rw [if_neg (by omega), if_pos (by omega), show (1 + 2 * i) / 2 = i by omega]

theorem elapsed_end (i : Nat) : elapsedSeen τ (2 + 2 * i) = τ (6 + 16 * i + 15) - τ 0 := by
  unfold elapsedSeen
  rw [if_neg (by omega), if_neg (by omega), show (2 + 2 * i) / 2 - 1 = i by omega]

theorem iteration_alike (g i : Nat) (s : TSt I) (v : V) :
    Alike (fun r : TSt I × Bool => (r.1.erase, r.2)) (6 + 16 * (i + 1)) (1 + 2 * (i + 1))
      (timedIteration T (opsBeside ops el) p (readClock τ) (τ 0) g s (v, 6 + 16 * i))
      (iteration T (opsBeside ops (readElapsed τ)) p g s.erase (v, 1 + 2 * i)) := by
  unfold timedIteration iteration
  simp only [evalPop_beside, evalChildren_beside]
  have hE : (opsBeside ops (readElapsed τ) : Ops (V × Nat) I K).elapsed (v, 1 + 2 * i) = .ok (τ (6 + 16 * i) - τ 0, (v, 2 + 2 * i)) := by
    show Except.ok (elapsedSeen τ (1 + 2 * i), (v, 1 + 2 * i + 1)) = _
    rw [elapsed_start, show 1 + 2 * i + 1 = 2 + 2 * i by omega]
  rw [M.bind_of_ok hE]
  have hT : ∀ (v : V) (k : Nat), readClock τ (v, k) = .ok (τ k, (v, k + 1)) := fun _ _ => rfl
  rw [M.bind_of_ok (hT v (6 + 16 * i)), M.bind_of_ok (hT v (6 + 16 * i + 1))]
  cases h1 : evalPop T ops s.pop v with
  | error e =>
    exact Or.inl ⟨e, M.bind_of_error (stopwatch_error τ h1), M.bind_of_error (besideClock_error (x := evalPop T ops s.erase.pop) h1)⟩
  | ok r1 =>
  obtain ⟨pop, v1⟩ := r1
  rw [M.bind_of_ok (stopwatch_beside τ h1), M.bind_of_ok (besideClock_ok (x := evalPop T ops s.erase.pop) h1)]
  -- selection
  let m : Metrics := { s.metrics with generation := g, totalDur := some (τ (6 + 16 * i) - τ 0) }
  cases h2 : ops.select m pop v1 with
  | error e =>
    exact Or.inl ⟨e, M.bind_of_error (stopwatch_error τ (x := ops.select m pop) h2), M.bind_of_error (besideClock_error (x := ops.select m pop) h2)⟩
  | ok r2 =>
  obtain ⟨pool, v2⟩ := r2
  refine alike_of_eq (M.bind_of_ok (stopwatch_beside τ (x := ops.select m pop) h2)) (M.bind_of_ok (besideClock_ok (x := ops.select m pop) h2)) ?_
  -- crossover
  cases h3 : ops.cross m pool v2 with
  | error e =>
    exact Or.inl ⟨e, M.bind_of_error (stopwatch_error τ (x := ops.cross m pool) h3), M.bind_of_error (besideClock_error (x := ops.cross m pool) h3)⟩
  | ok r3 =>
  obtain ⟨crossed, v3⟩ := r3
  refine alike_of_eq (M.bind_of_ok (stopwatch_beside τ (x := ops.cross m pool) h3)) (M.bind_of_ok (besideClock_ok (x := ops.cross m pool) h3)) ?_
  -- mutation
  have hmut : ∀ el : M (V × Nat) Nat, M.forEach ((opsBeside ops el : Ops (V × Nat) I K).mutate m) crossed = besideClock (M.forEach (ops.mutate m) crossed) :=
    fun el => besideClock_forEach (ops.mutate m) crossed
  cases h4 : M.forEach (ops.mutate m) crossed v3 with
  | error e =>
    exact Or.inl ⟨e, M.bind_of_error ((congrArg (fun x => stopwatch (readClock τ) x _) (hmut el)).trans (stopwatch_error τ h4)),
      M.bind_of_error ((congrFun (hmut (readElapsed τ)) _).trans (besideClock_error h4))⟩
  | ok r4 =>
  obtain ⟨mutated, v4⟩ := r4
  refine alike_of_eq (M.bind_of_ok ((congrArg (fun x => stopwatch (readClock τ) x _) (hmut el)).trans (stopwatch_beside τ h4)))
    (M.bind_of_ok ((congrFun (hmut (readElapsed τ)) _).trans (besideClock_ok h4))) ?_
  -- children
  cases h5 : evalChildren T ops mutated v4 with
  | error e => exact Or.inl ⟨e, M.bind_of_error (besideClock_error h5), M.bind_of_error (besideClock_error h5)⟩
  | ok r5 =>
  obtain ⟨children, v5⟩ := r5
  refine alike_of_eq (M.bind_of_ok (besideClock_ok h5)) (M.bind_of_ok (besideClock_ok h5)) ?_
  -- replacement
  cases h6 : ops.replace m pop children v5 with
  | error e =>
    exact Or.inl ⟨e, M.bind_of_error (stopwatch_error τ (x := ops.replace m pop children) h6), M.bind_of_error (besideClock_error (x := ops.replace m pop children) h6)⟩
  | ok r6 =>
  obtain ⟨replaced, v6⟩ := r6
  refine alike_of_eq (M.bind_of_ok (stopwatch_beside τ (x := ops.replace m pop children) h6)) (M.bind_of_ok (besideClock_ok (x := ops.replace m pop children) h6)) ?_
  -- the assertion
  cases h7 : (replaced.length == p.populationSize) with
  | false =>
    exact Or.inl ⟨.assertion, M.bind_of_error rfl, M.bind_of_error rfl⟩
  | true =>
  refine alike_of_eq (M.bind_of_ok (a := ()) (w' := (v6, 6 + 16 * i + 1 + 1 + 2 + 2 + 2 + 2 + 2)) rfl)
    (M.bind_of_ok (a := ()) (w' := (v6, 2 + 2 * i)) rfl) ?_
  -- evaluation
  cases h8 : evalPop T ops replaced v6 with
  | error e => exact Or.inl ⟨e, M.bind_of_error (stopwatch_error τ h8), M.bind_of_error (besideClock_error h8)⟩
  | ok r8 =>
  obtain ⟨pop', v7⟩ := r8
  refine alike_of_eq (M.bind_of_ok (stopwatch_beside τ h8)) (M.bind_of_ok (besideClock_ok h8)) ?_
  -- the best individual
  cases h9 : findBest T pop' with
  | error e => exact Or.inl ⟨e, M.bind_of_error rfl, M.bind_of_error rfl⟩
  | ok b =>
  refine alike_of_eq (M.bind_of_ok (a := b) (w' := (v7, 6 + 16 * i + 1 + 1 + 2 + 2 + 2 + 2 + 2 + 2)) rfl)
    (M.bind_of_ok (a := b) (w' := (v7, 2 + 2 * i)) rfl) ?_
  have hE2 : (opsBeside ops (readElapsed τ) : Ops (V × Nat) I K).elapsed (v7, 2 + 2 * i) = .ok (τ (6 + 16 * i + 15) - τ 0, (v7, 1 + 2 * (i + 1))) := by
    show Except.ok (elapsedSeen τ (2 + 2 * i), (v7, 2 + 2 * i + 1)) = _
    rw [elapsed_end, show 2 + 2 * i + 1 = 1 + 2 * (i + 1) by omega]
  refine alike_of_eq (M.bind_of_ok (hT _ _)) rfl ?_
  refine alike_of_eq (M.bind_of_ok (hT _ _)) (M.bind_of_ok hE2) ?_
  refine Or.inr ⟨_, v7, rfl, ?_⟩
  have e1 : 6 + 16 * i + 1 + 1 + 2 + 2 + 2 + 2 + 2 + 2 + 1 = 6 + 16 * i + 15 := by omega
  simp only [e1]
  unfold TSt.erase erase
  cases Fl.lt (T.fitness b) (T.fitness s.best) <;> simp

theorem loop_alike : ∀ (n g i : Nat) (s : TSt I) (v : V), ∃ j,
    Alike TSt.erase (6 + 16 * j) (1 + 2 * j) (timedLoop T (opsBeside ops el) p (readClock τ) (τ 0) n g s (v, 6 + 16 * i))
      (loop T (opsBeside ops (readElapsed τ)) p n g s.erase (v, 1 + 2 * i))
  | 0, g, i, s, v => ⟨i, Or.inr ⟨s, v, rfl, rfl⟩⟩
  | n + 1, g, i, s, v => by
    rcases iteration_alike T ops p τ el g i s v with ⟨e, h1, h2⟩ | ⟨⟨s1, stop⟩, v1, h1, h2⟩
    · exact ⟨i, Or.inl ⟨e, M.bind_of_error h1, M.bind_of_error h2⟩⟩
    · cases stop with
      | true =>
        refine ⟨i + 1, Or.inr ⟨s1, v1, ?_, ?_⟩⟩
        · exact (M.bind_of_ok h1).trans rfl
        · exact (M.bind_of_ok h2).trans rfl
      | false =>
        obtain ⟨j, hj⟩ := loop_alike n (g + 1) (i + 1) s1 v1
        exact ⟨j, alike_of_eq ((M.bind_of_ok h1).trans rfl) ((M.bind_of_ok h2).trans rfl) hj⟩

theorem prologue_alike (m0 : Metrics) (ph0 : Phases) (v : V) :
    Alike TSt.erase 6 1 (timedPrologue T (opsBeside ops el) p (readClock τ) (τ 0) m0 ph0 (v, 1)) (prologue T (opsBeside ops (readElapsed τ)) p m0 (v, 0)) := by
  unfold timedPrologue prologue
  simp only [evalPop_beside]
  cases h1 : ops.generate p.populationSize v with
  | error e =>
    exact Or.inl ⟨e, M.bind_of_error (stopwatch_error τ (x := ops.generate p.populationSize) h1), M.bind_of_error (besideClock_error (x := ops.generate p.populationSize) h1)⟩
  | ok r1 =>
  obtain ⟨pop0, v1⟩ := r1
  refine alike_of_eq (M.bind_of_ok (stopwatch_beside τ (x := ops.generate p.populationSize) h1)) (M.bind_of_ok (besideClock_ok (x := ops.generate p.populationSize) h1)) ?_
  cases h2 : evalPop T ops pop0 v1 with
  | error e => exact Or.inl ⟨e, M.bind_of_error (stopwatch_error τ h2), M.bind_of_error (besideClock_error h2)⟩
  | ok r2 =>
  obtain ⟨pop, v2⟩ := r2
  refine alike_of_eq (M.bind_of_ok (stopwatch_beside τ h2)) (M.bind_of_ok (besideClock_ok h2)) ?_
  cases h3 : findBest T pop with
  | error e => exact Or.inl ⟨e, M.bind_of_error rfl, M.bind_of_error rfl⟩
  | ok b =>
  exact Or.inr ⟨_, v2, rfl, rfl⟩

/-- **C144, the measurements change nothing else.** For operators that do not look at the clock and every sequence of clock readings `τ`: the run
with all its measurements panics alike or returns the same individual, leaves the operators in the same state and makes the same callbacks with the same
populations, generations and total times as the run of `Ga/Solver` (about which C01 to C07 and all other GA properties speak), told the elapsed
times among the readings. -/
theorem C144_measurements_are_harmless (m0 : Metrics) (ph0 : Phases) (v : V) :
    (timedRun T (opsBeside ops el) p (readClock τ) m0 ph0 (v, 0)).map (fun r => (r.1.1, r.1.2.map Prod.snd, r.2.1)) =
      (run T (opsBeside ops (readElapsed τ)) p m0 (v, 0)).map (fun r => (r.1.1, r.1.2, r.2.1)) := by
  unfold timedRun run
  have hT : ∀ (v : V) (k : Nat), readClock τ (v, k) = .ok (τ k, (v, k + 1)) := fun _ _ => rfl
  rw [M.bind_of_ok (hT v 0)]
  rcases prologue_alike T ops p τ el m0 ph0 v with ⟨e, h1, h2⟩ | ⟨s, v1, h1, h2⟩
  · rw [M.bind_of_error h1, M.bind_of_error h2]
    rfl
  · rw [M.bind_of_ok h1, M.bind_of_ok h2]
    obtain ⟨j, hj⟩ := loop_alike T ops p τ el p.generationLimit 1 0 s v1
    rcases hj with ⟨e, h3, h4⟩ | ⟨s', v2, h3, h4⟩
    · rw [M.bind_of_error h3, M.bind_of_error h4]
      rfl
    · rw [M.bind_of_ok h3, M.bind_of_ok h4, M.bind_of_ok (hT _ _)]
      have hE : (opsBeside ops (readElapsed τ) : Ops (V × Nat) I K).elapsed (v2, 1 + 2 * j) = .ok (τ (6 + 16 * j) - τ 0, (v2, 1 + 2 * j + 1)) := by
        show Except.ok (elapsedSeen τ (1 + 2 * j), (v2, 1 + 2 * j + 1)) = _
        rw [elapsed_start]
      rw [M.bind_of_ok hE]
      show Except.ok _ = Except.ok _
      unfold TSt.erase erase
      simp only [List.map_append]
      rfl

end conservative

/-! ## A case that meets the hypotheses -/

/-- The world is the time; an evaluation takes 5 units; the fitness of `x` is `x`; crossover keeps the pool, mutation subtracts 1, replacement
takes the children. -/
def exTimedOps : Ops Nat (Individual Nat Nat) Nat where
  generate n := pure ((List.range n).map fun k => ⟨10 + k, .nan⟩)
  fitnessFn i := M.lift fun t => ((i, .num i.chromosome), t + 5)
  select _ pop := pure pop
  cross _ pool := pure pool
  mutate _ i := pure { i with chromosome := i.chromosome - 1 }
  replace _ _ children := pure children
  requiresChildrenFitness := true
  elapsed := pure 0

/-- Reading the clock. -/
def exNow : M Nat Nat := M.lift fun t => (t, t)

/-- Two individuals, two generations. -/
def exTimedRun := timedRun (Individual.trait Nat Nat) exTimedOps ⟨2, 2, 1000⟩ exNow (initialMetrics ⟨2, 2, 1000⟩) .unknown

/-- The run returns and both iterations report 10 units of evaluation in an iteration of 30; the run took 70. -/
example : (exTimedRun 100).map (fun r => (r.1.1, iterationTimes r.1.2, r.2)) = .ok (⟨8, .num 8⟩, [30, 30], 170) := by decide +kernel

theorem exTimed_clocked : Clocked exTimedOps exNow id where
  now := fun w t w' h => by cases h; exact ⟨Nat.le_refl _, Nat.le_refl _⟩
  generate := fun n => Forward.pure _
  fitness := fun i w a w' h => by cases h; exact Nat.le_add_right _ _
  select := fun _ _ => Forward.pure _
  cross := fun _ _ => Forward.pure _
  mutate := fun _ _ => Forward.pure _
  replace := fun _ _ _ => Forward.pure _

theorem exTimed_costs : EvalCosts exTimedOps exNow id 5 where
  now := fun w t w' h => by cases h; exact ⟨rfl, rfl⟩
  generate := fun n w a w' h => by cases h; rfl
  fitness := fun i w a w' h => by cases h; rfl
  select := fun _ _ w a w' h => by cases h; rfl
  cross := fun _ _ w a w' h => by cases h; rfl
  mutate := fun _ _ w a w' h => by cases h; rfl
  replace := fun _ _ _ w a w' h => by cases h; rfl

/-- A fresh solver has no iteration time to show in its first generation. -/
example : (exTimedRun 100).map (fun r => r.1.2.filterMap fun x => match x.2 with
    | .onNewGeneration m _ => some (m.generation, x.1.iteration)
    | _ => none) = .ok [(1, none), (2, some 30)] := by decide +kernel

/-! ## Every theorem on a concrete case: that run -/

section instances
variable {best : Individual Nat Nat} {tr : List (TEv (Individual Nat Nat))} {w' : Nat} (h : exTimedRun 100 = .ok ((best, tr), w'))
include h
example := C144_phase_times exTimed_clocked h
example {pre post : List (TEv (Individual Nat Nat))} {ph : Phases} {m : Metrics} {pop : List (Individual Nat Nat)}
    (htr : tr = pre ++ (ph, .onNewGeneration m pop) :: post) := C144_iteration_time_is_previous h htr (fun _ h => by cases h)
example := C144_unreported_evaluations exTimed_costs (fun _ => rfl) rfl (fun w r w' h => by cases h; rfl)
  (fun m pop w r w' hl h => by cases h; exact hl) (fun m pool w r w' hl h => by cases h; exact hl) h
end instances

end Ecrs.Ga
