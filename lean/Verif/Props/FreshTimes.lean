import Verif.Props.GaTimed

/-!
# C144: which durations a new solver shows
-/

set_option linter.unusedSectionVars false
set_option linter.unusedVariables false

namespace Ecrs.Ga
open Ecrs

section
variable {W I C K : Type} [LinearOrder K] {T : IndTrait I C K} {ops : Ops W I K} {p : GAParams} {now : M W Nat}

/-- **C144, a new solver.** The metrics of a new solver know no duration, and the callbacks of its run show this: `on_start` sees none;
`on_initial_population` and the first `on_new_best` see the times of generating and evaluating the initial population and nothing else;
every later callback sees the same generation time; and until the first iteration has ended nobody sees the duration of an iteration. -/
theorem C144_new_solver {m0 : Metrics} {best : I} {tr : List (TEv I)} {w w' : W}
    (h : timedRun T ops p now m0 .unknown w = .ok ((best, tr), w')) :
    ∃ (dG dE : Nat) (m1 m2 : Metrics) (pop : List I) (b : I) (rest : List (TEv I)),
      tr = (⟨none, none, none, none, none, none, none⟩, .onStart m0) ::
        (⟨some dG, some dE, none, none, none, none, none⟩, .onInitialPopulation m1 pop) ::
        (⟨some dG, some dE, none, none, none, none, none⟩, .onNewBest m2 b) :: rest ∧
      (∀ x ∈ rest, x.1.popGen = some dG) ∧
      ∀ pre x post, tr = pre ++ x :: post → (∀ ph m, (ph, .onIterationEnd m) ∉ pre) → (∀ m, x.2 ≠ .onIterationEnd m) →
        x.1.iteration = none := by
  have hit : ∀ pre x post, tr = pre ++ x :: post → (∀ ph m, (ph, .onIterationEnd m) ∉ pre) → (∀ m, x.2 ≠ .onIterationEnd m) →
      x.1.iteration = none := by
    intro pre x post htr hpre hx
    rw [C144_iteration_time_is_previous h htr hx]
    have : ∀ (l : List (TEv I)), (∀ ph m, (ph, .onIterationEnd m) ∉ l) → lastReported none l = none := by
      intro l
      induction l with
      | nil => intro _; rfl
      | cons y l ih =>
        intro hl
        have e : lastReported none (y :: l) = lastReported none l := by
          obtain ⟨ph, ev⟩ := y
          cases ev with
          | onIterationEnd m => exact absurd List.mem_cons_self (hl ph m)
          | _ => rfl
        rw [e]
        exact ih fun ph m hm => hl ph m (List.mem_cons_of_mem _ hm)
    exact this pre hpre
  obtain ⟨start, t, w1, w2, w3, s, s', h1, h2, h3, h4, -, rfl⟩ := timedRun_ok h
  obtain ⟨pop0, dG, dE, t0, m1, m2, v1, v2, k1, k2, k3, k4, k5⟩ := timedPrologue_ok h2
  obtain ⟨rest, i1, i2, i3⟩ := timedLoop_inv (start := start)
    (Inv := fun s' w => ∃ rest, s'.trace = s.trace ++ rest ∧ (∀ x ∈ rest, x.1.popGen = some dG) ∧ s'.phases.popGen = some dG)
    (fun g s1 w s2 stop w' h ⟨rest, i1, i2, i3⟩ => by
      obtain ⟨m, m', t, it, it', t', dE, dS, dC, dM, dR, dE', pop, pool, crossed, mutated, children, replaced, b, w1, w2, w3, w4, w5, w6, w7, w8, w9, w10, -, -, -, -, -, -,
        -, -, -, -, -, -, hph, imp, himp, htr⟩ := timedIteration_ok h
      refine ⟨_, by rw [htr, i1, List.append_assoc], ?_, by rw [hph]; exact i3⟩
      intro x hx
      rcases List.mem_append.1 hx with hx | hx
      · exact i2 x hx
      simp only [List.mem_append, List.mem_cons, List.not_mem_nil, or_false] at hx
      rcases hx with ((rfl | rfl | rfl | rfl | rfl) | hx) | rfl | rfl
      · exact i3
      · exact i3
      · exact i3
      · exact i3
      · exact i3
      · rw [himp x hx]; exact i3
      · rw [hph]; exact i3
      · rw [hph]; exact i3) _ _ _ _ _ _ h3 ⟨[], by simp, by simp, by rw [k4]⟩
  refine ⟨dG, dE, m1, m2, s.pop, s.best, rest ++ [(s'.phases, .onEnd { s'.metrics with totalDur := some (t - start) } s'.pop s'.best)], ?_, ?_, hit⟩
  · rw [i1, k5, k4]; rfl
  · intro x hx
    rcases List.mem_append.1 hx with hx | hx
    · exact i2 x hx
    · rw [List.mem_singleton.1 hx]; exact i3

end

/-- The run of `exTimedRun` is one of a new solver. -/
example {best : Individual Nat Nat} {tr : List (TEv (Individual Nat Nat))} {w' : Nat} (h : exTimedRun 100 = .ok ((best, tr), w')) :=
  C144_new_solver h

end Ecrs.Ga
