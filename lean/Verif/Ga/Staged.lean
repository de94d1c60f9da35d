import Verif.Ga.Closed

/-!
# Runs in which evaluation turns individuals of one kind into individuals of another

`P` holds of every individual, `Q` of those that have been evaluated.  Unlike `TotalOps` this covers individuals that need not
be evaluated again and pools of a size different from that of the population.  A proof device, not part of the model.
-/

set_option linter.unusedSectionVars false

namespace Ecrs.Ga
open Ecrs

section
variable {W I C K : Type} [LinearOrder K] (T : IndTrait I C K) (ops : Ops W I K) (p : GAParams)

/-- Every operator returns, `n`, `k`, `c` being the sizes of the population, the mating pool and the offspring. -/
structure Staged (P Q : I → Prop) (n k c : Nat) : Prop where
  weaken : ∀ i, Q i → P i
  num : ∀ i, Q i → (T.fitness i).IsNum
  eval : ∀ i, P i → Returns (evalOne T ops i) Q
  gen : Returns (ops.generate n) fun pop => pop.length = n ∧ ∀ i ∈ pop, P i
  sel : ∀ m pop, pop.length = n → (∀ i ∈ pop, Q i) → Returns (ops.select m pop) fun pool => pool.length = k ∧ ∀ i ∈ pool, Q i
  cross : ∀ m pool, pool.length = k → (∀ i ∈ pool, Q i) → Returns (ops.cross m pool) fun out => out.length = c ∧ ∀ i ∈ out, P i
  mutate : ∀ m i, P i → Returns (ops.mutate m i) P
  replace : ∀ m pop children, pop.length = n → children.length = c → (∀ i ∈ pop, Q i) → (∀ i ∈ children, P i) →
    Returns (ops.replace m pop children) fun out => out.length = n ∧ ∀ i ∈ out, P i
  elapsed : Returns ops.elapsed fun _ => True

/-- Every individual shown by an event satisfies `Q`, children handed to the replacement satisfy `P`. -/
def EvStaged (P Q : I → Prop) : Ev I → Prop
  | .onStart _ | .onIterationStart _ | .onIterationEnd _ | .clockCheck _ => True
  | .onInitialPopulation _ pop | .onNewGeneration _ pop | .selectCall pop => ∀ i ∈ pop, Q i
  | .onNewBest _ i | .onBestFit _ i => Q i
  | .onEnd _ pop best => (∀ i ∈ pop, Q i) ∧ Q best
  | .replaceCall pop children => (∀ i ∈ pop, Q i) ∧ ∀ i ∈ children, P i

variable {T ops} {P Q : I → Prop} {n k c : Nat}

theorem Staged.evalPop (h : Staged T ops P Q n k c) {pop : List I} (hp : ∀ i ∈ pop, P i) :
    Returns (evalPop T ops pop) fun out => out.length = pop.length ∧ ∀ i ∈ out, Q i :=
  (Returns.forEach (R := fun _ y => Q y) pop fun i hi => h.eval i (hp i hi)).mono fun _ ho =>
    ⟨ho.length_eq.symm, forall₂_right ho fun _ _ h => h⟩

theorem Staged.findBest (h : Staged T ops P Q n k c) (hn : 0 < n) {pop : List I} (hl : pop.length = n) (hp : ∀ i ∈ pop, Q i) :
    Returns (M.ofExcept (Ga.findBest T pop) : M W I) Q := by
  have hne : pop ≠ [] := by rintro rfl; simp at hl; omega
  obtain ⟨b, hb⟩ := findBest_ok T hne fun i hi => h.num i (hp i hi)
  exact Returns.ofExcept hb (hp b (findBest_mem T hb))

/-- A staged run returns, and everything it shows has been evaluated. -/
theorem Staged.run (h : Staged T ops P Q n k c) (hn : 0 < n) (hp : p.populationSize = n) (m0 : Metrics) :
    Returns (Ga.run T ops p m0) fun r => Q r.1 ∧ ∀ e ∈ r.2, EvStaged P Q e := by
  let Inv : St I → Prop := fun s => s.pop.length = n ∧ (∀ i ∈ s.pop, Q i) ∧ Q s.best ∧ ∀ e ∈ s.trace, EvStaged P Q e
  have hiter : ∀ g s, Inv s → Returns (Ga.iteration T ops p g s) fun r => Inv r.1 := by
    rintro g s ⟨hs1, hs2, hs3, hs4⟩
    unfold Ga.iteration
    refine Returns.bind h.elapsed fun d _ => ?_
    refine Returns.bind (h.evalPop fun i hi => h.weaken i (hs2 i hi)) fun pop h1 => ?_
    have hl : pop.length = n := h1.1.trans hs1
    refine Returns.bind (h.sel _ pop hl h1.2) fun pool h2 => ?_
    refine Returns.bind (h.cross _ pool h2.1 h2.2) fun crossed h3 => ?_
    refine Returns.bind (P := fun out => out.length = c ∧ ∀ i ∈ out, P i)
      ((Returns.forEach (R := fun _ y => P y) crossed fun i hi => h.mutate _ i (h3.2 i hi)).mono
        fun out h => ⟨by rw [← h.length_eq, h3.1], forall₂_right h fun _ _ h => h⟩) fun mutated h4 => ?_
    refine Returns.bind (P := fun out => out.length = c ∧ ∀ i ∈ out, P i) ?_ fun children h5 => ?_
    · unfold Ga.evalChildren
      split
      · exact (h.evalPop h4.2).mono fun out ho => ⟨by rw [ho.1, h4.1], fun i hi => h.weaken i (ho.2 i hi)⟩
      · exact Returns.pure h4
    refine Returns.bind (h.replace _ pop children hl h5.1 h1.2 h5.2) fun replaced h6 => ?_
    refine Returns.bind (Returns.assert (by simp [h6.1, hp])) fun _ _ => ?_
    refine Returns.bind (h.evalPop h6.2) fun pop' h7 => ?_
    have hl' : pop'.length = n := h7.1.trans h6.1
    refine Returns.bind (h.findBest hn hl' h7.2) fun b hb => ?_
    refine Returns.bind h.elapsed fun d' _ => ?_
    refine Returns.pure ⟨hl', h7.2, ?_, ?_⟩
    · show Q (if _ then _ else _)
      split
      · exact hb
      · exact hs3
    · intro e he
      simp only [List.mem_append, List.mem_cons, List.not_mem_nil, or_false] at he
      rcases he with ((he | rfl | rfl | rfl | rfl | rfl) | he) | rfl | rfl
      · exact hs4 e he
      · trivial
      · exact h1.2
      · exact ⟨h1.2, h5.2⟩
      · exact h7.2
      · exact hb
      · split at he
        · simp at he; subst he; exact hb
        · simp at he
      · trivial
      · trivial
  have hloop : ∀ (l g : Nat) (s : St I), Inv s → Returns (Ga.loop T ops p l g s) Inv := by
    intro l
    induction l with
    | zero => intro g s hs; exact Returns.pure hs
    | succ l ih =>
      intro g s hs
      unfold Ga.loop
      refine Returns.bind (hiter g s hs) fun r hr => ?_
      obtain ⟨s', stop⟩ := r
      simp only
      split
      · exact Returns.pure hr
      · exact ih (g + 1) s' hr
  unfold Ga.run
  refine Returns.bind (P := Inv) ?_ fun s hs => ?_
  · unfold Ga.prologue
    rw [hp]
    refine Returns.bind h.gen fun pop0 h0 => ?_
    refine Returns.bind (h.evalPop h0.2) fun pop h1 => ?_
    have hl := h1.1.trans h0.1
    refine Returns.bind (h.findBest hn hl h1.2) fun b hb => ?_
    refine Returns.bind h.elapsed fun d _ => Returns.pure ⟨hl, h1.2, hb, ?_⟩
    intro e he
    simp only [List.mem_cons, List.not_mem_nil, or_false] at he
    rcases he with rfl | rfl | rfl
    · trivial
    · exact h1.2
    · exact hb
  · refine Returns.bind (hloop _ _ _ hs) fun s' hs' => ?_
    refine Returns.bind h.elapsed fun d _ => Returns.pure ⟨hs'.2.2.1, fun e he => ?_⟩
    simp only [List.mem_append, List.mem_cons, List.not_mem_nil, or_false] at he
    rcases he with he | rfl
    · exact hs'.2.2.2 e he
    · exact ⟨hs'.2.1, hs'.2.2.1⟩

end
end Ecrs.Ga
