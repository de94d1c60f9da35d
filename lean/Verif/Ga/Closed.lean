import Verif.Ga.SolverLemmas

/-!
# Invariants of individuals through a whole run

`Closed` : every operator preserves a predicate `P` on individuals.  `TotalOps` : moreover every operator
returns on individuals satisfying `P`.  These are proof devices, not part of the model.
-/

set_option linter.unusedSectionVars false

namespace Ecrs.Ga
open Ecrs

section
variable {W I C K : Type} [LinearOrder K] (T : IndTrait I C K) (ops : Ops W I K) (p : GAParams)

/-- Every operator keeps individuals inside `P` (whenever it returns). -/
structure Closed (P : I → Prop) : Prop where
  set : ∀ i x, P i → P (T.setFitness i x)
  gen : ∀ n, IfReturns (ops.generate n) fun pop => ∀ i ∈ pop, P i
  fit : ∀ i, P i → IfReturns (ops.fitnessFn i) fun r => P r.1
  sel : ∀ m pop, (∀ i ∈ pop, P i) → IfReturns (ops.select m pop) fun pool => ∀ i ∈ pool, P i
  cross : ∀ m pool, (∀ i ∈ pool, P i) → IfReturns (ops.cross m pool) fun out => ∀ i ∈ out, P i
  mutate : ∀ m i, P i → IfReturns (ops.mutate m i) P
  replace : ∀ m pop children, (∀ i ∈ pop, P i) → (∀ i ∈ children, P i) →
    IfReturns (ops.replace m pop children) fun out => ∀ i ∈ out, P i

theorem forall₂_right {α β : Type} {R : α → β → Prop} {Q : β → Prop} {xs : List α} {ys : List β}
    (h : List.Forall₂ R xs ys) (hq : ∀ x y, R x y → Q y) : ∀ y ∈ ys, Q y := by
  induction h with
  | nil => simp
  | cons h1 _ ih =>
    intro y hy
    rcases List.mem_cons.1 hy with rfl | hy
    · exact hq _ _ h1
    · exact ih y hy

variable {T ops} {P : I → Prop}

theorem Closed.evalOne (hc : Closed T ops P) {i : I} (hi : P i) : IfReturns (evalOne T ops i) P := by
  unfold Ga.evalOne
  by_cases h : T.requiresEval i
  · rw [if_pos h]
    exact IfReturns.bind (hc.fit i hi) fun r hr => IfReturns.pure (hc.set _ _ hr)
  · rw [if_neg h]; exact IfReturns.pure hi

theorem Closed.evalPop (hc : Closed T ops P) {pop : List I} (hp : ∀ i ∈ pop, P i) :
    IfReturns (evalPop T ops pop) fun out => ∀ i ∈ out, P i :=
  (IfReturns.forEach (R := fun _ y => P y) pop fun i hi => hc.evalOne (hp i hi)).mono fun _ h =>
    forall₂_right h fun _ _ h => h

theorem Closed.evalChildren (hc : Closed T ops P) {pop : List I} (hp : ∀ i ∈ pop, P i) :
    IfReturns (evalChildren T ops pop) fun out => ∀ i ∈ out, P i := by
  unfold Ga.evalChildren
  split
  · exact hc.evalPop hp
  · exact IfReturns.pure hp

theorem Closed.mutateAll (hc : Closed T ops P) (m : Metrics) {pop : List I} (hp : ∀ i ∈ pop, P i) :
    IfReturns (M.forEach (ops.mutate m) pop) fun out => ∀ i ∈ out, P i :=
  (IfReturns.forEach (R := fun _ y => P y) pop fun i hi => hc.mutate m i (hp i hi)).mono fun _ h =>
    forall₂_right h fun _ _ h => h

/-- Every individual occurring in an event satisfies `P`. -/
def EvAll (P : I → Prop) : Ev I → Prop
  | .onStart _ | .onIterationStart _ | .onIterationEnd _ | .clockCheck _ => True
  | .onInitialPopulation _ pop | .onNewGeneration _ pop | .selectCall pop => ∀ i ∈ pop, P i
  | .onNewBest _ i | .onBestFit _ i => P i
  | .onEnd _ pop best => (∀ i ∈ pop, P i) ∧ P best
  | .replaceCall pop children => (∀ i ∈ pop, P i) ∧ ∀ i ∈ children, P i

/-- The loop invariant. -/
structure AllInv (P : I → Prop) (s : St I) : Prop where
  pop : ∀ i ∈ s.pop, P i
  best : P s.best
  trace : ∀ e ∈ s.trace, EvAll P e

theorem Closed.prologue (hc : Closed T ops P) {m0 : Metrics} {s : St I} {w w' : W}
    (h : prologue T ops p m0 w = .ok (s, w')) : AllInv P s := by
  obtain ⟨pop0, wa, wb, d, h1, h2, h3, h4, h5, h6⟩ := prologue_ok T ops p h
  have hp := hc.evalPop (hc.gen _ _ _ _ h1) _ _ _ h2
  have hb := hp _ (findBest_mem T h3)
  refine ⟨hp, hb, ?_⟩
  rw [h6]; intro e he; simp at he
  rcases he with rfl | rfl | rfl
  · trivial
  · exact hp
  · exact hb

theorem Closed.iteration (hc : Closed T ops P) {g : Nat} {s s' : St I} {stop : Bool} {w w' : W}
    (hi : AllInv P s) (h : iteration T ops p g s w = .ok ((s', stop), w')) : AllInv P s' := by
  obtain ⟨d, wa, m, pop, wb, pool, wc, crossed, wd, mutated, we, children, wf, replaced, wg, m', wh, b, d',
    wi, -, -, e1, e2, e3, e4, e5, e6, -, -, e7, hb, -, hbest, -, -, htr⟩ := iteration_ok T ops p h
  have p1 := hc.evalPop hi.pop _ _ _ e1
  have p2 := hc.sel m _ p1 _ _ _ e2
  have p3 := hc.cross m _ p2 _ _ _ e3
  have p4 := hc.mutateAll m p3 _ _ _ e4
  have p5 := hc.evalChildren p4 _ _ _ e5
  have p6 := hc.replace m _ _ p1 p5 _ _ _ e6
  have p7 := hc.evalPop p6 _ _ _ e7
  have pb := p7 _ (findBest_mem T hb)
  refine ⟨p7, ?_, ?_⟩
  · rw [hbest]; split
    · exact pb
    · exact hi.best
  · rw [htr]
    intro e he
    simp only [List.mem_append, List.mem_cons, List.not_mem_nil, or_false] at he
    rcases he with ((he | rfl | rfl | rfl | rfl | rfl) | he) | rfl | rfl
    · exact hi.trace e he
    · trivial
    · exact p1
    · exact ⟨p1, p5⟩
    · exact p7
    · exact pb
    · split at he
      · simp at he; subst he; exact pb
      · simp at he
    · trivial
    · trivial

/-- Every individual that occurs anywhere in a returning run satisfies `P`. -/
theorem Closed.run (hc : Closed T ops P) {m0 : Metrics} {best : I} {tr : List (Ev I)} {w w' : W}
    (h : run T ops p m0 w = .ok ((best, tr), w')) : P best ∧ ∀ e ∈ tr, EvAll P e := by
  obtain ⟨s, wa, s', wb, d, h1, h2, -, hb, htr⟩ := run_ok T ops p h
  obtain ⟨k, -, hk⟩ := loop_inv T ops p (Inv := fun _ s => AllInv P s)
    (fun g s w s' stop w' hi h => hc.iteration p hi h) _ _ _ _ _ _ (hc.prologue p h1) h2
  subst hb htr
  refine ⟨hk.best, fun e he => ?_⟩
  simp only [List.mem_append, List.mem_cons, List.not_mem_nil, or_false] at he
  rcases he with he | rfl
  · exact hk.trace e he
  · exact ⟨hk.pop, hk.best⟩

/-! ## The fitness function only ever sees `P` -/

/-- A fitness function that refuses (panics on) anything outside `P`. -/
noncomputable def guarded (P : I → Prop) (f : I → M W (I × Fl K)) : I → M W (I × Fl K) :=
  open Classical in fun i => if P i then f i else M.fail .assertion

theorem bind_congr_on {α β : Type} {m : M W α} {f g : α → M W β} {Q : α → Prop} (hm : IfReturns m Q)
    (h : ∀ a, Q a → f a = g a) : (m >>= f) = (m >>= g) := by
  funext w
  cases hw : m w with
  | error e => rw [M.bind_of_error hw, M.bind_of_error hw]
  | ok r =>
    obtain ⟨a, w'⟩ := r
    rw [M.bind_of_ok hw, M.bind_of_ok hw, h a (hm _ _ _ hw)]

theorem forEach_congr_on {α β : Type} {f g : α → M W β} : ∀ (xs : List α), (∀ x ∈ xs, f x = g x) →
    M.forEach f xs = M.forEach g xs
  | [], _ => rfl
  | x :: xs, h => by
    unfold M.forEach
    rw [h x (by simp), forEach_congr_on xs fun y hy => h y (by simp [hy])]

theorem evalPop_guarded {pop : List I} (hp : ∀ i ∈ pop, P i) :
    evalPop T { ops with fitnessFn := guarded P ops.fitnessFn } pop = evalPop T ops pop := by
  refine forEach_congr_on pop fun i hi => ?_
  unfold Ga.evalOne guarded
  simp only [if_pos (hp i hi)]

theorem evalChildren_guarded {pop : List I} (hp : ∀ i ∈ pop, P i) :
    evalChildren T { ops with fitnessFn := guarded P ops.fitnessFn } pop = evalChildren T ops pop := by
  unfold Ga.evalChildren
  simp only
  rw [evalPop_guarded hp]

theorem Closed.iteration_guarded (hc : Closed T ops P) {g : Nat} {s : St I} (hi : AllInv P s) :
    Ga.iteration T { ops with fitnessFn := guarded P ops.fitnessFn } p g s = Ga.iteration T ops p g s := by
  unfold Ga.iteration
  refine bind_congr_on IfReturns.trivial fun d _ => ?_
  simp only
  rw [evalPop_guarded hi.pop]
  refine bind_congr_on (hc.evalPop hi.pop) fun pop hpop => ?_
  refine bind_congr_on (hc.sel _ pop hpop) fun pool hpool => ?_
  refine bind_congr_on (hc.cross _ pool hpool) fun crossed hcr => ?_
  refine bind_congr_on (hc.mutateAll _ hcr) fun mutated hmu => ?_
  rw [evalChildren_guarded hmu]
  refine bind_congr_on (hc.evalChildren hmu) fun children hch => ?_
  refine bind_congr_on (hc.replace _ pop children hpop hch) fun replaced hr => ?_
  refine bind_congr_on IfReturns.trivial fun _ _ => ?_
  rw [evalPop_guarded hr]

theorem Closed.loop_guarded (hc : Closed T ops P) : ∀ (n g : Nat) (s : St I), AllInv P s →
    Ga.loop T { ops with fitnessFn := guarded P ops.fitnessFn } p n g s = Ga.loop T ops p n g s
  | 0, _, _, _ => rfl
  | n + 1, g, s, hi => by
    unfold Ga.loop
    rw [hc.iteration_guarded p hi]
    refine bind_congr_on (Q := fun r => AllInv P r.1) (fun w r w' h => ?_) fun r hr => ?_
    · obtain ⟨s', stop⟩ := r
      exact hc.iteration p hi h
    · obtain ⟨s', stop⟩ := r
      simp only
      rw [hc.loop_guarded n (g + 1) s' hr]

/-- Replacing the fitness function by one that panics outside `P` changes nothing: no individual outside `P`
is ever evaluated. -/
theorem Closed.run_guarded (hc : Closed T ops P) (m0 : Metrics) :
    Ga.run T { ops with fitnessFn := guarded P ops.fitnessFn } p m0 = Ga.run T ops p m0 := by
  have hpro : Ga.prologue T { ops with fitnessFn := guarded P ops.fitnessFn } p m0 =
      Ga.prologue T ops p m0 := by
    unfold Ga.prologue
    refine bind_congr_on (hc.gen _) fun pop0 h0 => ?_
    simp only
    rw [evalPop_guarded h0]
  unfold Ga.run
  rw [hpro]
  refine bind_congr_on (Q := AllInv P) (fun w s w' h => hc.prologue p h) fun s hs => ?_
  rw [hc.loop_guarded p _ _ _ hs]

/-! ## Total runs -/

variable (T ops P)

/-- Every operator returns on populations of the size `n` whose members satisfy `P`. -/
structure TotalOps (n : Nat) : Prop where
  eval : ∀ i, T.requiresEval i = true
  set : ∀ i x, P i → P (T.setFitness i x)
  gen : Returns (ops.generate n) fun pop => pop.length = n ∧ ∀ i ∈ pop, P i
  fit : ∀ i, P i → Returns (ops.fitnessFn i) fun r => P r.1 ∧ r.2.IsNum
  sel : ∀ m pop, pop.length = n → (∀ i ∈ pop, P i) → (∀ i ∈ pop, (T.fitness i).IsNum) →
    Returns (ops.select m pop) fun pool => pool.length = n ∧ ∀ i ∈ pool, P i
  cross : ∀ m pool, pool.length = n → (∀ i ∈ pool, P i) →
    Returns (ops.cross m pool) fun out => out.length = n ∧ ∀ i ∈ out, P i
  mutate : ∀ m i, P i → Returns (ops.mutate m i) P
  replace : ∀ m pop children, pop.length = n → children.length = n → (∀ i ∈ pop, P i) →
    (∀ i ∈ children, P i) → (∀ i ∈ pop, (T.fitness i).IsNum) →
    (ops.requiresChildrenFitness = true → ∀ i ∈ children, (T.fitness i).IsNum) →
    Returns (ops.replace m pop children) fun out => out.length = n ∧ ∀ i ∈ out, P i
  elapsed : Returns ops.elapsed fun _ => True

variable {T ops P}

/-- Size, predicate and numeric fitness. -/
def Good (T : IndTrait I C K) (P : I → Prop) (n : Nat) (pop : List I) : Prop :=
  pop.length = n ∧ (∀ i ∈ pop, P i) ∧ ∀ i ∈ pop, (T.fitness i).IsNum

theorem TotalOps.evalPop {n : Nat} (ht : TotalOps T ops P n) {pop : List I} (hl : pop.length = n)
    (hp : ∀ i ∈ pop, P i) : Returns (evalPop T ops pop) (Good T P n) := by
  refine (Returns.forEach (R := fun _ y => P y ∧ (T.fitness y).IsNum) pop fun i hi => ?_).mono
    fun out h => ⟨by rw [← h.length_eq, hl], forall₂_right h fun _ _ h => h.1,
      forall₂_right h fun _ _ h => h.2⟩
  unfold Ga.evalOne
  rw [if_pos (ht.eval i)]
  exact Returns.bind (ht.fit i (hp i hi)) fun r hr => Returns.pure ⟨ht.set _ _ hr.1, by
    rw [T.fitness_set]; exact hr.2⟩

theorem TotalOps.findBest {n : Nat} (hn : 0 < n) {pop : List I} (hg : Good T P n pop) :
    Returns (M.ofExcept (Ga.findBest T pop) : M W I) fun _ => True := by
  have hne : pop ≠ [] := by rintro rfl; have := hg.1; simp at this; omega
  obtain ⟨b, hb⟩ := findBest_ok T hne hg.2.2
  exact Returns.ofExcept hb trivial

theorem TotalOps.iteration {n : Nat} (ht : TotalOps T ops P n) (hn : 0 < n) (hp : p.populationSize = n)
    {g : Nat} {s : St I} (hs : Good T P n s.pop) :
    Returns (Ga.iteration T ops p g s) fun r => Good T P n r.1.pop := by
  unfold Ga.iteration
  refine Returns.bind ht.elapsed fun d _ => ?_
  refine Returns.bind (ht.evalPop hs.1 hs.2.1) fun pop h1 => ?_
  refine Returns.bind (ht.sel _ pop h1.1 h1.2.1 h1.2.2) fun pool h2 => ?_
  refine Returns.bind (ht.cross _ pool h2.1 h2.2) fun crossed h3 => ?_
  refine Returns.bind (P := fun out => out.length = n ∧ ∀ i ∈ out, P i)
    ((Returns.forEach (R := fun _ y => P y) crossed fun i hi => ht.mutate _ i (h3.2 i hi)).mono
      fun out h => ⟨by rw [← h.length_eq, h3.1], forall₂_right h fun _ _ h => h⟩) fun mutated h4 => ?_
  refine Returns.bind (P := fun out => out.length = n ∧ (∀ i ∈ out, P i) ∧
    (ops.requiresChildrenFitness = true → ∀ i ∈ out, (T.fitness i).IsNum)) ?_ fun children h5 => ?_
  · unfold Ga.evalChildren
    split
    · exact (ht.evalPop h4.1 h4.2).mono fun out h => ⟨h.1, h.2.1, fun _ => h.2.2⟩
    · exact Returns.pure ⟨h4.1, h4.2, fun h => by simp_all⟩
  refine Returns.bind (ht.replace _ pop children h1.1 h5.1 h1.2.1 h5.2.1 h1.2.2 h5.2.2)
    fun replaced h6 => ?_
  refine Returns.bind (Returns.assert (by simp [h6.1, hp])) fun _ _ => ?_
  refine Returns.bind (ht.evalPop h6.1 h6.2) fun pop' h7 => ?_
  refine Returns.bind (TotalOps.findBest hn h7) fun b _ => ?_
  refine Returns.bind ht.elapsed fun d' _ => ?_
  exact Returns.pure h7

theorem TotalOps.loop {n : Nat} (ht : TotalOps T ops P n) (hn : 0 < n) (hp : p.populationSize = n) :
    ∀ (k g : Nat) (s : St I), Good T P n s.pop →
      Returns (Ga.loop T ops p k g s) fun r => Good T P n r.pop
  | 0, _, _, hs => Returns.pure hs
  | k + 1, g, s, hs => by
    unfold Ga.loop
    refine Returns.bind (ht.iteration p hn hp hs) fun r hr => ?_
    obtain ⟨s', stop⟩ := r
    simp only
    split
    · exact Returns.pure hr
    · exact ht.loop hn hp k (g + 1) s' hr

/-- Such a run never panics. -/
theorem TotalOps.run {n : Nat} (ht : TotalOps T ops P n) (hn : 0 < n) (hp : p.populationSize = n)
    (m0 : Metrics) : Returns (Ga.run T ops p m0) fun _ => True := by
  unfold Ga.run
  refine Returns.bind (P := fun s => Good T P n s.pop) ?_ fun s hs => ?_
  · unfold Ga.prologue
    rw [hp]
    refine Returns.bind ht.gen fun pop0 h0 => ?_
    refine Returns.bind (ht.evalPop h0.1 h0.2) fun pop h1 => ?_
    refine Returns.bind (TotalOps.findBest hn h1) fun b _ => ?_
    exact Returns.bind ht.elapsed fun d _ => Returns.pure h1
  · refine Returns.bind (ht.loop p hn hp _ _ _ hs) fun s' _ => ?_
    exact Returns.bind ht.elapsed fun d _ => Returns.pure trivial

end
end Ecrs.Ga
