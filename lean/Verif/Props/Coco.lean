import Verif.Coco.Model
import Verif.Props.RealGa
import Verif.Props.GaExamples

/-!
# Property C141: the benchmark harness
-/

set_option linter.unusedSectionVars false
set_option linter.unusedVariables false

namespace Ecrs.Coco
open Ecrs Ecrs.Ga

/-! ## Programs and the points they evaluate -/

section logic
variable {W V α β : Type}

/-- From every world, `m` returns, evaluates further points that all satisfy `A`, and the result and the number of points satisfy `Q`. -/
def Runs (log : W → List V) (A : V → Prop) (m : M W α) (Q : α → Nat → Prop) : Prop :=
  ∀ w, ∃ a w' new, m w = .ok (a, w') ∧ log w' = log w ++ new ∧ (∀ x ∈ new, A x) ∧ Q a new.length

/-- `m` evaluates nothing. -/
def Silent (log : W → List V) (m : M W α) : Prop := ∀ w a w', m w = .ok (a, w') → log w' = log w

variable {log : W → List V} {A : V → Prop}

theorem Runs.mono {m : M W α} {Q Q' : α → Nat → Prop} (h : Runs log A m Q) (hq : ∀ a j, Q a j → Q' a j) : Runs log A m Q' := by
  intro w
  obtain ⟨a, w', new, h1, h2, h3, h4⟩ := h w
  exact ⟨a, w', new, h1, h2, h3, hq _ _ h4⟩

theorem Runs.pure {a : α} {Q : α → Nat → Prop} (h : Q a 0) : Runs log A (pure a : M W α) Q :=
  fun w => ⟨a, w, [], rfl, by simp, by simp, h⟩

theorem Runs.bind {m : M W α} {f : α → M W β} {P : α → Nat → Prop} {Q : β → Nat → Prop} (hm : Runs log A m P)
    (hf : ∀ a j, P a j → Runs log A (f a) fun b k => Q b (j + k)) : Runs log A (m >>= f) Q := by
  intro w
  obtain ⟨a, w1, new, h1, h2, h3, h4⟩ := hm w
  obtain ⟨b, w2, new', g1, g2, g3, g4⟩ := hf a _ h4 w1
  refine ⟨b, w2, new ++ new', by rw [M.bind_of_ok h1, g1], by rw [g2, h2, List.append_assoc], ?_, by rw [List.length_append]; exact g4⟩
  intro x hx
  exact (List.mem_append.1 hx).elim (h3 x) (g3 x)

theorem Runs.of_silent {m : M W α} {P : α → Prop} (h : Returns m P) (hs : Silent log m) : Runs log A m fun a j => j = 0 ∧ P a := by
  intro w
  obtain ⟨a, w', h1, h2⟩ := h w
  exact ⟨a, w', [], h1, by rw [hs w a w' h1]; simp, by simp, rfl, h2⟩

/-- A silent first step. -/
theorem Runs.silently {m : M W α} {f : α → M W β} {P : α → Prop} {Q : β → Nat → Prop} (h : Returns m P) (hs : Silent log m)
    (hf : ∀ a, P a → Runs log A (f a) Q) : Runs log A (m >>= f) Q :=
  (Runs.of_silent h hs).bind fun a j hj => by
    obtain ⟨rfl, hj⟩ := hj
    simpa using hf a hj

theorem Runs.forEach {f : α → M W β} {P : β → Prop} : ∀ {xs : List α}, (∀ x ∈ xs, Runs log A (f x) fun b j => j = 1 ∧ P b) →
    Runs log A (M.forEach f xs) fun ys j => j = xs.length ∧ ys.length = xs.length ∧ ∀ y ∈ ys, P y
  | [], _ => Runs.pure (by simp)
  | x :: xs, h => by
    unfold M.forEach
    refine (h x (by simp)).bind fun y j hy => ?_
    refine (Runs.forEach (xs := xs) fun z hz => h z (by simp [hz])).bind fun ys k hys => ?_
    refine Runs.pure ⟨by simp only [List.length_cons]; omega, by simp only [List.length_cons]; omega, ?_⟩
    intro z hz
    rcases List.mem_cons.1 hz with rfl | hz
    · exact hy.2
    · exact hys.2.2 z hz

theorem Silent.pure {a : α} : Silent log (pure a : M W α) := fun w b w' h => by cases h; rfl

theorem Silent.bind {m : M W α} {f : α → M W β} (hm : Silent log m) (hf : ∀ a, Silent log (f a)) : Silent log (m >>= f) := by
  intro w b w' h
  obtain ⟨a, w1, h1, h2⟩ := M.bind_ok_iff.1 h
  rw [hf a _ _ _ h2, hm _ _ _ h1]

theorem Silent.forEach {f : α → M W β} (hf : ∀ x, Silent log (f x)) : ∀ xs : List α, Silent log (M.forEach f xs)
  | [] => Silent.pure
  | x :: xs => by
    unfold M.forEach
    exact Silent.bind (hf x) fun y => Silent.bind (Silent.forEach hf xs) fun ys => Silent.pure

theorem Silent.ofExcept {x : Except Panic α} : Silent log (M.ofExcept x : M W α) := by
  intro w a w' h
  have : w' = w := (M.ofExcept_ok_iff.1 h).2
  rw [this]

theorem Silent.assert {c : Bool} {e : Panic} : Silent log (M.assert c e : M W Unit) := by
  intro w a w' h
  have : (a, w') = ((), w) := (M.assert_ok_iff.1 h).2
  have : w' = w := (Prod.ext_iff.1 this).2
  rw [this]

theorem Silent.fail {e : Panic} : Silent log (M.fail e : M W α) := fun w a w' h => by cases h

theorem Silent.slot {G : Type} {s : Slot W G} (hs : ∀ g w, log (s.put g w) = log w) {m : M G α} : Silent log (s.run m) := by
  intro w a w' h
  unfold Slot.run at h
  cases e : m (s.get w) with
  | error e' => rw [e] at h; cases h
  | ok r =>
    rw [e] at h
    cases h
    exact hs _ _

end logic

theorem silent_weakGo {W V I C K : Type} [LinearOrder K] {log : W → List V} (T : IndTrait I C K) :
    ∀ pop children : List I, Silent log (weakGo T pop children : M W _)
  | a :: b :: ps, c :: d :: cs => by
    unfold weakGo
    exact (silent_weakGo T ps cs).bind fun _ => Silent.pure
  | _ :: _ :: _, [] => Silent.fail
  | _ :: _ :: _, [_] => Silent.fail
  | [], _ => Silent.pure
  | [_], _ => Silent.pure

/-! ## A GA run whose fitness function evaluates points -/

section ga
variable {W V I C K : Type} [LinearOrder K] {T : IndTrait I C K} {ops : Ops W I K} {P : I → Prop} {n : Nat} {p : GAParams}
  {log : W → List V} {A : V → Prop}

/-- Everything but the fitness function evaluates nothing; each call of the fitness function evaluates one allowed point. -/
structure Evaluates (T : IndTrait I C K) (ops : Ops W I K) (P : I → Prop) (log : W → List V) (A : V → Prop) : Prop where
  fit : ∀ i, P i → Runs log A (ops.fitnessFn i) fun r j => j = 1 ∧ P r.1 ∧ r.2.IsNum
  gen : ∀ n, Silent log (ops.generate n)
  sel : ∀ m pop, Silent log (ops.select m pop)
  cross : ∀ m pool, Silent log (ops.cross m pool)
  mutate : ∀ m i, Silent log (ops.mutate m i)
  replace : ∀ m pop children, Silent log (ops.replace m pop children)
  elapsed : Silent log ops.elapsed

theorem Evaluates.evalPop (he : Evaluates T ops P log A) (ht : TotalOps T ops P n) {pop : List I} (hl : pop.length = n) (hp : ∀ i ∈ pop, P i) :
    Runs log A (evalPop T ops pop) fun out j => j = n ∧ Good T P n out := by
  refine (Runs.forEach (P := fun y => P y ∧ (T.fitness y).IsNum) fun i hi => ?_).mono fun out j h =>
    ⟨by rw [h.1, hl], by rw [h.2.1, hl], fun i hi => (h.2.2 i hi).1, fun i hi => (h.2.2 i hi).2⟩
  unfold Ga.evalOne
  rw [if_pos (ht.eval i)]
  refine (he.fit i (hp i hi)).bind fun r j hr => Runs.pure ⟨hr.1, ht.set _ _ hr.2.1, by rw [T.fitness_set]; exact hr.2.2⟩

theorem Evaluates.iteration (he : Evaluates T ops P log A) (ht : TotalOps T ops P n) (hn : 0 < n) (hp : p.populationSize = n)
    (hreq : ops.requiresChildrenFitness = true) {g : Nat} {s : St I} (hs : Good T P n s.pop) :
    Runs log A (iteration T ops p g s) fun r j => j = 3 * n ∧ Good T P n r.1.pop := by
  unfold Ga.iteration
  refine Runs.silently ht.elapsed he.elapsed fun d _ => ?_
  refine (he.evalPop ht hs.1 hs.2.1).bind fun pop j1 h1 => ?_
  refine Runs.silently (ht.sel _ pop h1.2.1 h1.2.2.1 h1.2.2.2) (he.sel _ _) fun pool h2 => ?_
  refine Runs.silently (ht.cross _ pool h2.1 h2.2) (he.cross _ _) fun crossed h3 => ?_
  refine Runs.silently (P := fun out => out.length = n ∧ ∀ i ∈ out, P i)
    ((Returns.forEach (R := fun _ y => P y) crossed fun i hi => ht.mutate _ i (h3.2 i hi)).mono
      fun out h => ⟨by rw [← h.length_eq, h3.1], forall₂_right h fun _ _ h => h⟩) (Silent.forEach (fun i => he.mutate _ i) _) fun mutated h4 => ?_
  refine Runs.bind (P := fun out j => j = n ∧ Good T P n out) ?_ fun children j5 h5 => ?_
  · unfold Ga.evalChildren
    rw [if_pos hreq]
    exact he.evalPop ht h4.1 h4.2
  refine Runs.silently (ht.replace _ pop children h1.2.1 h5.2.1 h1.2.2.1 h5.2.2.1 h1.2.2.2 fun _ => h5.2.2.2) (he.replace _ _ _)
    fun replaced h6 => ?_
  refine Runs.silently (P := fun _ => True) (Returns.assert (by simp [h6.1, hp])) Silent.assert fun _ _ => ?_
  refine (he.evalPop ht h6.1 h6.2).bind fun pop' j7 h7 => ?_
  refine Runs.silently (TotalOps.findBest hn h7.2) Silent.ofExcept fun b _ => ?_
  refine Runs.silently ht.elapsed he.elapsed fun d' _ => ?_
  exact Runs.pure ⟨by omega, h7.2⟩

theorem Evaluates.loop (he : Evaluates T ops P log A) (ht : TotalOps T ops P n) (hn : 0 < n) (hp : p.populationSize = n)
    (hreq : ops.requiresChildrenFitness = true) : ∀ (l g : Nat) (s : St I), Good T P n s.pop →
    Runs log A (loop T ops p l g s) fun r j => ∃ k ≤ l, (1 ≤ l → 1 ≤ k) ∧ j = 3 * n * k
  | 0, _, _, hs => Runs.pure ⟨0, le_refl _, by omega, by simp⟩
  | l + 1, g, s, hs => by
    unfold Ga.loop
    refine (he.iteration ht hn hp hreq hs).bind fun r j hr => ?_
    obtain ⟨s', stop⟩ := r
    simp only
    split
    · exact Runs.pure ⟨1, by omega, by omega, by rw [hr.1]; ring⟩
    · refine (he.loop ht hn hp hreq l (g + 1) s' hr.2).mono fun r' j' h => ?_
      obtain ⟨k, h1, -, h3⟩ := h
      exact ⟨k + 1, by omega, by omega, by rw [hr.1, h3]; ring⟩

/-- Such a run of `k` generations evaluates `n + 3 n k` points. -/
theorem Evaluates.run (he : Evaluates T ops P log A) (ht : TotalOps T ops P n) (hn : 0 < n) (hp : p.populationSize = n)
    (hreq : ops.requiresChildrenFitness = true) (m0 : Metrics) :
    Runs log A (run T ops p m0) fun _ j => ∃ k ≤ p.generationLimit, (1 ≤ p.generationLimit → 1 ≤ k) ∧ j = n + 3 * n * k := by
  unfold Ga.run
  refine Runs.bind (P := fun s j => j = n ∧ Good T P n s.pop) ?_ fun s j hs => ?_
  · unfold Ga.prologue
    rw [hp]
    refine Runs.silently ht.gen (he.gen _) fun pop0 h0 => ?_
    refine (he.evalPop ht h0.1 h0.2).bind fun pop j h1 => ?_
    refine Runs.silently (TotalOps.findBest hn h1.2) Silent.ofExcept fun b _ => ?_
    exact Runs.silently ht.elapsed he.elapsed fun d _ => Runs.pure h1
  · refine (he.loop ht hn hp hreq _ _ _ hs.2).bind fun s' j' h => ?_
    refine Runs.silently ht.elapsed he.elapsed fun d _ => Runs.pure ?_
    obtain ⟨k, h1, h2, h3⟩ := h
    exact ⟨k, h1, h2, by omega⟩

end ga

/-! ## The harness -/

section harness
variable {W G K : Type} [Field K] [LinearOrder K] [IsStrictOrderedRing K] [FloorSemiring K]

/-- Assumption on the external parts: `log` is the list of points evaluated since the problem was opened; evaluating a point of the right
length returns a number and adds it to the log; COCO counts these evaluations; the generators, the clock and COCO's random numbers (in
`[0, 1)`) leave the log alone; an open problem has an empty log. -/
structure Contract (P : Problem W K) (S : Slots W G) (elapsed : M W Nat) (log : W → List (List K)) : Prop where
  evaluate : ∀ x, x.length = P.dimension → ∀ w, ∃ v w', P.evaluate x w = .ok (v, w') ∧ v.IsNum ∧ log w' = log w ++ [x]
  count : ∀ w, P.evaluations w = (log w).length
  noConstraints : ∀ w, P.evaluationsConstraints w = 0
  gen : ∀ g w, log (S.gen.put g w) = log w
  sel : ∀ g w, log (S.sel.put g w) = log w
  cross : ∀ g w, log (S.cross.put g w) = log w
  mutate : ∀ g w, log (S.mutate.put g w) = log w
  clock : ∀ w, ∃ d w', elapsed w = .ok (d, w') ∧ log w' = log w
  uniform : ∀ w, ∃ u w', P.uniform w = .ok (u, w') ∧ 0 ≤ u ∧ u < 1 ∧ log w' = log w
  opens : ∀ w, ∃ w', P.open w = .ok ((), w') ∧ log w' = []

/-- The problem is continuous, has one objective, no constraints and one range per coordinate. -/
structure Plain (P : Problem W K) : Prop where
  dim : 0 < P.dimension
  ranges : P.ranges.length = P.dimension
  proper : ∀ c ∈ P.ranges, c.1 < c.2
  initial : P.initial.length = P.dimension
  constraints : P.constraints = 0
  objectives : P.objectives ≤ 1
  integers : P.integers = 0

/-- A point of the right length each coordinate of which lies in *some* of the ranges (if all ranges are equal: a point of the box). -/
def Ranged (P : Problem W K) (x : List K) : Prop := x.length = P.dimension ∧ ∀ y ∈ x, ∃ c ∈ P.ranges, c.1 ≤ y ∧ y < c.2

/-- A point of the box. -/
def Boxed (P : Problem W K) (x : List K) : Prop := List.Forall₂ (fun c y => c.1 ≤ y ∧ y < c.2) P.ranges x

variable {P : Problem W K} {S : Slots W G} {elapsed : M W Nat} {log : W → List (List K)}

theorem gaSearch_runs (hc : Contract P S elapsed log) (hp : Plain P) (R : FRng G K) (worst : Fl K) (debug : Bool) (budget : Nat) :
    Runs log (Ranged P) (gaSearch R S worst elapsed debug P budget) fun _ j => ∃ k, 1 ≤ k ∧ k ≤ 10000 ∧ j = 100 + 300 * k := by
  unfold gaSearch
  have hnew : ∀ g : G, RandomPoints.withConstraints P.dimension P.ranges g = .ok (⟨P.dimension, P.ranges⟩, g) := by
    intro g
    unfold RandomPoints.withConstraints
    have h1 : decide (0 < P.dimension) = true := by simp [hp.dim]
    have h2 : (P.dimension == P.ranges.length) = true := by simp [hp.ranges]
    rw [h1, h2]
    rfl
  refine Runs.silently (P := fun rp => rp = ⟨P.dimension, P.ranges⟩) ?_ (Silent.slot hc.gen) fun rp hrp => ?_
  · exact S.gen.run_returns fun g => ⟨_, _, hnew g, rfl⟩
  subst hrp
  refine Runs.silently (P := fun f => f = (1 / 5 : K)) ?_ (Silent.slot hc.sel) fun f hf => ?_
  · refine S.sel.run_returns ?_
    unfold tournamentNew
    refine Returns.bind (Returns.assert ?_) fun _ _ => Returns.pure rfl
    norm_num
  subst hf
  show Runs log (Ranged P) (run (Individual.trait (List K) K)
        { realOps R (Individual.trait (List K) K) (Individual.chromOps K worst) S (fun _ => .nan) (fun _ => 0) (1 / 2) 0 100
            ⟨P.dimension, P.ranges⟩ (.tournament (1 / 5)) .uniform (.reversing (1 / 20)) .weakParent debug elapsed with
          fitnessFn := cocoFitness P }
        ⟨100, 10000, 200 * 10 ^ 6⟩ (initialMetrics ⟨100, 10000, 200 * 10 ^ 6⟩) >>= fun _ => pure ()) _
  have hfit : ∀ i : Individual (List K) K, Ranged P i.chromosome →
      Runs log (Ranged P) (cocoFitness P i) fun r j => j = 1 ∧ Ranged P r.1.chromosome ∧ r.2.IsNum := by
    intro i hi w
    obtain ⟨v, w', h1, h2, h3⟩ := hc.evaluate i.chromosome hi.1 w
    refine ⟨(i, v), w', [i.chromosome], ?_, h3, by simpa using hi, rfl, hi, h2⟩
    unfold cocoFitness
    rw [M.bind_of_ok h1]
    rfl
  have hwithin : ∀ c ∈ P.ranges, ∀ y, Within c y → c.1 ≤ y ∧ y < c.2 := fun c hcm y hy =>
    ⟨(hy.1 (hp.proper c hcm).le).1, hy.2 (hp.proper c hcm)⟩
  have ht : TotalOps (Individual.trait (List K) K)
        { realOps R (Individual.trait (List K) K) (Individual.chromOps K worst) S (fun _ => .nan) (fun _ => 0) (1 / 2) 0 100
            ⟨P.dimension, P.ranges⟩ (.tournament (1 / 5)) .uniform (.reversing (1 / 20)) .weakParent debug elapsed with
          fitnessFn := cocoFitness P } (fun i => Ranged P i.chromosome) 100 :=
    { eval := fun _ => rfl
      set := fun i x h => h
      gen := by
        intro w
        obtain ⟨pop, w', h1, h2, h3⟩ := S.gen.run_returns (C37_random_points R.toRng (Individual.chromOps K worst) (count := 100) (hnew (S.gen.get w))) w
        refine ⟨pop, w', h1, h2, fun i hi => ?_⟩
        obtain ⟨h4, h5⟩ := h3 i hi
        refine ⟨h4, fun y hy => ?_⟩
        obtain ⟨l, hl⟩ := List.mem_iff_getElem?.1 hy
        obtain ⟨h6, h7⟩ := List.forall₂_iff_get.1 h5
        obtain ⟨h8, h9⟩ := List.getElem?_eq_some_iff.1 hl
        refine ⟨P.ranges[l]'(by rw [h6]; exact h8), List.getElem_mem _, hwithin _ (List.getElem_mem _) _ ?_⟩
        have := h7 l (by rw [h6]; exact h8) h8
        simp only [List.get_eq_getElem] at this
        rw [← h9]
        exact this
      fit := fun i hi w => by
        obtain ⟨r, w', new, h1, -, -, h2⟩ := hfit i hi w
        exact ⟨r, w', h1, h2.2⟩
      sel := fun m pop hl hP hnum => S.sel.run_returns
        ((C28_tournament R.toRng (Individual.trait (List K) K) (by norm_num) (by omega) hnum).mono fun pool hpool =>
          ⟨hpool.1, fun i hi => hP i (hpool.2 i hi)⟩)
      cross := fun m pool hl hP => S.cross.run_returns
        ((locusCross_returns R.toRng (Individual.chromOps K worst) (cr := .uniform) rfl hp.dim trivial (fun i hi => (hP i hi).1) (by omega)).mono
          fun out h => ⟨by rw [h.length, hl], pairsRel_all h hP fun a b c d ha hb hq => by
            obtain ⟨lc, ld, hg⟩ := hq
            refine ⟨⟨lc.trans ha.1, fun y hy => ?_⟩, ⟨ld.trans ha.1, fun y hy => ?_⟩⟩
            · obtain ⟨k, hk⟩ := List.mem_iff_getElem?.1 hy
              rcases hg k with ⟨e, -⟩ | ⟨e, -⟩
              · exact ha.2 y (List.mem_of_getElem? (e ▸ hk))
              · exact hb.2 y (List.mem_of_getElem? (e ▸ hk))
            · obtain ⟨k, hk⟩ := List.mem_iff_getElem?.1 hy
              rcases hg k with ⟨-, e⟩ | ⟨-, e⟩
              · exact hb.2 y (List.mem_of_getElem? (e ▸ hk))
              · exact ha.2 y (List.mem_of_getElem? (e ▸ hk))⟩)
      mutate := fun m i h => S.mutate.run_returns
        ((C25_reordering_mutations_return R.toRng (Individual.chromOps K worst) (.reversing (1 / 20)) i
          (show 0 < i.chromosome.length by rw [h.1]; exact hp.dim)).mono
          fun i' hi' => ⟨hi'.length_eq.trans h.1, fun y hy => h.2 y (hi'.mem_iff.1 hy)⟩)
      replace := fun m pop children hl1 hl2 hp1 hp2 hn1 hn2 w => by
        obtain ⟨out, w', h1, h2⟩ := C35_weak_parent (W := W) (Individual.trait (List K) K) (debug := debug) (pop := pop)
          (children := children) (by omega) (by omega) (by omega) hn1 (hn2 rfl) w
        refine ⟨out, w', h1, by rw [h2.1, hl1], ?_⟩
        intro i hi
        rcases (C35_weak_parent_members (Individual.trait (List K) K) w out w' h1).2 i hi with h | h
        · exact hp1 i h
        · exact hp2 i h
      elapsed := fun w => by
        obtain ⟨d, w', h, -⟩ := hc.clock w
        exact ⟨d, w', h, trivial⟩ }
  have he : Evaluates (Individual.trait (List K) K)
        { realOps R (Individual.trait (List K) K) (Individual.chromOps K worst) S (fun _ => .nan) (fun _ => 0) (1 / 2) 0 100
            ⟨P.dimension, P.ranges⟩ (.tournament (1 / 5)) .uniform (.reversing (1 / 20)) .weakParent debug elapsed with
          fitnessFn := cocoFitness P } (fun i => Ranged P i.chromosome) log (Ranged P) :=
    { fit := hfit
      gen := fun n => Silent.slot hc.gen
      sel := fun m pop => Silent.slot hc.sel
      cross := fun m pool => Silent.slot hc.cross
      mutate := fun m i => Silent.slot hc.mutate
      replace := fun m pop children => by
        show Silent log (weakParent (Individual.trait (List K) K) debug pop children)
        unfold weakParent
        exact Silent.assert.bind fun _ => Silent.assert.bind fun _ => Silent.assert.bind fun _ => silent_weakGo _ _ _
      elapsed := fun w a w' h => by
        obtain ⟨d, w1, h1, h2⟩ := hc.clock w
        have : w' = w1 := (Prod.ext_iff.1 (Except.ok.inj (h.symm.trans h1))).2
        rw [this]
        exact h2 }
  refine (he.run ht (by decide) rfl rfl _).bind fun r j hj => Runs.pure ?_
  obtain ⟨k, h1, h2, h3⟩ := hj
  exact ⟨k, h2 (by decide), h1, by omega⟩

theorem randomTry_runs (hc : Contract P S elapsed log) (hp : Plain P) (round : K → K) :
    Runs log (Boxed P) (randomTry round P) fun _ j => j = 1 := by
  have hcoord : ∀ i (hi : i < P.ranges.length), Returns (randomCoord round P i) fun y => P.ranges[i].1 ≤ y ∧ y < P.ranges[i].2 := by
    intro i hi
    unfold randomCoord
    rw [idx_of_lt hi, pure_bind]
    refine Returns.bind (P := fun u => 0 ≤ u ∧ u < 1) (fun w => ?_) fun u hu => Returns.pure ?_
    · obtain ⟨u, w', h1, h2, h3, -⟩ := hc.uniform w
      exact ⟨u, w', h1, h2, h3⟩
    · rw [if_neg (by rw [hp.integers]; omega)]
      have := hp.proper _ (List.getElem_mem hi)
      constructor
      · have : 0 ≤ u * (P.ranges[i].2 - P.ranges[i].1) := mul_nonneg hu.1 (by linarith)
        linarith
      · have : u * (P.ranges[i].2 - P.ranges[i].1) < 1 * (P.ranges[i].2 - P.ranges[i].1) := mul_lt_mul_of_pos_right hu.2 (by linarith)
        linarith
  have hs : ∀ i, Silent log (randomCoord round P i) := by
    intro i
    unfold randomCoord
    refine Silent.bind ?_ fun b => Silent.bind (fun w a w' h => ?_) fun u => Silent.pure
    · unfold idx
      split
      · exact Silent.pure
      · exact Silent.fail
    · obtain ⟨u, w1, h1, -, -, h2⟩ := hc.uniform w
      have : w' = w1 := (Prod.ext_iff.1 (Except.ok.inj (h.symm.trans h1))).2
      rw [this]
      exact h2
  unfold randomTry
  refine Runs.silently (P := Boxed P) ?_ (Silent.forEach hs _) fun x hx => ?_
  · refine (Returns.forEach (R := fun i y => ∃ hi : i < P.ranges.length, P.ranges[i].1 ≤ y ∧ y < P.ranges[i].2) (List.range P.dimension)
      fun i hi => ?_).mono fun x hx => ?_
    · have hi : i < P.ranges.length := by rw [hp.ranges]; exact List.mem_range.1 hi
      exact (hcoord i hi).mono fun y hy => ⟨hi, hy⟩
    · have hl := hx.length_eq
      rw [List.length_range] at hl
      refine List.forall₂_iff_get.2 ⟨by rw [hp.ranges, hl], fun i h1 h2 => ?_⟩
      have := (List.forall₂_iff_get.1 hx).2 i (by rw [List.length_range, ← hp.ranges]; exact h1) h2
      simp only [List.get_eq_getElem, List.getElem_range] at this ⊢
      exact this.2
  · rw [if_neg (by rw [hp.constraints]; omega)]
    show Runs log (Boxed P) (P.evaluate x >>= fun _ => pure ()) _
    intro w
    obtain ⟨v, w', h1, -, h3⟩ := hc.evaluate x (by rw [← hx.length_eq, hp.ranges]) w
    refine ⟨(), w', [x], ?_, h3, by simpa using hx, rfl⟩
    rw [M.bind_of_ok h1]
    rfl

theorem Runs.replicate {V α : Type} {log : W → List V} {A : V → Prop} {m : M W α} (h : Runs log A m fun _ j => j = 1) :
    ∀ n, Runs log A (M.replicate n m) fun _ j => j = n
  | 0 => Runs.pure rfl
  | n + 1 => by
    unfold M.replicate
    refine h.bind fun a j hj => ?_
    refine (Runs.replicate h n).bind fun as k hk => Runs.pure ?_
    omega

theorem randomSearch_runs (hc : Contract P S elapsed log) (hp : Plain P) (round : K → K) (budget : Nat) (w : W) :
    ∃ w' new, randomSearch round P budget w = .ok ((), w') ∧ log w' = log w ++ P.initial :: new ∧ (∀ x ∈ new, Boxed P x) ∧ new.length = budget := by
  obtain ⟨v, w1, h1, -, h3⟩ := hc.evaluate P.initial hp.initial w
  obtain ⟨us, w2, new, g1, g2, g3, g4⟩ := Runs.replicate (randomTry_runs hc hp round) budget w1
  refine ⟨w2, new, ?_, by rw [g2, h3, List.append_assoc]; rfl, g3, g4⟩
  unfold randomSearch
  rw [M.bind_of_ok h1, M.bind_of_ok g1]
  rfl

/-- Whether the restart loop goes on. -/
theorem goes_on (hc : Contract P S elapsed log) (w : W) :
    (P.targetHit w || (P.dimension * 10 - (P.evaluations w + P.evaluationsConstraints w) == 0)) = false ↔
      P.targetHit w = false ∧ (log w).length < 10 * P.dimension := by
  rw [hc.count, hc.noConstraints, Bool.or_eq_false_iff, beq_eq_false_iff_ne]
  refine and_congr Iff.rfl ?_
  omega

/-- **C141, random search.** On a freshly opened problem whose target is not hit the harness runs `random_search` once, and it evaluates the
initial solution and then `10 * dimension` points of the box: one more than the budget. (If the target counts as hit it does nothing.) -/
theorem C141_random_search (hc : Contract P S elapsed log) (hp : Plain P) (round : K → K) {w : W} (hw : log w = []) :
    (P.targetHit w = true → restarts (randomSearch round) P (10 ^ 5) w = .ok (0, w)) ∧
    (P.targetHit w = false → ∃ w' new, restarts (randomSearch round) P (10 ^ 5) w = .ok (1, w') ∧ log w' = P.initial :: new ∧
      new.length = 10 * P.dimension ∧ ∀ x ∈ new, Boxed P x) := by
  have hpos := hp.dim
  have e5 : 10 ^ 5 = 99998 + 1 + 1 := rfl
  constructor
  · intro h
    rw [e5]
    unfold restarts
    simp only [h, Bool.true_or, if_true]
  · intro h
    have h1 := (goes_on hc w).2 ⟨h, by rw [hw]; simp only [List.length_nil]; omega⟩
    have hb : P.dimension * 10 - (P.evaluations w + P.evaluationsConstraints w) = 10 * P.dimension := by
      rw [hc.count, hc.noConstraints, hw]
      simp only [List.length_nil]
      omega
    obtain ⟨w', new, g1, g2, g3, g4⟩ := randomSearch_runs hc hp round (10 * P.dimension) w
    rw [hw, List.nil_append] at g2
    refine ⟨w', new, ?_, g2, g4, g3⟩
    have h2 : (P.targetHit w' || (P.dimension * 10 - (P.evaluations w' + P.evaluationsConstraints w') == 0)) = true := by
      rw [← Bool.not_eq_false, goes_on hc w', g2]
      simp only [List.length_cons]
      omega
    rw [e5]
    unfold restarts
    simp only [h1]
    rw [hb, if_neg (by decide), M.bind_of_ok g1]
    have e : restarts (randomSearch round) P (99998 + 1) w' = .ok (0, w') := by
      unfold restarts
      simp only [h2, if_true]
    rw [M.bind_of_ok e]
    rfl

theorem gaRestarts (hc : Contract P S elapsed log) (hp : Plain P) (R : FRng G K) (worst : Fl K) (debug : Bool) : ∀ (n : Nat) (w : W),
    ∃ s w' new, restarts (gaSearch R S worst elapsed debug) P n w = .ok (s, w') ∧ log w' = log w ++ new ∧ (∀ x ∈ new, Ranged P x) ∧
      400 * s ≤ new.length ∧ new.length ≤ 3000100 * s ∧ (s = 0 ∨ (log w).length + 400 * (s - 1) < 10 * P.dimension) ∧
      (P.targetHit w = true → s = 0) ∧ (P.targetHit w = false → (log w).length < 10 * P.dimension → 0 < n → 0 < s)
  | 0, w => ⟨0, w, [], rfl, by simp, by simp, by simp, by simp, .inl rfl, fun _ => rfl, fun _ _ h => h⟩
  | n + 1, w => by
    unfold restarts
    cases hg : (P.targetHit w || (P.dimension * 10 - (P.evaluations w + P.evaluationsConstraints w) == 0)) with
    | true =>
      refine ⟨0, w, [], by simp, by simp, by simp, by simp, by simp, .inl rfl, fun _ => rfl, fun h1 h2 _ => ?_⟩
      rw [(goes_on hc w).2 ⟨h1, h2⟩] at hg
      cases hg
    | false =>
      obtain ⟨h1, h2⟩ := (goes_on hc w).1 hg
      obtain ⟨_, w1, new, g1, g2, g3, k, g4, g5, g6⟩ := gaSearch_runs hc hp R worst debug
        (P.dimension * 10 - (P.evaluations w + P.evaluationsConstraints w)) w
      obtain ⟨s, w2, new', i1, i2, i3, i4, i5, i6, -, -⟩ := gaRestarts hc hp R worst debug n w1
      refine ⟨s + 1, w2, new ++ new', ?_, by rw [i2, g2, List.append_assoc], ?_, ?_, ?_, .inr ?_, ?_, fun _ _ _ => by omega⟩
      · rw [if_neg (by decide), M.bind_of_ok g1, M.bind_of_ok i1]
        rfl
      · intro x hx
        exact (List.mem_append.1 hx).elim (g3 x) (i3 x)
      · rw [List.length_append]; omega
      · rw [List.length_append]; omega
      · rw [g2, List.length_append] at i6
        rcases i6 with rfl | i6
        · omega
        · omega
      · rw [h1]; intro h; cases h

/-- **C141, the GA.** On a freshly opened problem the harness never panics. The GA ignores the budget: each of the `s` searches evaluates
between 400 and 3 000 100 points (of the right length, each coordinate in one of the ranges). It is restarted only while fewer points than
the budget `10 * dimension` have been evaluated. -/
theorem C141_ga_search (hc : Contract P S elapsed log) (hp : Plain P) (R : FRng G K) (worst : Fl K) (debug : Bool) {w : W} (hw : log w = []) :
    ∃ s w', restarts (gaSearch R S worst elapsed debug) P (10 ^ 5) w = .ok (s, w') ∧ (∀ x ∈ log w', Ranged P x) ∧
      400 * s ≤ (log w').length ∧ (log w').length ≤ 3000100 * s ∧ 400 * (s - 1) < 10 * P.dimension ∧
      (s = 0 ↔ P.targetHit w = true) := by
  have hpos := hp.dim
  obtain ⟨s, w', new, h1, h2, h3, h4, h5, h6, h7, h8⟩ := gaRestarts hc hp R worst debug (10 ^ 5) w
  rw [hw, List.nil_append] at h2
  rw [hw, List.length_nil] at h6 h8
  refine ⟨s, w', h1, by rw [h2]; exact h3, by rw [h2]; exact h4, by rw [h2]; exact h5, by omega, ?_, h7⟩
  intro hs
  by_contra h
  have := h8 (by simpa using h) (by omega) (by norm_num)
  omega

/-- **C141, all BBOB dimensions.** Up to dimension 40 the GA is run exactly once and evaluates at least 400 points, so at least the whole
budget, and in dimensions below 40 more than `random_search` (with the same budget) ever does. -/
theorem C141_ga_overspends (hc : Contract P S elapsed log) (hp : Plain P) (R : FRng G K) (worst : Fl K) (debug : Bool) (h40 : P.dimension ≤ 40)
    (round : K → K) {w : W} (hw : log w = []) (ht : P.targetHit w = false) :
    ∃ w' w'', restarts (gaSearch R S worst elapsed debug) P (10 ^ 5) w = .ok (1, w') ∧ restarts (randomSearch round) P (10 ^ 5) w = .ok (1, w'') ∧
      10 * P.dimension ≤ (log w').length ∧ 400 ≤ (log w').length ∧ (P.dimension < 40 → (log w'').length < (log w').length) := by
  obtain ⟨s, w', h1, -, h3, -, h5, h6⟩ := C141_ga_search hc hp R worst debug hw
  obtain ⟨w'', new, g1, g2, g3, -⟩ := (C141_random_search hc hp round hw).2 ht
  have hs : s = 1 := by
    have : s ≠ 0 := fun h => by rw [h6.1 h] at ht; cases ht
    omega
  subst hs
  refine ⟨w', w'', h1, g1, by omega, by omega, fun h => ?_⟩
  rw [g2, List.length_cons, g3]
  omega

/-- **C141, the box.** If all ranges are the same (as in BBOB) the GA evaluates points of the box only. -/
theorem C141_ga_in_box (hc : Contract P S elapsed log) (hp : Plain P) (R : FRng G K) (worst : Fl K) (debug : Bool) {r : K × K}
    (hr : ∀ c ∈ P.ranges, c = r) {w : W} (hw : log w = []) :
    ∃ s w', restarts (gaSearch R S worst elapsed debug) P (10 ^ 5) w = .ok (s, w') ∧ ∀ x ∈ log w', Boxed P x := by
  obtain ⟨s, w', h1, h2, -⟩ := C141_ga_search hc hp R worst debug hw
  refine ⟨s, w', h1, fun x hx => ?_⟩
  obtain ⟨h3, h4⟩ := h2 x hx
  refine List.forall₂_iff_get.2 ⟨by rw [hp.ranges, h3], fun i i1 i2 => ?_⟩
  obtain ⟨c, hc1, hc2⟩ := h4 (x.get ⟨i, i2⟩) (List.get_mem _ _)
  rw [hr _ (List.get_mem P.ranges ⟨i, i1⟩), ← hr c hc1]
  exact hc2

/-- **C141, the whole experiment.** On plain problems neither experiment panics; every problem gets one search at most in dimensions up to
40 (GA) and in all dimensions (random search). -/
theorem C141_experiment (problems : List (Problem W K)) (hc : ∀ P ∈ problems, Contract P S elapsed log) (hp : ∀ P ∈ problems, Plain P)
    (R : FRng G K) (worst : Fl K) (debug : Bool) (round : K → K) :
    (Returns (runExperiment (gaSearch R S worst elapsed debug) problems) fun ss => ss.length = problems.length ∧
      ((∀ P ∈ problems, P.dimension ≤ 40) → ∀ s ∈ ss, s ≤ 1)) ∧
    Returns (runExperiment (randomSearch round) problems) fun ss => ss.length = problems.length ∧ ∀ s ∈ ss, s ≤ 1 := by
  have hopen : ∀ P ∈ problems, ∀ (search : Problem W K → Nat → M W Unit) w, ∃ w1, log w1 = [] ∧
      runProblem search P w = restarts search P (10 ^ 5) w1 := by
    intro P hP search w
    obtain ⟨w1, h1, h2⟩ := (hc P hP).opens w
    refine ⟨w1, h2, ?_⟩
    unfold runProblem
    rw [M.bind_of_ok h1]
    have c1 : (P.constraints == 0) = true := by simp [(hp P hP).constraints]
    have c2 : decide (P.objectives ≤ 1) = true := by simp [(hp P hP).objectives]
    have c3 : (P.integers == 0) = true := by simp [(hp P hP).integers]
    rw [c1, c2, c3]
    rfl
  constructor
  · refine (Returns.forEach (R := fun P s => P.dimension ≤ 40 → s ≤ 1) problems fun P hP w => ?_).mono fun ss h => ?_
    · obtain ⟨w1, h1, h2⟩ := hopen P hP (gaSearch R S worst elapsed debug) w
      obtain ⟨s, w', g1, -, -, -, g5, -⟩ := C141_ga_search (hc P hP) (hp P hP) R worst debug h1
      exact ⟨s, w', by rw [h2, g1], fun h40 => by omega⟩
    · refine ⟨h.length_eq.symm, fun h40 s hs => ?_⟩
      obtain ⟨i, hi⟩ := List.mem_iff_getElem?.1 hs
      obtain ⟨h3, h4⟩ := List.getElem?_eq_some_iff.1 hi
      have := (List.forall₂_iff_get.1 h).2 i (by rw [h.length_eq]; exact h3) h3 (h40 _ (List.get_mem _ _))
      rw [← h4]
      exact this
  · refine (Returns.forEach (R := fun P s => s ≤ 1) problems fun P hP w => ?_).mono fun ss h => ⟨h.length_eq.symm, forall₂_right h fun _ _ h => h⟩
    obtain ⟨w1, h1, h2⟩ := hopen P hP (randomSearch round) w
    cases ht : P.targetHit w1 with
    | true => exact ⟨0, w1, by rw [h2, (C141_random_search (hc P hP) (hp P hP) round h1).1 ht], by omega⟩
    | false =>
      obtain ⟨w', new, g1, -⟩ := (C141_random_search (hc P hP) (hp P hP) round h1).2 ht
      exact ⟨1, w', by rw [h2, g1], le_refl _⟩

/-- **C141, other problems.** A problem with constraints, several objectives or integer variables makes the harness panic. -/
theorem C141_rejects (P : Problem W K) (search : Problem W K → Nat → M W Unit) (h : P.constraints ≠ 0 ∨ 1 < P.objectives ∨ P.integers ≠ 0) :
    Panics (runProblem search P) := by
  intro w
  unfold runProblem
  cases hw : P.open w with
  | error e => exact ⟨e, by rw [M.bind_of_error hw]⟩
  | ok r =>
    obtain ⟨_, w1⟩ := r
    rw [M.bind_of_ok hw]
    by_cases h1 : P.constraints = 0
    · have e1 : (P.constraints == 0) = true := by simp [h1]
      rw [e1, M.bind_of_ok (M.assert_true _ _)]
      by_cases h2 : P.objectives ≤ 1
      · have e2 : decide (P.objectives ≤ 1) = true := by simp [h2]
        rw [e2, M.bind_of_ok (M.assert_true _ _)]
        have e3 : (P.integers == 0) = false := by
          rw [beq_eq_false_iff_ne]
          rcases h with h | h | h
          · exact absurd h1 h
          · omega
          · exact h
        rw [e3]
        exact ⟨_, M.bind_of_error (M.assert_false _ _)⟩
      · have e2 : decide (P.objectives ≤ 1) = false := by simp [h2]
        rw [e2]
        exact ⟨_, M.bind_of_error (M.assert_false _ _)⟩
    · have e1 : (P.constraints == 0) = false := by simp [h1]
      rw [e1]
      exact ⟨_, M.bind_of_error (M.assert_false _ _)⟩

end harness

/-! ## An example -/

/-- A world for the example: the log and a counter that serves as generator. -/
def sphereProblem (d : Nat) : Problem (List (List ℚ) × Nat) ℚ where
  dimension := d
  constraints := 0
  objectives := 1
  integers := 0
  ranges := List.replicate d (-5, 5)
  initial := List.replicate d 0
  «open» := fun w => .ok ((), ([], w.2))
  evaluate := fun x w => .ok (.num ((x.map fun y => y * y).sum), (w.1 ++ [x], w.2))
  evaluateConstraint := fun _ => pure ()
  uniform := fun w => .ok (1 / 2, w)
  evaluations := fun w => w.1.length
  evaluationsConstraints := fun _ => 0
  targetHit := fun w => w.1.any fun x => x == List.replicate d 0

/-- The generators of the example. -/
def sphereSlots : Slots (List (List ℚ) × Nat) Nat :=
  ⟨⟨Prod.snd, fun g w => (w.1, g)⟩, ⟨Prod.snd, fun g w => (w.1, g)⟩, ⟨Prod.snd, fun g w => (w.1, g)⟩, ⟨Prod.snd, fun g w => (w.1, g)⟩⟩

theorem sphere_contract (d : Nat) : Contract (sphereProblem d) sphereSlots (pure 0) Prod.fst where
  evaluate x _ w := ⟨_, _, rfl, trivial, rfl⟩
  count w := rfl
  noConstraints w := rfl
  gen g w := rfl
  sel g w := rfl
  cross g w := rfl
  mutate g w := rfl
  clock w := ⟨0, w, rfl, rfl⟩
  uniform w := ⟨1 / 2, w, rfl, by norm_num, by norm_num, rfl⟩
  opens w := ⟨_, rfl, rfl⟩

theorem sphere_plain {d : Nat} (h : 0 < d) : Plain (sphereProblem d) where
  dim := h
  ranges := List.length_replicate ..
  proper c hc := by rw [List.eq_of_mem_replicate hc]; norm_num
  initial := List.length_replicate ..
  constraints := rfl
  objectives := le_refl _
  integers := rfl

/-- On the 5-dimensional problem the GA evaluates at least 400 points with a budget of 50, random search 51. -/
example : ∃ w' w'', restarts (gaSearch counterFRng sphereSlots .nan (pure 0) true) (sphereProblem 5) (10 ^ 5) ([], 0) = .ok (1, w') ∧
    restarts (randomSearch id) (sphereProblem 5) (10 ^ 5) ([], 0) = .ok (1, w'') ∧ 400 ≤ w'.1.length ∧ w''.1.length < w'.1.length := by
  obtain ⟨w', w'', h1, h2, -, h4, h5⟩ := C141_ga_overspends (sphere_contract 5) (sphere_plain (by decide)) counterFRng .nan true
    (by decide) id (w := ([], 0)) rfl rfl
  exact ⟨w', w'', h1, h2, h4, h5 (by decide)⟩

/-- The dimensions of BBOB. -/
example : Returns (runExperiment (gaSearch counterFRng sphereSlots .nan (pure 0) true) ([2, 3, 5, 10, 20, 40].map sphereProblem)) fun ss =>
    ss.length = 6 ∧ ∀ s ∈ ss, s ≤ 1 :=
  (C141_experiment (S := sphereSlots) (elapsed := pure 0) (log := Prod.fst) ([2, 3, 5, 10, 20, 40].map sphereProblem)
    (fun P hP => by obtain ⟨d, -, rfl⟩ := List.mem_map.1 hP; exact sphere_contract d)
    (fun P hP => by
      obtain ⟨d, hd, rfl⟩ := List.mem_map.1 hP
      exact sphere_plain (by fin_cases hd <;> decide)) counterFRng .nan true id).1.mono fun ss h =>
    ⟨h.1, h.2 fun P hP => by
      obtain ⟨d, hd, rfl⟩ := List.mem_map.1 hP
      show d ≤ 40
      fin_cases hd <;> decide⟩

/-! ## Every theorem on a concrete case -/

section instances

example := (C141_random_search (sphere_contract 5) (sphere_plain (by decide)) id (w := ([], 0)) rfl).2 rfl
example := C141_ga_search (sphere_contract 5) (sphere_plain (by decide)) counterFRng .nan true (w := ([], 0)) rfl
example := C141_ga_in_box (sphere_contract 5) (sphere_plain (by decide)) counterFRng .nan true (r := (-5, 5))
  (fun c hc => List.eq_of_mem_replicate hc) (w := ([], 0)) rfl
example := C141_rejects { sphereProblem 5 with objectives := 2 } (randomSearch id) (.inr (.inl (by decide)))

end instances

end Ecrs.Coco
