import Verif.Props.Possible
import Verif.Props.Possible2
import Verif.Props.Possible3
import Verif.Props.Presets
import Verif.Props.PermGa
import Verif.Props.GaSolver

/-!
# C130: which histories a genetic algorithm can have

`shownPops trace` (`Verif.Props.GaSolver`) – the populations shown to the probe, in order: the initial one and one per generation.
-/

set_option linter.unusedSectionVars false
set_option linter.unusedVariables false

namespace Ecrs.Ga
open Ecrs

/-- An individual that carries the fitness of its chromosome. -/
def evaluated {C F : Type} (f : C → Fl F) (c : C) : Individual C F := ⟨c, f c⟩

/-- Reading and writing an operator's generator do what they should. -/
structure Slot.Lawful {W G : Type} (s : Slot W G) : Prop where
  get_put : ∀ g w, s.get (s.put g w) = g
  put_get : ∀ w, s.put (s.get w) w = w
  put_put : ∀ g g' w, s.put g (s.put g' w) = s.put g w

theorem Slot.Lawful.can {W G α : Type} {s : Slot W G} (hs : s.Lawful) {m : M G α} {x : α} (h : CanYield m x) :
    CanYield (s.run m) x := by
  intro w'
  obtain ⟨g, hg⟩ := h (s.get w')
  refine ⟨s.put g w', ?_⟩
  unfold Slot.run
  rw [hs.get_put, hg]
  simp only [hs.put_put, hs.put_get]

theorem exists_can_bind {W α β : Type} {m : M W α} {k : α → M W β} {x : α} {P : β → Prop} (hm : CanYield m x)
    (h : ∃ y, CanYield (k x) y ∧ P y) : ∃ y, CanYield (m >>= k) y ∧ P y := by
  obtain ⟨y, h1, h2⟩ := h
  exact ⟨y, hm.bind h1, h2⟩

theorem exists_can_pure {W α : Type} {x : α} {P : α → Prop} (h : P x) :
    ∃ y, CanYield (pure x : M W α) y ∧ P y := ⟨x, .pure, h⟩

section
variable {W C F : Type} [LinearOrder F]

/-- Generation and breeding can produce every population of `n` chromosomes satisfying `Q`, the children replace
the parents, and the clock can show a time below the limit. -/
structure FullOps (ops : Ops W (Individual C F) F) (f : C → Fl F) (n : Nat) (Q : C → Prop) (limit : Nat) : Prop where
  fit : ops.fitnessFn = fnFitness (Individual.trait C F) f
  gen : ∀ chs : List C, chs.length = n → (∀ c ∈ chs, Q c) →
    ∃ pop, pop.map Individual.chromosome = chs ∧ CanYield (ops.generate n) pop
  breed : ∀ m (old chs : List C), old.length = n → (∀ c ∈ old, Q c) → chs.length = n → (∀ c ∈ chs, Q c) →
    ∃ pool crossed mutated, CanYield (ops.select m (old.map (evaluated f))) pool ∧
      CanYield (ops.cross m pool) crossed ∧ CanYield (M.forEach (ops.mutate m) crossed) mutated ∧
      mutated.map Individual.chromosome = chs
  replace : ∀ m pop children, ops.replace m pop children = pure children
  noEval : ops.requiresChildrenFitness = false
  clock : ∃ t < limit, CanYield ops.elapsed t

variable {ops : Ops W (Individual C F) F} {f : C → Fl F} {n : Nat} {Q : C → Prop} {p : GAParams}

theorem evalPop_fn (hfit : ops.fitnessFn = fnFitness (Individual.trait C F) f) (pop : List (Individual C F)) :
    evalPop (Individual.trait C F) ops pop = pure ((pop.map Individual.chromosome).map (evaluated f)) := by
  unfold evalPop
  induction pop with
  | nil => rfl
  | cons i pop ih =>
    unfold M.forEach
    rw [ih]
    have : evalOne (Individual.trait C F) ops i = pure (evaluated f i.chromosome) := by
      unfold evalOne
      rw [hfit]
      rfl
    rw [this]
    rfl

theorem FullOps.iteration (hf : ∀ c, (f c).IsNum) (ho : FullOps ops f n Q p.maxDuration) (hn : 0 < n) (hp : p.populationSize = n)
    {g : Nat} {s : St (Individual C F)} {old chs : List C} (hs : s.pop = old.map (evaluated f)) (h1 : old.length = n)
    (h2 : ∀ c ∈ old, Q c) (h3 : chs.length = n) (h4 : ∀ c ∈ chs, Q c) :
    ∃ s', CanYield (iteration (Individual.trait C F) ops p g s) (s', false) ∧
      s'.pop = chs.map (evaluated f) ∧ shownPops s'.trace = shownPops s.trace ++ [chs.map (evaluated f)] := by
  obtain ⟨t, ht, hclock⟩ := ho.clock
  have hmap : (old.map (evaluated f)).map Individual.chromosome = old := by simp [evaluated, Function.comp_def]
  have hb : ∃ b, findBest (Individual.trait C F) (chs.map (evaluated f)) = .ok b := by
    refine findBest_ok _ (by rintro h; rw [List.map_eq_nil_iff.1 h] at h3; simp at h3; omega) ?_
    intro i hi
    obtain ⟨c, -, rfl⟩ := List.mem_map.1 hi
    exact hf c
  obtain ⟨b, hb⟩ := hb
  obtain ⟨pool, crossed, mutated, c1, c2, c3, c4⟩ :=
    ho.breed { s.metrics with generation := g, totalDur := some t } old chs h1 h2 h3 h4
  have hmlen : mutated.length = n := by rw [← h3, ← c4]; simp
  have key : ∃ r, CanYield (Ga.iteration (Individual.trait C F) ops p g s) r ∧ r.2 = false ∧
      r.1.pop = chs.map (evaluated f) ∧
      shownPops r.1.trace = shownPops s.trace ++ [chs.map (evaluated f)] := by
    unfold Ga.iteration
    refine exists_can_bind hclock ?_
    rw [hs, evalPop_fn ho.fit, hmap, pure_bind]
    refine exists_can_bind c1 (exists_can_bind c2 (exists_can_bind c3 ?_))
    unfold evalChildren
    rw [ho.noEval, if_neg (by simp), pure_bind, ho.replace, pure_bind]
    refine exists_can_bind (CanYield.assert (by simp [hmlen, hp])) ?_
    rw [evalPop_fn ho.fit, c4, pure_bind]
    refine exists_can_bind (CanYield.ofExcept hb) (exists_can_bind hclock ?_)
    refine exists_can_pure ⟨by simp [ht], rfl, ?_⟩
    simp only [shownPops, List.filterMap_append]
    split <;> simp
  obtain ⟨⟨s', b'⟩, k1, k2, k3, k4⟩ := key
  simp only at k2
  subst k2
  exact ⟨s', k1, k3, k4⟩

theorem FullOps.loop (hf : ∀ c, (f c).IsNum) (ho : FullOps ops f n Q p.maxDuration) (hn : 0 < n)
    (hp : p.populationSize = n) : ∀ (rest : List (List C)) (g : Nat) (s : St (Individual C F)) (old : List C),
    s.pop = old.map (evaluated f) → old.length = n → (∀ c ∈ old, Q c) →
    (∀ chs ∈ rest, chs.length = n ∧ ∀ c ∈ chs, Q c) →
    ∃ s', CanYield (loop (Individual.trait C F) ops p rest.length g s) s' ∧
      shownPops s'.trace = shownPops s.trace ++ rest.map (·.map (evaluated f))
  | [], g, s, old, hs, h1, h2, h3 => ⟨s, .pure, by simp⟩
  | chs :: rest, g, s, old, hs, h1, h2, h3 => by
    obtain ⟨s1, c1, c2, c3⟩ := ho.iteration hf hn hp (g := g) hs h1 h2 (h3 chs (by simp)).1 (h3 chs (by simp)).2
    obtain ⟨s2, d1, d2⟩ := ho.loop hf hn hp rest (g + 1) s1 chs c2 (h3 chs (by simp)).1 (h3 chs (by simp)).2
      fun l hl => h3 l (by simp [hl])
    refine ⟨s2, ?_, by rw [d2, c3]; simp⟩
    show CanYield (Ga.loop (Individual.trait C F) ops p (rest.length + 1) g s) s2
    unfold Ga.loop
    refine c1.bind ?_
    exact d1

theorem FullOps.history (hf : ∀ c, (f c).IsNum) (ho : FullOps ops f n Q p.maxDuration) (hn : 0 < n)
    (hp : p.populationSize = n) (m0 : Metrics) {hist : List (List C)} (hl : hist.length = p.generationLimit + 1)
    (hh : ∀ chs ∈ hist, chs.length = n ∧ ∀ c ∈ chs, Q c) :
    ∃ r, CanYield (run (Individual.trait C F) ops p m0) r ∧
      shownPops r.2 = hist.map (·.map (evaluated f)) := by
  cases hist with
  | nil => simp at hl
  | cons first rest =>
    simp only [List.length_cons, Nat.add_right_cancel_iff] at hl
    obtain ⟨h1, h2⟩ := hh first (by simp)
    obtain ⟨t, ht, hclock⟩ := ho.clock
    obtain ⟨pop, g1, g2⟩ := ho.gen first h1 h2
    have hb : ∃ b, findBest (Individual.trait C F) (first.map (evaluated f)) = .ok b := by
      refine findBest_ok _ (by rintro h; rw [List.map_eq_nil_iff.1 h] at h1; simp at h1; omega) ?_
      intro i hi
      obtain ⟨c, -, rfl⟩ := List.mem_map.1 hi
      exact hf c
    obtain ⟨b, hb⟩ := hb
    have hpro : ∃ s, CanYield (prologue (Individual.trait C F) ops p m0) s ∧ s.pop = first.map (evaluated f) ∧
        shownPops s.trace = [first.map (evaluated f)] := by
      unfold prologue
      rw [hp]
      refine exists_can_bind g2 ?_
      rw [evalPop_fn ho.fit, g1, pure_bind]
      refine exists_can_bind (CanYield.ofExcept hb) (exists_can_bind hclock (exists_can_pure ?_))
      exact ⟨rfl, rfl⟩
    obtain ⟨s, p1, p2, p3⟩ := hpro
    obtain ⟨s', l1, l2⟩ := ho.loop hf hn hp rest 1 s first p2 h1 h2 fun l hl => hh l (by simp [hl])
    unfold run
    rw [← hl]
    refine exists_can_bind p1 (exists_can_bind l1 (exists_can_bind hclock (exists_can_pure ?_)))
    simp only [shownPops, List.filterMap_append]
    unfold shownPops at l2 p3
    rw [l2, p3]
    simp

/-- The populations of a run, when the clock never reaches the limit: one per generation and the initial one,
each made of `n` admissible chromosomes with their fitness. -/
theorem populations_of_total (hfit : ops.fitnessFn = fnFitness (Individual.trait C F) f)
    (ht : TotalOps (Individual.trait C F) ops (fun i => Q i.chromosome) n) (hn : 0 < n) (hp : p.populationSize = n)
    (hel : Returns ops.elapsed fun t => t < p.maxDuration) (m0 : Metrics) :
    Returns (run (Individual.trait C F) ops p m0) fun r => ∃ hist : List (List C),
      hist.length = p.generationLimit + 1 ∧ (∀ chs ∈ hist, chs.length = n ∧ ∀ c ∈ chs, Q c) ∧
      shownPops r.2 = hist.map (·.map (evaluated f)) := by
  have heval : ∀ pop : List (Individual C F), pop.length = n → (∀ i ∈ pop, Q i.chromosome) →
      Returns (evalPop (Individual.trait C F) ops pop) fun out => Good (Individual.trait C F) (fun i => Q i.chromosome) n out ∧
        ∃ chs : List C, out = chs.map (evaluated f) ∧ chs.length = n ∧ ∀ c ∈ chs, Q c := by
    intro pop h1 h2 w
    obtain ⟨out, w', e1, e2⟩ := ht.evalPop h1 h2 w
    refine ⟨out, w', e1, e2, pop.map Individual.chromosome, ?_, by simpa using h1, ?_⟩
    · rw [evalPop_fn hfit] at e1
      cases e1
      rfl
    · intro c hc
      obtain ⟨i, hi, rfl⟩ := List.mem_map.1 hc
      exact h2 i hi
  have hloop : ∀ (k g : Nat) (s : St (Individual C F)), Good (Individual.trait C F) (fun i => Q i.chromosome) n s.pop →
      Returns (Ga.loop (Individual.trait C F) ops p k g s) fun r => ∃ hist : List (List C), hist.length = k ∧
        (∀ chs ∈ hist, chs.length = n ∧ ∀ c ∈ chs, Q c) ∧
        shownPops r.trace = shownPops s.trace ++ hist.map (·.map (evaluated f)) := by
    intro k
    induction k with
    | zero => exact fun g s hs => Returns.pure ⟨[], rfl, by simp, by simp⟩
    | succ k ih =>
      intro g s hs
      unfold Ga.loop
      refine Returns.bind (P := fun r => r.2 = false ∧ Good (Individual.trait C F) (fun i => Q i.chromosome) n r.1.pop ∧
        ∃ chs : List C, (chs.length = n ∧ ∀ c ∈ chs, Q c) ∧
          shownPops r.1.trace = shownPops s.trace ++ [chs.map (evaluated f)]) ?_ ?_
      · unfold Ga.iteration
        refine Returns.bind ht.elapsed fun d _ => ?_
        refine Returns.bind (ht.evalPop hs.1 hs.2.1) fun pop h1 => ?_
        refine Returns.bind (ht.sel _ pop h1.1 h1.2.1 h1.2.2) fun pool h2 => ?_
        refine Returns.bind (ht.cross _ pool h2.1 h2.2) fun crossed h3 => ?_
        refine Returns.bind (P := fun out => out.length = n ∧ ∀ i ∈ out, Q i.chromosome)
          ((Returns.forEach (R := fun _ (y : Individual C F) => Q y.chromosome) crossed fun i hi =>
            ht.mutate _ i (h3.2 i hi)).mono
            fun out h => ⟨by rw [← h.length_eq, h3.1], forall₂_right h fun _ _ h => h⟩) fun mutated h4 => ?_
        refine Returns.bind (P := fun out => out.length = n ∧ (∀ i ∈ out, Q i.chromosome) ∧
          (ops.requiresChildrenFitness = true → ∀ i ∈ out, ((Individual.trait C F).fitness i).IsNum)) ?_
          fun children h5 => ?_
        · unfold Ga.evalChildren
          split
          · exact (ht.evalPop h4.1 h4.2).mono fun out h => ⟨h.1, h.2.1, fun _ => h.2.2⟩
          · exact Returns.pure ⟨h4.1, h4.2, fun h => by simp_all⟩
        refine Returns.bind (ht.replace _ pop children h1.1 h5.1 h1.2.1 h5.2.1 h1.2.2 h5.2.2)
          fun replaced h6 => ?_
        refine Returns.bind (Returns.assert (by simp [h6.1, hp])) fun _ _ => ?_
        refine Returns.bind (heval replaced h6.1 h6.2) fun pop' h7 => ?_
        refine Returns.bind (TotalOps.findBest hn h7.1) fun b _ => ?_
        refine Returns.bind hel fun d' hd' => ?_
        obtain ⟨h7, chs, rfl, h8⟩ := h7
        refine Returns.pure ⟨by simp [hd'], h7, chs, h8, ?_⟩
        simp only [shownPops, List.filterMap_append]
        split <;> simp
      · rintro ⟨s', stop⟩ ⟨hstop, hg, chs, hchs, htr⟩
        simp only at hstop hg htr
        subst hstop
        refine (ih (g + 1) s' hg).mono ?_
        rintro r ⟨hist, i1, i2, i3⟩
        refine ⟨chs :: hist, by simp [i1], ?_, by rw [i3, htr]; simp⟩
        intro l hl
        rcases List.mem_cons.1 hl with rfl | hl
        · exact hchs
        · exact i2 l hl
  unfold Ga.run
  refine Returns.bind (P := fun s => Good (Individual.trait C F) (fun i => Q i.chromosome) n s.pop ∧
    ∃ chs : List C, (chs.length = n ∧ ∀ c ∈ chs, Q c) ∧ shownPops s.trace = [chs.map (evaluated f)]) ?_ fun s hs => ?_
  · unfold Ga.prologue
    rw [hp]
    refine Returns.bind ht.gen fun pop0 h0 => ?_
    refine Returns.bind (heval pop0 h0.1 h0.2) fun pop h1 => ?_
    obtain ⟨h1, chs, rfl, h8⟩ := h1
    refine Returns.bind (TotalOps.findBest hn h1) fun b _ => ?_
    exact Returns.bind ht.elapsed fun d _ => Returns.pure ⟨h1, chs, h8, rfl⟩
  · obtain ⟨hg, chs, hchs, htr⟩ := hs
    refine Returns.bind (hloop _ _ _ hg) fun s' hs' => ?_
    refine Returns.bind ht.elapsed fun d _ => Returns.pure ?_
    obtain ⟨hist, i1, i2, i3⟩ := hs'
    refine ⟨chs :: hist, by simp [i1], ?_, ?_⟩
    · intro l hl
      rcases List.mem_cons.1 hl with rfl | hl
      · exact hchs
      · exact i2 l hl
    · simp only [shownPops, List.filterMap_append]
      unfold shownPops at i3 htr
      rw [i3, htr]
      simp

end

section preset
variable {W G K F : Type} [Field K] [LinearOrder K] [IsStrictOrderedRing K] [FloorSemiring K] [LinearOrder F]
variable {R : Rng G K} {S : Slots W G}

/-- All four places behave as places. -/
def Slots.Lawful (S : Slots W G) : Prop := S.gen.Lawful ∧ S.sel.Lawful ∧ S.cross.Lawful ∧ S.mutate.Lawful

/-- Some member can be selected `n` times by a tournament. -/
theorem tournament_can_repeat {I C : Type} (hR : R.Full) (T : IndTrait I C F) {factor : K} (hf : factor ≤ 1)
    {count : Nat} {pop : List I} (h0 : 0 < pop.length) (hnum : ∀ x ∈ pop, (T.fitness x).IsNum) :
    ∃ w ∈ pop, CanYield (selTournament R T factor count pop) (List.replicate count w) := by
  have hsz := tournamentSize_bounds hf h0
  have hpos : AtPositions pop (pop.take (tournamentSize factor pop.length)) (List.range (tournamentSize factor pop.length)) := by
    unfold AtPositions
    refine List.forall₂_iff_get.2 ⟨by simp [hsz.2], ?_⟩
    intro i h1 h2
    simp at h1 h2
    simp [List.getElem?_eq_getElem h2.2]
  obtain ⟨w, h1, h2, h3⟩ := findMax_ok T (xs := pop.take (tournamentSize factor pop.length))
    (by intro h; have := congrArg List.length h; simp at this; rcases this with h | h
        · omega
        · rw [h] at h0; simp at h0)
    fun x hx => hnum x (List.mem_of_mem_take hx)
  refine ⟨w, List.mem_of_mem_take h2, ?_⟩
  unfold selTournament
  refine CanYield.replicate (by simp) fun y hy => ?_
  obtain rfl := List.eq_of_mem_replicate hy
  unfold tournamentOne
  refine (hR.indexSample (l := List.range (tournamentSize factor pop.length)) (by simp) List.nodup_range
    (by simp; omega) hsz.2).bind ?_
  rw [forEach_idx_can hpos, pure_bind]
  exact CanYield.ofExcept h1

/-- Parents crossed with themselves at locus 0 give copies of themselves. -/
theorem singlePoint_can_copy {I A : Type} (hR : R.Full) (X : ChromOps I A) {w : I} (hw : 0 < (X.ch w).length) :
    ∀ (k : Nat), CanYield (chunks2 (liftSingle X (singlePoint R)) (List.replicate (k + k) w))
      (List.replicate (k + k) (X.ofCh (X.ch w)))
  | 0 => .pure
  | k + 1 => by
    rw [show k + 1 + (k + 1) = (k + k) + 1 + 1 by omega]
    rw [List.replicate_succ, List.replicate_succ, List.replicate_succ, List.replicate_succ]
    unfold chunks2
    have h := (singlePoint_can hR (p1 := X.ch w) (p2 := X.ch w) rfl (cut := 0) hw).bind_pure
      (f := fun x => (X.ofCh x.1, X.ofCh x.2))
    simp only [List.take_zero, List.drop_zero, List.nil_append] at h
    exact CanYield.bind h ((singlePoint_can_copy hR X hw k).bind .pure)

theorem bscOps_full (hR : R.Full) (hS : S.Lawful) (worst : Fl F) {f : List Bool → Fl F} (hf : ∀ c, (f c).IsNum)
    {dim n limit : Nat} (hd : 0 < dim) (hn : 0 < n) (he : n % 2 = 0) {elapsed : M W Nat}
    (hel : ∃ t < limit, CanYield elapsed t) :
    FullOps (bscOps R S worst f dim n elapsed) f n (fun c => c.length = dim) limit where
  fit := rfl
  gen chs h1 h2 := by
    refine ⟨chs.map fun c => ⟨c, worst⟩, by simp [Function.comp_def], hS.1.can ?_⟩
    exact map_ofCh_can (X := Individual.chromOps Bool worst) (Q := fun c => c.length = dim)
      (fun c hc => CanYield.replicate hc fun b _ => hR.genCoin b) h1 h2
  breed m old chs h1 h2 h3 h4 := by
    obtain ⟨w, hw, hsel⟩ := tournament_can_repeat hR (Individual.trait (List Bool) F) (factor := 1 / 5) fifth_le_one
      (count := n) (pop := old.map (evaluated f)) (by simp; omega) (by
        intro i hi
        obtain ⟨c, -, rfl⟩ := List.mem_map.1 hi
        exact hf c)
    obtain ⟨c, hc, rfl⟩ := List.mem_map.1 hw
    obtain ⟨k, hk⟩ : ∃ k, n = k + k := ⟨n / 2, by omega⟩
    refine ⟨_, List.replicate n ⟨c, worst⟩, chs.map fun c => ⟨c, worst⟩, hS.2.1.can hsel, hS.2.2.1.can ?_, ?_,
      by simp [Function.comp_def]⟩
    · unfold applyPairs
      refine (CanYield.assert (by simp [he])).bind ?_
      rw [hk]
      exact singlePoint_can_copy hR (Individual.chromOps Bool worst) (w := evaluated f c)
        (by show 0 < c.length; rw [h2 c hc]; exact hd) k
    · refine CanYield.forEach ?_
      subst h3
      refine List.forall₂_iff_get.2 ⟨by simp, fun i q1 q2 => ?_⟩
      simp only [List.length_map] at q2
      simp only [List.get_eq_getElem, List.getElem_replicate, List.getElem_map]
      refine hS.2.2.2.can ?_
      unfold applyMutation
      have hc' : c.length = dim := h2 c hc
      have := (flipBitGo_can hR (rate := (1 / 20 : K)) (by positivity)
        (by rw [div_lt_one (by positivity)]; norm_num) chs[i] c.length 0 c (by omega)
        (by rw [h4 _ (List.getElem_mem q2), hc']) (by simp)).bind_pure
          (f := fun c' => (Individual.chromOps Bool worst).setCh ⟨c, worst⟩ c')
      exact this
  replace _ _ _ := rfl
  noEval := rfl
  clock := hel

/-- **C130, the bit-string preset.** As long as time does not run out, a sequence of populations is a possible
history of a run exactly when it has one more member than the generation limit and each member is a list of
`population size` bit strings of the configured length, with their fitness: from every population every other
one can arise in one generation, so no optimum is ever out of reach. -/
theorem C130_bit_string_histories (hR : R.Full) (hS : S.Lawful) (worst : Fl F) {f : List Bool → Fl F}
    (hf : ∀ c, (f c).IsNum) {dim : Nat} (hd : 0 < dim) {elapsed : M W Nat} {p : GAParams}
    (hel : Returns elapsed fun t => t < p.maxDuration) (hel' : ∃ t, CanYield elapsed t) [hW : Nonempty W]
    (hn : 0 < p.populationSize) (he : p.populationSize % 2 = 0) (m0 : Metrics)
    (hist : List (List (Individual (List Bool) F))) :
    (∃ r, MayYield (run (Individual.trait (List Bool) F) (bscOps R S worst f dim p.populationSize elapsed) p m0) r ∧
      shownPops r.2 = hist) ↔
    hist.length = p.generationLimit + 1 ∧ ∀ pop ∈ hist, pop.length = p.populationSize ∧
      ∀ i ∈ pop, i.chromosome.length = dim ∧ i.fitness = f i.chromosome := by
  constructor
  · rintro ⟨r, ⟨w, w', hr⟩, rfl⟩
    obtain ⟨H, h1, h2, h3⟩ := (populations_of_total (p := p) (Q := fun c => c.length = dim) rfl
      (bscOps_total R S worst hf hd hn he (hel.mono fun _ _ => trivial)) hn rfl hel m0).ifReturns w _ _ hr
    rw [h3]
    refine ⟨by simp [h1], fun pop hpop => ?_⟩
    obtain ⟨chs, hchs, rfl⟩ := List.mem_map.1 hpop
    refine ⟨by simp [(h2 chs hchs).1], fun i hi => ?_⟩
    obtain ⟨c, hc, rfl⟩ := List.mem_map.1 hi
    exact ⟨(h2 chs hchs).2 c hc, rfl⟩
  · rintro ⟨h1, h2⟩
    have := hR.inhabited
    obtain ⟨t, ht⟩ := hel'
    have htl : t < p.maxDuration := by
      obtain ⟨w'⟩ := hW
      obtain ⟨w, hw⟩ := ht w'
      exact hel.ifReturns w _ _ hw
    have hH : hist = (hist.map (·.map Individual.chromosome)).map (·.map (evaluated f)) := by
      rw [List.map_map]
      conv_lhs => rw [← List.map_id hist]
      refine List.map_congr_left fun pop hpop => ?_
      simp only [id, Function.comp, List.map_map]
      conv_lhs => rw [← List.map_id pop]
      refine List.map_congr_left fun i hi => ?_
      have := ((h2 pop hpop).2 i hi).2
      simp only [id, Function.comp, evaluated, ← this]
    obtain ⟨r, r1, r2⟩ := (bscOps_full hR hS worst hf hd hn he (limit := p.maxDuration) ⟨t, htl, ht⟩).history (p := p)
      hf hn rfl m0 (hist := hist.map (·.map Individual.chromosome)) (by simp [h1]) (by
        intro chs hchs
        obtain ⟨pop, hpop, rfl⟩ := List.mem_map.1 hchs
        refine ⟨by simp [(h2 pop hpop).1], fun c hc => ?_⟩
        obtain ⟨i, hi, rfl⟩ := List.mem_map.1 hc
        exact ((h2 pop hpop).2 i hi).1)
    exact ⟨r, r1.may, by rw [r2, ← hH]⟩

/-- **C130, every optimum stays within reach.** Whatever the initial population and however many generations
have passed, a bit-string preset run can still produce any given chromosome `c` of the configured length in its
last generation, and its result is then at least as good as `c`. -/
theorem C130_optimum_in_reach (hR : R.Full) (hS : S.Lawful) (worst : Fl F) {f : List Bool → Fl F}
    (hf : ∀ c, (f c).IsNum) {dim : Nat} (hd : 0 < dim) {elapsed : M W Nat} {p : GAParams}
    (hel : Returns elapsed fun t => t < p.maxDuration) (hel' : ∃ t, CanYield elapsed t) [hW : Nonempty W]
    (hn : 0 < p.populationSize) (he : p.populationSize % 2 = 0) (m0 : Metrics)
    {before : List (List (Individual (List Bool) F))} (hlen : before.length = p.generationLimit)
    (hbefore : ∀ pop ∈ before, pop.length = p.populationSize ∧
      ∀ i ∈ pop, i.chromosome.length = dim ∧ i.fitness = f i.chromosome)
    {c : List Bool} (hc : c.length = dim) :
    ∃ r, MayYield (run (Individual.trait (List Bool) F) (bscOps R S worst f dim p.populationSize elapsed) p m0) r ∧
      shownPops r.2 = before ++ [List.replicate p.populationSize (evaluated f c)] ∧ Fl.Le r.1.fitness (f c) := by
  have hnum : ∀ pop ∈ before ++ [List.replicate p.populationSize (evaluated f c)], pop.length = p.populationSize ∧
      ∀ i ∈ pop, i.chromosome.length = dim ∧ i.fitness = f i.chromosome := ?_
  · obtain ⟨r, ⟨w, w', h1⟩, h2⟩ :=
      (C130_bit_string_histories hR hS worst hf hd hel hel' hn he m0 _).2 ⟨by simp [hlen], hnum⟩
    refine ⟨r, ⟨w, w', h1⟩, h2, ?_⟩
    obtain ⟨best, tr⟩ := r
    refine C01_result_le_all _ _ _ h1 (fun pop hpop => .inr fun i hi => ?_)
      (List.replicate p.populationSize (evaluated f c)) (by rw [h2]; simp) (evaluated f c)
      (List.mem_replicate.2 ⟨by omega, rfl⟩)
    show i.fitness.IsNum
    simp only at h2
    rw [h2] at hpop
    rw [((hnum pop hpop).2 i hi).2]
    exact hf _
  intro pop hpop
  rcases List.mem_append.1 hpop with h | h
  · exact hbefore pop h
  · rw [List.mem_singleton.1 h]
    refine ⟨by simp, fun i hi => ?_⟩
    obtain rfl := List.eq_of_mem_replicate hi
    exact ⟨hc, rfl⟩

end preset

section perm
variable {W G K F A : Type} [Field K] [LinearOrder K] [IsStrictOrderedRing K] [FloorSemiring K] [LinearOrder F]
variable [DecidableEq A] {R : FRng G K} {S : Slots W G}

theorem permSingle_can (hR : R.Full) {fuel : Nat} {w : List A} (hn : w.Nodup) (h0 : 0 < w.length)
    (hfuel : w.length ≤ fuel) :
    (∃ x, CanYield (ordered R.toRng w w) x) ∧ (∃ x, CanYield (pmx R.toRng fuel w w) x) ∧
      ∃ x, CanYield (ppx R.toRng w w) x := by
  refine ⟨?_, ?_, ?_⟩
  · obtain ⟨o, h1, -⟩ := orderedChild_spec (G := G) hn (List.Perm.refl w) (le_refl 0) (Nat.zero_le _)
    refine ⟨(o, o), ?_⟩
    unfold ordered
    refine (CanYield.assert (by simp)).bind ?_
    refine (hR.genRange (le_refl 0) h0).bind ?_
    refine (hR.genRangeIncl (le_refl 0) (Nat.zero_le _)).bind ?_
    rw [h1]
    exact .pure
  · obtain ⟨c, d, h, -⟩ := C127_pmx hR hn (List.Perm.refl w) hfuel (lo := 0) (hi := 0) h0 le_rfl (Nat.zero_le _)
    exact ⟨_, h⟩
  · obtain ⟨o, h1, -⟩ := ppxChild_rule (G := G) (mask := List.replicate w.length true) hn (List.Perm.refl w) (by simp)
    refine ⟨(o, o), ?_⟩
    unfold ppx
    refine (CanYield.assert (by simp)).bind ?_
    refine (CanYield.replicate (ys := List.replicate w.length true) (by simp) fun b _ => hR.genCoin b).bind ?_
    rw [h1]
    exact .pure

theorem chunks2_can_some {I : Type} {single : I → I → M G (I × I)} {w : I} (h : ∃ x, CanYield (single w w) x) :
    ∀ k : Nat, ∃ out, CanYield (chunks2 single (List.replicate (k + k) w)) out
  | 0 => ⟨[], .pure⟩
  | k + 1 => by
    obtain ⟨x, hx⟩ := h
    obtain ⟨out, ho⟩ := chunks2_can_some (single := single) ⟨x, hx⟩ k
    refine ⟨x.1 :: x.2 :: out, ?_⟩
    rw [show k + 1 + (k + 1) = (k + k) + 1 + 1 by omega, List.replicate_succ, List.replicate_succ]
    unfold chunks2
    exact hx.bind (ho.bind .pure)

theorem permOps_full (hR : R.Full) (hS : S.Lawful) (worst : Fl F) {f : List A → Fl F} (hf : ∀ c, (f c).IsNum)
    (fit : Individual (List A) F → K) (half : K) {fuel n limit : Nat} {genes : List A} {factor rate : K} (hfac : factor ≤ 1)
    (hrate : 0 < rate) {cr : Crossover K} (debug : Bool) (hg : genes.Nodup) (h0 : 0 < genes.length)
    (hfuel : genes.length ≤ fuel) (hcr : cr = .ordered ∨ cr = .pmx ∨ cr = .ppx)
    (hn : 0 < n) (he : n % 2 = 0) {elapsed : M W Nat} (hel : ∃ t < limit, CanYield elapsed t) :
    FullOps (permOps R (Individual.trait (List A) F) (Individual.chromOps A worst) S f fit half fuel n genes
      (.tournament factor) cr (.interchange rate) .bothParents debug elapsed) f n (fun c => c.Perm genes) limit where
  fit := rfl
  gen chs h1 h2 := by
    refine ⟨chs.map fun c => ⟨c, worst⟩, by simp [Function.comp_def], hS.1.can ?_⟩
    exact map_ofCh_can (X := Individual.chromOps A worst) (Q := fun c => c.Perm genes)
      (fun c hc => shuffled_can hR hc) h1 h2
  breed m old chs h1 h2 h3 h4 := by
    obtain ⟨w, hw, hsel⟩ := tournament_can_repeat hR (Individual.trait (List A) F) hfac
      (count := n) (pop := old.map (evaluated f)) (by simp; omega) (by
        intro i hi
        obtain ⟨c, -, rfl⟩ := List.mem_map.1 hi
        exact hf c)
    obtain ⟨c, hc, rfl⟩ := List.mem_map.1 hw
    have hcp := h2 c hc
    obtain ⟨k, hk⟩ : ∃ k, n = k + k := ⟨n / 2, by omega⟩
    have hcross : ∃ out, CanYield (cr.apply R.toRng (Individual.chromOps A worst) half fuel
        (List.replicate n (evaluated f c))) out := by
      obtain ⟨⟨x1, s1⟩, ⟨x2, s2⟩, ⟨x3, s3⟩⟩ := permSingle_can hR (fuel := fuel) (hcp.nodup_iff.2 hg)
        (by rw [hcp.length_eq]; exact h0) (by rw [hcp.length_eq]; exact hfuel)
      have lift : ∀ {single : List A → List A → M G (List A × List A)} {x}, CanYield (single c c) x →
          ∃ out, CanYield (applyPairs (liftSingle (Individual.chromOps A worst) single)
            (List.replicate n (evaluated f c))) out := by
        intro single x hx
        obtain ⟨out, ho⟩ := chunks2_can_some (single := liftSingle (Individual.chromOps A worst) single)
          (w := evaluated f c) ⟨_, CanYield.bind_pure (m := single c c) (f := fun x : List A × List A =>
            ((Individual.chromOps A worst).ofCh x.1, (Individual.chromOps A worst).ofCh x.2)) hx⟩ k
        refine ⟨out, ?_⟩
        unfold applyPairs
        refine (CanYield.assert (by simp [he])).bind ?_
        rw [hk]
        exact ho
      rcases hcr with rfl | rfl | rfl
      · exact lift s1
      · exact lift s2
      · exact lift s3
    obtain ⟨crossed, hcrossed⟩ := hcross
    have hclosed := permCross_closed R.toRng (Individual.chromOps A worst) (half := half) hg h0 hfuel
      (cr := cr) (by rcases hcr with rfl | rfl | rfl <;> rfl) (pool := List.replicate n (evaluated f c)) (by
        intro i hi
        obtain rfl := List.eq_of_mem_replicate hi
        exact hcp) (by simp [he])
    have hprop : crossed.length = n ∧ ∀ i ∈ crossed, i.chromosome.Perm genes := by
      obtain ⟨g0⟩ := hR.inhabited
      obtain ⟨g, hg'⟩ := hcrossed g0
      have := hclosed.ifReturns g _ _ hg'
      exact ⟨by rw [this.1]; simp, this.2⟩
    have hmut : ∃ mutated : List (Individual (List A) F), mutated.map Individual.chromosome = chs ∧
        List.Forall₂ (fun i j => CanYield (S.mutate.run (applyMutation (Individual.chromOps A worst)
          (interchange R.toRng rate) i)) j) crossed mutated := by
      have hlen : crossed.length = chs.length := by rw [hprop.1, h3]
      have hperm := hprop.2
      clear * - hlen hperm h4 hR hS hrate h0
      induction crossed generalizing chs with
      | nil => exact ⟨[], by simpa using (List.length_eq_zero_iff.1 hlen.symm).symm, .nil⟩
      | cons i crossed ih =>
        cases chs with
        | nil => simp at hlen
        | cons c chs =>
          obtain ⟨mutated, m1, m2⟩ := ih chs (fun d hd => h4 d (by simp [hd])) (by simpa using hlen)
            fun j hj => hperm j (by simp [hj])
          refine ⟨{ i with chromosome := c } :: mutated, by simp [m1], .cons ?_ m2⟩
          refine hS.2.2.2.can ?_
          have hi := hperm i (by simp)
          exact (interchange_can hR hrate (c := i.chromosome) (target := c) (by rw [hi.length_eq]; exact h0)
            ((h4 c (by simp)).trans hi.symm) one_pos).bind_pure
              (f := fun c' => (Individual.chromOps A worst).setCh i c')
    obtain ⟨mutated, m1, m2⟩ := hmut
    exact ⟨_, crossed, mutated, hS.2.1.can hsel, hS.2.2.1.can hcrossed, CanYield.forEach m2, m1⟩
  replace _ _ _ := rfl
  noEval := rfl
  clock := hel

/-- **C130, permutation problems.** A GA made of RandomPermutations, Tournament, one of the three permutation
crossovers, Interchange with a positive rate and BothParents can have every history of the right shape: each
population is a list of `population size` orderings of the genes with their fitness, one per generation and the
initial one. -/
theorem C130_permutation_histories (hR : R.Full) (hS : S.Lawful) (worst : Fl F) {f : List A → Fl F}
    (hf : ∀ c, (f c).IsNum) (fit : Individual (List A) F → K) (half : K) {fuel : Nat} {genes : List A}
    {factor rate : K} (hfac : factor ≤ 1) (hrate : 0 < rate) {cr : Crossover K} (debug : Bool) (hg : genes.Nodup)
    (h0 : 0 < genes.length) (hfuel : genes.length ≤ fuel) (hcr : cr = .ordered ∨ cr = .pmx ∨ cr = .ppx)
    {elapsed : M W Nat} {p : GAParams} (hel : ∃ t < p.maxDuration, CanYield elapsed t) [Nonempty W]
    (hn : 0 < p.populationSize) (he : p.populationSize % 2 = 0) (m0 : Metrics)
    {hist : List (List (List A))} (h1 : hist.length = p.generationLimit + 1)
    (h2 : ∀ chs ∈ hist, chs.length = p.populationSize ∧ ∀ c ∈ chs, c.Perm genes) :
    ∃ r, MayYield (run (Individual.trait (List A) F)
        (permOps R (Individual.trait (List A) F) (Individual.chromOps A worst) S f fit half fuel p.populationSize genes
          (.tournament factor) cr (.interchange rate) .bothParents debug elapsed) p m0) r ∧
      shownPops r.2 = hist.map (·.map (evaluated f)) := by
  obtain ⟨r, r1, r2⟩ := (permOps_full hR hS worst hf fit half hfac hrate debug hg h0 hfuel hcr hn he hel).history
    hf hn rfl m0 h1 h2
  exact ⟨r, r1.may, r2⟩

end perm

/-- The whole world is one shared generator (`ThreadRng`). -/
def wholeSlot (G : Type) : Slot G G := ⟨id, fun g _ => g⟩

theorem wholeSlot_lawful (G : Type) : (wholeSlot G).Lawful := ⟨fun _ _ => rfl, fun _ => rfl, fun _ _ _ => rfl⟩

/-- Non-vacuity: two individuals of two bits, one generation, the number of ones as fitness: the history
11,11 → 00,01 is possible. -/
example : ∃ r, MayYield (run (Individual.trait (List Bool) Nat)
      (bscOps (scripted true) ⟨wholeSlot _, wholeSlot _, wholeSlot _, wholeSlot _⟩ (.num 0)
        (fun c => .num (c.count true)) 2 2 (pure 0)) ⟨2, 1, 5⟩ ⟨0, 2, none⟩) r ∧
    shownPops r.2 = [[⟨[true, true], .num 2⟩, ⟨[true, true], .num 2⟩],
      [⟨[false, false], .num 0⟩, ⟨[false, true], .num 1⟩]] := by
  have : Nonempty (List Answer) := ⟨[]⟩
  exact (C130_bit_string_histories (scripted_full true)
    ⟨wholeSlot_lawful _, wholeSlot_lawful _, wholeSlot_lawful _, wholeSlot_lawful _⟩ (.num 0)
    (f := fun c => .num (c.count true)) (fun _ => trivial) (by decide) (p := ⟨2, 1, 5⟩) (Returns.pure (by decide)) ⟨0, .pure⟩ (by decide) (by decide) _ _).2
    ⟨rfl, by simp⟩

example : ∃ r, MayYield (run (Individual.trait (List Bool) Nat)
      (bscOps (scripted true) ⟨wholeSlot _, wholeSlot _, wholeSlot _, wholeSlot _⟩ (.num 0)
        (fun c => .num (c.count true)) 2 2 (pure 0)) ⟨2, 1, 5⟩ ⟨0, 2, none⟩) r ∧
    shownPops r.2 = [[⟨[true, true], .num 2⟩, ⟨[true, true], .num 2⟩]] ++
      [List.replicate 2 (evaluated (fun c => .num (c.count true)) [false, false])] ∧
    Fl.Le r.1.fitness (.num 0) := by
  have : Nonempty (List Answer) := ⟨[]⟩
  exact C130_optimum_in_reach (scripted_full true)
    ⟨wholeSlot_lawful _, wholeSlot_lawful _, wholeSlot_lawful _, wholeSlot_lawful _⟩ (.num 0)
    (f := fun c => .num (c.count true)) (fun _ => trivial) (by decide) (p := ⟨2, 1, 5⟩) (Returns.pure (by decide)) ⟨0, .pure⟩
    (by decide) (by decide) _ (before := [[⟨[true, true], .num 2⟩, ⟨[true, true], .num 2⟩]]) rfl (by simp)
    (c := [false, false]) rfl

/-- The scripted generator with the real-valued draws `permOps` does not use for these operators. -/
def scriptedFRng (shared : Bool) : FRng (List Answer) ℚ :=
  { scripted shared with
    between := fun g lo _ => (lo, g)
    between_spec := fun _ _ _ h => ⟨le_rfl, h⟩
    halfOpen := fun g lo _ => (lo, g)
    halfOpen_spec := fun _ _ _ h => ⟨le_rfl, h⟩
    weighted := fun g _ _ => (none, g)
    weighted_spec := fun _ _ _ _ h => by cases h }

example : ∃ r, MayYield (run (Individual.trait (List Nat) Nat)
      (permOps (scriptedFRng true) (Individual.trait (List Nat) Nat) (Individual.chromOps Nat (.num 0))
        ⟨wholeSlot _, wholeSlot _, wholeSlot _, wholeSlot _⟩ (fun c => .num (c.headD 0)) (fun _ => (1 : ℚ)) (1 / 2) 3 2 [1, 2, 3]
        (.tournament (1 / 5)) .pmx (.interchange (1 / 20)) .bothParents true (pure 0)) ⟨2, 1, 5⟩ ⟨0, 2, none⟩) r ∧
    shownPops r.2 = [[[1, 2, 3], [3, 2, 1]], [[2, 1, 3], [1, 3, 2]]].map (·.map (evaluated fun c => .num (c.headD 0))) := by
  have : Nonempty (List Answer) := ⟨[]⟩
  exact C130_permutation_histories (R := scriptedFRng true) (scripted_full true)
    ⟨wholeSlot_lawful _, wholeSlot_lawful _, wholeSlot_lawful _, wholeSlot_lawful _⟩ (.num 0)
    (f := fun c => .num (c.headD 0)) (fun _ => trivial) (fun _ => 1) (1 / 2) (by norm_num) (by norm_num) true (by decide)
    (by decide) (by decide) (.inr (.inl rfl)) (p := ⟨2, 1, 5⟩) ⟨0, by decide, .pure⟩ (by decide) (by decide) _ rfl (by decide)

end Ecrs.Ga
