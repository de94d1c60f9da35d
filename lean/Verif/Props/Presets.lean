import Verif.Props.PermGa

/-!
# Properties C41, C42, C69: the preset GAs of RealValuedBuilder and BitStringBuilder
-/

set_option linter.unusedSectionVars false

namespace Ecrs.Ga
open Ecrs

section
variable {G K F W : Type} [Field K] [LinearOrder K] [IsStrictOrderedRing K] [FloorSemiring K] [LinearOrder F]

/-- A point of the unit cube `[0,1)^dim`. -/
def InUnitCube (dim : Nat) (c : List K) : Prop := c.length = dim ∧ ∀ x ∈ c, 0 ≤ x ∧ x < 1

/-- Single point crossover of chromosomes of one positive length, with a predicate on genes. -/
theorem singlePoint_dim {I A : Type} (R : Rng G K) (X : ChromOps I A) {dim : Nat} {Q : A → Prop}
    (hd : 0 < dim) {pool : List I} (he : pool.length % 2 = 0)
    (hp : ∀ i ∈ pool, (X.ch i).length = dim ∧ ∀ x ∈ X.ch i, Q x) :
    Returns (applyPairs (liftSingle X (singlePoint R)) pool) fun out => out.length = pool.length ∧
      ∀ i ∈ out, (X.ch i).length = dim ∧ ∀ x ∈ X.ch i, Q x := by
  refine (C10_single_point R X (Pairs.of_forall pool he fun a ha b hb =>
    ⟨by rw [(hp a ha).1, (hp b hb).1], by rw [(hp a ha).1]; exact hd⟩)).mono fun out h => ⟨h.length, ?_⟩
  refine pairsRel_all h hp ?_
  rintro a b c d ⟨ha, qa⟩ ⟨hb, qb⟩ ⟨cut, hc, h1, h2⟩
  rw [h1, h2]
  refine ⟨⟨by simp [ha, hb]; omega, fun x hx => ?_⟩, ⟨by simp [ha, hb]; omega, fun x hx => ?_⟩⟩
  · rcases List.mem_append.1 hx with h | h
    · exact qa x (List.mem_of_mem_take h)
    · exact qb x (List.mem_of_mem_drop h)
  · rcases List.mem_append.1 hx with h | h
    · exact qb x (List.mem_of_mem_take h)
    · exact qa x (List.mem_of_mem_drop h)

theorem fifth_le_one : (1 / 5 : K) ≤ 1 := by
  rw [div_le_iff₀ (by norm_num : (0 : K) < 5)]; norm_num

theorem rvcOps_total (R : Rng G K) (S : Slots W G) (worst : Fl F) {f : List K → Fl F}
    (hf : ∀ c, (f c).IsNum) {dim n : Nat} (hd : 0 < dim) (hn : 0 < n) (he : n % 2 = 0)
    {elapsed : M W Nat} (hel : Returns elapsed fun _ => True) :
    TotalOps (Individual.trait (List K) F) (rvcOps R S worst f dim n elapsed)
      (fun i => InUnitCube dim i.chromosome) n where
  eval _ := rfl
  set _ _ h := h
  gen := S.gen.run_returns <| by
    intro g
    have hnew : (RandomPoints.new dim : M G (RandomPoints K)) g =
        .ok (⟨dim, List.replicate dim (0, 1)⟩, g) := by
      unfold RandomPoints.new
      rw [M.bind_of_ok (a := ()) (w' := g) (by simp [hd, M.assert])]; rfl
    exact (C37_random_points_unit R (Individual.chromOps K worst) hnew).2 g
  fit i h := Returns.pure ⟨h, hf _⟩
  sel m pop hl hP hnum := S.sel.run_returns
    ((C28_tournament R _ fifth_le_one (by omega) hnum).mono fun pool hp =>
      ⟨hp.1, fun i hi => hP i (hp.2 i hi)⟩)
  cross m pool hl hP := S.cross.run_returns
    ((singlePoint_dim R (Individual.chromOps K worst) hd (by omega) hP).mono fun out h =>
      ⟨by rw [h.1, hl], h.2⟩)
  mutate m i h := S.mutate.run_returns
    ((C25_reordering_mutations_return R (Individual.chromOps K worst) (.interchange (1 / 20)) i
      (by rw [show ((Individual.chromOps K worst).ch i).length = dim from h.1]; exact hd)).mono
      fun i' hi' => ⟨by rw [show i'.chromosome.length = _ from hi'.length_eq]; exact h.1,
        fun x hx => h.2 x (hi'.mem_iff.1 hx)⟩)
  replace m pop children _ h2 _ h4 _ _ := Returns.pure ⟨h2, h4⟩
  elapsed := hel

theorem bscOps_total (R : Rng G K) (S : Slots W G) (worst : Fl F) {f : List Bool → Fl F}
    (hf : ∀ c, (f c).IsNum) {dim n : Nat} (hd : 0 < dim) (hn : 0 < n) (he : n % 2 = 0)
    {elapsed : M W Nat} (hel : Returns elapsed fun _ => True) :
    TotalOps (Individual.trait (List Bool) F) (bscOps R S worst f dim n elapsed)
      (fun i => i.chromosome.length = dim) n where
  eval _ := rfl
  set _ _ h := h
  gen := S.gen.run_returns (C38_bit_strings R (Individual.chromOps Bool worst) dim n).1
  fit i h := Returns.pure ⟨h, hf _⟩
  sel m pop hl hP hnum := S.sel.run_returns
    ((C28_tournament R _ fifth_le_one (by omega) hnum).mono fun pool hp =>
      ⟨hp.1, fun i hi => hP i (hp.2 i hi)⟩)
  cross m pool hl hP := S.cross.run_returns
    ((singlePoint_dim R (Individual.chromOps Bool worst) (Q := fun _ => True) hd (by omega)
      fun i hi => ⟨hP i hi, fun _ _ => trivial⟩).mono fun out h => ⟨by rw [h.1, hl], fun i hi => (h.2 i hi).1⟩)
  mutate m i h := S.mutate.run_returns
    ((C24_length_preserved_flip_bit R (Individual.chromOps Bool worst) (1 / 20) i).mono
      fun i' hi' => Eq.trans hi' h)
  replace m pop children _ h2 _ h4 _ _ := Returns.pure ⟨h2, h4⟩
  elapsed := hel

/-- A configuration whose operators return when populations have the right size is closed as far as runs are
concerned: every individual in the trace of a run satisfies `P`. -/
theorem TotalOps.all {I C : Type} {T : IndTrait I C F} {ops : Ops W I F} {P : I → Prop} {n : Nat}
    {p : GAParams} (ht : TotalOps T ops P n) (hn : 0 < n) (hp : p.populationSize = n) (m0 : Metrics) :
    Returns (Ga.run T ops p m0) fun r => P r.1 ∧ ∀ e ∈ r.2, EvAll P e := by
  have hfind : ∀ pop, Good T P n pop → Returns (M.ofExcept (Ga.findBest T pop) : M W I) P := by
    intro pop hg
    have hne : pop ≠ [] := by rintro rfl; have := hg.1; simp at this; omega
    obtain ⟨b, hb⟩ := findBest_ok T hne hg.2.2
    exact Returns.ofExcept hb (hg.2.1 b (findBest_mem T hb))
  let Inv : St I → Prop := fun s => Good T P n s.pop ∧ P s.best ∧ ∀ e ∈ s.trace, EvAll P e
  have hiter : ∀ g s, Inv s → Returns (Ga.iteration T ops p g s) fun r => Inv r.1 := by
    intro g s hs
    unfold Ga.iteration
    refine Returns.bind ht.elapsed fun d _ => ?_
    refine Returns.bind (ht.evalPop hs.1.1 hs.1.2.1) fun pop h1 => ?_
    refine Returns.bind (ht.sel _ pop h1.1 h1.2.1 h1.2.2) fun pool h2 => ?_
    refine Returns.bind (ht.cross _ pool h2.1 h2.2) fun crossed h3 => ?_
    refine Returns.bind (P := fun out => out.length = n ∧ ∀ i ∈ out, P i)
      ((Returns.forEach (R := fun _ y => P y) crossed fun i hi => ht.mutate _ i (h3.2 i hi)).mono
        fun out h => ⟨by rw [← h.length_eq, h3.1], forall₂_right h fun _ _ h => h⟩) fun mutated h4 => ?_
    refine Returns.bind (P := fun out => out.length = n ∧ (∀ i ∈ out, P i) ∧
      (ops.requiresChildrenFitness = true → ∀ i ∈ out, (T.fitness i).IsNum)) ?_ fun children h5 => ?_
    · unfold Ga.evalChildren
      split
      · exact (ht.evalPop h4.1 h4.2).mono fun out h => ⟨h.1, h.2.1, fun _ => h.2.2⟩
      · exact Returns.pure ⟨h4.1, h4.2, fun h => by simp_all⟩
    refine Returns.bind (ht.replace _ pop children h1.1 h5.1 h1.2.1 h5.2.1 h1.2.2 h5.2.2)
      fun replaced h6 => ?_
    refine Returns.bind (Returns.assert (by simp [h6.1, hp])) fun _ _ => ?_
    refine Returns.bind (ht.evalPop h6.1 h6.2) fun pop' h7 => ?_
    refine Returns.bind (hfind _ h7) fun b hb => ?_
    refine Returns.bind ht.elapsed fun d' _ => ?_
    refine Returns.pure ⟨h7, ?_, ?_⟩
    · show P (if _ then _ else _)
      split
      · exact hb
      · exact hs.2.1
    · intro e he
      simp only [List.mem_append, List.mem_cons, List.not_mem_nil, or_false] at he
      rcases he with ((he | rfl | rfl | rfl | rfl | rfl) | he) | rfl | rfl
      · exact hs.2.2 e he
      · trivial
      · exact h1.2.1
      · exact ⟨h1.2.1, h5.2.1⟩
      · exact h7.2.1
      · exact hb
      · split at he
        · simp at he; subst he; exact hb
        · simp at he
      · trivial
      · trivial
  have hloop : ∀ (k g : Nat) (s : St I), Inv s → Returns (Ga.loop T ops p k g s) Inv := by
    intro k
    induction k with
    | zero => intro g s hs; exact Returns.pure hs
    | succ k ih =>
      intro g s hs
      unfold Ga.loop
      refine Returns.bind (hiter g s hs) fun r hr => ?_
      obtain ⟨s', stop⟩ := r
      simp only
      split
      · exact Returns.pure hr
      · exact ih (g + 1) s' hr
  unfold Ga.run
  refine Returns.bind (P := Inv) ?_ fun s hs => ?_
  · unfold Ga.prologue
    rw [hp]
    refine Returns.bind ht.gen fun pop0 h0 => ?_
    refine Returns.bind (ht.evalPop h0.1 h0.2) fun pop h1 => ?_
    refine Returns.bind (hfind _ h1) fun b hb => ?_
    refine Returns.bind ht.elapsed fun d _ => Returns.pure ⟨h1, hb, ?_⟩
    intro e he
    simp at he
    rcases he with rfl | rfl | rfl
    · trivial
    · exact h1.2.1
    · exact hb
  · refine Returns.bind (hloop _ _ _ hs) fun s' hs' => ?_
    refine Returns.bind ht.elapsed fun d _ => Returns.pure ⟨hs'.2.1, fun e he => ?_⟩
    simp only [List.mem_append, List.mem_cons, List.not_mem_nil, or_false] at he
    rcases he with he | rfl
    · exact hs'.2.2 e he
    · exact ⟨hs'.1.2.1, hs'.2.1⟩

/-! ## C41, C69 -/

/-- **C41 (and C69), real-valued preset.** With even positive population size, positive dimension, a NaN-free
fitness function and a working clock the preset real-valued GA returns for every generator state and every
limit; the result and every individual ever shown or handed to an operator is a point of `[0,1)^dim`: it has
exactly `dim` genes and never leaves the initial unit cube (whatever domain the user's function has). -/
theorem C41_real_valued_preset (R : Rng G K) (S : Slots W G) (worst : Fl F) {f : List K → Fl F}
    (hf : ∀ c, (f c).IsNum) {dim : Nat} (hd : 0 < dim) {elapsed : M W Nat}
    (hel : Returns elapsed fun _ => True) {p : GAParams} (hn : 0 < p.populationSize)
    (he : p.populationSize % 2 = 0) (m0 : Metrics) :
    Returns (run (Individual.trait (List K) F) (rvcOps R S worst f dim p.populationSize elapsed) p m0)
      fun r => InUnitCube dim r.1.chromosome ∧ ∀ e ∈ r.2, EvAll (fun i => InUnitCube dim i.chromosome) e :=
  (rvcOps_total R S worst hf hd hn he hel).all hn rfl m0

/-- **C41, bit-string preset.** Same for the bit-string preset: it always returns and every individual has
exactly `dim` bits. -/
theorem C41_bit_string_preset (R : Rng G K) (S : Slots W G) (worst : Fl F) {f : List Bool → Fl F}
    (hf : ∀ c, (f c).IsNum) {dim : Nat} (hd : 0 < dim) {elapsed : M W Nat}
    (hel : Returns elapsed fun _ => True) {p : GAParams} (hn : 0 < p.populationSize)
    (he : p.populationSize % 2 = 0) (m0 : Metrics) :
    Returns (run (Individual.trait (List Bool) F) (bscOps R S worst f dim p.populationSize elapsed) p m0)
      fun r => r.1.chromosome.length = dim ∧ ∀ e ∈ r.2, EvAll (fun i => i.chromosome.length = dim) e :=
  (bscOps_total R S worst hf hd hn he hel).all hn rfl m0

/-! ## C42: violated -/

/-- If the crossover step panics on everything selection can return, a run with at least one generation never
returns. -/
theorem run_panics_of_cross {I C : Type} (T : IndTrait I C F) (ops : Ops W I F) {p : GAParams}
    {Q : List I → Prop} (hs : ∀ m pop, IfReturns (ops.select m pop) Q)
    (hc : ∀ m pool, Q pool → Panics (ops.cross m pool)) (hg : 1 ≤ p.generationLimit) (m0 : Metrics) :
    Panics (run T ops p m0) := by
  unfold Ga.run
  refine Panics.bind_right IfReturns.trivial fun s _ => Panics.bind_left ?_
  obtain ⟨k, hk⟩ : ∃ k, p.generationLimit = k + 1 := ⟨p.generationLimit - 1, by omega⟩
  rw [hk]
  unfold Ga.loop
  refine Panics.bind_left ?_
  unfold Ga.iteration
  refine Panics.bind_right IfReturns.trivial fun d _ => ?_
  refine Panics.bind_right IfReturns.trivial fun pop _ => ?_
  refine Panics.bind_right (hs _ pop) fun pool hp => ?_
  exact Panics.bind_left (hc _ pool hp)

/-- **C42, violation.** Both presets accept any positive population size (`set_population_size` asserts only
that), but with an odd one every run of at least one generation panics: Tournament selects as many
individuals as the population has and SinglePoint insists on an even number. -/
theorem C42_odd_population_panics (R : Rng G K) (S : Slots W G) (worst : Fl F) (f : List K → Fl F)
    (fb : List Bool → Fl F) (dim : Nat) (elapsed : M W Nat) {p : GAParams}
    (ho : p.populationSize % 2 = 1) (hg : 1 ≤ p.generationLimit) (m0 : Metrics) :
    Panics (run (Individual.trait (List K) F) (rvcOps R S worst f dim p.populationSize elapsed) p m0) ∧
    Panics (run (Individual.trait (List Bool) F) (bscOps R S worst fb dim p.populationSize elapsed) p m0) := by
  have hcross : ∀ {A : Type} (X : ChromOps (Individual (List A) F) A) (pool : List (Individual (List A) F)),
      pool.length = p.populationSize → Panics (applyPairs (liftSingle X (singlePoint R)) pool) := by
    intro A X pool hl
    exact Panics.bind_left (Panics.assert (by rw [hl, ho]; rfl))
  constructor
  · refine run_panics_of_cross _ _ (Q := fun pool => pool.length = p.populationSize) ?_ ?_ hg m0
    · intro m pop
      exact S.sel.run_ifReturns ((IfReturns.replicate IfReturns.trivial _).mono fun _ h => h.1)
    · intro m pool hl; exact S.cross.run_panics (hcross _ pool hl)
  · refine run_panics_of_cross _ _ (Q := fun pool => pool.length = p.populationSize) ?_ ?_ hg m0
    · intro m pop
      exact S.sel.run_ifReturns ((IfReturns.replicate IfReturns.trivial _).mono fun _ h => h.1)
    · intro m pool hl; exact S.cross.run_panics (hcross _ pool hl)

/-! ## C69: no new gene values -/

theorem run_generate_const {I C : Type} (T : IndTrait I C F) (ops : Ops W I F) {p : GAParams} (m0 : Metrics)
    {pop0 : List I} {w wa : W} (h : ops.generate p.populationSize w = .ok (pop0, wa)) :
    run T { ops with generate := fun _ _ => .ok (pop0, wa) } p m0 w = run T ops p m0 w := by
  have hloop : ∀ (k g : Nat) (s : St I),
      Ga.loop T { ops with generate := fun _ _ => .ok (pop0, wa) } p k g s = Ga.loop T ops p k g s := by
    intro k
    induction k with
    | zero => intro g s; rfl
    | succ k ih =>
      intro g s
      unfold Ga.loop
      have : Ga.iteration T { ops with generate := fun _ _ => .ok (pop0, wa) } p g s =
        Ga.iteration T ops p g s := rfl
      rw [this]
      refine bind_congr_on IfReturns.trivial fun r _ => ?_
      obtain ⟨s', stop⟩ := r
      simp only [ih]
  have hpro : Ga.prologue T { ops with generate := fun _ _ => .ok (pop0, wa) } p m0 w =
      Ga.prologue T ops p m0 w := by
    unfold Ga.prologue
    rw [M.bind_of_ok h, M.bind_of_ok (a := pop0) (w' := wa) rfl]
    rfl
  unfold Ga.run
  simp only [hloop]
  rw [M.bind_run, M.bind_run, hpro]

theorem pushLoci_mem {A : Type} (s1 s2 : List A) (lo hi : Nat) :
    IfReturns (pushLoci s1 s2 lo hi : M G _) fun l => ∀ q ∈ l, q.1 ∈ s1 ∧ q.2 ∈ s2 := by
  unfold pushLoci
  refine (IfReturns.forEach (R := fun _ (q : A × A) => q.1 ∈ s1 ∧ q.2 ∈ s2) _ fun i _ => ?_).mono
    fun l h => forall₂_right h fun _ _ h => h
  refine IfReturns.bind idx_ifReturns fun a ha => IfReturns.bind idx_ifReturns fun b hb => IfReturns.pure ?_
  exact ⟨List.mem_of_getElem? ha, List.mem_of_getElem? hb⟩

theorem singlePoint_mem {A : Type} (R : Rng G K) (p1 p2 : List A) :
    IfReturns (singlePoint R p1 p2) fun c =>
      (∀ x ∈ c.1, x ∈ p1 ∨ x ∈ p2) ∧ ∀ x ∈ c.2, x ∈ p1 ∨ x ∈ p2 := by
  unfold singlePoint
  refine IfReturns.bind IfReturns.trivial fun cut _ => ?_
  refine IfReturns.bind (pushLoci_mem _ _ _ _) fun s1 h1 => ?_
  refine IfReturns.bind (pushLoci_mem _ _ _ _) fun s2 h2 => IfReturns.pure ⟨fun x hx => ?_, fun x hx => ?_⟩
  all_goals
    obtain ⟨q, hq, rfl⟩ := List.mem_map.1 hx
    rcases List.mem_append.1 hq with h | h
    · have := h1 q h; tauto
    · have := h2 q h; tauto

theorem chunks2_all {I : Type} {P : I → Prop} {single : I → I → M G (I × I)}
    (h : ∀ a b, P a → P b → IfReturns (single a b) fun c => P c.1 ∧ P c.2) :
    ∀ (pool : List I), (∀ i ∈ pool, P i) → IfReturns (chunks2 single pool) fun out => ∀ i ∈ out, P i
  | [], _ => IfReturns.pure (by simp)
  | [_], _ => IfReturns.fail
  | a :: b :: rest, hp => by
    unfold chunks2
    refine IfReturns.bind (h a b (hp a (by simp)) (hp b (by simp))) fun c hc => ?_
    obtain ⟨c1, c2⟩ := c
    refine IfReturns.bind (chunks2_all h rest fun i hi => hp i (by simp [hi])) fun out ho => IfReturns.pure ?_
    intro i hi
    simp only [List.mem_cons] at hi
    rcases hi with rfl | rfl | hi
    · exact hc.1
    · exact hc.2
    · exact ho i hi

/-- **C69.** The real-valued preset never creates a gene value: in a returning run every gene of the result and
of every individual ever shown or handed to an operator already occurred in the initial population (crossover
recombines and Interchange reorders genes; nothing else happens). No assumption on sizes, fitness or draws. -/
theorem C69_no_new_gene_values (R : Rng G K) (S : Slots W G) (worst : Fl F) (f : List K → Fl F) (dim n : Nat)
    (elapsed : M W Nat) {p : GAParams} {m0 : Metrics} {best : Individual (List K) F}
    {tr : List (Ev (Individual (List K) F))} {w w' : W}
    (h : run (Individual.trait (List K) F) (rvcOps R S worst f dim n elapsed) p m0 w = .ok ((best, tr), w')) :
    ∃ m pop, Ev.onInitialPopulation m pop ∈ tr ∧
      (∀ x ∈ best.chromosome, ∃ j ∈ pop, x ∈ j.chromosome) ∧
      ∀ e ∈ tr, EvAll (fun i => ∀ x ∈ i.chromosome, ∃ j ∈ pop, x ∈ j.chromosome) e := by
  obtain ⟨s, wa, s', wb, d, h1, hl, -, hb, htr⟩ := run_ok _ _ p h
  obtain ⟨pop0, wc, wd, d0, g1, g2, g3, g4, g5, g6⟩ := prologue_ok _ _ p h1
  have hev : List.Forall₂ (fun a b : Individual (List K) F => b.chromosome = a.chromosome) pop0 s.pop := by
    refine IfReturns.forEach pop0 (fun i _ => ?_) _ _ _ g2
    unfold evalOne
    rw [if_pos (show (Individual.trait (List K) F).requiresEval i = true from rfl)]
    exact IfReturns.bind (P := fun r => r = (i, f i.chromosome)) (IfReturns.pure rfl)
      fun r hr => IfReturns.pure (by subst hr; rfl)
  have hsub : ∀ i ∈ pop0, ∃ j ∈ s.pop, j.chromosome = i.chromosome := by
    clear g1 g2 h1 g3 g4 g5 g6 hl
    generalize s.pop = q at hev
    induction hev with
    | nil => simp
    | cons h1 _ ih =>
      intro i hi
      rcases List.mem_cons.1 hi with rfl | hi
      · exact ⟨_, by simp, h1⟩
      · obtain ⟨j, hj, e⟩ := ih i hi
        exact ⟨j, by simp [hj], e⟩
  have hc : Closed (Individual.trait (List K) F)
      { rvcOps R S worst f dim n elapsed with generate := fun _ _ => .ok (pop0, wc) }
      (fun i => ∀ x ∈ i.chromosome, ∃ j ∈ s.pop, x ∈ j.chromosome) :=
    { set := fun _ _ h => h
      gen := fun _ v a v' hv => by
        cases hv
        intro i hi x hx
        obtain ⟨j, hj, e⟩ := hsub i hi
        exact ⟨j, hj, by rw [e]; exact hx⟩
      fit := fun i h => IfReturns.pure h
      sel := fun m pop h => S.sel.run_ifReturns <| by
        refine (IfReturns.replicate (Q := fun x => x ∈ pop) ?_ n).mono fun sel hs i hi => h i (hs.2 i hi)
        refine IfReturns.bind IfReturns.trivial fun is _ => ?_
        refine IfReturns.bind forEach_idx_ifReturns fun cs hcs => ?_
        exact ofExcept_findMax_mem.mono fun x hx => hcs.mem x hx
      cross := fun m pool h => S.cross.run_ifReturns <| by
        refine IfReturns.bind IfReturns.trivial fun _ _ => chunks2_all (fun a b ha hb => ?_) pool h
        refine IfReturns.bind (singlePoint_mem R _ _) fun c hc => ?_
        obtain ⟨c1, c2⟩ := c
        exact IfReturns.pure ⟨fun x hx => (hc.1 x hx).elim (ha x) (hb x),
          fun x hx => (hc.2 x hx).elim (ha x) (hb x)⟩
      mutate := fun m i h => S.mutate.run_ifReturns
        ((C25_reordering_mutations R (Individual.chromOps K worst) (.interchange (1 / 20)) i).mono
          fun i' hi' x hx => h x (hi'.mem_iff.1 hx))
      replace := fun m pop children _ h2 => IfReturns.pure h2 }
  have hrun := run_generate_const (Individual.trait (List K) F) (rvcOps R S worst f dim n elapsed) m0 g1
  rw [h] at hrun
  obtain ⟨r1, r2⟩ := hc.run p hrun
  refine ⟨{ m0 with populationSize := pop0.length }, s.pop, ?_, r1, r2⟩
  · rw [htr]
    refine List.mem_append_left _ ?_
    have key := loop_inv (Individual.trait (List K) F) (rvcOps R S worst f dim n elapsed) p
      (Inv := fun _ t => Ev.onInitialPopulation { m0 with populationSize := pop0.length } s.pop ∈ t.trace)
      (by
        intro g t w s' stop w' hi hit
        obtain ⟨d, wa, m, pop, wb, pool, wc, crossed, wd, mutated, we, children, wf, replaced, wg, m', wh, b,
          d', wi, -, -, -, -, -, -, -, -, -, -, -, -, -, -, -, -, htr⟩ := iteration_ok _ _ p hit
        rw [htr]
        simp [hi]) _ _ _ _ _ _ (by rw [g6]; simp) hl
    obtain ⟨k, -, hk⟩ := key
    exact hk

end

/-! ## Non-vacuity -/

/-- One generator shared by all operators, the world being its state. -/
def sharedSlots : Slots Nat Nat := ⟨⟨id, fun g _ => g⟩, ⟨id, fun g _ => g⟩, ⟨id, fun g _ => g⟩, ⟨id, fun g _ => g⟩⟩

/-- A clock that ticks with the generator. -/
def tickClock : M Nat Nat := fun w => .ok (w, w)

example : Returns tickClock fun _ => True := fun w => ⟨w, w, rfl, trivial⟩

/-- Did the run return, with this property? -/
def okWith {α W : Type} (x : Except Panic (α × W)) (q : α → Bool) : Bool :=
  match x with
  | .ok (a, _) => q a
  | .error _ => false

/-- A two-generation run of the real-valued preset (population 4, dimension 2) minimising the sum. -/
example : okWith (run (Individual.trait (List ℚ) ℚ) (rvcOps counterRng sharedSlots (.num (-100))
    (fun c => .num c.sum) 2 4 tickClock) ⟨4, 2, 1000⟩ ⟨0, 4, none⟩ 0)
    (fun r => r.2.length = 18 ∧ r.1.chromosome = [1 / 4, 3 / 4]) = true := by decide +kernel

/-- A run of the bit-string preset. -/
example : okWith (run (Individual.trait (List Bool) ℚ) (bscOps counterRng sharedSlots (.num (-100))
      (fun c => .num (c.count true)) 3 2 tickClock) ⟨2, 1, 1000⟩ ⟨0, 2, none⟩ 0)
    (fun r => r.1.chromosome.length = 3) = true := by decide +kernel

/-- A panicking run of the real-valued preset with population 3. -/
example : okWith (run (Individual.trait (List ℚ) ℚ) (rvcOps counterRng sharedSlots (.num (-100))
    (fun c => .num c.sum) 2 3 tickClock) ⟨3, 1, 1000⟩ ⟨0, 3, none⟩ 0) (fun _ => true) = false := by
  decide +kernel

/-- A run of a permutation GA: RandomPermutations of `[1,2,3]`, Tournament, PMX, Interchange, WeakParent. -/
example : okWith (run (Individual.trait (List Nat) ℚ) (permOps counterFRng (Individual.trait (List Nat) ℚ)
      (Individual.chromOps Nat (.num 0)) sharedSlots (fun c => .num (c.headD 0 : ℚ)) (fun _ => 1) (1 / 2) 5 2
      [1, 2, 3] (.tournament (1 / 5)) .pmx (.interchange (1 / 2)) .weakParent true tickClock)
      ⟨2, 2, 1000⟩ ⟨0, 2, none⟩ 0) (fun r => r.1.chromosome = [3, 2, 1]) = true := by decide +kernel

section instances
theorem tickClock_returns : Returns tickClock fun _ => True := fun w => ⟨w, w, rfl, trivial⟩
example := C41_real_valued_preset counterRng sharedSlots (.num (-100)) (f := fun c => .num c.sum) (fun _ => trivial)
  (dim := 2) (by decide) tickClock_returns (p := ⟨4, 2, 1000⟩) (by decide) (by decide) ⟨0, 4, none⟩
example := C41_bit_string_preset counterRng sharedSlots (.num (-100)) (f := fun c => .num (c.count true : ℚ))
  (fun _ => trivial) (dim := 3) (by decide) tickClock_returns (p := ⟨2, 1, 1000⟩) (by decide) (by decide) ⟨0, 2, none⟩
example := C42_odd_population_panics counterRng sharedSlots (.num (-100)) (fun c => .num c.sum)
  (fun c => .num (c.count true : ℚ)) 2 tickClock (p := ⟨3, 1, 1000⟩) rfl (by decide) ⟨0, 3, none⟩
example {best tr w'} (h : run (Individual.trait (List ℚ) ℚ) (rvcOps counterRng sharedSlots (.num (-100))
    (fun c => .num c.sum) 2 4 tickClock) ⟨4, 2, 1000⟩ ⟨0, 4, none⟩ 0 = .ok ((best, tr), w')) :=
  C69_no_new_gene_values _ _ _ _ _ _ _ h
end instances

end Ecrs.Ga
