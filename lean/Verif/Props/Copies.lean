import Verif.Props.RealGa
import Verif.Props.PossiblePmx
import Verif.Props.Presets
import Verif.Props.Overflow
import Verif.CounterRng

/-!
# Property C158: copies of one chromosome stay copies
-/

set_option linter.unusedSectionVars false

namespace Ecrs.Props
open Ecrs Ecrs.Ga

/-! ## One application of a crossover -/

section cross
variable {G U I A : Type} [LinearOrder U] [Zero U] [One U] (R : Rng G U) (X : ChromOps I A)

theorem mix_self : ∀ (ms : List Bool) (xs : List A), ms.length = xs.length → mix ms xs xs = xs
  | [], [], _ => rfl
  | m :: ms, x :: xs, h => by
    rw [mix, ite_self, mix_self ms xs (by simpa using h)]
  | [], _ :: _, h => by simp at h
  | _ :: _, [], h => by simp at h

theorem orderedSpec_self {p c : List A} [DecidableEq A] {lo hi : Nat} (hn : p.Nodup) (hlh : lo ≤ hi) (hp : c.Perm p)
    (h : OrderedSpec p p c lo hi) : c = p := by
  obtain ⟨h1, h2⟩ := h
  have e : p = p.take lo ++ ((p.take hi).drop lo ++ p.drop hi) := by
    conv_lhs => rw [← List.take_append_drop hi p, ← List.take_append_drop lo (p.take hi), List.take_take, Nat.min_eq_left hlh]
    rw [List.append_assoc]
  have hf : p.filter (fun g => g ∉ (p.take hi).drop lo) = p.take lo ++ p.drop hi := by
    have hn' := hn
    rw [e, List.nodup_append, List.nodup_append] at hn'
    obtain ⟨-, ⟨-, -, d2⟩, d1⟩ := hn'
    generalize hm : (p.take hi).drop lo = mid at *
    conv_lhs => rw [e]
    rw [List.filter_append, List.filter_append, List.filter_eq_self.2, (List.filter_eq_nil_iff (l := mid)).2, List.nil_append,
      List.filter_eq_self.2]
    · intro x hx; simp only [decide_eq_true_eq]; exact fun hm => d2 x hm x hx rfl
    · intro x hx; simpa using hx
    · intro x hx; simp only [decide_eq_true_eq]; exact fun hm => d1 x hx x (by simp [hm]) rfl
  rw [hf] at h2
  have hl := hp.length_eq
  obtain ⟨a1, a2⟩ := List.append_inj h2 (by simp [hl])
  have e' : c = c.take lo ++ ((c.take hi).drop lo ++ c.drop hi) := by
    conv_lhs => rw [← List.take_append_drop hi c, ← List.take_append_drop lo (c.take hi), List.take_take, Nat.min_eq_left hlh]
    rw [List.append_assoc]
  rw [e', a1, h1, a2, ← e]

theorem pmxSpec_refl {p : List A} {lo hi : Nat} : PmxSpec p p p lo hi := by
  refine ⟨fun _ _ _ => rfl, fun _ _ _ _ => rfl, fun i h1 h2 h => ?_⟩
  exact absurd rfl (h i h1 h2)

theorem sublist_antisymm {a b : A} : ∀ {d : List A}, d.Nodup → [a, b].Sublist d → [b, a].Sublist d → a = b
  | [], _, h, _ => by cases h
  | x :: d, hn, h1, h2 => by
    rw [List.nodup_cons] at hn
    cases h1 with
    | cons _ h1 =>
      cases h2 with
      | cons _ h2 => exact sublist_antisymm hn.2 h1 h2
      | cons_cons _ h2 => exact absurd (h1.subset (by simp)) hn.1
    | cons_cons _ h1 =>
      cases h2 with
      | cons _ h2 => exact absurd (h2.subset (by simp)) hn.1
      | cons_cons _ h2 => rfl

/-- What one crossover of two copies of `c` needs in order not to panic. -/
def Crossover.suits (fuel : Nat) (c : List A) : Crossover U → Prop
  | .singlePoint | .twoPoint | .shuffle => c ≠ []
  | .multiPoint k => 1 ≤ k ∧ k ≤ c.length
  | .fixedPoint _ | .uniform | .uniformParameterized _ => True
  | .ordered => c ≠ [] ∧ c.Nodup
  | .pmx => c ≠ [] ∧ c.Nodup ∧ c.length ≤ fuel
  | .ppx => c.Nodup

/-- **C158, crossover.** Every shipped crossover, applied to an even number of individuals with one and the same chromosome `c`, returns as
many individuals, all with the chromosome `c`, for all draws. -/
theorem C158_crossover [DecidableEq A] (op : Crossover U) (half : U) {fuel : Nat} {c : List A} (hc : Crossover.suits fuel c op) {pool : List I}
    (he : pool.length % 2 = 0) (hp : ∀ i ∈ pool, X.ch i = c) :
    Returns (op.apply R X half fuel pool) fun out => out.length = pool.length ∧ ∀ i ∈ out, X.ch i = c := by
  have hpairs : Pairs (fun a b => X.ch a = c ∧ X.ch b = c) pool := Pairs.of_forall pool he fun a ha b hb => ⟨hp a ha, hp b hb⟩
  have lift : ∀ single : List A → List A → M G (List A × List A), Returns (single c c) (fun r => r = (c, c)) →
      Returns (applyPairs (liftSingle X single) pool) fun out => out.length = pool.length ∧ ∀ i ∈ out, X.ch i = c := by
    intro single hs
    have := apply_of_single X (single := single) (Q := fun _ _ c1 c2 => c1 = c ∧ c2 = c) (fun a b hab => by
      rw [hab.1, hab.2]
      exact hs.mono fun r hr => by rw [hr]; exact ⟨rfl, rfl⟩) hpairs
    exact this.mono fun out ho => ⟨ho.length, pairsRel_all (P := fun i => X.ch i = c) ho hp fun a b c' d _ _ h => h⟩
  have pos : c ≠ [] → 0 < c.length := List.length_pos_iff.2
  cases op with
  | singlePoint =>
    refine lift _ ((singlePoint_returns R rfl (pos hc)).mono fun r ⟨cut, _, h1, h2⟩ => ?_)
    exact Prod.ext (by rw [h1, List.take_append_drop]) (by rw [h2, List.take_append_drop])
  | twoPoint =>
    refine lift _ ((twoPoint_returns R rfl (pos hc)).mono fun r ⟨b, e, hbe, he, h1, h2⟩ => ?_)
    have : c.take b ++ slice c b e ++ c.drop e = c := by
      unfold slice
      conv_rhs => rw [← List.take_append_drop e c, ← List.take_append_drop b (c.take e), List.take_take, Nat.min_eq_left hbe]
    exact Prod.ext (by rw [h1, this]) (by rw [h2, this])
  | multiPoint k =>
    have := C13_multi_point_complementary R X hc.1 (k := k) (sel := pool) (Pairs.of_forall pool he fun a ha b hb => by
      unfold SameLen
      rw [hp a ha, hp b hb]
      exact ⟨rfl, hc.2⟩)
    refine this.mono fun out ho => ⟨ho.length, pairsRel_all (P := fun i => X.ch i = c) ho hp fun a b c' d ha hb h => ?_⟩
    rw [ha, hb] at h
    exact ⟨List.ext_getElem? fun i => (h.2.2 i).elim (·.1) (·.1), List.ext_getElem? fun i => (h.2.2 i).elim (·.2) (·.2)⟩
  | fixedPoint cut =>
    have := C14_fixed_point (G := G) X (cut := cut) (sel := pool) (Pairs.of_forall pool he fun a ha b hb => by
      unfold SameLen
      rw [hp a ha, hp b hb])
    refine this.mono fun out ho => ⟨ho.length, pairsRel_all (P := fun i => X.ch i = c) ho hp fun a b c' d ha hb h => ?_⟩
    rw [h.1, h.2, X.ch_setCh, X.ch_setCh, ha, hb, List.take_append_drop]
    exact ⟨rfl, rfl⟩
  | uniform =>
    refine lift _ ((uniform_returns R rfl).mono fun r ⟨vals, hv, _, h1, h2⟩ => ?_)
    exact Prod.ext (by rw [h1, mix_self _ _ (by simpa using hv)]) (by rw [h2, mix_self _ _ (by simpa using hv)])
  | uniformParameterized bias =>
    refine lift _ ((uniformParameterized_returns R rfl).mono fun r ⟨vals, hv, _, h1, h2⟩ => ?_)
    exact Prod.ext (by rw [h1, mix_self _ _ (by simpa using hv)]) (by rw [h2, mix_self _ _ (by simpa using hv)])
  | shuffle =>
    refine lift _ ((shuffle_returns R rfl (pos hc)).mono fun r ⟨mask, hv, _, h1, h2⟩ => ?_)
    exact Prod.ext (by rw [h1, mix_self _ _ hv]) (by rw [h2, mix_self _ _ hv])
  | ordered =>
    refine lift _ ((ordered_returns R hc.2 (List.Perm.refl c) (pos hc.1)).mono fun r ⟨p1, p2, lo, hi, h1, h2, h3, h4⟩ => ?_)
    exact Prod.ext (orderedSpec_self hc.2 h1 p1 h3) (orderedSpec_self hc.2 h1 p2 h4)
  | pmx =>
    refine lift _ ((pmx_returns R hc.2.1 (List.Perm.refl c) (pos hc.1) hc.2.2).mono fun r ⟨p1, p2, lo, hi, h1, h2, h3, h4⟩ => ?_)
    exact Prod.ext (C20_pmx_child_unique hc.2.1 (List.Perm.refl c) h2 p1 (List.Perm.refl c) h3 pmxSpec_refl)
      (C20_pmx_child_unique hc.2.1 (List.Perm.refl c) h2 p2 (List.Perm.refl c) h4 pmxSpec_refl)
  | ppx =>
    refine lift _ ((ppx_returns R hc (List.Perm.refl c)).mono fun r ⟨p1, p2, h⟩ => ?_)
    have key : ∀ d : List A, d.Perm c → (∀ a b, [a, b].Sublist c → [a, b].Sublist d) → d = c := by
      intro d hd h
      have hn : d.Nodup := hd.nodup_iff.2 hc
      have hpw : ∀ l : List A, l.Pairwise fun a b => [a, b].Sublist l := fun l => List.pairwise_iff_forall_sublist.2 fun hab => hab
      have anti : ∀ a b, [a, b].Sublist d → [b, a].Sublist d → a = b := fun a b => sublist_antisymm hn
      refine List.Perm.eq_of_pairwise (le := fun a b => [a, b].Sublist d) (fun a b _ _ => anti a b) (hpw d) ?_ hd
      exact (hpw c).imp fun {a b} hab => h a b hab
    exact Prod.ext (key _ p1 fun a b hab => (h a b hab hab).1) (key _ p2 fun a b hab => (h a b hab hab).2)

end cross

/-! ## A whole run -/

section run
variable {W I C F : Type} [LinearOrder F] {T : IndTrait I C F} {ops : Ops W I F} {p : GAParams} {P : I → Prop}

/-- The event shows the members of a whole population, and all of them satisfy `P`. -/
def AllShown (P : I → Prop) : Ev I → Prop
  | .onInitialPopulation _ pop | .onNewGeneration _ pop => ∀ i ∈ pop, P i
  | _ => False

/-- Every individual the event shows satisfies `P`, except possibly the best individual of the whole run reported at the end. -/
def NothingElse (P : I → Prop) : Ev I → Prop
  | .onStart _ | .onIterationStart _ | .onIterationEnd _ | .clockCheck _ => True
  | .onInitialPopulation _ pop | .onNewGeneration _ pop | .selectCall pop => ∀ i ∈ pop, P i
  | .onNewBest _ i | .onBestFit _ i => P i
  | .onEnd _ pop _ => ∀ i ∈ pop, P i
  | .replaceCall pop children => (∀ i ∈ pop, P i) ∧ ∀ i ∈ children, P i

/-- `P` is kept by evaluation, selection, crossover, mutation and replacement (nothing is said about the population generator). -/
def Kept (T : IndTrait I C F) (ops : Ops W I F) (P : I → Prop) : Prop := Closed T { ops with generate := fun _ => M.fail .emptyRange } P

/-- After a population all of whose members satisfy `P`, only such individuals were shown, and the current population is one. -/
def Absorbed (P : I → Prop) (s : St I) : Prop := ∀ pre e post, s.trace = pre ++ e :: post → AllShown P e →
  (∀ i ∈ s.pop, P i) ∧ ∀ e' ∈ post, NothingElse P e'

theorem append_split {α : Type} {t n pre post : List α} {e : α} (h : t ++ n = pre ++ e :: post) :
    (∃ cs, t = pre ++ e :: cs ∧ post = cs ++ n) ∨ ∃ as, pre = t ++ as ∧ n = as ++ e :: post := by
  rcases List.append_eq_append_iff.1 h with ⟨as, h1, h2⟩ | ⟨cs, h1, h2⟩
  · exact .inr ⟨as, h1, h2⟩
  · cases cs with
    | nil => exact .inr ⟨[], by simpa using h1.symm, by simpa using h2.symm⟩
    | cons c cs =>
      rw [List.cons_append, List.cons.injEq] at h2
      obtain ⟨rfl, h2⟩ := h2
      exact .inl ⟨cs, h1, h2⟩

theorem Absorbed.step (hc : Kept T ops P) {g : Nat} {s s' : St I} {stop : Bool} {w w' : W}
    (hi : Absorbed P s) (h : iteration T ops p g s w = .ok ((s', stop), w')) : Absorbed P s' := by
  obtain ⟨d, wa, m, pop, wb, pool, wc, crossed, wd, mutated, we, children, wf, replaced, wg, m', wh, b, d',
    wi, -, -, e1, e2, e3, e4, e5, e6, -, -, e7, hb, -, hbest, -, -, htr⟩ := iteration_ok T ops p h
  have hmem := findBest_mem T hb
  intro pre e post hsplit hshow
  rw [htr] at hsplit
  simp only [List.append_assoc] at hsplit
  rcases append_split hsplit with ⟨cs, h1, rfl⟩ | ⟨as, h1, h2⟩
  · obtain ⟨hp, hcs⟩ := hi _ _ _ h1 hshow
    have p1 := hc.evalPop hp _ _ _ e1
    have p2 := hc.sel m _ p1 _ _ _ e2
    have p3 := hc.cross m _ p2 _ _ _ e3
    have p4 := hc.mutateAll m p3 _ _ _ e4
    have p5 := hc.evalChildren p4 _ _ _ e5
    have p6 := hc.replace m _ _ p1 p5 _ _ _ e6
    have p7 := hc.evalPop p6 _ _ _ e7
    refine ⟨p7, fun e' he' => ?_⟩
    simp only [List.mem_append, List.mem_cons, List.not_mem_nil, or_false] at he'
    rcases he' with he' | (rfl | rfl | rfl | rfl | rfl) | he' | rfl | rfl
    · exact hcs e' he'
    · trivial
    · exact p1
    · exact ⟨p1, p5⟩
    · exact p7
    · exact p7 _ hmem
    · split at he'
      · simp at he'; subst he'; exact p7 _ hmem
      · simp at he'
    · trivial
    · trivial
  · match as, h2 with
    | [], h2 => rw [List.nil_append, List.cons_append, List.cons.injEq] at h2; rw [← h2.1] at hshow; exact hshow.elim
    | [_], h2 =>
      simp only [List.cons_append, List.nil_append, List.cons.injEq] at h2
      rw [← h2.2.1] at hshow; exact hshow.elim
    | [_, _], h2 =>
      simp only [List.cons_append, List.nil_append, List.cons.injEq] at h2
      rw [← h2.2.2.1] at hshow; exact hshow.elim
    | [_, _, _], h2 =>
      simp only [List.cons_append, List.nil_append, List.cons.injEq] at h2
      obtain ⟨-, -, -, rfl, rfl⟩ := h2
      have hp : ∀ i ∈ s'.pop, P i := hshow
      refine ⟨hp, fun e' he' => ?_⟩
      simp only [List.mem_append, List.mem_cons, List.not_mem_nil, or_false] at he'
      rcases he' with rfl | he' | rfl | rfl
      · exact hp _ hmem
      · split at he'
        · simp at he'; subst he'; exact hp _ hmem
        · simp at he'
      · trivial
      · trivial
    | _ :: _ :: _ :: _ :: as, h2 =>
      simp only [List.cons_append, List.nil_append, List.cons.injEq] at h2
      obtain ⟨-, -, -, -, h2⟩ := h2
      have he : e ∈ Ev.onBestFit m' b :: ((if Fl.lt (T.fitness b) (T.fitness s.best) then [Ev.onNewBest m' b] else []) ++
        [Ev.onIterationEnd m', Ev.clockCheck d']) := by rw [h2]; simp
      simp only [List.mem_append, List.mem_cons, List.not_mem_nil, or_false] at he
      rcases he with rfl | he | rfl | rfl
      · exact hshow.elim
      · split at he
        · simp at he; subst he; exact hshow.elim
        · simp at he
      · exact hshow.elim
      · exact hshow.elim

/-- A property kept by the operators is absorbing: once a whole population with it has been shown, nothing else is ever shown again. -/
theorem absorbed (hc : Kept T ops P) {m0 : Metrics} {best : I} {tr : List (Ev I)} {w w' : W}
    (h : run T ops p m0 w = .ok ((best, tr), w')) {pre post : List (Ev I)} {e : Ev I} (htr : tr = pre ++ e :: post) (he : AllShown P e) :
    ∀ e' ∈ post, NothingElse P e' := by
  obtain ⟨s, wa, s', wb, d, h1, h2, -, -, ht⟩ := run_ok T ops p h
  obtain ⟨pop0, wc, wd, d0, -, -, hbest, -, -, ht0⟩ := prologue_ok T ops p h1
  have h0 : Absorbed P s := by
    intro pre e post hs he
    rw [ht0] at hs
    match pre, hs with
    | [], hs => rw [List.nil_append, List.cons.injEq] at hs; rw [← hs.1] at he; exact he.elim
    | [_], hs =>
      simp only [List.cons_append, List.nil_append, List.cons.injEq] at hs
      obtain ⟨-, rfl, rfl⟩ := hs
      refine ⟨he, fun e' he' => ?_⟩
      simp only [List.mem_singleton] at he'
      subst he'
      exact he _ (findBest_mem T hbest)
    | [_, _], hs =>
      simp only [List.cons_append, List.nil_append, List.cons.injEq] at hs
      rw [← hs.2.2.1] at he; exact he.elim
    | _ :: _ :: _ :: pre, hs => simp at hs
  obtain ⟨k, -, hk⟩ := loop_inv T ops p (Inv := fun _ s => Absorbed P s)
    (fun g s w s' stop w' hi h => hi.step hc h) _ _ _ _ _ _ h0 h2
  rw [ht] at htr
  rcases append_split htr with ⟨cs, h1, rfl⟩ | ⟨as, h1, h2⟩
  · obtain ⟨hp, hcs⟩ := hk _ _ _ h1 he
    intro e' he'
    rcases List.mem_append.1 he' with he' | he'
    · exact hcs e' he'
    · simp only [List.mem_singleton] at he'
      subst he'
      exact hp
  · match as, h2 with
    | [], h2 => rw [List.nil_append, List.cons.injEq] at h2; rw [← h2.1] at he; exact he.elim
    | _ :: as, h2 => simp at h2

end run

/-! ## The shipped operators -/

section shipped
variable {W G K I C F A : Type} [Field K] [LinearOrder K] [IsStrictOrderedRing K] [FloorSemiring K] [LinearOrder F] [DecidableEq A]

/-- **C158, converged population.** A GA of any shipped selection, crossover and replacement (and any population generator) in which the
mutation is Identity, or all genes of `c` are equal: as soon as the probes are shown a population all of whose members have the chromosome
`c`, every population, best-of-generation and new best individual shown later in the run has the chromosome `c`. The search is over. -/
theorem C158_converged (R : FRng G K) (X : ChromOps I A) {T : IndTrait I C F} (hset : ∀ i x, X.ch (T.setFitness i x) = X.ch i) (S : Slots W G)
    (gen : Nat → M W (List I)) (f : C → Fl F) (fit : I → K) (half : K) {fuel : Nat} (count : Nat) (sel : Selection K I) {cr : Crossover K}
    {mu : Mutation K} (re : Replacement) (debug : Bool) (elapsed : M W Nat) {c : List A} (hc : Crossover.suits fuel c cr)
    (hmu : mu = .identity ∨ ∃ n a, c = List.replicate n a) {p : GAParams} {m0 : Metrics} {best : I} {tr pre post : List (Ev I)} {w w' : W}
    (h : run T { permOps R T X S f fit half fuel count [] sel cr mu re debug elapsed with generate := gen } p m0 w = .ok ((best, tr), w'))
    {e : Ev I} (htr : tr = pre ++ e :: post) (he : AllShown (fun i => X.ch i = c) e) :
    ∀ e' ∈ post, NothingElse (fun i => X.ch i = c) e' := by
  refine absorbed (T := T) ?_ h htr he
  refine ⟨fun i x hi => by rw [hset]; exact hi, fun n => fun w a w' h => (by cases h), fun i hi => IfReturns.pure hi, fun m pop hp => ?_,
    fun m pool hp => ?_, fun m i hi => ?_, fun m pop children hp hch => ?_⟩
  · exact S.sel.run_ifReturns ((C28_members R T fit fuel count sel m pop).mono fun pool hq i hi => hp i (hq i hi))
  · refine S.cross.run_ifReturns ?_
    rcases Nat.mod_two_eq_zero_or_one pool.length with h0 | h1
    · exact (C158_crossover R.toRng X cr half hc h0 hp).ifReturns.mono fun out ho => ho.2
    · intro g out g' hg
      obtain ⟨x, hx⟩ := C09_crossover_odd_panics R.toRng X cr half fuel h1 g
      rw [hx] at hg
      cases hg
  · refine S.mutate.run_ifReturns ?_
    rcases hmu with rfl | ⟨n, a, rfl⟩
    · unfold applyMutation
      show IfReturns (identityMut (X.ch i) >>= fun c => pure (X.setCh i c)) _
      unfold identityMut
      rw [pure_bind]
      refine IfReturns.pure ?_
      rw [X.ch_setCh]; exact hi
    · exact (C25_reordering_mutations R.toRng X mu i).mono fun i' hi' => by
        rw [hi] at hi'
        exact List.perm_replicate.1 hi'
  · exact (replacement_members T re debug pop children).mono fun out ho i hi => (ho i hi).elim (hp i) (hch i)

/-- **C158, a fixed gene.** A GA with one of the seven locus-wise crossovers and Identity mutation on chromosomes of `d > 0` genes: as soon as
all members of a population shown to the probes have the gene `a` at locus `j`, so have all individuals shown later. -/
theorem C158_fixed_locus (R : FRng G K) (X : ChromOps I A) {T : IndTrait I C F} (hset : ∀ i x, X.ch (T.setFitness i x) = X.ch i) (S : Slots W G)
    (gen : Nat → M W (List I)) (f : C → Fl F) (fit : I → K) (half : K) {fuel : Nat} (count : Nat) (sel : Selection K I) {cr : Crossover K}
    (re : Replacement) (debug : Bool) (elapsed : M W Nat) (hcr : cr.isLocus = true) {d j : Nat} {a : A}
    {p : GAParams} {m0 : Metrics} {best : I} {tr pre post : List (Ev I)} {w w' : W}
    (h : run T { permOps R T X S f fit half fuel count [] sel cr .identity re debug elapsed with generate := gen } p m0 w = .ok ((best, tr), w'))
    {e : Ev I} (htr : tr = pre ++ e :: post) (he : AllShown (fun i => (X.ch i).length = d ∧ (X.ch i)[j]? = some a) e) :
    ∀ e' ∈ post, NothingElse (fun i => (X.ch i).length = d ∧ (X.ch i)[j]? = some a) e' := by
  refine absorbed (T := T) ?_ h htr he
  refine ⟨fun i x hi => by rw [hset]; exact hi, fun n => fun w a w' h => (by cases h), fun i hi => IfReturns.pure hi, fun m pop hp => ?_,
    fun m pool hp => ?_, fun m i hi => ?_, fun m pop children hp hch => ?_⟩
  · exact S.sel.run_ifReturns ((C28_members R T fit fuel count sel m pop).mono fun pool hq i hi => hp i (hq i hi))
  · refine S.cross.run_ifReturns ?_
    cases pool with
    | nil =>
      intro g out g' hg
      have := C09_crossover_arity R.toRng X cr half fuel ([] : List I) g out g' hg
      rw [List.length_nil, List.length_eq_zero_iff] at this
      simp [this]
    | cons x pool =>
      have hd : 0 < d := by
        obtain ⟨h1, h2⟩ := hp x (by simp)
        obtain ⟨hj, -⟩ := List.getElem?_eq_some_iff.1 h2
        omega
      refine (locusCross_ifReturns R.toRng X hcr hd fun i hi => (hp i hi).1).mono fun out ho => ?_
      refine pairsRel_all (P := fun i => (X.ch i).length = d ∧ (X.ch i)[j]? = some a) ho hp fun x y c' d' hx hy hq => ?_
      refine ⟨⟨by rw [hq.1, hx.1], ?_⟩, by rw [hq.2.1, hx.1], ?_⟩
      · rcases hq.2.2 j with h | h
        · rw [h.1, hx.2]
        · rw [h.1, hy.2]
      · rcases hq.2.2 j with h | h
        · rw [h.2, hy.2]
        · rw [h.2, hx.2]
  · refine Slot.run_ifReturns (α := I) S.mutate (m := applyMutation X (Mutation.identity.run R.toRng) i) ?_
    unfold applyMutation
    show IfReturns (identityMut (X.ch i) >>= fun c => pure (X.setCh i c)) _
    unfold identityMut
    rw [pure_bind]
    refine IfReturns.pure ?_
    rw [X.ch_setCh]; exact hi
  · exact (replacement_members T re debug pop children).mono fun out ho i hi => (ho i hi).elim (hp i) (hch i)

end shipped

/-! ## Takeover by an infeasible individual -/

section takeover
open MeasureTheory
variable {G I A : Type} [MeasurableSpace G] [DecidableEq A]

/-- **C158, takeover.** RouletteWheel (C157) followed by any shipped crossover: if one individual `x` has infinite fitness, then with
probability one all offspring of the generation are copies of `x`, although the solver looks for the lowest fitness. -/
theorem C158_takeover {R : Rng G ℝ} {μ : Measure G} (hR : Ideal R μ) (X : ChromOps I A) {ar : Rounding ℝ} {maxv : ℝ} {fit : I → Ext ℝ} {count : Nat}
    (heven : count % 2 = 0) {l1 l2 : List I} {x : I} {t : ℝ} (h1 : sumF ar maxv (l1.map fit) = .fin t) (hx : fit x = .pinf)
    (hl2 : ∀ y ∈ l2, ∃ v, fit y = .fin v) (op : Crossover ℝ) (half : ℝ) {fuel : Nat} (hc : Crossover.suits fuel (X.ch x) op) :
    chance μ (selRouletteF ar maxv R fit count (l1 ++ x :: l2) >>= op.apply R X half fuel)
      (fun out => out.length = count ∧ ∀ i ∈ out, X.ch i = X.ch x) = 1 := by
  have := hR.isProbability
  have hs := C157_almost_surely (A := ar) (maxv := maxv) (fit := fit) hR count (l2 := l2) h1 (x := x) (by rw [hx]; rfl) (fun y hy => by
    obtain ⟨v, hv⟩ := hl2 y hy
    rw [hv]
    exact ⟨by simp, by simp⟩)
  refine le_antisymm chance_le_one (hs.symm.le.trans (measure_mono ?_))
  rintro g ⟨sel, g', e, rfl⟩
  obtain ⟨out, g'', e2, h⟩ := C158_crossover R X op half hc (pool := List.replicate count x) (by simpa using heven)
    (fun i hi => by rw [List.eq_of_mem_replicate hi]) g'
  refine ⟨out, g'', ?_, by simpa using h.1, h.2⟩
  rw [M.bind_of_ok e]
  exact e2

end takeover

/-! ## Examples -/

section examples

/-- Four individuals with the chromosome `c`. -/
def fourCopies (c : List Nat) : List (Individual (List Nat) ℚ) := [⟨c, .num 1⟩, ⟨c, .num 2⟩, ⟨c, .num 3⟩, ⟨c, .nan⟩]

example := C158_crossover counterRng (Individual.chromOps Nat (.num (-100 : ℚ))) .pmx (1 / 2) (fuel := 3) (c := [3, 1, 2])
  ⟨by decide, by decide, by decide⟩ (pool := fourCopies [3, 1, 2]) rfl (by simp [fourCopies, Individual.chromOps])
example := C158_crossover counterRng (Individual.chromOps Nat (.num (-100 : ℚ))) .ppx (1 / 2) (fuel := 0) (c := [3, 1, 2])
  (show [3, 1, 2].Nodup by decide) (pool := fourCopies [3, 1, 2]) rfl (by simp [fourCopies, Individual.chromOps])
example := C158_crossover counterRng (Individual.chromOps Nat (.num (-100 : ℚ))) (.multiPoint 2) (1 / 2) (fuel := 0) (c := [1, 1, 2])
  ⟨by decide, by decide⟩ (pool := fourCopies [1, 1, 2]) rfl (by simp [fourCopies, Individual.chromOps])

/-- A GA with PMX and no mutation that starts with the two orders `[1, 2]` and `[2, 1]`. -/
def exConverging : Ops Nat (Individual (List Nat) ℚ) ℚ :=
  { permOps counterFRng (Individual.trait (List Nat) ℚ) (Individual.chromOps Nat (.num 0)) sharedSlots (fun c => .num (c.headD 0 : ℚ)) (fun _ => 1)
      (1 / 2) 5 2 [] (.tournament (1 / 5)) .pmx .identity .bothParents true tickClock with generate := fun _ => pure [⟨[1, 2], .num 0⟩, ⟨[2, 1], .num 0⟩] }

/-- With `counterFRng` it converges to `[1, 2]` in the first generation. -/
example : okWith (run (Individual.trait (List Nat) ℚ) exConverging ⟨2, 3, 1000⟩ ⟨0, 2, none⟩ 0)
    (fun r => (r.2.any fun e => match e with
      | .onInitialPopulation _ pop => pop.map (·.chromosome) == [[1, 2], [2, 1]]
      | _ => false) && (r.2.any fun e => match e with
      | .onNewGeneration m pop => m.generation == 1 && pop.map (·.chromosome) == [[1, 2], [1, 2]]
      | _ => false)) = true := by
  decide +kernel

example {best : Individual (List Nat) ℚ} {tr pre post : List (Ev (Individual (List Nat) ℚ))} {e : Ev (Individual (List Nat) ℚ)} {w w' : Nat}
    (h : run (Individual.trait (List Nat) ℚ) exConverging ⟨2, 3, 1000⟩ ⟨0, 2, none⟩ w = .ok ((best, tr), w')) (htr : tr = pre ++ e :: post)
    (he : AllShown (fun i => i.chromosome = [1, 2]) e) : ∀ e' ∈ post, NothingElse (fun i => i.chromosome = [1, 2]) e' :=
  C158_converged counterFRng (Individual.chromOps Nat (.num 0)) (T := Individual.trait (List Nat) ℚ) (fun _ _ => rfl) sharedSlots _ _ _ _ _ _ _ _ _
    (fuel := 5) (cr := .pmx) (mu := .identity) (c := [1, 2]) ⟨by decide, by decide, by decide⟩ (.inl rfl) h htr he

/-- The initial population agrees at locus 0 (and not at locus 1). -/
example {best : Individual (List Nat) ℚ} {tr pre post : List (Ev (Individual (List Nat) ℚ))} {e : Ev (Individual (List Nat) ℚ)} {w w' : Nat}
    (h : run (Individual.trait (List Nat) ℚ) { permOps counterFRng (Individual.trait (List Nat) ℚ) (Individual.chromOps Nat (.num 0)) sharedSlots
      (fun c => .num (c.headD 0 : ℚ)) (fun _ => 1) (1 / 2) 5 2 [] (.tournament (1 / 5)) .singlePoint .identity .bothParents true tickClock with
      generate := fun _ => pure [⟨[1, 0], .num 0⟩, ⟨[1, 1], .num 0⟩] } ⟨2, 3, 1000⟩ ⟨0, 2, none⟩ w = .ok ((best, tr), w')) (htr : tr = pre ++ e :: post)
    (he : AllShown (fun i => i.chromosome.length = 2 ∧ i.chromosome[0]? = some 1) e) :
    ∀ e' ∈ post, NothingElse (fun i => i.chromosome.length = 2 ∧ i.chromosome[0]? = some 1) e' :=
  C158_fixed_locus counterFRng (Individual.chromOps Nat (.num 0)) (T := Individual.trait (List Nat) ℚ) (fun _ _ => rfl) sharedSlots _ _ _ _
    (fuel := 5) _ _ (cr := .singlePoint) _ _ _ rfl (d := 2) (j := 0) (a := 1) h htr he

example := C158_takeover tapeRng_ideal (Individual.chromOps Nat (.num (0 : ℝ))) (ar := exact ℝ) (maxv := 1000)
  (fit := fun i => if i.chromosome = [9] then .pinf else .fin 2) (count := 10) rfl (l1 := []) (l2 := [⟨[7], .num 2⟩, ⟨[8], .num 2⟩])
  (x := ⟨[9], .nan⟩) (t := 0) rfl (by simp) (by simp) .singlePoint (1 / 2) (fuel := 0) (by simp [Crossover.suits, Individual.chromOps])

end examples

end Ecrs.Props
