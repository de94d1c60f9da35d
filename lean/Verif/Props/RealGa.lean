import Verif.Ga.RealAssemble
import Verif.Props.PermGa
import Verif.Props.Mutation2
import Mathlib.Data.Rat.Floor

/-!
# Property C112: GAs on real vectors and the box of RandomPoints
-/

set_option linter.unusedSectionVars false

namespace Ecrs.Ga
open Ecrs

section
variable {G U I A : Type} [LinearOrder U] [Zero U] [One U] [DecidableEq A] (R : Rng G U) (X : ChromOps I A)

/-- The seven crossovers that exchange genes locus by locus. -/
def Crossover.isLocus : Crossover U → Bool
  | .ordered | .pmx | .ppx => false
  | _ => true

/-- Children `c`, `d` have at every locus the two genes `a` and `b` have there, in one order or the other. -/
def LocusWise (a b c d : I) : Prop :=
  (X.ch c).length = (X.ch a).length ∧ (X.ch d).length = (X.ch a).length ∧
  ∀ i : Nat, ((X.ch c)[i]? = (X.ch a)[i]? ∧ (X.ch d)[i]? = (X.ch b)[i]?) ∨
    ((X.ch c)[i]? = (X.ch b)[i]? ∧ (X.ch d)[i]? = (X.ch a)[i]?)

private theorem cut_locus {p q : List A} (n : Nat) (hn : n ≤ p.length) (hl : p.length = q.length) (i : Nat) :
    (p.take n ++ q.drop n)[i]? = if i < n then p[i]? else q[i]? := by
  by_cases h : i < n
  · rw [List.getElem?_append_left (by simp; omega), if_pos h, List.getElem?_take_of_lt h]
  · rw [List.getElem?_append_right (by simp; omega), if_neg h, List.getElem?_drop]
    simp; congr 1; omega

private theorem locus_of_cut {a b c d : I} {n : Nat} (hn : n ≤ (X.ch a).length) (hl : (X.ch a).length = (X.ch b).length)
    (h1 : X.ch c = (X.ch a).take n ++ (X.ch b).drop n) (h2 : X.ch d = (X.ch b).take n ++ (X.ch a).drop n) :
    LocusWise X a b c d := by
  refine ⟨by rw [h1]; simp; omega, by rw [h2]; simp; omega, fun i => ?_⟩
  rw [h1, h2, cut_locus n hn hl, cut_locus n (by omega) hl.symm]
  by_cases h : i < n <;> simp [h]

private theorem locus_of_mask {a b c d : I} {mask : List Bool} (hm : mask.length = (X.ch a).length)
    (hl : (X.ch a).length = (X.ch b).length) (h1 : X.ch c = mix mask (X.ch a) (X.ch b))
    (h2 : X.ch d = mix mask (X.ch b) (X.ch a)) : LocusWise X a b c d := by
  refine ⟨by rw [h1, mix_length _ _ _ hm hl], by rw [h2, mix_length _ _ _ (by omega) hl.symm, hl], fun i => ?_⟩
  rw [h1, h2, mix_getElem? _ _ _ _ hm hl, mix_getElem? _ _ _ _ (by omega) hl.symm]
  by_cases h : mask[i]? = some true <;> simp [h]

/-- The crossover's constructor parameter fits chromosomes of length `d`. -/
def Crossover.fits (d : Nat) : Crossover U → Prop
  | .multiPoint k => 1 ≤ k ∧ k ≤ d
  | _ => True

private theorem pairsRel_with {Q Q' : I → I → I → I → Prop} {P : I → Prop} {sel out : List I} (h : PairsRel Q sel out)
    (hs : ∀ i ∈ sel, P i) (hq : ∀ a b c d, P a → P b → Q a b c d → Q' a b c d) : PairsRel Q' sel out := by
  induction h with
  | nil => exact .nil
  | cons h1 _ ih => exact .cons (hq _ _ _ _ (hs _ (by simp)) (hs _ (by simp)) h1) (ih fun j hj => hs j (by simp [hj]))

/-- On an even number of chromosomes of one positive length every locus-wise crossover with fitting parameters returns and
exchanges genes locus by locus. -/
theorem locusCross_returns {half : U} {fuel d : Nat} {cr : Crossover U} (hcr : cr.isLocus = true) (hd : 0 < d)
    (hfit : cr.fits d) {pool : List I} (hp : ∀ i ∈ pool, (X.ch i).length = d) (he : pool.length % 2 = 0) :
    Returns (cr.apply R X half fuel pool) (PairsRel (LocusWise X) pool) := by
  have h1 : Pairs (SameLen X) pool := Pairs.of_forall pool he fun a ha b hb => by
    unfold SameLen; rw [hp a ha, hp b hb]
  have h2 : Pairs (SameLenPos X) pool := Pairs.of_forall pool he fun a ha b hb => by
    unfold SameLenPos; rw [hp a ha, hp b hb]; exact ⟨rfl, hd⟩
  have sl : ∀ a b, (X.ch a).length = d → (X.ch b).length = d → (X.ch a).length = (X.ch b).length :=
    fun a b ha hb => by rw [ha, hb]
  cases cr with
  | singlePoint =>
    refine (C10_single_point R X h2).mono fun out h => pairsRel_with h hp ?_
    rintro a b c e ha hb ⟨cut, hc, e1, e2⟩
    exact locus_of_cut X hc.le (sl a b ha hb) e1 e2
  | twoPoint =>
    refine (C11_two_point R X h2).mono fun out h => pairsRel_with h hp ?_
    rintro a b c e ha hb ⟨lo, hi, hlh, hh, e1, e2⟩
    have hl := sl a b ha hb
    have seg : ∀ (p q : List A), p.length = q.length → hi < p.length → ∀ i : Nat,
        (p.take lo ++ (q.take hi).drop lo ++ p.drop hi)[i]? = if lo ≤ i ∧ i < hi then q[i]? else p[i]? := by
      intro p q hpq hhi i
      by_cases c1 : i < hi
      · rw [List.getElem?_append_left (by simp; omega)]
        by_cases c2 : i < lo
        · rw [List.getElem?_append_left (by simp; omega), List.getElem?_take_of_lt c2, if_neg (by omega)]
        · rw [List.getElem?_append_right (by simp; omega), if_pos (by omega), List.getElem?_drop]
          rw [List.getElem?_take_of_lt (by simp; omega)]
          congr 1; simp; omega
      · rw [List.getElem?_append_right (by simp; omega), if_neg (by omega), List.getElem?_drop]
        congr 1; simp; omega
    refine ⟨by rw [e1]; simp; omega, by rw [e2]; simp; omega, fun i => ?_⟩
    rw [e1, e2, seg _ _ hl hh, seg _ _ hl.symm (by omega)]
    by_cases c1 : lo ≤ i ∧ i < hi
    · rw [if_pos c1, if_pos c1]; exact .inr ⟨rfl, rfl⟩
    · rw [if_neg c1, if_neg c1]; exact .inl ⟨rfl, rfl⟩
  | multiPoint k =>
    exact C13_multi_point_complementary R X hfit.1 (Pairs.of_forall pool he fun a ha b hb =>
      ⟨sl a b (hp a ha) (hp b hb), by rw [hp a ha]; exact hfit.2⟩)
  | fixedPoint cut =>
    refine (C14_fixed_point X (G := G) h1).mono fun out h => pairsRel_with h hp ?_
    rintro a b c e ha hb ⟨rfl, rfl⟩
    by_cases hc : cut ≤ (X.ch a).length
    · exact locus_of_cut X hc (sl a b ha hb) (by rw [X.ch_setCh]) (by rw [X.ch_setCh])
    · have hl := sl a b ha hb
      refine ⟨by rw [X.ch_setCh]; simp; omega, by rw [X.ch_setCh]; simp; omega, fun i => .inl ?_⟩
      rw [X.ch_setCh, X.ch_setCh, List.take_of_length_le (by omega), List.take_of_length_le (by omega),
        List.drop_of_length_le (by omega), List.drop_of_length_le (by omega), List.append_nil, List.append_nil]
      exact ⟨rfl, rfl⟩
  | uniform =>
    refine (C15_uniform R X h1).mono fun out h => pairsRel_with h hp ?_
    rintro a b c e ha hb ⟨mask, hm, e1, e2⟩
    exact locus_of_mask X hm (sl a b ha hb) e1 e2
  | uniformParameterized bias =>
    refine (C15_uniform_parameterized R X h1).mono fun out h => pairsRel_with h hp ?_
    rintro a b c e ha hb ⟨mask, hm, e1, e2⟩
    exact locus_of_mask X hm (sl a b ha hb) e1 e2
  | shuffle =>
    refine (C16_shuffle R X h2).mono fun out h => pairsRel_with h hp ?_
    rintro a b c e ha hb ⟨mask, hm, -, e1, e2⟩
    exact locus_of_mask X hm (sl a b ha hb) e1 e2
  | _ => cases hcr

private theorem not_fits_panics {half : U} {fuel d : Nat} {cr : Crossover U} (hfit : ¬ cr.fits d) {a b : I} {pool : List I}
    (ha : (X.ch a).length = d) : Panics (cr.apply R X half fuel (a :: b :: pool)) := by
  cases cr with
  | multiPoint k =>
    have hk : (X.ch a).length < k ∨ k = 0 := by
      unfold Crossover.fits at hfit; omega
    refine Panics.bind_right IfReturns.trivial fun _ _ => ?_
    show Panics (chunks2 (liftSingle X (multiPoint R k)) (a :: b :: pool))
    unfold chunks2
    refine Panics.bind_left ?_
    exact Panics.bind_left (C13_multi_point_panics R (.inr hk))
  | _ => exact absurd trivial hfit

/-- Whatever the parameters: if it returns. -/
theorem locusCross_ifReturns {half : U} {fuel d : Nat} {cr : Crossover U} (hcr : cr.isLocus = true) (hd : 0 < d)
    {pool : List I} (hp : ∀ i ∈ pool, (X.ch i).length = d) :
    IfReturns (cr.apply R X half fuel pool) (PairsRel (LocusWise X) pool) := by
  by_cases he : pool.length % 2 = 0
  · by_cases hfit : cr.fits d
    · exact (locusCross_returns R X hcr hd hfit hp he).ifReturns
    · match pool, hp, he with
      | [], _, _ =>
        intro g out g' h
        have := (C09_crossover_arity R X cr half fuel []) g out g' h
        have ho : out = [] := List.eq_nil_of_length_eq_zero this.2
        rw [ho]
        exact .nil
      | [_], _, he => simp at he
      | a :: b :: pool, hp, _ =>
        intro g out g' h
        obtain ⟨e, hpan⟩ := not_fits_panics R X (half := half) (fuel := fuel) hfit (a := a) (b := b) (pool := pool)
          (hp a (by simp)) g
        rw [hpan] at h; cases h
  · intro g out g' h
    obtain ⟨e, hpan⟩ := C09_crossover_odd_panics R X cr half fuel (sel := pool) (by omega) g
    rw [hpan] at h; cases h

end

section
variable {G K I C F : Type} [Field K] [LinearOrder K] [IsStrictOrderedRing K] [FloorSemiring K] [LinearOrder F]

/-- The chromosome respects the box: coordinate by coordinate within the corresponding range. -/
def InBox (X : ChromOps I K) (cs : List (K × K)) (i : I) : Prop := List.Forall₂ Within cs (X.ch i)

theorem inBox_iff {X : ChromOps I K} {cs : List (K × K)} {i : I} : InBox X cs i ↔
    (X.ch i).length = cs.length ∧ ∀ (l : Nat) c x, cs[l]? = some c → (X.ch i)[l]? = some x → Within c x := by
  unfold InBox
  constructor
  · intro h
    refine ⟨h.length_eq.symm, ?_⟩
    generalize X.ch i = p at h
    induction h with
    | nil => intro l c x hc; simp at hc
    | cons h1 _ ih =>
      intro l c x hc hx
      cases l with
      | zero => simp at hc hx; subst hc hx; exact h1
      | succ l => simp at hc hx; exact ih l c x hc hx
  · rintro ⟨hl, h⟩
    generalize X.ch i = p at hl h
    induction cs generalizing p with
    | nil =>
      have hp : p = [] := List.eq_nil_of_length_eq_zero (by simpa using hl)
      rw [hp]; exact .nil
    | cons c cs ih =>
      cases p with
      | nil => simp at hl
      | cons x p =>
        exact .cons (h 0 c x rfl rfl) (ih p (by simpa using hl) fun l c x hc hx => h (l + 1) c x (by simpa using hc) (by simpa using hx))

theorem inBox_locusWise {X : ChromOps I K} {cs : List (K × K)} {a b c d : I} (ha : InBox X cs a) (hb : InBox X cs b)
    (h : LocusWise X a b c d) : InBox X cs c ∧ InBox X cs d := by
  obtain ⟨la, va⟩ := inBox_iff.1 ha
  obtain ⟨lb, vb⟩ := inBox_iff.1 hb
  obtain ⟨lc, ld, hg⟩ := h
  refine ⟨inBox_iff.2 ⟨by rw [lc, la], fun l r x hr hx => ?_⟩, inBox_iff.2 ⟨by rw [ld, la], fun l r x hr hx => ?_⟩⟩
  · rcases hg l with ⟨e, -⟩ | ⟨e, -⟩
    · exact va l r x hr (by rw [← e]; exact hx)
    · exact vb l r x hr (by rw [← e]; exact hx)
  · rcases hg l with ⟨-, e⟩ | ⟨-, e⟩
    · exact vb l r x hr (by rw [← e]; exact hx)
    · exact va l r x hr (by rw [← e]; exact hx)

theorem inBox_perm {X : ChromOps I K} {n : Nat} {r : K × K} {a b : I} (ha : InBox X (List.replicate n r) a)
    (h : (X.ch b).Perm (X.ch a)) : InBox X (List.replicate n r) b := by
  obtain ⟨la, va⟩ := inBox_iff.1 ha
  refine inBox_iff.2 ⟨by rw [h.length_eq, la], fun l c x hc hx => ?_⟩
  obtain ⟨j, hj⟩ := List.mem_iff_getElem?.1 (h.mem_iff.1 (List.mem_of_getElem? hx))
  have hjl : j < n := by
    have := (List.getElem?_eq_some_iff.1 hj).1
    rw [la] at this; simpa using this
  have hc' : c = r := List.eq_of_mem_replicate (List.mem_of_getElem? hc)
  subst hc'
  exact va j c x (by rw [List.getElem?_replicate, if_pos hjl]) hj

/-- The mutation cannot move a gene to a coordinate with a different range. -/
def BoxSafe (cs : List (K × K)) (mu : Mutation K) : Prop := mu = .identity ∨ ∃ n r, cs = List.replicate n r

theorem mutate_inBox {R : Rng G K} {X : ChromOps I K} {cs : List (K × K)} {mu : Mutation K} (hs : BoxSafe cs mu)
    {i : I} (h : InBox X cs i) : IfReturns (applyMutation X (mu.run R) i) (InBox X cs) := by
  rcases hs with rfl | ⟨n, r, rfl⟩
  · unfold applyMutation
    show IfReturns (identityMut (X.ch i) >>= fun c => pure (X.setCh i c)) _
    unfold identityMut
    rw [pure_bind]
    refine IfReturns.pure ?_
    unfold InBox at h ⊢
    rw [X.ch_setCh]; exact h
  · exact (C25_reordering_mutations R X mu i).mono fun i' hi' => inBox_perm h hi'

private theorem realOps_closed {W : Type} (R : FRng G K) (T : IndTrait I C F) (X : ChromOps I K)
    (hset : ∀ i x, X.ch (T.setFitness i x) = X.ch i) (S : Slots W G) (f : C → Fl F) (fit : I → K) (half : K)
    (fuel count : Nat) {dim : Nat} {cs : List (K × K)} {rp : RandomPoints K} {g0 g1 : G}
    (hnew : RandomPoints.withConstraints dim cs g0 = .ok (rp, g1)) (sel : Selection K I) {cr : Crossover K}
    (hcr : cr.isLocus = true) {mu : Mutation K} (hs : BoxSafe cs mu) (re : Replacement) (debug : Bool)
    (elapsed : M W Nat) :
    Closed T (realOps R T X S f fit half fuel count rp sel cr mu re debug elapsed) (InBox X cs) where
  set i x h := by unfold InBox at h ⊢; rw [hset]; exact h
  gen n := S.gen.run_ifReturns ((C37_random_points R.toRng X hnew).ifReturns.mono fun _ h i hi => (h.2 i hi).2)
  fit i h := IfReturns.pure h
  sel m pop h := S.sel.run_ifReturns ((C28_members R T fit fuel count sel m pop).mono fun pool hp i hi => h i (hp i hi))
  cross m pool h := by
    have hd := (C37_random_points_new dim cs g0).1 ⟨_, hnew⟩
    refine S.cross.run_ifReturns ?_
    exact (locusCross_ifReturns R.toRng X hcr (d := cs.length) (by omega) (fun i hi => (h i hi).length_eq.symm)).mono
      fun out ho => pairsRel_all ho h fun a b c d ha hb hq => inBox_locusWise ha hb hq
  mutate m i h := S.mutate.run_ifReturns (mutate_inBox hs h)
  replace m pop children hp hc := (replacement_members T re debug pop children).mono
    fun out ho i hi => (ho i hi).elim (hp i) (hc i)

/-- **C112.** A GA made of RandomPoints with one range per coordinate, any shipped selection, any of the seven locus-wise
crossovers, the Identity mutation and any shipped replacement searches only the box: the returned individual and every
individual ever shown, selected from or replaced lies in it. -/
theorem C112_box {W : Type} (R : FRng G K) (T : IndTrait I C F) (X : ChromOps I K)
    (hset : ∀ i x, X.ch (T.setFitness i x) = X.ch i) (S : Slots W G) (f : C → Fl F) (fit : I → K) (half : K)
    (fuel count : Nat) {dim : Nat} {cs : List (K × K)} {rp : RandomPoints K} {g0 g1 : G}
    (hnew : RandomPoints.withConstraints dim cs g0 = .ok (rp, g1)) (sel : Selection K I) {cr : Crossover K}
    (hcr : cr.isLocus = true) (re : Replacement) (debug : Bool) (elapsed : M W Nat) (p : GAParams) {m0 : Metrics}
    {best : I} {tr : List (Ev I)} {w w' : W}
    (h : run T (realOps R T X S f fit half fuel count rp sel cr .identity re debug elapsed) p m0 w = .ok ((best, tr), w')) :
    InBox X cs best ∧ ∀ e ∈ tr, EvAll (InBox X cs) e :=
  (realOps_closed R T X hset S f fit half fuel count hnew sel hcr (.inl rfl) re debug elapsed).run p h

/-- **C112, cube.** With the same range for every coordinate this holds for every shipped mutation. -/
theorem C112_cube {W : Type} (R : FRng G K) (T : IndTrait I C F) (X : ChromOps I K)
    (hset : ∀ i x, X.ch (T.setFitness i x) = X.ch i) (S : Slots W G) (f : C → Fl F) (fit : I → K) (half : K)
    (fuel count : Nat) {dim : Nat} {r : K × K} {rp : RandomPoints K} {g0 g1 : G}
    (hnew : RandomPoints.withSingleConstraint dim r g0 = .ok (rp, g1)) (sel : Selection K I) {cr : Crossover K}
    (hcr : cr.isLocus = true) (mu : Mutation K) (re : Replacement) (debug : Bool) (elapsed : M W Nat) (p : GAParams)
    {m0 : Metrics} {best : I} {tr : List (Ev I)} {w w' : W}
    (h : run T (realOps R T X S f fit half fuel count rp sel cr mu re debug elapsed) p m0 w = .ok ((best, tr), w')) :
    InBox X (List.replicate dim r) best ∧ ∀ e ∈ tr, EvAll (InBox X (List.replicate dim r)) e :=
  (realOps_closed R T X hset S f fit half fuel count hnew sel hcr (.inr ⟨dim, r, rfl⟩) re debug elapsed).run p h

/-- **C112, evaluation.** In both cases the fitness function is never called outside the box: replacing it by one that panics
there changes no run, returning or panicking. -/
theorem C112_never_evaluated_outside {W : Type} (R : FRng G K) (T : IndTrait I C F) (X : ChromOps I K)
    (hset : ∀ i x, X.ch (T.setFitness i x) = X.ch i) (S : Slots W G) (f : C → Fl F) (fit : I → K) (half : K)
    (fuel count : Nat) {dim : Nat} {cs : List (K × K)} {rp : RandomPoints K} {g0 g1 : G}
    (hnew : RandomPoints.withConstraints dim cs g0 = .ok (rp, g1)) (sel : Selection K I) {cr : Crossover K}
    (hcr : cr.isLocus = true) {mu : Mutation K} (hs : mu = .identity ∨ ∃ n r, cs = List.replicate n r) (re : Replacement)
    (debug : Bool) (elapsed : M W Nat) (p : GAParams) (m0 : Metrics) :
    let ops := realOps R T X S f fit half fuel count rp sel cr mu re debug elapsed
    run T { ops with fitnessFn := guarded (InBox X cs) ops.fitnessFn } p m0 = run T ops p m0 :=
  (realOps_closed R T X hset S f fit half fuel count hnew sel hcr hs re debug elapsed).run_guarded p m0

private theorem realOps_len {W : Type} (R : FRng G K) (T : IndTrait I C F) (X : ChromOps I K)
    (hset : ∀ i x, X.ch (T.setFitness i x) = X.ch i) (S : Slots W G) (f : C → Fl F) (fit : I → K) (half : K)
    (fuel count : Nat) {dim : Nat} {cs : List (K × K)} {rp : RandomPoints K} {g0 g1 : G}
    (hnew : RandomPoints.withConstraints dim cs g0 = .ok (rp, g1)) (sel : Selection K I) {cr : Crossover K}
    (hcr : cr.isLocus = true) (mu : Mutation K) (re : Replacement) (debug : Bool) (elapsed : M W Nat) :
    Closed T (realOps R T X S f fit half fuel count rp sel cr mu re debug elapsed) (fun i => (X.ch i).length = dim) where
  set i x h := by rw [hset]; exact h
  gen n := S.gen.run_ifReturns ((C37_random_points R.toRng X hnew).ifReturns.mono fun _ h i hi => (h.2 i hi).1)
  fit i h := IfReturns.pure h
  sel m pop h := S.sel.run_ifReturns ((C28_members R T fit fuel count sel m pop).mono fun pool hp i hi => h i (hp i hi))
  cross m pool h := by
    have hd := (C37_random_points_new dim cs g0).1 ⟨_, hnew⟩
    refine S.cross.run_ifReturns ?_
    exact (locusCross_ifReturns R.toRng X hcr hd.1 h).mono
      fun out ho => pairsRel_all ho h fun a b c d ha hb hq => ⟨by rw [hq.1, ha], by rw [hq.2.1, ha]⟩
  mutate m i h := S.mutate.run_ifReturns ((C25_reordering_mutations R.toRng X mu i).mono fun i' hi' => by
    rw [hi'.length_eq, h])
  replace m pop children hp hc := (replacement_members T re debug pop children).mono
    fun out ho i hi => (ho i hi).elim (hp i) (hc i)

/-- **C112, no panic.** With Tournament selection (factor `≤ 1`) of as many individuals as the even, positive population
size, a fitting locus-wise crossover and a NaN-free fitness function such a GA always returns. -/
theorem C112_returns {W : Type} (R : FRng G K) (T : IndTrait I C F) (X : ChromOps I K)
    (hset : ∀ i x, X.ch (T.setFitness i x) = X.ch i) (heval : ∀ i, T.requiresEval i = true) (S : Slots W G) {f : C → Fl F}
    (hf : ∀ c, (f c).IsNum) (fit : I → K) (half : K) (fuel : Nat) {n dim : Nat} {cs : List (K × K)} {rp : RandomPoints K}
    {g0 g1 : G} (hnew : RandomPoints.withConstraints dim cs g0 = .ok (rp, g1)) {factor : K} (hfac : factor ≤ 1)
    {cr : Crossover K} (hcr : cr.isLocus = true) (hfit : cr.fits dim) (mu : Mutation K) (re : Replacement) (debug : Bool)
    {elapsed : M W Nat} (hel : Returns elapsed fun _ => True) {p : GAParams} (hp : p.populationSize = n) (hpos : 0 < n)
    (heven : n % 2 = 0) (m0 : Metrics) :
    Returns (run T (realOps R T X S f fit half fuel n rp (.tournament factor) cr mu re debug elapsed) p m0)
      fun r => (X.ch r.1).length = dim := by
  have hd := (C37_random_points_new dim cs g0).1 ⟨_, hnew⟩
  have ht : TotalOps T (realOps R T X S f fit half fuel n rp (.tournament factor) cr mu re debug elapsed)
      (fun i => (X.ch i).length = dim) n :=
    { eval := heval
      set := fun i x h => by rw [hset]; exact h
      gen := S.gen.run_returns ((C37_random_points R.toRng X hnew).mono fun _ h => ⟨h.1, fun i hi => (h.2 i hi).1⟩)
      fit := fun i h => Returns.pure ⟨h, hf _⟩
      sel := fun m pop hl hP hnum => S.sel.run_returns
        ((C28_tournament R.toRng T hfac (by omega) hnum).mono fun pool hpool =>
          ⟨hpool.1, fun i hi => hP i (hpool.2 i hi)⟩)
      cross := fun m pool hl hP => S.cross.run_returns
        ((locusCross_returns R.toRng X hcr hd.1 hfit hP (by omega)).mono fun out h =>
          ⟨by rw [h.length, hl], pairsRel_all h hP fun a b c d ha hb hq => ⟨by rw [hq.1, ha], by rw [hq.2.1, ha]⟩⟩)
      mutate := fun m i h => S.mutate.run_returns
        ((C25_reordering_mutations_return R.toRng X mu i (by rw [h]; exact hd.1)).mono
          fun i' hi' => by rw [hi'.length_eq, h])
      replace := fun m pop children hl1 hl2 hp1 hp2 hn1 hn2 => by
        cases re with
        | bothParents => exact Returns.pure ⟨hl2, hp2⟩
        | noop => exact Returns.pure ⟨hl1, hp1⟩
        | weakParent =>
          intro w
          obtain ⟨out, w', h1, h2⟩ := C35_weak_parent (W := W) T (debug := debug) (pop := pop)
            (children := children) (by omega) (by omega) (by omega) hn1 (hn2 rfl) w
          refine ⟨out, w', h1, by rw [h2.1, hl1], ?_⟩
          intro i hi
          rcases (C35_weak_parent_members T w out w' h1).2 i hi with h | h
          · exact hp1 i h
          · exact hp2 i h
      elapsed := hel }
  intro w
  obtain ⟨⟨best, tr⟩, w', h1, h2⟩ := ht.run p hpos hp m0 w
  exact ⟨(best, tr), w', h1, ((realOps_len R T X hset S f fit half fuel n hnew _ hcr mu re debug elapsed).run p h1).1⟩

end

/-! ## A box with two different ranges -/

/-- One generator shared by all operators. -/
def oneSlot : Slots Nat Nat := ⟨⟨id, fun g _ => g⟩, ⟨id, fun g _ => g⟩, ⟨id, fun g _ => g⟩, ⟨id, fun g _ => g⟩⟩

/-- The configuration of coco/src/main.rs:98-126 (Random selection instead of Tournament) on the box `[0, 1) × [10, 11)`. -/
def boxOps (mu : Mutation ℚ) : Ops Nat (Individual (List ℚ) ℚ) ℚ :=
  realOps counterFRng (Individual.trait (List ℚ) ℚ) (Individual.chromOps ℚ (.num 0)) oneSlot (fun c : List ℚ => .num (c.headD 0))
    (fun _ => 1) (1 / 2) 9 2 ⟨2, [(0, 1), (10, 11)]⟩ .random .uniform mu .weakParent true (pure 0)

/-- **C112, defect.** With different ranges and a mutation that moves genes (here Reversing 1/2) the search leaves the box:
RandomPoints was built for `[0, 1) × [10, 11)`, yet the solver shows an individual whose first coordinate is at least `10`. -/
theorem C112_leaves_box : (∃ g, RandomPoints.withConstraints 2 [((0 : ℚ), (1 : ℚ)), (10, 11)] (0 : Nat) =
      .ok (⟨2, [(0, 1), (10, 11)]⟩, g)) ∧
    ∃ best tr w', run (Individual.trait (List ℚ) ℚ) (boxOps (.reversing (1 / 2))) ⟨2, 1, 100⟩ (initialMetrics ⟨2, 1, 100⟩) 0 =
      .ok ((best, tr), w') ∧ ∃ m pop i x y, Ev.onNewGeneration m pop ∈ tr ∧ i ∈ pop ∧ i.chromosome = [x, y] ∧ 10 ≤ x := by
  refine ⟨⟨0, rfl⟩, ?_⟩
  have val : (match run (Individual.trait (List ℚ) ℚ) (boxOps (.reversing (1 / 2))) ⟨2, 1, 100⟩ (initialMetrics ⟨2, 1, 100⟩) 0 with
      | .ok v => v.1.2.any fun e => match e with
        | .onNewGeneration _ pop => pop.any fun i => match i.chromosome with
          | [x, _] => decide (10 ≤ x)
          | _ => false
        | _ => false
      | .error _ => false) = true := by decide +kernel
  split at val
  case h_2 => cases val
  case h_1 v hv =>
  obtain ⟨e, he, h1⟩ := List.any_eq_true.1 val
  split at h1
  case h_2 => cases h1
  case h_1 m pop =>
  obtain ⟨i, hi, h2⟩ := List.any_eq_true.1 h1
  split at h2
  case h_2 => cases h2
  case h_1 x y hxy => exact ⟨v.1.1, v.1.2, v.2, hv, m, pop, i, x, y, he, hi, hxy, of_decide_eq_true h2⟩

/-- The same configuration with Identity returns, so the hypotheses of `C112_box` are met. -/
example : ∃ best tr w', run (Individual.trait (List ℚ) ℚ) (boxOps .identity) ⟨2, 1, 100⟩ (initialMetrics ⟨2, 1, 100⟩) 0 =
      .ok ((best, tr), w') ∧ InBox (Individual.chromOps ℚ (.num (0 : ℚ))) [(0, 1), (10, 11)] best := by
  have val : (match run (Individual.trait (List ℚ) ℚ) (boxOps .identity) ⟨2, 1, 100⟩ (initialMetrics ⟨2, 1, 100⟩) 0 with
      | .ok _ => true
      | .error _ => false) = true := by decide +kernel
  split at val
  case h_2 => cases val
  case h_1 v hv =>
  refine ⟨v.1.1, v.1.2, v.2, hv, ?_⟩
  exact (C112_box (g0 := (0 : Nat)) (g1 := 0) counterFRng _ _ (fun _ _ => rfl) oneSlot (fun c : List ℚ => .num (c.headD 0)) (fun _ => 1)
    (1 / 2) 9 2 (dim := 2) (cs := [(0, 1), (10, 11)]) (rp := ⟨2, [(0, 1), (10, 11)]⟩) rfl .random (cr := .uniform) rfl .weakParent true (pure 0)
    ⟨2, 1, 100⟩ hv).1

section instances
example {best tr w'} (h : run (Individual.trait (List ℚ) ℚ) (realOps counterFRng (Individual.trait (List ℚ) ℚ)
    (Individual.chromOps ℚ (.num 0)) oneSlot (fun c : List ℚ => .num (c.headD 0)) (fun _ => 1) (1 / 2) 9 2
    ⟨2, [(0, 1), (0, 1)]⟩ .random .uniform (.inversion 1) .weakParent true (pure 0)) ⟨2, 1, 100⟩
    (initialMetrics ⟨2, 1, 100⟩) 0 = .ok ((best, tr), w')) :=
  C112_cube (g0 := (0 : Nat)) (g1 := 0) counterFRng _ _ (fun _ _ => rfl) oneSlot _ _ _ _ _ (dim := 2) (r := (0, 1)) rfl _ rfl _ _ _ _ _ h
example := C112_never_evaluated_outside (g0 := (0 : Nat)) (g1 := 0) counterFRng (Individual.trait (List ℚ) ℚ)
  (Individual.chromOps ℚ (.num 0)) (fun _ _ => rfl) oneSlot (fun c : List ℚ => .num (c.headD 0)) (fun _ => 1) (1 / 2) 9 2
  (dim := 2) (cs := [(0, 1), (10, 11)]) (rp := ⟨2, [(0, 1), (10, 11)]⟩) rfl .random (cr := .uniform) rfl (.inl rfl) .weakParent true (pure 0)
  ⟨2, 1, 100⟩ ⟨0, 2, none⟩
example := C112_returns (g0 := (0 : Nat)) (g1 := 0) counterFRng (Individual.trait (List ℚ) ℚ)
  (Individual.chromOps ℚ (.num 0)) (fun _ _ => rfl) (fun _ => rfl) oneSlot (f := fun c : List ℚ => .num (c.headD 0)) (fun _ => trivial)
  (fun _ => 1) (1 / 2) 9 (n := 2) (dim := 2) (cs := [(0, 1), (10, 11)]) (rp := ⟨2, [(0, 1), (10, 11)]⟩) rfl (factor := 1 / 5) (by norm_num)
  (cr := .uniform) rfl trivial (.reversing (1 / 2)) .weakParent true (elapsed := pure 0) (Returns.pure trivial) (p := ⟨2, 1, 100⟩) rfl (by decide)
  (by decide) ⟨0, 2, none⟩
end instances

end Ecrs.Ga
