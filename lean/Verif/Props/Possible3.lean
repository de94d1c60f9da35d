import Mathlib.Tactic.NormNum
import Mathlib.Tactic.FinCases
import Verif.Scripted
import Verif.Props.Selection
import Verif.Props.Population
import Mathlib.Algebra.Order.Field.Basic
import Mathlib.Tactic.Linarith
import Mathlib.Data.Rat.Floor

/-!
# C129: what selections and population generators can produce

`MayYield op out` – some behaviour of the generator makes the operator return `out`; `Rng.Full` – the generator
excludes no answer allowed by its contract (`Verif.Scripted`).
-/

set_option linter.unusedSectionVars false
set_option linter.unusedVariables false

namespace Ecrs.Ga
open Ecrs

theorem may_iff {W α : Type} [Nonempty W] {m : M W α} {Q : α → Prop} (h1 : Returns m Q)
    (h2 : ∀ x, Q x → CanYield m x) {x : α} : MayYield m x ↔ Q x :=
  ⟨fun ⟨w, w', h⟩ => h1.ifReturns w _ _ h, fun h => (h2 x h).may⟩

theorem may_iff' {W α : Type} {m : M W α} {Q : α → Prop} (h1 : Returns m Q)
    (h2 : ∀ x, Q x → MayYield m x) {x : α} : MayYield m x ↔ Q x :=
  ⟨fun ⟨w, w', h⟩ => h1.ifReturns w _ _ h, fun h => h2 x h⟩

section order
variable {G U I C K : Type} [LinearOrder U] [Zero U] [One U] {R : Rng G U}
variable [LinearOrder K] (T : IndTrait I C K)

theorem forEach_idx_can {pop sel : List I} {is : List Nat} (h : AtPositions pop sel is) :
    (M.forEach (idx pop) is : M G (List I)) = pure sel := by
  unfold AtPositions at h
  induction h with
  | nil => rfl
  | @cons i x is sel hx _ ih =>
    obtain ⟨hi, rfl⟩ := List.getElem?_eq_some_iff.1 hx
    unfold M.forEach
    rw [idx_of_lt hi, pure_bind, ih, pure_bind]

theorem positions_of_mem {pop : List I} : ∀ {sel : List I}, (∀ x ∈ sel, x ∈ pop) →
    ∃ is : List Nat, AtPositions pop sel is ∧ ∀ i ∈ is, i < pop.length
  | [], _ => ⟨[], .nil, by simp⟩
  | x :: sel, h => by
    obtain ⟨is, h1, h2⟩ := positions_of_mem (sel := sel) fun y hy => h y (by simp [hy])
    obtain ⟨i, hi, rfl⟩ := List.mem_iff_getElem.1 (h x (by simp))
    exact ⟨i :: is, .cons (List.getElem?_eq_getElem hi) h1, by
      intro j hj
      rcases List.mem_cons.1 hj with rfl | hj
      · exact hi
      · exact h2 j hj⟩

/-- **C129, Random.** From a non-empty population the possible selections are exactly the lists of `count`
members: every member in every place, with repetition. -/
theorem C129_random (hR : R.Full) {count : Nat} {pop sel : List I} (h : 0 < pop.length) :
    MayYield (selRandom R count pop) sel ↔ sel.length = count ∧ ∀ x ∈ sel, x ∈ pop := by
  have := hR.inhabited
  refine may_iff' (C28_random R h) ?_
  rintro sel ⟨h1, h2⟩
  obtain ⟨is, p1, p2⟩ := positions_of_mem h2
  have hc : CanYield (M.replicate count (R.genRange 0 pop.length)) is :=
    CanYield.replicate (by rw [← p1.length, h1]) fun i hi => hR.genRange (Nat.zero_le i) (p2 i hi)
  obtain ⟨g, g', hg⟩ := (hc.may).onClone (R := R)
  refine ⟨g, g', ?_⟩
  unfold selRandom
  rw [M.bind_of_ok (show M.assert (decide (0 < pop.length)) .emptyRange g = .ok ((), g) by simp [h]; rfl),
    M.bind_of_ok hg, forEach_idx_can p1]
  rfl

/-- **C129, UniqueRandom.** The possible selections are exactly the members at `count` different positions, in
any order. -/
theorem C129_unique_random (hR : R.Full) {count : Nat} {pop sel : List I} (h : count ≤ pop.length) :
    MayYield (selUniqueRandom R count pop) sel ↔
      ∃ is : List Nat, is.length = count ∧ is.Nodup ∧ AtPositions pop sel is := by
  have := hR.inhabited
  refine may_iff (C31_unique_random R h) ?_
  rintro sel ⟨is, h1, h2, h3⟩
  unfold selUniqueRandom
  have hlt : ∀ i ∈ is, i < pop.length := by
    intro i hi
    clear h1 h2
    unfold AtPositions at h3
    induction h3 with
    | nil => simp at hi
    | cons hx _ ih =>
      rcases List.mem_cons.1 hi with rfl | hi
      · exact (List.getElem?_eq_some_iff.1 hx).1
      · exact ih hi
  refine (hR.indexSample h1 h2 hlt h).bind ?_
  rw [forEach_idx_can h3]
  exact .pure

/-- **C129, Rank.** The possible selections are exactly the lists of `count` members: even the worst individual
can be selected, since it can be compared with itself. -/
theorem C129_rank (hR : R.Full) {count : Nat} {pop sel : List I} (h : 0 < pop.length) :
    MayYield (selRank R T count pop) sel ↔ sel.length = count ∧ ∀ x ∈ sel, x ∈ pop := by
  have := hR.inhabited
  refine may_iff (Q := fun sel => sel.length = count ∧ ∀ x ∈ sel, x ∈ pop)
    ((C28_rank R T h).mono fun s hs => ⟨hs.1, fun x hx => (hs.2 x hx).1⟩) ?_
  rintro sel ⟨h1, h2⟩
  refine CanYield.replicate h1 fun x hx => ?_
  obtain ⟨i, hi, rfl⟩ := List.mem_iff_getElem.1 (h2 x hx)
  unfold rankOne
  refine (hR.genRange (Nat.zero_le i) hi).bind ?_
  rw [idx_of_lt hi, pure_bind]
  refine (hR.genRange (Nat.zero_le i) hi).bind ?_
  rw [idx_of_lt hi, pure_bind, ite_self]
  exact .pure

/-- **C129, RankR.** The possible selections are exactly the lists of `count` members, for every `r`. -/
theorem C129_rank_r (hR : R.Full) (h01 : (0 : U) < 1) {r : U} {count : Nat} {pop sel : List I} (h : 0 < pop.length) :
    MayYield (selRankR R r count pop) sel ↔ sel.length = count ∧ ∀ x ∈ sel, x ∈ pop := by
  have := hR.inhabited
  refine may_iff (C28_rank_r R h) ?_
  rintro sel ⟨h1, h2⟩
  unfold selRankR
  refine (CanYield.assert (by simpa using h)).bind ?_
  refine CanYield.replicate h1 fun x hx => ?_
  obtain ⟨i, hi, rfl⟩ := List.mem_iff_getElem.1 (h2 x hx)
  unfold rankROne
  refine (hR.genRange (Nat.zero_le i) hi).bind ?_
  rw [idx_of_lt hi, pure_bind]
  refine (hR.genRange (Nat.zero_le i) hi).bind ?_
  rw [idx_of_lt hi, pure_bind]
  refine (hR.genUnit le_rfl h01).bind ?_
  rw [ite_self]
  exact .pure

theorem cmpInd_num {a b : I} (ha : (T.fitness a).IsNum) (hb : (T.fitness b).IsNum) :
    ∃ va vb, T.fitness a = .num va ∧ T.fitness b = .num vb ∧ cmpInd T a b = .ok (compare va vb) := by
  cases hfa : T.fitness a with
  | nan => rw [hfa] at ha; exact ha.elim
  | num va =>
    cases hfb : T.fitness b with
    | nan => rw [hfb] at hb; exact hb.elim
    | num vb => exact ⟨va, vb, rfl, rfl, by simp [cmpInd, hfa, hfb, Fl.partialCmp]⟩

theorem maxFrom_last {w : I} (hw : (T.fitness w).IsNum) : ∀ (xs : List I) (b : I),
    (T.fitness b).IsNum → (∀ x ∈ xs, (T.fitness x).IsNum) → Fl.Le (T.fitness b) (T.fitness w) →
    (∀ x ∈ xs, Fl.Le (T.fitness x) (T.fitness w)) → maxFrom T b (xs ++ [w]) = .ok w
  | [], b, hb, _, hle, _ => by
    obtain ⟨vb, vw, e1, e2, e3⟩ := cmpInd_num T hb hw
    rw [e1, e2] at hle
    have hng : compare vb vw ≠ .gt := fun h => absurd (compare_gt_iff_gt.1 h) (not_lt.2 hle)
    rw [List.nil_append]
    unfold maxFrom
    rw [e3]
    split
    · rename_i h; cases h
    · rename_i h; exact absurd (Except.ok.inj h) hng
    · rfl
  | x :: xs, b, hb, hx, hle, hxle => by
    have hx0 := hx x (by simp)
    have hx0' := hxle x (by simp)
    have r1 := maxFrom_last hw xs b hb (fun y hy => hx y (by simp [hy])) hle fun y hy => hxle y (by simp [hy])
    have r2 := maxFrom_last hw xs x hx0 (fun y hy => hx y (by simp [hy])) hx0' fun y hy => hxle y (by simp [hy])
    obtain ⟨vb, vx, e1, e2, e3⟩ := cmpInd_num T hb hx0
    rw [List.cons_append]
    unfold maxFrom
    rw [e3]
    split
    · rename_i h; cases h
    · exact r1
    · exact r2

theorem findMax_last {w : I} {xs : List I} (hw : (T.fitness w).IsNum) (hx : ∀ x ∈ xs, (T.fitness x).IsNum)
    (hle : ∀ x ∈ xs, Fl.Le (T.fitness x) (T.fitness w)) : findMax T (xs ++ [w]) = .ok w := by
  cases xs with
  | nil => rfl
  | cons b xs =>
    exact maxFrom_last T hw xs b (hx b (by simp)) (fun y hy => hx y (by simp [hy])) (hle b (by simp))
      fun y hy => hle y (by simp [hy])

end order

section tournament
variable {G K I C F : Type} [Field K] [LinearOrder K] [IsStrictOrderedRing K] [FloorSemiring K] [LinearOrder F]
variable {R : Rng G K} (T : IndTrait I C F)

theorem AtPositions.append {pop s1 s2 : List I} {i1 i2 : List Nat} (h1 : AtPositions pop s1 i1)
    (h2 : AtPositions pop s2 i2) : AtPositions pop (s1 ++ s2) (i1 ++ i2) := List.rel_append h1 h2

theorem forall₂_split {α β : Type} {r : α → β → Prop} : ∀ (u v : List β) (l : List α), List.Forall₂ r l (u ++ v) →
    ∃ a b, List.Forall₂ r a u ∧ List.Forall₂ r b v ∧ l = a ++ b
  | [], v, l, h => ⟨[], l, .nil, h, rfl⟩
  | x :: u, v, _, .cons (a := a) h hs => by
    obtain ⟨as, bs, h1, h2, rfl⟩ := forall₂_split u v _ hs
    exact ⟨a :: as, bs, .cons h h1, h2, rfl⟩

theorem AtPositions.lt {pop sel : List I} {is : List Nat} (h : AtPositions pop sel is) : ∀ i ∈ is, i < pop.length := by
  unfold AtPositions at h
  induction h with
  | nil => simp
  | cons hx _ ih =>
    intro i hi
    rcases List.mem_cons.1 hi with rfl | hi
    · exact (List.getElem?_eq_some_iff.1 hx).1
    · exact ih i hi

/-- **C129, Tournament.** The possible selections are exactly those of C32: each selected individual is a best
one among `max 1 ⌊factor·n⌋` individuals at different positions, and every such individual is possible in every
place. -/
theorem C129_tournament (hR : R.Full) {factor : K} {count : Nat} {pop sel : List I} (hf : factor ≤ 1)
    (h0 : 0 < pop.length) (hnum : ∀ x ∈ pop, (T.fitness x).IsNum) :
    MayYield (selTournament R T factor count pop) sel ↔ sel.length = count ∧
      ∀ w ∈ sel, ∃ (is : List Nat) (contenders : List I),
        is.length = max (Nat.floor ((pop.length : K) * factor)) 1 ∧ is.Nodup ∧
        AtPositions pop contenders is ∧ w ∈ contenders ∧
        ∀ x ∈ contenders, Fl.Le (T.fitness x) (T.fitness w) := by
  have := hR.inhabited
  refine may_iff (C32_tournament R T hf h0 hnum) ?_
  rintro sel ⟨h1, h2⟩
  unfold selTournament
  refine CanYield.replicate h1 fun w hw => ?_
  obtain ⟨is, cs, c1, c2, c3, c4, c5⟩ := h2 w hw
  obtain ⟨pre, post, rfl⟩ := List.append_of_mem c4
  obtain ⟨ipre, irest, hipre, hirest, rfl⟩ : ∃ a b, List.Forall₂ (fun i x => pop[i]? = some x) a pre ∧
      List.Forall₂ (fun i x => pop[i]? = some x) b (w :: post) ∧ is = a ++ b := by
    exact forall₂_split _ _ _ c3
  cases hirest with
  | @cons k _ ipost _ hk hpost =>
    have hat : AtPositions pop (pre ++ post ++ [w]) (ipre ++ ipost ++ [k]) :=
      AtPositions.append (AtPositions.append hipre hpost) (.cons hk .nil)
    have hperm : (ipre ++ ipost ++ [k]).Perm (ipre ++ k :: ipost) :=
      (List.perm_append_singleton k _).trans List.perm_middle.symm
    unfold tournamentOne
    have hlt := hat.lt
    refine (hR.indexSample (l := ipre ++ ipost ++ [k]) (by rw [hperm.length_eq, c1]; rfl) (hperm.nodup_iff.2 c2) hlt
      (tournamentSize_bounds hf h0).2).bind ?_
    rw [forEach_idx_can hat, pure_bind]
    have hmem : ∀ x ∈ pre ++ w :: post, x ∈ pop := AtPositions.mem c3
    refine CanYield.ofExcept (findMax_last T (hnum w (hmem w (by simp))) ?_ ?_)
    · intro x hx
      refine hnum x (hmem x ?_)
      simp only [List.mem_append, List.mem_cons] at hx ⊢
      tauto
    · intro x hx
      refine c5 x ?_
      simp only [List.mem_append, List.mem_cons] at hx ⊢
      tauto

end tournament

section roulette
variable {G K I : Type} [Field K] [LinearOrder K] [IsStrictOrderedRing K] {R : Rng G K} (fit : I → K)

theorem filterMap_draws {f : K → Option I} {P : K → Prop} : ∀ {sel : List I},
    (∀ x ∈ sel, ∃ u, P u ∧ f u = some x) → ∃ us : List K, us.length = sel.length ∧ (∀ u ∈ us, P u) ∧
      us.filterMap f = sel
  | [], _ => ⟨[], rfl, by simp, rfl⟩
  | x :: sel, h => by
    obtain ⟨us, h1, h2, h3⟩ := filterMap_draws (sel := sel) fun y hy => h y (by simp [hy])
    obtain ⟨u, hu, hux⟩ := h x (by simp)
    refine ⟨u :: us, by simp [h1], ?_, ?_⟩
    · intro v hv
      rcases List.mem_cons.1 hv with rfl | hv
      · exact hu
      · exact h2 v hv
    · rw [List.filterMap_cons_some (f := f) hux, h3]

theorem roulettePick_zero {x : I} {xs : List I} (h : 0 ≤ fit x) : roulettePick fit 0 0 (x :: xs) = some x := by
  unfold roulettePick
  rw [if_pos (by linarith)]

theorem roulettePick_reaches {x : I} (hx : 0 < fit x) : ∀ (pre post : List I) (s : K), (∀ y ∈ pre, 0 ≤ fit y) →
    ∀ t, s + (pre.map fit).sum < t → t ≤ s + (pre.map fit).sum + fit x →
      roulettePick fit t s (pre ++ x :: post) = some x
  | [], post, s, _, t, h1, h2 => by
    simp only [List.map_nil, List.sum_nil, add_zero] at h1 h2
    rw [List.nil_append]
    unfold roulettePick
    rw [if_pos h2]
  | y :: pre, post, s, hp, t, h1, h2 => by
    simp only [List.map_cons, List.sum_cons] at h1 h2
    have hs : 0 ≤ (pre.map fit).sum := by
      clear h1 h2
      induction pre with
      | nil => simp
      | cons z pre ih =>
        simp only [List.map_cons, List.sum_cons]
        have := ih fun w hw => hp w (by simp at hw ⊢; tauto)
        have := hp z (by simp)
        linarith
    rw [List.cons_append]
    unfold roulettePick
    rw [if_neg (by linarith)]
    exact roulettePick_reaches hx pre post (s + fit y) (fun z hz => hp z (by simp [hz])) t (by linarith) (by linarith)

/-- **C129, RouletteWheel.** With non-negative fitness values of positive total the possible selections are
exactly the lists of `count` members each of which has positive fitness or is the first of the population (which
a draw of exactly 0 selects even with fitness 0). -/
theorem C129_roulette (hR : R.Full) {count : Nat} {pop sel : List I} (hf : ∀ x ∈ pop, 0 ≤ fit x)
    (ht : 0 < (pop.map fit).sum) :
    MayYield (selRoulette R fit count pop) sel ↔ sel.length = count ∧
      ∀ x ∈ sel, x ∈ pop ∧ (0 < fit x ∨ pop.head? = some x) := by
  have := hR.inhabited
  have h0 : pop ≠ [] := by rintro rfl; simp at ht
  refine may_iff (Q := fun sel : List I => sel.length = count ∧ ∀ x ∈ sel, x ∈ pop ∧ (0 < fit x ∨ pop.head? = some x)) ?_ ?_
  · intro g
    obtain ⟨sel, g', e1, -, h2⟩ := C29_roulette (R := R) fit (count := count) (pop := pop) g
    obtain ⟨sel', g'', e2, h3⟩ := C29_roulette_exact_count (R := R) fit (count := count) h0 ht.le g
    obtain ⟨rfl, rfl⟩ : sel' = sel ∧ g'' = g' := by rw [e1] at e2; cases e2; exact ⟨rfl, rfl⟩
    refine ⟨sel', g'', e1, h3, fun x hx => ?_⟩
    obtain ⟨hx1, u, hu0, hu1, hu⟩ := h2 x hx
    refine ⟨hx1, ?_⟩
    rcases (hf x hx1).lt_or_eq with h | h
    · exact .inl h
    · right
      rcases hu0.lt_or_eq with h' | h'
      · exact absurd hu (C29_zero_weight fit h.symm (mul_pos ht h'))
      · subst h'
        obtain ⟨pre, post, p1, p2, p3⟩ := hu
        cases pre with
        | nil => rw [p1]; rfl
        | cons y pre =>
          exfalso
          have := p3 [] y pre rfl
          simp at this
          exact absurd this (not_lt.2 (hf y (by rw [p1]; simp)))
  · rintro sel ⟨h1, h2⟩
    unfold selRoulette
    obtain ⟨us, u1, u2, u3⟩ := filterMap_draws (P := fun u : K => 0 ≤ u ∧ u < 1) (sel := sel)
      (f := fun u => roulettePick fit ((pop.map fit).sum * u) 0 pop) (by
        intro x hx
        obtain ⟨hx1, hx2⟩ := h2 x hx
        by_cases hhead : pop.head? = some x
        · refine ⟨0, ⟨le_rfl, one_pos⟩, ?_⟩
          rw [mul_zero]
          cases pop with
          | nil => simp at hhead
          | cons y pop => simp at hhead; subst hhead; exact roulettePick_zero fit (hf y (by simp))
        · have hpos := hx2.resolve_right hhead
          obtain ⟨pre, post, rfl⟩ := List.append_of_mem hx1
          have hpre : ∀ y ∈ pre, 0 ≤ fit y := fun y hy => hf y (by simp [hy])
          have hs : ∀ l : List I, (∀ y ∈ l, 0 ≤ fit y) → 0 ≤ (l.map fit).sum := by
            intro l hl
            induction l with
            | nil => simp
            | cons z l ih =>
              simp only [List.map_cons, List.sum_cons]
              have := ih fun w hw => hl w (by simp [hw])
              have := hl z (by simp)
              linarith
          have hspre := hs pre hpre
          have hspost := hs post fun y hy => hf y (by simp [hy])
          have htot : ((pre ++ x :: post).map fit).sum = (pre.map fit).sum + fit x + (post.map fit).sum := by
            simp only [List.map_append, List.map_cons, List.sum_append, List.sum_cons]; ring
          refine ⟨((pre.map fit).sum + fit x / 2) / ((pre ++ x :: post).map fit).sum, ⟨?_, ?_⟩, ?_⟩
          · exact div_nonneg (by linarith) ht.le
          · rw [div_lt_one ht, htot]; linarith
          · rw [mul_div_cancel₀ _ ht.ne']
            exact roulettePick_reaches fit hpos pre post 0 hpre _ (by linarith) (by linarith))
    refine CanYield.bind (CanYield.replicate (by rw [u1, h1]) fun u hu => hR.genUnit (u2 u hu).1 (u2 u hu).2) ?_
    rw [u3]
    exact .pure

end roulette

/-! ## Population generators -/

section discrete
variable {G U I A : Type} [LinearOrder U] [Zero U] [One U] {R : Rng G U}

theorem map_ofCh_can {X : ChromOps I A} {m : M G (List A)} {Q : List A → Prop} (hQ : ∀ c, Q c → CanYield m c)
    {count : Nat} {chs : List (List A)} (hl : chs.length = count) (h : ∀ c ∈ chs, Q c) :
    CanYield (M.replicate count (do let c ← m; pure (X.ofCh c))) (chs.map X.ofCh) := by
  refine CanYield.replicate (by simp [hl]) fun i hi => ?_
  obtain ⟨c, hc, rfl⟩ := List.mem_map.1 hi
  exact (hQ c (h c hc)).bind_pure

theorem map_ofCh_returns {X : ChromOps I A} {m : M G (List A)} {Q : List A → Prop} (h : Returns m Q) (count : Nat) :
    Returns (M.replicate count (do let c ← m; pure (X.ofCh c))) fun pop =>
      ∃ chs : List (List A), chs.length = count ∧ (∀ c ∈ chs, Q c) ∧ pop = chs.map X.ofCh := by
  refine (Returns.replicate (Q := fun i => ∃ c, Q c ∧ i = X.ofCh c)
    (h.bind fun c hc => Returns.pure ⟨c, hc, rfl⟩) count).mono ?_
  rintro pop ⟨h1, h2⟩
  subst h1
  induction pop with
  | nil => exact ⟨[], rfl, by simp, rfl⟩
  | cons i pop ih =>
    obtain ⟨chs, c1, c2, c3⟩ := ih fun j hj => h2 j (by simp [hj])
    obtain ⟨c, hc, rfl⟩ := h2 i (by simp)
    refine ⟨c :: chs, by simp [c1], ?_, by rw [c3]; rfl⟩
    intro d hd
    rcases List.mem_cons.1 hd with rfl | hd
    · exact hc
    · exact c2 d hd

/-- **C129, BitStrings.** The possible populations are exactly the `count` fresh individuals with arbitrary bit
strings of the given length. -/
theorem C129_bit_strings (hR : R.Full) (X : ChromOps I Bool) {dim count : Nat} {pop : List I} :
    MayYield (bitStringsGenerate R X dim count) pop ↔
      ∃ chs : List (List Bool), chs.length = count ∧ (∀ c ∈ chs, c.length = dim) ∧ pop = chs.map X.ofCh := by
  have := hR.inhabited
  refine may_iff (map_ofCh_returns (Q := fun c => c.length = dim)
    ((Returns.replicate (Q := fun _ => True) (fun g => ⟨_, _, rfl, trivial⟩) dim).mono fun c hc => hc.1) count) ?_
  rintro pop ⟨chs, h1, h2, rfl⟩
  exact map_ofCh_can (Q := fun c => c.length = dim)
    (fun c hc => CanYield.replicate hc fun b _ => hR.genCoin b) h1 h2

theorem perm_lift {α β : Type} (f : α → β) {c d : List β} (h : c.Perm d) : ∀ l : List α, d = l.map f →
    ∃ l' : List α, l'.Perm l ∧ l'.map f = c := by
  induction h with
  | nil =>
    intro l hl
    exact ⟨[], by rw [List.map_eq_nil_iff.1 hl.symm], rfl⟩
  | cons x _ ih =>
    intro l hl
    obtain ⟨a, l1, rfl, ha, hl1⟩ := List.map_eq_cons_iff.1 hl.symm
    obtain ⟨l', p1, p2⟩ := ih l1 hl1.symm
    exact ⟨a :: l', p1.cons a, by simp [p2, ha]⟩
  | swap x y t =>
    intro l hl
    obtain ⟨a, l1, rfl, ha, hl1⟩ := List.map_eq_cons_iff.1 hl.symm
    obtain ⟨b, l2, rfl, hb, hl2⟩ := List.map_eq_cons_iff.1 hl1
    exact ⟨b :: a :: l2, List.Perm.swap _ _ _, by simp [ha, hb, hl2]⟩
  | trans _ _ ih1 ih2 =>
    intro l hl
    obtain ⟨l', p1, p2⟩ := ih2 l hl
    obtain ⟨l'', q1, q2⟩ := ih1 l' p2.symm
    exact ⟨l'', q1.trans p1, q2⟩

theorem shuffled_can (hR : R.Full) {genes c : List A} (h : c.Perm genes) : CanYield (shuffled R genes) c := by
  obtain ⟨order, h1, h2⟩ : ∃ order : List Nat, order.Perm (List.range genes.length) ∧
      order.filterMap (genes[·]?) = c := by
    have hm : (List.range genes.length).map (genes[·]?) = genes.map some := by
      apply List.ext_getElem?
      intro k
      by_cases hk : k < genes.length
      · simp [hk]
      · simp [hk]
    obtain ⟨order, o1, o2⟩ := perm_lift (genes[·]?) (h.map some) _ hm.symm
    refine ⟨order, o1, ?_⟩
    have : order.filterMap (genes[·]?) = (order.map (genes[·]?)).filterMap id := by
      rw [List.filterMap_map]; rfl
    rw [this, o2]
    simp
  unfold shuffled
  refine (hR.genShuffle h1).bind ?_
  rw [forEach_idx_eq genes order fun i hi => by simpa using h1.subset hi, h2]
  exact .pure

/-- **C129, RandomPermutations.** The possible populations are exactly the `count` fresh individuals with
arbitrary orderings of the genes. -/
theorem C129_random_permutations (hR : R.Full) (X : ChromOps I A) {genes : List A} {count : Nat} {pop : List I} :
    MayYield (permutationsGenerate R X genes count) pop ↔
      ∃ chs : List (List A), chs.length = count ∧ (∀ c ∈ chs, c.Perm genes) ∧ pop = chs.map X.ofCh := by
  have := hR.inhabited
  refine may_iff (map_ofCh_returns (Q := fun c => c.Perm genes) (shuffled_returns R genes) count) ?_
  rintro pop ⟨chs, h1, h2, rfl⟩
  exact map_ofCh_can (Q := fun c => c.Perm genes) (fun c hc => shuffled_can hR hc) h1 h2

end discrete

section points
variable {G K I : Type} [Field K] [LinearOrder K] [IsStrictOrderedRing K] {R : Rng G K}

/-- **C129, RandomPoints.** With constraints that are proper ranges the possible populations are exactly the
`count` fresh individuals whose coordinates are arbitrary points of the half-open ranges `[lo, hi)`. -/
theorem C129_random_points (hR : R.Full) (X : ChromOps I K) {dim count : Nat} {cs : List (K × K)} {pop : List I}
    (hcs : ∀ c ∈ cs, c.1 < c.2) {rp : RandomPoints K} {g0 g1 : G}
    (hnew : RandomPoints.withConstraints dim cs g0 = .ok (rp, g1)) :
    MayYield (rp.generate R X count) pop ↔ ∃ chs : List (List K), chs.length = count ∧
      (∀ p ∈ chs, List.Forall₂ (fun c x => c.1 ≤ x ∧ x < c.2) cs p) ∧ pop = chs.map X.ofCh := by
  have := hR.inhabited
  have hd := ((C37_random_points_new dim cs g0).1 ⟨_, hnew⟩).2
  have hrp : rp = ⟨dim, cs⟩ := by
    unfold RandomPoints.withConstraints at hnew
    obtain ⟨_, _, _, h⟩ := M.bind_ok_iff.1 hnew
    obtain ⟨_, _, _, h⟩ := M.bind_ok_iff.1 h
    have h := M.pure_ok_iff.1 h
    cases h; rfl
  subst hrp
  refine may_iff' (Q := fun pop => ∃ chs : List (List K), chs.length = count ∧
      (∀ p ∈ chs, List.Forall₂ (fun c x => c.1 ≤ x ∧ x < c.2) cs p) ∧ pop = chs.map X.ofCh) ?_ ?_
  · unfold RandomPoints.generate
    refine Returns.bind (R.onClone_returns (generateWithConstraints_returns R hd)) fun pts hpts => Returns.pure ?_
    refine ⟨pts, hpts.1, fun p hp => ?_, rfl⟩
    have h : List.Forall₂ Within cs p := (hpts.2 p hp).2
    clear * - h hcs
    induction h with
    | nil => exact .nil
    | cons hx _ ih =>
      have h1 := hcs _ (List.mem_cons_self)
      exact .cons ⟨(hx.1 h1.le).1, hx.2 h1⟩ (ih fun c hc => hcs c (by simp [hc]))
  · rintro pop ⟨chs, h1, h2, rfl⟩
    unfold RandomPoints.generate
    refine MayYield.bind_pure (f := fun pts : List (List K) => pts.map X.ofCh) (MayYield.onClone (CanYield.may ?_))
    unfold generateWithConstraints
    refine (CanYield.assert (by simp [hd])).bind ?_
    refine CanYield.replicate h1 fun p hp => CanYield.forEach ?_
    have h := h2 p hp
    clear * - h hcs hR
    induction h with
    | nil => exact .nil
    | @cons c x cs p hx _ ih =>
      have hc := hcs c (by simp)
      have hpos : 0 < c.2 - c.1 := sub_pos.2 hc
      refine .cons ?_ (ih fun c hc => hcs c (by simp [hc]))
      unfold pointCoord
      have := (hR.genUnit (u := (x - c.1) / (c.2 - c.1)) (div_nonneg (by linarith [hx.1]) hpos.le)
        (by rw [div_lt_one hpos]; linarith [hx.2])).bind_pure (f := fun u => (c.2 - c.1) * u + c.1)
      rw [mul_div_cancel₀ _ hpos.ne'] at this
      simpa using this

end points

/-! Non-vacuity: the worst of three individuals can be selected by Rank selection; a given population of points
can be generated. -/

example : MayYield (selRank (scripted false) (Individual.trait (List Nat) ℚ) 2
    [⟨[0], .num 1⟩, ⟨[1], .num 5⟩, ⟨[2], .num 3⟩]) [⟨[0], .num 1⟩, ⟨[0], .num 1⟩] :=
  (C129_rank _ (scripted_full false) (by decide)).2 ⟨rfl, by simp⟩

example : MayYield (bitStringsGenerate (scripted false) (Individual.chromOps (K := ℚ) Bool .nan) 2 2)
    [⟨[true, false], .nan⟩, ⟨[false, false], .nan⟩] :=
  (C129_bit_strings (scripted_full false) _).2 ⟨[[true, false], [false, false]], rfl, by simp, rfl⟩

section instances
abbrev exPopM : List (Individual (List Nat) ℚ) := [⟨[0], .num 1⟩, ⟨[1], .num 5⟩, ⟨[2], .num 3⟩]
example : MayYield (selRandom (scripted false) 2 exPopM) [⟨[2], .num 3⟩, ⟨[2], .num 3⟩] :=
  (C129_random (scripted_full false) (by decide)).2 ⟨rfl, by simp⟩
example : MayYield (selUniqueRandom (scripted false) 2 exPopM) [⟨[2], .num 3⟩, ⟨[0], .num 1⟩] :=
  (C129_unique_random (scripted_full false) (by decide)).2
    ⟨[2, 0], rfl, by decide, by simp [AtPositions]⟩
example : MayYield (selRankR (scripted false) (1 / 2) 2 exPopM) [⟨[0], .num 1⟩, ⟨[0], .num 1⟩] :=
  (C129_rank_r (scripted_full false) (by norm_num) (by decide)).2 ⟨rfl, by simp⟩
example : MayYield (selTournament (scripted false) (Individual.trait (List Nat) ℚ) (2 / 3) 1 exPopM) [⟨[2], .num 3⟩] := by
  refine (C129_tournament _ (scripted_full false) (by norm_num) (by decide) ?_).2 ⟨rfl, ?_⟩
  · intro x hx; fin_cases hx <;> trivial
  · intro w hw; obtain rfl := List.mem_singleton.1 hw
    refine ⟨[0, 2], [⟨[0], .num 1⟩, ⟨[2], .num 3⟩], ?_, by decide, by simp [AtPositions], by simp, ?_⟩
    · norm_num
    · intro x hx; fin_cases hx
      · show (1 : ℚ) ≤ 3; norm_num
      · show (3 : ℚ) ≤ 3; norm_num
example : MayYield (selRoulette (scripted false) (fun i => match i.fitness with | .num q => q | .nan => 0) 2 exPopM)
    [⟨[2], .num 3⟩, ⟨[2], .num 3⟩] := by
  refine (C129_roulette _ (scripted_full false) ?_ ?_).2 ⟨rfl, ?_⟩
  · intro x hx; fin_cases hx <;> norm_num
  · norm_num
  · intro x hx; fin_cases hx <;> exact ⟨by simp, .inl (by norm_num)⟩
example : MayYield (permutationsGenerate (scripted false) (Individual.chromOps (K := ℚ) Nat .nan) [1, 2, 3] 2)
    [⟨[3, 1, 2], .nan⟩, ⟨[1, 2, 3], .nan⟩] :=
  (C129_random_permutations (scripted_full false) _).2 ⟨[[3, 1, 2], [1, 2, 3]], rfl, by decide, rfl⟩
example : MayYield ((⟨2, [(0, 1), (-1, 1)]⟩ : RandomPoints ℚ).generate (scripted false) (Individual.chromOps (K := ℚ) ℚ .nan) 1)
    [⟨[1 / 2, -1 / 2], .nan⟩] := by
  refine (C129_random_points (scripted_full false) _ (dim := 2) (cs := [(0, 1), (-1, 1)]) ?_ (g0 := []) (g1 := []) rfl).2
    ⟨[[1 / 2, -1 / 2]], rfl, ?_, rfl⟩
  · intro c hc; fin_cases hc <;> norm_num
  · intro p hp; obtain rfl := List.mem_singleton.1 hp
    exact .cons (by norm_num) (.cons (by norm_num) .nil)
end instances

end Ecrs.Ga
