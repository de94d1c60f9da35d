import Verif.Ga.Selection
import Verif.Ga.CrossoverLemmas
import Verif.CounterRng
import Mathlib.Algebra.Order.BigOperators.Group.List
import Mathlib.Tactic.Linarith
import Mathlib.Tactic.Ring
import Mathlib.Tactic.FieldSimp
import Mathlib.Data.Rat.Floor

/-!
# Properties C28–C34 (and the selection half of C08): selection operators
-/

set_option linter.unusedSectionVars false

namespace Ecrs.Ga
open Ecrs

/-- `sel` consists of population members, one per listed position. -/
def AtPositions {I : Type} (pop sel : List I) (positions : List Nat) : Prop :=
  List.Forall₂ (fun i x => pop[i]? = some x) positions sel

theorem AtPositions.mem {I : Type} {pop sel : List I} {is : List Nat} (h : AtPositions pop sel is) :
    ∀ x ∈ sel, x ∈ pop := by
  unfold AtPositions at h
  induction h with
  | nil => simp
  | cons hx _ ih =>
    intro y hy
    rcases List.mem_cons.1 hy with rfl | hy
    · exact List.mem_of_getElem? hx
    · exact ih y hy

theorem AtPositions.length {I : Type} {pop sel : List I} {is : List Nat} (h : AtPositions pop sel is) :
    sel.length = is.length := (List.Forall₂.length_eq h).symm

section order
variable {G U I C K : Type} [LinearOrder U] [Zero U] [One U] (R : Rng G U)
variable [LinearOrder K] (T : IndTrait I C K)

theorem forEach_idx_returns {pop : List I} {is : List Nat} (h : ∀ i ∈ is, i < pop.length) :
    Returns (M.forEach (idx pop) is : M G (List I)) fun sel => AtPositions pop sel is := by
  refine Returns.forEach is fun i hi => ?_
  rw [idx_of_lt (h i hi)]
  exact Returns.pure (List.getElem?_eq_getElem (h i hi))

theorem forEach_idx_ifReturns {pop : List I} {is : List Nat} :
    IfReturns (M.forEach (idx pop) is : M G (List I)) fun sel => AtPositions pop sel is :=
  IfReturns.forEach is fun _ _ => idx_ifReturns

/-! ## C28 -/

/-- **C28, Random.** From a non-empty population Random selection returns exactly `count` members. -/
theorem C28_random {count : Nat} {pop : List I} (h : 0 < pop.length) :
    Returns (selRandom R count pop) fun sel => sel.length = count ∧ ∀ x ∈ sel, x ∈ pop := by
  unfold selRandom
  refine Returns.bind (Returns.assert (by simpa using h)) fun _ _ => ?_
  refine Returns.bind (R.onClone_returns (Returns.replicate (R.genRange_returns h) count))
    fun is his => ?_
  exact (forEach_idx_returns fun i hi => (his.2 i hi).2).mono fun sel hs =>
    ⟨by rw [hs.length, his.1], hs.mem⟩

/-- **C28, Random, empty population.** Panics, even for `count = 0`. -/
theorem C28_random_empty {count : Nat} : Panics (selRandom R count ([] : List I)) :=
  Panics.bind_left (Panics.assert (by simp))

theorem rankOne_returns {pop : List I} (h : 0 < pop.length) :
    Returns (rankOne R T pop) fun x => ∃ (i j : Nat) (p q : I), pop[i]? = some p ∧ pop[j]? = some q ∧
      x = if Fl.ge (T.fitness p) (T.fitness q) then p else q := by
  unfold rankOne
  refine Returns.bind (R.genRange_returns h) fun i hi => ?_
  rw [idx_of_lt hi.2, pure_bind]
  refine Returns.bind (R.genRange_returns h) fun j hj => ?_
  rw [idx_of_lt hj.2, pure_bind]
  exact Returns.pure ⟨i, j, _, _, List.getElem?_eq_getElem hi.2, List.getElem?_eq_getElem hj.2, rfl⟩

/-- **C28, Rank.** Exactly `count` members; each is the fitter-by-largest-value of two members drawn
(the second one when either fitness is NaN). -/
theorem C28_rank {count : Nat} {pop : List I} (h : 0 < pop.length) :
    Returns (selRank R T count pop) fun sel => sel.length = count ∧ ∀ x ∈ sel, x ∈ pop ∧
      ∃ p ∈ pop, ∃ q ∈ pop, (x = p ∨ x = q) ∧
        ((T.fitness p).IsNum → (T.fitness q).IsNum →
          Fl.Le (T.fitness p) (T.fitness x) ∧ Fl.Le (T.fitness q) (T.fitness x)) := by
  refine (Returns.replicate (rankOne_returns R T h) count).mono ?_
  rintro sel ⟨h1, h2⟩
  refine ⟨h1, fun x hx => ?_⟩
  obtain ⟨i, j, p, q, hp, hq, rfl⟩ := h2 x hx
  have hp' := List.mem_of_getElem? hp
  have hq' := List.mem_of_getElem? hq
  by_cases hge : Fl.ge (T.fitness p) (T.fitness q) = true
  · rw [if_pos hge]
    refine ⟨hp', p, hp', q, hq', .inl rfl, fun np nq => ⟨Fl.le_refl np, ?_⟩⟩
    cases hfp : T.fitness p <;> cases hfq : T.fitness q <;> rw [hfp, hfq] at hge <;>
      simp_all [Fl.ge, Fl.Le, Fl.IsNum]
  · rw [if_neg hge]
    refine ⟨hq', p, hp', q, hq', .inr rfl, fun np nq => ⟨?_, Fl.le_refl nq⟩⟩
    cases hfp : T.fitness p <;> cases hfq : T.fitness q <;> rw [hfp, hfq] at hge <;>
      simp_all [Fl.ge, Fl.Le, Fl.IsNum]
    exact le_of_lt hge

/-- **C28, RankR.** Exactly `count` members. -/
theorem C28_rank_r {r : U} {count : Nat} {pop : List I} (h : 0 < pop.length) :
    Returns (selRankR R r count pop) fun sel => sel.length = count ∧ ∀ x ∈ sel, x ∈ pop := by
  unfold selRankR
  refine Returns.bind (Returns.assert (by simpa using h)) fun _ _ => ?_
  refine (Returns.replicate (Q := fun x => x ∈ pop) ?_ count)
  unfold rankROne
  refine Returns.bind (R.genRange_returns h) fun i hi => ?_
  rw [idx_of_lt hi.2, pure_bind]
  refine Returns.bind (R.genRange_returns h) fun j hj => ?_
  rw [idx_of_lt hj.2, pure_bind]
  refine Returns.bind R.genUnit_returns fun u _ => Returns.pure ?_
  split <;> exact List.getElem_mem _

/-- **C28, RankR, constructor.** `r` outside `[0, 1]` is rejected, inside it is accepted. -/
theorem C28_rank_r_new (r : U) :
    ((0 ≤ r ∧ r ≤ 1) → Returns (rankRNew r : M G U) fun x => x = r) ∧
    (¬ (0 ≤ r ∧ r ≤ 1) → Panics (rankRNew r : M G U)) := by
  constructor
  · rintro ⟨h1, h2⟩
    exact Returns.bind (Returns.assert (by simp [h1, h2])) fun _ _ => Returns.pure rfl
  · intro h
    refine Panics.bind_left (Panics.assert ?_)
    by_cases h1 : 0 ≤ r
    · have : ¬ r ≤ 1 := fun h2 => h ⟨h1, h2⟩
      simp [this]
    · simp [h1]

/-! ## C31: no position twice -/

/-- **C31, UniqueRandom.** With `count ≤ n` it never panics and selects `count` pairwise distinct
positions. -/
theorem C31_unique_random {count : Nat} {pop : List I} (h : count ≤ pop.length) :
    Returns (selUniqueRandom R count pop) fun sel =>
      ∃ is : List Nat, is.length = count ∧ is.Nodup ∧ AtPositions pop sel is := by
  unfold selUniqueRandom
  refine Returns.bind (R.indexSample_returns h) fun is his => ?_
  exact (forEach_idx_returns his.2.2).mono fun sel hs => ⟨is, his.1, his.2.1, hs⟩

/-- **C31, UniqueRandom, panics** exactly when more individuals are requested than exist. -/
theorem C31_unique_random_panics_iff {count : Nat} {pop : List I} (g : G) :
    (∃ e, selUniqueRandom R count pop g = .error e) ↔ pop.length < count := by
  constructor
  · rintro ⟨e, he⟩
    by_contra hc
    obtain ⟨a, w, h1, -⟩ := C31_unique_random R (count := count) (pop := pop) (by omega) g
    rw [h1] at he; cases he
  · intro h
    exact Panics.bind_left (R.indexSample_panics h) g

/-- **C31/C28, Boltzmann.** Whenever it returns it has selected `count` pairwise distinct positions. -/
theorem C31_boltzmann (RF : FRng G U) (weight : I → U) {count : Nat} {pop : List I} :
    IfReturns (selBoltzmann RF weight count pop) fun sel =>
      ∃ is : List Nat, is.length = count ∧ is.Nodup ∧ AtPositions pop sel is := by
  unfold selBoltzmann
  refine IfReturns.bind RF.genWeighted_ifReturns fun is his => ?_
  exact forEach_idx_ifReturns.mono fun sel hs => ⟨is, his.1, his.2.1, hs⟩

/-- **C28, UniqueRandom and Boltzmann.** Exactly `count` members. -/
theorem C28_unique_random_boltzmann (RF : FRng G U) (weight : I → U) {count : Nat} {pop : List I} :
    IfReturns (selUniqueRandom R count pop)
      (fun sel => sel.length = count ∧ ∀ x ∈ sel, x ∈ pop) ∧
    IfReturns (selBoltzmann RF weight count pop)
      (fun sel => sel.length = count ∧ ∀ x ∈ sel, x ∈ pop) := by
  constructor
  · by_cases h : count ≤ pop.length
    · refine (C31_unique_random R h).ifReturns.mono ?_
      rintro sel ⟨is, h1, -, h2⟩
      exact ⟨by rw [h2.length, h1], h2.mem⟩
    · intro g a g' hg
      obtain ⟨e, he⟩ := (C31_unique_random_panics_iff R (count := count) (pop := pop) g).2 (by omega)
      rw [he] at hg; cases hg
  · refine (C31_boltzmann RF weight).mono ?_
    rintro sel ⟨is, h1, -, h2⟩
    exact ⟨by rw [h2.length, h1], h2.mem⟩

/-- **C28, Boltzmann, constructor.** Accepts exactly `alpha ∈ [0,1]`, `temp_0 ∈ [5,100]`. -/
theorem C28_boltzmann_new (five hundred alpha temp0 : U) (g : G) :
    (∃ r, (boltzmannNew five hundred alpha temp0 : M G _) g = .ok r) ↔
      (0 ≤ alpha ∧ alpha ≤ 1) ∧ (five ≤ temp0 ∧ temp0 ≤ hundred) := by
  unfold boltzmannNew
  constructor
  · rintro ⟨r, hr⟩
    obtain ⟨_, g1, h1, h2⟩ := M.bind_ok_iff.1 hr
    obtain ⟨_, g2, h3, h4⟩ := M.bind_ok_iff.1 h2
    have e1 := (M.assert_ok_iff.1 h1).1
    have e2 := (M.assert_ok_iff.1 h3).1
    simp only [Bool.and_eq_true, decide_eq_true_eq] at e1 e2
    exact ⟨e1, e2⟩
  · rintro ⟨⟨h1, h2⟩, h3, h4⟩
    refine ⟨((alpha, temp0), g), ?_⟩
    simp only [h1, h2, h3, h4, decide_true, Bool.and_self]
    rfl

/-! ## C32: Tournament -/

theorem maxFrom_ok : ∀ (xs : List I) (b : I), (T.fitness b).IsNum → (∀ x ∈ xs, (T.fitness x).IsNum) →
    ∃ m, maxFrom T b xs = .ok m ∧ (m = b ∨ m ∈ xs) ∧ Fl.Le (T.fitness b) (T.fitness m) ∧
      ∀ x ∈ xs, Fl.Le (T.fitness x) (T.fitness m)
  | [], b, hb, _ => ⟨b, rfl, .inl rfl, Fl.le_refl hb, by simp⟩
  | x :: xs, b, hb, hx => by
    have hx0 := hx x (by simp)
    have hxs : ∀ y ∈ xs, (T.fitness y).IsNum := fun y hy => hx y (by simp [hy])
    cases hfb : T.fitness b with
    | nan => rw [hfb] at hb; exact hb.elim
    | num vb =>
      cases hfx : T.fitness x with
      | nan => rw [hfx] at hx0; exact hx0.elim
      | num vx =>
        have hcmp : cmpInd T b x = .ok (compare vb vx) := by simp [cmpInd, hfb, hfx, Fl.partialCmp]
        unfold maxFrom
        rw [hcmp]
        rcases lt_trichotomy vb vx with hlt | heq | hgt
        · rw [compare_lt_iff_lt.2 hlt]
          obtain ⟨m, h1, h2, h3, h4⟩ := maxFrom_ok xs x hx0 hxs
          have hbx : Fl.Le (T.fitness b) (T.fitness x) := by rw [hfb, hfx]; exact le_of_lt hlt
          refine ⟨m, h1, ?_, ?_, ?_⟩
          · rcases h2 with rfl | h2
            · exact .inr (by simp)
            · exact .inr (by simp [h2])
          · rw [← hfb]; exact hbx.trans h3
          · intro y hy; rcases List.mem_cons.1 hy with rfl | hy
            · exact h3
            · exact h4 y hy
        · subst heq
          rw [compare_eq_iff_eq.2 rfl]
          obtain ⟨m, h1, h2, h3, h4⟩ := maxFrom_ok xs x hx0 hxs
          refine ⟨m, h1, ?_, ?_, ?_⟩
          · rcases h2 with rfl | h2
            · exact .inr (by simp)
            · exact .inr (by simp [h2])
          · rw [← hfx]; exact h3
          · intro y hy; rcases List.mem_cons.1 hy with rfl | hy
            · exact h3
            · exact h4 y hy
        · rw [compare_gt_iff_gt.2 hgt]
          obtain ⟨m, h1, h2, h3, h4⟩ := maxFrom_ok xs b hb hxs
          have hxb : Fl.Le (T.fitness x) (T.fitness b) := by rw [hfb, hfx]; exact le_of_lt hgt
          refine ⟨m, h1, ?_, ?_, ?_⟩
          · rcases h2 with rfl | h2
            · exact .inl rfl
            · exact .inr (by simp [h2])
          · rw [← hfb]; exact h3
          · intro y hy; rcases List.mem_cons.1 hy with rfl | hy
            · exact hxb.trans h3
            · exact h4 y hy

theorem findMax_ok {xs : List I} (h0 : xs ≠ []) (h : ∀ x ∈ xs, (T.fitness x).IsNum) :
    ∃ m, findMax T xs = .ok m ∧ m ∈ xs ∧ ∀ x ∈ xs, Fl.Le (T.fitness x) (T.fitness m) := by
  cases xs with
  | nil => exact absurd rfl h0
  | cons x xs =>
    obtain ⟨m, h1, h2, h3, h4⟩ := maxFrom_ok T xs x (h x (by simp)) fun y hy => h y (by simp [hy])
    refine ⟨m, h1, ?_, ?_⟩
    · rcases h2 with rfl | h2
      · simp
      · simp [h2]
    · intro y hy; rcases List.mem_cons.1 hy with rfl | hy
      · exact h3
      · exact h4 y hy

end order

section arith
variable {G K I C : Type} [Field K] [LinearOrder K] [IsStrictOrderedRing K]

section tournament
variable [FloorSemiring K] {F : Type} [LinearOrder F] (R : Rng G K) (T : IndTrait I C F)

theorem tournamentSize_bounds {factor : K} (h1 : factor ≤ 1) {n : Nat} (hn : 0 < n) :
    1 ≤ tournamentSize factor n ∧ tournamentSize factor n ≤ n := by
  unfold tournamentSize
  refine ⟨le_max_right _ _, max_le ?_ hn⟩
  calc Nat.floor ((n : K) * factor) ≤ Nat.floor (n : K) := by
        apply Nat.floor_le_floor
        have : (0 : K) ≤ n := Nat.cast_nonneg n
        nlinarith
    _ = n := Nat.floor_natCast n

/-- **C32.** With a size factor `≤ 1`, a non-empty population and NaN-free fitness, Tournament selection
never panics and returns `count` individuals, each of which has the largest fitness value among
`max(⌊n·factor⌋, 1)` pairwise distinct population positions that include its own. -/
theorem C32_tournament {factor : K} {count : Nat} {pop : List I} (hf : factor ≤ 1)
    (h0 : 0 < pop.length) (hnum : ∀ x ∈ pop, (T.fitness x).IsNum) :
    Returns (selTournament R T factor count pop) fun sel => sel.length = count ∧
      ∀ w ∈ sel, ∃ (is : List Nat) (contenders : List I),
        is.length = max (Nat.floor ((pop.length : K) * factor)) 1 ∧ is.Nodup ∧
        AtPositions pop contenders is ∧ w ∈ contenders ∧
        ∀ x ∈ contenders, Fl.Le (T.fitness x) (T.fitness w) := by
  refine Returns.replicate ?_ count
  unfold tournamentOne
  have hs := tournamentSize_bounds hf h0
  refine Returns.bind (R.indexSample_returns hs.2) fun is his => ?_
  refine Returns.bind (forEach_idx_returns his.2.2) fun contenders hc => ?_
  have hne : contenders ≠ [] := by
    rintro rfl
    have := hc.length
    rw [his.1] at this
    simp at this; omega
  obtain ⟨m, h1, h2, h3⟩ := findMax_ok T hne fun x hx => hnum x (hc.mem x hx)
  exact Returns.ofExcept h1 ⟨is, contenders, his.1, his.2.1, hc, h2, h3⟩

/-- **C28, Tournament.** Exactly `count` members. -/
theorem C28_tournament {factor : K} {count : Nat} {pop : List I} (hf : factor ≤ 1)
    (h0 : 0 < pop.length) (hnum : ∀ x ∈ pop, (T.fitness x).IsNum) :
    Returns (selTournament R T factor count pop) fun sel =>
      sel.length = count ∧ ∀ x ∈ sel, x ∈ pop := by
  refine (C32_tournament R T hf h0 hnum).mono ?_
  rintro sel ⟨h1, h2⟩
  refine ⟨h1, fun x hx => ?_⟩
  obtain ⟨is, cs, -, -, hc, hm, -⟩ := h2 x hx
  exact hc.mem x hm

/-- **C32, full tournament.** With factor 1 every selected individual has the largest fitness of the whole
population. -/
theorem C32_full_tournament {count : Nat} {pop : List I} (h0 : 0 < pop.length)
    (hnum : ∀ x ∈ pop, (T.fitness x).IsNum) :
    Returns (selTournament R T (1 : K) count pop) fun sel =>
      ∀ w ∈ sel, ∀ x ∈ pop, Fl.Le (T.fitness x) (T.fitness w) := by
  refine (C32_tournament R T le_rfl h0 hnum).mono ?_
  rintro sel ⟨-, h2⟩ w hw x hx
  obtain ⟨is, cs, h3, h4, h5, h6, h7⟩ := h2 w hw
  apply h7
  rw [mul_one, Nat.floor_natCast, max_eq_left h0] at h3
  obtain ⟨k, hk, rfl⟩ := List.getElem_of_mem hx
  -- every position occurs
  have hsub : is ⊆ List.range pop.length := by
    intro i hi
    obtain ⟨j, hj, rfl⟩ := List.getElem_of_mem hi
    have := List.Forall₂.get h5 hj (by rw [h5.length]; exact hj)
    simp only [List.get_eq_getElem] at this
    by_contra hc
    simp only [List.mem_range] at hc
    rw [List.getElem?_eq_none (by omega)] at this
    simp at this
  have hperm : is.Perm (List.range pop.length) :=
    (List.subperm_of_subset h4 hsub).perm_of_length_le (by simp [h3])
  have hki : k ∈ is := hperm.symm.subset (by simpa using hk)
  obtain ⟨j, hj, hjk⟩ := List.getElem_of_mem hki
  have := List.Forall₂.get h5 hj (by rw [h5.length]; exact hj)
  simp only [List.get_eq_getElem, hjk, List.getElem?_eq_getElem hk, Option.some.injEq] at this
  rw [this]; exact List.getElem_mem _

/-- **C32, constructor.** Exactly the factors in `[0, 1]` are accepted. -/
theorem C32_tournament_new (factor : K) (g : G) :
    (∃ r, (tournamentNew factor : M G K) g = .ok r) ↔ 0 ≤ factor ∧ factor ≤ 1 := by
  unfold tournamentNew
  constructor
  · rintro ⟨r, hr⟩
    obtain ⟨_, g1, h1, h2⟩ := M.bind_ok_iff.1 hr
    have e1 := (M.assert_ok_iff.1 h1).1
    simpa using e1
  · rintro ⟨h1, h2⟩
    refine ⟨(factor, g), ?_⟩
    simp only [h1, h2, decide_true, Bool.and_self]
    rfl

/-- **C32, empty population.** Tournament selection of at least one individual panics. -/
theorem C32_tournament_empty {factor : K} {count : Nat} (hc : 0 < count) :
    Panics (selTournament R T factor count ([] : List I)) := by
  unfold selTournament
  cases count with
  | zero => omega
  | succ n =>
    unfold M.replicate
    refine Panics.bind_left (Panics.bind_left (R.indexSample_panics ?_))
    simp [tournamentSize]

end tournament

/-! ## RouletteWheel -/

section roulette
variable (R : Rng G K) (fit : I → K)

/-- `x` is where the running fitness sum first reaches the threshold `t`. -/
def FirstReaching (pop : List I) (t : K) (x : I) : Prop :=
  ∃ pre post, pop = pre ++ x :: post ∧ t ≤ (pre.map fit).sum + fit x ∧
    ∀ p y q, pre = p ++ y :: q → (p.map fit).sum + fit y < t

theorem roulettePick_some : ∀ (pop : List I) (t s : K) (x : I), roulettePick fit t s pop = some x →
    ∃ pre post, pop = pre ++ x :: post ∧ t ≤ s + (pre.map fit).sum + fit x ∧
      ∀ p y q, pre = p ++ y :: q → s + (p.map fit).sum + fit y < t
  | [], t, s, x, h => by simp [roulettePick] at h
  | y :: ys, t, s, x, h => by
    unfold roulettePick at h
    by_cases hy : t ≤ s + fit y
    · rw [if_pos hy] at h
      cases h
      refine ⟨[], ys, rfl, by simpa using hy, ?_⟩
      intro p z q hp
      cases p <;> simp at hp
    · rw [if_neg hy] at h
      obtain ⟨pre, post, h1, h2, h3⟩ := roulettePick_some ys t (s + fit y) x h
      refine ⟨y :: pre, post, by rw [h1]; rfl, by simpa [add_assoc] using h2, ?_⟩
      intro p z q hp
      cases p with
      | nil =>
        simp only [List.nil_append, List.cons.injEq] at hp
        obtain ⟨rfl, -⟩ := hp
        simpa using hy
      | cons a p =>
        simp only [List.cons_append, List.cons.injEq] at hp
        obtain ⟨rfl, hp⟩ := hp
        have := h3 p z q hp
        simpa [add_assoc] using this

theorem roulettePick_isSome : ∀ (pop : List I) (t s : K), pop ≠ [] → t ≤ s + (pop.map fit).sum →
    ∃ x, roulettePick fit t s pop = some x
  | [], _, _, h, _ => absurd rfl h
  | y :: ys, t, s, _, h => by
    unfold roulettePick
    by_cases hy : t ≤ s + fit y
    · exact ⟨y, by rw [if_pos hy]⟩
    · rw [if_neg hy]
      cases ys with
      | nil => simp at h; exact absurd h hy
      | cons z zs =>
        exact roulettePick_isSome (z :: zs) t (s + fit y) (by simp) (by
          simpa [add_assoc] using h)

/-- **C29.** RouletteWheel never panics and returns at most `count` individuals, all members of the
population; each is the one at which the running fitness sum first reaches `total · u` for one of
the `count` draws `u ∈ [0, 1)`. -/
theorem C29_roulette {count : Nat} {pop : List I} :
    Returns (selRoulette R fit count pop) fun sel => sel.length ≤ count ∧ ∀ x ∈ sel, x ∈ pop ∧
      ∃ u : K, 0 ≤ u ∧ u < 1 ∧ FirstReaching fit pop ((pop.map fit).sum * u) x := by
  unfold selRoulette
  refine Returns.bind (Returns.replicate R.genUnit_returns count) fun us hus => Returns.pure ?_
  refine ⟨le_trans (List.length_filterMap_le _ _) (le_of_eq hus.1), ?_⟩
  intro x hx
  obtain ⟨u, hu, hux⟩ := List.mem_filterMap.1 hx
  obtain ⟨pre, post, h1, h2, h3⟩ := roulettePick_some fit pop _ 0 x hux
  exact ⟨by rw [h1]; simp, u, (hus.2 u hu).1, (hus.2 u hu).2, pre, post, h1, by simpa using h2,
    by simpa using h3⟩

/-- **C29, count.** With a non-negative total fitness (in particular with non-negative fitness values)
and a non-empty population it returns exactly `count` individuals. -/
theorem C29_roulette_exact_count {count : Nat} {pop : List I} (h0 : pop ≠ [])
    (ht : 0 ≤ (pop.map fit).sum) :
    Returns (selRoulette R fit count pop) fun sel => sel.length = count := by
  unfold selRoulette
  refine Returns.bind (Returns.replicate R.genUnit_returns count) fun us hus => Returns.pure ?_
  have key : ∀ l : List K, (∀ u ∈ l, 0 ≤ u ∧ u < 1) →
      (l.filterMap fun u => roulettePick fit ((pop.map fit).sum * u) 0 pop).length = l.length := by
    intro l
    induction l with
    | nil => simp
    | cons u l ih =>
      intro hl
      have hu := hl u (by simp)
      obtain ⟨x, hx⟩ := roulettePick_isSome fit pop ((pop.map fit).sum * u) 0 h0 (by
        rw [zero_add]; nlinarith [hu.1, hu.2])
      rw [List.filterMap_cons_some (f := fun u => roulettePick fit ((pop.map fit).sum * u) 0 pop) hx,
        List.length_cons, List.length_cons,
        ih fun v hv => hl v (by simp [hv])]
  rw [key us hus.2, hus.1]

/-- **C29, zero weight.** With non-negative fitness values, an individual of fitness zero is selected only
by a threshold of exactly zero (a zero draw or zero total). -/
theorem C29_zero_weight {pop : List I} {t : K} {x : I} (hx : fit x = 0)
    (ht : 0 < t) : ¬ FirstReaching fit pop t x := by
  rintro ⟨pre, post, h1, h2, h3⟩
  rw [hx, add_zero] at h2
  rcases List.eq_nil_or_concat pre with rfl | ⟨p, y, rfl⟩
  · simp at h2; exact absurd h2 (not_le.2 ht)
  · have := h3 p y [] (by simp)
    simp at h2
    exact absurd h2 (not_le.2 this)

/-- **C30, violation.** RouletteWheel does not return `count` individuals when fitness is negative: for a
single individual of negative fitness it returns the empty list whatever is drawn. -/
theorem C30_roulette_negative_selects_nothing {count : Nat} {x : I} (hx : fit x < 0) :
    Returns (selRoulette R fit count [x]) fun sel => sel = [] := by
  unfold selRoulette
  refine Returns.bind (Returns.replicate R.genUnit_returns count) fun us hus => Returns.pure ?_
  rw [List.filterMap_eq_nil_iff]
  intro u hu
  obtain ⟨h1, h2⟩ := hus.2 u hu
  have : ¬ fit x * u ≤ fit x := by nlinarith
  simp [roulettePick, this]

/-- **C30, violation, populations.** With all fitness values negative, every draw of zero selects nothing:
the result is shorter than `count`. -/
theorem C30_roulette_zero_draw_selects_nothing {pop : List I} (h : ∀ y ∈ pop, fit y < 0) :
    roulettePick fit ((pop.map fit).sum * 0) 0 pop = none := by
  have key : ∀ (l : List I) (s : K), s ≤ 0 → (∀ y ∈ l, fit y < 0) →
      roulettePick fit ((pop.map fit).sum * 0) s l = none := by
    intro l
    induction l with
    | nil => intro _ _ _; rfl
    | cons y l ih =>
      intro s hs hl
      have hy := hl y (by simp)
      unfold roulettePick
      rw [if_neg (by rw [mul_zero]; linarith)]
      exact ih _ (by linarith) fun z hz => hl z (by simp [hz])
  exact key pop 0 le_rfl h

end roulette

/-! ## Stochastic universal sampling -/

section sus
variable (R : FRng G K) (fit : I → K)

theorem susWhile_eq {d sum : K} (fuel : Nat) : ∀ (ptr : K),
    0 < fuel → sum < ptr + (fuel : K) * d - d →
    ∃ k : Nat, (susWhile d sum fuel ptr : M G _) = pure (k, ptr + (k : K) * d) ∧
      sum < ptr + (k : K) * d ∧ (k = 0 ∨ ptr + ((k : K) - 1) * d ≤ sum) := by
  induction fuel with
  | zero => intro ptr h; omega
  | succ fuel ih =>
    intro ptr _ h
    unfold susWhile
    by_cases hp : ptr ≤ sum
    · rw [if_pos hp]
      have hf : 0 < fuel := by
        rcases Nat.eq_zero_or_pos fuel with h0 | h0
        · subst h0; simp at h; exact absurd hp (not_le.2 h)
        · exact h0
      obtain ⟨k, h1, h2, h3⟩ := ih (ptr + d) hf (by push_cast at h ⊢; linarith)
      refine ⟨k + 1, ?_, ?_, .inr ?_⟩
      · rw [h1, pure_bind]
        push_cast; ring_nf
      · push_cast; linarith
      · push_cast
        rcases h3 with rfl | h3
        · simpa using hp
        · linarith
    · rw [if_neg hp]
      exact ⟨0, by simp, by simpa using hp, .inl rfl⟩

/-- The multiplicities chosen for each individual, `copies`, are within one of `fit / d`. -/
def Spread (d : K) (x : I) (copies : Nat) : Prop :=
  ((copies : K) - 1) * d < fit x ∧ fit x < ((copies : K) + 1) * d

/-- `Spread` says that the number of copies is `⌊f/d⌋` or `⌈f/d⌉`. -/
theorem spread_floor_or_ceil [FloorSemiring K] {d : K} (hd : 0 < d) {x : I} (hx : 0 ≤ fit x)
    {copies : Nat} (h : Spread fit d x copies) :
    copies = Nat.floor (fit x / d) ∨ copies = Nat.ceil (fit x / d) := by
  obtain ⟨h1, h2⟩ := h
  have hq : 0 ≤ fit x / d := div_nonneg hx hd.le
  have h1' : (copies : K) - 1 < fit x / d := (lt_div_iff₀ hd).2 h1
  have h2' : fit x / d < (copies : K) + 1 := (div_lt_iff₀ hd).2 h2
  by_cases hc : (copies : K) ≤ fit x / d
  · left
    refine ((Nat.floor_eq_iff hq).2 ⟨hc, h2'⟩).symm
  · right
    push Not at hc
    refine le_antisymm ?_ (Nat.ceil_le.2 hc.le)
    have := Nat.le_ceil (fit x / d)
    have : (copies : K) < (Nat.ceil (fit x / d) : K) + 1 := by linarith
    have : copies < Nat.ceil (fit x / d) + 1 := by exact_mod_cast this
    omega

theorem susGo_eq {d : K} (hd : 0 < d) {fuel N : Nat} (hfuel : N + 1 < fuel) :
    ∀ (pop : List I) (sum ptr : K) (m : Nat) (p0 : K), (∀ y ∈ pop, 0 ≤ fit y) →
      ptr = p0 + (m : K) * d → sum < ptr → ptr ≤ sum + d ∨ m = 0 → 0 < p0 → p0 ≤ d →  0 ≤ sum →
      sum + (pop.map fit).sum ≤ (N : K) * d →
      ∃ copies : List Nat, List.Forall₂ (Spread fit d) pop copies ∧
        (susGo fit d fuel sum ptr pop : M G _) =
          pure ((List.zipWith List.replicate copies pop).flatten) ∧
        sum + (pop.map fit).sum < p0 + ((m + copies.sum : Nat) : K) * d ∧
        (m + copies.sum = 0 ∨ p0 + (((m + copies.sum : Nat) : K) - 1) * d ≤ sum + (pop.map fit).sum)
  | [], sum, ptr, m, p0, _, hp, hlt, hle, h0, hpd, hs, _ => by
    refine ⟨[], .nil, rfl, by simpa [← hp] using hlt, ?_⟩
    rcases hle with h | h
    · right
      subst hp
      simp only [List.sum_nil, List.map_nil, add_zero]
      linarith
    · left; simp [h]
  | x :: xs, sum, ptr, m, p0, hf, hp, hlt, hle, h0, hpd, hs, hN => by
    have hx0 := hf x (by simp)
    have hxs : 0 ≤ (xs.map fit).sum := List.sum_nonneg (by
      intro a ha; obtain ⟨y, hy, rfl⟩ := List.mem_map.1 ha; exact hf y (by simp [hy]))
    simp only [List.map_cons, List.sum_cons] at hN
    have hfuel' : ((N : K) + 2) ≤ (fuel : K) := by exact_mod_cast hfuel
    have hptr0 : 0 < ptr := lt_of_le_of_lt hs hlt
    have hb : sum + fit x < ptr + (fuel : K) * d - d := by nlinarith
    obtain ⟨k, h1, h2, h3⟩ := susWhile_eq (G := G) (sum := sum + fit x) (d := d) fuel ptr
      (by omega) hb
    have hsp : Spread fit d x k := by
      constructor
      · rcases h3 with rfl | h3
        · simp; linarith
        · nlinarith
      · rcases hle with h | h
        · nlinarith
        · subst h; subst hp
          simp only [Nat.cast_zero, zero_mul, add_zero] at h2
          nlinarith
    have hle' : ptr + (k : K) * d ≤ sum + fit x + d ∨ m + k = 0 := by
      rcases h3 with rfl | h3
      · rcases hle with h | h
        · left; simp; linarith
        · right; simp [h]
      · left; nlinarith
    obtain ⟨copies, c1, c2, c3, c4⟩ := susGo_eq hd hfuel xs (sum + fit x) (ptr + (k : K) * d) (m + k) p0
      (fun y hy => hf y (by simp [hy])) (by rw [hp]; push_cast; ring) h2 hle' h0 hpd (by linarith)
      (by linarith)
    refine ⟨k :: copies, .cons hsp c1, ?_, ?_, ?_⟩
    · unfold susGo
      rw [h1, pure_bind]
      simp only
      rw [c2, pure_bind]
      rfl
    · simp only [List.map_cons, List.sum_cons, ← add_assoc] at c3 ⊢
      exact c3
    · simp only [List.map_cons, List.sum_cons, ← add_assoc] at c4 ⊢
      exact c4

theorem flatten_replicate_length : ∀ (pop : List I) (copies : List Nat), copies.length = pop.length →
    ((List.zipWith List.replicate copies pop).flatten).length = copies.sum
  | [], [], _ => rfl
  | [], _ :: _, h => by simp at h
  | _ :: _, [], h => by simp at h
  | x :: xs, k :: ks, h => by
    simp at h
    simp [flatten_replicate_length xs ks h]

/-- Everything after the pointer draw, for a positive start pointer. -/
theorem sus_after_draw {count fuel : Nat} {pop : List I} {d p0 : K} (hf : ∀ y ∈ pop, 0 ≤ fit y)
    (hd : 0 < d) (hdt : (pop.map fit).sum = (count : K) * d) (h0 : 0 < p0) (hpd : p0 ≤ d)
    (hfuel : count + 1 < fuel) :
    ∃ copies : List Nat, List.Forall₂ (Spread fit d) pop copies ∧ copies.sum = count ∧
      (susGo fit d fuel 0 p0 pop : M G _) =
        pure ((List.zipWith List.replicate copies pop).flatten) := by
  obtain ⟨copies, c1, c2, c3, c4⟩ := susGo_eq (G := G) fit hd hfuel pop 0 p0 0 p0 hf (by simp) h0
    (.inr rfl) h0 hpd le_rfl (by rw [zero_add, hdt])
  refine ⟨copies, c1, ?_, c2⟩
  simp only [zero_add, hdt] at c3 c4
  have hA : (count : K) < (copies.sum : K) + 1 := by
    by_contra hc
    push Not at hc
    nlinarith
  have hA' : count < copies.sum + 1 := by exact_mod_cast hA
  have hB : copies.sum ≤ count := by
    rcases c4 with h | h
    · omega
    · have : (copies.sum : K) - 1 < (count : K) := by
        by_contra hc
        push Not at hc
        nlinarith
      have : (copies.sum : K) < (count : K) + 1 := by linarith
      have : copies.sum < count + 1 := by exact_mod_cast this
      omega
  omega

/-- Everything after the pointer draw, for a start pointer of exactly zero: `count + 1` individuals. -/
theorem sus_after_zero_draw {count fuel : Nat} {pop : List I} {d : K} (hf : ∀ y ∈ pop, 0 ≤ fit y)
    (hd : 0 < d) (hdt : (pop.map fit).sum = (count : K) * d) (hcount : 0 < count)
    (hfuel : count + 2 < fuel) :
    ∃ sel, (susGo fit d fuel 0 0 pop : M G _) = pure sel ∧ sel.length = count + 1 := by
  cases pop with
  | nil =>
    exfalso
    simp only [List.map_nil, List.sum_nil] at hdt
    have : (0 : K) < (count : K) * d := mul_pos (by exact_mod_cast hcount) hd
    linarith
  | cons x xs =>
    have hx0 := hf x (by simp)
    have hxs : 0 ≤ (xs.map fit).sum := List.sum_nonneg (by
      intro a ha; obtain ⟨y, hy, rfl⟩ := List.mem_map.1 ha; exact hf y (by simp [hy]))
    simp only [List.map_cons, List.sum_cons] at hdt
    have hfuel' : ((count : K) + 3) ≤ (fuel : K) := by exact_mod_cast hfuel
    obtain ⟨k, h1, h2, h3⟩ := susWhile_eq (G := G) (sum := 0 + fit x) (d := d) fuel 0 (by omega) (by
      nlinarith)
    have hk : 0 < k := by
      rcases Nat.eq_zero_or_pos k with h | h
      · subst h; simp at h2; linarith
      · exact h
    obtain ⟨k, rfl⟩ : ∃ k', k = k' + 1 := ⟨k - 1, by omega⟩
    have h3' : (k : K) * d ≤ fit x := by
      rcases h3 with h | h
      · omega
      · push_cast at h; linarith
    push_cast at h2
    obtain ⟨copies, c1, c2, c3, c4⟩ := susGo_eq (G := G) fit hd (N := count) (fuel := fuel) (by omega) xs
      (0 + fit x) (0 + ((k + 1 : Nat) : K) * d) k d (fun y hy => hf y (by simp [hy]))
      (by push_cast; ring) (by push_cast; linarith) (.inl (by push_cast; linarith)) hd le_rfl
      (by linarith) (by linarith)
    refine ⟨List.replicate (k + 1) x ++ (List.zipWith List.replicate copies xs).flatten, ?_, ?_⟩
    · unfold susGo
      rw [h1, pure_bind]
      simp only
      rw [c2, pure_bind]
    · rw [List.length_append, List.length_replicate,
        flatten_replicate_length xs copies c1.length_eq.symm]
      rw [zero_add, hdt] at c3 c4
      have hA : (count : K) < ((k + copies.sum : Nat) : K) + 1 := by
        by_contra hc
        push Not at hc
        nlinarith
      have hA' : count < k + copies.sum + 1 := by exact_mod_cast hA
      have hB : k + copies.sum ≤ count := by
        rcases c4 with h | h
        · omega
        · have : ((k + copies.sum : Nat) : K) ≤ (count : K) := by
            by_contra hc
            push Not at hc
            nlinarith
          exact_mod_cast this
      omega

/-- **C33.** With non-negative fitness values, whenever StochasticUniversalSampling returns, the selection
lists the individuals in population order, the individual of fitness `f` repeated `copies` times with
`|copies - f/d| < 1` where `d = total/count`; altogether `count`. (Exact arithmetic.) -/
theorem C33_sus_proportional {count fuel : Nat} {pop : List I} (hf : ∀ y ∈ pop, 0 ≤ fit y)
    (hfuel : count + 2 < fuel) :
    IfReturns (selSus R fit fuel count pop) fun sel => sel.length = count ∧
      ∃ copies : List Nat, List.Forall₂ (Spread fit ((pop.map fit).sum / (count : K))) pop copies ∧
        sel = (List.zipWith List.replicate copies pop).flatten := by
  unfold selSus
  simp only
  refine IfReturns.bind IfReturns.assert fun _ hd => ?_
  have hd : 0 < (pop.map fit).sum / (count : K) := by simpa using hd
  have hc : (count : K) ≠ 0 := by rintro h; rw [h, div_zero] at hd; exact lt_irrefl _ hd
  have hcount : 0 < count := Nat.pos_of_ne_zero fun h => hc (by simp [h])
  have hdt : (pop.map fit).sum = (count : K) * ((pop.map fit).sum / (count : K)) := by
    field_simp
  refine IfReturns.bind R.genBetween_ifReturns fun p0 hp => ?_
  rcases eq_or_lt_of_le hp.1 with h0 | h0
  · -- pointer exactly zero: `count + 1` pointers fit, the final assertion fails
    subst h0
    obtain ⟨sel, hs, hl⟩ := sus_after_zero_draw (G := G) fit hf hd hdt hcount hfuel
    rw [hs, pure_bind]
    refine IfReturns.bind IfReturns.assert fun _ hl' => ?_
    simp [hl] at hl'
  · obtain ⟨copies, c1, c2, c3⟩ := sus_after_draw (G := G) (count := count) (fuel := fuel) fit hf hd hdt h0 hp.2
      (by omega)
    rw [c3, pure_bind]
    have hlen := flatten_replicate_length pop copies c1.length_eq.symm
    refine IfReturns.bind IfReturns.assert fun _ _ => IfReturns.pure ⟨by omega, copies, c1, rfl⟩

/-- **C34, when the draw is positive.** With non-negative fitness values of positive total, `count > 0` and a
start pointer drawn in `(0, d]`, StochasticUniversalSampling does not panic. -/
theorem C34_sus_no_panic {count fuel : Nat} {pop : List I} (hf : ∀ y ∈ pop, 0 ≤ fit y)
    (ht : 0 < (pop.map fit).sum) (hcount : 0 < count) (hfuel : count + 2 < fuel) (g : G)
    (hdraw : 0 < (R.between g 0 ((pop.map fit).sum / (count : K))).1) :
    ∃ sel g', selSus R fit fuel count pop g = .ok (sel, g') ∧ sel.length = count := by
  have hc : (0 : K) < (count : K) := by exact_mod_cast hcount
  have hd : 0 < (pop.map fit).sum / (count : K) := div_pos ht hc
  have hdt : (pop.map fit).sum = (count : K) * ((pop.map fit).sum / (count : K)) := by
    field_simp
  have hp := R.between_spec g 0 _ hd.le
  obtain ⟨copies, c1, c2, c3⟩ := sus_after_draw (G := G) (count := count) (fuel := fuel) fit hf hd hdt hdraw hp.2
    (by omega)
  have hlen := flatten_replicate_length pop copies c1.length_eq.symm
  refine ⟨(List.zipWith List.replicate copies pop).flatten,
    (R.between g 0 ((pop.map fit).sum / (count : K))).2, ?_, by omega⟩
  unfold selSus
  rw [M.bind_of_ok (a := ()) (w' := g) (by simp [hd, M.assert])]
  rw [M.bind_of_ok (a := (R.between g 0 ((pop.map fit).sum / (count : K))).1)
    (w' := (R.between g 0 ((pop.map fit).sum / (count : K))).2) (by
      unfold FRng.genBetween; rw [if_pos hd.le]; rfl)]
  rw [c3, pure_bind, hlen, c2]
  simp [M.assert]

/-- **C34, violation.** With the same non-negative fitness values, a start pointer of exactly zero - which the
inclusive range `0..=d` allows - always ends in a panic: `count + 1` individuals are collected. -/
theorem C34_sus_panics_on_zero_draw {count fuel : Nat} {pop : List I} (hf : ∀ y ∈ pop, 0 ≤ fit y)
    (ht : 0 < (pop.map fit).sum) (hcount : 0 < count) (hfuel : count + 2 < fuel) (g : G)
    (hdraw : (R.between g 0 ((pop.map fit).sum / (count : K))).1 = 0) :
    selSus R fit fuel count pop g = .error .assertion := by
  have hc : (0 : K) < (count : K) := by exact_mod_cast hcount
  have hd : 0 < (pop.map fit).sum / (count : K) := div_pos ht hc
  have hdt : (pop.map fit).sum = (count : K) * ((pop.map fit).sum / (count : K)) := by
    field_simp
  obtain ⟨sel, hs, hl⟩ := sus_after_zero_draw (G := G) fit hf hd hdt hcount hfuel
  unfold selSus
  rw [M.bind_of_ok (a := ()) (w' := g) (by simp [hd, M.assert])]
  rw [M.bind_of_ok (a := (R.between g 0 ((pop.map fit).sum / (count : K))).1)
    (w' := (R.between g 0 ((pop.map fit).sum / (count : K))).2) (by
      unfold FRng.genBetween; rw [if_pos hd.le]; rfl)]
  rw [hdraw, hs, pure_bind, hl]
  exact M.bind_of_error (by simp [M.assert])

/-- **C34, zero total.** When the total fitness is not positive (all zero, or `count = 0`) the operator
panics. -/
theorem C34_sus_panics_on_zero_total {count fuel : Nat} {pop : List I}
    (ht : (pop.map fit).sum ≤ 0 ∨ count = 0) : Panics (selSus R fit fuel count pop) := by
  unfold selSus
  simp only
  refine Panics.bind_left (Panics.assert ?_)
  rw [decide_eq_false_iff_not, not_lt]
  rcases ht with h | h
  · exact div_nonpos_of_nonpos_of_nonneg h (Nat.cast_nonneg _)
  · subst h; simp

end sus
end arith

/-! ## Non-vacuity -/

/-- Three individuals of fitness 1, 3, 2. -/
def threeInds : List (Individual Nat ℚ) := [⟨10, .num 1⟩, ⟨20, .num 3⟩, ⟨30, .num 2⟩]

example : 0 < threeInds.length ∧ ∀ x ∈ threeInds, ((Individual.trait Nat ℚ).fitness x).IsNum := by
  refine ⟨by decide, ?_⟩
  intro x hx
  simp only [threeInds, List.mem_cons, List.not_mem_nil, or_false] at hx
  rcases hx with rfl | rfl | rfl <;> trivial

/-- A concrete tournament of size two out of three, picking the larger of the first two. -/
example : selTournament counterRng (Individual.trait Nat ℚ) (2 / 3) 2 threeInds 0 =
    .ok ([⟨20, .num 3⟩, ⟨20, .num 3⟩], 2) := by decide +kernel

/-- Random and Rank selection on the same population. -/
example : selRandom counterRng 4 threeInds 0 =
    .ok ([⟨10, .num 1⟩, ⟨20, .num 3⟩, ⟨30, .num 2⟩, ⟨10, .num 1⟩], 0) := by decide +kernel
example : selRank counterRng (Individual.trait Nat ℚ) 2 threeInds 0 =
    .ok ([⟨20, .num 3⟩, ⟨30, .num 2⟩], 4) := by decide +kernel
example : selUniqueRandom counterRng 2 threeInds 0 =
    .ok ([⟨10, .num 1⟩, ⟨20, .num 3⟩], 1) := by decide +kernel

/-- Roulette on non-negative weights returns the requested number. -/
example : selRoulette counterRng (fun x : ℚ => x) 3 [1, 0, 3] 0 = .ok ([1, 3, 1], 3) := by decide +kernel

/-- SUS with a positive start pointer: weights 1, 0, 3 and four pointers. -/
example : selSus counterFRng (fun x : ℚ => x) 10 4 [1, 0, 3] 1 = .ok ([1, 3, 3, 3], 2) := by decide +kernel

/-- SUS with a zero start pointer: panics on the same population. -/
example : selSus counterFRng (fun x : ℚ => x) 10 4 [1, 0, 3] 0 = .error .assertion := by decide +kernel

/-! ## Every theorem on a concrete case -/

section instances

theorem threeInds_num : ∀ x ∈ threeInds, ((Individual.trait Nat ℚ).fitness x).IsNum := by
  intro x hx
  simp only [threeInds, List.mem_cons, List.not_mem_nil, or_false] at hx
  rcases hx with rfl | rfl | rfl <;> trivial

example := C28_random counterRng (count := 5) (pop := threeInds) (by decide)
example := (C28_rank_r_new (G := Nat) (1 / 3 : ℚ)).1 (by norm_num)
example := (C28_rank_r_new (G := Nat) (4 / 3 : ℚ)).2 (by norm_num)
example := C31_unique_random counterRng (count := 2) (pop := threeInds) (by decide)
example := (C31_unique_random_panics_iff counterRng (count := 4) (pop := threeInds) 0).2 (by decide)
example := (C28_boltzmann_new (G := Nat) (5 : ℚ) 100 (1 / 2) 20 0).2 (by norm_num)
example := C32_tournament counterRng (Individual.trait Nat ℚ) (factor := 2 / 3) (count := 2) (pop := threeInds) (by norm_num) (by decide) threeInds_num
example := C28_tournament counterRng (Individual.trait Nat ℚ) (factor := 2 / 3) (count := 2) (pop := threeInds) (by norm_num) (by decide) threeInds_num
example := C32_full_tournament counterRng (Individual.trait Nat ℚ) (count := 2) (pop := threeInds) (by decide) threeInds_num
example := (C32_tournament_new (G := Nat) (2 / 3 : ℚ) 0).2 (by norm_num)
example := C32_tournament_empty counterRng (Individual.trait Nat ℚ) (factor := 2 / 3) (count := 2) (by decide)
example := C29_roulette counterRng (fun x : ℚ => x) (count := 3) (pop := [1, 0, 3])
example := C29_roulette_exact_count counterRng (fun x : ℚ => x) (count := 3) (pop := [1, 0, 3]) (by decide) (by norm_num)
example := C29_zero_weight (fun x : ℚ => x) (pop := [1, 0, 3]) (t := 1 / 2) (x := 0) rfl (by norm_num)
example := C30_roulette_negative_selects_nothing counterRng (fun x : ℚ => x) (count := 3) (x := -2) (by norm_num)
example := C30_roulette_zero_draw_selects_nothing (fun x : ℚ => x) (pop := [-1, -2]) (by decide)
example := C33_sus_proportional counterFRng (fun x : ℚ => x) (count := 4) (fuel := 10) (pop := [1, 0, 3]) (by decide) (by decide)
example := C34_sus_no_panic counterFRng (fun x : ℚ => x) (count := 4) (fuel := 10) (pop := [1, 0, 3]) (by decide) (by norm_num)
  (by decide) (by decide) 1 (by decide +kernel)
example := C34_sus_panics_on_zero_draw counterFRng (fun x : ℚ => x) (count := 4) (fuel := 10) (pop := [1, 0, 3]) (by decide)
  (by norm_num) (by decide) (by decide) 0 (by decide +kernel)
example := C34_sus_panics_on_zero_total counterFRng (fun x : ℚ => x) (count := 4) (fuel := 10) (pop := [0, 0]) (.inl (by norm_num))

end instances

end Ecrs.Ga
