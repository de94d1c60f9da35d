import Verif.Ga.Population
import Verif.Ga.CrossoverLemmas
import Verif.CounterRng
import Mathlib.Algebra.Order.Field.Basic
import Mathlib.Tactic.Linarith
import Mathlib.Tactic.FieldSimp
import Mathlib.Data.List.Nodup
import Mathlib.Data.List.Perm.Basic

/-!
# Properties C37, C38, C68: population generators
-/

set_option linter.unusedSectionVars false

namespace Ecrs.Ga
open Ecrs

section points
variable {G K I : Type} [Field K] [LinearOrder K] [IsStrictOrderedRing K] (R : Rng G K)

/-- Coordinate `x` respects the range `start..end`: inside it when the range is not reversed, below the end
unless the range is degenerate. -/
def Within (c : K × K) (x : K) : Prop :=
  (c.1 ≤ c.2 → c.1 ≤ x ∧ x ≤ c.2) ∧ (c.1 < c.2 → x < c.2)

theorem pointCoord_returns (c : K × K) : Returns (pointCoord R c) (Within c) := by
  unfold pointCoord
  refine Returns.bind R.genUnit_returns fun u hu => Returns.pure ⟨fun h => ⟨?_, ?_⟩, fun h => ?_⟩
  · nlinarith [mul_nonneg (sub_nonneg.2 h) hu.1]
  · nlinarith [mul_le_of_le_one_right (sub_nonneg.2 h) hu.2.le]
  · nlinarith [mul_lt_of_lt_one_right (sub_pos.2 h) hu.2]

theorem generateWithConstraints_returns {dim n : Nat} {cs : List (K × K)} (h : dim = cs.length) :
    Returns (generateWithConstraints R dim n cs) fun pts => pts.length = n ∧
      ∀ p ∈ pts, p.length = dim ∧ List.Forall₂ Within cs p := by
  unfold generateWithConstraints
  refine Returns.bind (Returns.assert (by simp [h])) fun _ _ => ?_
  refine Returns.replicate ((Returns.forEach cs fun c _ => pointCoord_returns R c).mono fun p hp => ?_) n
  exact ⟨by rw [h, hp.length_eq], hp⟩

/-- **C37, construction.** `with_constraints` accepts exactly a positive dimension matching the number of
constraints, and panics otherwise. -/
theorem C37_random_points_new (dim : Nat) (cs : List (K × K)) (g : G) :
    (∃ r, (RandomPoints.withConstraints dim cs : M G _) g = .ok r) ↔ 0 < dim ∧ dim = cs.length := by
  unfold RandomPoints.withConstraints
  constructor
  · rintro ⟨r, hr⟩
    obtain ⟨_, g1, h1, h2⟩ := M.bind_ok_iff.1 hr
    obtain ⟨_, g2, h3, h4⟩ := M.bind_ok_iff.1 h2
    exact ⟨by simpa using (M.assert_ok_iff.1 h1).1, by simpa using (M.assert_ok_iff.1 h3).1⟩
  · rintro ⟨h1, h2⟩
    refine ⟨(⟨dim, cs⟩, g), ?_⟩
    rw [M.bind_of_ok (a := ()) (w' := g) (by simp [h1, M.assert]),
      M.bind_of_ok (a := ()) (w' := g) (by simp [h2, M.assert])]
    rfl

/-- **C37.** A successfully constructed RandomPoints generator never panics and generates exactly `count`
individuals of exactly `dim` genes, gene `i` within constraint `i`. (Exact arithmetic.) -/
theorem C37_random_points (X : ChromOps I K) {dim count : Nat} {cs : List (K × K)}
    {rp : RandomPoints K} {g0 g1 : G} (hnew : RandomPoints.withConstraints dim cs g0 = .ok (rp, g1)) :
    Returns (rp.generate R X count) fun pop => pop.length = count ∧
      ∀ i ∈ pop, (X.ch i).length = dim ∧ List.Forall₂ Within cs (X.ch i) := by
  have hd := ((C37_random_points_new dim cs g0).1 ⟨_, hnew⟩).2
  have hrp : rp = ⟨dim, cs⟩ := by
    unfold RandomPoints.withConstraints at hnew
    obtain ⟨_, _, _, h2⟩ := M.bind_ok_iff.1 hnew
    obtain ⟨_, _, _, h4⟩ := M.bind_ok_iff.1 h2
    exact (congrArg Prod.fst (M.pure_ok_iff.1 h4))
  subst hrp
  unfold RandomPoints.generate
  refine Returns.bind (R.onClone_returns (generateWithConstraints_returns R (n := count) hd))
    fun pts hp => Returns.pure ⟨by simp [hp.1], ?_⟩
  intro i hi
  obtain ⟨p, hpm, rfl⟩ := List.mem_map.1 hi
  rw [X.ch_ofCh]
  exact hp.2 p hpm

/-- **C37, default constraints.** `RandomPoints::new(dim)` generates points in `[0, 1)^dim`. -/
theorem C37_random_points_unit (X : ChromOps I K) {dim count : Nat} {rp : RandomPoints K} {g0 g1 : G}
    (hnew : RandomPoints.new dim g0 = .ok (rp, g1)) :
    0 < dim ∧ Returns (rp.generate R X count) fun pop => pop.length = count ∧
      ∀ i ∈ pop, (X.ch i).length = dim ∧ ∀ x ∈ X.ch i, 0 ≤ x ∧ x < 1 := by
  unfold RandomPoints.new at hnew
  obtain ⟨_, _, h1, h2⟩ := M.bind_ok_iff.1 hnew
  have hrp : rp = ⟨dim, List.replicate dim (0, 1)⟩ := congrArg Prod.fst (M.pure_ok_iff.1 h2)
  subst hrp
  refine ⟨by simpa using (M.assert_ok_iff.1 h1).1, ?_⟩
  unfold RandomPoints.generate
  refine Returns.bind (R.onClone_returns (generateWithConstraints_returns R (n := count) (by simp)))
    fun pts hp => Returns.pure ⟨by simp [hp.1], ?_⟩
  intro i hi
  obtain ⟨p, hpm, rfl⟩ := List.mem_map.1 hi
  rw [X.ch_ofCh]
  obtain ⟨hl, hw⟩ := hp.2 p hpm
  refine ⟨hl, fun x hx => ?_⟩
  have : ∀ (n : Nat) (p : List K), List.Forall₂ Within (List.replicate n ((0 : K), (1 : K))) p →
      ∀ x ∈ p, 0 ≤ x ∧ x < 1 := by
    intro n
    induction n with
    | zero => intro p h; cases h; simp
    | succ n ih =>
      intro p h x hx
      cases h with
      | cons h1 h2 =>
        rcases List.mem_cons.1 hx with rfl | hx
        · exact ⟨(h1.1 zero_le_one).1, h1.2 zero_lt_one⟩
        · exact ih _ h2 x hx
  exact this dim p hw x hx

/-- **C37, tools.** `PointGenerator::generate_with_constraints` panics when the dimension does not match. -/
theorem C37_point_generator_mismatch {dim n : Nat} {cs : List (K × K)} (h : dim ≠ cs.length) :
    Panics (generateWithConstraints R dim n cs) :=
  Panics.bind_left (Panics.assert (by simpa using h))

/-- **C68, violation.** With a generator whose clones do not share state (any seeded generator), two
successive `generate` calls on one RandomPoints return the *same* population: the operator's own generator
is never advanced. -/
theorem C68_random_points_repeats (X : ChromOps I K) (hR : R.clonesShareState = false)
    (rp : RandomPoints K) {count : Nat} {pop : List I} {g g' : G}
    (h : rp.generate R X count g = .ok (pop, g')) :
    g' = g ∧ rp.generate R X count g' = .ok (pop, g') := by
  have hg : g' = g := by
    unfold RandomPoints.generate at h
    obtain ⟨pts, g1, h1, h2⟩ := M.bind_ok_iff.1 h
    have e2 := congrArg Prod.snd (M.pure_ok_iff.1 h2)
    simp only at e2
    unfold Rng.onClone at h1
    split at h1
    · cases h1
    · simp only [hR] at h1
      cases h1
      exact e2
  subst hg
  exact ⟨rfl, h⟩

end points

section discrete
variable {G U I A : Type} [LinearOrder U] [Zero U] [One U] (R : Rng G U)

/-- **C38, BitStrings.** Exactly `count` individuals of exactly `dim` bits; a zero dimension is rejected at
construction. -/
theorem C38_bit_strings (X : ChromOps I Bool) (dim count : Nat) :
    Returns (bitStringsGenerate R X dim count) (fun pop => pop.length = count ∧
      ∀ i ∈ pop, (X.ch i).length = dim) ∧
    (0 < dim → Returns (bitStringsNew dim : M G Nat) fun d => d = dim) ∧
    (dim = 0 → Panics (bitStringsNew dim : M G Nat)) := by
  refine ⟨?_, fun h => Returns.bind (Returns.assert (by simpa using h)) fun _ _ => Returns.pure rfl,
    fun h => Panics.bind_left (Panics.assert (by simp [h]))⟩
  refine Returns.replicate ?_ count
  refine Returns.bind (Returns.replicate R.genCoin_returns dim) fun bits hb => Returns.pure ?_
  rw [X.ch_ofCh]; exact hb.1

theorem forEach_idx_eq {W : Type} (genes : List A) : ∀ (order : List Nat), (∀ i ∈ order, i < genes.length) →
    (M.forEach (idx genes) order : M W _) = pure (order.filterMap (genes[·]?))
  | [], _ => rfl
  | i :: is, h => by
    unfold M.forEach
    rw [idx_of_lt (h i (by simp)), pure_bind, forEach_idx_eq genes is fun j hj => h j (by simp [hj]),
      pure_bind]
    rw [List.filterMap_cons_some (f := (genes[·]?)) (List.getElem?_eq_getElem (h i (by simp)))]

theorem filterMap_range_getElem (genes : List A) :
    (List.range genes.length).filterMap (genes[·]?) = genes := by
  induction genes with
  | nil => rfl
  | cons g gs ih =>
    rw [List.length_cons, List.range_succ_eq_map, List.filterMap_cons_some (b := g) (by simp),
      List.filterMap_map]
    conv_rhs => rw [← ih]
    rfl

theorem shuffled_returns (genes : List A) :
    Returns (shuffled R genes) fun out => out.Perm genes := by
  unfold shuffled
  refine Returns.bind (R.genShuffle_returns genes.length) fun order ho => ?_
  rw [forEach_idx_eq genes order fun i hi => by simpa using ho.subset hi]
  refine Returns.pure ?_
  have := ho.filterMap (genes[·]?)
  rwa [filterMap_range_getElem] at this

/-- **C38, RandomPermutations.** Exactly `count` individuals, each a permutation of the given genes
(repeated genes included), whatever the generator draws. -/
theorem C38_random_permutations (X : ChromOps I A) (genes : List A) (count : Nat) :
    Returns (permutationsGenerate R X genes count) fun pop => pop.length = count ∧
      ∀ i ∈ pop, (X.ch i).Perm genes := by
  refine Returns.replicate ?_ count
  refine Returns.bind (shuffled_returns R genes) fun out h => Returns.pure ?_
  rw [X.ch_ofCh]; exact h

end discrete

/-! ## Non-vacuity -/

example : ∃ rp, (RandomPoints.withConstraints 2 [((-5 : ℚ), 5), (0, 2)] : M Nat _) 0 = .ok (rp, 0) ∧
    rp.generate counterRng (Individual.chromOps ℚ (.num (0 : ℚ))) 2 0 =
      .ok ([⟨[-5/2, 3/2], .num 0⟩, ⟨[-5/2, 3/2], .num 0⟩], 0) :=
  ⟨⟨2, [(-5, 5), (0, 2)]⟩, rfl, by decide +kernel⟩

example : permutationsGenerate counterRng (Individual.chromOps Nat (.num (0 : ℚ))) [1, 2, 3] 1 0 =
    .ok ([⟨[3, 2, 1], .num 0⟩], 1) := by decide +kernel

example : bitStringsGenerate counterRng (Individual.chromOps Bool (.num (0 : ℚ))) 3 1 0 =
    .ok ([⟨[true, false, true], .num 0⟩], 3) := by decide +kernel

/-! ## Every theorem on a concrete case -/

section instances

example := C37_random_points counterRng (Individual.chromOps ℚ (.num (0 : ℚ))) (count := 5)
  (show (RandomPoints.withConstraints 2 [((-5 : ℚ), 5), (0, 2)] : M Nat _) 0 = .ok (⟨2, [(-5, 5), (0, 2)]⟩, 0) from rfl)
example := C37_random_points_unit counterRng (Individual.chromOps ℚ (.num (0 : ℚ))) (count := 5)
  (show (RandomPoints.new 3 : M Nat _) 0 = .ok (⟨3, [(0, 1), (0, 1), (0, 1)]⟩, 0) from rfl)
example := C37_point_generator_mismatch counterRng (dim := 3) (n := 4) (cs := [((-5 : ℚ), 5), (0, 2)]) (by decide)
example := C68_random_points_repeats counterRng (Individual.chromOps ℚ (.num (0 : ℚ))) rfl ⟨2, [(-5, 5), (0, 2)]⟩ (count := 2) (g := 0) (g' := 0)
  (pop := [⟨[-5/2, 3/2], .num 0⟩, ⟨[-5/2, 3/2], .num 0⟩]) (by decide +kernel)

end instances

end Ecrs.Ga
