import Verif.Props.CrossoverLocus
import Verif.Ga.CrossoverPermLemmas

/-!
# Properties C09 and C17–C22: crossover arity and the permutation crossovers

`[a, b].Sublist p` says that `a` occurs before `b` in `p`.
-/

namespace Ecrs.Ga
open Ecrs

section
variable {G U I A : Type} [LinearOrder U] [Zero U] [One U] (R : Rng G U) (X : ChromOps I A)
variable [DecidableEq A]

/-! ## C09 -/

/-- **C09.** Every shipped crossover operator that returns was given an even number of individuals and
returns exactly as many children. -/
theorem C09_crossover_arity (op : Crossover U) (half : U) (fuel : Nat) (sel : List I) :
    IfReturns (op.apply R X half fuel sel) fun out =>
      sel.length % 2 = 0 ∧ out.length = sel.length := by
  have key : ∀ single : I → I → M G (I × I), IfReturns (applyPairs single sel) fun out =>
      sel.length % 2 = 0 ∧ out.length = sel.length := fun single =>
    (applyPairs_ifReturns (Q := fun _ _ _ _ => True) sel fun _ _ => IfReturns.trivial).mono
      fun out h => ⟨h.1, h.2.length⟩
  cases op <;> exact key _

/-- **C09, odd.** Given an odd number of individuals every shipped crossover operator panics. -/
theorem C09_crossover_odd_panics (op : Crossover U) (half : U) (fuel : Nat) {sel : List I}
    (h : sel.length % 2 = 1) : Panics (op.apply R X half fuel sel) := by
  cases op <;> exact applyPairs_odd_panics h

/-! ## Ordered crossover -/

/-- Both parents are permutations of one duplicate-free, non-empty gene set. -/
def PermParents (a b : I) : Prop :=
  (X.ch a).Nodup ∧ (X.ch a).Perm (X.ch b) ∧ 0 < (X.ch a).length

/-- What ordered crossover promises about one child: the segment `[lo, hi)` of the first parent stays
in place, and what surrounds it is, in order, the second parent without the segment's genes. -/
def OrderedSpec (p1 p2 child : List A) (lo hi : Nat) : Prop :=
  (child.take hi).drop lo = (p1.take hi).drop lo ∧
  child.take lo ++ child.drop hi = p2.filter (fun g => g ∉ (p1.take hi).drop lo)

theorem orderedChild_spec {p1 p2 : List A} {b e : Nat} (hn : p1.Nodup) (hp : p1.Perm p2)
    (hbe : b ≤ e) (he : e ≤ p1.length) :
    ∃ out, (orderedChild p1 p2 b e : M G _) = pure out ∧ out.Perm p1 ∧ OrderedSpec p1 p2 out b e := by
  obtain ⟨h1, h2⟩ := orderedChild_eq (G := G) hn hp hbe he
  refine ⟨_, h1, ordered_perm hn hp, ?_⟩
  have hs : (slice p1 b e).length = e - b := slice_length he
  have ht : ((p2.filter (· ∉ slice p1 b e)).take b).length = b := by
    rw [List.length_take, h2]; omega
  unfold OrderedSpec
  constructor
  · have h3 : ((p2.filter (· ∉ slice p1 b e)).take b ++ slice p1 b e).length = e := by
      rw [List.length_append, ht, hs]; omega
    rw [List.take_append_of_le_length (by omega), List.take_of_length_le (by omega),
      List.drop_append_of_le_length (by omega), List.drop_of_length_le (by omega)]
    rfl
  · have h3 : ((p2.filter (· ∉ slice p1 b e)).take b ++ slice p1 b e).length = e := by
      rw [List.length_append, ht, hs]; omega
    rw [List.drop_append_of_le_length (by omega), List.drop_of_length_le (l := _ ++ _) (by omega),
      List.append_assoc, List.take_append_of_le_length (by omega), List.take_of_length_le (by omega),
      List.nil_append, List.take_append_drop]
    rfl

theorem ordered_returns {p1 p2 : List A} (hn : p1.Nodup) (hp : p1.Perm p2) (h0 : 0 < p1.length) :
    Returns (ordered R p1 p2) fun c => c.1.Perm p1 ∧ c.2.Perm p1 ∧
      ∃ lo hi, lo ≤ hi ∧ hi ≤ p1.length ∧ OrderedSpec p1 p2 c.1 lo hi ∧ OrderedSpec p2 p1 c.2 lo hi := by
  unfold ordered
  refine Returns.bind (Returns.assert (by simpa using hp.length_eq)) fun _ _ => ?_
  refine Returns.bind (R.genRange_returns h0) fun b hb => ?_
  refine Returns.bind (R.genRangeIncl_returns (Nat.le_of_lt hb.2)) fun e he => ?_
  obtain ⟨o1, h1, h2, h3⟩ := orderedChild_spec (G := G) hn hp he.1 he.2
  obtain ⟨o2, h1', h2', h3'⟩ := orderedChild_spec (G := G) (hp.nodup_iff.1 hn) hp.symm he.1
    (by rw [← hp.length_eq]; exact he.2)
  rw [h1, h1']
  exact Returns.pure ⟨h2, h2'.trans hp.symm, b, e, he.1, he.2, h3, h3'⟩

/-- **C17.** Ordered crossover of permutations of one gene set never panics and its children are
permutations of that gene set. -/
theorem C17_ordered_permutation {sel : List I} (h : Pairs (PermParents X) sel) :
    Returns (applyPairs (liftSingle X (ordered R)) sel) (PairsRel (fun a _ c d =>
      (X.ch c).Perm (X.ch a) ∧ (X.ch d).Perm (X.ch a)) sel) :=
  apply_of_single X (P := PermParents X) (Q := fun p1 _ c1 c2 => c1.Perm p1 ∧ c2.Perm p1)
    (fun _ _ hab => (ordered_returns R hab.1 hab.2.1 hab.2.2).mono fun _ hc => ⟨hc.1, hc.2.1⟩) h

/-- **C18.** Each child of ordered crossover keeps one segment of its first parent in place; the remaining
positions hold the remaining genes in the order of the other parent.  Both children use the same
segment. -/
theorem C18_ordered_segment_and_order {sel : List I} (h : Pairs (PermParents X) sel) :
    Returns (applyPairs (liftSingle X (ordered R)) sel) (PairsRel (fun a b c d =>
      ∃ lo hi, lo ≤ hi ∧ hi ≤ (X.ch a).length ∧
        OrderedSpec (X.ch a) (X.ch b) (X.ch c) lo hi ∧
        OrderedSpec (X.ch b) (X.ch a) (X.ch d) lo hi) sel) :=
  apply_of_single X (P := PermParents X) (Q := fun p1 p2 c1 c2 => ∃ lo hi, lo ≤ hi ∧ hi ≤ p1.length ∧
      OrderedSpec p1 p2 c1 lo hi ∧ OrderedSpec p2 p1 c2 lo hi)
    (fun _ _ hab => (ordered_returns R hab.1 hab.2.1 hab.2.2).mono fun _ hc => hc.2.2) h

/-! ## PMX -/

/-- The trail of positions PMX follows from segment position `i`: look up where the second parent keeps
the gene the first parent has at `i`; continue from there while inside the segment `[lo, hi)`. -/
inductive PmxTrail (p1 p2 : List A) (lo hi : Nat) : Nat → Nat → Prop
  | out {i c : Nat} : p2[c]? = p1[i]? → ¬ (lo ≤ c ∧ c < hi) → PmxTrail p1 p2 lo hi i c
  | step {i k c : Nat} : p2[k]? = p1[i]? → (lo ≤ k ∧ k < hi) → PmxTrail p1 p2 lo hi k c →
      PmxTrail p1 p2 lo hi i c

/-- The gene `v` is not among the genes `p[lo..hi]`. -/
def NotInSegment (p : List A) (lo hi : Nat) (v : Option A) : Prop :=
  ∀ k, lo ≤ k → k < hi → p[k]? ≠ v

/-- What PMX promises about one child: the segment comes from `p1`; every other position whose `p2` gene
is not in the segment keeps it; every segment gene of `p2` that was displaced sits at the end of its
trail. -/
def PmxSpec (p1 p2 child : List A) (lo hi : Nat) : Prop :=
  (∀ x, lo ≤ x → x < hi → child[x]? = p1[x]?) ∧
  (∀ x, x < p1.length → ¬ (lo ≤ x ∧ x < hi) → NotInSegment p1 lo hi p2[x]? → child[x]? = p2[x]?) ∧
  (∀ i, lo ≤ i → i < hi → NotInSegment p1 lo hi p2[i]? →
    ∃ c, c < p1.length ∧ PmxTrail p1 p2 lo hi i c ∧ child[c]? = p2[i]?)

theorem isExit_trail {p1 p2 : List A} (hp : p1.Perm p2) {b e : Nat} (he : e ≤ p1.length) :
    ∀ (m i : Nat), (∀ k, k ≤ m → InSeg b e ((sigma p1 p2)^[k] i)) →
      ¬ InSeg b e ((sigma p1 p2)^[m + 1] i) → PmxTrail p1 p2 b e i ((sigma p1 p2)^[m + 1] i)
  | 0, i, h1, h2 => by
    have hi : InSeg b e i := h1 0 (by omega)
    exact .out (sigma_spec hp (by have := hi.2; omega)).2 h2
  | m + 1, i, h1, h2 => by
    have hi : InSeg b e i := h1 0 (by omega)
    have h3 : InSeg b e (sigma p1 p2 i) := h1 1 (by omega)
    refine .step (sigma_spec hp (by have := hi.2; omega)).2 h3 ?_
    rw [Function.iterate_succ_apply] at h2 ⊢
    exact isExit_trail hp he m _ (fun k hk => by
      rw [← Function.iterate_succ_apply]; exact h1 (k + 1) (by omega)) h2

theorem pmxChild_spec {p1 p2 : List A} {b e fuel : Nat} (hn : p1.Nodup) (hp : p1.Perm p2)
    (he : e ≤ p1.length) (hf : e - b ≤ fuel) :
    ∃ out, (pmxChild fuel p1 p2 b e : M G _) = pure out ∧ out.Perm p1 ∧ PmxSpec p1 p2 out b e := by
  obtain ⟨out, h0, hlen, h1, h2, h3⟩ := pmxChild_eq (G := G) hn hp he hf
  have hl := hp.length_eq
  have conv : ∀ x, x < p1.length → NotInSegment p1 b e p2[x]? →
      ∀ k, InSeg b e k → sigma p1 p2 k ≠ x := by
    intro x hx hni k hk hkx
    have hs := sigma_spec hp (show k < p1.length by have := hk.2; omega)
    rw [hkx] at hs
    exact hni k hk.1 hk.2 hs.2.symm
  refine ⟨out, h0, pmxChild_perm hn hp he hlen h1 h2 h3, fun x hx1 hx2 => h1 x ⟨hx1, hx2⟩, ?_, ?_⟩
  · intro x hx hs hni
    refine h3 x hx hs fun i _ hex => ?_
    obtain ⟨-, -, k, hk, hkx⟩ := hex.spec hp he
    exact conv x hx hni k hk hkx
  · intro i hi1 hi2 hni
    have hst : IsStart p1 p2 b e i := ⟨⟨hi1, hi2⟩, conv i (by omega) hni⟩
    obtain ⟨m, m1, m2, m3⟩ := exists_exit hn hp hst
    have hex : IsExit p1 p2 b e i ((sigma p1 p2)^[m + 1] i) := ⟨m, m1, m2, m3, rfl⟩
    exact ⟨_, (hex.spec hp he).2.1, isExit_trail hp he m i m2 m3, h2 _ i hst hex⟩

theorem pmx_returns {p1 p2 : List A} {fuel : Nat} (hn : p1.Nodup) (hp : p1.Perm p2)
    (h0 : 0 < p1.length) (hf : p1.length ≤ fuel) :
    Returns (pmx R fuel p1 p2) fun c => c.1.Perm p1 ∧ c.2.Perm p1 ∧
      ∃ lo hi, lo ≤ hi ∧ hi ≤ p1.length ∧ PmxSpec p1 p2 c.1 lo hi ∧ PmxSpec p2 p1 c.2 lo hi := by
  unfold pmx
  refine Returns.bind (Returns.assert (by simpa using hp.length_eq)) fun _ _ => ?_
  refine Returns.bind (R.genRange_returns h0) fun b hb => ?_
  refine Returns.bind (R.genRangeIncl_returns (Nat.le_of_lt hb.2)) fun e he => ?_
  obtain ⟨o1, h1, h2, h3⟩ := pmxChild_spec (G := G) (b := b) (e := e) (fuel := fuel) hn hp he.2 (by omega)
  obtain ⟨o2, h1', h2', h3'⟩ := pmxChild_spec (G := G) (b := b) (e := e) (fuel := fuel)
    (hp.nodup_iff.1 hn) hp.symm (by rw [← hp.length_eq]; exact he.2) (by omega)
  rw [h1, h1']
  exact Returns.pure ⟨h2, h2'.trans hp.symm, b, e, he.1, he.2, h3, h3'⟩

/-- **C19.** PMX of permutations of one gene set never panics, its mapping loop leaves the segment within
`n` steps (any fuel `≥ n` suffices, so the Rust loop terminates), and its children are permutations of
that gene set. -/
theorem C19_pmx_permutation {fuel : Nat} {sel : List I}
    (h : Pairs (fun a b => PermParents X a b ∧ (X.ch a).length ≤ fuel) sel) :
    Returns (applyPairs (liftSingle X (pmx R fuel)) sel) (PairsRel (fun a _ c d =>
      (X.ch c).Perm (X.ch a) ∧ (X.ch d).Perm (X.ch a)) sel) :=
  apply_of_single X (P := fun a b => PermParents X a b ∧ (X.ch a).length ≤ fuel)
    (Q := fun p1 _ c1 c2 => c1.Perm p1 ∧ c2.Perm p1)
    (fun _ _ hab => (pmx_returns R hab.1.1 hab.1.2.1 hab.1.2.2 hab.2).mono fun _ hc =>
      ⟨hc.1, hc.2.1⟩) h

/-- **C19, the result does not depend on the fuel.** The model's bound on the mapping loop is immaterial. -/
theorem C19_pmx_fuel_irrelevant {p1 p2 : List A} {b e f f' : Nat} (hn : p1.Nodup) (hp : p1.Perm p2)
    (he : e ≤ p1.length) (hf : p1.length ≤ f) (hf' : p1.length ≤ f') :
    (pmxChild f p1 p2 b e : M G _) = pmxChild f' p1 p2 b e := by
  unfold pmxChild pmxPlace
  rw [readRange_eq he, pure_bind, pure_bind]
  obtain ⟨ch0, c1, c2, -⟩ := pmxCopy_eq (G := G) (p1 := p1) (List.range' b (e - b))
    (List.replicate p1.length none) (fun i hi => by simp [List.mem_range'_1] at hi; omega) (by simp)
  simp only
  rw [c1, pure_bind, pure_bind]
  congr 1
  have key : ∀ (xs : List Nat) (ch : List (Option A)), (∀ i ∈ xs, InSeg b e i) →
      (pmxPlace f p1 p2 b e (slice p1 b e) ch xs : M G _) =
        pmxPlace f' p1 p2 b e (slice p1 b e) ch xs := by
    intro xs
    induction xs with
    | nil => intro ch _; rfl
    | cons i xs ih =>
      intro ch hx
      have hi := hx i (by simp)
      have hil : i < p1.length := by have := hi.2; omega
      have hil2 : i < p2.length := by rw [← hp.length_eq]; exact hil
      have hv : p2[i]? = some p2[i] := List.getElem?_eq_getElem hil2
      have hstep : ∀ g : Nat, p1.length ≤ g → p2[i] ∉ slice p1 b e →
          ∀ m, m < e - b → (∀ k, k ≤ m → InSeg b e ((sigma p1 p2)^[k] i)) →
          ¬ InSeg b e ((sigma p1 p2)^[m + 1] i) →
          (pmxExit p1 p2 b e g i : M G Nat) = pure ((sigma p1 p2)^[m + 1] i) :=
        fun g hg _ m h1 h2 h3 =>
          pmxExit_eq hn hp he m g i (by omega) hil (fun k _ hk => h2 k hk) h3
      unfold pmxPlace M.fold
      rw [idx_of_lt hil2, pure_bind, pure_bind]
      by_cases hmem : p2[i] ∈ slice p1 b e
      · rw [if_pos hmem, if_pos hmem, pure_bind, pure_bind]
        exact ih ch fun j hj => hx j (by simp [hj])
      · rw [if_neg hmem, if_neg hmem]
        obtain ⟨m, m1, m2, m3⟩ := exists_exit hn hp ⟨hi, (start_iff hn hp he hil hv).1 hmem⟩
        rw [hstep f hf hmem m m1 m2 m3, hstep f' hf' hmem m m1 m2 m3, pure_bind]
        congr 1
        funext ch'
        exact ih ch' fun j hj => hx j (by simp [hj])
  exact key _ ch0 fun i hi => by simp only [List.mem_range'_1, InSeg] at hi ⊢; omega

/-- **C20.** Both PMX children keep the drawn segment of their first parent in place, keep the other
parent's genes at all positions without conflict, and place every displaced gene at the end of its
mapping trail. -/
theorem C20_pmx_mapping {fuel : Nat} {sel : List I}
    (h : Pairs (fun a b => PermParents X a b ∧ (X.ch a).length ≤ fuel) sel) :
    Returns (applyPairs (liftSingle X (pmx R fuel)) sel) (PairsRel (fun a b c d =>
      ∃ lo hi, lo ≤ hi ∧ hi ≤ (X.ch a).length ∧
        PmxSpec (X.ch a) (X.ch b) (X.ch c) lo hi ∧ PmxSpec (X.ch b) (X.ch a) (X.ch d) lo hi) sel) :=
  apply_of_single X (P := fun a b => PermParents X a b ∧ (X.ch a).length ≤ fuel)
    (Q := fun p1 p2 c1 c2 => ∃ lo hi, lo ≤ hi ∧ hi ≤ p1.length ∧
      PmxSpec p1 p2 c1 lo hi ∧ PmxSpec p2 p1 c2 lo hi)
    (fun _ _ hab => (pmx_returns R hab.1.1 hab.1.2.1 hab.1.2.2 hab.2).mono fun _ hc => hc.2.2) h

/-! ## PPX -/

theorem ppx_returns {p1 p2 : List A} (hn : p1.Nodup) (hp : p1.Perm p2) :
    Returns (ppx R p1 p2) fun c => c.1.Perm p1 ∧ c.2.Perm p1 ∧
      ∀ a b, [a, b].Sublist p1 → [a, b].Sublist p2 → [a, b].Sublist c.1 ∧ [a, b].Sublist c.2 := by
  unfold ppx
  refine Returns.bind (Returns.assert (by simpa using hp.length_eq)) fun _ _ => ?_
  refine Returns.bind (Returns.replicate R.genCoin_returns p1.length) fun mask hm => ?_
  obtain ⟨o1, h1, h2, h3⟩ := ppxChild_eq (G := G) hn hp hm.1
  obtain ⟨o2, h1', h2', h3'⟩ := ppxChild_eq (G := G) (hp.nodup_iff.1 hn) hp.symm
    (hm.1.trans hp.length_eq)
  rw [h1, h1']
  exact Returns.pure ⟨h2, h2'.trans hp.symm, fun a b ha hb => ⟨h3 a b ha hb, h3' a b hb ha⟩⟩

/-- **C21.** PPX of permutations of one gene set never panics and its children are permutations of it. -/
theorem C21_ppx_permutation {sel : List I}
    (h : Pairs (fun a b => (X.ch a).Nodup ∧ (X.ch a).Perm (X.ch b)) sel) :
    Returns (applyPairs (liftSingle X (ppx R)) sel) (PairsRel (fun a _ c d =>
      (X.ch c).Perm (X.ch a) ∧ (X.ch d).Perm (X.ch a)) sel) :=
  apply_of_single X (P := fun a b => (X.ch a).Nodup ∧ (X.ch a).Perm (X.ch b))
    (Q := fun p1 _ c1 c2 => c1.Perm p1 ∧ c2.Perm p1)
    (fun _ _ hab => (ppx_returns R hab.1 hab.2).mono fun _ hc => ⟨hc.1, hc.2.1⟩) h

/-- **C22.** If gene `x` precedes gene `y` in both parents, it precedes it in both PPX children. -/
theorem C22_ppx_precedence {sel : List I}
    (h : Pairs (fun a b => (X.ch a).Nodup ∧ (X.ch a).Perm (X.ch b)) sel) :
    Returns (applyPairs (liftSingle X (ppx R)) sel) (PairsRel (fun a b c d =>
      ∀ x y, [x, y].Sublist (X.ch a) → [x, y].Sublist (X.ch b) →
        [x, y].Sublist (X.ch c) ∧ [x, y].Sublist (X.ch d)) sel) :=
  apply_of_single X (P := fun a b => (X.ch a).Nodup ∧ (X.ch a).Perm (X.ch b))
    (Q := fun p1 p2 c1 c2 => ∀ x y, [x, y].Sublist p1 → [x, y].Sublist p2 →
        [x, y].Sublist c1 ∧ [x, y].Sublist c2)
    (fun _ _ hab => (ppx_returns R hab.1 hab.2).mono fun _ hc => hc.2.2) h

/-- **C17/C19, empty.** Ordered crossover and PMX panic on empty chromosomes. -/
theorem C17_C19_empty_panics {fuel : Nat} :
    Panics (ordered R ([] : List A) []) ∧ Panics (pmx R fuel ([] : List A) []) :=
  ⟨Panics.bind_right IfReturns.trivial fun _ _ => Panics.bind_left (R.genRange_panics (by simp)),
   Panics.bind_right IfReturns.trivial fun _ _ => Panics.bind_left (R.genRange_panics (by simp))⟩

/-- **C17/C19/C21, unequal lengths.** All three permutation crossovers panic. -/
theorem C17_C19_C21_unequal_panics {fuel : Nat} {p1 p2 : List A} (h : p1.length ≠ p2.length) :
    Panics (ordered R p1 p2) ∧ Panics (pmx R fuel p1 p2) ∧ Panics (ppx R p1 p2) :=
  ⟨Panics.bind_left (Panics.assert (by simpa using h)),
   Panics.bind_left (Panics.assert (by simpa using h)),
   Panics.bind_left (Panics.assert (by simpa using h))⟩

end

/-- **C19, outside its hypotheses.** With a repeated gene the mapping loop of PMX can run forever: for the
parents `[1,1]` and `[1,2]` and the segment `[0,2)` no amount of fuel suffices. -/
theorem C19_pmx_diverges_on_duplicates (fuel : Nat) :
    (pmxChild fuel [1, 1] [1, 2] 0 2 : M Unit (List Nat)) () = .error .outOfFuel := by
  have key : ∀ fuel, (pmxExit [1, 1] [1, 2] 0 2 fuel 0 : M Unit Nat) () = .error .outOfFuel := by
    intro fuel
    induction fuel with
    | zero => rfl
    | succ n ih => exact ih
  have key1 : (pmxExit [1, 1] [1, 2] 0 2 fuel 1 : M Unit Nat) () = .error .outOfFuel := by
    cases fuel with
    | zero => rfl
    | succ n => exact key n
  have : ∀ (ch : List (Option Nat)), (pmxPlace fuel [1, 1] [1, 2] 0 2 [1, 1] ch [0, 1] : M Unit _) () =
      .error .outOfFuel := by
    intro ch
    show (((pmxExit [1, 1] [1, 2] 0 2 fuel 1 : M Unit Nat) >>= fun c => setIdx ch c (some 2)) >>=
      fun b' => M.fold _ b' []) () = _
    rw [M.bind_of_error (M.bind_of_error key1)]
  show ((pmxPlace fuel [1, 1] [1, 2] 0 2 [1, 1] [some 1, some 1] [0, 1] : M Unit _) >>=
    fun ch1 => pmxFinish [1, 2] 0 ch1) () = _
  rw [M.bind_of_error (this _)]

/-! ## Non-vacuity -/

/-- Two pairs of permutations of `0..4` satisfy the hypotheses of C17–C20. -/
example : Pairs (fun a b => PermParents (Individual.chromOps (K := ℚ) Nat .nan) a b ∧
      ((Individual.chromOps (K := ℚ) Nat .nan).ch a).length ≤ 7)
    [⟨[0, 1, 2, 3], .nan⟩, ⟨[2, 0, 3, 1], .nan⟩, ⟨[3, 2, 1, 0], .nan⟩, ⟨[0, 2, 1, 3], .nan⟩] :=
  .cons ⟨⟨by decide, by decide, by decide⟩, by decide⟩
    (.cons ⟨⟨by decide, by decide, by decide⟩, by decide⟩ .nil)

/-- The example of the documentation of `Pmx` (pmx.rs:139-141). -/
example : (pmxChild 10 [8, 4, 7, 3, 6, 2, 5, 1, 9, 0] [0, 1, 2, 3, 4, 5, 6, 7, 8, 9] 3 8 :
    M Unit (List Nat)) () = .ok ([0, 7, 4, 3, 6, 2, 5, 1, 8, 9], ()) := by decide

/-- The example of the documentation of `Ppx` (ppx.rs:99-102). -/
example : (ppxChild [2, 4, 1, 3, 5] [5, 2, 1, 4, 3] [true, true, false, true, false] :
    M Unit (List Nat)) () = .ok ([2, 4, 5, 1, 3], ()) := by decide

/-- A concrete common precedence: 2 before 1 in both parents. -/
example : [2, 1].Sublist [2, 4, 1, 3, 5] ∧ [2, 1].Sublist [5, 2, 1, 4, 3] := by decide

/-! ## Every theorem on a concrete case -/

section instances

/-- Individuals whose chromosomes are lists of cities. -/
abbrev cityChrom : ChromOps (Individual (List Nat) ℚ) Nat := Individual.chromOps Nat .nan

/-- Two pairs of orders of four cities. -/
def fourOrders : List (Individual (List Nat) ℚ) :=
  [⟨[0, 1, 2, 3], .nan⟩, ⟨[2, 0, 3, 1], .nan⟩, ⟨[3, 2, 1, 0], .nan⟩, ⟨[0, 2, 1, 3], .nan⟩]

theorem fourOrders_perm : Pairs (PermParents cityChrom) fourOrders :=
  .cons ⟨by decide, by decide, by decide⟩ (.cons ⟨by decide, by decide, by decide⟩ .nil)

theorem fourOrders_fuel : Pairs (fun a b => PermParents cityChrom a b ∧ (cityChrom.ch a).length ≤ 4) fourOrders :=
  .cons ⟨⟨by decide, by decide, by decide⟩, by decide⟩ (.cons ⟨⟨by decide, by decide, by decide⟩, by decide⟩ .nil)

theorem fourOrders_nodup : Pairs (fun a b => (cityChrom.ch a).Nodup ∧ (cityChrom.ch a).Perm (cityChrom.ch b)) fourOrders :=
  .cons ⟨by decide, by decide⟩ (.cons ⟨by decide, by decide⟩ .nil)

example := C09_crossover_odd_panics counterRng cityChrom .pmx (1 / 2) 4 (sel := fourOrders.take 3) (by decide)
example := C17_ordered_permutation counterRng cityChrom fourOrders_perm
example := C18_ordered_segment_and_order counterRng cityChrom fourOrders_perm
example := C19_pmx_permutation counterRng cityChrom fourOrders_fuel
example : (pmxChild 4 [0, 1, 2, 3] [2, 0, 3, 1] 1 3 : M Nat _) = pmxChild 100 [0, 1, 2, 3] [2, 0, 3, 1] 1 3 :=
  C19_pmx_fuel_irrelevant (by decide) (by decide) (by decide) (by decide) (by decide)
example := C20_pmx_mapping counterRng cityChrom fourOrders_fuel
example := C21_ppx_permutation counterRng cityChrom fourOrders_nodup
example := C22_ppx_precedence counterRng cityChrom fourOrders_nodup
example := C17_C19_C21_unequal_panics counterRng (fuel := 9) (p1 := [1, 2, 3]) (p2 := [1, 2]) (by decide)

end instances

end Ecrs.Ga
