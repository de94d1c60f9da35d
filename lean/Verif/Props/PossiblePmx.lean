import Verif.Props.Possible

/-!
# C127 and C20 continued: what C20 says about a PMX child determines it, so the possible outcomes are exactly these
-/

set_option linter.unusedSectionVars false

namespace Ecrs.Ga
open Ecrs

section
variable {G U I A : Type} [LinearOrder U] [Zero U] [One U] [DecidableEq A] {R : Rng G U} (X : ChromOps I A)

/-- In a duplicate-free list a gene is at one position only. -/
theorem pos_unique {l : List A} (hn : l.Nodup) {i j : Nat} {v : A} (hi : l[i]? = some v) (hj : l[j]? = some v) : i = j := by
  obtain ⟨h1, h2⟩ := List.getElem?_eq_some_iff.1 hi
  obtain ⟨h3, h4⟩ := List.getElem?_eq_some_iff.1 hj
  exact (hn.getElem_inj_iff).1 (h2.trans h4.symm)

/-- A trail has one end only. -/
theorem PmxTrail.unique {p1 p2 : List A} (hn : p2.Nodup) {lo hi : Nat} (hhi : hi ≤ p1.length) {i c d : Nat}
    (hi' : i < p1.length) (h : PmxTrail p1 p2 lo hi i c) (h' : PmxTrail p1 p2 lo hi i d) : c = d := by
  induction h with
  | @out i c h1 h2 =>
    have hv : p1[i]? = some p1[i] := List.getElem?_eq_getElem hi'
    cases h' with
    | out h3 _ => exact pos_unique hn (h1.trans hv) (h3.trans hv)
    | step h3 h4 _ => exact absurd (pos_unique hn (h1.trans hv) (h3.trans hv) ▸ h4) h2
  | @step i k c h1 h2 _ ih =>
    have hv : p1[i]? = some p1[i] := List.getElem?_eq_getElem hi'
    cases h' with
    | out h3 h4 => exact absurd (pos_unique hn (h1.trans hv) (h3.trans hv) ▸ h2) h4
    | step h3 _ h5 =>
      obtain rfl := pos_unique hn (h1.trans hv) (h3.trans hv)
      exact ih (by omega) h5

/-- **C20, the child is determined.** Two permutations of the parents' genes that are as C20 says for one segment are equal. -/
theorem C20_pmx_child_unique {p1 p2 c d : List A} (hn : p1.Nodup) (hp : p1.Perm p2) {lo hi : Nat} (hhi : hi ≤ p1.length)
    (hc : c.Perm p1) (hd : d.Perm p1) (h1 : PmxSpec p1 p2 c lo hi) (h2 : PmxSpec p1 p2 d lo hi) : c = d := by
  have hn2 : p2.Nodup := hp.nodup_iff.1 hn
  have hnc : c.Nodup := hc.nodup_iff.2 hn
  refine List.ext_getElem? fun x => ?_
  by_cases hx : x < p1.length
  swap
  · rw [List.getElem?_eq_none (by rw [hc.length_eq]; omega), List.getElem?_eq_none (by rw [hd.length_eq]; omega)]
  by_cases hs : lo ≤ x ∧ x < hi
  · rw [h1.1 x hs.1 hs.2, h2.1 x hs.1 hs.2]
  by_cases hni : NotInSegment p1 lo hi p2[x]?
  · rw [h1.2.1 x hx hs hni, h2.2.1 x hx hs hni]
  -- the gene at `x` is not a segment gene, so it is a gene `p2[y]`
  have hxc : x < c.length := by rw [hc.length_eq]; exact hx
  have hg : c[x]? = some c[x] := List.getElem?_eq_getElem hxc
  have hmem : c[x] ∈ p2 := hp.subset (hc.subset (List.getElem_mem hxc))
  obtain ⟨y, hy, hyx⟩ := List.getElem_of_mem hmem
  have hy2 : p2[y]? = some c[x] := by rw [List.getElem?_eq_getElem hy, hyx]
  have hy1 : y < p1.length := by rw [hp.length_eq]; exact hy
  have hniy : NotInSegment p1 lo hi p2[y]? := by
    intro k hk1 hk2 hk
    have : c[k]? = some c[x] := by rw [h1.1 k hk1 hk2, hk, hy2]
    exact hs (pos_unique hnc this hg ▸ ⟨hk1, hk2⟩)
  by_cases hsy : lo ≤ y ∧ y < hi
  · obtain ⟨e, he, ht, hce⟩ := h1.2.2 y hsy.1 hsy.2 hniy
    obtain ⟨e', he', ht', hde⟩ := h2.2.2 y hsy.1 hsy.2 hniy
    obtain rfl := ht.unique hn2 hhi hy1 ht'
    obtain rfl := pos_unique hnc (hce.trans hy2) hg
    rw [hce, hde]
  · have := h1.2.1 y hy1 hsy hniy
    obtain rfl := pos_unique hnc (this.trans hy2) hg
    exact absurd hniy hni

/-- **C127, PMX.** The possible outcomes are exactly the pairs of children described by C19 and C20 for a segment `[lo, hi)`
with `lo < length`, every such segment being possible for each pair independently. -/
theorem C127_pmx_pairs (hR : R.Full) {fuel : Nat} {sel out : List I}
    (h : Pairs (fun a b => PermParents X a b ∧ (X.ch a).length ≤ fuel) sel) :
    MayYield (applyPairs (liftSingle X (pmx R fuel)) sel) out ↔ PairsRel (fun a b c d =>
      FreshlyMade X c ∧ FreshlyMade X d ∧ ∃ lo hi, lo < (X.ch a).length ∧ lo ≤ hi ∧ hi ≤ (X.ch a).length ∧
        (X.ch c).Perm (X.ch a) ∧ (X.ch d).Perm (X.ch a) ∧
        PmxSpec (X.ch a) (X.ch b) (X.ch c) lo hi ∧ PmxSpec (X.ch b) (X.ch a) (X.ch d) lo hi) sel out := by
  have := hR.inhabited
  refine possible_of_single X (P := fun a b => PermParents X a b ∧ (X.ch a).length ≤ fuel)
    (Q := fun p1 p2 c d => ∃ lo hi, lo < p1.length ∧ lo ≤ hi ∧ hi ≤ p1.length ∧ c.Perm p1 ∧ d.Perm p1 ∧
      PmxSpec p1 p2 c lo hi ∧ PmxSpec p2 p1 d lo hi) ?_ ?_ h
  · rintro a b ⟨⟨hn, hp, h0⟩, hf⟩
    unfold pmx
    refine Returns.bind (Returns.assert (by simpa using hp.length_eq)) fun _ _ => ?_
    refine Returns.bind (R.genRange_returns h0) fun b hb => ?_
    refine Returns.bind (R.genRangeIncl_returns (Nat.le_of_lt hb.2)) fun e he => ?_
    obtain ⟨o1, h1, h2, h3⟩ := pmxChild_spec (G := G) hn hp he.2 (b := b) (fuel := fuel) (by have := he.2; omega)
    obtain ⟨o2, h1', h2', h3'⟩ := pmxChild_spec (G := G) (hp.nodup_iff.1 hn) hp.symm (b := b) (e := e) (fuel := fuel)
      (by rw [← hp.length_eq]; exact he.2) (by have := he.2; omega)
    rw [h1, h1']
    exact Returns.pure ⟨b, e, hb.2, he.1, he.2, h2, h2'.trans hp.symm, h3, h3'⟩
  · rintro a b ⟨c, d⟩ ⟨⟨hn, hp, h0⟩, hf⟩ ⟨lo, hi, q1, q2, q3, q4, q5, q6, q7⟩
    simp only at q4 q5 q6 q7
    obtain ⟨c', d', hy, k1, k2, k3, k4⟩ := C127_pmx hR hn hp hf q1 q2 q3
    obtain rfl := C20_pmx_child_unique hn hp q3 q4 k1 q6 k3
    obtain rfl := C20_pmx_child_unique (hp.nodup_iff.1 hn) hp.symm (by rw [← hp.length_eq]; exact q3) (q5.trans hp)
      (k2.trans hp) q7 k4
    exact hy

end

section instances

example {out} := C127_pmx_pairs exX (scripted_full false) (fuel := 3)
  (sel := [⟨[1, 2, 3], .num 5⟩, ⟨[3, 1, 2], .num 7⟩]) (out := out) (.cons ⟨⟨by decide, by decide, by decide⟩, by decide⟩ .nil)

example : ∃ c, (c.Perm [1, 2, 3] ∧ PmxSpec [1, 2, 3] [3, 1, 2] c 1 2) ∧
    ∀ d, d.Perm [1, 2, 3] → PmxSpec [1, 2, 3] [3, 1, 2] d 1 2 → d = c := by
  obtain ⟨c, -, h1, h2⟩ := pmxChild_spec (G := Unit) (p1 := [1, 2, 3]) (p2 := [3, 1, 2]) (b := 1) (e := 2) (fuel := 3)
    (by decide) (by decide) (by decide) (by decide)
  exact ⟨c, ⟨h1, h2⟩, fun d hd h => C20_pmx_child_unique (by decide) (by decide) (by decide) hd h1 h h2⟩

end instances

end Ecrs.Ga
