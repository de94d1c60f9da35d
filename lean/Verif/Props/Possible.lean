import Verif.Scripted
import Verif.Props.CrossoverLocus
import Verif.Props.CrossoverPerm
import Mathlib.Algebra.Order.Field.Basic
import Mathlib.Tactic.Linarith

/-!
# C127: the crossover operators exclude no outcome

`MayYield op out` – some behaviour of the generator makes the operator return `out`; `Rng.Full` – the generator
excludes no answer allowed by its contract (`Verif.Scripted`).  Together with C10–C22, which say that every
outcome has the stated form, these theorems give the exact set of possible outcomes.
-/

set_option linter.unusedSectionVars false
set_option linter.unusedVariables false

namespace Ecrs.Ga
open Ecrs

section pairs
variable {G I A : Type} (X : ChromOps I A)

/-- An individual freshly made from a chromosome (`IndividualT::from`). -/
def FreshlyMade (i : I) : Prop := i = X.ofCh (X.ch i)

theorem canYield_chunks2 {single : I → I → M G (I × I)} {Q : I → I → I → I → Prop}
    (hs : ∀ a b c d, Q a b c d → CanYield (single a b) (c, d)) {sel out : List I} (h : PairsRel Q sel out) :
    CanYield (chunks2 single sel) out := by
  induction h with
  | nil => exact .pure
  | cons hq _ ih =>
    unfold chunks2
    exact (hs _ _ _ _ hq).bind (ih.bind .pure)

theorem canYield_pairs {single : I → I → M G (I × I)} {Q : I → I → I → I → Prop}
    (hs : ∀ a b c d, Q a b c d → CanYield (single a b) (c, d)) {sel out : List I} (h : PairsRel Q sel out)
    (he : sel.length % 2 = 0) : CanYield (applyPairs single sel) out := by
  unfold applyPairs
  exact (CanYield.assert (by simp [he])).bind (canYield_chunks2 hs h)

/-- The pairs of a list satisfying `P`, related to `out` by `Q`. -/
theorem pairsRel_and {P : I → I → Prop} {Q : I → I → I → I → Prop} {sel out : List I} (h : PairsRel Q sel out) :
    Pairs P sel → PairsRel (fun a b c d => P a b ∧ Q a b c d) sel out := by
  induction h with
  | nil => exact fun _ => .nil
  | cons hq _ ih =>
    intro hp
    cases hp with
    | cons hab hrest => exact .cons ⟨hab, hq⟩ (ih hrest)

/-- From a single pair of chromosomes to the whole operator. -/
theorem canYield_of_single {single : List A → List A → M G (List A × List A)} {P : I → I → Prop}
    {Q : List A → List A → List A → List A → Prop}
    (hs : ∀ a b c, P a b → Q (X.ch a) (X.ch b) c.1 c.2 → CanYield (single (X.ch a) (X.ch b)) c)
    {sel out : List I} (h : Pairs P sel)
    (hq : PairsRel (fun a b c d => FreshlyMade X c ∧ FreshlyMade X d ∧ Q (X.ch a) (X.ch b) (X.ch c) (X.ch d)) sel out) :
    CanYield (applyPairs (liftSingle X single) sel) out := by
  refine canYield_pairs (Q := fun a b c d => P a b ∧ FreshlyMade X c ∧ FreshlyMade X d ∧
    Q (X.ch a) (X.ch b) (X.ch c) (X.ch d)) ?_ (pairsRel_and hq h) h.even
  rintro a b c d ⟨hp, hc, hd, hq⟩
  unfold liftSingle
  have := (hs a b (X.ch c, X.ch d) hp hq).bind_pure (f := fun x => (X.ofCh x.1, X.ofCh x.2))
  simp only at this
  rw [← hc, ← hd] at this
  exact this

theorem possible_of_single [Nonempty G] {single : List A → List A → M G (List A × List A)} {P : I → I → Prop}
    {Q : List A → List A → List A → List A → Prop}
    (hr : ∀ a b, P a b → Returns (single (X.ch a) (X.ch b)) fun c => Q (X.ch a) (X.ch b) c.1 c.2)
    (hs : ∀ a b c, P a b → Q (X.ch a) (X.ch b) c.1 c.2 → CanYield (single (X.ch a) (X.ch b)) c)
    {sel out : List I} (h : Pairs P sel) :
    MayYield (applyPairs (liftSingle X single) sel) out ↔
      PairsRel (fun a b c d => FreshlyMade X c ∧ FreshlyMade X d ∧ Q (X.ch a) (X.ch b) (X.ch c) (X.ch d)) sel out := by
  refine ⟨?_, fun hq => (canYield_of_single X hs h hq).may⟩
  intro hmay
  have hret : Returns (applyPairs (liftSingle X single) sel) (PairsRel (fun a b c d => FreshlyMade X c ∧
      FreshlyMade X d ∧ Q (X.ch a) (X.ch b) (X.ch c) (X.ch d)) sel) := by
    apply applyPairs_returns
    clear hmay
    induction h with
    | nil => exact .nil
    | cons hab _ ih =>
      refine .cons ?_ ih
      unfold liftSingle
      refine (hr _ _ hab).bind fun c hc => Returns.pure ?_
      simp only [FreshlyMade, X.ch_ofCh, true_and]
      exact hc
  obtain ⟨g, g', hg⟩ := hmay
  exact hret.ifReturns g _ _ hg

end pairs

section locus
variable {G U I A : Type} [LinearOrder U] [Zero U] [One U] {R : Rng G U} (X : ChromOps I A)

theorem singlePoint_can (hR : R.Full) {p1 p2 : List A} (hl : p1.length = p2.length) {cut : Nat}
    (hc : cut < p1.length) :
    CanYield (singlePoint R p1 p2) (p1.take cut ++ p2.drop cut, p2.take cut ++ p1.drop cut) := by
  unfold singlePoint
  refine (hR.genRange (Nat.zero_le cut) hc).bind ?_
  rw [pushLoci_eq (by omega) (by omega), pushLoci_eq (by omega) (by omega)]
  simp only [pure_bind]
  simp only [List.map_append]
  rw [map_fst_zip' (by rw [slice_length, slice_length] <;> omega),
    map_fst_zip' (by rw [slice_length, slice_length] <;> omega),
    map_snd_zip' (by rw [slice_length, slice_length] <;> omega),
    map_snd_zip' (by rw [slice_length, slice_length] <;> omega), slice_zero, slice_zero, slice_full]
  rw [hl, slice_full]
  exact .pure

/-- **C127, single point.** The possible outcomes are exactly the exchanges of a suffix, one cut point per pair,
each cut point below the length being possible for each pair independently. -/
theorem C127_single_point (hR : R.Full) {sel out : List I} (h : Pairs (SameLenPos X) sel) :
    MayYield (applyPairs (liftSingle X (singlePoint R)) sel) out ↔ PairsRel (fun a b c d =>
      FreshlyMade X c ∧ FreshlyMade X d ∧ ∃ cut, cut < (X.ch a).length ∧
        X.ch c = (X.ch a).take cut ++ (X.ch b).drop cut ∧
        X.ch d = (X.ch b).take cut ++ (X.ch a).drop cut) sel out := by
  have := hR.inhabited
  refine possible_of_single X (P := SameLenPos X) (Q := fun p1 p2 c d => ∃ cut, cut < p1.length ∧
    c = p1.take cut ++ p2.drop cut ∧ d = p2.take cut ++ p1.drop cut)
    (fun _ _ hab => singlePoint_returns R hab.1 hab.2) ?_ h
  rintro a b ⟨c, d⟩ hab ⟨cut, hc, rfl, rfl⟩
  exact singlePoint_can hR hab.1 hc

theorem twoPoint_can (hR : R.Full) {p1 p2 : List A} (hl : p1.length = p2.length) {lo hi : Nat} (hlo : lo ≤ hi)
    (hhi : hi < p1.length) :
    CanYield (twoPoint R p1 p2) (p1.take lo ++ slice p2 lo hi ++ p1.drop hi,
      p2.take lo ++ slice p1 lo hi ++ p2.drop hi) := by
  unfold twoPoint
  refine (CanYield.assert (by simp [hl])).bind ?_
  refine (hR.genRange (Nat.zero_le lo) (by omega)).bind ?_
  refine (hR.genRange (Nat.zero_le hi) hhi).bind ?_
  rw [if_pos hlo]
  simp only
  rw [pushLoci_eq (by omega) (by omega), pushLoci_eq (by omega) (by omega),
    pushLoci_eq (by omega) (by omega)]
  simp only [pure_bind]
  simp only [List.map_append]
  rw [map_fst_zip' (by rw [slice_length, slice_length] <;> omega),
    map_fst_zip' (by rw [slice_length, slice_length] <;> omega),
    map_fst_zip' (by rw [slice_length, slice_length] <;> omega),
    map_snd_zip' (by rw [slice_length, slice_length] <;> omega),
    map_snd_zip' (by rw [slice_length, slice_length] <;> omega),
    map_snd_zip' (by rw [slice_length, slice_length] <;> omega), slice_zero, slice_zero, slice_full]
  rw [hl, slice_full]
  exact .pure

/-- **C127, two points.** The possible outcomes are exactly the exchanges of a middle segment `[lo, hi)` with
`lo ≤ hi < length`, every such segment being possible for each pair independently (the last gene is never
exchanged). -/
theorem C127_two_point (hR : R.Full) {sel out : List I} (h : Pairs (SameLenPos X) sel) :
    MayYield (applyPairs (liftSingle X (twoPoint R)) sel) out ↔ PairsRel (fun a b c d =>
      FreshlyMade X c ∧ FreshlyMade X d ∧ ∃ lo hi, lo ≤ hi ∧ hi < (X.ch a).length ∧
        X.ch c = (X.ch a).take lo ++ ((X.ch b).take hi).drop lo ++ (X.ch a).drop hi ∧
        X.ch d = (X.ch b).take lo ++ ((X.ch a).take hi).drop lo ++ (X.ch b).drop hi) sel out := by
  have := hR.inhabited
  refine possible_of_single X (P := SameLenPos X) (Q := fun p1 p2 c d => ∃ lo hi, lo ≤ hi ∧ hi < p1.length ∧
    c = p1.take lo ++ (p2.take hi).drop lo ++ p1.drop hi ∧ d = p2.take lo ++ (p1.take hi).drop lo ++ p2.drop hi)
    (fun _ _ hab => twoPoint_returns R hab.1 hab.2) ?_ h
  rintro a b ⟨c, d⟩ hab ⟨lo, hi, h1, h2, rfl, rfl⟩
  exact twoPoint_can hR hab.1 h1 h2

/-- How multi-point crossover with sorted cut points `cuts` exchanges loci (C12). -/
def MultiPointRule (p1 p2 c1 c2 : List A) (cuts : List Nat) : Prop :=
  c1.length = p1.length ∧ c2.length = p1.length ∧ ∀ i, i < p1.length →
    let passed := cuts.countP (fun x => decide (x ≤ i))
    let exchanged := if cuts.headD 0 % 2 = 1 then passed % 2 = 1 else passed ≠ 0 ∧ passed % 2 = 0
    (exchanged → c1[i]? = p2[i]? ∧ c2[i]? = p1[i]?) ∧ (¬ exchanged → c1[i]? = p1[i]? ∧ c2[i]? = p2[i]?)

theorem MultiPointRule.unique {p1 p2 c1 c2 d1 d2 : List A} {cuts : List Nat}
    (hc : MultiPointRule p1 p2 c1 c2 cuts) (hd : MultiPointRule p1 p2 d1 d2 cuts) : c1 = d1 ∧ c2 = d2 := by
  obtain ⟨a1, a2, a3⟩ := hc
  obtain ⟨b1, b2, b3⟩ := hd
  have key : ∀ i, i < p1.length → c1[i]? = d1[i]? ∧ c2[i]? = d2[i]? := by
    intro i hi
    have ha := a3 i hi
    have hb := b3 i hi
    simp only at ha hb
    by_cases he : (if cuts.headD 0 % 2 = 1 then cuts.countP (fun x => decide (x ≤ i)) % 2 = 1
        else cuts.countP (fun x => decide (x ≤ i)) ≠ 0 ∧ cuts.countP (fun x => decide (x ≤ i)) % 2 = 0)
    · rw [(ha.1 he).1, (hb.1 he).1, (ha.1 he).2, (hb.1 he).2]; exact ⟨rfl, rfl⟩
    · rw [(ha.2 he).1, (hb.2 he).1, (ha.2 he).2, (hb.2 he).2]; exact ⟨rfl, rfl⟩
  constructor
  · apply List.ext_getElem?
    intro i
    by_cases hi : i < p1.length
    · exact (key i hi).1
    · rw [List.getElem?_eq_none (by omega), List.getElem?_eq_none (by omega)]
  · apply List.ext_getElem?
    intro i
    by_cases hi : i < p1.length
    · exact (key i hi).2
    · rw [List.getElem?_eq_none (by omega), List.getElem?_eq_none (by omega)]

theorem multiPointRule_mask {p1 p2 : List A} (hl : p1.length = p2.length) {c0 : Nat} {cs : List Nat}
    (hp : (c0 :: cs).Pairwise (· < ·)) (hx : ∀ x ∈ c0 :: cs, x < p1.length) :
    MultiPointRule p1 p2 (mix (actualMask p1.length (c0 :: cs)) p1 p2)
      (mix (actualMask p1.length (c0 :: cs)) p2 p1) (c0 :: cs) := by
  have hm := actualMask_length hp hx
  refine ⟨by rw [mix_length _ _ _ hm hl], by rw [mix_length _ _ _ (by omega) hl.symm, hl], ?_⟩
  intro i hi
  have key : (actualMask p1.length (c0 :: cs))[i]? = some (decide (i < c0 ∨
      ¬ ((cs.countP (fun x => decide (x ≤ i)) + c0) % 2 = 1))) := by
    unfold actualMask
    simp only [List.headD_cons]
    by_cases hc : i < c0
    · rw [List.getElem?_append_left (by simpa using hc), List.getElem?_replicate, if_pos hc]
      simp [hc]
    · rw [List.getElem?_append_right (by simpa using Nat.not_lt.1 hc), List.length_replicate,
        altMask_getElem? _ cs c0 _ _ hp hx (by omega), Nat.add_sub_cancel' (Nat.not_lt.1 hc)]
      rcases Nat.mod_two_eq_zero_or_one (cs.countP fun x => decide (x ≤ i)) with h3 | h3 <;>
        rcases Nat.mod_two_eq_zero_or_one c0 with h4 | h4 <;> simp [Nat.add_mod, h3, h4, hc]
  have hzero : i < c0 → cs.countP (fun x => decide (x ≤ i)) = 0 := by
    intro hc
    rw [List.countP_eq_zero]
    intro x hx'
    have := (List.pairwise_cons.1 hp).1 x hx'
    simp; omega
  simp only
  rw [mix_getElem? _ _ _ _ hm hl, mix_getElem? _ _ _ _ (by omega) hl.symm, key]
  simp only [List.headD_cons, List.countP_cons]
  generalize cs.countP (fun x => decide (x ≤ i)) = q at hzero ⊢
  by_cases hc : i < c0
  · have := hzero hc
    subst this
    have hc' : ¬ c0 ≤ i := by omega
    simp [hc, hc']
  · have hc' : c0 ≤ i := by omega
    rcases Nat.mod_two_eq_zero_or_one q with h3 | h3 <;> rcases Nat.mod_two_eq_zero_or_one c0 with h4 | h4 <;>
      simp [Nat.add_mod, h3, h4, hc, hc']

/-- **C127, multi point.** The possible outcomes are exactly those of the rule of C12, every set of `k` cut
points below the length being possible for each pair independently. -/
theorem C127_multi_point (hR : R.Full) {k : Nat} {sel out : List I} (hk : 1 ≤ k)
    (h : Pairs (fun a b => SameLen X a b ∧ k ≤ (X.ch a).length) sel) :
    MayYield (applyPairs (liftSingle X (multiPoint R k)) sel) out ↔ PairsRel (fun a b c d =>
      FreshlyMade X c ∧ FreshlyMade X d ∧ ∃ cuts : List Nat, cuts.length = k ∧ cuts.Pairwise (· < ·) ∧
        (∀ x ∈ cuts, x < (X.ch a).length) ∧ MultiPointRule (X.ch a) (X.ch b) (X.ch c) (X.ch d) cuts) sel out := by
  have := hR.inhabited
  refine possible_of_single X (P := fun a b => SameLen X a b ∧ k ≤ (X.ch a).length)
    (Q := fun p1 p2 c d => ∃ cuts : List Nat, cuts.length = k ∧ cuts.Pairwise (· < ·) ∧
        (∀ x ∈ cuts, x < p1.length) ∧ MultiPointRule p1 p2 c d cuts) ?_ ?_ h
  · rintro a b ⟨hl, hk'⟩
    refine (multiPoint_returns R hl hk' hk).mono ?_
    rintro ⟨c, d⟩ ⟨cuts, hlen, hp, hx, h1, h2⟩
    simp only at h1 h2
    refine ⟨cuts, hlen, hp, hx, ?_⟩
    cases cuts with
    | nil => simp at hlen; omega
    | cons c0 cs => rw [h1, h2]; exact multiPointRule_mask hl hp hx
  · rintro a b ⟨c, d⟩ ⟨hl, hk'⟩ ⟨cuts, hlen, hp, hx, hrule⟩
    cases cuts with
    | nil => simp at hlen; omega
    | cons c0 cs =>
      obtain ⟨e1, e2⟩ := hrule.unique (multiPointRule_mask hl hp hx)
      simp only at e1 e2
      subst e1; subst e2
      unfold multiPoint
      refine (CanYield.assert (by simpa [SameLen] using hl)).bind ?_
      refine (CanYield.assert (by simp [hk'])).bind ?_
      refine (CanYield.assert (by simp [hk])).bind ?_
      have hnd : (c0 :: cs).Nodup := hp.imp (fun h => Nat.ne_of_lt h)
      refine (hR.indexSample hlen hnd hx hk').bind ?_
      have hsort : (c0 :: cs).mergeSort (· ≤ ·) = c0 :: cs := by
        apply List.mergeSort_of_pairwise
        exact hp.imp (fun h => by simpa using Nat.le_of_lt h)
      rw [hsort, multiPointCuts_eq hl hp hx]
      exact .pure

theorem shuffle_order {n : Nat} {mask : List Bool} (hm : mask.length = n) :
    ∃ l : List Nat, l.Perm (List.range n) ∧ l.map (fun x => decide (x < mask.count true)) = mask := by
  induction mask generalizing n with
  | nil => subst hm; exact ⟨[], .refl _, rfl⟩
  | cons b ms ih =>
    obtain ⟨l, hl, hmap⟩ := ih rfl
    simp only [List.length_cons] at hm
    subst hm
    have hcount : ms.count true ≤ ms.length := List.count_le_length
    cases b with
    | false =>
      refine ⟨ms.length :: l, ?_, ?_⟩
      · rw [List.range_succ]
        exact (hl.cons _).trans (List.perm_append_singleton _ _).symm
      · rw [List.count_cons_of_ne (by decide), List.map_cons, hmap]
        simp; omega
    | true =>
      refine ⟨0 :: l.map (· + 1), ?_, ?_⟩
      · rw [List.range_succ_eq_map]
        exact (hl.map _).cons _
      · rw [List.count_cons_self, List.map_cons, List.map_map]
        have : ((fun x => decide (x < ms.count true + 1)) ∘ fun x => x + 1) =
            fun x => decide (x < ms.count true) := by
          funext x; simp
        rw [this, hmap]; simp

/-- **C127, shuffle.** The possible outcomes are exactly the mixes by a mask that takes at least one locus of
the first child from the second parent, every such mask being possible for each pair independently. -/
theorem C127_shuffle (hR : R.Full) {sel out : List I} (h : Pairs (SameLenPos X) sel) :
    MayYield (applyPairs (liftSingle X (shuffle R)) sel) out ↔ PairsRel (fun a b c d =>
      FreshlyMade X c ∧ FreshlyMade X d ∧ ∃ mask : List Bool, mask.length = (X.ch a).length ∧
        mask.count true < (X.ch a).length ∧
        X.ch c = mix mask (X.ch a) (X.ch b) ∧ X.ch d = mix mask (X.ch b) (X.ch a)) sel out := by
  have := hR.inhabited
  refine possible_of_single X (P := SameLenPos X) (Q := fun p1 p2 c d => ∃ mask : List Bool,
    mask.length = p1.length ∧ mask.count true < p1.length ∧ c = mix mask p1 p2 ∧ d = mix mask p2 p1)
    (fun _ _ hab => shuffle_returns R hab.1 hab.2) ?_ h
  rintro a b ⟨c, d⟩ hab ⟨mask, hm, hc, h1, h2⟩
  simp only at h1 h2
  subst h1; subst h2
  unfold shuffle
  obtain ⟨l, hl, hmap⟩ := shuffle_order hm
  refine (hR.genRange (Nat.zero_le _) hc).bind ?_
  refine (hR.genShuffle hl).bind ?_
  rw [hmap, maskOp_pure hab.1 hm]
  exact .pure

end locus

section uniform
variable {G K I A : Type} [Field K] [LinearOrder K] [IsStrictOrderedRing K] {R : Rng G K} (X : ChromOps I A)

theorem units_can (hR : R.Full) {test : K → Bool} (ht : ∃ u, 0 ≤ u ∧ u < 1 ∧ test u = true)
    (hf : ∃ u, 0 ≤ u ∧ u < 1 ∧ test u = false) (mask : List Bool) :
    ∃ vals : List K, vals.map test = mask ∧ CanYield (M.replicate mask.length R.genUnit) vals := by
  obtain ⟨ut, t1, t2, t3⟩ := ht
  obtain ⟨uf, f1, f2, f3⟩ := hf
  refine ⟨mask.map fun b => if b then ut else uf, ?_, CanYield.replicate (by simp) ?_⟩
  · rw [List.map_map]
    conv_rhs => rw [← List.map_id mask]
    apply List.map_congr_left
    intro b _
    cases b <;> simp [t3, f3]
  · intro y hy
    obtain ⟨b, _, rfl⟩ := List.mem_map.1 hy
    cases b
    · exact hR.genUnit f1 f2
    · exact hR.genUnit t1 t2

theorem uniform_can (hR : R.Full) {half : K} (h0 : 0 < half) (h1 : half < 1) {p1 p2 : List A}
    (hl : p1.length = p2.length) {mask : List Bool} (hm : mask.length = p1.length) :
    (R.clonesShareState = true → CanYield (uniform R half p1 p2) (mix mask p1 p2, mix mask p2 p1)) ∧
    MayYield (uniform R half p1 p2) (mix mask p1 p2, mix mask p2 p1) := by
  have := hR.inhabited
  obtain ⟨vals, hv, hc⟩ := units_can hR (test := fun v => decide (half ≤ v)) ⟨half, h0.le, h1, by simp⟩
    ⟨0, le_rfl, zero_lt_one, by simp [h0]⟩ mask
  rw [hm] at hc
  have hu : uniform R half p1 p2 = (R.onClone (M.replicate p1.length R.genUnit) >>= fun vals =>
      maskLoci p1 p2 0 (vals.map fun v => decide (half ≤ v)) >>= fun s =>
        pure (s.map Prod.fst, s.map Prod.snd)) := by
    unfold uniform
    rw [show (p1.length == p2.length) = true by simp [hl]]
    rfl
  have hend : (maskLoci p1 p2 0 (vals.map fun v => decide (half ≤ v)) >>= fun s =>
        pure (s.map Prod.fst, s.map Prod.snd) : M G _) = pure (mix mask p1 p2, mix mask p2 p1) := by
    rw [hv, maskOp_pure hl hm]
  rw [hu]
  constructor
  · intro hs
    refine (hc.onClone hs).bind ?_
    rw [hend]; exact .pure
  · obtain ⟨g, g', hg⟩ := (hc.may).onClone (R := R)
    exact ⟨g, g', by rw [M.bind_of_ok hg, hend]; rfl⟩

theorem uniformParameterized_can (hR : R.Full) {bias : K} (h0 : 0 ≤ bias) (h1 : bias < 1) {p1 p2 : List A}
    (hl : p1.length = p2.length) {mask : List Bool} (hm : mask.length = p1.length) :
    (R.clonesShareState = true → CanYield (uniformParameterized R bias p1 p2) (mix mask p1 p2, mix mask p2 p1)) ∧
    MayYield (uniformParameterized R bias p1 p2) (mix mask p1 p2, mix mask p2 p1) := by
  have := hR.inhabited
  obtain ⟨vals, hv, hc⟩ := units_can hR (test := fun v => decide (v ≤ bias)) ⟨0, le_rfl, zero_lt_one, by simp [h0]⟩
    ⟨(bias + 1) / 2, by linarith, by linarith, by
      rw [decide_eq_false_iff_not, not_le]; linarith⟩ mask
  rw [hm] at hc
  have hu : uniformParameterized R bias p1 p2 = (R.onClone (M.replicate p1.length R.genUnit) >>= fun vals =>
      maskLoci p1 p2 0 (vals.map fun v => decide (v ≤ bias)) >>= fun s =>
        pure (s.map Prod.fst, s.map Prod.snd)) := by
    unfold uniformParameterized
    rw [show (p1.length == p2.length) = true by simp [hl]]
    rfl
  have hend : (maskLoci p1 p2 0 (vals.map fun v => decide (v ≤ bias)) >>= fun s =>
        pure (s.map Prod.fst, s.map Prod.snd) : M G _) = pure (mix mask p1 p2, mix mask p2 p1) := by
    rw [hv, maskOp_pure hl hm]
  rw [hu]
  constructor
  · intro hs
    refine (hc.onClone hs).bind ?_
    rw [hend]; exact .pure
  · obtain ⟨g, g', hg⟩ := (hc.may).onClone (R := R)
    exact ⟨g, g', by rw [M.bind_of_ok hg, hend]; rfl⟩

/-- **C127, uniform crossovers, one pair.** Every mask is possible, with the literal `0.5` and with every bias
in `[0, 1)`. -/
theorem C127_uniform_pair (hR : R.Full) {half bias : K} (h0 : 0 < half) (h1 : half < 1) (b0 : 0 ≤ bias) (b1 : bias < 1)
    {p1 p2 : List A} (hl : p1.length = p2.length) {mask : List Bool} (hm : mask.length = p1.length) :
    MayYield (uniform R half p1 p2) (mix mask p1 p2, mix mask p2 p1) ∧
    MayYield (uniformParameterized R bias p1 p2) (mix mask p1 p2, mix mask p2 p1) :=
  ⟨(uniform_can hR h0 h1 hl hm).2, (uniformParameterized_can hR b0 b1 hl hm).2⟩

/-- **C127, uniform crossovers, generators whose clones share their state (`ThreadRng`).** The possible outcomes
are exactly the mixes by a mask, every mask being possible for each pair independently. -/
theorem C127_uniform (hR : R.Full) (hs : R.clonesShareState = true) {half bias : K} (h0 : 0 < half) (h1 : half < 1)
    (b0 : 0 ≤ bias) (b1 : bias < 1) {sel out : List I} (h : Pairs (SameLen X) sel) :
    (MayYield (applyPairs (liftSingle X (uniform R half)) sel) out ↔ PairsRel (fun a b c d =>
      FreshlyMade X c ∧ FreshlyMade X d ∧ ∃ mask : List Bool, mask.length = (X.ch a).length ∧
        X.ch c = mix mask (X.ch a) (X.ch b) ∧ X.ch d = mix mask (X.ch b) (X.ch a)) sel out) ∧
    (MayYield (applyPairs (liftSingle X (uniformParameterized R bias)) sel) out ↔ PairsRel (fun a b c d =>
      FreshlyMade X c ∧ FreshlyMade X d ∧ ∃ mask : List Bool, mask.length = (X.ch a).length ∧
        X.ch c = mix mask (X.ch a) (X.ch b) ∧ X.ch d = mix mask (X.ch b) (X.ch a)) sel out) := by
  have := hR.inhabited
  constructor
  · refine possible_of_single X (P := SameLen X) (Q := fun p1 p2 c d => ∃ mask : List Bool,
      mask.length = p1.length ∧ c = mix mask p1 p2 ∧ d = mix mask p2 p1) ?_ ?_ h
    · intro a b hab
      refine (uniform_returns R hab).mono ?_
      rintro c ⟨vals, hv, -, h1, h2⟩
      exact ⟨_, by simpa using hv, h1, h2⟩
    · rintro a b ⟨c, d⟩ hab ⟨mask, hm, e1, e2⟩
      simp only at e1 e2
      subst e1; subst e2
      exact (uniform_can hR h0 h1 hab hm).1 hs
  · refine possible_of_single X (P := SameLen X) (Q := fun p1 p2 c d => ∃ mask : List Bool,
      mask.length = p1.length ∧ c = mix mask p1 p2 ∧ d = mix mask p2 p1) ?_ ?_ h
    · intro a b hab
      refine (uniformParameterized_returns R hab).mono ?_
      rintro c ⟨vals, hv, -, h1, h2⟩
      exact ⟨_, by simpa using hv, h1, h2⟩
    · rintro a b ⟨c, d⟩ hab ⟨mask, hm, e1, e2⟩
      simp only at e1 e2
      subst e1; subst e2
      exact (uniformParameterized_can hR b0 b1 hab hm).1 hs

end uniform

section perm
variable {G U I A : Type} [LinearOrder U] [Zero U] [One U] [DecidableEq A] {R : Rng G U} (X : ChromOps I A)

theorem OrderedSpec.unique {p1 p2 c d : List A} {lo hi : Nat} (h : lo ≤ hi) (hc : c.length = p1.length)
    (hd : d.length = p1.length) (hhi : hi ≤ p1.length) (h1 : OrderedSpec p1 p2 c lo hi)
    (h2 : OrderedSpec p1 p2 d lo hi) : c = d := by
  have split : ∀ l : List A, l = l.take lo ++ (l.take hi).drop lo ++ l.drop hi := by
    intro l
    have e : l.take lo ++ (l.take hi).drop lo = l.take hi := by
      conv_rhs => rw [← List.take_append_drop lo (l.take hi)]
      rw [List.take_take, Nat.min_eq_left h]
    rw [e, List.take_append_drop]
  have hlen : (c.take lo).length = (d.take lo).length := by simp; omega
  obtain ⟨e1, e2⟩ := List.append_inj (h1.2.trans h2.2.symm) hlen
  rw [split c, split d, e1, e2, h1.1, h2.1]

theorem ordered_returns' {p1 p2 : List A} (hn : p1.Nodup) (hp : p1.Perm p2) (h0 : 0 < p1.length) :
    Returns (ordered R p1 p2) fun c => ∃ lo hi, lo < p1.length ∧ lo ≤ hi ∧ hi ≤ p1.length ∧
      c.1.length = p1.length ∧ c.2.length = p1.length ∧
      OrderedSpec p1 p2 c.1 lo hi ∧ OrderedSpec p2 p1 c.2 lo hi := by
  unfold ordered
  refine Returns.bind (Returns.assert (by simpa using hp.length_eq)) fun _ _ => ?_
  refine Returns.bind (R.genRange_returns h0) fun b hb => ?_
  refine Returns.bind (R.genRangeIncl_returns (Nat.le_of_lt hb.2)) fun e he => ?_
  obtain ⟨o1, h1, h2, h3⟩ := orderedChild_spec (G := G) hn hp he.1 he.2
  obtain ⟨o2, h1', h2', h3'⟩ := orderedChild_spec (G := G) (hp.nodup_iff.1 hn) hp.symm he.1
    (by rw [← hp.length_eq]; exact he.2)
  rw [h1, h1']
  exact Returns.pure ⟨b, e, hb.2, he.1, he.2, h2.length_eq, h2'.length_eq.trans hp.length_eq.symm, h3, h3'⟩

/-- **C127, ordered crossover.** The possible outcomes are exactly the pairs of children described by C18 for a
segment `[lo, hi)` with `lo < length`, every such segment being possible for each pair independently. -/
theorem C127_ordered (hR : R.Full) {sel out : List I} (h : Pairs (PermParents X) sel) :
    MayYield (applyPairs (liftSingle X (ordered R)) sel) out ↔ PairsRel (fun a b c d =>
      FreshlyMade X c ∧ FreshlyMade X d ∧ ∃ lo hi, lo < (X.ch a).length ∧ lo ≤ hi ∧ hi ≤ (X.ch a).length ∧
        (X.ch c).length = (X.ch a).length ∧ (X.ch d).length = (X.ch a).length ∧
        OrderedSpec (X.ch a) (X.ch b) (X.ch c) lo hi ∧ OrderedSpec (X.ch b) (X.ch a) (X.ch d) lo hi) sel out := by
  have := hR.inhabited
  refine possible_of_single X (P := PermParents X) (Q := fun p1 p2 c d => ∃ lo hi, lo < p1.length ∧ lo ≤ hi ∧
    hi ≤ p1.length ∧ c.length = p1.length ∧ d.length = p1.length ∧ OrderedSpec p1 p2 c lo hi ∧
    OrderedSpec p2 p1 d lo hi) (fun _ _ hab => ordered_returns' hab.1 hab.2.1 hab.2.2) ?_ h
  rintro a b ⟨c, d⟩ ⟨hn, hp, h0⟩ ⟨lo, hi, q1, q2, q3, q4, q5, q6, q7⟩
  simp only at q4 q5 q6 q7
  obtain ⟨o1, h1, h2, h3⟩ := orderedChild_spec (G := G) hn hp q2 q3
  obtain ⟨o2, h1', h2', h3'⟩ := orderedChild_spec (G := G) (hp.nodup_iff.1 hn) hp.symm q2
    (by rw [← hp.length_eq]; exact q3)
  have e1 : o1 = c := h3.unique q2 h2.length_eq q4 q3 q6
  have e2 : o2 = d := h3'.unique q2 h2'.length_eq (q5.trans hp.length_eq) (by rw [← hp.length_eq]; exact q3) q7
  subst e1; subst e2
  unfold ordered
  refine (CanYield.assert (by simpa using hp.length_eq)).bind ?_
  refine (hR.genRange (Nat.zero_le lo) q1).bind ?_
  refine (hR.genRangeIncl q2 q3).bind ?_
  rw [h1, h1']
  exact .pure

/-- **C127, PMX.** For every segment `[lo, hi)` with `lo < length` there is a possible outcome for that
segment (which is as C20 says). -/
theorem C127_pmx (hR : R.Full) {fuel : Nat} {p1 p2 : List A} (hn : p1.Nodup) (hp : p1.Perm p2)
    (hf : p1.length ≤ fuel) {lo hi : Nat} (hlo : lo < p1.length) (h : lo ≤ hi) (hhi : hi ≤ p1.length) :
    ∃ c d, CanYield (pmx R fuel p1 p2) (c, d) ∧ c.Perm p1 ∧ d.Perm p1 ∧
      PmxSpec p1 p2 c lo hi ∧ PmxSpec p2 p1 d lo hi := by
  obtain ⟨o1, h1, h2, h3⟩ := pmxChild_spec (G := G) hn hp hhi (b := lo) (fuel := fuel) (by omega)
  obtain ⟨o2, h1', h2', h3'⟩ := pmxChild_spec (G := G) (hp.nodup_iff.1 hn) hp.symm (b := lo) (e := hi) (fuel := fuel)
    (by rw [← hp.length_eq]; exact hhi) (by omega)
  refine ⟨o1, o2, ?_, h2, h2'.trans hp.symm, h3, h3'⟩
  unfold pmx
  refine (CanYield.assert (by simpa using hp.length_eq)).bind ?_
  refine (hR.genRange (Nat.zero_le lo) hlo).bind ?_
  refine (hR.genRangeIncl h hhi).bind ?_
  rw [h1, h1']
  exact .pure

/-- The rule of precedence-preservative crossover: the child's gene at locus `i` is the first gene of the parent
the mask names that does not occur before locus `i` in the child. -/
def PpxRule (mask : List Bool) (p1 p2 child : List A) : Prop :=
  child.length = p1.length ∧ ∀ (i : Nat) (m : Bool), mask[i]? = some m →
    child[i]? = (if m then p1 else p2).find? (fun g => decide (g ∉ child.take i))

theorem PpxRule.unique {mask : List Bool} {p1 p2 c d : List A} (hm : mask.length = p1.length)
    (hc : PpxRule mask p1 p2 c) (hd : PpxRule mask p1 p2 d) : c = d := by
  have key : ∀ i, i ≤ p1.length → c.take i = d.take i := by
    intro i
    induction i with
    | zero => intro _; simp
    | succ i ih =>
      intro hi
      have e := ih (by omega)
      obtain ⟨m, hmi⟩ : ∃ m, mask[i]? = some m := ⟨_, List.getElem?_eq_getElem (by omega)⟩
      rw [List.take_add_one, List.take_add_one, e, hc.2 i m hmi, hd.2 i m hmi, e]
  have := key p1.length le_rfl
  rwa [List.take_of_length_le (le_of_eq hc.1), List.take_of_length_le (le_of_eq hd.1)] at this

theorem find?_skip {p pre skip rest taken : List A} {g : A} (hp : p = pre ++ (skip ++ g :: rest))
    (h1 : ∀ x ∈ pre, x ∈ taken) (h2 : ∀ x ∈ skip, x ∈ taken) (hg : g ∉ taken) :
    p.find? (fun g => decide (g ∉ taken)) = some g := by
  rw [hp, List.find?_append, List.find?_append]
  rw [List.find?_eq_none.2 (by intro x hx; simp [h1 x hx]), List.find?_eq_none.2 (by intro x hx; simp [h2 x hx])]
  simp [hg]

theorem ppxGo_rule {p1 p2 : List A} (hn : p1.Nodup) (hp : p1.Perm p2) :
    ∀ (ms : List Bool) (taken rem1 rem2 : List A), ms.length + taken.length = p1.length →
      PpxInv p1 p2 taken rem1 rem2 →
      ∃ out, (ppxGo ms taken rem1 rem2 : M G _) = pure (taken ++ out) ∧ out.length = ms.length ∧
        ∀ (i : Nat) (m : Bool), ms[i]? = some m → out[i]? =
          (if m then p1 else p2).find? (fun g => decide (g ∉ taken ++ out.take i))
  | [], taken, rem1, rem2, hl, hi => ⟨[], by simp [ppxGo], rfl, by simp⟩
  | true :: ms, taken, rem1, rem2, hl, hi => by
    simp at hl
    obtain ⟨skip, g, rest, h1, h2, h3, h4⟩ := ppxNext_eq (G := G) rem1
      (exists_untaken hn (by omega) hi.suff1)
    subst h1
    have hgp : g ∈ p1 := by obtain ⟨pre, h, -⟩ := hi.suff1; rw [h]; simp
    obtain ⟨s1, s2, s3, s4⟩ := ppx_step hn h3 hi.suff1 h2 (.inl rfl) hi.nodup hi.sub hgp hi.prec
    obtain ⟨out, ho1, ho2, ho3⟩ := ppxGo_rule hn hp ms (taken ++ [g]) rest rem2 (by simp; omega)
      ⟨s1, by
        obtain ⟨pre, h, hx⟩ := hi.suff2
        exact ⟨pre, h, fun x hx' => by simp [hx x hx']⟩, s2, s3, s4⟩
    refine ⟨g :: out, ?_, by simp [ho2], ?_⟩
    · unfold ppxGo; rw [h4, pure_bind]; simp only; rw [ho1]; simp
    · intro i m hm
      cases i with
      | zero =>
        simp only [List.getElem?_cons_zero, Option.some.injEq] at hm
        subst hm
        obtain ⟨pre, hpre, hpt⟩ := hi.suff1
        simp only [List.getElem?_cons_zero, if_true, List.take_zero, List.append_nil]
        exact (find?_skip hpre hpt h2 h3).symm
      | succ i =>
        simp only [List.getElem?_cons_succ] at hm ⊢
        rw [ho3 i m hm]
        simp [List.append_assoc]
  | false :: ms, taken, rem1, rem2, hl, hi => by
    simp at hl
    have hn2 := hp.nodup_iff.1 hn
    obtain ⟨skip, g, rest, h1, h2, h3, h4⟩ := ppxNext_eq (G := G) rem2
      (exists_untaken hn2 (by rw [← hp.length_eq]; omega) hi.suff2)
    subst h1
    have hgp : g ∈ p1 := by obtain ⟨pre, h, -⟩ := hi.suff2; rw [hp.mem_iff, h]; simp
    obtain ⟨s1, s2, s3, s4⟩ := ppx_step hn2 h3 hi.suff2 h2 (.inr rfl) hi.nodup hi.sub hgp hi.prec
    obtain ⟨out, ho1, ho2, ho3⟩ := ppxGo_rule hn hp ms (taken ++ [g]) rem1 rest (by simp; omega)
      ⟨by
        obtain ⟨pre, h, hx⟩ := hi.suff1
        exact ⟨pre, h, fun x hx' => by simp [hx x hx']⟩, s1, s2, s3, s4⟩
    refine ⟨g :: out, ?_, by simp [ho2], ?_⟩
    · unfold ppxGo; rw [h4, pure_bind]; simp only; rw [ho1]; simp
    · intro i m hm
      cases i with
      | zero =>
        simp only [List.getElem?_cons_zero, Option.some.injEq] at hm
        subst hm
        obtain ⟨pre, hpre, hpt⟩ := hi.suff2
        simp only [List.getElem?_cons_zero, Bool.false_eq_true, if_false, List.take_zero, List.append_nil]
        exact (find?_skip hpre hpt h2 h3).symm
      | succ i =>
        simp only [List.getElem?_cons_succ] at hm ⊢
        rw [ho3 i m hm]
        simp [List.append_assoc]

theorem ppxChild_rule {p1 p2 : List A} (hn : p1.Nodup) (hp : p1.Perm p2) {mask : List Bool}
    (hm : mask.length = p1.length) :
    ∃ out, (ppxChild p1 p2 mask : M G _) = pure out ∧ PpxRule mask p1 p2 out := by
  obtain ⟨out, h1, h2, h3⟩ := ppxGo_rule (G := G) hn hp mask [] p1 p2 (by simpa using hm)
    ⟨⟨[], by simp, by simp⟩, ⟨[], by simp, by simp⟩, by simp, by simp, by simp⟩
  refine ⟨out, by simpa [ppxChild] using h1, by rw [h2, hm], ?_⟩
  intro i m hmi
  have := h3 i m hmi
  simpa using this

/-- **C127, PPX.** The possible outcomes are exactly the pairs of children made by the rule above with one mask
for both children (the second one with the parents exchanged), every mask being possible for each pair
independently. -/
theorem C127_ppx (hR : R.Full) {sel out : List I}
    (h : Pairs (fun a b => (X.ch a).Nodup ∧ (X.ch a).Perm (X.ch b)) sel) :
    MayYield (applyPairs (liftSingle X (ppx R)) sel) out ↔ PairsRel (fun a b c d =>
      FreshlyMade X c ∧ FreshlyMade X d ∧ ∃ mask : List Bool, mask.length = (X.ch a).length ∧
        PpxRule mask (X.ch a) (X.ch b) (X.ch c) ∧ PpxRule mask (X.ch b) (X.ch a) (X.ch d)) sel out := by
  have := hR.inhabited
  refine possible_of_single X (P := fun a b => (X.ch a).Nodup ∧ (X.ch a).Perm (X.ch b))
    (Q := fun p1 p2 c d => ∃ mask : List Bool, mask.length = p1.length ∧ PpxRule mask p1 p2 c ∧ PpxRule mask p2 p1 d)
    ?_ ?_ h
  · rintro a b ⟨hn, hp⟩
    unfold ppx
    refine Returns.bind (Returns.assert (by simpa using hp.length_eq)) fun _ _ => ?_
    refine Returns.bind (Returns.replicate R.genCoin_returns _) fun mask hm => ?_
    obtain ⟨o1, h1, h2⟩ := ppxChild_rule (G := G) hn hp hm.1
    obtain ⟨o2, h1', h2'⟩ := ppxChild_rule (G := G) (hp.nodup_iff.1 hn) hp.symm (hm.1.trans hp.length_eq)
    rw [h1, h1']
    exact Returns.pure ⟨mask, hm.1, h2, h2'⟩
  · rintro a b ⟨c, d⟩ ⟨hn, hp⟩ ⟨mask, hm, q1, q2⟩
    obtain ⟨o1, h1, h2⟩ := ppxChild_rule (G := G) hn hp hm
    obtain ⟨o2, h1', h2'⟩ := ppxChild_rule (G := G) (hp.nodup_iff.1 hn) hp.symm (hm.trans hp.length_eq)
    have e1 := h2.unique hm q1
    have e2 := h2'.unique (hm.trans hp.length_eq) q2
    simp only at e1 e2
    subst e1; subst e2
    unfold ppx
    refine (CanYield.assert (by simpa using hp.length_eq)).bind ?_
    refine (CanYield.replicate hm fun b _ => hR.genCoin b).bind ?_
    rw [h1, h1']
    exact .pure

end perm

/-- Non-vacuity: with the scripted generator, single-point crossover of two pairs can use cut point 2 for the
first and 1 for the second. -/
example : MayYield (applyPairs (liftSingle (Individual.chromOps (K := Int) Nat (.num 0)) (singlePoint (scripted false)))
    [⟨[1, 2, 3], .num 5⟩, ⟨[4, 5, 6], .num 7⟩, ⟨[1, 2], .num 5⟩, ⟨[8, 9], .num 7⟩])
    [⟨[1, 2, 6], .num 0⟩, ⟨[4, 5, 3], .num 0⟩, ⟨[1, 9], .num 0⟩, ⟨[8, 2], .num 0⟩] := by
  refine (C127_single_point _ (scripted_full false) ?_).2 ?_
  · exact .cons ⟨rfl, by decide⟩ (.cons ⟨rfl, by decide⟩ .nil)
  · exact .cons ⟨rfl, rfl, 2, by decide, rfl, rfl⟩ (.cons ⟨rfl, rfl, 1, by decide, rfl, rfl⟩ .nil)

/-- Non-vacuity: the mask `[true, false, false]` of PPX. -/
example : MayYield (applyPairs (liftSingle (Individual.chromOps (K := Int) Nat (.num 0)) (ppx (scripted false)))
    [⟨[1, 2, 3], .num 5⟩, ⟨[3, 1, 2], .num 7⟩])
    [⟨[1, 3, 2], .num 0⟩, ⟨[3, 1, 2], .num 0⟩] := by
  refine (C127_ppx _ (scripted_full false) ?_).2 ?_
  · exact .cons ⟨by decide, by decide⟩ .nil
  · refine .cons ⟨rfl, rfl, [true, false, false], rfl, ⟨rfl, ?_⟩, ⟨rfl, ?_⟩⟩ .nil
    · intro i m hm
      match i, hm with
      | 0, hm => cases hm; rfl
      | 1, hm => cases hm; rfl
      | 2, hm => cases hm; rfl
    · intro i m hm
      match i, hm with
      | 0, hm => cases hm; rfl
      | 1, hm => cases hm; rfl
      | 2, hm => cases hm; rfl

section instances
abbrev exX := Individual.chromOps (K := Int) Nat (.num 0)
example : MayYield (applyPairs (liftSingle exX (twoPoint (scripted false))) [⟨[1, 2, 3], .num 5⟩, ⟨[4, 5, 6], .num 7⟩])
    [⟨[1, 5, 3], .num 0⟩, ⟨[4, 2, 6], .num 0⟩] := by
  refine (C127_two_point _ (scripted_full false) ?_).2 ?_
  · exact .cons ⟨rfl, by decide⟩ .nil
  · exact .cons ⟨rfl, rfl, 1, 2, by decide, by decide, rfl, rfl⟩ .nil
example {out} := C127_multi_point exX (scripted_full false) (k := 2)
  (sel := [⟨[1, 2, 3], .num 5⟩, ⟨[4, 5, 6], .num 7⟩]) (out := out) (by decide) (.cons ⟨rfl, by decide⟩ .nil)
example : MayYield (applyPairs (liftSingle exX (shuffle (scripted false))) [⟨[1, 2, 3], .num 5⟩, ⟨[4, 5, 6], .num 7⟩])
    [⟨mix [true, false, true] [1, 2, 3] [4, 5, 6], .num 0⟩, ⟨mix [true, false, true] [4, 5, 6] [1, 2, 3], .num 0⟩] := by
  refine (C127_shuffle _ (scripted_full false) ?_).2 ?_
  · exact .cons ⟨rfl, by decide⟩ .nil
  · exact .cons ⟨rfl, rfl, [true, false, true], rfl, by decide, rfl, rfl⟩ .nil
example := C127_uniform_pair (A := Nat) (R := scripted false) (scripted_full false) (half := 1 / 2) (bias := 1 / 4) (by norm_num)
  (by norm_num) (by norm_num) (by norm_num) (p1 := [1, 2, 3]) (p2 := [4, 5, 6]) rfl (mask := [true, true, false]) rfl
example : MayYield (applyPairs (liftSingle exX (uniform (scripted true) (1 / 2 : ℚ)))
      [⟨[1, 2], .num 5⟩, ⟨[4, 5], .num 7⟩, ⟨[1, 2], .num 5⟩, ⟨[4, 5], .num 7⟩])
    [⟨mix [true, false] [1, 2] [4, 5], .num 0⟩, ⟨mix [true, false] [4, 5] [1, 2], .num 0⟩,
     ⟨mix [false, false] [1, 2] [4, 5], .num 0⟩, ⟨mix [false, false] [4, 5] [1, 2], .num 0⟩] := by
  refine (C127_uniform _ (scripted_full true) rfl (bias := (1 / 4 : ℚ)) (by norm_num) (by norm_num) (by norm_num)
    (by norm_num) ?_).1.2 ?_
  · exact .cons rfl (.cons rfl .nil)
  · exact .cons ⟨rfl, rfl, [true, false], rfl, rfl, rfl⟩ (.cons ⟨rfl, rfl, [false, false], rfl, rfl, rfl⟩ .nil)
example {out} := C127_ordered exX (scripted_full false)
  (sel := [⟨[1, 2, 3], .num 5⟩, ⟨[3, 1, 2], .num 7⟩]) (out := out) (.cons ⟨by decide, by decide⟩ .nil)
example := C127_pmx (R := scripted false) (scripted_full false) (fuel := 3) (p1 := [1, 2, 3]) (p2 := [3, 1, 2])
  (by decide) (by decide) (by decide) (lo := 1) (hi := 2) (by decide) (by decide) (by decide)
end instances

end Ecrs.Ga
