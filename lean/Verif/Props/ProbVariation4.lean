import Verif.Props.ProbVariation3

/-!
# C134, continued: the remaining crossover operators and the generators
-/

set_option linter.unusedSectionVars false

namespace Ecrs.Props
open Ecrs Ecrs.Ga MeasureTheory
open scoped ENNReal Nat

section
variable {G I A : Type} [MeasurableSpace G] {R : Rng G ℝ} {μ : Measure G}

/-! ## MultiPoint -/

/-- **C134, MultiPoint**: every set of `k` cut points below the length is equally likely. -/
theorem C134_multi_point (hR : Ideal R μ) {p1 p2 : List A} (hl : p1.length = p2.length) {k : Nat} (hk : 1 ≤ k) (hkn : k ≤ p1.length) :
    ∃ kids : Finset Nat → List A × List A,
      (∀ s ∈ (Finset.range p1.length).powersetCard k, MultiPointRule p1 p2 (kids s).1 (kids s).2 (s.sort (· ≤ ·))) ∧
      ∀ (Q : List A × List A → Prop) [DecidablePred Q], chance μ (multiPoint R k p1 p2) Q =
        ((((Finset.range p1.length).powersetCard k).filter fun s => Q (kids s)).card : ℝ≥0∞) / (p1.length.choose k) := by
  classical
  have := hR.isProbability
  have hsort : ∀ s ∈ (Finset.range p1.length).powersetCard k, (s.sort (· ≤ ·)).Pairwise (· < ·) ∧ (∀ x ∈ s.sort (· ≤ ·), x < p1.length) ∧
      ∃ c0 cs, s.sort (· ≤ ·) = c0 :: cs := by
    intro s hs
    obtain ⟨h1, h2⟩ := Finset.mem_powersetCard.1 hs
    refine ⟨Finset.sortedLT_sort s |>.pairwise, fun x hx => by simpa using h1 ((Finset.mem_sort _).1 hx), ?_⟩
    have : (s.sort (· ≤ ·)).length = k := by rw [Finset.length_sort, h2]
    cases hc : s.sort (· ≤ ·) with
    | nil => rw [hc] at this; simp at this; omega
    | cons c0 cs => exact ⟨c0, cs, rfl⟩
  set kids : Finset Nat → List A × List A := fun s =>
    (mix (actualMask p1.length (s.sort (· ≤ ·))) p1 p2, mix (actualMask p1.length (s.sort (· ≤ ·))) p2 p1) with hkids
  refine ⟨kids, ?_, ?_⟩
  · intro s hs
    obtain ⟨h1, h2, c0, cs, h3⟩ := hsort s hs
    simp only [hkids]
    rw [h3] at h1 h2 ⊢
    exact multiPointRule_mask hl h1 h2
  · intro Q _
    obtain ⟨F, hF, hc⟩ := samples_finset k (Finset.range p1.length)
    have hFs : (F : Set (List Nat)) = {l : List Nat | l.length = k ∧ l.Nodup ∧ ∀ i ∈ l, i < p1.length} := by
      ext l; simp [hF]
    have hmem : ∀ l ∈ F, l.toFinset ∈ (Finset.range p1.length).powersetCard k := by
      intro l hl'
      obtain ⟨h1, h2, h3⟩ := (hF l).1 hl'
      refine Finset.mem_powersetCard.2 ⟨fun i hi => h3 i (List.mem_toFinset.1 hi), ?_⟩
      rw [List.toFinset_card_of_nodup h2, h1]
    have hU : Uniform μ (R.indexSample p1.length k) (F : Set (List Nat)) := by rw [hFs]; exact hR.sample _ _ hkn
    have hUm : ∀ g a g', R.indexSample p1.length k g = .ok (a, g') → a ∈ F := fun g a g' h => by
      have := (R.indexSample_returns hkn).ifReturns g a g' h
      rw [hF]; simpa using this
    unfold multiPoint
    rw [assert_pure (by simp [hl]), pure_bind, assert_pure (by simpa using hkn), pure_bind, assert_pure (by simpa using hk), pure_bind]
    rw [(draw_chance_pure hU hUm (f := fun cuts => multiPointCuts p1 p2 (cuts.mergeSort (· ≤ ·))) (k := fun l => kids l.toFinset) ?_ Q).2]
    · rw [hc, Finset.card_range]
      have hfib : ((F.filter fun l => Q (kids l.toFinset)).card) =
          (((Finset.range p1.length).powersetCard k).filter fun s => Q (kids s)).card * k ! := by
        rw [Finset.card_eq_sum_card_fiberwise (f := List.toFinset) (t := ((Finset.range p1.length).powersetCard k).filter fun s => Q (kids s)),
          Finset.sum_congr rfl (g := fun _ => k !), Finset.sum_const, smul_eq_mul]
        · intro s hs
          obtain ⟨hs1, hs2⟩ := Finset.mem_filter.1 hs
          obtain ⟨hs3, hs4⟩ := Finset.mem_powersetCard.1 hs1
          obtain ⟨F', hF', hc'⟩ := samples_finset k s
          rw [hs4, Nat.descFactorial_self] at hc'
          rw [← hc']
          congr 1
          ext l
          rw [Finset.mem_filter, Finset.mem_filter, hF, hF']
          constructor
          · rintro ⟨⟨⟨h1, h2, h3⟩, h4⟩, rfl⟩
            exact ⟨h1, h2, fun i hi => List.mem_toFinset.2 hi⟩
          · rintro ⟨h1, h2, h3⟩
            have : l.toFinset = s := by
              apply Finset.eq_of_subset_of_card_le
              · intro i hi; exact h3 i (List.mem_toFinset.1 hi)
              · rw [hs4, List.toFinset_card_of_nodup h2, h1]
            exact ⟨⟨⟨h1, h2, fun i hi => hs3 (h3 i hi)⟩, by rw [this]; exact hs2⟩, this⟩
        · intro l hl'
          obtain ⟨h1, h2⟩ := Finset.mem_filter.1 hl'
          exact Finset.mem_filter.2 ⟨hmem l h1, h2⟩
      have hk0 : ((k ! : ℕ) : ℝ≥0∞) ≠ 0 := by exact_mod_cast (Nat.factorial_pos k).ne'
      rw [hfib, Nat.descFactorial_eq_factorial_mul_choose, mul_comm (k !) (p1.length.choose k), Nat.cast_mul, Nat.cast_mul,
        ENNReal.mul_div_mul_right _ _ hk0 (ENNReal.natCast_ne_top _)]
    · intro l hl'
      obtain ⟨h1, h2, h3⟩ := (hF l).1 hl'
      have hs : l.mergeSort (· ≤ ·) = l.toFinset.sort (· ≤ ·) := by
        have hp : (l.mergeSort (· ≤ ·)).Perm (l.toFinset.sort (· ≤ ·)) :=
          (List.mergeSort_perm l _).trans ((List.perm_ext_iff_of_nodup h2 (Finset.sort_nodup _ _)).2 fun i => by simp)
        refine List.Perm.eq_of_pairwise (le := (· ≤ ·)) (fun a b _ _ => Nat.le_antisymm) ?_ (Finset.pairwise_sort _ _) hp
        have := List.pairwise_mergeSort (le := fun a b : Nat => decide (a ≤ b)) (by intro a b c; simpa using Nat.le_trans)
          (by intro a b; simpa using Nat.le_total a b) l
        simpa using this
      obtain ⟨q1, q2, c0, cs, q3⟩ := hsort _ (hmem l hl')
      simp only [hkids]
      rw [hs]
      rw [q3] at q1 q2 ⊢
      exact multiPointCuts_eq hl q1 q2

/-! ## Ordered, PMX, PPX -/

/-- A segment drawn, then a computation. -/
theorem segment_chance (hR : Ideal R μ) {β : Type} {n : Nat} (hn : 0 < n) {f : Nat → Nat → M G β} {k : Nat → Nat → β}
    (hf : ∀ lo hi, lo < n → lo ≤ hi → hi ≤ n → f lo hi = pure (k lo hi)) (Q : β → Prop) [DecidablePred Q] :
    chance μ (R.genRange 0 n >>= fun lo => R.genRangeIncl lo n >>= f lo) Q =
      (∑ lo ∈ Finset.range n, (((Finset.Icc lo n).filter fun hi => Q (k lo hi)).card : ℝ≥0∞) / (n + 1 - lo : ℕ)) / n := by
  have := hR.isProbability
  have inner := fun lo (h : lo < n) => draw_chance_pure (upto_finset hR h.le) (upto_mem h.le) (f := f lo) (k := k lo)
    (fun hi hhi => hf lo hi h (Finset.mem_Icc.1 hhi).1 (Finset.mem_Icc.1 hhi).2) Q
  rw [(draw_chance (below_finset hR hn) (below_mem hn) (fun lo h => (inner lo (Finset.mem_Ico.1 h).2).1) Q
    fun lo h => (inner lo (Finset.mem_Ico.1 h).2).2).2]
  simp only [Nat.card_Ico, Nat.sub_zero, Nat.card_Icc, Finset.range_eq_Ico]

variable [DecidableEq A]

/-- **C134, OrderedCrossover**: the start of the kept segment is equally likely to be any position below the length, and
its end equally likely to be any from the start to the length. -/
theorem C134_ordered (hR : Ideal R μ) {p1 p2 : List A} (hn : p1.Nodup) (hp : p1.Perm p2) (h0 : 0 < p1.length) :
    ∃ kids : Nat → Nat → List A × List A,
      (∀ lo hi, lo < p1.length → lo ≤ hi → hi ≤ p1.length → (kids lo hi).1.Perm p1 ∧ (kids lo hi).2.Perm p2 ∧
        OrderedSpec p1 p2 (kids lo hi).1 lo hi ∧ OrderedSpec p2 p1 (kids lo hi).2 lo hi) ∧
      ∀ (Q : List A × List A → Prop) [DecidablePred Q], chance μ (ordered R p1 p2) Q =
        (∑ lo ∈ Finset.range p1.length, (((Finset.Icc lo p1.length).filter fun hi => Q (kids lo hi)).card : ℝ≥0∞) /
          (p1.length + 1 - lo : ℕ)) / p1.length := by
  have hs1 : ∀ lo hi, lo < p1.length → lo ≤ hi → hi ≤ p1.length → ∃ out, (orderedChild p1 p2 lo hi : M G _) = pure out ∧ out.Perm p1 ∧
      OrderedSpec p1 p2 out lo hi := fun lo hi _ h1 h2 => orderedChild_spec hn hp h1 h2
  have hs2 : ∀ lo hi, lo < p1.length → lo ≤ hi → hi ≤ p1.length → ∃ out, (orderedChild p2 p1 lo hi : M G _) = pure out ∧ out.Perm p2 ∧
      OrderedSpec p2 p1 out lo hi := fun lo hi _ h1 h2 => orderedChild_spec (hp.nodup_iff.1 hn) hp.symm h1 (by rw [← hp.length_eq]; exact h2)
  choose! k1 a1 b1 c1 using hs1
  choose! k2 a2 b2 c2 using hs2
  refine ⟨fun lo hi => (k1 lo hi, k2 lo hi), fun lo hi q1 q2 q3 => ⟨b1 lo hi q1 q2 q3, b2 lo hi q1 q2 q3, c1 lo hi q1 q2 q3, c2 lo hi q1 q2 q3⟩, ?_⟩
  intro Q _
  unfold ordered
  rw [assert_pure (by simpa using hp.length_eq), pure_bind]
  refine segment_chance hR h0 (fun lo hi q1 q2 q3 => ?_) Q
  rw [a1 lo hi q1 q2 q3, a2 lo hi q1 q2 q3, pure_bind, pure_bind]

/-- **C134, PMX**: the segment is drawn as in ordered crossover. -/
theorem C134_pmx (hR : Ideal R μ) {p1 p2 : List A} (hn : p1.Nodup) (hp : p1.Perm p2) (h0 : 0 < p1.length) {fuel : Nat}
    (hf : p1.length ≤ fuel) :
    ∃ kids : Nat → Nat → List A × List A,
      (∀ lo hi, lo < p1.length → lo ≤ hi → hi ≤ p1.length → (kids lo hi).1.Perm p1 ∧ (kids lo hi).2.Perm p2 ∧
        PmxSpec p1 p2 (kids lo hi).1 lo hi ∧ PmxSpec p2 p1 (kids lo hi).2 lo hi) ∧
      ∀ (Q : List A × List A → Prop) [DecidablePred Q], chance μ (pmx R fuel p1 p2) Q =
        (∑ lo ∈ Finset.range p1.length, (((Finset.Icc lo p1.length).filter fun hi => Q (kids lo hi)).card : ℝ≥0∞) /
          (p1.length + 1 - lo : ℕ)) / p1.length := by
  have hs1 : ∀ lo hi, lo < p1.length → lo ≤ hi → hi ≤ p1.length → ∃ out, (pmxChild fuel p1 p2 lo hi : M G _) = pure out ∧ out.Perm p1 ∧
      PmxSpec p1 p2 out lo hi := fun lo hi _ h1 h2 => pmxChild_spec hn hp h2 (by omega)
  have hs2 : ∀ lo hi, lo < p1.length → lo ≤ hi → hi ≤ p1.length → ∃ out, (pmxChild fuel p2 p1 lo hi : M G _) = pure out ∧ out.Perm p2 ∧
      PmxSpec p2 p1 out lo hi := fun lo hi _ h1 h2 =>
    pmxChild_spec (hp.nodup_iff.1 hn) hp.symm (by rw [← hp.length_eq]; exact h2) (by omega)
  choose! k1 a1 b1 c1 using hs1
  choose! k2 a2 b2 c2 using hs2
  refine ⟨fun lo hi => (k1 lo hi, k2 lo hi), fun lo hi q1 q2 q3 => ⟨b1 lo hi q1 q2 q3, b2 lo hi q1 q2 q3, c1 lo hi q1 q2 q3, c2 lo hi q1 q2 q3⟩, ?_⟩
  intro Q _
  unfold pmx
  rw [assert_pure (by simpa using hp.length_eq), pure_bind]
  refine segment_chance hR h0 (fun lo hi q1 q2 q3 => ?_) Q
  rw [a1 lo hi q1 q2 q3, a2 lo hi q1 q2 q3, pure_bind, pure_bind]

theorem coins_law (hR : Ideal R μ) (n : Nat) :
    Law μ (M.replicate n R.genCoin) fun bs => if bs.length = n then (2 ^ n : ℝ≥0∞)⁻¹ else 0 := by
  have := hR.isProbability
  refine (Law.replicate hR.coin n).congr fun bs => ?_
  split
  · next h =>
    rw [← h]
    simp only [Set.mem_univ, if_true, Set.ncard_univ, Nat.card_eq_fintype_card, Fintype.card_bool, List.map_const', List.prod_replicate]
    rw [ENNReal.inv_pow]
    rfl
  · rfl

/-- **C134, PPX**: every sequence of parents to take the next gene from is equally likely. -/
theorem C134_ppx (hR : Ideal R μ) {p1 p2 : List A} (hn : p1.Nodup) (hp : p1.Perm p2) :
    ∃ kids : List Bool → List A × List A,
      (∀ mask, mask.length = p1.length → PpxRule mask p1 p2 (kids mask).1 ∧ PpxRule mask p2 p1 (kids mask).2) ∧
      ∀ (Q : List A × List A → Prop) [DecidablePred Q], chance μ (ppx R p1 p2) Q =
        (((masks p1.length).filter fun mask => Q (kids mask)).card : ℝ≥0∞) / 2 ^ p1.length := by
  have := hR.isProbability
  have hs1 : ∀ mask : List Bool, mask.length = p1.length → ∃ out, (ppxChild p1 p2 mask : M G _) = pure out ∧ PpxRule mask p1 p2 out :=
    fun mask hm => ppxChild_rule hn hp hm
  have hs2 : ∀ mask : List Bool, mask.length = p1.length → ∃ out, (ppxChild p2 p1 mask : M G _) = pure out ∧ PpxRule mask p2 p1 out :=
    fun mask hm => ppxChild_rule (hp.nodup_iff.1 hn) hp.symm (hm.trans hp.length_eq)
  choose! k1 a1 b1 using hs1
  choose! k2 a2 b2 using hs2
  refine ⟨fun mask => (k1 mask, k2 mask), fun mask hm => ⟨b1 mask hm, b2 mask hm⟩, ?_⟩
  intro Q _
  unfold ppx
  rw [assert_pure (by simpa using hp.length_eq), pure_bind, bits_chance (coins_law hR _) replicate_length (k := fun mask => (k1 mask, k2 mask)) ?_ Q]
  · rw [Finset.sum_const, nsmul_eq_mul, div_eq_mul_inv]
  · intro mask hm
    rw [a1 mask hm, a2 mask hm, pure_bind, pure_bind]

omit [DecidableEq A]

/-! ## Generators -/

/-- **C134, BitStrings**: every population of bit strings is equally likely. -/
theorem C134_bit_strings (hR : Ideal R μ) (X : ChromOps I Bool) {dim count : Nat} {xs : List (List Bool)} (hx : xs.length = count)
    (hd : ∀ c ∈ xs, c.length = dim) :
    chance μ (bitStringsGenerate R X dim count) (· = xs.map X.ofCh) = (2 ^ (dim * count) : ℝ≥0∞)⁻¹ := by
  classical
  have := hR.isProbability
  have hinj : Function.Injective X.ofCh := fun a b h => by rw [← X.ch_ofCh a, h, X.ch_ofCh]
  unfold bitStringsGenerate
  rw [(((coins_law hR dim).map X.ofCh).replicate count).chance_eq, if_pos (by simpa using hx), List.map_map,
    List.map_congr_left (g := fun _ => (2 ^ dim : ℝ≥0∞)⁻¹)]
  · rw [List.map_const', List.prod_replicate, hx, ← ENNReal.inv_pow, ← pow_mul]
  · intro c hc
    simp only [Function.comp_apply]
    rw [tsum_eq_single c]
    · rw [if_pos rfl, if_pos (hd c hc)]
    · intro b hb
      rw [if_neg fun h => hb (hinj h)]

/-- **C134, RandomPermutations**: every population of orderings of the (different) genes is equally likely. -/
theorem C134_random_permutations (hR : Ideal R μ) (X : ChromOps I A) {genes : List A} (hg : genes.Nodup) {count : Nat}
    {xs : List (List A)} (hx : xs.length = count) (hp : ∀ c ∈ xs, c.Perm genes) :
    chance μ (permutationsGenerate R X genes count) (· = xs.map X.ofCh) = (((genes.length)! : ℝ≥0∞)⁻¹) ^ count := by
  classical
  have := hR.isProbability
  have hinj : Function.Injective X.ofCh := fun a b h => by rw [← X.ch_ofCh a, h, X.ch_ofCh]
  have hU := hR.shuffle genes.length
  have hUm : ∀ g a g', R.genShuffle genes.length g = .ok (a, g') → a ∈ {l : List Nat | l.Perm (List.range genes.length)} :=
    fun g a g' h => (R.genShuffle_returns _).ifReturns g a g' h
  have e : shuffled R genes = R.genShuffle genes.length >>= fun o => pure (o.filterMap fun i => genes[i]?) := by
    unfold shuffled
    funext g
    cases hgg : R.genShuffle genes.length g with
    | error x => rw [M.bind_of_error hgg, M.bind_of_error hgg]
    | ok r =>
      obtain ⟨o, g'⟩ := r
      have ho : o.Perm (List.range genes.length) := hUm g o g' hgg
      rw [M.bind_of_ok hgg, M.bind_of_ok hgg, forEach_idx_pure fun i hi => by simpa using ho.subset hi]
  have hlaw := Uniform.map hU (finite_perms _) fun o => o.filterMap fun i => genes[i]?
  rw [← e] at hlaw
  unfold permutationsGenerate
  rw [((hlaw.map X.ofCh).replicate count).chance_eq, if_pos (by simpa using hx), List.map_map,
    List.map_congr_left (g := fun _ => ((genes.length)! : ℝ≥0∞)⁻¹)]
  · rw [List.map_const', List.prod_replicate, hx]
  · intro c hc
    have hpc := hp c hc
    simp only [Function.comp_apply]
    rw [tsum_eq_single c]
    · rw [if_pos rfl, perms_ncard]
      have : ({l : List Nat | l.Perm (List.range genes.length)} ∩ {a | a.filterMap (fun i => genes[i]?) = c}) = {c.map genes.idxOf} := by
        ext is
        simp only [Set.mem_inter_iff, Set.mem_ofPred_eq, Set.mem_singleton_iff]
        constructor
        · rintro ⟨h1, h2⟩; exact filterMap_positions hg (fun i hi => by simpa using h1.subset hi) h2
        · rintro rfl
          have hm : ∀ x ∈ c, x ∈ genes := fun x hx => hpc.subset hx
          refine ⟨?_, ?_⟩
          · have h1 : (c.map genes.idxOf).Nodup := by
              refine (List.nodup_map_iff_inj_on (hpc.nodup_iff.2 hg)).2 ?_
              intro x hx' y _ hxy
              exact (List.idxOf_inj (hm x hx')).1 hxy
            refine (h1.subperm (l₂ := List.range genes.length) ?_).perm_of_length_le (by simp [hpc.length_eq])
            intro i hi
            obtain ⟨x, hx', rfl⟩ := List.mem_map.1 hi
            simpa using List.idxOf_lt_length_of_mem (hm x hx')
          · clear hx hp hpc hc
            induction c with
            | nil => rfl
            | cons x c ih =>
              have h0 := List.idxOf_lt_length_of_mem (hm x (by simp))
              rw [List.map_cons, List.filterMap_cons_some (f := fun i => genes[i]?) (List.getElem?_eq_getElem h0),
                ih fun y hy => hm y (by simp [hy]), List.getElem_idxOf]
      rw [this, Set.ncard_singleton, Nat.cast_one, one_div]
    · intro b hb
      rw [if_neg fun h => hb (hinj h)]

end

/-- Ideal generators exist. -/
example : ∃ (G : Type) (_ : MeasurableSpace G) (R : Rng G ℝ) (μ : Measure G), Ideal R μ ∧
    chance μ (flipBit R (1 / 4) [true, false, true]) (· = [true, true, true]) = ENNReal.ofReal (9 / 64) := by
  refine ⟨_, _, tapeRng, tapeLaw, tapeRng_ideal, ?_⟩
  refine (C134_flip_bit tapeRng_ideal (by norm_num) (by norm_num) (by rfl)).trans ?_
  congr 1
  rw [show ([true, false, true].zip [true, true, true]).countP (fun p => p.1 ≠ p.2) = 1 from rfl,
    show ([true, false, true].zip [true, true, true]).countP (fun p => p.1 = p.2) = 2 from rfl]
  norm_num

example := C134_multi_point tapeRng_ideal (p1 := [1, 2, 3]) (p2 := [4, 5, 6]) rfl (k := 2) (by decide) (by decide)
example := C134_ordered tapeRng_ideal (p1 := [1, 2, 3]) (p2 := [3, 1, 2]) (by decide) (by decide) (by decide)
example := C134_pmx tapeRng_ideal (p1 := [1, 2, 3]) (p2 := [3, 1, 2]) (by decide) (by decide) (by decide) (fuel := 3) (by decide)
example := C134_ppx tapeRng_ideal (p1 := [1, 2, 3]) (p2 := [3, 1, 2]) (by decide) (by decide)
example := C134_bit_strings tapeRng_ideal (Individual.chromOps (K := Nat) Bool (.num 0)) (dim := 2) (count := 2)
  (xs := [[true, false], [false, false]]) rfl (by decide)
example := C134_random_permutations tapeRng_ideal (Individual.chromOps (K := Nat) Nat (.num 0)) (genes := [1, 2, 3]) (by decide)
  (count := 2) (xs := [[3, 1, 2], [2, 1, 3]]) rfl (by decide)

end Ecrs.Props
