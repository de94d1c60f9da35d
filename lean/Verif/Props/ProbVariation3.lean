import Verif.Props.ProbVariation2
import Mathlib.Data.Nat.Choose.Basic
import Mathlib.Data.Finset.Powerset

/-!
# C134, continued: the remaining crossover operators and the generators
-/

set_option linter.unusedSectionVars false

namespace Ecrs.Props
open Ecrs Ecrs.Ga MeasureTheory
open scoped ENNReal Nat

section
variable {G I A : Type} [MeasurableSpace G] {R : Rng G ℝ} {μ : Measure G}

/-! ## Counting -/

/-- The orderings of a finite set whose pattern of a property is given. -/
theorem patterns_finset (p : Nat → Bool) : ∀ (ms : List Bool) (S : Finset Nat), (S.filter fun i => p i = true).card = ms.count true →
    (S.filter fun i => p i = false).card = ms.count false → ∃ F : Finset (List Nat),
      (∀ l, l ∈ F ↔ l.Nodup ∧ (∀ i, i ∈ l ↔ i ∈ S) ∧ l.map p = ms) ∧ F.card = (ms.count true)! * (ms.count false)!
  | [], S, h1, h2 => by
    have hS : S = ∅ := by
      rw [Finset.eq_empty_iff_forall_notMem]
      intro i hi
      cases hp : p i with
      | true =>
        have h : i ∈ S.filter fun i => p i = true := by simp [hi, hp]
        rw [List.count_nil, Finset.card_eq_zero] at h1
        rw [h1] at h
        simp at h
      | false =>
        have h : i ∈ S.filter fun i => p i = false := by simp [hi, hp]
        rw [List.count_nil, Finset.card_eq_zero] at h2
        rw [h2] at h
        simp at h
    subst hS
    refine ⟨{[]}, fun l => ?_, by simp⟩
    constructor
    · intro h; simp at h; subst h; simp
    · rintro ⟨-, -, h⟩; simp at h; simp [h]
  | m :: ms, S, h1, h2 => by
    classical
    have ih : ∀ a ∈ S.filter fun i => p i = m, ∃ F : Finset (List Nat), (∀ l, l ∈ F ↔ l.Nodup ∧ (∀ i, i ∈ l ↔ i ∈ S.erase a) ∧ l.map p = ms) ∧
        F.card = (ms.count true)! * (ms.count false)! := by
      intro a ha
      obtain ⟨haS, hpa⟩ := Finset.mem_filter.1 ha
      refine patterns_finset p ms (S.erase a) ?_ ?_
      · rw [Finset.filter_erase]
        cases m
        · rw [Finset.erase_eq_of_notMem (by simp [hpa]), h1]; simp
        · rw [Finset.card_erase_of_mem ha, h1]; simp
      · rw [Finset.filter_erase]
        cases m
        · rw [Finset.card_erase_of_mem ha, h2]; simp
        · rw [Finset.erase_eq_of_notMem (by simp [hpa]), h2]; simp
    choose! F hF hc using ih
    refine ⟨(S.filter fun i => p i = m).biUnion fun a => (F a).image (a :: ·), ?_, ?_⟩
    · intro l
      simp only [Finset.mem_biUnion, Finset.mem_image]
      constructor
      · rintro ⟨a, ha, l', hl', rfl⟩
        obtain ⟨q1, q2, q3⟩ := (hF a ha _).1 hl'
        obtain ⟨haS, hpa⟩ := Finset.mem_filter.1 ha
        refine ⟨?_, ?_, by simp [hpa, q3]⟩
        · rw [List.nodup_cons]
          exact ⟨fun h => (Finset.notMem_erase a S) ((q2 a).1 h), q1⟩
        · intro i
          rw [List.mem_cons, q2, Finset.mem_erase]
          constructor
          · rintro (rfl | h); exacts [haS, h.2]
          · intro h
            by_cases e : i = a
            · exact .inl e
            · exact .inr ⟨e, h⟩
      · rintro ⟨q1, q2, q3⟩
        cases l with
        | nil => simp at q3
        | cons a l =>
          rw [List.nodup_cons] at q1
          rw [List.map_cons, List.cons.injEq] at q3
          have ha : a ∈ S.filter fun i => p i = m := Finset.mem_filter.2 ⟨(q2 a).1 (by simp), q3.1⟩
          refine ⟨a, ha, l, (hF a ha _).2 ⟨q1.2, fun i => ?_, q3.2⟩, rfl⟩
          rw [Finset.mem_erase, ← q2 i, List.mem_cons]
          constructor
          · intro h
            refine ⟨?_, .inr h⟩
            rintro rfl; exact q1.1 h
          · rintro ⟨h, h' | h'⟩; exacts [absurd h' h, h']
    · rw [Finset.card_biUnion]
      · rw [Finset.sum_congr rfl (g := fun _ => (ms.count true)! * (ms.count false)!)]
        · rw [Finset.sum_const, smul_eq_mul]
          cases m
          · rw [h2]; simp [Nat.factorial_succ]; ring
          · rw [h1]; simp [Nat.factorial_succ]; ring
        · intro a ha
          rw [Finset.card_image_of_injective _ (List.cons_injective), hc a ha]
      · intro a _ b _ hab
        rw [Function.onFun, Finset.disjoint_left]
        intro l h1 h2
        obtain ⟨l1, -, rfl⟩ := Finset.mem_image.1 h1
        obtain ⟨l2, -, h3⟩ := Finset.mem_image.1 h2
        exact hab (List.cons.inj h3).1.symm

theorem perm_range_iff {n : Nat} {l : List Nat} : l.Perm (List.range n) ↔ l.Nodup ∧ ∀ i, i ∈ l ↔ i ∈ Finset.range n := by
  constructor
  · intro h
    exact ⟨h.nodup_iff.2 List.nodup_range, fun i => by rw [h.mem_iff]; simp⟩
  · rintro ⟨h1, h2⟩
    exact (List.perm_ext_iff_of_nodup h1 List.nodup_range).2 fun i => by rw [h2]; simp

theorem perms_ncard (n : Nat) : {l : List Nat | l.Perm (List.range n)}.ncard = n ! := by
  have : {l : List Nat | l.Perm (List.range n)} = {l : List Nat | l.length = n ∧ l.Nodup ∧ ∀ i ∈ l, i < n} := by
    ext l
    simp only [Set.mem_ofPred_eq]
    constructor
    · intro h
      exact ⟨by simpa using h.length_eq, h.nodup_iff.2 List.nodup_range, fun i hi => by simpa using h.subset hi⟩
    · rintro ⟨h1, h2, h3⟩
      exact (h2.subperm (l₂ := List.range n) fun i hi => by simpa using h3 i hi).perm_of_length_le (by simp [h1])
  rw [this, samples_ncard_range, Nat.descFactorial_self]

/-! ## Shuffle -/

/-- The random choice of the positions that shuffle crossover leaves in place. -/
theorem shuffle_mask_law (hR : Ideal R μ) {n : Nat} (hn : 0 < n) :
    Law μ (R.genRange 0 n >>= fun cut => R.genShuffle n >>= fun o => pure (o.map fun x => decide (x < cut))) fun ms =>
      if ms.length = n then (if ms.count true < n then ((n * n.choose (ms.count true) : ℕ) : ℝ≥0∞)⁻¹ else 0) else 0 := by
  classical
  have := hR.isProbability
  have h := Uniform.bind (hR.below 0 n hn) (Set.finite_Ico 0 n) genRange_mem
    (f := fun cut => R.genShuffle n >>= fun o => pure (o.map fun x => decide (x < cut)))
    fun cut _ => Uniform.map (hR.shuffle n) (finite_perms n) fun o => o.map fun x => decide (x < cut)
  refine h.congr fun ms => ?_
  rw [ico_toFinset, ncard_ico, perms_ncard]
  have hcount : ∀ (cut : Nat) (l : List Nat), l.Perm (List.range n) → cut < n → (l.map fun x => decide (x < cut)).count true = cut := by
    intro cut l hl hc
    rw [List.count, List.countP_map, hl.countP_eq]
    clear hl
    have : ∀ m, List.countP ((fun b => b == true) ∘ fun x => decide (x < cut)) (List.range m) = min m cut := by
      intro m
      induction m with
      | zero => simp
      | succ m ih =>
        rw [List.range_succ, List.countP_append, ih]
        by_cases h : m < cut <;> simp [h] <;> omega
    rw [this]; omega
  by_cases hlen : ms.length = n
  swap
  · rw [if_neg hlen]
    rw [Finset.sum_eq_zero, ENNReal.zero_div]
    intro cut _
    have : ({l : List Nat | l.Perm (List.range n)} ∩ {o | (o.map fun x => decide (x < cut)) = ms}) = ∅ := by
      rw [Set.eq_empty_iff_forall_notMem]
      rintro l ⟨h1, h2⟩
      apply hlen
      rw [← (show l.map _ = ms from h2), List.length_map, (show l.Perm _ from h1).length_eq, List.length_range]
    rw [this, Set.ncard_empty]; simp
  rw [if_pos hlen]
  have hother : ∀ cut ∈ Finset.range n, cut ≠ ms.count true →
      (({l : List Nat | l.Perm (List.range n)} ∩ {o | (o.map fun x => decide (x < cut)) = ms}).ncard : ℝ≥0∞) / (n ! : ℕ) = 0 := by
    intro cut hc hne
    have : ({l : List Nat | l.Perm (List.range n)} ∩ {o | (o.map fun x => decide (x < cut)) = ms}) = ∅ := by
      rw [Set.eq_empty_iff_forall_notMem]
      rintro l ⟨h1, h2⟩
      apply hne
      rw [← (show l.map _ = ms from h2), hcount cut l h1 (Finset.mem_range.1 hc)]
    rw [this, Set.ncard_empty]; simp
  split
  · next hlt =>
    rw [Finset.sum_eq_single_of_mem (ms.count true) (Finset.mem_range.2 hlt) fun b hb hne => hother b hb hne]
    set k := ms.count true with hk
    have hcf : ms.count false = n - k := by
      have : ms.count true + ms.count false = ms.length := by
        clear * -
        induction ms with
        | nil => rfl
        | cons b bs ih => cases b <;> simp <;> omega
      omega
    obtain ⟨F, hF, hc⟩ := patterns_finset (fun x => decide (x < k)) ms (Finset.range n)
      (by
        have : (Finset.range n).filter (fun i => decide (i < k) = true) = Finset.range k := by
          ext i; simp; omega
        rw [this, Finset.card_range])
      (by
        have : (Finset.range n).filter (fun i => decide (i < k) = false) = Finset.Ico k n := by
          ext i; simp; omega
        rw [this, Nat.card_Ico, hcf])
    have hset : ({l : List Nat | l.Perm (List.range n)} ∩ {o | (o.map fun x => decide (x < k)) = ms}) = (F : Set (List Nat)) := by
      ext l
      simp only [Set.mem_inter_iff, Set.mem_ofPred_eq, Finset.mem_coe, hF, perm_range_iff, and_assoc]
    rw [hset, Set.ncard_coe_finset, hc, hcf, ← hk]
    have hfac := Nat.choose_mul_factorial_mul_factorial hlt.le
    have h1 : ((k ! * (n - k)! : ℕ) : ℝ≥0∞) ≠ 0 := by
      exact_mod_cast (Nat.mul_pos (Nat.factorial_pos _) (Nat.factorial_pos _)).ne'
    have h2 : ((k ! * (n - k)! : ℕ) : ℝ≥0∞) / (n ! : ℕ) = ((n.choose k : ℕ) : ℝ≥0∞)⁻¹ := by
      rw [← hfac, mul_assoc, Nat.cast_mul (n.choose k), ENNReal.div_eq_inv_mul, ENNReal.mul_inv (.inr (ENNReal.natCast_ne_top _)) (.inr h1), mul_assoc,
        ENNReal.inv_mul_cancel h1 (ENNReal.natCast_ne_top _), mul_one]
    rw [h2, Nat.cast_mul, ENNReal.mul_inv (.inr (ENNReal.natCast_ne_top _)) (.inl (ENNReal.natCast_ne_top _)), div_eq_mul_inv, mul_comm]
  · next hlt =>
    rw [Finset.sum_eq_zero, ENNReal.zero_div]
    intro cut hc
    exact hother cut hc (by rintro rfl; exact hlt (Finset.mem_range.1 hc))

/-- **C134, Shuffle**: the number of positions not exchanged is uniform below the length, and given that number every set
of positions is equally likely. -/
theorem C134_shuffle (hR : Ideal R μ) {p1 p2 : List A} (hl : p1.length = p2.length) (h0 : 0 < p1.length)
    (Q : List A × List A → Prop) [DecidablePred Q] :
    chance μ (shuffle R p1 p2) Q = ∑ mask ∈ masks p1.length with mask.count true < p1.length ∧ Q (mix mask p1 p2, mix mask p2 p1),
      ((p1.length * p1.length.choose (mask.count true) : ℕ) : ℝ≥0∞)⁻¹ := by
  classical
  have := hR.isProbability
  have e : shuffle R p1 p2 = (R.genRange 0 p1.length >>= fun cut => R.genShuffle p1.length >>= fun o =>
      pure (o.map fun x => decide (x < cut))) >>= fun ms => maskLoci p1 p2 0 ms >>= fun s => pure (s.map Prod.fst, s.map Prod.snd) := by
    unfold shuffle
    simp only [bind_assoc, pure_bind]
  rw [e, bits_chance (shuffle_mask_law hR h0) ?_ (k := fun mask => (mix mask p1 p2, mix mask p2 p1)) ?_ Q]
  · rw [Finset.sum_filter, Finset.sum_filter]
    refine Finset.sum_congr rfl fun ms _ => ?_
    by_cases h1 : Q (mix ms p1 p2, mix ms p2 p1) <;> by_cases h2 : ms.count true < p1.length <;> simp [h1, h2]
  · intro g ms g' h
    obtain ⟨cut, g1, h1, h2⟩ := M.bind_ok_iff.1 h
    obtain ⟨o, g2, h3, h4⟩ := M.bind_ok_iff.1 h2
    rw [M.pure_run] at h4
    obtain ⟨rfl, -⟩ := Prod.mk.inj (Except.ok.inj h4)
    have : o.Perm (List.range p1.length) := (R.genShuffle_returns _).ifReturns g1 o g2 h3
    rw [List.length_map, this.length_eq, List.length_range]
  · intro ms hms
    rw [maskLoci_eq p1 p2 ms 0 (by omega) hl, pure_bind]
    simp only [List.drop_zero]
    rw [map_fst_zip', map_snd_zip'] <;>
      rw [mix_length _ _ _ hms hl, mix_length _ _ _ (by omega) hl.symm] <;> omega

end

example := C134_shuffle tapeRng_ideal (p1 := [1, 2, 3]) (p2 := [4, 5, 6]) rfl (by decide) (fun c => c.1 = [1, 5, 6])

end Ecrs.Props
