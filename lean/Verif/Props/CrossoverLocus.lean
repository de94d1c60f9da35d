import Verif.Ga.CrossoverLocusLemmas
import Verif.CounterRng

/-!
# Properties of the locus-wise crossover operators: C10–C16, C23 (and C09 for them)

Specification vocabulary (defined at the top of `Verif.Ga.CrossoverLemmas` and
`Verif.Ga.CrossoverLocusLemmas`): `Pairs P sel` – the selected slice splits into consecutive pairs
satisfying `P`; `PairsRel Q sel out` – the output consists of consecutive pairs `(c, d)` related to the
consecutive selected pairs `(a, b)` by `Q a b c d`; `mix mask x y` – take each gene from `x` where the
mask is true, else from `y`; `intendedMask n cuts` – the alternating multi-point mask.
-/

namespace Ecrs.Ga
open Ecrs

section
variable {G U I A : Type} [LinearOrder U] [Zero U] [One U] (R : Rng G U) (X : ChromOps I A)

/-- Both parents have the same number of genes. -/
def SameLen (a b : I) : Prop := (X.ch a).length = (X.ch b).length

/-- Both parents have the same, non-zero number of genes. -/
def SameLenPos (a b : I) : Prop := (X.ch a).length = (X.ch b).length ∧ 0 < (X.ch a).length

/-- Lift a per-pair fact about a chromosome operator to `apply`. -/
theorem apply_of_single {single : List A → List A → M G (List A × List A)}
    {P : I → I → Prop} {Q : List A → List A → List A → List A → Prop}
    (hs : ∀ a b, P a b → Returns (single (X.ch a) (X.ch b)) fun c => Q (X.ch a) (X.ch b) c.1 c.2)
    {sel : List I} (h : Pairs P sel) :
    Returns (applyPairs (liftSingle X single) sel)
      (PairsRel (fun a b c d => Q (X.ch a) (X.ch b) (X.ch c) (X.ch d)) sel) := by
  apply applyPairs_returns
  induction h with
  | nil => exact .nil
  | cons hab _ ih => exact .cons (liftSingle_returns (hs _ _ hab)) ih

/-! ## Single point -/

/-- **C10.** Single-point crossover of pairs of equal non-zero length never panics; each pair of children
is the pair of parents with the suffixes behind one cut point exchanged. -/
theorem C10_single_point {sel : List I} (h : Pairs (SameLenPos X) sel) :
    Returns (applyPairs (liftSingle X (singlePoint R)) sel) (PairsRel (fun a b c d =>
      ∃ cut, cut < (X.ch a).length ∧
        X.ch c = (X.ch a).take cut ++ (X.ch b).drop cut ∧
        X.ch d = (X.ch b).take cut ++ (X.ch a).drop cut) sel) :=
  apply_of_single X (Q := fun p1 p2 c1 c2 => ∃ cut, cut < p1.length ∧
      c1 = p1.take cut ++ p2.drop cut ∧ c2 = p2.take cut ++ p1.drop cut)
    (fun _ _ hab => singlePoint_returns R hab.1 hab.2) h

/-- **C10, panics.** An empty first parent, or a second parent shorter than the first, makes single-point
crossover panic for every random draw. (Longer second parents are silently truncated, see below.) -/
theorem C10_single_point_panics {p1 p2 : List A} (h : p1 = [] ∨ p2.length < p1.length) :
    Panics (singlePoint R p1 p2) := by
  unfold singlePoint
  rcases h with rfl | h
  · exact Panics.bind_left (R.genRange_panics (by simp))
  · refine Panics.bind_right R.genRange_ifReturns fun cut hc => ?_
    refine Panics.bind_right IfReturns.trivial fun s1 _ => ?_
    exact Panics.bind_left (pushLoci_panics hc.2 (.inl h))

/-- **C10, truncation.** With a longer second parent both children have the length of the first. -/
theorem C10_single_point_truncates {p1 p2 : List A} (h : p1.length ≤ p2.length) (h0 : 0 < p1.length) :
    Returns (singlePoint R p1 p2) fun c => c.1.length = p1.length ∧ c.2.length = p1.length := by
  unfold singlePoint
  refine Returns.bind (R.genRange_returns h0) fun cut hc => ?_
  rw [pushLoci_eq (by omega) (by omega), pushLoci_eq (by omega) (by omega)]
  simp only [pure_bind]
  apply Returns.pure
  have h1 : (slice p1 0 cut).length = cut := by rw [slice_length (by omega)]; omega
  have h2 : (slice p2 0 cut).length = cut := by rw [slice_length (by omega)]; omega
  have h3 : (slice p1 cut p1.length).length = p1.length - cut := slice_length (by omega)
  have h4 : (slice p2 cut p1.length).length = p1.length - cut := slice_length (by omega)
  simp [h1, h2, h3, h4]; omega

/-! ## Two point -/

/-- **C11.** Two-point crossover of pairs of equal non-zero length never panics; the children are the
parents with the genes of one segment `[lo, hi)` exchanged. -/
theorem C11_two_point {sel : List I} (h : Pairs (SameLenPos X) sel) :
    Returns (applyPairs (liftSingle X (twoPoint R)) sel) (PairsRel (fun a b c d =>
      ∃ lo hi, lo ≤ hi ∧ hi < (X.ch a).length ∧
        X.ch c = (X.ch a).take lo ++ ((X.ch b).take hi).drop lo ++ (X.ch a).drop hi ∧
        X.ch d = (X.ch b).take lo ++ ((X.ch a).take hi).drop lo ++ (X.ch b).drop hi) sel) :=
  apply_of_single X (Q := fun p1 p2 c1 c2 => ∃ b e, b ≤ e ∧ e < p1.length ∧
      c1 = p1.take b ++ (p2.take e).drop b ++ p1.drop e ∧
      c2 = p2.take b ++ (p1.take e).drop b ++ p2.drop e)
    (fun _ _ hab => twoPoint_returns R hab.1 hab.2) h

/-- **C11, panics.** Parents of different length, or empty parents, make two-point crossover panic. -/
theorem C11_two_point_panics {p1 p2 : List A} (h : p1.length ≠ p2.length ∨ p1 = []) :
    Panics (twoPoint R p1 p2) := by
  unfold twoPoint
  by_cases hl : p1.length = p2.length
  · rcases h with h | rfl
    · exact absurd hl h
    · exact Panics.bind_right IfReturns.trivial fun _ _ =>
        Panics.bind_left (R.genRange_panics (by simp))
  · exact Panics.bind_left (Panics.assert (by simpa using hl))

/-! ## Multi point -/

/-- **C13.** Multi-point crossover with `1 ≤ k ≤ n` cut points of equal-length parents never panics and is
locus-wise and complementary: at every locus `i` the children hold the parents' genes of that locus,
one each. -/
theorem C13_multi_point_complementary {k : Nat} {sel : List I} (hk : 1 ≤ k)
    (h : Pairs (fun a b => SameLen X a b ∧ k ≤ (X.ch a).length) sel) :
    Returns (applyPairs (liftSingle X (multiPoint R k)) sel) (PairsRel (fun a b c d =>
      (X.ch c).length = (X.ch a).length ∧ (X.ch d).length = (X.ch a).length ∧
      ∀ i : Nat, ((X.ch c)[i]? = (X.ch a)[i]? ∧ (X.ch d)[i]? = (X.ch b)[i]?) ∨
           ((X.ch c)[i]? = (X.ch b)[i]? ∧ (X.ch d)[i]? = (X.ch a)[i]?)) sel) := by
  refine apply_of_single X (P := fun a b => SameLen X a b ∧ k ≤ (X.ch a).length)
    (Q := fun p1 p2 c1 c2 => c1.length = p1.length ∧ c2.length = p1.length ∧
      ∀ i : Nat, (c1[i]? = p1[i]? ∧ c2[i]? = p2[i]?) ∨ (c1[i]? = p2[i]? ∧ c2[i]? = p1[i]?)) ?_ h
  rintro a b ⟨hl, hk'⟩
  refine (multiPoint_returns R hl hk' hk).mono ?_
  rintro ⟨c1, c2⟩ ⟨cuts, hlen, hp, hx, h1, h2⟩
  obtain ⟨c0, cs, rfl⟩ : ∃ c0 cs, cuts = c0 :: cs := by
    cases cuts with
    | nil => simp at hlen; omega
    | cons c cs => exact ⟨c, cs, rfl⟩
  have hm := actualMask_length hp hx
  simp only at h1 h2 ⊢
  have hl' : (X.ch a).length = (X.ch b).length := hl
  refine ⟨by rw [h1, mix_length _ _ _ hm hl'], by rw [h2, mix_length _ _ _ (by omega) hl'.symm, hl'], ?_⟩
  intro i
  rw [h1, h2, mix_getElem? _ _ _ _ hm hl', mix_getElem? _ _ _ _ (by omega) hl'.symm]
  by_cases ht : (actualMask (X.ch a).length (c0 :: cs))[i]? = some true
  · left; rw [if_pos ht, if_pos ht]; exact ⟨rfl, rfl⟩
  · right; rw [if_neg ht, if_neg ht]; exact ⟨rfl, rfl⟩

/-- **C13, panics.** Unequal lengths, more cut points than genes, or no cut point make it panic. -/
theorem C13_multi_point_panics {k : Nat} {p1 p2 : List A}
    (h : p1.length ≠ p2.length ∨ p1.length < k ∨ k = 0) : Panics (multiPoint R k p1 p2) := by
  unfold multiPoint
  by_cases hl : p1.length = p2.length
  · refine Panics.bind_right IfReturns.trivial fun _ _ => ?_
    by_cases hk : k ≤ p1.length
    · refine Panics.bind_right IfReturns.trivial fun _ _ => ?_
      exact Panics.bind_left (Panics.assert (by simp; omega))
    · exact Panics.bind_left (Panics.assert (by simpa using hk))
  · exact Panics.bind_left (Panics.assert (by simpa using hl))

/-- Position `j` of the alternating mask: the flag is flipped once for every cut passed. -/
theorem altMask_getElem? (n : Nat) : ∀ (cs : List Nat) (c : Nat) (flag : Bool) (j : Nat),
    (c :: cs).Pairwise (· < ·) → (∀ x ∈ c :: cs, x < n) → c + j < n →
    (altMask flag n (c :: cs))[j]? = some (flag ^^ (cs.countP (fun x => decide (x ≤ c + j)) % 2 == 1)) := by
  intro cs
  induction cs with
  | nil =>
    intro c flag j _ _ hj
    simp only [altMask, List.getElem?_replicate, List.countP_nil]
    rw [if_pos (by omega)]; simp
  | cons c' cs ih =>
    intro c flag j hp hx hj
    have hcc : c < c' := by simp at hp; omega
    rw [altMask]
    by_cases h : j < c' - c
    · rw [List.getElem?_append_left (by simpa using h), List.getElem?_replicate, if_pos h]
      have : (c' :: cs).countP (fun x => decide (x ≤ c + j)) = 0 := by
        rw [List.countP_eq_zero]
        intro x hx'
        have : c' ≤ x := by
          rcases List.mem_cons.1 hx' with rfl | h'
          · exact Nat.le_refl _
          · have := (List.pairwise_cons.1 (List.pairwise_cons.1 hp).2).1 x h'; omega
        simp; omega
      rw [this]; simp
    · rw [List.getElem?_append_right (by simpa using Nat.not_lt.1 h), List.length_replicate,
        ih c' (!flag) (j - (c' - c)) (List.pairwise_cons.1 hp).2 (fun x hx' => hx x (by simp [hx'])) (by omega)]
      have e : c' + (j - (c' - c)) = c + j := by omega
      rw [e, List.countP_cons, if_pos (by simp; omega)]
      rcases Nat.mod_two_eq_zero_or_one (cs.countP fun x => decide (x ≤ c + j)) with h2 | h2 <;>
        simp [Nat.add_mod, h2]

/-- **C12, whole operator.**  Every pair of children comes from `k` distinct cut points below the length.  When the smallest
one is odd, a locus is exchanged exactly if an odd number of cut points lies at or before it (the documented behaviour).  When
it is even, a locus is exchanged exactly if a positive even number of cut points lies at or before it. -/
theorem C12_multi_point_operator {k : Nat} {sel : List I} (hk : 1 ≤ k)
    (h : Pairs (fun a b => SameLen X a b ∧ k ≤ (X.ch a).length) sel) :
    Returns (applyPairs (liftSingle X (multiPoint R k)) sel) (PairsRel (fun a b c d =>
      (X.ch c).length = (X.ch a).length ∧ (X.ch d).length = (X.ch a).length ∧
      ∃ cuts : List Nat, cuts.length = k ∧ cuts.Pairwise (· < ·) ∧ (∀ x ∈ cuts, x < (X.ch a).length) ∧
        ∀ i, i < (X.ch a).length →
          let passed := cuts.countP (fun x => decide (x ≤ i))
          let exchanged := if cuts.headD 0 % 2 = 1 then passed % 2 = 1 else passed ≠ 0 ∧ passed % 2 = 0
          (exchanged → (X.ch c)[i]? = (X.ch b)[i]? ∧ (X.ch d)[i]? = (X.ch a)[i]?) ∧
          (¬ exchanged → (X.ch c)[i]? = (X.ch a)[i]? ∧ (X.ch d)[i]? = (X.ch b)[i]?)) sel) := by
  refine apply_of_single X (P := fun a b => SameLen X a b ∧ k ≤ (X.ch a).length)
    (Q := fun p1 p2 c1 c2 => c1.length = p1.length ∧ c2.length = p1.length ∧
      ∃ cuts : List Nat, cuts.length = k ∧ cuts.Pairwise (· < ·) ∧ (∀ x ∈ cuts, x < p1.length) ∧
        ∀ i, i < p1.length →
          let passed := cuts.countP (fun x => decide (x ≤ i))
          let exchanged := if cuts.headD 0 % 2 = 1 then passed % 2 = 1 else passed ≠ 0 ∧ passed % 2 = 0
          (exchanged → c1[i]? = p2[i]? ∧ c2[i]? = p1[i]?) ∧ (¬ exchanged → c1[i]? = p1[i]? ∧ c2[i]? = p2[i]?)) ?_ h
  rintro a b ⟨hl, hk'⟩
  refine (multiPoint_returns R hl hk' hk).mono ?_
  rintro ⟨c1, c2⟩ ⟨cuts, hlen, hp, hx, h1, h2⟩
  obtain ⟨c0, cs, rfl⟩ : ∃ c0 cs, cuts = c0 :: cs := by
    cases cuts with
    | nil => simp at hlen; omega
    | cons c cs => exact ⟨c, cs, rfl⟩
  have hm := actualMask_length hp hx
  simp only at h1 h2
  have hl' : (X.ch a).length = (X.ch b).length := hl
  refine ⟨by rw [h1, mix_length _ _ _ hm hl'], by rw [h2, mix_length _ _ _ (by omega) hl'.symm, hl'], c0 :: cs, hlen, hp, hx, ?_⟩
  intro i hi
  have key : (actualMask (X.ch a).length (c0 :: cs))[i]? = some (decide (i < c0 ∨
      ¬ ((cs.countP (fun x => decide (x ≤ i)) + c0) % 2 = 1))) := by
    unfold actualMask
    simp only [List.headD_cons]
    by_cases hc : i < c0
    · rw [List.getElem?_append_left (by simpa using hc), List.getElem?_replicate, if_pos hc]
      simp [hc]
    · rw [List.getElem?_append_right (by simpa using Nat.not_lt.1 hc), List.length_replicate,
        altMask_getElem? _ cs c0 _ _ hp hx (by omega), Nat.add_sub_cancel' (Nat.not_lt.1 hc)]
      rcases Nat.mod_two_eq_zero_or_one (cs.countP fun x => decide (x ≤ i)) with h3 | h3 <;>
        rcases Nat.mod_two_eq_zero_or_one c0 with h4 | h4 <;> simp [Nat.add_mod, h3, h4, hc]
  have hzero : i < c0 → cs.countP (fun x => decide (x ≤ i)) = 0 := by
    intro hc
    rw [List.countP_eq_zero]
    intro x hx'
    have := (List.pairwise_cons.1 hp).1 x hx'
    simp; omega
  simp only
  rw [h1, h2, mix_getElem? _ _ _ _ hm hl', mix_getElem? _ _ _ _ (by omega) hl'.symm, key]
  simp only [List.headD_cons, List.countP_cons]
  generalize cs.countP (fun x => decide (x ≤ i)) = q at hzero ⊢
  by_cases hc : i < c0
  · have := hzero hc
    subst this
    have hc' : ¬ c0 ≤ i := by omega
    simp [hc, hc']
  · have hc' : c0 ≤ i := by omega
    rcases Nat.mod_two_eq_zero_or_one q with h3 | h3 <;> rcases Nat.mod_two_eq_zero_or_one c0 with h4 | h4 <;>
      simp [Nat.add_mod, h3, h4, hc, hc']

/-- **C13, constructor.** `MultiPoint::new` rejects exactly zero cut points. -/
theorem C13_multi_point_new (k : Nat) : (k = 0 → Panics (multiPointNew k : M G Nat)) ∧ (1 ≤ k → (multiPointNew k : M G Nat) = pure k) := by
  unfold multiPointNew
  refine ⟨fun h => Panics.bind_left (Panics.assert (by simp [h])), fun h => ?_⟩
  rw [show decide (1 ≤ k) = true from decide_eq_true h]
  rfl

/-- **C12, odd first cut.** When the smallest cut point is odd the children alternate as documented; see
`C12_multi_point_even_first_cut` for the other half of the draws. -/
theorem C12_multi_point_alternates_odd {p1 p2 : List A} {cuts : List Nat}
    (hl : p1.length = p2.length) (hne : cuts ≠ []) (hp : cuts.Pairwise (· < ·))
    (hx : ∀ x ∈ cuts, x < p1.length) (hodd : cuts.headD 0 % 2 = 1) :
    (multiPointCuts p1 p2 cuts : M G _) =
      pure (mix (intendedMask p1.length cuts) p1 p2, mix (intendedMask p1.length cuts) p2 p1) := by
  obtain ⟨c, cs, rfl⟩ : ∃ c cs, cuts = c :: cs := by
    cases cuts with
    | nil => exact absurd rfl hne
    | cons c cs => exact ⟨c, cs, rfl⟩
  rw [multiPointCuts_eq hl hp hx]
  simp only [List.headD_cons] at hodd
  simp [actualMask, intendedMask, hodd]

/-- **C12, violation.** When the smallest cut point is even the first exchange does not take place: the
whole alternation behind the first cut is inverted.  For every pair of parents. -/
theorem C12_multi_point_even_first_cut {p1 p2 : List A} {c : Nat} {cs : List Nat}
    (hl : p1.length = p2.length) (hp : (c :: cs).Pairwise (· < ·))
    (hx : ∀ x ∈ c :: cs, x < p1.length) (heven : c % 2 = 0) :
    (multiPointCuts p1 p2 (c :: cs) : M G _) =
      pure (mix (List.replicate c true ++ altMask true p1.length (c :: cs)) p1 p2,
        mix (List.replicate c true ++ altMask true p1.length (c :: cs)) p2 p1) := by
  rw [multiPointCuts_eq hl hp hx]
  simp [actualMask, heven]

/-- **C12, violation, one cut.** With a single even cut point multi-point crossover returns unchanged
copies of the parents, whatever they are; the documented behaviour would exchange the suffixes. -/
theorem C12_single_even_cut_copies_parents {p1 p2 : List A} {c : Nat} (hl : p1.length = p2.length)
    (hc : c < p1.length) (heven : c % 2 = 0) :
    (multiPointCuts p1 p2 [c] : M G _) = pure (p1, p2) := by
  rw [C12_multi_point_even_first_cut hl (by simp) (by simpa using hc) heven]
  have e : List.replicate c true ++ altMask true p1.length [c] = List.replicate p1.length true := by
    simp only [altMask]
    rw [List.replicate_append_replicate]; congr 1; omega
  rw [e, mix_true_of_length rfl hl.symm, mix_true_of_length hl.symm rfl]

/-! ## Fixed point -/

/-- **C14.** Fixed-point crossover of equal-length parents never panics, uses no randomness, and exchanges
the genes at loci `≥ cut` (nothing if `cut ≥ len`); everything else about the children (`setCh`:
cached fitness and any further state) is inherited from the respective parent. -/
theorem C14_fixed_point {cut : Nat} {sel : List I} (h : Pairs (SameLen X) sel) :
    Returns (applyPairs (fixedPoint (G := G) X cut) sel) (PairsRel (fun a b c d =>
      c = X.setCh a ((X.ch a).take cut ++ (X.ch b).drop cut) ∧
      d = X.setCh b ((X.ch b).take cut ++ (X.ch a).drop cut)) sel) := by
  apply applyPairs_returns
  induction h with
  | nil => exact .nil
  | cons hab _ ih =>
    refine .cons ?_ ih
    unfold fixedPoint
    rw [fixedPointCh_eq hab, pure_bind]
    exact Returns.pure ⟨rfl, rfl⟩

/-- **C14, determinism.** The operator leaves the random state untouched: on equal-length pairs the result
is one fixed list. -/
theorem C14_fixed_point_deterministic {cut : Nat} {sel : List I} (h : Pairs (SameLen X) sel) :
    ∃ out, (applyPairs (fixedPoint (G := G) X cut) sel) = pure out := by
  have key : ∃ out, (chunks2 (fixedPoint (G := G) X cut) sel) = pure out := by
    induction h with
    | nil => exact ⟨[], rfl⟩
    | cons hab _ ih =>
      obtain ⟨out, ho⟩ := ih
      rename_i a b sel' _
      have e : (fixedPoint (G := G) X cut a b) =
          pure (X.setCh a ((X.ch a).take cut ++ (X.ch b).drop cut),
            X.setCh b ((X.ch b).take cut ++ (X.ch a).drop cut)) := by
        unfold fixedPoint
        rw [fixedPointCh_eq hab]; rfl
      refine ⟨X.setCh a ((X.ch a).take cut ++ (X.ch b).drop cut) ::
        X.setCh b ((X.ch b).take cut ++ (X.ch a).drop cut) :: out, ?_⟩
      show (fixedPoint (G := G) X cut a b >>= fun c => do
        let out ← chunks2 (fixedPoint (G := G) X cut) sel'
        pure (c.1 :: c.2 :: out)) = _
      rw [e, pure_bind, ho]; rfl
  obtain ⟨out, ho⟩ := key
  refine ⟨out, ?_⟩
  unfold applyPairs
  have : (M.assert (sel.length % 2 == 0) : M G Unit) = pure () := by
    have := h.even; simp [M.assert, this]
  rw [this, pure_bind, ho]

/-! ## Uniform -/

/-- **C15.** Uniform crossover of equal-length parents never panics and is locus-wise complementary. -/
theorem C15_uniform {half : U} {sel : List I} (h : Pairs (SameLen X) sel) :
    Returns (applyPairs (liftSingle X (uniform R half)) sel) (PairsRel (fun a b c d =>
      ∃ mask : List Bool, mask.length = (X.ch a).length ∧
        X.ch c = mix mask (X.ch a) (X.ch b) ∧ X.ch d = mix mask (X.ch b) (X.ch a)) sel) :=
  apply_of_single X (Q := fun p1 p2 c1 c2 => ∃ mask : List Bool, mask.length = p1.length ∧
      c1 = mix mask p1 p2 ∧ c2 = mix mask p2 p1)
    (fun _ _ hab => (uniform_returns R hab).mono fun _ ⟨vals, hv, _, h1, h2⟩ =>
      ⟨_, by simp [hv], h1, h2⟩) h

/-- **C15.** Parameterized uniform crossover: same, with any bias. -/
theorem C15_uniform_parameterized {bias : U} {sel : List I} (h : Pairs (SameLen X) sel) :
    Returns (applyPairs (liftSingle X (uniformParameterized R bias)) sel) (PairsRel (fun a b c d =>
      ∃ mask : List Bool, mask.length = (X.ch a).length ∧
        X.ch c = mix mask (X.ch a) (X.ch b) ∧ X.ch d = mix mask (X.ch b) (X.ch a)) sel) :=
  apply_of_single X (Q := fun p1 p2 c1 c2 => ∃ mask : List Bool, mask.length = p1.length ∧
      c1 = mix mask p1 p2 ∧ c2 = mix mask p2 p1)
    (fun _ _ hab => (uniformParameterized_returns R hab).mono fun _ ⟨vals, hv, _, h1, h2⟩ =>
      ⟨_, by simp [hv], h1, h2⟩) h

/-- **C15, extreme biases.** Bias `≥ 1` copies the parents; a negative bias swaps them. -/
theorem C15_bias_extremes {bias : U} {p1 p2 : List A} (hl : p1.length = p2.length) :
    (1 ≤ bias → Returns (uniformParameterized R bias p1 p2) fun c => c = (p1, p2)) ∧
    (bias < 0 → Returns (uniformParameterized R bias p1 p2) fun c => c = (p2, p1)) := by
  constructor
  · intro hb
    refine (uniformParameterized_returns R hl).mono ?_
    rintro ⟨c1, c2⟩ ⟨vals, hv, hr, h1, h2⟩
    have e : vals.map (fun v => decide (v ≤ bias)) = List.replicate p1.length true := by
      rw [List.eq_replicate_iff]; refine ⟨by simp [hv], ?_⟩
      intro x hx; simp at hx; obtain ⟨v, hv', rfl⟩ := hx
      simpa using le_trans (le_of_lt (hr v hv').2) hb
    rw [e] at h1 h2
    rw [mix_true_of_length rfl hl.symm] at h1
    rw [mix_true_of_length hl.symm rfl] at h2
    simp only at h1 h2; rw [h1, h2]
  · intro hb
    refine (uniformParameterized_returns R hl).mono ?_
    rintro ⟨c1, c2⟩ ⟨vals, hv, hr, h1, h2⟩
    have e : vals.map (fun v => decide (v ≤ bias)) = List.replicate p1.length false := by
      rw [List.eq_replicate_iff]; refine ⟨by simp [hv], ?_⟩
      intro x hx; simp at hx; obtain ⟨v, hv', rfl⟩ := hx
      simpa using lt_of_lt_of_le hb (hr v hv').1
    rw [e] at h1 h2
    rw [mix_false_of_length rfl hl.symm] at h1
    rw [mix_false_of_length hl.symm rfl] at h2
    simp only at h1 h2; rw [h1, h2]

/-- **C15, panics.** Unequal lengths make both uniform crossovers panic. -/
theorem C15_unequal_panics {half : U} {p1 p2 : List A} (h : p1.length ≠ p2.length) :
    Panics (uniform R half p1 p2) ∧ Panics (uniformParameterized R half p1 p2) :=
  ⟨Panics.bind_left (Panics.assert (by simpa using h)),
   Panics.bind_left (Panics.assert (by simpa using h))⟩

/-- **C15, reproducibility defect.** The mask is drawn from a *clone* of the generator.  For a generator
whose clones do not share state, `uniform` leaves the generator unchanged: every pair and every later
call gets the identical mask. -/
theorem C15_seeded_uniform_never_advances {half : U} {p1 p2 : List A} {g g' : G}
    {c : List A × List A} (hs : R.clonesShareState = false)
    (h : uniform R half p1 p2 g = .ok (c, g')) : g' = g := by
  unfold uniform at h
  simp only [M.bind_ok_iff, M.assert_ok_iff] at h
  obtain ⟨_, g1, ⟨hl, hg1⟩, vals, g2, h2, s, g3, h3, h4⟩ := h
  simp only [Prod.mk.injEq] at hg1
  obtain ⟨-, rfl⟩ := hg1
  have e2 : g2 = g1 := by
    unfold Rng.onClone at h2
    split at h2
    · cases h2
    · rw [hs] at h2; cases h2; rfl
  subst e2
  have hl' : p1.length = p2.length := by simpa using hl
  have hv : vals.length = p1.length :=
    ((R.onClone_ifReturns (Returns.replicate R.genUnit_returns p1.length).ifReturns) _ _ _ h2).1
  rw [maskLoci_eq p1 p2 _ 0 (by simp [hv]) hl'] at h3
  cases h3
  cases h4
  rfl

/-! ## Shuffle -/

/-- **C16.** Shuffle crossover of pairs of equal non-zero length never panics, is locus-wise
complementary, and strictly fewer than all loci of the first child come from the first parent. -/
theorem C16_shuffle {sel : List I} (h : Pairs (SameLenPos X) sel) :
    Returns (applyPairs (liftSingle X (shuffle R)) sel) (PairsRel (fun a b c d =>
      ∃ mask : List Bool, mask.length = (X.ch a).length ∧ mask.count true < (X.ch a).length ∧
        X.ch c = mix mask (X.ch a) (X.ch b) ∧ X.ch d = mix mask (X.ch b) (X.ch a)) sel) :=
  apply_of_single X (Q := fun p1 p2 c1 c2 => ∃ mask : List Bool, mask.length = p1.length ∧
      mask.count true < p1.length ∧ c1 = mix mask p1 p2 ∧ c2 = mix mask p2 p1)
    (fun _ _ hab => shuffle_returns R hab.1 hab.2) h

/-- **C16, exact count.** The number of loci the first child takes from the first parent is the drawn cut
point: for every draw `cut < n`, exactly `cut` loci. -/
theorem C16_shuffle_exact_count {p1 p2 : List A} (hl : p1.length = p2.length) (h0 : 0 < p1.length)
    (g : G) : ∃ mask : List Bool, mask.length = p1.length ∧
      mask.count true = (R.below g 0 p1.length).1 ∧
      ∃ g', shuffle R p1 p2 g = .ok ((mix mask p1 p2, mix mask p2 p1), g') := by
  have hb := R.below_spec g 0 p1.length h0
  have hsh := R.shuffle_spec (R.below g 0 p1.length).2 p1.length
  refine ⟨((R.shuffle (R.below g 0 p1.length).2 p1.length).1.map
    fun x => decide (x < (R.below g 0 p1.length).1)), ?_, ?_, ?_⟩
  · rw [List.length_map, hsh.length_eq, List.length_range]
  · rw [List.count, List.countP_map]
    have h1 : ∀ (sh : List Nat) (cut : Nat),
        (sh.countP ((fun x => x == true) ∘ fun x => decide (x < cut))) =
        sh.countP fun x => decide (x < cut) := by
      intro sh cut; apply List.countP_congr; intro x _; simp
    rw [h1, hsh.countP_eq, count_lt_range _ _ (Nat.le_of_lt hb.2)]
  · refine ⟨(R.shuffle (R.below g 0 p1.length).2 p1.length).2, ?_⟩
    unfold shuffle Rng.genRange Rng.genShuffle
    rw [if_pos h0]
    show (do
      let s ← maskLoci p1 p2 0 ((R.shuffle (R.below g 0 p1.length).2 p1.length).1.map
        fun x => decide (x < (R.below g 0 p1.length).1))
      pure (s.map Prod.fst, s.map Prod.snd) : M G _) (R.shuffle (R.below g 0 p1.length).2 p1.length).2 = _
    rw [maskOp_pure hl (by rw [List.length_map, hsh.length_eq, List.length_range])]
    rfl

/-! ## C23: gene conservation -/

/-- Gene conservation for a pair. -/
def Conserves (a b c d : I) : Prop := (X.ch c ++ X.ch d).Perm (X.ch a ++ X.ch b)

theorem take_drop_conserves {p1 p2 : List A} (n : Nat) :
    ((p1.take n ++ p2.drop n) ++ (p2.take n ++ p1.drop n)).Perm (p1 ++ p2) := by
  have h1 : ((p1.take n ++ p2.drop n) ++ (p2.take n ++ p1.drop n)).Perm
      ((p1.take n ++ p1.drop n) ++ (p2.take n ++ p2.drop n)) := by
    rw [List.append_assoc, List.append_assoc]
    refine List.Perm.append_left _ ?_
    calc (p2.drop n ++ (p2.take n ++ p1.drop n)).Perm ((p2.take n ++ p1.drop n) ++ p2.drop n) :=
          List.perm_append_comm
      _ |>.Perm ((p1.drop n ++ p2.take n) ++ p2.drop n) := List.perm_append_comm.append_right _
      _ |>.Perm (p1.drop n ++ (p2.take n ++ p2.drop n)) := by rw [List.append_assoc]
  rwa [List.take_append_drop, List.take_append_drop] at h1

/-- **C23.** Every locus-wise crossover conserves the combined multiset of genes of each pair. -/
theorem C23_gene_conservation {sel : List I} :
    (Pairs (SameLenPos X) sel →
      Returns (applyPairs (liftSingle X (singlePoint R)) sel) (PairsRel (Conserves X) sel)) ∧
    (Pairs (SameLenPos X) sel →
      Returns (applyPairs (liftSingle X (twoPoint R)) sel) (PairsRel (Conserves X) sel)) ∧
    (∀ k, 1 ≤ k → Pairs (fun a b => SameLen X a b ∧ k ≤ (X.ch a).length) sel →
      Returns (applyPairs (liftSingle X (multiPoint R k)) sel) (PairsRel (Conserves X) sel)) ∧
    (∀ cut, Pairs (SameLen X) sel →
      Returns (applyPairs (fixedPoint (G := G) X cut) sel) (PairsRel (Conserves X) sel)) ∧
    (∀ half, Pairs (SameLen X) sel →
      Returns (applyPairs (liftSingle X (uniform R half)) sel) (PairsRel (Conserves X) sel)) ∧
    (∀ bias, Pairs (SameLen X) sel →
      Returns (applyPairs (liftSingle X (uniformParameterized R bias)) sel)
        (PairsRel (Conserves X) sel)) ∧
    (Pairs (SameLenPos X) sel →
      Returns (applyPairs (liftSingle X (shuffle R)) sel) (PairsRel (Conserves X) sel)) := by
  let Q : List A → List A → List A → List A → Prop := fun p1 p2 c1 c2 => (c1 ++ c2).Perm (p1 ++ p2)
  refine ⟨?_, ?_, ?_, ?_, ?_, ?_, ?_⟩
  · intro h
    refine apply_of_single X (Q := Q) (fun a b hab => ?_) h
    refine (singlePoint_returns R hab.1 hab.2).mono ?_
    rintro ⟨c1, c2⟩ ⟨cut, -, h1, h2⟩
    simp only at h1 h2; subst h1 h2
    exact take_drop_conserves cut
  · intro h
    refine apply_of_single X (Q := Q) (fun a b hab => ?_) h
    refine (twoPoint_returns R hab.1 hab.2).mono ?_
    rintro ⟨c1, c2⟩ ⟨lo, hi, hlh, hhi, h1, h2⟩
    simp only at h1 h2; subst h1 h2
    have hl := hab.1
    have e : ∀ (x y : List A), x.length = y.length → hi < x.length →
        x.take lo ++ slice y lo hi ++ x.drop hi =
        mix (List.replicate lo true ++ (List.replicate (hi - lo) false ++
          List.replicate (x.length - hi) true)) x y := by
      intro x y hxy hx
      have hlx : (x.take lo).length = lo := by simp; omega
      have hly : (y.take lo).length = lo := by simp; omega
      conv_rhs => rw [← List.take_append_drop lo x, ← List.take_append_drop lo y]
      rw [mix_append _ _ _ _ _ _ (by rw [hlx]; simp) (by rw [hlx, hly]),
        mix_true_of_length hlx hly, drop_slice (l := x) hlh (by omega),
        drop_slice (l := y) hlh (by omega), List.append_assoc]
      congr 1
      have hsx : (slice x lo hi).length = hi - lo := slice_length (by omega)
      have hsy : (slice y lo hi).length = hi - lo := slice_length (by omega)
      rw [mix_append _ _ _ _ _ _ (by rw [hsx]; simp) (by rw [hsx, hsy]), mix_false_of_length hsx hsy]
      congr 1
      have : (x.take lo ++ (slice x lo hi ++ x.drop hi)).length - hi = x.length - hi := by
        rw [← drop_slice (l := x) hlh (by omega), List.take_append_drop]
      rw [this]
      exact (mix_true_of_length (by simp) (by simp; omega)).symm
    show List.Perm (_ ++ _) _
    rw [e _ _ hl hhi, e _ _ hl.symm (by omega), ← hl]
    exact mix_perm _ _ _ (by simp; omega) hl
  · intro k hk h
    refine apply_of_single X (Q := Q) (P := fun a b => SameLen X a b ∧ k ≤ (X.ch a).length)
      (fun a b hab => ?_) h
    refine (multiPoint_returns R hab.1 hab.2 hk).mono ?_
    rintro ⟨c1, c2⟩ ⟨cuts, hlen, hp, hx, h1, h2⟩
    obtain ⟨c0, cs, rfl⟩ : ∃ c0 cs, cuts = c0 :: cs := by
      cases cuts with
      | nil => simp at hlen; omega
      | cons c cs => exact ⟨c, cs, rfl⟩
    simp only at h1 h2; subst h1 h2
    exact mix_perm _ _ _ (actualMask_length hp hx) hab.1
  · intro cut h
    refine (applyPairs_returns (Q := Conserves X) ?_)
    induction h with
    | nil => exact .nil
    | cons hab _ ih =>
      refine .cons ?_ ih
      unfold fixedPoint
      rw [fixedPointCh_eq hab, pure_bind]
      refine Returns.pure ?_
      unfold Conserves
      rw [X.ch_setCh, X.ch_setCh]
      exact take_drop_conserves cut
  · intro half h
    refine apply_of_single X (Q := Q) (P := SameLen X) (fun a b hab => ?_) h
    refine (uniform_returns R hab).mono ?_
    rintro ⟨c1, c2⟩ ⟨vals, hv, -, h1, h2⟩
    simp only at h1 h2; subst h1 h2
    exact mix_perm _ _ _ (by simp [hv]) hab
  · intro bias h
    refine apply_of_single X (Q := Q) (P := SameLen X) (fun a b hab => ?_) h
    refine (uniformParameterized_returns R hab).mono ?_
    rintro ⟨c1, c2⟩ ⟨vals, hv, -, h1, h2⟩
    simp only at h1 h2; subst h1 h2
    exact mix_perm _ _ _ (by simp [hv]) hab
  · intro h
    refine apply_of_single X (Q := Q) (P := SameLenPos X) (fun a b hab => ?_) h
    refine (shuffle_returns R hab.1 hab.2).mono ?_
    rintro ⟨c1, c2⟩ ⟨mask, hm, -, h1, h2⟩
    simp only at h1 h2; subst h1 h2
    exact mix_perm _ _ _ hm hab.1

end

/-! ## Non-vacuity -/

/-- Four parents of length 3: the hypotheses of C10, C11, C13, C16 and C23 are met. -/
example : Pairs (SameLenPos (Individual.chromOps (K := ℚ) Nat .nan))
    [⟨[1, 2, 3], .nan⟩, ⟨[4, 5, 6], .nan⟩, ⟨[7, 8, 9], .nan⟩, ⟨[1, 1, 1], .nan⟩] :=
  .cons ⟨rfl, by decide⟩ (.cons ⟨rfl, by decide⟩ .nil)

/-- A concrete single-point crossover. -/
example : singlePoint counterRng [1, 2, 3] [4, 5, 6] 7 = .ok (([1, 5, 6], [4, 2, 3]), 8) := by decide

/-- C12's violation on literals: cut point 2 leaves the parents unchanged; the intended result differs. -/
example : (multiPointCuts [1, 2, 3] [4, 5, 6] [2] : M Nat _) 0 = .ok (([1, 2, 3], [4, 5, 6]), 0) ∧
    mix (intendedMask 3 [2]) [1, 2, 3] [4, 5, 6] = [1, 2, 6] := by decide

/-- C12's partial theorem applies to cut points 1 and 2. -/
example : (multiPointCuts [1, 2, 3] [4, 5, 6] [1, 2] : M Nat _) 0 = .ok (([1, 5, 3], [4, 2, 6]), 0) := by
  decide

/-! ## Every theorem on a concrete case -/

section instances

/-- Individuals with chromosomes of natural numbers. -/
abbrev natChrom : ChromOps (Individual (List Nat) ℚ) Nat := Individual.chromOps Nat .nan

/-- Four parents of length 4. -/
def fourParents : List (Individual (List Nat) ℚ) :=
  [⟨[1, 2, 3, 4], .nan⟩, ⟨[5, 6, 7, 8], .nan⟩, ⟨[7, 8, 9, 1], .nan⟩, ⟨[1, 1, 1, 2], .nan⟩]

theorem fourParents_pos : Pairs (SameLenPos natChrom) fourParents := .cons ⟨rfl, by decide⟩ (.cons ⟨rfl, by decide⟩ .nil)

theorem fourParents_len : Pairs (SameLen natChrom) fourParents := .cons rfl (.cons rfl .nil)

theorem fourParents_two : Pairs (fun a b => SameLen natChrom a b ∧ 2 ≤ (natChrom.ch a).length) fourParents :=
  .cons ⟨rfl, by decide⟩ (.cons ⟨rfl, by decide⟩ .nil)

example := C10_single_point counterRng natChrom fourParents_pos
example := C10_single_point_panics counterRng (p1 := [1, 2, 3]) (p2 := [4, 5]) (.inr (by decide))
example := C10_single_point_truncates counterRng (p1 := [1, 2]) (p2 := [3, 4, 5]) (by decide) (by decide)
example := C11_two_point counterRng natChrom fourParents_pos
example := C11_two_point_panics counterRng (p1 := [1, 2, 3]) (p2 := [4, 5]) (.inl (by decide))
example := C12_multi_point_operator counterRng natChrom (by decide) fourParents_two
example : (multiPointCuts [1, 2, 3, 4] [5, 6, 7, 8] [1, 3] : M Nat _) =
    pure (mix (intendedMask 4 [1, 3]) [1, 2, 3, 4] [5, 6, 7, 8], mix (intendedMask 4 [1, 3]) [5, 6, 7, 8] [1, 2, 3, 4]) :=
  C12_multi_point_alternates_odd rfl (by decide) (by decide) (by decide) (by decide)
example := C12_multi_point_even_first_cut (G := Nat) (p1 := [1, 2, 3, 4]) (p2 := [5, 6, 7, 8]) (c := 2) (cs := [3]) rfl (by decide)
  (by decide) (by decide)
example : (multiPointCuts [1, 2, 3, 4] [5, 6, 7, 8] [2] : M Nat _) = pure ([1, 2, 3, 4], [5, 6, 7, 8]) :=
  C12_single_even_cut_copies_parents rfl (by decide) (by decide)
example := C13_multi_point_complementary counterRng natChrom (by decide) fourParents_two
example := C13_multi_point_panics counterRng (k := 3) (p1 := [1, 2]) (p2 := [3, 4]) (.inr (.inl (by decide)))
example := C14_fixed_point (G := Nat) natChrom (cut := 2) fourParents_len
example := C14_fixed_point_deterministic (G := Nat) natChrom (cut := 2) fourParents_len
example := C15_uniform counterRng natChrom (half := 1 / 2) fourParents_len
example := C15_uniform_parameterized counterRng natChrom (bias := 3 / 10) fourParents_len
example := (C15_bias_extremes counterRng (bias := 1) (p1 := [1, 2, 3]) (p2 := [4, 5, 6]) rfl).1 (by decide)
example := (C15_bias_extremes counterRng (bias := -1) (p1 := [1, 2, 3]) (p2 := [4, 5, 6]) rfl).2 (by decide)
example := C15_unequal_panics counterRng (half := 1 / 2) (p1 := [1, 2, 3]) (p2 := [4, 5]) (by decide)
example {c : List Nat × List Nat} {g' : Nat} (h : uniform counterRng (1 / 2) [1, 2, 3] [4, 5, 6] 0 = .ok (c, g')) : g' = 0 :=
  C15_seeded_uniform_never_advances counterRng rfl h
example := C16_shuffle counterRng natChrom fourParents_pos
example := C16_shuffle_exact_count counterRng (p1 := [1, 2, 3]) (p2 := [4, 5, 6]) rfl (by decide) 0
example := (C23_gene_conservation counterRng natChrom (sel := fourParents)).2.2.1 2 (by decide) fourParents_two

end instances

end Ecrs.Ga
