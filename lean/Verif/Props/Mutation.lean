import Verif.Ga.MutationLemmas
import Verif.CounterRng

/-!
# Properties C24–C27: the mutation operators

The operators act in place on one individual; `X.ch` reads the chromosome, `X.setCh` replaces it and
leaves everything else untouched.
-/

namespace Ecrs.Ga
open Ecrs

section
variable {G U I A : Type} [LinearOrder U] [Zero U] [One U] (R : Rng G U) (X : ChromOps I A)

theorem mutation_perm (op : Mutation U) (c : List A) :
    IfReturns (op.run R c) fun out => out.Perm c := by
  cases op with
  | identity => exact IfReturns.pure (List.Perm.refl c)
  | interchange rate =>
    by_cases h : 0 < c.length
    · exact (interchange_returns R h).ifReturns
    · exact IfReturns.bind (P := fun _ => decide (0 < c.length) = true) IfReturns.assert
        fun _ hc => absurd (by simpa using hc) h
  | reversing rate => exact (reversing_returns R).ifReturns
  | inversion rate =>
    show IfReturns (inversion R rate c) _
    unfold inversion
    refine IfReturns.bind IfReturns.trivial fun r _ => ?_
    by_cases hr : rate < r
    · rw [if_pos hr]; exact IfReturns.pure (List.Perm.refl c)
    · rw [if_neg hr]
      by_cases h : 0 < c.length
      · refine (inversionBody_returns R h).ifReturns.mono ?_
        rintro out ⟨lo, hi, h1, -, rfl⟩
        exact reversed_segment_perm c h1
      · unfold inversionBody Rng.genRange
        rw [if_neg h]
        exact IfReturns.bind IfReturns.fail fun _ _ => by
          intro _ _ _ _; exact absurd ‹False› not_false

/-- **C25.** Identity, Interchange, Reversing and Inversion, whenever they return, leave the multiset of
genes unchanged, for every rate and every draw. -/
theorem C25_reordering_mutations (op : Mutation U) (i : I) :
    IfReturns (applyMutation X (op.run R) i) fun i' => (X.ch i').Perm (X.ch i) := by
  unfold applyMutation
  refine IfReturns.bind (mutation_perm R op (X.ch i)) fun c hc => IfReturns.pure ?_
  rw [X.ch_setCh]; exact hc

/-- **C25, totality.** On a non-empty chromosome all of them return. -/
theorem C25_reordering_mutations_return (op : Mutation U) (i : I) (h : 0 < (X.ch i).length) :
    Returns (applyMutation X (op.run R) i) fun i' => (X.ch i').Perm (X.ch i) := by
  have : Returns (op.run R (X.ch i)) fun out => out.Perm (X.ch i) := by
    cases op with
    | identity => exact Returns.pure (List.Perm.refl _)
    | interchange rate => exact interchange_returns R h
    | reversing rate => exact reversing_returns R
    | inversion rate =>
      show Returns (inversion R rate (X.ch i)) _
      unfold inversion
      refine Returns.bind R.genUnit_returns fun r _ => ?_
      by_cases hr : rate < r
      · rw [if_pos hr]; exact Returns.pure (List.Perm.refl _)
      · rw [if_neg hr]
        refine (inversionBody_returns R h).mono ?_
        rintro out ⟨lo, hi, h1, -, rfl⟩
        exact reversed_segment_perm _ h1
  unfold applyMutation
  refine Returns.bind this fun c hc => Returns.pure ?_
  rw [X.ch_setCh]; exact hc

/-- **C25, permutations.** A permutation of a gene set stays one. -/
theorem C25_permutations_stay_permutations (op : Mutation U) (i : I) {genes : List A}
    (h : (X.ch i).Perm genes) :
    IfReturns (applyMutation X (op.run R) i) fun i' => (X.ch i').Perm genes :=
  (C25_reordering_mutations R X op i).mono fun _ hi => hi.trans h

/-- **C25, Identity.** Nothing at all changes. -/
theorem C25_identity (i : I) (hx : X.setCh i (X.ch i) = i) :
    applyMutation (G := G) X ((Mutation.identity : Mutation U).run R) i = pure i := by
  show (pure (X.ch i) >>= fun c => pure (X.setCh i c) : M G I) = _
  rw [pure_bind, hx]

/-- **C25, zero rate.** With rate `≤ 0` Interchange (of a non-empty chromosome) and Reversing change
nothing. -/
theorem C25_zero_rate {rate : U} (hr : rate ≤ 0) (c : List A) :
    (0 < c.length → Returns (interchange R rate c) fun out => out = c) ∧
    Returns (reversing R rate c) fun out => out = c := by
  constructor
  · intro h
    unfold interchange
    refine Returns.bind (Returns.assert (by simpa using h)) fun _ _ => ?_
    refine Returns.fold (I := fun l : List A => l = c) _ _ rfl ?_
    rintro l i - rfl
    unfold interchangeStep
    refine Returns.bind R.genUnit_returns fun d hd => ?_
    rw [if_neg (not_lt.2 (le_trans hr hd.1))]
    exact Returns.pure rfl
  · unfold reversing
    refine Returns.fold (I := fun l : List A => l = c) _ _ rfl ?_
    rintro l i - rfl
    unfold reversingStep
    refine Returns.bind R.genUnit_returns fun d hd => ?_
    rw [if_neg (not_lt.2 (le_trans hr hd.1))]
    exact Returns.pure rfl

theorem reversing_full_aux {rate : U} (hr : 1 ≤ rate) (x : A) : ∀ (xs pre : List A),
    Returns (M.fold (reversingStep R rate) (pre ++ x :: xs) (List.range' (pre.length + 1) xs.length))
      fun out => out = pre ++ xs ++ [x]
  | [], pre => Returns.pure (by simp)
  | y :: ys, pre => by
    show Returns (M.fold (reversingStep R rate) (pre ++ x :: y :: ys)
      ((pre.length + 1) :: List.range' (pre.length + 1 + 1) ys.length)) _
    unfold M.fold
    refine Returns.bind (P := fun l => l = (pre ++ [y]) ++ x :: ys) ?_ ?_
    · unfold reversingStep
      refine Returns.bind R.genUnit_returns fun d hd => ?_
      rw [if_pos (lt_of_lt_of_le hd.2 hr), swapIdx_eq (by simp) (by simp)]
      apply Returns.pure
      simp [swapped]
    · rintro l rfl
      have := reversing_full_aux hr x ys (pre ++ [y])
      refine Returns.mono (P := fun out => out = (pre ++ [y]) ++ ys ++ [x]) ?_ (by
        rintro out rfl; simp)
      simpa using this

/-- **C25, Reversing with rate `≥ 1`** rotates the chromosome by one: the first gene moves to the end. -/
theorem C25_reversing_full_rate {rate : U} (hr : 1 ≤ rate) (x : A) (xs : List A) :
    Returns (reversing R rate (x :: xs)) fun out => out = xs ++ [x] := by
  unfold reversing
  simpa using reversing_full_aux R hr x xs []

/-- **C25, empty chromosome.** Interchange panics on an empty chromosome whatever the rate. -/
theorem C25_interchange_empty_panics {rate : U} : Panics (interchange R rate ([] : List A)) :=
  Panics.bind_left (Panics.assert (by simp))

/-! ## FlipBit -/

/-- **C26.** FlipBit never panics; there is one draw per locus and exactly the loci whose draw is below the
rate are negated. -/
theorem C26_flip_bit (XB : ChromOps I Bool) (rate : U) (i : I) :
    Returns (applyMutation XB (flipBit R rate) i) fun i' => ∃ draws : List U,
      draws.length = (XB.ch i).length ∧ (∀ d ∈ draws, 0 ≤ d ∧ d < 1) ∧
      XB.ch i' = List.zipWith (fun b d => if d < rate then !b else b) (XB.ch i) draws := by
  unfold applyMutation flipBit
  refine Returns.bind (flipBitGo_returns R (XB.ch i).length 0 (XB.ch i) (by simp)) fun c hc => ?_
  apply Returns.pure
  rw [XB.ch_setCh]
  obtain ⟨draws, h1, h2, h3⟩ := hc
  exact ⟨draws, h1, h2, by simpa using h3⟩

omit [LinearOrder U] [Zero U] [One U] in
theorem zipWith_const {c : List Bool} {draws : List U} (f : Bool → U → Bool) (g : Bool → Bool)
    (hl : draws.length = c.length) (h : ∀ b, ∀ d ∈ draws, f b d = g b) :
    List.zipWith f c draws = c.map g := by
  induction c generalizing draws with
  | nil => simp
  | cons x xs ih =>
    cases draws with
    | nil => simp at hl
    | cons d ds =>
      simp only [List.zipWith_cons_cons, List.map_cons]
      rw [h x d (by simp), ih (by simpa using hl) fun b d hd => h b d (by simp [hd])]

/-- **C26, extreme rates.** Rate `≤ 0` changes nothing; rate `≥ 1` negates every bit. -/
theorem C26_extreme_rates (XB : ChromOps I Bool) (rate : U) (i : I) :
    (rate ≤ 0 → Returns (applyMutation XB (flipBit R rate) i) fun i' => XB.ch i' = XB.ch i) ∧
    (1 ≤ rate → Returns (applyMutation XB (flipBit R rate) i) fun i' =>
      XB.ch i' = (XB.ch i).map not) := by
  constructor
  · intro hr
    refine (C26_flip_bit R XB rate i).mono ?_
    rintro i' ⟨draws, h1, h2, h3⟩
    rw [h3, zipWith_const _ id h1 fun b d hd => by
      rw [if_neg (not_lt.2 (le_trans hr (h2 d hd).1))]; rfl]
    simp
  · intro hr
    refine (C26_flip_bit R XB rate i).mono ?_
    rintro i' ⟨draws, h1, h2, h3⟩
    rw [h3, zipWith_const _ not h1 fun b d hd => by
      rw [if_pos (lt_of_lt_of_le (h2 d hd).2 hr)]]

/-! ## C24 -/

/-- **C24.** Every shipped mutation operator that returns leaves the chromosome length unchanged. -/
theorem C24_length_preserved (op : Mutation U) (i : I) :
    IfReturns (applyMutation X (op.run R) i) fun i' => (X.ch i').length = (X.ch i).length :=
  (C25_reordering_mutations R X op i).mono fun _ h => h.length_eq

/-- **C24** for FlipBit (which moreover never panics). -/
theorem C24_length_preserved_flip_bit (XB : ChromOps I Bool) (rate : U) (i : I) :
    Returns (applyMutation XB (flipBit R rate) i) fun i' => (XB.ch i').length = (XB.ch i).length := by
  refine (C26_flip_bit R XB rate i).mono ?_
  rintro i' ⟨draws, h1, -, h3⟩
  rw [h3]; simp [h1]

/-! ## Inversion -/

/-- **C27.** Inversion of a non-empty chromosome never panics and either changes nothing or reverses one
inclusive segment `[lo, hi]`. -/
theorem C27_inversion (rate : U) (i : I) (h : 0 < (X.ch i).length) :
    Returns (applyMutation X (inversion R rate) i) fun i' => X.ch i' = X.ch i ∨
      ∃ lo hi, lo ≤ hi ∧ hi < (X.ch i).length ∧
        X.ch i' = (X.ch i).take lo ++ (((X.ch i).take (hi + 1)).drop lo).reverse ++
          (X.ch i).drop (hi + 1) := by
  unfold applyMutation
  refine Returns.bind (P := fun c => c = X.ch i ∨ ∃ lo hi, lo ≤ hi ∧ hi < (X.ch i).length ∧
        c = (X.ch i).take lo ++ (((X.ch i).take (hi + 1)).drop lo).reverse ++
          (X.ch i).drop (hi + 1)) ?_ fun c hc => Returns.pure (by rw [X.ch_setCh]; exact hc)
  unfold inversion
  refine Returns.bind R.genUnit_returns fun r _ => ?_
  by_cases hr : rate < r
  · rw [if_pos hr]; exact Returns.pure (.inl rfl)
  · rw [if_neg hr]; exact (inversionBody_returns R h).mono fun _ hc => .inr hc

/-- **C27, when.** The mutation takes place exactly when the first draw does not exceed the rate: rate
`≥ 1` always reverses a segment, a negative rate never does. -/
theorem C27_inversion_rate (rate : U) (c : List A) :
    (1 ≤ rate → 0 < c.length → Returns (inversion R rate c) fun out =>
      ∃ lo hi, lo ≤ hi ∧ hi < c.length ∧
        out = c.take lo ++ ((c.take (hi + 1)).drop lo).reverse ++ c.drop (hi + 1)) ∧
    (rate < 0 → Returns (inversion R rate c) fun out => out = c) := by
  constructor
  · intro hr h
    unfold inversion
    refine Returns.bind R.genUnit_returns fun r hu => ?_
    rw [if_neg (not_lt.2 (le_of_lt (lt_of_lt_of_le hu.2 hr)))]
    exact inversionBody_returns R h
  · intro hr
    unfold inversion
    refine Returns.bind R.genUnit_returns fun r hu => ?_
    rw [if_pos (lt_of_lt_of_le hr hu.1)]
    exact Returns.pure rfl

/-- **C27, panics.** On an empty chromosome Inversion panics exactly when its first draw selects a
mutation. -/
theorem C27_inversion_empty (rate : U) (g : G) :
    (∃ e, inversion R rate ([] : List A) g = .error e) ↔ ¬ rate < (R.unit g).1 := by
  unfold inversion
  have : (R.genUnit >>= fun r => if rate < r then pure [] else inversionBody R ([] : List A)) g =
      (if rate < (R.unit g).1 then pure [] else inversionBody R ([] : List A) : M G (List A))
        (R.unit g).2 := rfl
  rw [this]
  by_cases h : rate < (R.unit g).1
  · rw [if_pos h]; simp [h]
  · rw [if_neg h]
    simp only [h, not_false_eq_true, iff_true]
    unfold inversionBody
    exact Panics.bind_left (R.genRange_panics (by simp)) _

end

/-! ## Non-vacuity -/

/-- A concrete inversion that reverses the segment `[1, 3]` of a four-gene chromosome. -/
example : inversion counterRng (1 / 2) [10, 20, 30, 40] 0 = .ok ([10, 40, 30, 20], 3) := by
  decide +kernel

/-- A concrete bit flip of every second bit. -/
example : flipBit counterRng (1 / 2) [true, true, false, false] 0 =
    .ok ([false, true, true, false], 4) := by decide +kernel

/-- A concrete interchange that changes the chromosome. -/
example : interchange counterRng (1 / 2) [1, 2, 3] 1 = .ok ([2, 1, 3], 6) := by decide +kernel

/-! ## Every theorem on a concrete case -/

section instances

/-- An individual with four genes. -/
def fourGenes : Individual (List Nat) ℚ := ⟨[10, 20, 30, 40], .num 5⟩

example := C25_reordering_mutations_return counterRng (Individual.chromOps Nat .nan) (.reversing (1 / 2)) fourGenes (by decide)
example := C25_permutations_stay_permutations counterRng (Individual.chromOps Nat .nan) (.interchange (1 / 2)) fourGenes
  (genes := [40, 10, 20, 30]) (by decide)
example := (C25_zero_rate counterRng (rate := 0) (by decide) [1, 2, 3]).1 (by decide)
example := C25_reversing_full_rate counterRng (rate := 1) (by decide) 1 [2, 3]
example := (C26_extreme_rates counterRng (Individual.chromOps (K := ℚ) Bool .nan) 0 ⟨[true, false, true], .nan⟩).1 (by decide)
example := (C26_extreme_rates counterRng (Individual.chromOps (K := ℚ) Bool .nan) 1 ⟨[true, false, true], .nan⟩).2 (by decide)
example := C27_inversion counterRng (Individual.chromOps Nat .nan) (1 / 2) fourGenes (by decide)
example := (C27_inversion_rate counterRng 1 [1, 2, 3]).1 (by decide) (by decide)
example := (C27_inversion_rate counterRng (-1) [1, 2, 3]).2 (by decide)
example : ∃ e, inversion counterRng (1 / 2) ([] : List Nat) 0 = .error e := (C27_inversion_empty counterRng (1 / 2) 0).2 (by decide +kernel)
/-- `C25_identity` asks that writing back the chromosome changes nothing: a representation that does not touch the fitness. -/
example := C25_identity (U := ℚ) counterRng (A := Nat) (I := List Nat) ⟨id, fun c => c, fun _ c => c, fun _ => rfl, fun _ _ => rfl⟩ [1, 2, 3] rfl

end instances

end Ecrs.Ga
