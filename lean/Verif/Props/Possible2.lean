import Verif.Scripted
import Verif.Props.Mutation
import Mathlib.Algebra.Order.Field.Basic
import Mathlib.Tactic.Linarith

/-!
# C128: what the mutation operators can and cannot produce

`MayYield op out` – some behaviour of the generator makes the operator return `out`; `Rng.Full` – the generator
excludes no answer allowed by its contract (`Verif.Scripted`).
-/

set_option linter.unusedSectionVars false
set_option linter.unusedVariables false

namespace Ecrs.Ga
open Ecrs

section
variable {G U I A : Type} [LinearOrder U] [Zero U] [One U] {R : Rng G U}

theorem applyMutation_may [Nonempty G] (X : ChromOps I A) {op : List A → M G (List A)} {i : I} {Q : List A → Prop}
    (h1 : Returns (op (X.ch i)) Q) (h2 : ∀ c, Q c → CanYield (op (X.ch i)) c) {out : I} :
    MayYield (applyMutation X op i) out ↔ ∃ c, Q c ∧ out = X.setCh i c := by
  unfold applyMutation
  constructor
  · rintro ⟨g, g', hg⟩
    have : Returns (op (X.ch i) >>= fun c => pure (X.setCh i c)) fun o => ∃ c, Q c ∧ o = X.setCh i c :=
      h1.bind fun c hc => Returns.pure ⟨c, hc, rfl⟩
    exact this.ifReturns g _ _ hg
  · rintro ⟨c, hc, rfl⟩
    exact ((h2 c hc).bind_pure (f := fun c => X.setCh i c)).may

/-! ## FlipBit -/

theorem flipBitGo_can (hR : R.Full) {rate : U} (h0 : 0 < rate) (h1 : rate < 1) (target : List Bool) :
    ∀ (n i : Nat) (c : List Bool), i + n = c.length → target.length = c.length → c.take i = target.take i →
      CanYield (flipBitGo R rate i n c) target
  | 0, i, c, hn, hl, ht => by
    have : c = target := by
      rwa [List.take_of_length_le (by omega), List.take_of_length_le (by omega)] at ht
    subst this
    exact .pure
  | n + 1, i, c, hn, hl, ht => by
    unfold flipBitGo
    have hi : i < c.length := by omega
    have hi' : i < target.length := by omega
    by_cases he : c[i] = target[i]
    · refine (hR.genUnit h0.le h1).bind ?_
      unfold flipAt
      rw [if_neg (lt_irrefl _), pure_bind]
      refine flipBitGo_can hR h0 h1 target n (i + 1) c (by omega) hl ?_
      rw [List.take_add_one, List.take_add_one, ht, List.getElem?_eq_getElem hi, List.getElem?_eq_getElem hi', he]
    · refine (hR.genUnit le_rfl (lt_trans h0 h1)).bind ?_
      unfold flipAt setIdx
      rw [if_pos h0, idx_of_lt hi, pure_bind, if_pos hi, pure_bind]
      refine flipBitGo_can hR h0 h1 target n (i + 1) _ (by simp; omega) (by simp; omega) ?_
      rw [List.take_add_one, List.take_add_one, List.take_set_of_le (le_refl i), ht,
        List.getElem?_set_self hi, List.getElem?_eq_getElem hi']
      congr 2
      cases hc : c[i] <;> cases ht' : target[i] <;> simp_all

/-- **C128, FlipBit.** With a rate strictly between 0 and 1 the possible results are exactly the bit strings of
the same length: from every bit string every other one can be reached in one mutation. -/
theorem C128_flip_bit (hR : R.Full) (XB : ChromOps I Bool) {rate : U} (h0 : 0 < rate) (h1 : rate < 1) {i out : I} :
    MayYield (applyMutation XB (flipBit R rate) i) out ↔
      ∃ c, c.length = (XB.ch i).length ∧ out = XB.setCh i c := by
  have := hR.inhabited
  refine applyMutation_may XB (Q := fun c => c.length = (XB.ch i).length) ?_ ?_
  · refine (flipBitGo_returns R (XB.ch i).length 0 (XB.ch i) (by omega)).mono ?_
    rintro out ⟨draws, hl, -, rfl⟩
    simp [hl]
  · intro c hc
    exact flipBitGo_can hR h0 h1 c _ 0 _ (by omega) hc (by simp)

/-! ## Interchange -/

theorem interchange_can (hR : R.Full) {rate : U} (h0 : 0 < rate) {c target : List A}
    (hc : 0 < c.length) (hp : target.Perm c) (h01 : (0 : U) < 1) : CanYield (interchange R rate c) target := by
  unfold interchange
  refine (CanYield.assert (by simpa using hc)).bind ?_
  refine CanYield.fold (Q := fun is s => ∃ i, is = List.range' i (c.length - i) ∧ i ≤ c.length ∧
    s.take i = target.take i ∧ target.Perm s) ⟨0, by simp [List.range_eq_range'], by omega, by simp, hp⟩ ?_ ?_
  · rintro x xs s ⟨i, his, hi, ht, hps⟩
    have hsl : s.length = c.length := hps.length_eq.symm.trans hp.length_eq
    have hlt : i < c.length := by
      by_contra hcon
      rw [show c.length - i = 0 by omega] at his
      simp at his
    rw [show c.length - i = (c.length - (i + 1)) + 1 by omega, List.range'_succ, List.cons.injEq] at his
    obtain ⟨rfl, rfl⟩ := his
    have hdrop : (target.drop x).Perm (s.drop x) := by
      have h := hps
      rw [← List.take_append_drop x target, ← List.take_append_drop x s, ht] at h
      exact (List.perm_append_left_iff _).1 h
    have hlt' : x < target.length := by rw [hp.length_eq]; omega
    have hmem0 : target[x] ∈ target.drop x :=
      List.mem_iff_getElem.2 ⟨0, by simp; omega, by simp⟩
    have hmem : target[x] ∈ s.drop x := hdrop.subset hmem0
    obtain ⟨j, hj, hje⟩ := List.mem_iff_getElem.1 hmem
    simp only [List.length_drop] at hj
    rw [List.getElem_drop] at hje
    have hxs : x < s.length := by omega
    have hjs : x + j < s.length := by omega
    refine ⟨swapped s x (x + j) hxs hjs, ?_, x + 1, rfl, by omega, ?_, ?_⟩
    · unfold interchangeStep
      refine (hR.genUnit le_rfl h01).bind ?_
      rw [if_pos h0]
      refine (hR.threadRange (Nat.zero_le (x + j)) hjs).bind ?_
      rw [swapIdx_eq hxs hjs]
      exact .pure
    · apply List.ext_getElem?
      intro k
      rw [List.getElem?_take, List.getElem?_take]
      by_cases hk : k < x + 1
      · rw [if_pos hk, if_pos hk, swapped_getElem?]
        by_cases hkx : k = x
        · subst hkx
          rw [if_pos rfl, List.getElem?_eq_getElem hjs, List.getElem?_eq_getElem hlt', hje]
        · rw [if_neg hkx, if_neg (by omega)]
          have := congrArg (·[k]?) ht
          simp only [List.getElem?_take, if_pos (show k < x by omega)] at this
          exact this
      · rw [if_neg hk, if_neg hk]
    · exact hps.trans (swapped_perm hxs hjs).symm
  · rintro s ⟨i, his, hi, ht, hps⟩
    have hsl : s.length = c.length := hps.length_eq.symm.trans hp.length_eq
    have : c.length - i = 0 := by
      have := congrArg List.length his
      simpa using this.symm
    rwa [List.take_of_length_le (by omega), List.take_of_length_le (by rw [hp.length_eq]; omega)] at ht

/-- **C128, Interchange.** With every positive rate the possible results on a non-empty chromosome are exactly
the permutations of its genes: every ordering can be reached in one mutation. -/
theorem C128_interchange (hR : R.Full) (X : ChromOps I A) {rate : U} (h0 : 0 < rate) (h01 : (0 : U) < 1) {i out : I}
    (hc : 0 < (X.ch i).length) :
    MayYield (applyMutation X (interchange R rate) i) out ↔ ∃ c, c.Perm (X.ch i) ∧ out = X.setCh i c := by
  have := hR.inhabited
  exact applyMutation_may X (Q := fun c => c.Perm (X.ch i)) (interchange_returns R hc)
    (fun c hp => interchange_can hR h0 hc hp h01)

/-! ## Reversing -/

/-- `blocks` cut `c` into non-empty pieces, and `out` is `c` with the first gene of each piece moved to the end
of the piece. -/
def RotatesBlocks (blocks : List (List A)) (c out : List A) : Prop :=
  (∀ b ∈ blocks, b ≠ []) ∧ c = blocks.flatten ∧ out = (blocks.map fun b => b.tail ++ b.take 1).flatten

theorem swapIdx_middle (p : List A) (x y : A) (ys : List A) :
    (swapIdx (p ++ x :: y :: ys) (p.length + 1) (p.length + 1 - 1) : M G _) = pure (p ++ y :: x :: ys) := by
  rw [swapIdx_eq (by simp) (by simp)]
  congr 1
  apply List.ext_getElem?
  intro k
  rw [swapped_getElem?]
  simp only [Nat.add_sub_cancel]
  by_cases h1 : k = p.length + 1
  · subst h1; simp
  · by_cases h2 : k = p.length
    · subst h2; simp
    · rw [if_neg h1, if_neg h2]
      by_cases h3 : k < p.length
      · rw [List.getElem?_append_left h3, List.getElem?_append_left h3]
      · rw [List.getElem?_append_right (by omega), List.getElem?_append_right (by omega)]
        obtain ⟨m, hm⟩ : ∃ m, k - p.length = m + 2 := ⟨k - p.length - 2, by omega⟩
        rw [hm]; rfl

theorem reversing_walk {rate : U} : ∀ (xs p : List A) (x : A),
    Returns (M.fold (reversingStep R rate) (p ++ x :: xs) (List.range' (p.length + 1) xs.length)) fun out =>
      ∃ u bs w, RotatesBlocks ((x :: u) :: bs) (x :: xs) w ∧ out = p ++ w
  | [], p, x => Returns.pure ⟨[], [], [x], ⟨by simp, by simp, by simp⟩, rfl⟩
  | y :: ys, p, x => by
    rw [List.length_cons, List.range'_succ]
    unfold M.fold reversingStep
    rw [bind_assoc]
    refine R.genUnit_returns.bind fun d _ => ?_
    by_cases hd : d < rate
    · rw [if_pos hd, swapIdx_middle, pure_bind]
      have h := reversing_walk (rate := rate) ys (p ++ [y]) x
      simp only [List.append_assoc, List.singleton_append, List.length_append, List.length_cons, List.length_nil] at h
      refine h.mono ?_
      rintro out ⟨u, bs, w, ⟨r1, r2, r3⟩, rfl⟩
      refine ⟨y :: u, bs, y :: w, ⟨?_, ?_, ?_⟩, by simp⟩
      · intro b hb
        rcases List.mem_cons.1 hb with rfl | hb
        · simp
        · exact r1 b (by simp [hb])
      · simp only [List.flatten_cons, List.cons_append, List.cons.injEq, true_and] at r2 ⊢
        exact r2
      · simp only [List.map_cons, List.flatten_cons, List.tail_cons, List.take_succ_cons, List.take_zero,
          List.cons_append] at r3 ⊢
        rw [r3]
    · rw [if_neg hd, pure_bind]
      have h := reversing_walk (rate := rate) ys (p ++ [x]) y
      simp only [List.append_assoc, List.singleton_append, List.length_append, List.length_cons, List.length_nil] at h
      refine h.mono ?_
      rintro out ⟨u, bs, w, ⟨r1, r2, r3⟩, rfl⟩
      refine ⟨[], (y :: u) :: bs, x :: w, ⟨?_, ?_, ?_⟩, by simp⟩
      · intro b hb
        rcases List.mem_cons.1 hb with rfl | hb
        · simp
        · exact r1 b hb
      · rw [List.flatten_cons, ← r2]; rfl
      · rw [List.map_cons, List.flatten_cons, ← r3]; rfl

theorem reversing_walk_can (hR : R.Full) {rate : U} (h0 : 0 < rate) (h1 : rate < 1) : ∀ (xs p : List A) (x : A)
    (u : List A) (bs : List (List A)) (w : List A), RotatesBlocks ((x :: u) :: bs) (x :: xs) w →
    CanYield (M.fold (reversingStep R rate) (p ++ x :: xs) (List.range' (p.length + 1) xs.length)) (p ++ w)
  | [], p, x, u, bs, w, ⟨r1, r2, r3⟩ => by
    rw [List.flatten_cons, List.cons_append, List.cons.injEq] at r2
    have hu := (List.append_eq_nil_iff.1 r2.2.symm)
    have hbs : bs = [] := by
      cases bs with
      | nil => rfl
      | cons b bs => exact absurd (by have := hu.2; simp at this; exact this.1) (r1 b (by simp))
    rw [r3, hu.1, hbs]
    exact .pure
  | y :: ys, p, x, [], bs, w, ⟨r1, r2, r3⟩ => by
    rw [List.length_cons, List.range'_succ]
    unfold M.fold reversingStep
    rw [bind_assoc]
    refine (hR.genUnit h0.le h1).bind ?_
    rw [if_neg (lt_irrefl _), pure_bind]
    rw [List.flatten_cons, List.cons_append, List.cons.injEq, List.nil_append] at r2
    cases bs with
    | nil => simp at r2
    | cons b bs =>
      cases b with
      | nil => exact absurd rfl (r1 [] (by simp))
      | cons z u =>
        have hz : z = y := by have := r2.2; simp at this; exact this.1.symm
        subst hz
        have h := reversing_walk_can hR h0 h1 ys (p ++ [x]) z u bs
          ((((z :: u) :: bs).map fun b => b.tail ++ b.take 1).flatten) ⟨fun b hb => r1 b (by
            rcases List.mem_cons.1 hb with rfl | hb <;> simp_all), r2.2, rfl⟩
        simp only [List.append_assoc, List.singleton_append, List.length_append, List.length_cons,
          List.length_nil] at h
        rw [r3]
        exact h
  | y :: ys, p, x, z :: u, bs, w, ⟨r1, r2, r3⟩ => by
    rw [List.length_cons, List.range'_succ]
    unfold M.fold reversingStep
    rw [bind_assoc]
    refine (hR.genUnit le_rfl (lt_trans h0 h1)).bind ?_
    rw [if_pos h0, swapIdx_middle, pure_bind]
    rw [List.flatten_cons, List.cons_append, List.cons.injEq, List.cons_append, List.cons.injEq] at r2
    obtain ⟨-, rfl, r2⟩ := r2
    have h := reversing_walk_can hR h0 h1 ys (p ++ [y]) x u bs
      ((((x :: u) :: bs).map fun b => b.tail ++ b.take 1).flatten) ⟨fun b hb => by
        rcases List.mem_cons.1 hb with rfl | hb
        · simp
        · exact r1 b (by simp [hb]), by rw [r2]; rfl, rfl⟩
    simp only [List.append_assoc, List.singleton_append, List.length_append, List.length_cons,
      List.length_nil] at h
    rw [r3]
    exact h

theorem reversing_returns_blocks {rate : U} (c : List A) :
    Returns (reversing R rate c) fun out => ∃ blocks, RotatesBlocks blocks c out := by
  unfold reversing
  cases c with
  | nil => exact Returns.pure ⟨[], by simp, rfl, rfl⟩
  | cons x xs =>
    refine (reversing_walk (rate := rate) xs [] x).mono ?_
    rintro out ⟨u, bs, w, h, rfl⟩
    exact ⟨_, h⟩

/-- **C128, Reversing.** With a rate strictly between 0 and 1 the possible results are exactly these: the
chromosome is cut into pieces and the first gene of each piece moves to the end of the piece; every way of
cutting is possible.  (So Reversing reverses nothing longer than two genes.) -/
theorem C128_reversing (hR : R.Full) (X : ChromOps I A) {rate : U} (h0 : 0 < rate) (h1 : rate < 1) {i out : I} :
    MayYield (applyMutation X (reversing R rate) i) out ↔
      ∃ c, (∃ blocks, RotatesBlocks blocks (X.ch i) c) ∧ out = X.setCh i c := by
  have := hR.inhabited
  refine applyMutation_may X (Q := fun c => ∃ blocks, RotatesBlocks blocks (X.ch i) c)
    (reversing_returns_blocks (X.ch i)) ?_
  rintro c ⟨blocks, h⟩
  unfold reversing
  generalize X.ch i = ch at h
  cases blocks with
  | nil =>
    obtain ⟨-, rfl, rfl⟩ := h
    exact .pure
  | cons b bs =>
    cases b with
    | nil => exact absurd rfl (h.1 [] (by simp))
    | cons x u =>
      cases ch with
      | nil => have := h.2.1; simp at this
      | cons y xs =>
        have hxy : x = y := by have := h.2.1; simp at this; exact this.1.symm
        subst hxy
        have := reversing_walk_can hR h0 h1 xs [] x u bs c h
        simpa using this

/-- **C128, Reversing never reverses**: a chromosome of at least three genes whose last gene occurs only once is
never turned into its reversal by one mutation, whatever the rate and the generator. -/
theorem C128_reversing_cannot_reverse {rate : U} {x y z : A} {mid : List A} (h : x ≠ z) (hm : z ∉ y :: mid) :
    IfReturns (reversing R rate (x :: y :: mid ++ [z])) fun out => out ≠ (x :: y :: mid ++ [z]).reverse := by
  refine (reversing_returns_blocks _).ifReturns.mono ?_
  rintro out ⟨blocks, r1, r2, r3⟩ heq
  have hz : out.head? = some z := by rw [heq]; simp
  cases blocks with
  | nil => simp at r2
  | cons b bs =>
    cases b with
    | nil => exact absurd rfl (r1 [] (by simp))
    | cons a u =>
      simp only [List.flatten_cons, List.cons_append, List.cons.injEq] at r2
      obtain ⟨rfl, r2⟩ := r2
      rw [r3] at hz
      cases u with
      | nil => simp at hz; exact h hz
      | cons b u =>
        simp only [List.cons_append, List.cons.injEq] at r2
        obtain ⟨rfl, -⟩ := r2
        simp at hz
        subst hz
        simp at hm

/-! ## Inversion -/

/-- **C128, Inversion.** With a rate of at least 0 (so even with rate 0) the possible results on a non-empty
chromosome are exactly the reversals of one segment `[lo, hi]`, every segment being possible (a segment of one
gene leaves the chromosome unchanged). -/
theorem C128_inversion (hR : R.Full) (X : ChromOps I A) {rate : U} (h0 : 0 ≤ rate) (h01 : (0 : U) < 1) {i out : I}
    (hc : 0 < (X.ch i).length) :
    MayYield (applyMutation X (inversion R rate) i) out ↔ ∃ c, (∃ lo hi, lo ≤ hi ∧ hi < (X.ch i).length ∧
      c = (X.ch i).take lo ++ (((X.ch i).take (hi + 1)).drop lo).reverse ++ (X.ch i).drop (hi + 1)) ∧
      out = X.setCh i c := by
  have := hR.inhabited
  refine applyMutation_may X (Q := fun c => ∃ lo hi, lo ≤ hi ∧ hi < (X.ch i).length ∧
      c = (X.ch i).take lo ++ (((X.ch i).take (hi + 1)).drop lo).reverse ++ (X.ch i).drop (hi + 1)) ?_ ?_
  · unfold inversion
    refine R.genUnit_returns.bind fun r _ => ?_
    split
    · refine Returns.pure ⟨0, 0, le_rfl, hc, ?_⟩
      cases hch : X.ch i with
      | nil => rw [hch] at hc; simp at hc
      | cons x xs => simp
    · exact inversionBody_returns R hc
  · rintro c ⟨lo, hi, h1, h2, rfl⟩
    unfold inversion
    refine (hR.genUnit le_rfl h01).bind ?_
    rw [if_neg (not_lt.2 h0)]
    unfold inversionBody
    refine (hR.genRange (Nat.zero_le lo) (by omega)).bind ?_
    refine (hR.genRange h1 h2).bind ?_
    obtain ⟨out, e1, e2, e3⟩ := inversionLoop_eq (G := G) (X.ch i) lo hi h2
    rw [e1, reverse_segment_eq h1 h2 e2 e3]
    exact .pure

end

/-- Non-vacuity: FlipBit can turn 0110 into 1011, and Interchange 1 2 3 into 3 1 2. -/
example : MayYield (applyMutation (Individual.chromOps (K := Int) Bool (.num 0)) (flipBit (scripted false) (1 / 20 : ℚ))
    ⟨[false, true, true, false], .num 3⟩) ⟨[true, false, true, true], .num 3⟩ :=
  (C128_flip_bit (scripted_full false) _ (by norm_num) (by norm_num)).2
    ⟨[true, false, true, true], rfl, rfl⟩

example : MayYield (applyMutation (Individual.chromOps (K := Int) Nat (.num 0)) (interchange (scripted false) (1 / 20 : ℚ))
    ⟨[1, 2, 3], .num 3⟩) ⟨[3, 1, 2], .num 3⟩ :=
  (C128_interchange (scripted_full false) _ (by norm_num) (by norm_num) (by decide)).2
    ⟨[3, 1, 2], by decide, rfl⟩

example : MayYield (applyMutation (Individual.chromOps (K := Int) Nat (.num 0)) (reversing (scripted false) (1 / 20 : ℚ))
    ⟨[1, 2, 3], .num 3⟩) ⟨[2, 1, 3], .num 3⟩ :=
  (C128_reversing (scripted_full false) _ (by norm_num) (by norm_num)).2
    ⟨[2, 1, 3], ⟨[[1, 2], [3]], by simp, rfl, rfl⟩, rfl⟩
example := C128_reversing_cannot_reverse (R := scripted false) (rate := 1 / 20) (x := 1) (y := 2) (z := 4) (mid := [3])
  (by decide) (by decide)
example : MayYield (applyMutation (Individual.chromOps (K := Int) Nat (.num 0)) (inversion (scripted false) (1 / 20 : ℚ))
    ⟨[1, 2, 3, 4], .num 3⟩) ⟨[1, 4, 3, 2], .num 3⟩ :=
  (C128_inversion (scripted_full false) _ (by norm_num) (by norm_num) (by decide)).2
    ⟨[1, 4, 3, 2], ⟨1, 3, by decide, by decide, rfl⟩, rfl⟩

end Ecrs.Ga
