import Verif.ProbTape
import Verif.ProbRun
import Verif.Props.ProbSelection
import Verif.Props.Possible
import Verif.Props.Possible2

/-!
# C134: with which probability the variation operators and generators yield which result
-/

set_option linter.unusedSectionVars false

namespace Ecrs.Props
open Ecrs Ecrs.Ga MeasureTheory
open scoped ENNReal

section
variable {G I A : Type} [MeasurableSpace G] {R : Rng G ℝ} {μ : Measure G}

/-! ## Lemmas -/

/-- The bit strings of a given length. -/
def masks (n : Nat) : Finset (List Bool) := Finset.univ.image fun v : Fin n → Bool => List.ofFn v

theorem mem_masks {n : Nat} {l : List Bool} : l ∈ masks n ↔ l.length = n := by
  simp only [masks, Finset.mem_image, Finset.mem_univ, true_and]
  constructor
  · rintro ⟨v, rfl⟩; simp
  · rintro rfl; exact ⟨l.get, List.ofFn_get l⟩

theorem card_masks (n : Nat) : (masks n).card = 2 ^ n := by
  rw [masks, Finset.card_image_of_injective _ List.ofFn_injective]
  simp

/-- Independent choices between two answers. -/
theorem bits_law [IsProbabilityMeasure μ] {m : M G Bool} {r : ℝ} (h0 : 0 ≤ r) (h1 : r ≤ 1)
    (h : Law μ m fun b => ENNReal.ofReal (if b then r else 1 - r)) (n : Nat) :
    Law μ (M.replicate n m) fun bs => if bs.length = n then ENNReal.ofReal (r ^ bs.count true * (1 - r) ^ bs.count false) else 0 := by
  refine (h.replicate n).congr fun bs => ?_
  split
  · clear * - h0 h1
    induction bs with
    | nil => simp
    | cons b bs ih =>
      rw [List.map_cons, List.prod_cons, ih, ← ENNReal.ofReal_mul (by split <;> linarith)]
      congr 1
      cases b
      · simp [pow_succ]; ring
      · simp [pow_succ]; ring
  · rfl

/-- A program that draws bits and then computes. -/
theorem bits_chance [IsProbabilityMeasure μ] {β : Type} {m : M G (List Bool)} {n : Nat} {w : List Bool → ℝ≥0∞}
    (h : Law μ m fun bs => if bs.length = n then w bs else 0) (hm : ∀ g bs g', m g = .ok (bs, g') → bs.length = n)
    {f : List Bool → M G β} {k : List Bool → β} (hf : ∀ bs, bs.length = n → f bs = pure (k bs)) (Q : β → Prop) [DecidablePred Q] :
    chance μ (m >>= f) Q = ∑ bs ∈ masks n with Q (k bs), w bs := by
  have e : m >>= f = m >>= fun bs => pure (k bs) := by
    funext g
    cases hg : m g with
    | error x => rw [M.bind_of_error hg, M.bind_of_error hg]
    | ok r =>
      obtain ⟨a, g'⟩ := r
      rw [M.bind_of_ok hg, M.bind_of_ok hg, hf a (hm g a g' hg)]
  classical
  rw [e, chance_map, h.chance, tsum_eq_sum (s := masks n), Finset.sum_filter]
  · refine Finset.sum_congr rfl fun bs hbs => ?_
    rw [mem_masks] at hbs
    simp [hbs]
  · intro bs hbs
    rw [mem_masks] at hbs
    simp [hbs]

theorem ico_toFinset (n : Nat) : (Set.finite_Ico 0 n).toFinset = Finset.range n := by ext i; simp

theorem ncard_range (n : Nat) (P : Nat → Prop) [DecidablePred P] :
    (Set.Ico 0 n ∩ {i | P i}).ncard = ((Finset.range n).filter P).card := by
  rw [← Set.ncard_coe_finset]
  congr 1
  ext i
  simp

theorem ncard_ico (n : Nat) : (Set.Ico 0 n).ncard = n := by
  rw [← Finset.coe_Ico, Set.ncard_coe_finset, Nat.card_Ico, Nat.sub_zero]

theorem genRange_mem {n : Nat} (g : G) (a : Nat) (g' : G) (h : R.genRange 0 n g = .ok (a, g')) : a ∈ Set.Ico 0 n := by
  by_cases h0 : 0 < n
  · have := (R.genRange_returns h0).ifReturns g a g' h
    simpa using this
  · unfold Rng.genRange at h
    rw [if_neg h0] at h
    cases h

/-- One index drawn, then a computation. -/
theorem index_chance (hR : Ideal R μ) {β : Type} {n : Nat} (hn : 0 < n) {f : Nat → M G β} {k : Nat → β}
    (hf : ∀ i, i < n → f i = pure (k i)) (Q : β → Prop) [DecidablePred Q] :
    chance μ (R.genRange 0 n >>= f) Q = ((Finset.range n).filter fun i => Q (k i)).card / n := by
  have := hR.isProbability
  rw [Uniform.chance_of (hR.below 0 n hn) (Set.finite_Ico 0 n) genRange_mem (fun i hi => hf i hi.2), ncard_range, ncard_ico]

/-- An element of a finite set drawn uniformly, then a program. -/
theorem draw_chance [IsProbabilityMeasure μ] {α β : Type} {S : Finset α} {m : M G α} (h : Uniform μ m (S : Set α))
    (hm : ∀ g a g', m g = .ok (a, g') → a ∈ S) {f : α → M G β} (hl : ∀ a ∈ S, HasLaw μ (f a)) (Q : β → Prop) {x : α → ℝ≥0∞}
    (hx : ∀ a ∈ S, chance μ (f a) Q = x a) :
    HasLaw μ (m >>= f) ∧ chance μ (m >>= f) Q = (∑ a ∈ S, x a) / S.card := by
  classical
  refine ⟨(Law.has h).bind_reach fun a ⟨g, g', hg⟩ => hl a (hm g a g' hg), ?_⟩
  rw [Law.chance_bind_reach h fun a ⟨g, g', hg⟩ => hl a (hm g a g' hg), tsum_eq_sum (s := S), div_eq_mul_inv, Finset.sum_mul]
  · refine Finset.sum_congr rfl fun a ha => ?_
    rw [if_pos (by simpa using ha), Set.ncard_coe_finset, hx a ha, mul_comm]
  · intro a ha
    rw [if_neg (by simpa using ha), zero_mul]

/-- An element of a finite set drawn uniformly, then a computation. -/
theorem draw_chance_pure [IsProbabilityMeasure μ] {α β : Type} {S : Finset α} {m : M G α} (h : Uniform μ m (S : Set α))
    (hm : ∀ g a g', m g = .ok (a, g') → a ∈ S) {f : α → M G β} {k : α → β} (hf : ∀ a ∈ S, f a = pure (k a)) (Q : β → Prop)
    [DecidablePred Q] :
    HasLaw μ (m >>= f) ∧ chance μ (m >>= f) Q = (S.filter fun a => Q (k a)).card / S.card := by
  have := draw_chance h hm (f := f) (fun a ha => by rw [hf a ha]; exact .pure _) Q (x := fun a => if Q (k a) then 1 else 0) ?_
  · refine ⟨this.1, this.2.trans ?_⟩
    rw [Finset.card_filter]
    push_cast
    rfl
  · intro a ha
    rw [hf a ha]
    split
    · next h => exact chance_of_returns (Returns.pure h)
    · next h =>
      unfold chance
      have : {g : G | ∃ b g', (pure (k a) : M G β) g = .ok (b, g') ∧ Q b} = ∅ := by
        ext g
        simp only [Set.mem_ofPred_eq, Set.mem_empty_iff_false, iff_false]
        rintro ⟨b, g', h1, h2⟩
        rw [M.pure_run] at h1
        cases h1
        exact h h2
      rw [this, measure_empty]

theorem below_finset (hR : Ideal R μ) {lo hi : Nat} (h : lo < hi) : Uniform μ (R.genRange lo hi) ((Finset.Ico lo hi : Finset Nat) : Set Nat) := by
  rw [Finset.coe_Ico]; exact hR.below lo hi h

theorem upto_finset (hR : Ideal R μ) {lo hi : Nat} (h : lo ≤ hi) : Uniform μ (R.genRangeIncl lo hi) ((Finset.Icc lo hi : Finset Nat) : Set Nat) := by
  rw [Finset.coe_Icc]; exact hR.upto lo hi h

theorem below_mem {lo hi : Nat} (h : lo < hi) (g : G) (a : Nat) (g' : G) (e : R.genRange lo hi g = .ok (a, g')) :
    a ∈ Finset.Ico lo hi := by
  have := (R.genRange_returns h).ifReturns g a g' e
  simpa using this

theorem upto_mem {lo hi : Nat} (h : lo ≤ hi) (g : G) (a : Nat) (g' : G) (e : R.genRangeIncl lo hi g = .ok (a, g')) :
    a ∈ Finset.Icc lo hi := by
  have := (R.genRangeIncl_returns h).ifReturns g a g' e
  simpa using this

/-! ## FlipBit -/

theorem flipBitGo_eq {rate : ℝ} : ∀ (n i : Nat) (c : List Bool), i + n = c.length →
    flipBitGo R rate i n c = M.replicate n (R.genUnit >>= fun u => pure (decide (u < rate))) >>= fun ms =>
      pure (c.take i ++ List.zipWith (fun b m => if m then !b else b) (c.drop i) ms)
  | 0, i, c, h => by
    have hd : c.drop i = [] := List.drop_eq_nil_iff.2 (by omega)
    rw [flipBitGo, M.replicate, pure_bind, hd, List.zipWith_nil_left, List.append_nil, List.take_of_length_le (by omega)]
  | n + 1, i, c, h => by
    have hi : i < c.length := by omega
    rw [flipBitGo, M.replicate]
    simp only [bind_assoc, pure_bind]
    congr 1
    funext d
    by_cases hd : d < rate
    · rw [flipAt, if_pos hd, idx_of_lt hi, pure_bind, setIdx, if_pos hi, pure_bind, flipBitGo_eq n (i + 1) _ (by simp; omega)]
      congr 1
      funext ms
      congr 1
      have h3 := List.drop_eq_getElem_cons hi
      have h1 : (c.set i (!c[i])).take (i + 1) = c.take i ++ [!c[i]] := by
        rw [List.take_add_one, List.take_set_of_le (le_refl i), List.getElem?_set_self hi]; rfl
      have h2 : (c.set i (!c[i])).drop (i + 1) = c.drop (i + 1) := List.drop_set_of_lt (by omega)
      rw [h1, h2, h3, List.zipWith_cons_cons]
      simp only [hd, decide_true, if_true, List.append_assoc, List.singleton_append]
    · rw [flipAt, if_neg hd, pure_bind, flipBitGo_eq n (i + 1) _ (by omega)]
      congr 1
      funext ms
      congr 1
      have h3 := List.drop_eq_getElem_cons hi
      have h1 : c.take (i + 1) = c.take i ++ [c[i]] := by
        rw [List.take_add_one, List.getElem?_eq_getElem hi]; rfl
      rw [h1, h3, List.zipWith_cons_cons]
      simp only [hd, decide_false, Bool.false_eq_true, if_false, List.append_assoc, List.singleton_append]

theorem flip_mask : ∀ (c ms d : List Bool), ms.length = c.length →
    (List.zipWith (fun b m => if m then !b else b) c ms = d ↔ d.length = c.length ∧ ms = List.zipWith (fun a b => a != b) c d)
  | [], [], d, _ => by cases d <;> simp
  | b :: c, m :: ms, [], h => by simp
  | b :: c, m :: ms, e :: d, h => by
    have ih := flip_mask c ms d (by simpa using h)
    simp only [List.zipWith_cons_cons, List.cons.injEq, ih, List.length_cons, Nat.add_right_cancel_iff]
    constructor
    · rintro ⟨rfl, h1, rfl⟩
      refine ⟨h1, ?_, rfl⟩
      cases b <;> cases m <;> rfl
    · rintro ⟨h1, rfl, rfl⟩
      refine ⟨?_, h1, rfl⟩
      cases b <;> cases e <;> rfl

theorem count_diff : ∀ (c d : List Bool), d.length = c.length →
    (List.zipWith (fun a b => a != b) c d).count true = (c.zip d).countP (fun p => p.1 ≠ p.2) ∧
    (List.zipWith (fun a b => a != b) c d).count false = (c.zip d).countP (fun p => p.1 = p.2)
  | [], [], _ => by simp
  | b :: c, e :: d, h => by
    obtain ⟨h1, h2⟩ := count_diff c d (by simpa using h)
    rw [List.zipWith_cons_cons, List.zip_cons_cons, List.count_cons, List.count_cons, List.countP_cons, List.countP_cons, h1, h2]
    cases b <;> cases e <;> simp

/-- **C134, FlipBit**: every bit is flipped with probability `rate`, independently of the others: the result is `d` with
probability `rate` to the number of positions where `d` differs from `c`, times `1 - rate` to the number of others. -/
theorem C134_flip_bit (hR : Ideal R μ) {rate : ℝ} (h0 : 0 ≤ rate) (h1 : rate ≤ 1) {c d : List Bool} (hd : d.length = c.length) :
    chance μ (flipBit R rate c) (· = d) =
      ENNReal.ofReal (rate ^ (c.zip d).countP (fun p => p.1 ≠ p.2) * (1 - rate) ^ (c.zip d).countP (fun p => p.1 = p.2)) := by
  have := hR.isProbability
  unfold flipBit
  rw [flipBitGo_eq _ _ _ (by omega), chance_map, (bits_law h0 h1 (hR.unit_lt h0 h1) c.length).chance]
  rw [tsum_eq_single (List.zipWith (fun a b => a != b) c d)]
  · obtain ⟨e1, e2⟩ := count_diff c d hd
    have hl : (List.zipWith (fun a b => a != b) c d).length = c.length := by simp [hd]
    rw [if_pos, if_pos hl, e1, e2]
    simpa using (flip_mask c _ d hl).2 ⟨hd, rfl⟩
  · intro ms hms
    by_cases hl : ms.length = c.length
    · rw [if_neg]
      simpa [hd] using fun h => hms ((flip_mask c ms d hl).1 h).2
    · simp [hl]

/-! ## Interchange -/

/-- **C134, Interchange**: every ordering of the genes results with probability at least `(rate / n)ⁿ`, for a chromosome
of `n` genes. -/
theorem C134_interchange (hR : Ideal R μ) {rate : ℝ} (h0 : 0 ≤ rate) (h1 : rate ≤ 1) {c target : List A} (hc : c ≠ [])
    (hp : target.Perm c) :
    (ENNReal.ofReal rate / c.length) ^ c.length ≤ chance μ (interchange R rate c) (· = target) := by
  have := hR.isProbability
  have hpos : 0 < c.length := List.length_pos_iff.2 hc
  have ha : (M.assert (decide (0 < c.length)) .emptyRange : M G Unit) = pure () := by
    unfold M.assert; rw [if_pos (by simpa using hpos)]
  have hswap : ∀ (s : List A) i j, HasLaw μ (swapIdx s i j) := by
    intro s i j
    by_cases hi : i < s.length
    · by_cases hj : j < s.length
      · rw [swapIdx_eq hi hj]; exact .pure _
      · refine (HasLaw.fail .indexOob).of_eq ?_
        unfold swapIdx; rw [idx_ge (by omega)]; rfl
    · by_cases hj : j < s.length
      · refine (HasLaw.fail .indexOob).of_eq ?_
        unfold swapIdx; rw [idx_of_lt hj, idx_ge (by omega), pure_bind]; rfl
      · refine (HasLaw.fail .indexOob).of_eq ?_
        unfold swapIdx; rw [idx_ge (by omega)]; rfl
  have hstep : ∀ (s : List A) i, HasLaw μ (interchangeStep R rate s i) := fun s i =>
    hR.hasLaw_unit_lt h0 h1 ((hR.hasLaw_thread 0 s.length).bind fun j => hswap s i j) (.pure s)
  unfold interchange
  rw [ha, pure_bind]
  have key : ∀ k i (s : List A), i + k = c.length → s.take i = target.take i → target.Perm s →
      (ENNReal.ofReal rate / c.length) ^ k ≤ chance μ (M.fold (interchangeStep R rate) s (List.range' i k)) (· = target) := by
    intro k
    induction k with
    | zero =>
      intro i s hi ht hps
      have hsl : s.length = c.length := hps.length_eq.symm.trans hp.length_eq
      rw [List.take_of_length_le (by omega), List.take_of_length_le (by rw [hp.length_eq]; omega)] at ht
      subst ht
      rw [pow_zero]
      exact (chance_of_returns (μ := μ) (P := fun x => x = _) (Returns.pure rfl)).ge
    | succ k ih =>
      intro x s hx ht hps
      have hsl : s.length = c.length := hps.length_eq.symm.trans hp.length_eq
      have hdrop : (target.drop x).Perm (s.drop x) := by
        have h := hps
        rw [← List.take_append_drop x target, ← List.take_append_drop x s, ht] at h
        exact (List.perm_append_left_iff _).1 h
      have hlt' : x < target.length := by rw [hp.length_eq]; omega
      have hmem0 : target[x] ∈ target.drop x := List.mem_iff_getElem.2 ⟨0, by simp; omega, by simp⟩
      have hmem : target[x] ∈ s.drop x := hdrop.subset hmem0
      obtain ⟨j, hj, hje⟩ := List.mem_iff_getElem.1 hmem
      simp only [List.length_drop] at hj
      rw [List.getElem_drop] at hje
      have hxs : x < s.length := by omega
      have hjs : x + j < s.length := by omega
      rw [List.range'_succ, M.fold, pow_succ']
      refine le_trans ?_ ((hstep s x).le_chance_bind (fun s' => HasLaw.fold hstep _ s') (· = swapped s x (x + j) hxs hjs)
        (ε := (ENNReal.ofReal rate / c.length) ^ k) ?_)
      rotate_left
      · rintro _ rfl
        refine ih (x + 1) _ (by omega) ?_ (hps.trans (swapped_perm hxs hjs).symm)
        apply List.ext_getElem?
        intro q
        rw [List.getElem?_take, List.getElem?_take]
        by_cases hk : q < x + 1
        · rw [if_pos hk, if_pos hk, swapped_getElem?]
          by_cases hkx : q = x
          · subst hkx
            rw [if_pos rfl, List.getElem?_eq_getElem hjs, List.getElem?_eq_getElem hlt', hje]
          · rw [if_neg hkx, if_neg (by omega)]
            have := congrArg (·[q]?) ht
            simp only [List.getElem?_take, if_pos (show q < x by omega)] at this
            exact this
        · rw [if_neg hk, if_neg hk]
      · refine mul_le_mul_left ?_ _
        have e : interchangeStep R rate s x = (R.genUnit >>= fun u => pure (decide (u < rate))) >>= fun b =>
            if b then R.threadRange 0 s.length >>= swapIdx s x else pure s := by
          unfold interchangeStep
          simp only [bind_assoc, pure_bind, decide_eq_true_eq]
        have hb := (hR.unit_lt h0 h1).has.le_chance_bind (f := fun b => if b then R.threadRange 0 s.length >>= swapIdx s x else pure s)
          (fun b => .ite ((hR.hasLaw_thread 0 s.length).bind fun j => hswap s x j) (.pure s)) (· = true)
          (Q := (· = swapped s x (x + j) hxs hjs)) (ε := (c.length : ℝ≥0∞)⁻¹) ?_
        · rw [e]
          refine le_trans (le_of_eq ?_) hb
          rw [(hR.unit_lt h0 h1).chance_eq, div_eq_mul_inv]
          simp
        · rintro _ rfl
          rw [if_pos rfl]
          have hu := hR.threadBelow 0 s.length (by omega)
          have hc' := (Law.has hu).le_chance_bind (f := swapIdx s x) (fun j => hswap s x j) (· = x + j)
            (Q := (· = swapped s x (x + j) hxs hjs)) (ε := 1) ?_
          · refine le_trans (le_of_eq ?_) hc'
            rw [Law.chance_eq hu, if_pos (by simp; omega), ncard_ico, hsl, mul_one]
          · rintro _ rfl
            rw [swapIdx_eq hxs hjs]
            exact (chance_of_returns (μ := μ) (P := fun x => x = _) (Returns.pure rfl)).ge
  have := key c.length 0 c (by omega) (by simp) hp
  rwa [← List.range_eq_range'] at this

/-! ## Inversion -/

/-- **C134, Inversion**: with probability `1 - rate` nothing changes; otherwise the first index of the reversed segment
is uniform among all, and its last index uniform among those from the first on. -/
theorem C134_inversion (hR : Ideal R μ) {rate : ℝ} (h0 : 0 ≤ rate) (h1 : rate ≤ 1) {c : List A} (hc : c ≠ []) (Q : List A → Prop)
    [DecidablePred Q] :
    chance μ (inversion R rate c) Q = ENNReal.ofReal (1 - rate) * (if Q c then 1 else 0) + ENNReal.ofReal rate *
      ((∑ lo ∈ Finset.range c.length, (((Finset.Ico lo c.length).filter fun hi =>
        Q (c.take lo ++ ((c.take (hi + 1)).drop lo).reverse ++ c.drop (hi + 1))).card : ℝ≥0∞) / (c.length - lo : ℕ)) / c.length) := by
  have := hR.isProbability
  have hpos : 0 < c.length := List.length_pos_iff.2 hc
  have inner : ∀ lo, lo < c.length → HasLaw μ (R.genRange lo c.length >>= inversionLoop c lo) ∧
      chance μ (R.genRange lo c.length >>= inversionLoop c lo) Q = (((Finset.Ico lo c.length).filter fun hi =>
        Q (c.take lo ++ ((c.take (hi + 1)).drop lo).reverse ++ c.drop (hi + 1))).card : ℝ≥0∞) / (c.length - lo : ℕ) := by
    intro lo hlo
    have := draw_chance_pure (below_finset hR hlo) (below_mem hlo) (f := inversionLoop c lo)
      (k := fun hi => c.take lo ++ ((c.take (hi + 1)).drop lo).reverse ++ c.drop (hi + 1)) ?_ Q
    · rwa [Nat.card_Ico] at this
    · intro hi hhi
      rw [Finset.mem_Ico] at hhi
      obtain ⟨out, h1, h2, h3⟩ := inversionLoop_eq (G := G) c lo hi hhi.2
      rw [h1, reverse_segment_eq hhi.1 hhi.2 h2 h3]
  have body := draw_chance (below_finset hR hpos) (below_mem hpos) (f := fun lo => R.genRange lo c.length >>= inversionLoop c lo)
    (fun lo hlo => (inner lo (Finset.mem_Ico.1 hlo).2).1) Q (fun lo hlo => (inner lo (Finset.mem_Ico.1 hlo).2).2)
  have e : inversion R rate c = (R.genUnit >>= fun u => pure (decide (u ≤ rate))) >>= fun b =>
      if b then inversionBody R c else pure c := by
    unfold inversion
    simp only [bind_assoc, pure_bind, decide_eq_true_eq]
    congr 1
    funext u
    by_cases h : u ≤ rate
    · rw [if_pos h, if_neg (not_lt.2 h)]
    · rw [if_neg h, if_pos (not_le.1 h)]
  have hb : HasLaw μ (inversionBody R c) := body.1
  rw [e, (hR.unit_le h0 h1).chance_bind_reach (fun b _ => .ite hb (.pure c)), tsum_bool]
  simp only [Bool.false_eq_true, if_false, if_true]
  have hp : chance μ (pure c : M G (List A)) Q = if Q c then 1 else 0 := by
    have := (Law.pure (μ := μ) c).chance Q
    rw [this, tsum_eq_single c]
    · simp
    · intro b hb; simp [hb]
  have hb2 : chance μ (inversionBody R c) Q = _ := body.2
  rw [hp, hb2, Nat.card_Ico, Nat.sub_zero, Finset.range_eq_Ico]

end

example := C134_interchange tapeRng_ideal (rate := 1 / 10) (by norm_num) (by norm_num) (c := [1, 2, 3]) (target := [3, 1, 2])
  (by decide) (by decide)
/-- An inversion of two genes exchanges them with probability `rate / 4`. -/
example : chance tapeLaw (inversion tapeRng (1 / 2) [1, 2]) (· = [2, 1]) = ENNReal.ofReal (1 / 2) * (1 / 2 / 2) := by
  refine (C134_inversion tapeRng_ideal (by norm_num) (by norm_num) (by decide) _).trans ?_
  have h0 : ((Finset.Ico 0 2).filter fun hi =>
      [1, 2].take 0 ++ (([1, 2].take (hi + 1)).drop 0).reverse ++ [1, 2].drop (hi + 1) = [2, 1]).card = 1 := by decide
  have h1 : ((Finset.Ico 1 2).filter fun hi =>
      [1, 2].take 1 ++ (([1, 2].take (hi + 1)).drop 1).reverse ++ [1, 2].drop (hi + 1) = [2, 1]).card = 0 := by decide
  simp only [List.length_cons, List.length_nil, Finset.sum_range_succ, Finset.sum_range_zero, Nat.reduceAdd, h0, h1]
  norm_num

end Ecrs.Props
