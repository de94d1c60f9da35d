import Verif.Ga.CrossoverLemmas
import Mathlib.Data.List.Perm.Subperm
import Mathlib.Data.Finset.Card
import Mathlib.Data.Finset.Image
import Mathlib.Data.Finset.SDiff
import Mathlib.Logic.Function.Iterate
import Mathlib.Order.Interval.Finset.Nat

/-! # Helper lemmas about the permutation crossovers (ordered, PMX, PPX) -/

set_option linter.unusedSectionVars false
set_option linter.unusedVariables false
set_option linter.unusedSimpArgs false

namespace Ecrs.Ga
open Ecrs

variable {G A : Type} [DecidableEq A]

/-! ## Ordered crossover -/

theorem orderedFill_eq (sub : List A) : ∀ (p : List A) (need : Nat),
    need ≤ (p.filter (· ∉ sub)).length →
    ∃ rest, (orderedFill sub need p : M G _) = pure ((p.filter (· ∉ sub)).take need, rest) ∧
      rest.filter (· ∉ sub) = (p.filter (· ∉ sub)).drop need
  | p, 0, _ => ⟨p, by cases p <;> simp [orderedFill], by simp⟩
  | [], need + 1, h => by simp at h
  | g :: p, need + 1, h => by
    by_cases hg : g ∈ sub
    · obtain ⟨rest, h1, h2⟩ := orderedFill_eq sub p (need + 1) (by simpa [hg] using h)
      refine ⟨rest, ?_, ?_⟩
      · unfold orderedFill; rw [if_pos hg, h1]; simp [hg]
      · rw [h2]; simp [hg]
    · obtain ⟨rest, h1, h2⟩ := orderedFill_eq sub p need (by simpa [hg] using h)
      refine ⟨rest, ?_, ?_⟩
      · unfold orderedFill; rw [if_neg hg, h1]; simp [hg]
      · rw [h2]; simp [hg]

omit [DecidableEq A] in
theorem slice_sublist (l : List A) (b e : Nat) : (slice l b e).Sublist l :=
  (List.drop_sublist _ _).trans (List.take_sublist _ _)

/-- The genes of `p2` inside a segment set of a permutation of `p2`. -/
theorem filter_mem_perm {p1 p2 sub : List A} (hn : p1.Nodup) (hp : p1.Perm p2)
    (hs : sub.Sublist p1) : (p2.filter (· ∈ sub)).Perm sub := by
  rw [List.perm_ext_iff_of_nodup ((hp.nodup_iff.1 hn).filter _) (hn.sublist hs)]
  intro a
  simp only [List.mem_filter, decide_eq_true_eq]
  exact ⟨fun h => h.2, fun h => ⟨hp.subset (hs.subset h), h⟩⟩

theorem filter_notMem_append_perm {p1 p2 sub : List A} (hn : p1.Nodup) (hp : p1.Perm p2)
    (hs : sub.Sublist p1) : (p2.filter (· ∉ sub) ++ sub).Perm p2 := by
  refine List.Perm.trans ?_ (List.filter_append_perm (fun a => decide (a ∉ sub)) p2)
  refine List.Perm.append_left _ ?_
  refine (filter_mem_perm hn hp hs).symm.trans ?_
  apply List.Perm.of_eq
  apply List.filter_congr
  intro a _; simp

theorem orderedChild_eq {p1 p2 : List A} {b e : Nat} (hn : p1.Nodup) (hp : p1.Perm p2)
    (hbe : b ≤ e) (he : e ≤ p1.length) :
    (orderedChild p1 p2 b e : M G _) = pure ((p2.filter (· ∉ slice p1 b e)).take b ++ slice p1 b e ++
      (p2.filter (· ∉ slice p1 b e)).drop b) ∧
    (p2.filter (· ∉ slice p1 b e)).length = p1.length - (e - b) := by
  have hlen : (p2.filter (· ∉ slice p1 b e)).length = p1.length - (e - b) := by
    have := (filter_notMem_append_perm hn hp (slice_sublist p1 b e)).length_eq
    rw [List.length_append, slice_length he, ← hp.length_eq] at this
    omega
  refine ⟨?_, hlen⟩
  unfold orderedChild
  rw [readRange_eq he, pure_bind]
  obtain ⟨rest, h1, h2⟩ := orderedFill_eq (G := G) (slice p1 b e) p2 b (by omega)
  rw [h1, pure_bind, ← h2]

theorem ordered_perm {p1 p2 : List A} {b e : Nat} (hn : p1.Nodup) (hp : p1.Perm p2) :
    ((p2.filter (· ∉ slice p1 b e)).take b ++ slice p1 b e ++
      (p2.filter (· ∉ slice p1 b e)).drop b).Perm p1 := by
  refine List.Perm.trans ?_ ((filter_notMem_append_perm hn hp (slice_sublist p1 b e)).trans hp.symm)
  rw [List.append_assoc]
  refine (List.Perm.append_left _ List.perm_append_comm).trans ?_
  rw [← List.append_assoc, List.take_append_drop]

/-! ## PPX -/

theorem ppxNext_eq {taken : List A} : ∀ (rem : List A), (∃ g ∈ rem, g ∉ taken) →
    ∃ skip g rest, rem = skip ++ g :: rest ∧ (∀ x ∈ skip, x ∈ taken) ∧ g ∉ taken ∧
      (ppxNext taken rem : M G _) = pure (g, rest)
  | [], h => by simp at h
  | x :: rem, h => by
    by_cases hx : x ∈ taken
    · obtain ⟨skip, g, rest, h1, h2, h3, h4⟩ := ppxNext_eq (taken := taken) rem (by
        obtain ⟨g, hg, hgt⟩ := h
        rcases List.mem_cons.1 hg with rfl | hg
        · exact absurd hx hgt
        · exact ⟨g, hg, hgt⟩)
      refine ⟨x :: skip, g, rest, by simp [h1], ?_, h3, ?_⟩
      · intro y hy; rcases List.mem_cons.1 hy with rfl | hy
        · exact hx
        · exact h2 y hy
      · unfold ppxNext; rw [if_pos hx, h4]
    · exact ⟨[], x, rem, rfl, by simp, hx, by unfold ppxNext; rw [if_neg hx]⟩

omit [DecidableEq A] in
theorem before_of_split {u v : List A} {a g : A} (hn : (u ++ g :: v).Nodup)
    (h : [a, g].Sublist (u ++ g :: v)) : a ∈ u := by
  rw [List.sublist_append_iff] at h
  obtain ⟨l1, l2, he, h1, h2⟩ := h
  cases l1 with
  | nil =>
    simp only [List.nil_append] at he; subst he
    exfalso
    have hgv : g ∉ v := by
      rw [List.nodup_append] at hn; exact (List.nodup_cons.1 hn.2.1).1
    cases h2 with
    | cons _ h => exact hgv (h.subset (by simp))
    | cons_cons _ h => exact hgv (h.subset (by simp))
  | cons x l1 =>
    simp only [List.cons_append, List.cons.injEq] at he
    obtain ⟨rfl, -⟩ := he
    exact h1.subset (by simp)

/-- State invariant of the PPX loop. -/
structure PpxInv (p1 p2 taken rem1 rem2 : List A) : Prop where
  suff1 : ∃ pre, p1 = pre ++ rem1 ∧ ∀ x ∈ pre, x ∈ taken
  suff2 : ∃ pre, p2 = pre ++ rem2 ∧ ∀ x ∈ pre, x ∈ taken
  nodup : taken.Nodup
  sub : taken ⊆ p1
  prec : ∀ a b, [a, b].Sublist p1 → [a, b].Sublist p2 → b ∈ taken → [a, b].Sublist taken

theorem exists_untaken {p taken rem : List A} (hn : p.Nodup) (hl : taken.length < p.length)
    (hs : ∃ pre, p = pre ++ rem ∧ ∀ x ∈ pre, x ∈ taken) : ∃ g ∈ rem, g ∉ taken := by
  by_contra hc
  push Not at hc
  obtain ⟨pre, rfl, hpre⟩ := hs
  have hsub : (pre ++ rem) ⊆ taken := by
    intro x hx; rcases List.mem_append.1 hx with h | h
    · exact hpre x h
    · exact hc x h
  have := (List.subperm_of_subset hn hsub).length_le
  omega

theorem ppx_step {p1 p2 p taken skip rest : List A} {g : A} (hn : p.Nodup)
    (hg : g ∉ taken) (hp : ∃ pre, p = pre ++ (skip ++ g :: rest) ∧ ∀ x ∈ pre, x ∈ taken)
    (hsk : ∀ x ∈ skip, x ∈ taken) (hpp : p = p1 ∨ p = p2)
    (hd : taken.Nodup) (hsub : taken ⊆ p1) (hgp : g ∈ p1)
    (hprec : ∀ a b, [a, b].Sublist p1 → [a, b].Sublist p2 → b ∈ taken → [a, b].Sublist taken) :
    (∃ pre, p = pre ++ rest ∧ ∀ x ∈ pre, x ∈ taken ++ [g]) ∧ (taken ++ [g]).Nodup ∧
    (taken ++ [g]) ⊆ p1 ∧
    (∀ a b, [a, b].Sublist p1 → [a, b].Sublist p2 → b ∈ taken ++ [g] →
      [a, b].Sublist (taken ++ [g])) := by
  obtain ⟨pre, hpe, hpre⟩ := hp
  refine ⟨⟨pre ++ skip ++ [g], by rw [hpe]; simp, ?_⟩, ?_, ?_, ?_⟩
  · intro x hx
    simp only [List.append_assoc, List.mem_append, List.mem_singleton] at hx ⊢
    rcases hx with h | h | h
    · exact .inl (hpre x h)
    · exact .inl (hsk x h)
    · exact .inr h
  · rw [List.nodup_append]
    refine ⟨hd, by simp, ?_⟩
    intro a ha b hb
    simp at hb; subst hb; rintro rfl; exact hg ha
  · intro x hx
    rcases List.mem_append.1 hx with h | h
    · exact hsub h
    · simp at h; subst h; exact hgp
  · intro a b h1 h2 hb
    rcases List.mem_append.1 hb with h | h
    · exact (hprec a b h1 h2 h).trans (List.sublist_append_left _ _)
    · simp at h; subst h
      have hab : [a, b].Sublist p := by rcases hpp with rfl | rfl <;> assumption
      have ha : a ∈ taken := by
        rw [hpe, ← List.append_assoc] at hab
        rw [hpe, ← List.append_assoc] at hn
        rcases List.mem_append.1 (before_of_split hn hab) with h | h
        · exact hpre a h
        · exact hsk a h
      exact List.Sublist.append (l₁ := [a]) (List.singleton_sublist.2 ha) (List.Sublist.refl [b])

theorem ppxGo_returns {p1 p2 : List A} (hn : p1.Nodup) (hp : p1.Perm p2) :
    ∀ (ms : List Bool) (taken rem1 rem2 : List A), ms.length + taken.length = p1.length →
      PpxInv p1 p2 taken rem1 rem2 →
      ∃ out, (ppxGo ms taken rem1 rem2 : M G _) = pure out ∧ out.length = p1.length ∧ out.Nodup ∧
        out ⊆ p1 ∧
        ∀ a b, [a, b].Sublist p1 → [a, b].Sublist p2 → b ∈ out → [a, b].Sublist out
  | [], taken, rem1, rem2, hl, hi =>
    ⟨taken, rfl, by simpa using hl, hi.nodup, hi.sub, hi.prec⟩
  | true :: ms, taken, rem1, rem2, hl, hi => by
    simp at hl
    obtain ⟨skip, g, rest, h1, h2, h3, h4⟩ := ppxNext_eq (G := G) rem1
      (exists_untaken hn (by omega) hi.suff1)
    subst h1
    have hgp : g ∈ p1 := by obtain ⟨pre, h, -⟩ := hi.suff1; rw [h]; simp
    obtain ⟨s1, s2, s3, s4⟩ := ppx_step hn h3 hi.suff1 h2 (.inl rfl) hi.nodup hi.sub hgp hi.prec
    obtain ⟨out, ho⟩ := ppxGo_returns hn hp ms (taken ++ [g]) rest rem2 (by simp; omega)
      ⟨s1, by
        obtain ⟨pre, h, hx⟩ := hi.suff2
        exact ⟨pre, h, fun x hx' => by simp [hx x hx']⟩, s2, s3, s4⟩
    refine ⟨out, ?_, ho.2⟩
    unfold ppxGo; rw [h4, pure_bind]; exact ho.1
  | false :: ms, taken, rem1, rem2, hl, hi => by
    simp at hl
    have hn2 := hp.nodup_iff.1 hn
    obtain ⟨skip, g, rest, h1, h2, h3, h4⟩ := ppxNext_eq (G := G) rem2
      (exists_untaken hn2 (by rw [← hp.length_eq]; omega) hi.suff2)
    subst h1
    have hgp : g ∈ p1 := by obtain ⟨pre, h, -⟩ := hi.suff2; rw [hp.mem_iff, h]; simp
    obtain ⟨s1, s2, s3, s4⟩ := ppx_step hn2 h3 hi.suff2 h2 (.inr rfl) hi.nodup hi.sub hgp hi.prec
    obtain ⟨out, ho⟩ := ppxGo_returns hn hp ms (taken ++ [g]) rem1 rest (by simp; omega)
      ⟨by
        obtain ⟨pre, h, hx⟩ := hi.suff1
        exact ⟨pre, h, fun x hx' => by simp [hx x hx']⟩, s1, s2, s3, s4⟩
    refine ⟨out, ?_, ho.2⟩
    unfold ppxGo; rw [h4, pure_bind]; exact ho.1

theorem ppxChild_eq {p1 p2 : List A} (hn : p1.Nodup) (hp : p1.Perm p2) {mask : List Bool}
    (hm : mask.length = p1.length) :
    ∃ out, (ppxChild p1 p2 mask : M G _) = pure out ∧ out.Perm p1 ∧
      ∀ a b, [a, b].Sublist p1 → [a, b].Sublist p2 → [a, b].Sublist out := by
  obtain ⟨out, h1, h2, h3, h4, h5⟩ := ppxGo_returns (G := G) hn hp mask [] p1 p2 (by simpa using hm)
    ⟨⟨[], by simp, by simp⟩, ⟨[], by simp, by simp⟩, by simp, by simp, by simp⟩
  have hperm : out.Perm p1 := (List.subperm_of_subset h3 h4).perm_of_length_le (by omega)
  refine ⟨out, h1, hperm, ?_⟩
  intro a b ha hb
  exact h5 a b ha hb (hperm.symm.subset (ha.subset (by simp)))

/-! ## PMX -/

/-- The mapping of PMX: the position in `p2` of the gene `p1` holds at position `j`. -/
def sigma (p1 p2 : List A) (j : Nat) : Nat :=
  match p1[j]? with
  | some v => p2.idxOf v
  | none => j

section pmx
variable {p1 p2 : List A}

theorem sigma_spec (hp : p1.Perm p2) {j : Nat} (hj : j < p1.length) :
    sigma p1 p2 j < p1.length ∧ p2[sigma p1 p2 j]? = p1[j]? := by
  have e : p1[j]? = some p1[j] := List.getElem?_eq_getElem hj
  have hm : p1[j] ∈ p2 := hp.subset (List.getElem_mem hj)
  have hlt := List.idxOf_lt_length_of_mem hm
  unfold sigma; rw [e]; simp only
  refine ⟨by rw [hp.length_eq]; exact hlt, ?_⟩
  rw [List.getElem?_eq_getElem hlt, List.getElem_idxOf]

theorem getElem?_inj_of_nodup {p : List A} (hn : p.Nodup) {i j : Nat} (hi : i < p.length)
    (h : p[i]? = p[j]?) : i = j := (List.getElem?_inj hi hn).1 h

theorem sigma_injective (hn : p1.Nodup) (hp : p1.Perm p2) : Function.Injective (sigma p1 p2) := by
  intro i j h
  by_cases hi : i < p1.length
  · by_cases hj : j < p1.length
    · apply getElem?_inj_of_nodup hn hi
      rw [← (sigma_spec hp hi).2, ← (sigma_spec hp hj).2, h]
    · have h1 := (sigma_spec hp hi).1
      have h2 : sigma p1 p2 j = j := by
        unfold sigma; rw [List.getElem?_eq_none (by omega)]
      omega
  · have h2 : sigma p1 p2 i = i := by
      unfold sigma; rw [List.getElem?_eq_none (by omega)]
    by_cases hj : j < p1.length
    · have h1 := (sigma_spec hp hj).1
      omega
    · have h3 : sigma p1 p2 j = j := by
        unfold sigma; rw [List.getElem?_eq_none (by omega)]
      omega

theorem lastIndexOf_eq (hn : p1.Nodup) (hp : p1.Perm p2) {j : Nat} (hj : j < p1.length) :
    (lastIndexOf p2 p1[j] : M G Nat) = pure (sigma p1 p2 j) := by
  have hs := sigma_spec hp hj
  have e : p1[j]? = some p1[j] := List.getElem?_eq_getElem hj
  have hn2 := hp.nodup_iff.1 hn
  unfold lastIndexOf
  have : (List.range p2.length).reverse.find? (fun i => p2[i]? = some p1[j]) =
      some (sigma p1 p2 j) := by
    cases hf : (List.range p2.length).reverse.find? (fun i => p2[i]? = some p1[j]) with
    | none =>
      rw [List.find?_eq_none] at hf
      exfalso
      apply hf (sigma p1 p2 j)
      · simp; rw [← hp.length_eq]; exact hs.1
      · simp [hs.2]
    | some i =>
      have h1 := List.find?_some hf
      have h2 := List.mem_of_find?_eq_some hf
      simp at h1 h2
      congr 1
      apply getElem?_inj_of_nodup hn2 h2
      rw [hs.2, e, h1]
  rw [this]

/-- Is the position inside the transplanted segment? -/
abbrev InSeg (b e j : Nat) : Prop := b ≤ j ∧ j < e

/-- `pmxExit` follows the mapping until it leaves the segment. -/
theorem pmxExit_eq (hn : p1.Nodup) (hp : p1.Perm p2) {b e : Nat} (he : e ≤ p1.length) :
    ∀ (m fuel j : Nat), m < fuel → j < p1.length →
      (∀ k, 1 ≤ k → k ≤ m → InSeg b e ((sigma p1 p2)^[k] j)) →
      ¬ InSeg b e ((sigma p1 p2)^[m + 1] j) →
      (pmxExit p1 p2 b e fuel j : M G Nat) = pure ((sigma p1 p2)^[m + 1] j)
  | _, 0, _, h, _, _, _ => by omega
  | 0, fuel + 1, j, _, hj, _, hout => by
    unfold pmxExit
    rw [idx_of_lt hj, pure_bind, lastIndexOf_eq hn hp hj, pure_bind]
    simp only [Function.iterate_succ, Function.iterate_zero, Function.comp, id] at hout ⊢
    rw [if_neg hout]
  | m + 1, fuel + 1, j, h, hj, hin, hout => by
    unfold pmxExit
    rw [idx_of_lt hj, pure_bind, lastIndexOf_eq hn hp hj, pure_bind]
    have h1 := hin 1 (by omega) (by omega)
    simp only [Function.iterate_succ, Function.iterate_zero, Function.comp, id] at h1
    rw [if_pos h1]
    rw [pmxExit_eq hn hp he m fuel (sigma p1 p2 j) (by omega) (sigma_spec hp hj).1 ?_ ?_]
    · rw [← Function.iterate_succ_apply]
    · intro k hk1 hk2
      rw [← Function.iterate_succ_apply]; exact hin (k + 1) (by omega) (by omega)
    · rw [← Function.iterate_succ_apply]; exact hout

/-- A start of the mapping loop: a segment position whose `p2` gene is not in `p1`'s segment. -/
def IsStart (p1 p2 : List A) (b e i : Nat) : Prop :=
  InSeg b e i ∧ ∀ k, InSeg b e k → sigma p1 p2 k ≠ i

theorem iterate_inSeg_distinct (hn : p1.Nodup) (hp : p1.Perm p2) {b e i m : Nat}
    (hi : IsStart p1 p2 b e i) (hin : ∀ k, k ≤ m → InSeg b e ((sigma p1 p2)^[k] i)) :
    Set.InjOn (fun k => (sigma p1 p2)^[k] i) (Finset.range (m + 1)) := by
  have key : ∀ x y, x < y → y ≤ m → (sigma p1 p2)^[x] i ≠ (sigma p1 p2)^[y] i := by
    intro x y hxy hy h
    obtain ⟨d, rfl⟩ : ∃ d, y = x + (d + 1) := ⟨y - x - 1, by omega⟩
    rw [Function.iterate_add_apply] at h
    have := (sigma_injective hn hp).iterate x h
    rw [Function.iterate_succ_apply'] at this
    exact hi.2 _ (hin d (by omega)) this.symm
  intro x hx y hy h
  simp at hx hy
  rcases Nat.lt_trichotomy x y with hlt | heq | hgt
  · exact absurd h (key x y hlt (by omega))
  · exact heq
  · exact absurd h.symm (key y x hgt (by omega))

/-- Every start leaves the segment after at most `e - b` steps. -/
theorem exists_exit (hn : p1.Nodup) (hp : p1.Perm p2) {b e i : Nat}
    (hi : IsStart p1 p2 b e i) :
    ∃ m, m < e - b ∧ (∀ k, k ≤ m → InSeg b e ((sigma p1 p2)^[k] i)) ∧
      ¬ InSeg b e ((sigma p1 p2)^[m + 1] i) := by
  by_contra hc
  push Not at hc
  have hall : ∀ k, k ≤ e - b → InSeg b e ((sigma p1 p2)^[k] i) := by
    intro k
    induction k using Nat.strong_induction_on with
    | _ k ih =>
      intro hk
      cases k with
      | zero => exact hi.1
      | succ m => exact hc m (by omega) fun k hk' => ih k (by omega) (by omega)
  have hinj := iterate_inSeg_distinct hn hp hi hall
  have hsub : (Finset.range (e - b + 1)).image (fun k => (sigma p1 p2)^[k] i) ⊆ Finset.Ico b e := by
    intro x hx
    simp only [Finset.mem_image, Finset.mem_range] at hx
    obtain ⟨k, hk, rfl⟩ := hx
    exact Finset.mem_Ico.2 (hall k (by omega))
  have hcard := Finset.card_le_card hsub
  rw [Finset.card_image_of_injOn hinj, Finset.card_range, Nat.card_Ico] at hcard
  omega

/-- The exit position reached from a start. -/
def IsExit (p1 p2 : List A) (b e i c : Nat) : Prop :=
  ∃ m, m < e - b ∧ (∀ k, k ≤ m → InSeg b e ((sigma p1 p2)^[k] i)) ∧
    ¬ InSeg b e ((sigma p1 p2)^[m + 1] i) ∧ c = (sigma p1 p2)^[m + 1] i

theorem IsExit.unique {b e i c c' : Nat} (h : IsExit p1 p2 b e i c)
    (h' : IsExit p1 p2 b e i c') : c = c' := by
  obtain ⟨m, -, h1, h2, rfl⟩ := h
  obtain ⟨m', -, h1', h2', rfl⟩ := h'
  rcases Nat.lt_trichotomy m m' with hlt | heq | hgt
  · exact absurd (h1' (m + 1) (by omega)) h2
  · rw [heq]
  · exact absurd (h1 (m' + 1) (by omega)) h2'

theorem IsExit.inj (hn : p1.Nodup) (hp : p1.Perm p2) {b e i i' c : Nat}
    (hi : IsStart p1 p2 b e i) (hi' : IsStart p1 p2 b e i')
    (h : IsExit p1 p2 b e i c) (h' : IsExit p1 p2 b e i' c) : i = i' := by
  obtain ⟨m, -, h1, h2, rfl⟩ := h
  obtain ⟨m', -, h1', h2', he⟩ := h'
  have key : ∀ {i i' m m' : Nat}, IsStart p1 p2 b e i →
      (∀ k, k ≤ m' → InSeg b e ((sigma p1 p2)^[k] i')) → m ≤ m' →
      (sigma p1 p2)^[m + 1] i = (sigma p1 p2)^[m' + 1] i' → i = i' := by
    intro i i' m m' hs hk hle he
    obtain ⟨d, rfl⟩ : ∃ d, m' = m + d := ⟨m' - m, by omega⟩
    rw [show m + d + 1 = (m + 1) + d by omega, Function.iterate_add_apply _ (m + 1) d] at he
    have := (sigma_injective hn hp).iterate (m + 1) he
    cases d with
    | zero => exact this
    | succ d =>
      rw [Function.iterate_succ_apply'] at this
      exact absurd this.symm (hs.2 _ (hk d (by omega)))
  rcases Nat.le_total m m' with hle | hle
  · exact key hi h1' hle he
  · exact (key hi' h1 hle he.symm).symm

theorem IsExit.spec (hp : p1.Perm p2) {b e i c : Nat} (he : e ≤ p1.length)
    (h : IsExit p1 p2 b e i c) :
    ¬ InSeg b e c ∧ c < p1.length ∧ ∃ k, InSeg b e k ∧ sigma p1 p2 k = c := by
  obtain ⟨m, -, h1, h2, rfl⟩ := h
  have hk := h1 m (Nat.le_refl m)
  rw [Function.iterate_succ_apply'] at h2 ⊢
  refine ⟨h2, (sigma_spec hp (by have := hk.2; omega)).1, _, hk, rfl⟩

/-- Every position outside the segment that the segment maps to is the exit of some start. -/
theorem exit_surj (hn : p1.Nodup) (hp : p1.Perm p2) {b e c k : Nat} (he : e ≤ p1.length)
    (hc : ¬ InSeg b e c) (hk : InSeg b e k) (hkc : sigma p1 p2 k = c) :
    ∃ i, IsStart p1 p2 b e i ∧ IsExit p1 p2 b e i c := by
  classical
  let seg := Finset.Ico b e
  let img := seg.image (sigma p1 p2)
  have hcardimg : img.card = seg.card :=
    Finset.card_image_of_injective _ (sigma_injective hn hp)
  have hstart : ∀ i, i ∈ seg \ img ↔ IsStart p1 p2 b e i := by
    intro i
    simp only [Finset.mem_sdiff, seg, img, Finset.mem_image, Finset.mem_Ico, IsStart]
    constructor
    · rintro ⟨h1, h2⟩; exact ⟨h1, fun k hk hki => h2 ⟨k, hk, hki⟩⟩
    · rintro ⟨h1, h2⟩; exact ⟨h1, fun ⟨k, hk, hki⟩ => h2 k hk hki⟩
  have hex : ∀ i ∈ seg \ img, ∃ c, IsExit p1 p2 b e i c := by
    intro i hi
    obtain ⟨m, h1, h2, h3⟩ := exists_exit hn hp ((hstart i).1 hi)
    exact ⟨_, m, h1, h2, h3, rfl⟩
  choose! ex hexs using hex
  have hsub : (seg \ img).image ex ⊆ img \ seg := by
    intro x hx
    obtain ⟨i, hi, rfl⟩ := Finset.mem_image.1 hx
    obtain ⟨h1, -, k, h3, h4⟩ := (hexs i hi).spec hp he
    rw [Finset.mem_sdiff]
    exact ⟨Finset.mem_image.2 ⟨k, Finset.mem_Ico.2 h3, h4⟩, fun h => h1 (Finset.mem_Ico.1 h)⟩
  have hinj : Set.InjOn ex (seg \ img : Finset Nat) := by
    intro i hi j hj h
    have h1 := hexs i hi
    rw [h] at h1
    exact IsExit.inj hn hp ((hstart i).1 hi) ((hstart j).1 hj) h1 (hexs j hj)
  have hcard : (img \ seg).card = (seg \ img).card := Finset.card_sdiff_comm hcardimg
  have heq : (seg \ img).image ex = img \ seg :=
    Finset.eq_of_subset_of_card_le hsub (by rw [Finset.card_image_of_injOn hinj, hcard])
  have hmem : c ∈ img \ seg := by
    rw [Finset.mem_sdiff]
    exact ⟨Finset.mem_image.2 ⟨k, Finset.mem_Ico.2 hk, hkc⟩, fun h => hc (Finset.mem_Ico.1 h)⟩
  rw [← heq] at hmem
  obtain ⟨i, hi, rfl⟩ := Finset.mem_image.1 hmem
  exact ⟨i, (hstart i).1 hi, hexs i hi⟩

theorem mem_slice {p : List A} {b e : Nat} {v : A} (he : e ≤ p.length) :
    v ∈ slice p b e ↔ ∃ k, InSeg b e k ∧ p[k]? = some v := by
  rw [List.mem_iff_getElem?]
  unfold slice
  constructor
  · rintro ⟨i, hi⟩
    rw [List.getElem?_drop, List.getElem?_take] at hi
    split at hi
    · exact ⟨b + i, ⟨by omega, by omega⟩, hi⟩
    · simp at hi
  · rintro ⟨k, ⟨h1, h2⟩, h3⟩
    refine ⟨k - b, ?_⟩
    rw [List.getElem?_drop, List.getElem?_take, if_pos (by omega), show b + (k - b) = k by omega]
    exact h3

/-- `p2[i]` is outside the transplanted gene set iff no segment position maps to `i`. -/
theorem start_iff (hn : p1.Nodup) (hp : p1.Perm p2) {b e i : Nat} (he : e ≤ p1.length)
    (hi : i < p1.length) {v : A} (hv : p2[i]? = some v) :
    v ∉ slice p1 b e ↔ ∀ k, InSeg b e k → sigma p1 p2 k ≠ i := by
  have hn2 := hp.nodup_iff.1 hn
  rw [mem_slice he]
  constructor
  · intro h k hk hki
    have h1 := sigma_spec hp (show k < p1.length by have := hk.2; omega)
    rw [hki, hv] at h1
    exact h ⟨k, hk, h1.2.symm⟩
  · rintro h ⟨k, hk, hkv⟩
    have hkl : k < p1.length := by have := hk.2; omega
    have h1 := sigma_spec hp hkl
    apply h k hk
    refine (getElem?_inj_of_nodup hn2 (by rw [← hp.length_eq]; exact h1.1) ?_)
    rw [h1.2, hkv, hv]

/-- First loop: the segment is copied. -/
theorem pmxCopy_eq : ∀ (xs : List Nat) (ch : List (Option A)), (∀ i ∈ xs, i < p1.length) →
    ch.length = p1.length →
    ∃ ch', (M.fold (fun ch i => do
        let g ← idx p1 i
        setIdx ch i (some g)) ch xs : M G (List (Option A))) = pure ch' ∧ ch'.length = p1.length ∧
      ∀ x, x < p1.length → ch'[x]? = if x ∈ xs then some p1[x]? else ch[x]?
  | [], ch, _, hl => ⟨ch, rfl, hl, by simp⟩
  | i :: xs, ch, hx, hl => by
    have hi := hx i (by simp)
    obtain ⟨ch', h1, h2, h3⟩ := pmxCopy_eq xs (ch.set i (some p1[i]))
      (fun j hj => hx j (by simp [hj])) (by simpa using hl)
    refine ⟨ch', ?_, h2, ?_⟩
    · unfold M.fold
      rw [idx_of_lt hi, pure_bind]
      unfold setIdx
      rw [if_pos (by omega), pure_bind]
      exact h1
    · intro x hxl
      rw [h3 x hxl]
      by_cases hxs : x ∈ xs
      · simp [hxs]
      · by_cases hxi : x = i
        · subst hxi
          simp [hxs, List.getElem?_set, hl, hxl]
        · simp [hxs, hxi, List.getElem?_set, Ne.symm hxi]

/-- Second loop: each start `i` of `xs` writes `p2[i]` at its exit. -/
theorem pmxPlace_eq (hn : p1.Nodup) (hp : p1.Perm p2) {b e fuel : Nat} (he : e ≤ p1.length)
    (hf : e - b ≤ fuel) : ∀ (xs : List Nat) (ch : List (Option A)), (∀ i ∈ xs, InSeg b e i) →
    ch.length = p1.length →
    ∃ ch', (pmxPlace fuel p1 p2 b e (slice p1 b e) ch xs : M G (List (Option A))) = pure ch' ∧
      ch'.length = p1.length ∧
      (∀ x, (∀ i ∈ xs, IsStart p1 p2 b e i → ¬ IsExit p1 p2 b e i x) → ch'[x]? = ch[x]?) ∧
      (∀ x, ∀ i ∈ xs, IsStart p1 p2 b e i → IsExit p1 p2 b e i x → ch'[x]? = some p2[i]?)
  | [], ch, _, hl => ⟨ch, rfl, hl, by simp, by simp⟩
  | i :: xs, ch, hx, hl => by
    have hi := hx i (by simp)
    have hil : i < p1.length := by have := hi.2; omega
    have hil2 : i < p2.length := by rw [← hp.length_eq]; exact hil
    have hv : p2[i]? = some p2[i] := List.getElem?_eq_getElem hil2
    have hxs : ∀ j ∈ xs, InSeg b e j := fun j hj => hx j (by simp [hj])
    by_cases hmem : p2[i] ∈ slice p1 b e
    · obtain ⟨ch', h1, h2, h3, h4⟩ := pmxPlace_eq hn hp he hf xs ch hxs hl
      have hns : ¬ IsStart p1 p2 b e i := by
        intro h
        exact (start_iff hn hp he hil hv).2 h.2 hmem
      refine ⟨ch', ?_, h2, ?_, ?_⟩
      · unfold pmxPlace M.fold
        rw [idx_of_lt hil2, pure_bind, if_pos hmem, pure_bind]
        exact h1
      · intro x h
        exact h3 x fun j hj => h j (by simp [hj])
      · intro x j hj hs hex
        rcases List.mem_cons.1 hj with rfl | hj
        · exact absurd hs hns
        · exact h4 x j hj hs hex
    · have hs : IsStart p1 p2 b e i := ⟨hi, (start_iff hn hp he hil hv).1 hmem⟩
      obtain ⟨m, hm1, hm2, hm3⟩ := exists_exit hn hp hs
      have hex : IsExit p1 p2 b e i ((sigma p1 p2)^[m + 1] i) := ⟨m, hm1, hm2, hm3, rfl⟩
      have hexl := (hex.spec hp he).2.1
      obtain ⟨ch', h1, h2, h3, h4⟩ := pmxPlace_eq hn hp he hf xs
        (ch.set ((sigma p1 p2)^[m + 1] i) (some p2[i])) hxs (by simpa using hl)
      refine ⟨ch', ?_, h2, ?_, ?_⟩
      · unfold pmxPlace M.fold
        rw [idx_of_lt hil2, pure_bind, if_neg hmem,
          pmxExit_eq hn hp he m fuel i (by omega) hil (fun k _ hk => hm2 k hk) hm3, pure_bind]
        unfold setIdx
        rw [if_pos (by omega), pure_bind]
        exact h1
      · intro x h
        rw [h3 x fun j hj => h j (by simp [hj])]
        rw [List.getElem?_set_ne]
        rintro rfl
        exact h i (by simp) hs hex
      · intro x j hj hsj hexj
        by_cases hjx : j ∈ xs
        · exact h4 x j hjx hsj hexj
        · have hji : j = i := by
            rcases List.mem_cons.1 hj with h | h
            · exact h
            · exact absurd h hjx
          subst hji
          have hx' := hexj.unique hex
          subst hx'
          rw [h3 _ ?_]
          · rw [List.getElem?_set_self (by omega), hv]
          · intro k hk hsk hexk
            have := IsExit.inj hn hp hsk hs hexk hex
            subst this
            exact hjx hk

theorem pmxFinish_eq : ∀ (ch : List (Option A)) (i : Nat), i + ch.length ≤ p2.length →
    ∃ out, (pmxFinish p2 i ch : M G (List A)) = pure out ∧ out.length = ch.length ∧
      ∀ x o, ch[x]? = some o → out[x]? = (match o with | some g => some g | none => p2[i + x]?)
  | [], i, _ => ⟨[], rfl, rfl, by simp⟩
  | o :: ch, i, h => by
    simp at h
    obtain ⟨out, h1, h2, h3⟩ := pmxFinish_eq ch (i + 1) (by omega)
    have hi : i < p2.length := by omega
    refine ⟨(match o with | some g => g | none => p2[i]) :: out, ?_, by simp [h2], ?_⟩
    · unfold pmxFinish
      cases o with
      | some g => simp only [pmxGene, pure_bind]; rw [h1, pure_bind]
      | none => simp only [pmxGene]; rw [idx_of_lt hi, pure_bind, h1, pure_bind]
    · intro x o' hx
      cases x with
      | zero =>
        simp at hx; subst hx
        cases o with
        | some g => simp
        | none => simp [List.getElem?_eq_getElem hi]
      | succ x =>
        simp at hx
        have := h3 x o' hx
        rw [show i + (x + 1) = i + 1 + x by omega]
        simpa using this

/-- Complete description of a PMX child of two permutations. -/
theorem pmxChild_eq (hn : p1.Nodup) (hp : p1.Perm p2) {b e fuel : Nat} (he : e ≤ p1.length)
    (hf : e - b ≤ fuel) :
    ∃ out, (pmxChild fuel p1 p2 b e : M G (List A)) = pure out ∧ out.length = p1.length ∧
      (∀ x, InSeg b e x → out[x]? = p1[x]?) ∧
      (∀ x i, IsStart p1 p2 b e i → IsExit p1 p2 b e i x → out[x]? = p2[i]?) ∧
      (∀ x, x < p1.length → ¬ InSeg b e x →
        (∀ i, IsStart p1 p2 b e i → ¬ IsExit p1 p2 b e i x) → out[x]? = p2[x]?) := by
  have hl := hp.length_eq
  have hrange : ∀ x, x ∈ List.range' b (e - b) ↔ InSeg b e x := by
    intro x; simp only [List.mem_range'_1, InSeg]; omega
  obtain ⟨ch0, c1, c2, c3⟩ := pmxCopy_eq (G := G) (p1 := p1) (List.range' b (e - b))
    (List.replicate p1.length none) (fun i hi => by have := ((hrange i).1 hi).2; omega) (by simp)
  obtain ⟨ch1, d1, d2, d3, d4⟩ := pmxPlace_eq (G := G) hn hp he hf (List.range' b (e - b)) ch0
    (fun i hi => (hrange i).1 hi) c2
  obtain ⟨out, o1, o2, o3⟩ := pmxFinish_eq (G := G) (p2 := p2) ch1 0 (by omega)
  refine ⟨out, ?_, by omega, ?_, ?_, ?_⟩
  · unfold pmxChild
    rw [readRange_eq he, pure_bind]
    simp only
    rw [c1, pure_bind, d1, pure_bind, o1]
  · intro x hx
    have hxl : x < p1.length := by have := hx.2; omega
    have h1 : ch1[x]? = some p1[x]? := by
      rw [d3 x fun i _ _ hex => (hex.spec hp he).1 hx, c3 x hxl, if_pos ((hrange x).2 hx)]
    rw [o3 x _ h1, List.getElem?_eq_getElem hxl]
  · intro x i hs hex
    have h1 := d4 x i ((hrange i).2 hs.1) hs hex
    have hil : i < p2.length := by have := hs.1.2; omega
    rw [o3 x _ h1, List.getElem?_eq_getElem hil]
  · intro x hxl hx hno
    have h1 : ch1[x]? = some none := by
      rw [d3 x fun i _ hs => hno i hs, c3 x hxl, if_neg (fun h => hx ((hrange x).1 h))]
      simp [hxl]
    rw [o3 x _ h1]; simp

theorem pmxChild_perm (hn : p1.Nodup) (hp : p1.Perm p2) {b e : Nat} (he : e ≤ p1.length)
    {out : List A} (hlen : out.length = p1.length)
    (h1 : ∀ x, InSeg b e x → out[x]? = p1[x]?)
    (h2 : ∀ x i, IsStart p1 p2 b e i → IsExit p1 p2 b e i x → out[x]? = p2[i]?)
    (h3 : ∀ x, x < p1.length → ¬ InSeg b e x →
        (∀ i, IsStart p1 p2 b e i → ¬ IsExit p1 p2 b e i x) → out[x]? = p2[x]?) :
    out.Perm p1 := by
  have hn2 := hp.nodup_iff.1 hn
  have hl := hp.length_eq
  -- every position is in one of three cases
  have cases3 : ∀ x, x < p1.length → (InSeg b e x ∧ out[x]? = p1[x]?) ∨
      (∃ i, ¬ InSeg b e x ∧ IsStart p1 p2 b e i ∧ IsExit p1 p2 b e i x ∧ out[x]? = p2[i]?) ∨
      (¬ InSeg b e x ∧ (∀ k, InSeg b e k → sigma p1 p2 k ≠ x) ∧ out[x]? = p2[x]?) := by
    intro x hx
    by_cases hs : InSeg b e x
    · exact .inl ⟨hs, h1 x hs⟩
    · by_cases hex : ∃ i, IsStart p1 p2 b e i ∧ IsExit p1 p2 b e i x
      · obtain ⟨i, hi, hix⟩ := hex
        exact .inr (.inl ⟨i, hs, hi, hix, h2 x i hi hix⟩)
      · refine .inr (.inr ⟨hs, ?_, h3 x hx hs fun i hi hix => hex ⟨i, hi, hix⟩⟩)
        intro k hk hkx
        obtain ⟨i, hi, hix⟩ := exit_surj hn hp he hs hk hkx
        exact hex ⟨i, hi, hix⟩
  -- a p1-segment gene never equals a p2 gene at a position the segment does not map to
  have hdisj : ∀ x y, InSeg b e x → y < p1.length → (∀ k, InSeg b e k → sigma p1 p2 k ≠ y) →
      p1[x]? ≠ p2[y]? := by
    intro x y hx hy hk h
    have hxl : x < p1.length := by have := hx.2; omega
    have hs := sigma_spec hp hxl
    refine hk x hx (getElem?_inj_of_nodup hn2 (by omega) ?_)
    rw [hs.2, h]
  have hinj : ∀ x y, x < p1.length → y < p1.length → out[x]? = out[y]? → x = y := by
    intro x y hx hy h
    rcases cases3 x hx with ⟨sx, ox⟩ | ⟨i, sx, si, ei, ox⟩ | ⟨sx, kx, ox⟩ <;>
    rcases cases3 y hy with ⟨sy, oy⟩ | ⟨j, sy, sj, ej, oy⟩ | ⟨sy, ky, oy⟩ <;>
    rw [ox, oy] at h
    · exact getElem?_inj_of_nodup hn hx h
    · exact absurd h (hdisj x j sx (by have := sj.1.2; omega) sj.2)
    · exact absurd h (hdisj x y sx hy ky)
    · exact absurd h.symm (hdisj y i sy (by have := si.1.2; omega) si.2)
    · have : i = j := getElem?_inj_of_nodup hn2 (by have := si.1.2; omega) h
      subst this
      exact ei.unique ej
    · have : i = y := getElem?_inj_of_nodup hn2 (by have := si.1.2; omega) h
      subst this
      exact absurd si.1 sy
    · exact absurd h.symm (hdisj y x sy hx kx)
    · have : x = j := getElem?_inj_of_nodup hn2 (by omega) h
      subst this
      exact absurd sj.1 sx
    · exact getElem?_inj_of_nodup hn2 (by omega) h
  have hnodup : out.Nodup := by
    rw [List.nodup_iff_getElem?_ne_getElem?]
    intro i j hij hj h
    have := hinj i j (by omega) (by omega) h
    omega
  have hsub : out ⊆ p1 := by
    intro v hv
    obtain ⟨x, hx⟩ := List.mem_iff_getElem?.1 hv
    have hxl : x < p1.length := by
      rw [← hlen]
      by_contra hc
      rw [List.getElem?_eq_none (by omega)] at hx
      simp at hx
    rcases cases3 x hxl with ⟨_, ox⟩ | ⟨i, _, _, _, ox⟩ | ⟨_, _, ox⟩
    · rw [ox] at hx; exact List.mem_of_getElem? hx
    · rw [ox] at hx; exact hp.symm.subset (List.mem_of_getElem? hx)
    · rw [ox] at hx; exact hp.symm.subset (List.mem_of_getElem? hx)
  exact (List.subperm_of_subset hnodup hsub).perm_of_length_le (by omega)

end pmx

end Ecrs.Ga
