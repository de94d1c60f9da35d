import Verif.Ga.Mutation
import Verif.Ga.CrossoverLemmas

/-! # Helper lemmas about mutation -/

namespace Ecrs.Ga
open Ecrs

section
variable {G U I A : Type} [LinearOrder U] [Zero U] [One U] (R : Rng G U)

/-- Exchange two positions. -/
def swapped (l : List A) (i j : Nat) (hi : i < l.length) (hj : j < l.length) : List A :=
  (l.set j l[i]).set i l[j]

theorem swapped_perm {l : List A} {i j : Nat} (hi : i < l.length) (hj : j < l.length) :
    (swapped l i j hi hj).Perm l := List.set_set_perm hj hi

theorem swapIdx_eq {l : List A} {i j : Nat} (hi : i < l.length) (hj : j < l.length) :
    (swapIdx l i j : M G _) = pure (swapped l i j hi hj) := by
  unfold swapIdx setIdx
  rw [idx_of_lt hj, idx_of_lt hi, pure_bind, pure_bind, if_pos hj, pure_bind,
    if_pos (by simpa using hi)]
  rfl

theorem swapped_getElem? {l : List A} {i j : Nat} (hi : i < l.length) (hj : j < l.length) (x : Nat) :
    (swapped l i j hi hj)[x]? = if x = i then l[j]? else if x = j then l[i]? else l[x]? := by
  unfold swapped
  by_cases hxi : x = i
  · subst hxi
    rw [List.getElem?_set_self (by simpa using hi), if_pos rfl, List.getElem?_eq_getElem hj]
  · rw [List.getElem?_set_ne (Ne.symm hxi), if_neg hxi]
    by_cases hxj : x = j
    · subst hxj
      rw [List.getElem?_set_self hj, if_pos rfl, List.getElem?_eq_getElem hi]
    · rw [List.getElem?_set_ne (Ne.symm hxj), if_neg hxj]

theorem swapped_length {l : List A} {i j : Nat} (hi : i < l.length) (hj : j < l.length) :
    (swapped l i j hi hj).length = l.length := (swapped_perm hi hj).length_eq

/-! ### FlipBit -/

/-- One step on a non-empty remainder. -/
theorem flipBitGo_returns {rate : U} : ∀ (n i : Nat) (c : List Bool), i + n = c.length →
    Returns (flipBitGo R rate i n c) fun out => ∃ draws : List U, draws.length = n ∧
      (∀ d ∈ draws, 0 ≤ d ∧ d < 1) ∧
      out = c.take i ++ List.zipWith (fun b d => if d < rate then !b else b) (c.drop i) draws
  | 0, i, c, h => by
    apply Returns.pure
    refine ⟨[], rfl, by simp, ?_⟩
    have : i = c.length := by omega
    subst this; simp
  | n + 1, i, c, h => by
    unfold flipBitGo
    have hi : i < c.length := by omega
    refine Returns.bind R.genUnit_returns fun d hd => ?_
    have hstep : (flipAt rate d c i : M G (List Bool)) =
        pure (c.set i (if d < rate then !c[i] else c[i])) := by
      unfold flipAt
      by_cases hdr : d < rate
      · simp only [if_pos hdr]
        rw [idx_of_lt hi, pure_bind]; unfold setIdx; rw [if_pos hi]
      · simp only [if_neg hdr]; rw [List.set_getElem_self]
    rw [hstep, pure_bind]
    refine (flipBitGo_returns n (i + 1) (c.set i (if d < rate then !c[i] else c[i]))
      (by simp; omega)).mono ?_
    rintro out ⟨draws, h1, h2, h3⟩
    refine ⟨d :: draws, by simp [h1], ?_, ?_⟩
    · intro x hx; rcases List.mem_cons.1 hx with rfl | hx
      · exact hd
      · exact h2 x hx
    · rw [h3, List.drop_eq_getElem_cons hi]
      have e1 : (c.set i (if d < rate then !c[i] else c[i])).drop (i + 1) = c.drop (i + 1) := by
        rw [List.drop_set_of_lt (by omega)]
      have e2 : (c.set i (if d < rate then !c[i] else c[i])).take (i + 1) =
          c.take i ++ [if d < rate then !c[i] else c[i]] := by
        rw [List.take_succ_eq_append_getElem (by simpa using hi), List.getElem_set_self,
          List.take_set_of_le (by omega)]
      rw [e1, e2, List.append_assoc]
      rfl

/-! ### Interchange, Reversing -/

theorem interchange_returns {rate : U} {c : List A} (h : 0 < c.length) :
    Returns (interchange R rate c) fun out => out.Perm c := by
  unfold interchange
  refine Returns.bind (Returns.assert (by simpa using h)) fun _ _ => ?_
  refine (Returns.fold (I := fun l : List A => l.Perm c) _ _ (List.Perm.refl c) ?_)
  intro l i hi hl
  simp at hi
  unfold interchangeStep
  refine Returns.bind R.genUnit_returns fun d _ => ?_
  by_cases hd : d < rate
  · rw [if_pos hd]
    have hlen := hl.length_eq
    refine Returns.bind (R.threadRange_returns (by omega)) fun j hj => ?_
    rw [swapIdx_eq (by omega) hj.2]
    exact Returns.pure ((swapped_perm _ _).trans hl)
  · rw [if_neg hd]; exact Returns.pure hl

theorem reversing_returns {rate : U} {c : List A} :
    Returns (reversing R rate c) fun out => out.Perm c := by
  unfold reversing
  refine (Returns.fold (I := fun l : List A => l.Perm c) _ _ (List.Perm.refl c) ?_)
  intro l i hi hl
  simp only [List.mem_range'_1] at hi
  have hlen := hl.length_eq
  unfold reversingStep
  refine Returns.bind R.genUnit_returns fun d _ => ?_
  by_cases hd : d < rate
  · rw [if_pos hd, swapIdx_eq (by omega) (by omega)]
    exact Returns.pure ((swapped_perm _ _).trans hl)
  · rw [if_neg hd]; exact Returns.pure hl

/-! ### Inversion -/

theorem inversionGo_eq : ∀ (n : Nat) (c : List A) (lo hi : Nat), hi < c.length → hi - lo ≤ n →
    ∃ out, (inversionGo n c lo hi : M G _) = pure out ∧ out.length = c.length ∧
      ∀ x : Nat, out[x]? = if lo ≤ x ∧ x ≤ hi then c[lo + hi - x]? else c[x]? := by
  have done : ∀ (c : List A) (lo hi : Nat), ¬ lo < hi → ∀ x : Nat,
      c[x]? = if lo ≤ x ∧ x ≤ hi then c[lo + hi - x]? else c[x]? := by
    intro c lo hi hlt x
    by_cases hx : lo ≤ x ∧ x ≤ hi
    · rw [if_pos hx]; congr 1; omega
    · rw [if_neg hx]
  intro n
  induction n with
  | zero =>
    intro c lo hi _ hn
    have hlt : ¬ lo < hi := by omega
    unfold inversionGo; rw [if_neg hlt]
    exact ⟨c, rfl, rfl, done c lo hi hlt⟩
  | succ n ih =>
    intro c lo hi h hn
    unfold inversionGo
    by_cases hlt : lo < hi
    · rw [if_pos hlt, swapIdx_eq (by omega) h, pure_bind]
      have hl := swapped_length (l := c) (i := lo) (j := hi) (by omega) h
      obtain ⟨out, h1, h2, h3⟩ := ih (swapped c lo hi (by omega) h)
        (lo + 1) (hi - 1) (by omega) (by omega)
      refine ⟨out, h1, by omega, ?_⟩
      intro x
      rw [h3 x, swapped_getElem?, swapped_getElem?]
      by_cases hx : lo ≤ x ∧ x ≤ hi
      · rw [if_pos hx]
        by_cases hx' : lo + 1 ≤ x ∧ x ≤ hi - 1
        · rw [if_pos hx', if_neg (by omega), if_neg (by omega)]
          congr 1; omega
        · rw [if_neg hx']
          by_cases hxl : x = lo
          · subst hxl; rw [if_pos rfl]; congr 1; omega
          · have hxh : x = hi := by omega
            subst hxh; rw [if_neg hxl, if_pos rfl]; congr 1; omega
      · rw [if_neg hx, if_neg (by omega), if_neg (by omega), if_neg (by omega)]
    · rw [if_neg hlt]
      exact ⟨c, rfl, rfl, done c lo hi hlt⟩

theorem inversionLoop_eq (c : List A) (lo hi : Nat) (h : hi < c.length) :
    ∃ out, (inversionLoop c lo hi : M G _) = pure out ∧ out.length = c.length ∧
      ∀ x : Nat, out[x]? = if lo ≤ x ∧ x ≤ hi then c[lo + hi - x]? else c[x]? :=
  inversionGo_eq (hi - lo) c lo hi h (Nat.le_refl _)

theorem reverse_segment_eq {c out : List A} {lo hi : Nat} (hle : lo ≤ hi) (h : hi < c.length)
    (hl : out.length = c.length)
    (hx : ∀ x : Nat, out[x]? = if lo ≤ x ∧ x ≤ hi then c[lo + hi - x]? else c[x]?) :
    out = c.take lo ++ ((c.take (hi + 1)).drop lo).reverse ++ c.drop (hi + 1) := by
  apply List.ext_getElem?
  intro x
  rw [hx x]
  have l1 : (c.take lo).length = lo := by simp; omega
  have l2 : (((c.take (hi + 1)).drop lo).reverse).length = hi + 1 - lo := by simp; omega
  by_cases h1 : x < lo
  · rw [if_neg (by omega), List.append_assoc, List.getElem?_append_left (by omega),
      List.getElem?_take_of_lt h1]
  · by_cases h2 : x ≤ hi
    · rw [if_pos (by omega), List.getElem?_append_left (by rw [List.length_append]; omega),
        List.getElem?_append_right (by omega), l1]
      rw [List.getElem?_reverse (by simp; omega), List.getElem?_drop, List.getElem?_take]
      have hlen : ((c.take (hi + 1)).drop lo).length = hi + 1 - lo := by simp; omega
      rw [hlen, if_pos (by omega)]
      congr 1; omega
    · rw [if_neg (by omega), List.getElem?_append_right (by rw [List.length_append]; omega),
        List.length_append, l1, l2, List.getElem?_drop]
      congr 1; omega

theorem inversionBody_returns {c : List A} (h : 0 < c.length) :
    Returns (inversionBody R c) fun out => ∃ lo hi, lo ≤ hi ∧ hi < c.length ∧
      out = c.take lo ++ ((c.take (hi + 1)).drop lo).reverse ++ c.drop (hi + 1) := by
  unfold inversionBody
  refine Returns.bind (R.genRange_returns h) fun lo hlo => ?_
  refine Returns.bind (R.genRange_returns hlo.2) fun hi hhi => ?_
  obtain ⟨out, h1, h2, h3⟩ := inversionLoop_eq (G := G) c lo hi hhi.2
  rw [h1]
  exact Returns.pure ⟨lo, hi, hhi.1, hhi.2, reverse_segment_eq hhi.1 hhi.2 h2 h3⟩

theorem reversed_segment_perm (c : List A) {lo hi : Nat} (hle : lo ≤ hi) :
    (c.take lo ++ ((c.take (hi + 1)).drop lo).reverse ++ c.drop (hi + 1)).Perm c := by
  have h1 : (c.take lo ++ ((c.take (hi + 1)).drop lo).reverse ++ c.drop (hi + 1)).Perm
      (c.take lo ++ ((c.take (hi + 1)).drop lo) ++ c.drop (hi + 1)) :=
    ((List.reverse_perm _).append_left _).append_right _
  have h2 : c.take lo ++ ((c.take (hi + 1)).drop lo) ++ c.drop (hi + 1) = c := by
    have : c.take lo = (c.take (hi + 1)).take lo := by
      rw [List.take_take]; congr 1; omega
    rw [this, List.take_append_drop, List.take_append_drop]
  rwa [h2] at h1

end
end Ecrs.Ga
