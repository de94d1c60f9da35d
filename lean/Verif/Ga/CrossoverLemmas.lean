import Verif.Ga.Crossover
import Mathlib.Data.List.Basic
import Mathlib.Data.List.Nodup
import Mathlib.Data.List.Sort

/-! # Helper lemmas about crossover -/

namespace Ecrs.Ga
open Ecrs

/-! ## Specification vocabulary used by the property files -/

/-- `PairsRel Q sel out`: `out` arises from `sel` by replacing each consecutive pair `(a, b)` by a pair
`(c, d)` with `Q a b c d`. -/
inductive PairsRel {I : Type} (Q : I → I → I → I → Prop) : List I → List I → Prop
  | nil : PairsRel Q [] []
  | cons {a b c d sel out} : Q a b c d → PairsRel Q sel out →
      PairsRel Q (a :: b :: sel) (c :: d :: out)

/-- `Pairs P sel`: `sel` splits into consecutive pairs all satisfying `P`. -/
inductive Pairs {I : Type} (P : I → I → Prop) : List I → Prop
  | nil : Pairs P []
  | cons {a b sel} : P a b → Pairs P sel → Pairs P (a :: b :: sel)

/-- Choose gene by gene: from the first parent where the mask is `true`, else from the second. -/
def mix {A : Type} : List Bool → List A → List A → List A
  | m :: ms, x :: xs, y :: ys => (if m then x else y) :: mix ms xs ys
  | _, _, _ => []

theorem PairsRel.length {I : Type} {Q : I → I → I → I → Prop} {sel out : List I}
    (h : PairsRel Q sel out) : out.length = sel.length := by
  induction h with
  | nil => rfl
  | cons _ _ ih => simp [ih]

theorem PairsRel.mono {I : Type} {Q Q' : I → I → I → I → Prop} {sel out : List I}
    (h : PairsRel Q sel out) (hq : ∀ a b c d, Q a b c d → Q' a b c d) : PairsRel Q' sel out := by
  induction h with
  | nil => exact .nil
  | cons h _ ih => exact .cons (hq _ _ _ _ h) ih

theorem Pairs.even {I : Type} {P : I → I → Prop} {sel : List I} (h : Pairs P sel) :
    sel.length % 2 = 0 := by
  induction h with
  | nil => rfl
  | cons _ _ ih => simp; omega

theorem Pairs.of_forall {I : Type} {P : I → I → Prop} : ∀ (sel : List I), sel.length % 2 = 0 →
    (∀ a ∈ sel, ∀ b ∈ sel, P a b) → Pairs P sel
  | [], _, _ => .nil
  | [_], h, _ => by simp at h
  | a :: b :: sel, h, hp => .cons (hp a (by simp) b (by simp))
      (Pairs.of_forall sel (by simp at h; omega) fun x hx y hy => hp x (by simp [hx]) y (by simp [hy]))

section mix
variable {A : Type}

@[simp] theorem mix_length : ∀ (ms : List Bool) (xs ys : List A), ms.length = xs.length →
    xs.length = ys.length → (mix ms xs ys).length = xs.length
  | [], [], [], _, _ => rfl
  | [], [], _ :: _, _, h => by simp at h
  | [], _ :: _, _, h, _ => by simp at h
  | _ :: _, [], _, h, _ => by simp at h
  | _ :: _, _ :: _, [], _, h => by simp at h
  | m :: ms, x :: xs, y :: ys, h1, h2 => by
    simp at h1 h2
    simp [mix, mix_length ms xs ys h1 h2]

theorem mix_perm : ∀ (ms : List Bool) (xs ys : List A), ms.length = xs.length →
    xs.length = ys.length → (mix ms xs ys ++ mix ms ys xs).Perm (xs ++ ys)
  | [], [], [], _, _ => .nil
  | [], [], _ :: _, _, h => by simp at h
  | [], _ :: _, _, h, _ => by simp at h
  | _ :: _, [], _, h, _ => by simp at h
  | _ :: _, _ :: _, [], _, h => by simp at h
  | m :: ms, x :: xs, y :: ys, h1, h2 => by
    simp at h1 h2
    have ih := mix_perm ms xs ys h1 h2
    cases m
    · simp only [mix, Bool.false_eq_true, if_false]
      calc (y :: mix ms xs ys ++ x :: mix ms ys xs).Perm (y :: (x :: (mix ms xs ys ++ mix ms ys xs))) :=
            List.Perm.cons _ List.perm_middle
        _ |>.Perm (x :: y :: (mix ms xs ys ++ mix ms ys xs)) := List.Perm.swap _ _ _
        _ |>.Perm (x :: y :: (xs ++ ys)) := (ih.cons _).cons _
        _ |>.Perm (x :: (xs ++ y :: ys)) := (List.perm_middle.symm).cons _
    · simp only [mix, if_true]
      calc (x :: mix ms xs ys ++ y :: mix ms ys xs).Perm (x :: (y :: (mix ms xs ys ++ mix ms ys xs))) :=
            List.Perm.cons _ List.perm_middle
        _ |>.Perm (x :: y :: (xs ++ ys)) := (ih.cons _).cons _
        _ |>.Perm (x :: (xs ++ y :: ys)) := (List.perm_middle.symm).cons _

theorem mix_append (m1 m2 : List Bool) (a1 a2 b1 b2 : List A) (h1 : m1.length = a1.length)
    (h2 : a1.length = b1.length) :
    mix (m1 ++ m2) (a1 ++ a2) (b1 ++ b2) = mix m1 a1 b1 ++ mix m2 a2 b2 := by
  induction m1 generalizing a1 b1 with
  | nil =>
    cases a1 <;> cases b1 <;> simp at h1 h2
    simp [mix]
  | cons m ms ih =>
    cases a1 with
    | nil => simp at h1
    | cons a as =>
      cases b1 with
      | nil => simp at h2
      | cons b bs =>
        simp at h1 h2
        simp [mix, ih as bs h1 h2]

theorem mix_replicate_true (xs ys : List A) (h : xs.length = ys.length) :
    mix (List.replicate xs.length true) xs ys = xs := by
  induction xs generalizing ys with
  | nil => simp [mix]
  | cons x xs ih =>
    cases ys with
    | nil => simp at h
    | cons y ys => simp at h; simp [List.replicate_succ, mix, ih ys h]

theorem mix_replicate_false (xs ys : List A) (h : xs.length = ys.length) :
    mix (List.replicate xs.length false) xs ys = ys := by
  induction xs generalizing ys with
  | nil => cases ys <;> simp_all [mix]
  | cons x xs ih =>
    cases ys with
    | nil => simp at h
    | cons y ys => simp at h; simp [List.replicate_succ, mix, ih ys h]

theorem mix_getElem? : ∀ (ms : List Bool) (xs ys : List A) (i : Nat), ms.length = xs.length →
    xs.length = ys.length → (mix ms xs ys)[i]? = if ms[i]? = some true then xs[i]? else ys[i]?
  | [], [], [], i, _, _ => by simp [mix]
  | [], [], _ :: _, _, _, h => by simp at h
  | [], _ :: _, _, _, h, _ => by simp at h
  | _ :: _, [], _, _, h, _ => by simp at h
  | _ :: _, _ :: _, [], _, _, h => by simp at h
  | m :: ms, x :: xs, y :: ys, i, h1, h2 => by
    simp at h1 h2
    cases i with
    | zero => cases m <;> simp [mix]
    | succ i => simp [mix, mix_getElem? ms xs ys i h1 h2]

end mix

/-! ## The `apply` wrapper -/

section pairs
variable {G I : Type} {single : I → I → M G (I × I)} {Q : I → I → I → I → Prop}

theorem chunks2_returns {sel : List I}
    (h : Pairs (fun a b => Returns (single a b) fun c => Q a b c.1 c.2) sel) :
    Returns (chunks2 single sel) (PairsRel Q sel) := by
  induction h with
  | nil => exact Returns.pure .nil
  | cons hab _ ih =>
    unfold chunks2
    exact Returns.bind hab fun c hc => Returns.bind ih fun out ho => Returns.pure (.cons hc ho)

theorem applyPairs_returns {sel : List I}
    (h : Pairs (fun a b => Returns (single a b) fun c => Q a b c.1 c.2) sel) :
    Returns (applyPairs single sel) (PairsRel Q sel) := by
  unfold applyPairs
  exact Returns.bind (Returns.assert (by simp [h.even])) fun _ _ => chunks2_returns h

theorem chunks2_ifReturns : ∀ (sel : List I),
    (∀ a b, IfReturns (single a b) fun c => Q a b c.1 c.2) →
    IfReturns (chunks2 single sel) (PairsRel Q sel)
  | [], _ => IfReturns.pure .nil
  | [_], _ => IfReturns.fail
  | a :: b :: rest, h => by
    unfold chunks2
    exact IfReturns.bind (h a b) fun c hc => IfReturns.bind (chunks2_ifReturns rest h) fun out ho =>
      IfReturns.pure (.cons hc ho)

theorem applyPairs_ifReturns (sel : List I)
    (h : ∀ a b, IfReturns (single a b) fun c => Q a b c.1 c.2) :
    IfReturns (applyPairs single sel) (fun out => sel.length % 2 = 0 ∧ PairsRel Q sel out) := by
  unfold applyPairs
  exact IfReturns.bind IfReturns.assert fun _ hc =>
    (chunks2_ifReturns sel h).mono fun out ho => ⟨by simpa using hc, ho⟩

theorem applyPairs_odd_panics {sel : List I} (h : sel.length % 2 = 1) :
    Panics (applyPairs single sel) := by
  unfold applyPairs
  exact Panics.bind_left (Panics.assert (by simp [h]))

theorem liftSingle_returns {A : Type} {X : ChromOps I A}
    {s : List A → List A → M G (List A × List A)} {P : List A → List A → List A → List A → Prop}
    {a b : I} (h : Returns (s (X.ch a) (X.ch b)) fun c => P (X.ch a) (X.ch b) c.1 c.2) :
    Returns (liftSingle X s a b) fun c => P (X.ch a) (X.ch b) (X.ch c.1) (X.ch c.2) := by
  unfold liftSingle
  refine Returns.bind h fun c hc => Returns.pure ?_
  rw [X.ch_ofCh, X.ch_ofCh]; exact hc

theorem liftSingle_ifReturns {A : Type} {X : ChromOps I A}
    {s : List A → List A → M G (List A × List A)} {P : List A → List A → List A → List A → Prop}
    {a b : I} (h : IfReturns (s (X.ch a) (X.ch b)) fun c => P (X.ch a) (X.ch b) c.1 c.2) :
    IfReturns (liftSingle X s a b) fun c => P (X.ch a) (X.ch b) (X.ch c.1) (X.ch c.2) := by
  unfold liftSingle
  refine IfReturns.bind h fun c hc => IfReturns.pure ?_
  rw [X.ch_ofCh, X.ch_ofCh]; exact hc

end pairs

/-! ## Reading loops -/

section reading
variable {G A : Type}

theorem idx_of_lt {l : List A} {i : Nat} (h : i < l.length) : (idx l i : M G A) = pure l[i] := by
  unfold idx; rw [List.getElem?_eq_getElem h]

theorem idx_ge {l : List A} {i : Nat} (h : l.length ≤ i) : (idx l i : M G A) = M.fail .indexOob := by
  unfold idx; rw [List.getElem?_eq_none h]

theorem idx_ifReturns {l : List A} {i : Nat} : IfReturns (idx l i : M G A) fun a => l[i]? = some a := by
  unfold idx
  cases h : l[i]? with
  | none => exact IfReturns.fail
  | some a => exact IfReturns.pure rfl

theorem forEach_pure {α β : Type} {f : α → M G β} {g : α → β} :
    ∀ (xs : List α), (∀ x ∈ xs, f x = pure (g x)) → M.forEach f xs = pure (xs.map g)
  | [], _ => rfl
  | x :: xs, h => by
    unfold M.forEach
    rw [h x (by simp), forEach_pure xs fun y hy => h y (by simp [hy])]
    simp

/-- The slice `l[lo..hi]`. -/
def slice (l : List A) (lo hi : Nat) : List A := (l.take hi).drop lo

theorem slice_length {l : List A} {lo hi : Nat} (h : hi ≤ l.length) :
    (slice l lo hi).length = hi - lo := by
  unfold slice; simp; omega

theorem map_getElem_range' {l : List A} {lo hi : Nat} (h : hi ≤ l.length) :
    ((List.range' lo (hi - lo)).pmap (fun i hi => l[i]'hi)
      (fun i hi' => by simp [List.mem_range'_1] at hi'; omega)) = slice l lo hi := by
  apply List.ext_getElem
  · rw [slice_length h]; simp
  · intro n h1 h2
    simp [slice]

theorem readRange_eq {l : List A} {lo hi : Nat} (h : hi ≤ l.length) :
    (readRange l lo hi : M G (List A)) = pure (slice l lo hi) := by
  unfold readRange
  rw [← map_getElem_range' h]
  have : ∀ (xs : List Nat) (hx : ∀ i ∈ xs, i < l.length),
      (M.forEach (idx l) xs : M G (List A)) = pure (xs.pmap (fun i hi => l[i]'hi) hx) := by
    intro xs
    induction xs with
    | nil => intro _; rfl
    | cons x xs ih =>
      intro hx
      unfold M.forEach
      rw [idx_of_lt (hx x (by simp)), ih fun i hi => hx i (by simp [hi])]
      simp
  rw [this]

theorem pushLoci_eq {s1 s2 : List A} {lo hi : Nat} (h1 : hi ≤ s1.length) (h2 : hi ≤ s2.length) :
    (pushLoci s1 s2 lo hi : M G (List (A × A))) =
      pure ((slice s1 lo hi).zip (slice s2 lo hi)) := by
  unfold pushLoci
  have : ∀ (xs : List Nat) (hx : ∀ i ∈ xs, i < s1.length) (hy : ∀ i ∈ xs, i < s2.length),
      (M.forEach (fun i => do
        let a ← idx s1 i
        let b ← idx s2 i
        pure (a, b)) xs : M G (List (A × A))) =
      pure ((xs.pmap (fun i hi => s1[i]'hi) hx).zip (xs.pmap (fun i hi => s2[i]'hi) hy)) := by
    intro xs
    induction xs with
    | nil => intro _ _; rfl
    | cons x xs ih =>
      intro hx hy
      unfold M.forEach
      rw [idx_of_lt (hx x (by simp)), idx_of_lt (hy x (by simp)),
        ih (fun i hi => hx i (by simp [hi])) (fun i hi => hy i (by simp [hi]))]
      simp
  rw [this _ (fun i hi' => by simp [List.mem_range'_1] at hi'; omega)
      (fun i hi' => by simp [List.mem_range'_1] at hi'; omega),
    map_getElem_range' h1, map_getElem_range' h2]

theorem pushLoci_panics {s1 s2 : List A} {lo hi : Nat} (h : lo < hi)
    (h2 : s1.length < hi ∨ s2.length < hi) :
    Panics (pushLoci s1 s2 lo hi : M G (List (A × A))) := by
  have key : ∀ (xs : List Nat), (∃ i ∈ xs, s1.length ≤ i ∨ s2.length ≤ i) →
      Panics (M.forEach (fun i => do
        let a ← idx s1 i
        let b ← idx s2 i
        pure (a, b)) xs : M G (List (A × A))) := by
    intro xs
    induction xs with
    | nil => simp
    | cons x xs ih =>
      rintro ⟨i, hi, hor⟩
      unfold M.forEach
      rcases List.mem_cons.1 hi with rfl | hi
      · refine Panics.bind_left ?_
        rcases hor with h | h
        · rw [idx_ge h]; exact Panics.bind_left Panics.fail
        · refine Panics.bind_right IfReturns.trivial fun a _ => ?_
          rw [idx_ge h]; exact Panics.bind_left Panics.fail
      · exact Panics.bind_right IfReturns.trivial fun _ _ => Panics.bind_left (ih ⟨i, hi, hor⟩)
  unfold pushLoci
  apply key
  refine ⟨hi - 1, ?_, by omega⟩
  simp [List.mem_range'_1]; omega

theorem slice_zero (l : List A) (hi : Nat) : slice l 0 hi = l.take hi := by simp [slice]

theorem slice_full (l : List A) (lo : Nat) : slice l lo l.length = l.drop lo := by simp [slice]

theorem map_fst_zip' {B : Type} {a : List A} {b : List B} (h : a.length = b.length) :
    (a.zip b).map Prod.fst = a := List.map_fst_zip (Nat.le_of_eq h)

theorem map_snd_zip' {B : Type} {a : List A} {b : List B} (h : a.length = b.length) :
    (a.zip b).map Prod.snd = b := List.map_snd_zip (Nat.le_of_eq h.symm)

theorem maskLoci_eq (p1 p2 : List A) : ∀ (ms : List Bool) (i : Nat), i + ms.length = p1.length →
    p1.length = p2.length →
    (maskLoci p1 p2 i ms : M G (List (A × A))) =
      pure ((mix ms (p1.drop i) (p2.drop i)).zip (mix ms (p2.drop i) (p1.drop i)))
  | [], i, _, _ => by simp [maskLoci, mix]
  | m :: ms, i, h, hl => by
    simp at h
    unfold maskLoci
    have h1 : i < p1.length := by omega
    have h2 : i < p2.length := by omega
    rw [idx_of_lt h1, idx_of_lt h2, maskLoci_eq p1 p2 ms (i + 1) (by omega) hl,
      List.drop_eq_getElem_cons h1, List.drop_eq_getElem_cons h2]
    cases m <;> simp [mix]

end reading
end Ecrs.Ga
