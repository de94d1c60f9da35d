import Verif.Props.Ff

set_option linter.unusedSectionVars false

/-!
# C85: distances of points with infinite coordinates
-/

namespace Ecrs.Ff
open Ecrs

section
variable {F : Type} [Field F] [LinearOrder F] [IsStrictOrderedRing F]
variable (expo sqrt : Ext F → Ext F) (maxv : F)

/-- Specification: the coordinatewise differences of two points. -/
def differences (a b : List (Ext F)) : List (Ext F) := List.zipWith Ext.sub a b

/-- What a sum of non-negative terms is, given the accumulator and the differences still to come. -/
def SumIs (acc : Ext F) (ds : List (Ext F)) (r : Ext F) : Prop :=
  ((acc = .nan ∨ .nan ∈ ds) → r = .nan) ∧
  ((acc ≠ .nan ∧ .nan ∉ ds ∧ (acc = .pinf ∨ .pinf ∈ ds ∨ .ninf ∈ ds)) → r = .pinf)

theorem sumIs_step {acc d t r : Ext F} {ds : List (Ext F)} (hacc : acc ≠ .ninf)
    (ht : (d = .nan → t = .nan) ∧ (d = .pinf ∨ d = .ninf → t = .pinf) ∧ ((∃ x, d = .fin x) → ∃ y, t = .fin y))
    (h : SumIs (Ext.add acc t) ds r) : SumIs acc (d :: ds) r := by
  obtain ⟨h1, h2⟩ := h
  obtain ⟨t1, t2, t3⟩ := ht
  cases d with
  | nan =>
    have := t1 rfl; subst this
    have hn : Ext.add acc .nan = .nan := by cases acc <;> rfl
    rw [hn] at h1
    exact ⟨fun _ => h1 (.inl rfl), fun h => absurd (by simp) h.2.1⟩
  | ninf =>
    have := t2 (.inr rfl); subst this
    cases acc with
    | nan => exact ⟨fun _ => h1 (.inl rfl), fun h => absurd rfl h.1⟩
    | ninf => exact absurd rfl hacc
    | fin x => exact ⟨fun h => h1 (.inr (by simpa using h)), fun h => h2 ⟨by simp [Ext.add], by simpa using h.2.1, .inl rfl⟩⟩
    | pinf => exact ⟨fun h => h1 (.inr (by simpa using h)), fun h => h2 ⟨by simp [Ext.add], by simpa using h.2.1, .inl rfl⟩⟩
  | pinf =>
    have := t2 (.inl rfl); subst this
    cases acc with
    | nan => exact ⟨fun _ => h1 (.inl rfl), fun h => absurd rfl h.1⟩
    | ninf => exact absurd rfl hacc
    | fin x => exact ⟨fun h => h1 (.inr (by simpa using h)), fun h => h2 ⟨by simp [Ext.add], by simpa using h.2.1, .inl rfl⟩⟩
    | pinf => exact ⟨fun h => h1 (.inr (by simpa using h)), fun h => h2 ⟨by simp [Ext.add], by simpa using h.2.1, .inl rfl⟩⟩
  | fin x =>
    obtain ⟨y, rfl⟩ := t3 ⟨x, rfl⟩
    cases acc with
    | nan => exact ⟨fun _ => h1 (.inl rfl), fun h => absurd rfl h.1⟩
    | ninf => exact absurd rfl hacc
    | fin z => exact ⟨fun h => h1 (.inr (by simpa using h)), fun h => h2 ⟨by simp [Ext.add], by simpa using h.2.1,
        .inr (by simpa using h.2.2)⟩⟩
    | pinf => exact ⟨fun h => h1 (.inr (by simpa using h)), fun h => h2 ⟨by simp [Ext.add], by simpa using h.2.1, .inl rfl⟩⟩

theorem taxiFrom_inf : ∀ (xs ys pre : List (Ext F)) (acc : Ext F), xs.length ≤ ys.length → acc ≠ .ninf →
    ∃ r, taxiFrom (Ext.ops expo sqrt maxv) (pre ++ ys) pre.length acc xs = .ok r ∧ SumIs acc (differences xs ys) r
  | [], ys, pre, acc, _, hacc => ⟨acc, rfl, by simp [differences, SumIs]⟩
  | x :: xs, [], pre, acc, h, hacc => by simp at h
  | x :: xs, y :: ys, pre, acc, h, hacc => by
    have hi : index (pre ++ y :: ys) pre.length = .ok y := by rw [index_ok]; simp
    have ht : (Ext.sub x y = .nan → (Ext.sub x y).abs = .nan) ∧ (Ext.sub x y = .pinf ∨ Ext.sub x y = .ninf → (Ext.sub x y).abs = .pinf) ∧
        ((∃ z, Ext.sub x y = .fin z) → ∃ z, (Ext.sub x y).abs = .fin z) :=
      ⟨fun h => by rw [h]; rfl, fun h => by rcases h with h | h <;> rw [h] <;> rfl, fun ⟨z, h⟩ => ⟨|z|, by rw [h]; rfl⟩⟩
    have hne : Ext.add acc (Ext.sub x y).abs ≠ .ninf := by
      cases acc <;> cases Ext.sub x y <;> simp_all [Ext.add, Ext.abs]
    obtain ⟨r, h1, h2⟩ := taxiFrom_inf xs ys (pre ++ [y]) (Ext.add acc (Ext.sub x y).abs) (by simpa using h) hne
    refine ⟨r, ?_, sumIs_step hacc ht h2⟩
    rw [taxiFrom, except_bind_of_ok hi]
    simp only [List.append_assoc, List.singleton_append, List.length_append, List.length_singleton] at h1
    exact h1

theorem sumSquares_inf : ∀ (xs ys pre : List (Ext F)) (acc : Ext F), xs.length ≤ ys.length → acc ≠ .ninf →
    ∃ r, sumSquares (Ext.ops expo sqrt maxv) (pre ++ ys) pre.length acc xs = .ok r ∧ SumIs acc (differences xs ys) r
  | [], ys, pre, acc, _, hacc => ⟨acc, rfl, by simp [differences, SumIs]⟩
  | x :: xs, [], pre, acc, h, hacc => by simp at h
  | x :: xs, y :: ys, pre, acc, h, hacc => by
    have hi : index (pre ++ y :: ys) pre.length = .ok y := by rw [index_ok]; simp
    have ht : (Ext.sub x y = .nan → Ext.mul (Ext.sub x y) (Ext.sub x y) = .nan) ∧
        (Ext.sub x y = .pinf ∨ Ext.sub x y = .ninf → Ext.mul (Ext.sub x y) (Ext.sub x y) = .pinf) ∧
        ((∃ z, Ext.sub x y = .fin z) → ∃ z, Ext.mul (Ext.sub x y) (Ext.sub x y) = .fin z) :=
      ⟨fun h => by rw [h]; rfl, fun h => by rcases h with h | h <;> rw [h] <;> rfl, fun ⟨z, h⟩ => ⟨z * z, by rw [h]; rfl⟩⟩
    have hne : Ext.add acc (Ext.mul (Ext.sub x y) (Ext.sub x y)) ≠ .ninf := by
      cases acc <;> cases Ext.sub x y <;> simp_all [Ext.add, Ext.mul]
    obtain ⟨r, h1, h2⟩ := sumSquares_inf xs ys (pre ++ [y]) (Ext.add acc (Ext.mul (Ext.sub x y) (Ext.sub x y))) (by simpa using h) hne
    refine ⟨r, ?_, sumIs_step hacc ht h2⟩
    rw [sumSquares, except_bind_of_ok hi]
    simp only [List.append_assoc, List.singleton_append, List.length_append, List.length_singleton] at h1
    exact h1

/-- **C85, infinite coordinates.** If some coordinates of the points differ by an infinity of either sign and no difference
is NaN (the points are not at the same infinity), the taxi distance is infinity and the cartesian distance the root of
infinity; if a difference is NaN, both distances are NaN (its root). -/
theorem C85_infinite (a b : List (Ext F)) (h : a.length ≤ b.length) :
    (.nan ∉ differences a b → (.pinf ∈ differences a b ∨ .ninf ∈ differences a b) →
      taxi (Ext.ops expo sqrt maxv) a b = .ok .pinf ∧ cartesian (Ext.ops expo sqrt maxv) a b = .ok (sqrt .pinf)) ∧
    (.nan ∈ differences a b →
      taxi (Ext.ops expo sqrt maxv) a b = .ok .nan ∧ cartesian (Ext.ops expo sqrt maxv) a b = .ok (sqrt .nan)) := by
  obtain ⟨r, r1, r2, r3⟩ := taxiFrom_inf expo sqrt maxv a b [] (.fin 0) h (by simp)
  obtain ⟨s, s1, s2, s3⟩ := sumSquares_inf expo sqrt maxv a b [] (.fin 0) h (by simp)
  have c : cartesian (Ext.ops expo sqrt maxv) a b = .ok (sqrt s) := by
    unfold cartesian
    have h2 : sumSquares (Ext.ops expo sqrt maxv) b 0 (Ext.ops expo sqrt maxv).zero a = .ok s := s1
    rw [except_bind_of_ok h2]; rfl
  have t : taxi (Ext.ops expo sqrt maxv) a b = .ok r := r1
  rw [c, t]
  refine ⟨fun hn hi => ?_, fun hn => ?_⟩
  · rw [r3 ⟨by simp, hn, .inr hi⟩, s3 ⟨by simp, hn, .inr hi⟩]
    exact ⟨rfl, rfl⟩
  · rw [r2 (.inr hn), s2 (.inr hn)]
    exact ⟨rfl, rfl⟩

example := (C85_infinite (fun x => x) (fun x => x) (1000 : ℚ) [.fin 1, .ninf, .fin 3] [.fin 0, .fin 2, .pinf] (by decide)).1
  (by decide) (by decide)
example := (C85_infinite (fun x => x) (fun x => x) (1000 : ℚ) [.fin 1, .pinf] [.ninf, .pinf] (by decide)).2 (by decide)

end
end Ecrs.Ff
