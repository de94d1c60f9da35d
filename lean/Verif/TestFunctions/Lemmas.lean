import Verif.TestFunctions.Model
import Mathlib.Tactic.Positivity
import Mathlib.Tactic.Linarith
import Mathlib.Tactic.NormNum
import Mathlib.Tactic.FieldSimp
import Mathlib.Tactic.Ring
import Mathlib.Algebra.Order.BigOperators.Group.List

/-! # Reasoning rules for the benchmark functions -/

namespace Ecrs.TF
open Ecrs Real

theorem require_ok {c : Prop} [Decidable c] (h : c) : require c = .ok () := by simp [require, h]
theorem require_err {c : Prop} [Decidable c] (h : ¬c) : require c = .error (.panic .assertion) := by
  simp [require, h]

theorem bind_ok' {α β : Type} (a : α) (k : α → Except Trap β) : ((Except.ok a : Except Trap α) >>= k) = k a := rfl
theorem bind_err' {α β : Type} (e : Trap) (k : α → Except Trap β) :
    ((Except.error e : Except Trap α) >>= k) = .error e := rfl

theorem get_ok {α : Type} {x : List α} {i : ℕ} {v : α} (h : x[i]? = some v) : get x i = .ok v := by
  simp [get, h]
theorem get_lt {x : List ℝ} {i : ℕ} (h : i < x.length) : get x i = .ok (x.getD i 0) := by
  simp [get, h, List.getD]
theorem get_oob {α : Type} {x : List α} {i : ℕ} (h : x.length ≤ i) :
    get x i = .error (.panic .indexOob) := by
  simp [get, List.getElem?_eq_none h]
theorem usub_ok {a b : ℕ} (h : b ≤ a) : usub a b = .ok (a - b) := by simp [usub, h]
theorem usub_err {a b : ℕ} (h : a < b) : usub a b = .error (.panic .underflow) := by
  simp [usub, Nat.not_le.mpr h]
theorem fdiv_ok {a b : ℝ} (h : b ≠ 0) : fdiv a b = .ok (a / b) := by simp [fdiv, h]
theorem fdiv_zero {a : ℝ} : fdiv a 0 = .error .undef := by simp [fdiv]
theorem powf_ok {b y : ℝ} (h : 0 ≤ b) (hy : 0 ≤ y) : powf b y = .ok (b ^ y) := by
  unfold powf
  rw [if_neg (not_lt.mpr h), if_neg (fun hh => absurd hh.2 (not_lt.mpr hy))]
theorem powf_pos {b y : ℝ} (h : 0 < b) : powf b y = .ok (b ^ y) := by
  unfold powf
  rw [if_neg (not_lt.mpr h.le), if_neg (fun hh => absurd hh.1 h.ne')]
theorem powf_neg {b y : ℝ} (h : b < 0) : powf b y = .error .undef := by simp [powf, h]

/-- A summing loop over a list is the sum. -/
theorem foldl_add {α : Type} (t : α → ℝ) (l : List α) (c : ℝ) :
    l.foldl (fun acc a => acc + t a) c = c + (l.map t).sum := by
  induction l generalizing c with
  | nil => simp
  | cons a l ih => simp only [List.foldl_cons, ih, List.map_cons, List.sum_cons]; ring

theorem foldl_sub {α : Type} (t : α → ℝ) (l : List α) (c : ℝ) :
    l.foldl (fun acc a => acc - t a) c = c - (l.map t).sum := by
  induction l generalizing c with
  | nil => simp
  | cons a l ih => simp only [List.foldl_cons, ih, List.map_cons, List.sum_cons]; ring

theorem sum_map_nonneg {α : Type} {t : α → ℝ} {l : List α} (h : ∀ a ∈ l, 0 ≤ t a) :
    0 ≤ (l.map t).sum := by
  apply List.sum_nonneg
  intro v hv
  obtain ⟨a, ha, rfl⟩ := List.mem_map.1 hv
  exact h a ha

theorem sum_map_zero {α : Type} {t : α → ℝ} {l : List α} (h : ∀ a ∈ l, t a = 0) :
    (l.map t).sum = 0 := by
  induction l with
  | nil => rfl
  | cons a l ih =>
    rw [List.map_cons, List.sum_cons, h a (by simp), ih fun b hb => h b (by simp [hb]), add_zero]

theorem sum_map_le {α : Type} {t : α → ℝ} {l : List α} {c : ℝ} (h : ∀ a ∈ l, c ≤ t a) :
    l.length * c ≤ (l.map t).sum := by
  induction l with
  | nil => simp
  | cons a l ih =>
    have := ih fun b hb => h b (by simp [hb])
    have := h a (by simp)
    rw [List.map_cons, List.sum_cons, List.length_cons]
    push_cast
    linarith

theorem sum_map_const {α : Type} {t : α → ℝ} {l : List α} {c : ℝ} (h : ∀ a ∈ l, t a = c) :
    (l.map t).sum = l.length * c := by
  induction l with
  | nil => simp
  | cons a l ih =>
    rw [List.map_cons, List.sum_cons, h a (by simp), ih fun b hb => h b (by simp [hb]), List.length_cons]
    push_cast
    ring

theorem forLoop_nil {α : Type} (c : ℝ) (body : ℝ → α → R) : forLoop [] c body = .ok c := rfl
theorem forLoop_cons {α : Type} (a : α) (l : List α) (c : ℝ) (body : ℝ → α → R) :
    forLoop (a :: l) c body = body c a >>= fun c' => forLoop l c' body := by
  simp [forLoop, List.foldlM_cons]

/-- A loop whose body adds a term each round. -/
theorem forLoop_add {α : Type} {body : ℝ → α → R} {t : α → ℝ} {l : List α} (c : ℝ)
    (h : ∀ a ∈ l, ∀ acc, body acc a = .ok (acc + t a)) : forLoop l c body = .ok (c + (l.map t).sum) := by
  induction l generalizing c with
  | nil => simp [forLoop_nil]
  | cons a l ih =>
    rw [forLoop_cons, h a (by simp), bind_ok', ih _ fun b hb => h b (by simp [hb])]
    simp only [List.map_cons, List.sum_cons, Except.ok.injEq]
    ring

/-- A loop one of whose rounds always panics panics (the rounds before it may only return or
panic). -/
theorem forLoop_panics {α : Type} {body : ℝ → α → R} {l : List α} (c : ℝ)
    (hall : ∀ a ∈ l, ∀ acc, (∃ v, body acc a = .ok v) ∨ ∃ p, body acc a = .error (.panic p))
    (hbad : ∃ a ∈ l, ∀ acc, ∃ p, body acc a = .error (.panic p)) :
    ∃ p, forLoop l c body = .error (.panic p) := by
  induction l generalizing c with
  | nil => simp at hbad
  | cons a l ih =>
    rw [forLoop_cons]
    rcases hall a (by simp) c with ⟨v, hv⟩ | ⟨p, hp⟩
    · rw [hv, bind_ok']
      refine ih v (fun b hb => hall b (by simp [hb])) ?_
      obtain ⟨b, hb, hbb⟩ := hbad
      rcases List.mem_cons.1 hb with rfl | hb
      · obtain ⟨p, hp⟩ := hbb c; rw [hv] at hp; cases hp
      · exact ⟨b, hb, hbb⟩
    · exact ⟨p, by rw [hp, bind_err']⟩

/-- The first round of a non-empty loop fails: so does the loop. -/
theorem forLoop_first {α : Type} {body : ℝ → α → R} {a : α} {l : List α} {c : ℝ} {e : Trap}
    (h : body c a = .error e) : forLoop (a :: l) c body = .error e := by
  rw [forLoop_cons, h, bind_err']

/-- Two-dimensional functions without partial operations. -/
theorem fn2_min {g : ℝ → ℝ → ℝ} {a b m : ℝ} (hv : g a b = m) (hm : ∀ x1 x2, m ≤ g x1 x2) :
    HasMinimum (· = 2) (fn2 fun x1 x2 => pure (g x1 x2)) [a, b] m := by
  refine ⟨rfl, by rw [← hv]; rfl, ?_⟩
  intro x hx
  obtain ⟨x1, x2, rfl⟩ := List.length_eq_two.1 hx
  exact ⟨_, rfl, hm _ _⟩

theorem fn4_min {g : ℝ → ℝ → ℝ → ℝ → ℝ} {a b c d m : ℝ} (hv : g a b c d = m)
    (hm : ∀ x1 x2 x3 x4, m ≤ g x1 x2 x3 x4) :
    HasMinimum (· = 4) (fn4 fun x1 x2 x3 x4 => pure (g x1 x2 x3 x4)) [a, b, c, d] m := by
  refine ⟨rfl, by rw [← hv]; rfl, ?_⟩
  intro x hx
  match x, hx with
  | [x1, x2, x3, x4], _ => exact ⟨_, rfl, hm _ _ _ _⟩

/-- Functions of the shape "assert, then return `g x`". -/
theorem guarded_min {dim : ℕ → Prop} {f : List ℝ → R} {g : List ℝ → ℝ} {p : List ℝ} {m : ℝ}
    (hf : ∀ x, dim x.length → f x = .ok (g x)) (hp : dim p.length) (hv : g p = m)
    (hm : ∀ x, dim x.length → m ≤ g x) : HasMinimum dim f p m :=
  ⟨hp, by rw [hf p hp, hv], fun x hx => ⟨_, hf x hx, hm x hx⟩⟩

theorem ne_nil_of {x : List ℝ} (h : 0 < x.length) : x ≠ [] := List.length_pos_iff.1 h

theorem mem_replicate_eq {n : ℕ} {c a : ℝ} (h : a ∈ List.replicate n c) : a = c :=
  (List.mem_replicate.1 h).2

theorem mem_zipIdx_replicate {n : ℕ} {c : ℝ} {p : ℝ × ℕ} (h : p ∈ (List.replicate n c).zipIdx) :
    p.1 = c := by
  have := List.fst_mem_of_mem_zipIdx h
  exact mem_replicate_eq this

end Ecrs.TF
