import Verif.TestFunctions.Gulf
import Mathlib.Tactic.LinearCombination

/-!
# C106 and C108 for the functions with partial operations

The functions of this file divide, take roots, logarithms or powers of their arguments.  For each of
them the set of vectors on which it yields a number is determined exactly, and so is the set of
vectors on which it panics.
-/

set_option linter.unusedSectionVars false
set_option linter.unusedVariables false

namespace Ecrs.Props
open Ecrs Ecrs.TF Real

/-- `f` yields a number exactly on the vectors satisfying `P`; on every other vector it reaches an
operation outside its real domain.  It never panics. -/
def DefinedExactly (P : List ℝ → Prop) (f : List ℝ → R) : Prop :=
  (∀ x, P x → ∃ v, f x = .ok v) ∧ ∀ x, ¬ P x → f x = .error .undef

/-- The same for a function with a dimension assertion: other dimensions panic. -/
def DefinedExactlyIn (n : ℕ) (P : List ℝ → Prop) (f : List ℝ → R) : Prop :=
  (∀ x : List ℝ, x.length = n → P x → ∃ v, f x = .ok v) ∧
    (∀ x : List ℝ, x.length = n → ¬ P x → f x = .error .undef) ∧
    ∀ x : List ℝ, x.length ≠ n → f x = .error (.panic .assertion)

theorem forLoop_defined {α : Type} {body : ℝ → α → R} {P : α → Prop} {l : List α}
    (hok : ∀ a ∈ l, ∀ acc, P a → ∃ v, body acc a = .ok v)
    (hbad : ∀ a ∈ l, ∀ acc, ¬ P a → body acc a = .error .undef) (c : ℝ) :
    ((∀ a ∈ l, P a) → ∃ v, forLoop l c body = .ok v) ∧
      (¬ (∀ a ∈ l, P a) → forLoop l c body = .error .undef) := by
  induction l generalizing c with
  | nil => exact ⟨fun _ => ⟨c, rfl⟩, fun h => absurd (by simp) h⟩
  | cons a l ih =>
    have ih := ih (fun b hb => hok b (by simp [hb])) (fun b hb => hbad b (by simp [hb]))
    rw [forLoop_cons]
    by_cases ha : P a
    · obtain ⟨v, hv⟩ := hok a (by simp) c ha
      rw [hv, bind_ok']
      refine ⟨fun h => (ih v).1 fun b hb => h b (by simp [hb]), fun h => (ih v).2 fun hl => h ?_⟩
      intro b hb
      rcases List.mem_cons.1 hb with rfl | hb
      · exact ha
      · exact hl b hb
    · refine ⟨fun h => absurd (h a (by simp)) ha, fun _ => ?_⟩
      rw [hbad a (by simp) c ha, bind_err']

theorem fdiv_cases (a b : ℝ) : (b ≠ 0 → fdiv a b = .ok (a / b)) ∧ (b = 0 → fdiv a b = .error .undef) :=
  ⟨fdiv_ok, fun h => by rw [h, fdiv_zero]⟩
theorem fln_ok {a : ℝ} (h : 0 < a) : fln a = .ok (log a) := by rw [fln, if_neg (not_le.2 h)]
theorem fln_err {a : ℝ} (h : a ≤ 0) : fln a = .error .undef := by rw [fln, if_pos h]
theorem fsqrt_ok {a : ℝ} (h : 0 ≤ a) : fsqrt a = .ok (sqrt a) := by rw [fsqrt, if_neg (not_lt.2 h)]
theorem fsqrt_err {a : ℝ} (h : a < 0) : fsqrt a = .error .undef := by rw [fsqrt, if_pos h]

theorem fn2_other (f : ℝ → ℝ → R) (x : List ℝ) (h : x.length ≠ 2) : fn2 f x = .error (.panic .assertion) := by
  match x, h with
  | [], _ => rfl
  | [_], _ => rfl
  | [_, _], h => exact absurd rfl h
  | _ :: _ :: _ :: _, _ => rfl

theorem fn3_other (f : ℝ → ℝ → ℝ → R) (x : List ℝ) (h : x.length ≠ 3) :
    fn3 f x = .error (.panic .assertion) := by
  match x, h with
  | [], _ => rfl
  | [_], _ => rfl
  | [_, _], _ => rfl
  | [_, _, _], h => exact absurd rfl h
  | _ :: _ :: _ :: _ :: _, _ => rfl

theorem fn5_other (f : ℝ → ℝ → ℝ → ℝ → ℝ → R) (x : List ℝ) (h : x.length ≠ 5) :
    fn5 f x = .error (.panic .assertion) := by
  match x, h with
  | [], _ => rfl
  | [_], _ => rfl
  | [_, _], _ => rfl
  | [_, _, _], _ => rfl
  | [_, _, _, _], _ => rfl
  | [_, _, _, _, _], h => exact absurd rfl h
  | _ :: _ :: _ :: _ :: _ :: _ :: _, _ => rfl

/-- **C106, C108**: `alpine2` never panics; it yields a number exactly on the vectors without
negative entries (it takes their square roots). -/
theorem C106_alpine2 : DefinedExactly (fun x => ∀ a ∈ x, 0 ≤ a) alpine2 := by
  have h (x : List ℝ) := forLoop_defined (l := x) (P := fun a : ℝ => 0 ≤ a)
    (body := fun res arg => (do let s ← fsqrt arg; pure (res * (s * sin arg)) : R))
    (fun a _ acc ha => ⟨_, by rw [fsqrt_ok ha, bind_ok']; rfl⟩)
    (fun a _ acc ha => by rw [fsqrt_err (not_le.1 ha), bind_err']) 0
  exact ⟨fun x hx => (h x).1 hx, fun x hx => (h x).2 hx⟩

/-- **C106, C108**: `csendes` never panics; it yields a number exactly on the vectors without zero
entries — its documented minimiser is not one of them. -/
theorem C106_csendes : DefinedExactly (fun x => ∀ a ∈ x, a ≠ 0) csendes := by
  have h (x : List ℝ) := forLoop_defined (l := x) (P := fun a : ℝ => a ≠ 0)
    (body := fun res arg => (do let q ← fdiv 1 arg; pure (res + arg ^ 6 * (2 + sin q)) : R))
    (fun a _ acc ha => ⟨_, by rw [fdiv_ok ha, bind_ok']; rfl⟩)
    (fun a _ acc ha => by rw [not_not.1 ha, fdiv_zero, bind_err']) 0
  exact ⟨fun x hx => (h x).1 hx, fun x hx => (h x).2 hx⟩

/-- **C106, C108**: `deb1` panics on the empty vector, divides by zero on every one-dimensional
vector, and yields a number on every longer one. -/
theorem C106_deb1 : deb1 [] = .error (.panic .underflow) ∧ (∀ a, deb1 [a] = .error .undef) ∧
    ∀ x : List ℝ, 2 ≤ x.length → ∃ v, deb1 x = .ok v := by
  refine ⟨rfl, fun a => ?_, fun x hx => ?_⟩
  · show (do let q ← fdiv (-1) ((0 : ℕ) : ℝ); pure (q * _) : R) = _
    rw [Nat.cast_zero, fdiv_zero, bind_err']
  · have hpos : ((x.length - 1 : ℕ) : ℝ) ≠ 0 := by
      have : x.length - 1 ≠ 0 := by omega
      exact_mod_cast this
    exact ⟨_, by rw [deb1, usub_ok (by omega), bind_ok', fdiv_ok hpos, bind_ok']; rfl⟩

private theorem deb3_loop (x : List ℝ) :
    ((∀ a ∈ x, 0 ≤ a) → ∃ v, forLoop x 0 (fun res arg =>
      (do let p ← powf arg 0.75; pure (res + sin (5 * π * (p - 0.05)) ^ 6) : R)) = .ok v) ∧
    (¬ (∀ a ∈ x, 0 ≤ a) → forLoop x 0 (fun res arg =>
      (do let p ← powf arg 0.75; pure (res + sin (5 * π * (p - 0.05)) ^ 6) : R)) = .error .undef) :=
  forLoop_defined (l := x) (P := fun a : ℝ => 0 ≤ a)
    (body := fun res arg => (do let p ← powf arg 0.75; pure (res + sin (5 * π * (p - 0.05)) ^ 6) : R))
    (fun a _ acc ha => ⟨_, by rw [powf_ok ha (by norm_num), bind_ok']; rfl⟩)
    (fun a _ acc ha => by rw [powf_neg (not_le.1 ha), bind_err']) 0

/-- **C106, C108**: `deb3` panics on the empty vector, yields no number on one-dimensional vectors
and on vectors with a negative entry, and a number on every other vector. -/
theorem C106_deb3 : deb3 [] = .error (.panic .underflow) ∧
    (∀ x : List ℝ, 1 ≤ x.length → ¬ (∀ a ∈ x, 0 ≤ a) → deb3 x = .error .undef) ∧
    (∀ a, deb3 [a] = .error .undef) ∧
    ∀ x : List ℝ, 2 ≤ x.length → (∀ a ∈ x, 0 ≤ a) → ∃ v, deb3 x = .ok v := by
  refine ⟨rfl, fun x _ hx => ?_, fun a => ?_, fun x hx hn => ?_⟩
  · have h := (deb3_loop x).2 hx
    rw [deb3, h, bind_err']
  · by_cases ha : ∀ b ∈ [a], 0 ≤ b
    · obtain ⟨v, hv⟩ := (deb3_loop [a]).1 ha
      rw [deb3, hv, bind_ok', usub_ok (by simp), bind_ok']
      show (do let q ← fdiv (-1) ((0 : ℕ) : ℝ); pure (q * v) : R) = _
      rw [Nat.cast_zero, fdiv_zero, bind_err']
    · rw [deb3, (deb3_loop [a]).2 ha, bind_err']
  · obtain ⟨v, hv⟩ := (deb3_loop x).1 hn
    have hpos : ((x.length - 1 : ℕ) : ℝ) ≠ 0 := by
      have : x.length - 1 ≠ 0 := by omega
      exact_mod_cast this
    exact ⟨_, by rw [deb3, hv, bind_ok', usub_ok (by omega), bind_ok', fdiv_ok hpos, bind_ok']; rfl⟩

/-- **C106, C108**: `keane` is two-dimensional; of the two-dimensional vectors only the origin yields
no number. -/
theorem C106_keane : DefinedExactlyIn 2 (fun x => x ≠ [0, 0]) keane := by
  refine ⟨fun x hx hne => ?_, fun x hx hne => ?_, fun x hx => fn2_other _ _ hx⟩
  · obtain ⟨a, b, rfl⟩ := List.length_eq_two.1 hx
    refine ⟨_, fdiv_ok ?_⟩
    intro h
    have h0 : a ^ 2 + b ^ 2 = 0 := (sqrt_eq_zero (by positivity)).1 h
    have ha : a = 0 := by nlinarith [sq_nonneg a, sq_nonneg b]
    have hb : b = 0 := by nlinarith [sq_nonneg a, sq_nonneg b]
    exact hne (by rw [ha, hb])
  · rw [not_not.1 hne]
    show fdiv _ (sqrt ((0 : ℝ) ^ 2 + (0 : ℝ) ^ 2)) = _
    rw [show ((0 : ℝ) ^ 2 + (0 : ℝ) ^ 2) = 0 by norm_num, sqrt_zero, fdiv_zero]

/-- **C106, C108**: `paviani` is ten-dimensional and yields a number exactly when all entries lie
strictly between 2 and 10. -/
theorem C106_paviani : DefinedExactlyIn 10 (fun x => ∀ a ∈ x, 2 < a ∧ a < 10) paviani := by
  have loop (x : List ℝ) := forLoop_defined (l := x) (P := fun a : ℝ => 2 < a ∧ a < 10)
    (body := fun res arg => (do
      let u ← fln (arg - 2)
      let v ← fln (10 - arg)
      pure (res + (u ^ 2 + v ^ 2)) : R))
    (fun a _ acc ha => ⟨_, by rw [fln_ok (by linarith [ha.1]), bind_ok', fln_ok (by linarith [ha.2]), bind_ok']; rfl⟩)
    (fun a _ acc ha => by
      by_cases h : 2 < a
      · have h10 : 10 ≤ a := by by_contra hc; exact ha ⟨h, not_le.1 hc⟩
        rw [fln_ok (by linarith), bind_ok', fln_err (by linarith), bind_err']
      · rw [fln_err (by linarith [not_lt.1 h]), bind_err']) 0
  refine ⟨fun x hx hp => ?_, fun x hx hp => ?_, fun x hx => ?_⟩
  · obtain ⟨v, hv⟩ := (loop x).1 hp
    have hz : ∀ l : List ℝ, l.foldl (fun sum arg => sum * arg) (0 : ℝ) = 0 := by
      intro l
      induction l with
      | nil => rfl
      | cons a l ih => rw [List.foldl_cons, zero_mul, ih]
    exact ⟨_, by
      rw [paviani, require_ok hx, bind_ok', hv, bind_ok', hz]
      show (powf 0 0.2 >>= _) = _
      rw [powf_ok le_rfl (by norm_num), bind_ok']; rfl⟩
  · rw [paviani, require_ok hx, bind_ok', (loop x).2 hp, bind_err']
  · rw [paviani, require_err hx, bind_err']

/-- **C106, C108**: `pen_holder` is two-dimensional and yields a number exactly where both cosines
are non-zero. -/
theorem C106_pen_holder :
    DefinedExactlyIn 2 (fun x => ∀ a ∈ x, cos a ≠ 0) pen_holder := by
  refine ⟨fun x hx hp => ?_, fun x hx hp => ?_, fun x hx => fn2_other _ _ hx⟩
  · obtain ⟨a, b, rfl⟩ := List.length_eq_two.1 hx
    have h : |cos a * cos b * exp (abs (1 - (a ^ 2 + b ^ 2) ^ (0.5 / π)))| ≠ 0 :=
      abs_ne_zero.2 (mul_ne_zero (mul_ne_zero (hp a (by simp)) (hp b (by simp))) (exp_ne_zero _))
    exact ⟨_, by rw [pen_holder, fn2, fdiv_ok h, bind_ok']; rfl⟩
  · obtain ⟨a, b, rfl⟩ := List.length_eq_two.1 hx
    have h : |cos a * cos b * exp (abs (1 - (a ^ 2 + b ^ 2) ^ (0.5 / π)))| = 0 := by
      rw [abs_eq_zero, mul_eq_zero, mul_eq_zero]
      left
      by_contra hc
      rw [not_or] at hc
      refine hp fun c hcm => ?_
      simp only [List.mem_cons, List.not_mem_nil, or_false] at hcm
      rcases hcm with rfl | rfl
      · exact hc.1
      · exact hc.2
    rw [pen_holder, fn2, h, fdiv_zero, bind_err']

private theorem ripple_arg {a : ℝ} (h : a ≠ 1) : 0 < 2 * ((a - 1) / 0.8) ^ 2 := by
  have : (a - 1) / 0.8 ≠ 0 := div_ne_zero (sub_ne_zero.2 h) (by norm_num)
  positivity

/-- **C106, C108**: `ripple1` and `ripple25` are two-dimensional and yield a number exactly when no
entry is 1 (they take a logarithm instead of multiplying by a constant). -/
theorem C106_ripple : ∀ f ∈ [ripple1, ripple25], DefinedExactlyIn 2 (fun x => ∀ a ∈ x, a ≠ 1) f := by
  intro f hf
  simp only [List.mem_cons, List.not_mem_nil, or_false] at hf
  rcases hf with rfl | rfl
  · have loop (x : List ℝ) := forLoop_defined (l := x) (P := fun a : ℝ => a ≠ 1)
      (body := fun res arg => (do
        let l ← fln (2 * ((arg - 1) / 0.8) ^ 2)
        pure (res + -1 * exp (-2 * l) * (sin (5 * π * arg) ^ 6 + 0.1 * cos (500 * π * arg) ^ 2)) : R))
      (fun a _ acc ha => ⟨_, by rw [fln_ok (ripple_arg ha), bind_ok']; rfl⟩)
      (fun a _ acc ha => by rw [not_not.1 ha, fln_err (by norm_num), bind_err']) 0
    refine ⟨fun x hx hp => ?_, fun x hx hp => ?_, fun x hx => ?_⟩
    · rw [ripple1, require_ok hx, bind_ok']; exact (loop x).1 hp
    · rw [ripple1, require_ok hx, bind_ok']; exact (loop x).2 hp
    · rw [ripple1, require_err hx, bind_err']
  · have loop (x : List ℝ) := forLoop_defined (l := x) (P := fun a : ℝ => a ≠ 1)
      (body := fun res arg => (do
        let l ← fln (2 * ((arg - 1) / 0.8) ^ 2)
        pure (res + -1 * exp (-2 * l) * sin (5 * π * arg) ^ 6) : R))
      (fun a _ acc ha => ⟨_, by rw [fln_ok (ripple_arg ha), bind_ok']; rfl⟩)
      (fun a _ acc ha => by rw [not_not.1 ha, fln_err (by norm_num), bind_err']) 0
    refine ⟨fun x hx hp => ?_, fun x hx hp => ?_, fun x hx => ?_⟩
    · rw [ripple25, require_ok hx, bind_ok']; exact (loop x).1 hp
    · rw [ripple25, require_ok hx, bind_ok']; exact (loop x).2 hp
    · rw [ripple25, require_err hx, bind_err']

/-- **C106, C108**: `brad` is three-dimensional and yields a number exactly when none of the fifteen
denominators `(16 - i) x2 + min(i, 16 - i) x3` vanishes. -/
theorem C106_brad : DefinedExactlyIn 3 (fun x => ∀ i < 15,
    ((16 - i : ℕ) : ℝ) * x.getD 1 0 + min (i : ℝ) ((16 - i : ℕ) : ℝ) * x.getD 2 0 ≠ 0) brad := by
  have loop (x1 x2 x3 : ℝ) := forLoop_defined (l := List.range 15)
    (P := fun i : ℕ => ((16 - i : ℕ) : ℝ) * x2 + min (i : ℝ) ((16 - i : ℕ) : ℝ) * x3 ≠ 0)
    (body := fun res (i : ℕ) => (do
      let y0 ← get bradY 0
      let q ← fdiv ((y0 : ℝ) - x1 - i) (((16 - i : ℕ) : ℝ) * x2 + min (i : ℝ) ((16 - i : ℕ) : ℝ) * x3)
      pure (res + q ^ 2) : R))
    (fun a _ acc ha => ⟨_, by rw [get_ok (v := 0.14) rfl, bind_ok', fdiv_ok ha, bind_ok']; rfl⟩)
    (fun a _ acc ha => by rw [get_ok (v := 0.14) rfl, bind_ok', not_not.1 ha, fdiv_zero, bind_err']) 0
  refine ⟨fun x hx hp => ?_, fun x hx hp => ?_, fun x hx => fn3_other _ _ hx⟩
  · obtain ⟨a, b, c, rfl⟩ := List.length_eq_three.1 hx
    exact (loop a b c).1 fun i hi => hp i (List.mem_range.1 hi)
  · obtain ⟨a, b, c, rfl⟩ := List.length_eq_three.1 hx
    exact (loop a b c).2 fun h => hp fun i hi => h i (List.mem_range.2 hi)

/-- **C106, C108**: `devilliers_glasser2` is five-dimensional and yields a number exactly when its
second entry, the base of a fractional power, is not negative. -/
theorem C106_devilliers_glasser2 :
    DefinedExactlyIn 5 (fun x => 0 ≤ x.getD 1 0) devilliers_glasser2 := by
  refine ⟨fun x hx hp => ?_, fun x hx hp => ?_, fun x hx => fn5_other _ _ hx⟩
  · match x, hx with
    | [x1, x2, x3, x4, x5], _ =>
      have h2 : 0 ≤ x2 := hp
      rw [devilliers_glasser2, fn5]
      refine (forLoop_defined (l := List.range' 1 24) (P := fun _ => True) ?_ ?_ 0).1 (by simp)
      · intro i _ acc _
        exact ⟨_, by rw [powf_ok h2 (by positivity), bind_ok']; rfl⟩
      · intro i _ acc h; exact absurd trivial h
  · match x, hx with
    | [x1, x2, x3, x4, x5], _ =>
      have h2 : x2 < 0 := not_le.1 hp
      rw [devilliers_glasser2, fn5]
      refine (forLoop_defined (l := List.range' 1 24) (P := fun _ => False) ?_ ?_ 0).2
        (fun h => h 1 (by simp))
      · intro i _ acc h; exact h.elim
      · intro i _ acc _
        show (powf x2 _ >>= _) = _
        rw [powf_neg h2, bind_err']

/-- **C106, C108**: `vss` fails its assertion on every vector that is not two-dimensional, and yields
a number whenever the cosine of its second entry is positive (a negative one is raised to a
fractional power). -/
theorem C106_vss : (∀ x : List ℝ, x.length ≠ 2 → vss x = .error (.panic .assertion)) ∧
    ∀ a b : ℝ, 0 < cos b → ∃ v, vss [a, b] = .ok v := by
  refine ⟨fun x hx => fn2_other _ _ hx, fun a b h => ⟨_, by rw [vss, fn2, powf_pos h, bind_ok']; rfl⟩⟩

/-- **C106, C108**: `powell2` yields a number on every vector of at least four entries and fails its
assertion on every shorter one (the documentation says "D > 4"). -/
theorem C106_powell2 : (∀ x : List ℝ, 4 ≤ x.length → ∃ v, powell2 x = .ok v) ∧
    ∀ x : List ℝ, x.length < 4 → powell2 x = .error (.panic .assertion) := by
  refine ⟨fun x hx => ?_, fun x hx => ?_⟩
  · rw [powell2, require_ok (show x.length > 3 by omega), bind_ok', usub_ok (by omega), bind_ok']
    refine (forLoop_defined (P := fun _ => True) ?_ ?_ 0).1 (by simp)
    · intro i hi acc _
      have hi := List.mem_range'_1.1 hi
      exact ⟨_, by rw [get_lt (by omega), bind_ok', get_lt (by omega), bind_ok', get_lt (by omega), bind_ok',
        get_lt (by omega), bind_ok']; rfl⟩
    · intro i _ acc h; exact absurd trivial h
  · rw [powell2, require_err (show ¬ x.length > 3 by omega), bind_err']

/-- **C106, C108**: `power_sum` yields a number exactly when its two vectors have the same length,
and fails its assertion otherwise; `qing` yields a number on every vector. -/
theorem C106_power_sum_qing (x b : List ℝ) :
    (b.length = x.length → ∃ v, power_sum x b = .ok v) ∧
    (b.length ≠ x.length → power_sum x b = .error (.panic .assertion)) ∧
    ∀ i, ∃ v, qing x i = .ok v :=
  ⟨fun h => ⟨_, by rw [power_sum, require_ok h, bind_ok']; rfl⟩,
    fun h => by rw [power_sum, require_err h, bind_err'], fun i => ⟨_, rfl⟩⟩

/-! ### `gulf_research` -/

theorem gulf_round_pos {x3 xi : ℝ} {i : ℕ} (hi : 1 ≤ i) (hi' : i < 99) :
    (xi ≠ 0 → ∃ v, 0 < v ∧ gulfRound x3 xi i = .ok v) ∧ (xi = 0 → gulfRound x3 xi i = .error .undef) := by
  have hpos : (0 : ℝ) < 0.01 * (i : ℝ) := by
    have : (0 : ℝ) < i := by exact_mod_cast hi
    positivity
  have hlt : 0.01 * (i : ℝ) < 1 := by
    have : (i : ℝ) < 99 := by exact_mod_cast hi'
    linarith
  have hlog : 0 < -50 * log (0.01 * (i : ℝ)) := by
    have := log_neg hpos hlt
    linarith
  have hbase : 0 < 25 + (-50 * log (0.01 * (i : ℝ))) ^ (1 / 1.5 : ℝ) := by
    have := rpow_nonneg hlog.le (1 / 1.5 : ℝ)
    linarith
  have hround : gulfRound x3 xi i = (do
      let q ← fdiv (-1 * (25 + (-50 * log (0.01 * (i : ℝ))) ^ (1 / 1.5 : ℝ)) ^ x3) xi
      pure (exp q ^ 2) : R) := by
    rw [gulfRound, if_neg (by omega), fln_ok hpos, bind_ok', powf_pos hlog, bind_ok', powf_pos hbase, bind_ok']
  constructor
  · intro h
    exact ⟨_, pow_pos (exp_pos _) 2, by rw [hround, fdiv_ok h, bind_ok']; rfl⟩
  · intro h
    rw [hround, h, fdiv_zero, bind_err']

/-- **C106**: `gulf_research` fails its assertion on every vector that has not 99 entries, and yields
a number on every vector of 99 positive entries. -/
theorem C106_gulf_research :
    (∀ x : List ℝ, x.length ≠ 99 → gulf_research x = .error (.panic .assertion)) ∧
    ∀ x : List ℝ, x.length = 99 → (∀ a ∈ x, 0 < a) → ∃ v, gulf_research x = .ok v := by
  refine ⟨fun x hx => by rw [gulf_research, require_err hx, bind_err'], fun x hx hp => ?_⟩
  have h3 : x[2]? = some (x[2]'(by omega)) := List.getElem?_eq_getElem (by omega)
  rw [gulf_research, require_ok hx, bind_ok', get_ok h3, bind_ok']
  refine (forLoop_defined (P := fun _ => True) ?_ ?_ 0).1 (by simp)
  · rintro ⟨a, i⟩ hi acc _
    have ha : a ∈ x := List.fst_mem_of_mem_zipIdx hi
    have hlt : i < 99 := by
      have := List.snd_lt_of_mem_zipIdx hi
      omega
    rcases Nat.eq_zero_or_pos i with rfl | hi1
    · have hx3 : (0 : ℝ) < x[2]'(by omega) := hp _ (List.getElem_mem _)
      refine ⟨acc + 0, ?_⟩
      show (gulfRound _ a 0 >>= _) = _
      rw [gulfRound, if_pos rfl, if_pos hx3, if_pos (hp a ha), bind_ok']
      rfl
    · obtain ⟨v, _, hv⟩ := (gulf_round_pos (x3 := x[2]'(by omega)) (xi := a) hi1 hlt).1 (hp a ha).ne'
      refine ⟨acc + v, ?_⟩
      show (gulfRound _ a i >>= _) = _
      rw [hv, bind_ok']
      rfl
  · intro i _ acc h; exact absurd trivial h

theorem forLoop_lower {α : Type} {body : ℝ → α → R} {l : List α} {c v : ℝ}
    (h : ∀ a ∈ l, ∀ acc w, body acc a = .ok w → acc < w) (hne : l ≠ []) (hv : forLoop l c body = .ok v) :
    c < v := by
  induction l generalizing c with
  | nil => exact absurd rfl hne
  | cons a l ih =>
    rw [forLoop_cons] at hv
    cases hb : body c a with
    | error e => rw [hb, bind_err'] at hv; cases hv
    | ok w =>
      rw [hb, bind_ok'] at hv
      have hw := h a (by simp) c w hb
      by_cases hl : l = []
      · subst hl
        rw [forLoop_nil] at hv
        injection hv with hv
        linarith
      · exact hw.trans (ih (fun b hb => h b (by simp [hb])) hl hv)

/-- **C107**: violated by `gulf_research`, documented minimum `0`: every value it returns is
positive. -/
theorem C107_gulf_research (x : List ℝ) (v : ℝ) (h : gulf_research x = .ok v) : 0 < v := by
  by_cases hx : x.length = 99
  · have h3 : x[2]? = some (x[2]'(by omega)) := List.getElem?_eq_getElem (by omega)
    rw [gulf_research, require_ok hx, bind_ok', get_ok h3, bind_ok'] at h
    match x, hx, h with
    | a :: l, hx, h =>
      rw [List.zipIdx_cons, forLoop_cons] at h
      generalize hx3 : (a :: l)[2]'(by omega) = x3 at h
      cases hb : gulfRound x3 a 0 with
      | error e => simp only [hb] at h; rw [bind_err', bind_err'] at h; cases h
      | ok t =>
        simp only [hb] at h
        rw [bind_ok'] at h
        have h' : forLoop (l.zipIdx (0 + 1)) (0 + t) (fun res p => (do
            let t ← gulfRound x3 p.1 p.2
            pure (res + t) : R)) = .ok v := h
        have ht : 0 ≤ t := by
          rw [gulfRound, if_pos rfl] at hb
          split_ifs at hb with h1 h2 h3
          · injection hb with hb; rw [← hb]
          · by_cases ha : a = 0
            · rw [ha, fdiv_zero, bind_err'] at hb; cases hb
            · rw [fdiv_ok ha, bind_ok'] at hb
              injection hb with hb; rw [← hb]; positivity
          · by_cases ha : a = 0
            · rw [ha, fdiv_zero, bind_err'] at hb; cases hb
            · rw [fdiv_ok ha, bind_ok'] at hb
              injection hb with hb; rw [← hb]; positivity
        refine lt_of_le_of_lt (by linarith) (forLoop_lower ?_ ?_ h')
        · rintro ⟨b, i⟩ hi acc w hw
          have hi1 := List.le_snd_of_mem_zipIdx hi
          have hi2 := List.snd_lt_add_of_mem_zipIdx hi
          have hl : l.length = 98 := by simpa using hx
          have hr := gulf_round_pos (x3 := x3) (xi := b) (i := i) (by simpa using hi1) (by simp at hi2; omega)
          have hw : (gulfRound x3 b i >>= fun t => pure (acc + t) : R) = .ok w := hw
          by_cases hb0 : b = 0
          · rw [hr.2 hb0, bind_err'] at hw; cases hw
          · obtain ⟨u, hu, hbu⟩ := hr.1 hb0
            rw [hbu, bind_ok'] at hw
            injection hw with hw
            linarith
        · intro hn
          have : l.length = 98 := by simpa using hx
          have h0 := congrArg List.length hn
          simp at h0
          rw [h0] at this
          simp at this
  · rw [gulf_research, require_err hx, bind_err'] at h; cases h

example : ∃ v, gulf_research (List.replicate 99 1) = .ok v :=
  C106_gulf_research.2 _ (by simp) fun a ha => by rw [mem_replicate_eq ha]; norm_num

/-- Vectors on which each of the functions yields a number, and some on which they do not. -/
example : (∃ v, alpine2 [1, 2] = .ok v) ∧ alpine2 [1, -2] = .error .undef ∧ (∃ v, csendes [1, 2] = .ok v) ∧
    csendes [1, 0] = .error .undef ∧ (∃ v, deb3 [1, 2] = .ok v) ∧ (∃ v, keane [1, 2] = .ok v) ∧
    (∃ v, paviani (List.replicate 10 3) = .ok v) ∧ paviani (List.replicate 10 1) = .error .undef ∧
    (∃ v, pen_holder [0, 0] = .ok v) ∧ (∃ v, ripple1 [0, 0] = .ok v) ∧ ripple1 [0, 1] = .error .undef ∧
    (∃ v, brad [0, 1, 1] = .ok v) ∧ (∃ v, devilliers_glasser2 [1, 1, 1, 1, 1] = .ok v) ∧
    (∃ v, vss [0, 0] = .ok v) := by
  refine ⟨C106_alpine2.1 _ (by simp), C106_alpine2.2 _ (by simp), C106_csendes.1 _ (by simp),
    C106_csendes.2 _ (by simp), C106_deb3.2.2.2 _ (by simp) (by simp), C106_keane.1 _ rfl (by simp),
    C106_paviani.1 _ (by simp) (fun a ha => by rw [mem_replicate_eq ha]; norm_num),
    C106_paviani.2.1 _ (by simp) (by simp), C106_pen_holder.1 _ rfl (by simp),
    (C106_ripple _ (by simp)).1 _ rfl (by simp), (C106_ripple _ (by simp)).2.1 _ rfl (by simp),
    C106_brad.1 _ rfl ?_, C106_devilliers_glasser2.1 _ rfl (by simp), C106_vss.2 _ _ (by simp)⟩
  intro i hi
  have h1 : (0 : ℝ) < ((16 - i : ℕ) : ℝ) := by
    have : 0 < 16 - i := by omega
    exact_mod_cast this
  have h2 : (0 : ℝ) ≤ min (i : ℝ) ((16 - i : ℕ) : ℝ) := le_min (by positivity) h1.le
  simp only [List.getD_cons_succ, List.getD_cons_zero, mul_one]
  linarith

end Ecrs.Props
