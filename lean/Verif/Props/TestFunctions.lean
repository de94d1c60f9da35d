import Verif.TestFunctions.Lemmas
import Mathlib.Tactic.LinearCombination

/-!
# C67: the benchmark functions have the minimum their documentation states

`HasMinimum dim f p m` (see `Verif.TestFunctions.Core`): on every vector whose dimension satisfies
`dim` the call `f x` returns a real number that is at least `m`, and at the documented minimiser
`p` it returns exactly `m`.  The hypotheses of the theorems are met by construction: `p` itself is
an admissible vector.
-/

set_option linter.unusedSectionVars false
set_option linter.unusedVariables false

namespace Ecrs.Props
open Ecrs Ecrs.TF Real

/-! ## Functions of arbitrary dimension -/

/-- **C67**: `sphere`, documented minimum `f(0, …, 0) = 0`, any dimension ≥ 1. -/
theorem C67_sphere (n : ℕ) (hn : 0 < n) : HasMinimum (0 < ·) sphere (List.replicate n 0) 0 := by
  refine guarded_min (g := fun x => 0 + (x.map (· ^ 2)).sum) ?_ (by simpa using hn) ?_ ?_
  · intro x hx
    rw [sphere, require_ok (ne_nil_of hx), bind_ok', foldl_add (fun a => a ^ 2)]; rfl
  · simp only [zero_add]
    exact sum_map_zero fun a ha => by rw [mem_replicate_eq ha]; norm_num
  · intro x _; rw [zero_add]; exact sum_map_nonneg fun a _ => sq_nonneg a

example : (0 : ℕ) < 3 := by norm_num

/-- **C67**: the minimum of `sphere` is attained nowhere else. -/
theorem C67_sphere_unique (x : List ℝ) (h : sphere x = .ok 0) : ∀ a ∈ x, a = 0 := by
  have hx : x ≠ [] := by
    rintro rfl
    simp [sphere, require] at h
  rw [sphere, require_ok hx, bind_ok', foldl_add (fun a => a ^ 2), zero_add] at h
  have h0 : (x.map (· ^ 2)).sum = 0 := by injection h
  intro a ha
  by_contra hne
  have : 0 < (x.map (· ^ 2)).sum := by
    clear h hx h0
    induction x with
    | nil => simp at ha
    | cons b l ih =>
      rw [List.map_cons, List.sum_cons]
      rcases List.mem_cons.1 ha with rfl | ha
      · have : 0 < a ^ 2 := by positivity
        have : 0 ≤ (l.map (· ^ 2)).sum := sum_map_nonneg fun a _ => sq_nonneg a
        linarith
      · have := ih ha
        have : 0 ≤ b ^ 2 := sq_nonneg b
        linarith
  linarith

/-- **C67**: `ackley`, documented minimum `f(0, …, 0) = 0`. -/
theorem C67_ackley (n : ℕ) (hn : 0 < n) : HasMinimum (0 < ·) ackley (List.replicate n 0) 0 := by
  refine guarded_min (g := fun x => -20 * exp (-0.2 * sqrt ((x.map (· ^ 2)).sum * (1 / x.length)))
    - exp ((x.map fun a => cos (2 * π * a)).sum * (1 / x.length)) + 20 + exp 1) ?_ (by simpa using hn) ?_ ?_
  · intro x hx
    rw [ackley, require_ok (ne_nil_of hx), bind_ok']
    simp only [foldl_add (fun a : ℝ => a ^ 2), foldl_add (fun a : ℝ => cos (2 * π * a)), zero_add]
    rfl
  · have h1 : ((List.replicate n (0 : ℝ)).map (· ^ 2)).sum = 0 :=
      sum_map_zero fun a ha => by rw [mem_replicate_eq ha]; norm_num
    have h2 : ((List.replicate n (0 : ℝ)).map fun a => cos (2 * π * a)).sum = n * 1 := by
      rw [sum_map_const (c := 1) fun a ha => by rw [mem_replicate_eq ha]; simp]
      simp
    have hn' : (n : ℝ) ≠ 0 := by exact_mod_cast hn.ne'
    simp only [h1, h2, List.length_replicate, zero_mul, sqrt_zero, mul_zero, exp_zero, mul_one]
    rw [mul_one_div, div_self hn']
    ring
  · intro x hx
    have hpos : (0 : ℝ) < x.length := by exact_mod_cast hx
    have h1 : exp (-0.2 * sqrt ((x.map (· ^ 2)).sum * (1 / x.length))) ≤ 1 := by
      rw [exp_le_one_iff]
      have := sqrt_nonneg ((x.map (· ^ 2)).sum * (1 / x.length))
      linarith
    have h2 : exp ((x.map fun a => cos (2 * π * a)).sum * (1 / x.length)) ≤ exp 1 := by
      rw [exp_le_exp]
      have : (x.length : ℝ) * -1 ≤ (x.map fun a => -cos (2 * π * a)).sum :=
        sum_map_le fun a _ => by linarith [cos_le_one (2 * π * a)]
      have h3 : (x.map fun a => -cos (2 * π * a)).sum = -(x.map fun a => cos (2 * π * a)).sum := by
        clear this hx hpos h1
        induction x with
        | nil => simp
        | cons a l ih => simp only [List.map_cons, List.sum_cons, ih]; ring
      rw [mul_one_div, div_le_one hpos]
      linarith
    linarith

/-- **C67**: `alpine`, documented minimum `f(0, …, 0) = 0`. -/
theorem C67_alpine (n : ℕ) : HasMinimum (fun _ => True) alpine (List.replicate n 0) 0 := by
  refine guarded_min (g := fun x => 0 + (x.map fun a => |a * sin a + a / 10|).sum) ?_ trivial ?_ ?_
  · intro x _; rw [alpine, foldl_add fun a => |a * sin a + a / 10|]; rfl
  · simp only [zero_add]; exact sum_map_zero fun a ha => by rw [mem_replicate_eq ha]; norm_num
  · intro x _; rw [zero_add]; exact sum_map_nonneg fun a _ => abs_nonneg _

/-- **C67**: `brown`, documented minimum `f(0, …, 0) = 0`, any dimension ≥ 1. -/
theorem C67_brown (n : ℕ) (hn : 0 < n) : HasMinimum (0 < ·) brown (List.replicate n 0) 0 := by
  refine guarded_min (g := fun x => 0 + ((List.range (x.length - 1)).map fun i =>
    (x.getD i 0 ^ 2) ^ (x.getD (i + 1) 0 ^ 2 + 1 : ℝ) + (x.getD (i + 1) 0 ^ 2) ^ (x.getD i 0 ^ 2 + 1 : ℝ)).sum)
    ?_ (by simpa using hn) ?_ ?_
  · intro x hx
    rw [brown, usub_ok hx, bind_ok']
    apply forLoop_add
    intro i hi acc
    have hi := List.mem_range.1 hi
    rw [get_lt (by omega), bind_ok', get_lt (by omega), bind_ok', powf_ok (by positivity) (by positivity),
      bind_ok', powf_ok (by positivity) (by positivity), bind_ok']
    rfl
  · simp only [zero_add]
    refine sum_map_zero fun i hi => ?_
    have hi := List.mem_range.1 hi
    simp only [List.length_replicate] at hi
    have h0 : ∀ j, (List.replicate n (0 : ℝ)).getD j 0 = 0 := by
      intro j; simp [List.getD, List.getElem?_replicate]; split <;> rfl
    rw [h0, h0]; simp
  · intro x _; rw [zero_add]
    exact sum_map_nonneg fun i _ => by positivity

/-- **C67**: `chung_reynolds`, documented minimum `f(0, …, 0) = 0`. -/
theorem C67_chung_reynolds (n : ℕ) :
    HasMinimum (fun _ => True) chung_reynolds (List.replicate n 0) 0 := by
  refine guarded_min (g := fun x => (0 + (x.map (· ^ 2)).sum) ^ 2) ?_ trivial ?_ ?_
  · intro x _; rw [chung_reynolds, foldl_add (fun a => a ^ 2)]; rfl
  · have h1 : ((List.replicate n (0 : ℝ)).map (· ^ 2)).sum = 0 :=
      sum_map_zero fun a ha => by rw [mem_replicate_eq ha]; norm_num
    simp only [h1]; norm_num
  · intro x _; positivity

/-- **C67**: `griewank`, documented minimum `f(0, …, 0) = 0`. -/
theorem C67_griewank (n : ℕ) (hn : 0 < n) : HasMinimum (0 < ·) griewank (List.replicate n 0) 0 := by
  refine guarded_min (g := fun x => 0 + (x.zipIdx.map fun p => p.1 ^ 2 / 4000).sum
    - x.zipIdx.foldl (fun acc p => acc * cos (p.1 / sqrt ((p.2 + 1 : ℕ) : ℝ))) 1 + 1) ?_ (by simpa using hn) ?_ ?_
  · intro x hx
    rw [griewank, require_ok (ne_nil_of hx), bind_ok', foldl_add (fun p : ℝ × ℕ => p.1 ^ 2 / 4000)]
    rfl
  · have h1 : ((List.replicate n (0 : ℝ)).zipIdx.map fun p => p.1 ^ 2 / 4000).sum = 0 :=
      sum_map_zero fun p hp => by rw [mem_zipIdx_replicate hp]; norm_num
    have h2 : ∀ (l : List (ℝ × ℕ)), (∀ p ∈ l, p.1 = 0) →
        l.foldl (fun acc p => acc * cos (p.1 / sqrt ((p.2 + 1 : ℕ) : ℝ))) 1 = 1 := by
      intro l
      induction l with
      | nil => intro _; rfl
      | cons p l ih =>
        intro h
        rw [List.foldl_cons, h p (by simp), zero_div, cos_zero, mul_one]
        exact ih fun q hq => h q (by simp [hq])
    simp only [h1]
    rw [h2 _ fun p hp => mem_zipIdx_replicate hp]
    norm_num
  · intro x _
    have h1 : 0 ≤ (x.zipIdx.map fun p => p.1 ^ 2 / 4000).sum :=
      sum_map_nonneg fun p _ => by positivity
    have h2 : ∀ (l : List (ℝ × ℕ)) (c : ℝ), |c| ≤ 1 →
        |l.foldl (fun acc p => acc * cos (p.1 / sqrt ((p.2 + 1 : ℕ) : ℝ))) c| ≤ 1 := by
      intro l
      induction l with
      | nil => intro c hc; exact hc
      | cons p l ih =>
        intro c hc
        refine ih _ ?_
        rw [abs_mul]
        exact mul_le_one₀ hc (abs_nonneg _) (abs_cos_le_one _)
    have := (abs_le.1 (h2 x.zipIdx 1 (by norm_num))).2
    linarith

/-- **C67**: `levy`, documented minimum `f(1, …, 1) = 0`. -/
theorem C67_levy (n : ℕ) (hn : 0 < n) : HasMinimum (0 < ·) levy (List.replicate n 1) 0 := by
  refine guarded_min (g := fun x => sin (π * (1 + (x.getD 0 0 - 1) / 4)) ^ 2
    + ((x.take (x.length - 1)).map fun a => (1 + (a - 1) / 4 - 1) ^ 2
        * (1 + 10 * sin (π * (1 + (a - 1) / 4) + 1) ^ 2)).sum
    + (1 + (x.getD (x.length - 1) 0 - 1) / 4 - 1) ^ 2
        * (1 + sin (2 * π * (1 + (x.getD (x.length - 1) 0 - 1) / 4)) ^ 2)) ?_ (by simpa using hn) ?_ ?_
  · intro x hx
    rw [levy, require_ok (ne_nil_of hx), bind_ok', get_lt hx, bind_ok', usub_ok hx, bind_ok']
    simp only [foldl_add (fun a : ℝ => (1 + (a - 1) / 4 - 1) ^ 2
        * (1 + 10 * sin (π * (1 + (a - 1) / 4) + 1) ^ 2))]
    rw [get_lt (by omega), bind_ok']
    rfl
  · have hg : ∀ j, j < n → (List.replicate n (1 : ℝ)).getD j 0 = 1 := by
      intro j hj; simp [List.getD, hj]
    have h1 : ∀ a ∈ (List.replicate n (1 : ℝ)).take ((List.replicate n (1 : ℝ)).length - 1), a = 1 :=
      fun a ha => mem_replicate_eq (List.mem_of_mem_take ha)
    simp only [List.length_replicate]
    rw [hg 0 hn, hg (n - 1) (by omega), sum_map_zero fun a ha => by
      rw [h1 a (by simpa using ha)]; norm_num]
    norm_num
  · intro x _
    have h1 : 0 ≤ ((x.take (x.length - 1)).map fun a => (1 + (a - 1) / 4 - 1) ^ 2
        * (1 + 10 * sin (π * (1 + (a - 1) / 4) + 1) ^ 2)).sum :=
      sum_map_nonneg fun a _ => by positivity
    positivity

/-- **C67**: `powell_sum`, documented minimum `f(0, …, 0) = 0`. -/
theorem C67_powell_sum (n : ℕ) : HasMinimum (fun _ => True) powell_sum (List.replicate n 0) 0 := by
  refine guarded_min (g := fun x => 0 + (x.zipIdx.map fun p => |p.1| ^ (p.2 + 1)).sum) ?_ trivial ?_ ?_
  · intro x _; rw [powell_sum, foldl_add fun p : ℝ × ℕ => |p.1| ^ (p.2 + 1)]; rfl
  · simp only [zero_add]; exact sum_map_zero fun p hp => by rw [mem_zipIdx_replicate hp]; simp
  · intro x _; rw [zero_add]; exact sum_map_nonneg fun p _ => by positivity

/-- **C67**: `sum_of_powers`, documented minimum `f(0, …, 0) = 0`. -/
theorem C67_sum_of_powers (n : ℕ) (hn : 0 < n) :
    HasMinimum (0 < ·) sum_of_powers (List.replicate n 0) 0 := by
  refine guarded_min (g := fun x => 0 + (x.zipIdx.map fun p => |p.1| ^ (p.2 + 1)).sum) ?_ (by simpa using hn) ?_ ?_
  · intro x hx
    rw [sum_of_powers, require_ok (ne_nil_of hx), bind_ok', foldl_add fun p : ℝ × ℕ => |p.1| ^ (p.2 + 1)]; rfl
  · simp only [zero_add]; exact sum_map_zero fun p hp => by rw [mem_zipIdx_replicate hp]; simp
  · intro x _; rw [zero_add]; exact sum_map_nonneg fun p _ => by positivity

/-- **C67**: `sum_squares`, documented minimum `f(0, …, 0) = 0`. -/
theorem C67_sum_squares (n : ℕ) (hn : 0 < n) :
    HasMinimum (0 < ·) sum_squares (List.replicate n 0) 0 := by
  refine guarded_min (g := fun x => 0 + (x.zipIdx.map fun p => ((p.2 + 1 : ℕ) : ℝ) * p.1 ^ 2).sum)
    ?_ (by simpa using hn) ?_ ?_
  · intro x hx
    rw [sum_squares, require_ok (ne_nil_of hx), bind_ok',
      foldl_add fun p : ℝ × ℕ => ((p.2 + 1 : ℕ) : ℝ) * p.1 ^ 2]; rfl
  · simp only [zero_add]; exact sum_map_zero fun p hp => by rw [mem_zipIdx_replicate hp]; simp
  · intro x _; rw [zero_add]; exact sum_map_nonneg fun p _ => by positivity

/-- **C67**: `zakharov`, documented minimum `f(0, …, 0) = 0`. -/
theorem C67_zakharov (n : ℕ) (hn : 0 < n) : HasMinimum (0 < ·) zakharov (List.replicate n 0) 0 := by
  refine guarded_min (g := fun x => 0 + (x.zipIdx.map fun p => p.1 ^ 2).sum
    + (0 + (x.zipIdx.map fun p => 0.5 * ((p.2 + 1 : ℕ) : ℝ) * p.1).sum) ^ 2
    + (0 + (x.zipIdx.map fun p => 0.5 * ((p.2 + 1 : ℕ) : ℝ) * p.1).sum) ^ 4) ?_ (by simpa using hn) ?_ ?_
  · intro x hx
    rw [zakharov, require_ok (ne_nil_of hx), bind_ok', foldl_add fun p : ℝ × ℕ => p.1 ^ 2,
      foldl_add fun p : ℝ × ℕ => 0.5 * ((p.2 + 1 : ℕ) : ℝ) * p.1]; rfl
  · rw [sum_map_zero fun p hp => by rw [mem_zipIdx_replicate hp]; simp,
      sum_map_zero fun p hp => by rw [mem_zipIdx_replicate hp]; simp]
    norm_num
  · intro x _
    have : 0 ≤ (x.zipIdx.map fun p => p.1 ^ 2).sum := sum_map_nonneg fun p _ => sq_nonneg _
    simp only [zero_add]
    positivity

/-- **C67**: `schumer_steiglitz`, documented minimiser `(0, …, 0)`; the minimum is `0`. -/
theorem C67_schumer_steiglitz (n : ℕ) :
    HasMinimum (fun _ => True) schumer_steiglitz (List.replicate n 0) 0 := by
  refine guarded_min (g := fun x => 0 + (x.map (· ^ 4)).sum) ?_ trivial ?_ ?_
  · intro x _; rw [schumer_steiglitz, foldl_add (fun a => a ^ 4)]; rfl
  · simp only [zero_add]; exact sum_map_zero fun a ha => by rw [mem_replicate_eq ha]; norm_num
  · intro x _; rw [zero_add]; exact sum_map_nonneg fun a _ => by positivity

/-- **C67**: `qing` with parameter `i ≥ 0`: the minimum `0` is attained at `(√i, …, √i)` and at
`(-√i, …, -√i)`. -/
theorem C67_qing (n : ℕ) (i : ℝ) (hi : 0 ≤ i) :
    HasMinimum (fun _ => True) (qing · i) (List.replicate n (sqrt i)) 0 ∧
      HasMinimum (fun _ => True) (qing · i) (List.replicate n (-sqrt i)) 0 := by
  constructor
  all_goals
    refine guarded_min (g := fun x => 0 + (x.map fun a => (a ^ 2 - i) ^ 2).sum) ?_ trivial ?_ ?_
    · intro x _; simp only [qing]; rw [foldl_add fun a => (a ^ 2 - i) ^ 2]; rfl
    · simp only [zero_add]
      exact sum_map_zero fun a ha => by rw [mem_replicate_eq ha]; simp [sq_sqrt hi]
    · intro x _; rw [zero_add]; exact sum_map_nonneg fun a _ => by positivity

example : (0 : ℝ) ≤ 2 := by norm_num

/-- **C67**: `quintic`, documented minimum `f(-1, …, -1) = f(2, …, 2) = 0`. -/
theorem C67_quintic (n : ℕ) :
    HasMinimum (fun _ => True) quintic (List.replicate n (-1)) 0 ∧
      HasMinimum (fun _ => True) quintic (List.replicate n 2) 0 := by
  constructor
  all_goals
    refine guarded_min (g := fun x => 0 + (x.map fun a =>
      |a ^ 5 - 3 * a ^ 4 + 4 * a ^ 3 + 2 * a ^ 2 - 10 * a - 4|).sum) ?_ trivial ?_ ?_
    · intro x _; simp only [quintic]
      rw [foldl_add fun a => |a ^ 5 - 3 * a ^ 4 + 4 * a ^ 3 + 2 * a ^ 2 - 10 * a - 4|]; rfl
    · simp only [zero_add]
      exact sum_map_zero fun a ha => by rw [mem_replicate_eq ha]; norm_num
    · intro x _; rw [zero_add]; exact sum_map_nonneg fun a _ => abs_nonneg _

/-- **C67**: `rastrigin`, documented minimum `f(0, …, 0) = 0`. -/
theorem C67_rastrigin (n : ℕ) (hn : 0 < n) : HasMinimum (0 < ·) rastrigin (List.replicate n 0) 0 := by
  refine guarded_min (g := fun x => 0 + (x.map fun a => a ^ 2 - 10 * cos (2 * π * a)).sum + 10 * x.length)
    ?_ (by simpa using hn) ?_ ?_
  · intro x hx
    rw [rastrigin, require_ok (ne_nil_of hx), bind_ok', foldl_add fun a => a ^ 2 - 10 * cos (2 * π * a)]; rfl
  · rw [sum_map_const (c := -10) fun a ha => by rw [mem_replicate_eq ha]; simp]
    ring
  · intro x _
    have := sum_map_le (l := x) (t := fun a => a ^ 2 - 10 * cos (2 * π * a)) (c := -10) fun a _ => by
      have := cos_le_one (2 * π * a)
      nlinarith [sq_nonneg a]
    linarith

/-- **C67**: `rosenbrock`, documented minimum `f(1, …, 1) = 0`, any dimension ≥ 2. -/
theorem C67_rosenbrock (n : ℕ) (hn : 2 ≤ n) : HasMinimum (2 ≤ ·) rosenbrock (List.replicate n 1) 0 := by
  refine guarded_min (g := fun x => 0 + ((List.range (x.length - 1)).map fun i =>
    100 * (x.getD (i + 1) 0 - x.getD i 0 ^ 2) ^ 2 + (1 - x.getD i 0) ^ 2).sum) ?_ (by simpa using hn) ?_ ?_
  · intro x hx
    have hx' : x.length ≥ 2 := hx
    rw [rosenbrock, require_ok hx', bind_ok', usub_ok (by omega), bind_ok']
    apply forLoop_add
    intro i hi acc
    have hi := List.mem_range.1 hi
    rw [get_lt (by omega), bind_ok', get_lt (by omega), bind_ok']
    rfl
  · simp only [zero_add, List.length_replicate]
    refine sum_map_zero fun i hi => ?_
    have hi := List.mem_range.1 hi
    have hg : ∀ j, j < n → (List.replicate n (1 : ℝ)).getD j 0 = 1 := by
      intro j hj; simp [List.getD, hj]
    rw [hg i (by omega), hg (i + 1) (by omega)]
    norm_num
  · intro x _; rw [zero_add]
    exact sum_map_nonneg fun i _ => by positivity

example : (2 : ℕ) ≤ 5 := by norm_num

/-- **C67**: `rotated_hyper_ellipsoid`, documented minimum `f(0, …, 0) = 0`. -/
theorem C67_rotated_hyper_ellipsoid (n : ℕ) (hn : 0 < n) :
    HasMinimum (0 < ·) rotated_hyper_ellipsoid (List.replicate n 0) 0 := by
  refine guarded_min (g := fun x => 0 + ((List.range x.length).map fun i =>
    ((x.take (i + 1)).map (· ^ 2)).sum).sum) ?_ (by simpa using hn) ?_ ?_
  · intro x hx
    rw [rotated_hyper_ellipsoid, require_ok (ne_nil_of hx), bind_ok',
      ← foldl_add fun i => ((x.take (i + 1)).map (· ^ 2)).sum]
    simp only [foldl_add (fun a : ℝ => a ^ 2)]
    rfl
  · simp only [zero_add]
    refine sum_map_zero fun i _ => sum_map_zero fun a ha => ?_
    rw [mem_replicate_eq (List.mem_of_mem_take ha)]; norm_num
  · intro x _; rw [zero_add]
    exact sum_map_nonneg fun i _ => sum_map_nonneg fun a _ => sq_nonneg a

/-- **C67**: `trigonometric1`, documented minimum `f(0, …, 0) = 0`, any dimension ≥ 2. -/
theorem C67_trigonometric1 (n : ℕ) (hn : 2 ≤ n) :
    HasMinimum (2 ≤ ·) trigonometric1 (List.replicate n 0) 0 := by
  refine guarded_min (g := fun x => 0 + (x.zipIdx.map fun p =>
    (x.length - (0 + (x.map cos).sum) + (p.2 : ℝ) * (1 - cos p.1 - sin p.1)) ^ 2).sum) ?_ (by simpa using hn) ?_ ?_
  · intro x hx
    have hx' : x.length ≥ 2 := hx
    rw [trigonometric1, require_ok hx', bind_ok', foldl_add cos]
    show (pure (List.foldl _ _ _) : R) = _
    rw [foldl_add fun p : ℝ × ℕ =>
      (x.length - (0 + (x.map cos).sum) + (p.2 : ℝ) * (1 - cos p.1 - sin p.1)) ^ 2]
    rfl
  · simp only [zero_add]
    refine sum_map_zero fun p hp => ?_
    rw [mem_zipIdx_replicate hp, sum_map_const (c := 1) fun a ha => by rw [mem_replicate_eq ha]; simp]
    simp
  · intro x _; rw [zero_add]; exact sum_map_nonneg fun p _ => sq_nonneg _

/-- **C67**: `xin_she_yang_2`, documented minimum `f(0, …, 0) = 0`. -/
theorem C67_xin_she_yang_2 (n : ℕ) (hn : 0 < n) :
    HasMinimum (0 < ·) xin_she_yang_2 (List.replicate n 0) 0 := by
  refine guarded_min (g := fun x => (0 + (x.map (|·|)).sum) * exp (-(0 + (x.map fun a => sin (a ^ 2)).sum)))
    ?_ (by simpa using hn) ?_ ?_
  · intro x hx
    rw [xin_she_yang_2, require_ok (ne_nil_of hx), bind_ok', foldl_add (fun a => |a|),
      foldl_add fun a => sin (a ^ 2)]; rfl
  · rw [sum_map_zero fun a ha => by rw [mem_replicate_eq ha]; simp]
    norm_num
  · intro x _
    have : 0 ≤ (x.map (|·|)).sum := sum_map_nonneg fun a _ => abs_nonneg a
    simp only [zero_add]
    positivity

/-- **C67**: `pathological`, documented minimum `f(0, …, 0) = 0`, on every dimension ≥ 2. -/
theorem C67_pathological (n : ℕ) (hn : 2 ≤ n) :
    HasMinimum (2 ≤ ·) pathological (List.replicate n 0) 0 := by
  refine guarded_min (g := fun x => 0 + ((List.range' 1 (x.length - 2 - 1)).map fun i =>
    (0.5 + (sin (sqrt (100 * x.getD i 0 ^ 2 + x.getD (i + 1) 0 ^ 2)) ^ 2 - 0.5)
      / (1 + 0.001 * (x.getD i 0 ^ 2 - 2 * x.getD i 0 * x.getD (i + 1) 0 + x.getD (i + 1) 0 ^ 2) ^ 2) : ℝ)).sum)
    ?_ (by simpa using hn) ?_ ?_
  · intro x hx
    have hx' : 2 ≤ x.length := hx
    rw [pathological, usub_ok hx', bind_ok']
    apply forLoop_add
    intro i hi acc
    have hi := List.mem_range'_1.1 hi
    rw [get_lt (by omega), bind_ok', get_lt (by omega), bind_ok']
    rfl
  · simp only [zero_add]
    refine sum_map_zero fun i hi => ?_
    have h0 : ∀ j, (List.replicate n (0 : ℝ)).getD j 0 = 0 := by
      intro j; simp [List.getD, List.getElem?_replicate]; split <;> rfl
    simp only [h0]; norm_num
  · intro x _; rw [zero_add]
    refine sum_map_nonneg fun i _ => ?_
    set a := x.getD i 0
    set b := x.getD (i + 1) 0
    have hs : 0 ≤ sin (sqrt (100 * a ^ 2 + b ^ 2)) ^ 2 := sq_nonneg _
    have hq : (0 : ℝ) ≤ 0.001 * (a ^ 2 - 2 * a * b + b ^ 2) ^ 2 := by positivity
    have hd : (1 : ℝ) ≤ 1 + 0.001 * (a ^ 2 - 2 * a * b + b ^ 2) ^ 2 := by linarith
    have : (-0.5 : ℝ) ≤ (sin (sqrt (100 * a ^ 2 + b ^ 2)) ^ 2 - 0.5)
        / (1 + 0.001 * (a ^ 2 - 2 * a * b + b ^ 2) ^ 2) := by
      rw [le_div_iff₀ (by linarith)]
      nlinarith
    linarith

/-- **C67**: `powell2`, documented minimum `f(0, …, 0) = 0`, any dimension ≥ 4. -/
theorem C67_powell2 (n : ℕ) (hn : 4 ≤ n) : HasMinimum (4 ≤ ·) powell2 (List.replicate n 0) 0 := by
  refine guarded_min (g := fun x => 0 + ((List.range' 1 (x.length - 3 - 1)).map fun i =>
    (x.getD (i - 1) 0 + 10 * x.getD i 0) ^ 2 + 5 * (x.getD (i + 1) 0 - x.getD (i + 2) 0) ^ 2
      + (x.getD i 0 - 2 * x.getD (i + 1) 0) ^ 4 + 1 * (x.getD (i - 1) 0 - x.getD (i + 2) 0) ^ 4).sum)
    ?_ (by simpa using hn) ?_ ?_
  · intro x hx
    have hx' : x.length > 3 := hx
    rw [powell2, require_ok hx', bind_ok', usub_ok (by omega), bind_ok']
    apply forLoop_add
    intro i hi acc
    have hi := List.mem_range'_1.1 hi
    rw [get_lt (by omega), bind_ok', get_lt (by omega), bind_ok', get_lt (by omega), bind_ok',
      get_lt (by omega), bind_ok']
    rfl
  · simp only [zero_add]
    refine sum_map_zero fun i hi => ?_
    have h0 : ∀ j, (List.replicate n (0 : ℝ)).getD j 0 = 0 := by
      intro j; simp [List.getD, List.getElem?_replicate]; split <;> rfl
    simp only [h0]; norm_num
  · intro x _; rw [zero_add]
    exact sum_map_nonneg fun i _ => by positivity

/-- **C67**: `powell`, documented minimum `f(0, …, 0) = 0`, on the dimensions above 4 that are not
multiples of four (on the multiples the call panics, see `C106_powell`). -/
theorem C67_powell (n : ℕ) (hn : 4 ≤ n ∧ n % 4 ≠ 0) :
    HasMinimum (fun n => 4 ≤ n ∧ n % 4 ≠ 0) powell (List.replicate n 0) 0 := by
  refine guarded_min (g := fun x => 0 + ((List.range' 1 (x.length / 4)).map fun i =>
    (x.getD (4 * i - 3) 0 + 10 * x.getD (4 * i - 2) 0) ^ 2 + 5 * (x.getD (4 * i - 1) 0 - x.getD (4 * i) 0) ^ 2
      + (x.getD (4 * i - 2) 0 - 2 * x.getD (4 * i - 1) 0) ^ 4
      + 10 * (x.getD (4 * i - 3) 0 - x.getD (4 * i) 0) ^ 4).sum) ?_ (by simpa using hn) ?_ ?_
  · intro x hx
    obtain ⟨hx1, hx2⟩ := hx
    have hx' : x.length > 3 := by omega
    rw [powell, require_ok hx', bind_ok']
    apply forLoop_add
    intro i hi acc
    have hi := List.mem_range'_1.1 hi
    rw [get_lt (by omega), bind_ok', get_lt (by omega), bind_ok', get_lt (by omega), bind_ok',
      get_lt (by omega), bind_ok']
    rfl
  · simp only [zero_add]
    refine sum_map_zero fun i hi => ?_
    have h0 : ∀ j, (List.replicate n (0 : ℝ)).getD j 0 = 0 := by
      intro j; simp [List.getD, List.getElem?_replicate]; split <;> rfl
    simp only [h0]; norm_num
  · intro x _; rw [zero_add]
    exact sum_map_nonneg fun i _ => by positivity

example : 4 ≤ 5 ∧ 5 % 4 ≠ 0 := by norm_num

example := C67_pathological 3 (by decide)
example := C67_powell2 8 (by decide)

end Ecrs.Props
