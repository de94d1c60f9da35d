import Verif.TestFunctions.Published
import Verif.TestFunctions.Lemmas
import Mathlib.Analysis.Real.Pi.Bounds
import Mathlib.Tactic.IntervalCases
import Mathlib.Algebra.BigOperators.Fin
import Mathlib.Algebra.BigOperators.Intervals

/-!
# C147: which benchmark functions are the published ones

`Verif/TestFunctions/Published.lean` writes the functions down as the literature defines them,
without looking at the code.  Here the crate's functions are compared with them at *every* point:
either the value is the published one everywhere (`C147_any_dimension`, `C147_plane`, …), or the
exact error is given (`C147_…_error`) together with a point where it is not zero.
-/

set_option linter.unusedSectionVars false
set_option linter.unusedVariables false
set_option linter.unusedTactic false
set_option linter.unreachableTactic false

namespace Ecrs.Props
open Ecrs Ecrs.TF Real

variable {n : ℕ}

/-- `f`, called with the coordinates `x 0, …, x (n-1)`, returns `v`. -/
def GivesAt (f : List ℝ → R) (x : Fin n → ℝ) (v : ℝ) : Prop := f (List.ofFn x) = .ok v

/-! ## From loops to sums -/

theorem sum_map_ofFn {α : Type} (t : α → ℝ) (x : Fin n → α) : ((List.ofFn x).map t).sum = ∑ i, t (x i) := by
  rw [List.map_ofFn, List.sum_ofFn]; rfl

theorem ofFn_zipIdx (x : Fin n → ℝ) : (List.ofFn x).zipIdx = List.ofFn fun i => (x i, (i : ℕ)) := by
  apply List.ext_getElem
  · simp
  · intro i h1 h2
    simp

theorem range_eq_ofFn (n : ℕ) : List.range n = List.ofFn fun i : Fin n => (i : ℕ) := by
  apply List.ext_getElem <;> simp

theorem range'_eq_ofFn (s n : ℕ) : List.range' s n = List.ofFn fun i : Fin n => s + (i : ℕ) := by
  apply List.ext_getElem <;> simp

theorem ofFn_ne_nil (hn : 0 < n) (x : Fin n → ℝ) : List.ofFn x ≠ [] := by
  intro h
  have := congrArg List.length h
  simp at this
  omega

theorem get_ofFn (x : Fin n → ℝ) (i : Fin n) : get (List.ofFn x) (i : ℕ) = .ok (x i) := by
  apply get_ok
  simp

theorem foldl_mul {α : Type} (t : α → ℝ) (l : List α) (c : ℝ) :
    l.foldl (fun acc a => acc * t a) c = c * (l.map t).prod := by
  induction l generalizing c with
  | nil => simp
  | cons a l ih => simp only [List.foldl_cons, ih, List.map_cons, List.prod_cons]; ring

theorem prod_map_ofFn {α : Type} (t : α → ℝ) (x : Fin n → α) :
    ((List.ofFn x).map t).prod = ∏ i, t (x i) := by
  rw [List.map_ofFn, List.prod_ofFn]; rfl

theorem foldl_sum (t : ℝ → ℝ) (x : Fin n → ℝ) (c : ℝ) :
    (List.ofFn x).foldl (fun acc a => acc + t a) c = c + ∑ i, t (x i) := by
  rw [foldl_add, sum_map_ofFn]

theorem foldl_sum_sub (t : ℝ → ℝ) (x : Fin n → ℝ) (c : ℝ) :
    (List.ofFn x).foldl (fun acc a => acc - t a) c = c - ∑ i, t (x i) := by
  rw [foldl_sub, sum_map_ofFn]

theorem foldl_sum_idx (t : ℝ × ℕ → ℝ) (x : Fin n → ℝ) (c : ℝ) :
    (List.ofFn x).zipIdx.foldl (fun acc a => acc + t a) c = c + ∑ i, t (x i, (i : ℕ)) := by
  rw [ofFn_zipIdx, foldl_add, sum_map_ofFn]

theorem foldl_sum_sub_idx (t : ℝ × ℕ → ℝ) (x : Fin n → ℝ) (c : ℝ) :
    (List.ofFn x).zipIdx.foldl (fun acc a => acc - t a) c = c - ∑ i, t (x i, (i : ℕ)) := by
  rw [ofFn_zipIdx, foldl_sub, sum_map_ofFn]

theorem foldl_prod_idx (t : ℝ × ℕ → ℝ) (x : Fin n → ℝ) (c : ℝ) :
    (List.ofFn x).zipIdx.foldl (fun acc a => acc * t a) c = c * ∏ i, t (x i, (i : ℕ)) := by
  rw [ofFn_zipIdx, foldl_mul, prod_map_ofFn]

theorem forLoop_range (n : ℕ) {body : ℝ → ℕ → R} {t : Fin n → ℝ} (c : ℝ)
    (h : ∀ (i : Fin n) (acc : ℝ), body acc i = .ok (acc + t i)) :
    forLoop (List.range n) c body = .ok (c + ∑ i, t i) := by
  classical
  rw [forLoop_add (t := fun i => if hi : i < n then t ⟨i, hi⟩ else 0) c, range_eq_ofFn, sum_map_ofFn]
  · congr 2
    refine Finset.sum_congr rfl fun i _ => ?_
    simp
  · intro i hi acc
    have hi : i < n := List.mem_range.1 hi
    rw [dif_pos hi]
    exact h ⟨i, hi⟩ acc

theorem forLoop_range' (s n : ℕ) {body : ℝ → ℕ → R} {t : Fin n → ℝ} (c : ℝ)
    (h : ∀ (i : Fin n) (acc : ℝ), body acc (s + i) = .ok (acc + t i)) :
    forLoop (List.range' s n) c body = .ok (c + ∑ i, t i) := by
  classical
  rw [forLoop_add (t := fun i => if hi : i - s < n then t ⟨i - s, hi⟩ else 0) c, range'_eq_ofFn, sum_map_ofFn]
  · congr 2
    refine Finset.sum_congr rfl fun i _ => ?_
    simp
  · intro i hi acc
    obtain ⟨h1, h2⟩ := List.mem_range'_1.1 hi
    have hi : i - s < n := by omega
    rw [dif_pos hi]
    have := h ⟨i - s, hi⟩ acc
    rwa [show s + ((⟨i - s, hi⟩ : Fin n) : ℕ) = i from by show s + (i - s) = i; omega] at this

/-! ## Functions of any number of coordinates that are the published ones -/

/-- **C147** In every dimension, at every point, these functions return exactly the value of the
published function of the same name. -/
theorem C147_any_dimension (x : Fin n → ℝ) :
    GivesAt alpine x (Published.alpine x) ∧ GivesAt chung_reynolds x (Published.chung_reynolds x) ∧
    GivesAt cosine_mixture x (Published.cosine_mixture x) ∧ GivesAt exponential x (Published.exponential x) ∧
    GivesAt quintic x (Published.quintic x) ∧ GivesAt schumer_steiglitz x (Published.schumer_steiglitz x) := by
  unfold GivesAt
  refine ⟨?_, ?_, ?_, ?_, ?_, ?_⟩
  · unfold alpine Published.alpine
    rw [foldl_sum fun a => |a * sin a + a / 10|, zero_add]
    show Except.ok _ = Except.ok _
    congr 1
    refine Finset.sum_congr rfl fun i _ => ?_
    congr 1; ring
  · unfold chung_reynolds Published.chung_reynolds
    simp only [foldl_sum fun a => a ^ 2, zero_add]; rfl
  · unfold cosine_mixture Published.cosine_mixture
    simp only [foldl_sum fun a => a ^ 2, foldl_sum fun a => cos (5 * π * a), zero_add]; rfl
  · unfold exponential Published.exponential
    simp only [foldl_sum fun a => a ^ 2, zero_add, neg_one_mul]; rfl
  · unfold quintic Published.quintic
    rw [foldl_sum fun a => |a ^ 5 - 3 * a ^ 4 + 4 * a ^ 3 + 2 * a ^ 2 - 10 * a - 4|, zero_add]; rfl
  · unfold schumer_steiglitz Published.schumer_steiglitz
    rw [foldl_sum fun a => a ^ 4, zero_add]; rfl

/-- **C147** The same for the functions that insist on at least one coordinate. -/
theorem C147_nonempty (hn : 0 < n) (x : Fin n → ℝ) :
    GivesAt ackley x (Published.ackley x) ∧ GivesAt griewank x (Published.griewank x) ∧
    GivesAt michalewicz x (Published.michalewicz x) ∧ GivesAt rastrigin x (Published.rastrigin x) ∧
    GivesAt schwefel x (Published.schwefel x) ∧ GivesAt sphere x (Published.sphere x) ∧
    GivesAt styblinski_tang x (Published.styblinski_tang x) ∧ GivesAt sum_squares x (Published.sum_squares x) ∧
    GivesAt xin_she_yang_2 x (Published.xin_she_yang_2 x) ∧ GivesAt zakharov x (Published.zakharov x) ∧
    GivesAt rotated_hyper_ellipsoid x (Published.rotated_hyper_ellipsoid x) := by
  have hx := ofFn_ne_nil hn x
  unfold GivesAt
  refine ⟨?_, ?_, ?_, ?_, ?_, ?_, ?_, ?_, ?_, ?_, ?_⟩
  · unfold ackley Published.ackley
    simp only [require_ok hx, bind_ok', foldl_sum fun a => a ^ 2, foldl_sum fun a => cos (2 * π * a), zero_add,
      List.length_ofFn]
    show Except.ok _ = Except.ok _
    rw [mul_comm (∑ i, x i ^ 2), mul_comm (∑ i, cos (2 * π * x i))]
  · unfold griewank Published.griewank Published.num
    simp only [require_ok hx, bind_ok', foldl_sum_idx fun p => p.1 ^ 2 / 4000,
      foldl_prod_idx fun p => cos (p.1 / sqrt ((p.2 + 1 : ℕ) : ℝ)), zero_add, one_mul]
    push_cast
    rfl
  · unfold michalewicz Published.michalewicz Published.num
    simp only [require_ok hx, bind_ok',
      foldl_sum_sub_idx fun p => sin p.1 * sin (((p.2 + 1 : ℕ) : ℝ) * p.1 ^ 2 / π) ^ 20, zero_sub]
    push_cast
    rfl
  · unfold rastrigin Published.rastrigin
    simp only [require_ok hx, bind_ok', foldl_sum fun a => a ^ 2 - 10 * cos (2 * π * a), zero_add, List.length_ofFn]
    show Except.ok _ = Except.ok _
    rw [add_comm]
  · unfold schwefel Published.schwefel
    simp only [require_ok hx, bind_ok', foldl_sum_sub fun a => a * sin (sqrt |a|), List.length_ofFn]
    rfl
  · unfold sphere Published.sphere
    simp only [require_ok hx, bind_ok', foldl_sum fun a => a ^ 2, zero_add]
    rfl
  · unfold styblinski_tang Published.styblinski_tang
    simp only [require_ok hx, bind_ok', foldl_sum fun a => a ^ 4 - 16 * a ^ 2 + 5 * a, zero_add]
    show Except.ok _ = Except.ok _
    congr 1; ring
  · unfold sum_squares Published.sum_squares Published.num
    simp only [require_ok hx, bind_ok', foldl_sum_idx fun p => ((p.2 + 1 : ℕ) : ℝ) * p.1 ^ 2, zero_add]
    push_cast
    rfl
  · unfold xin_she_yang_2 Published.xin_she_yang_2
    simp only [require_ok hx, bind_ok', foldl_sum fun a => |a|, foldl_sum fun a => sin (a ^ 2), zero_add]
    rfl
  · unfold zakharov Published.zakharov Published.num
    simp only [require_ok hx, bind_ok', foldl_sum_idx fun p => p.1 ^ 2,
      foldl_sum_idx fun p => 0.5 * ((p.2 + 1 : ℕ) : ℝ) * p.1, zero_add]
    push_cast
    rfl
  · unfold rotated_hyper_ellipsoid Published.rotated_hyper_ellipsoid
    simp only [require_ok hx, bind_ok', foldl_add fun a : ℝ => a ^ 2, List.length_ofFn]
    rw [foldl_add, range_eq_ofFn, sum_map_ofFn, zero_add]
    show Except.ok _ = Except.ok _
    congr 1
    refine Finset.sum_congr rfl fun i _ => ?_
    rw [show (List.ofFn x).take ((i : ℕ) + 1) = List.ofFn fun j : Fin ((i : ℕ) + 1) => x (Fin.castLE i.2 j) from ?_,
      sum_map_ofFn fun a : ℝ => a ^ 2]
    · refine (Finset.sum_bij (fun (j : Fin ((i : ℕ) + 1)) _ => Fin.castLE i.2 j) ?_ ?_ ?_ ?_)
      · intro j _
        simp only [Finset.mem_filter, Finset.mem_univ, true_and, Fin.le_def, Fin.val_castLE]
        omega
      · intro a _ b _ h
        exact Fin.castLE_injective _ h
      · intro b hb
        simp only [Finset.mem_filter, Finset.mem_univ, true_and, Fin.le_def] at hb
        exact ⟨⟨b, by omega⟩, Finset.mem_univ _, rfl⟩
      · intro j _; rfl
    · apply List.ext_getElem
      · simp
      · intro k h1 h2
        simp only [List.getElem_take, List.getElem_ofFn]
        rfl

/-- **C147** The same for the functions over consecutive coordinates. -/
theorem C147_chains (x : Fin (n + 1) → ℝ) :
    GivesAt brown x (Published.brown x) ∧ GivesAt levy x (Published.levy x) ∧
    (0 < n → GivesAt rosenbrock x (Published.rosenbrock x)) ∧ (0 < n → GivesAt trid x (Published.trid x)) := by
  have hx := ofFn_ne_nil (Nat.succ_pos n) x
  have hlen : (List.ofFn x).length = n + 1 := by simp
  have hget : ∀ i : Fin n, get (List.ofFn x) (i : ℕ) = .ok (x i.castSucc) := fun i => get_ofFn x i.castSucc
  have hget' : ∀ i : Fin n, get (List.ofFn x) ((i : ℕ) + 1) = .ok (x i.succ) := fun i => get_ofFn x i.succ
  have hu : usub (n + 1) 1 = .ok n := usub_ok (Nat.le_add_left 1 n)
  unfold GivesAt
  refine ⟨?_, ?_, fun hn => ?_, fun hn => ?_⟩
  · unfold brown Published.brown
    rw [hlen, hu, bind_ok', forLoop_range n (t := fun i : Fin n =>
      (x i.castSucc ^ 2) ^ (x i.succ ^ 2 + 1) + (x i.succ ^ 2) ^ (x i.castSucc ^ 2 + 1)) 0, zero_add]
    intro i acc
    rw [hget, bind_ok', hget', bind_ok', powf_ok (sq_nonneg _) (by positivity), bind_ok',
      powf_ok (sq_nonneg _) (by positivity), bind_ok']
    rfl
  · unfold levy Published.levy
    rw [require_ok hx, bind_ok', show get (List.ofFn x) 0 = .ok (x 0) from get_ofFn x 0, bind_ok', hlen, hu,
      bind_ok', show get (List.ofFn x) n = .ok (x (Fin.last n)) from get_ofFn x (Fin.last n), bind_ok']
    have htake : (List.ofFn x).take n = List.ofFn fun i : Fin n => x i.castSucc := by
      apply List.ext_getElem
      · simp
      · intro k h1 h2
        simp only [List.getElem_take, List.getElem_ofFn]
        rfl
    rw [htake, foldl_sum fun a => (1 + (a - 1) / 4 - 1) ^ 2 * (1 + 10 * sin (π * (1 + (a - 1) / 4) + 1) ^ 2)]
    rfl
  · unfold rosenbrock Published.rosenbrock
    rw [hlen, require_ok (by omega), bind_ok', hu, bind_ok', forLoop_range n (t := fun i : Fin n =>
      (100 * (x i.succ - x i.castSucc ^ 2) ^ 2 + (x i.castSucc - 1) ^ 2)) 0, zero_add]
    intro i acc
    rw [hget', bind_ok', hget, bind_ok']
    show Except.ok _ = Except.ok _
    congr 1; ring
  · unfold trid Published.trid
    rw [hlen, require_ok (by omega), bind_ok', show get (List.ofFn x) 0 = .ok (x 0) from get_ofFn x 0, bind_ok',
      Nat.add_sub_cancel, forLoop_range' 1 n (t := fun i : Fin n => (x i.succ - 1) ^ 2 - x i.succ * x i.castSucc) _]
    · rw [Fin.sum_univ_succ, Finset.sum_sub_distrib]
      congr 1; ring
    · intro i acc
      rw [Nat.add_comm 1 (i : ℕ), hget', bind_ok', Nat.add_sub_cancel, hget, bind_ok']
      rfl

/-! ## Functions of two coordinates -/

theorem sum_range'_Icc (t : ℕ → ℝ) (k : ℕ) : ((List.range' 1 k).map t).sum = ∑ i ∈ Finset.Icc 1 k, t i := by
  induction k with
  | zero => simp
  | succ k ih =>
    rw [List.range'_concat, List.map_append, List.sum_append, ih, Finset.sum_Icc_succ_top (by omega)]
    simp [Nat.add_comm]

/-- Compare two explicit formulas. -/
local macro "plane" : tactic => `(tactic| first
  | rfl
  | ring1
  | (ring_nf; done)
  | (simp only [neg_one_mul, neg_mul, one_mul]; ring_nf; done))

/-- **C147** At every point of the plane these functions return exactly the value of the published
function (`price2` is the `periodic` function again). -/
theorem C147_plane : ∀ p ∈ ([(adijman, Published.adjiman), (mcormick, Published.mccormick), (price2, Published.periodic),
      (ackley3, Published.ackley3), (beale, Published.beale), (bird, Published.bird),
      (bohachevsky_n1, Published.bohachevsky_n1), (bohachevsky_n2, Published.bohachevsky_n2),
      (bohachevsky_n3, Published.bohachevsky_n3), (booth, Published.booth), (brent, Published.brent),
      (bukin_2, Published.bukin_2), (bukin_4, Published.bukin_4), (bukin_n6, Published.bukin_n6),
      (three_hump_camel, Published.three_hump_camel), (chen_v, Published.chen_v),
      (chichinadze, Published.chichinadze), (cross_in_tray, Published.cross_in_tray), (cube, Published.cube),
      (drop_wave, Published.drop_wave), (easom, Published.easom), (eavd, Published.eavd),
      (egg_crate, Published.egg_crate), (eggholder, Published.eggholder),
      (freudenstein_roth, Published.freudenstein_roth), (goldstein_price, Published.goldstein_price),
      (himmelblau, Published.himmelblau), (holder_table, Published.holder_table),
      (holder_table2, Published.holder_table2), (hosaki, Published.hosaki),
      (jennrich_sampson, Published.jennrich_sampson), (levy_n13, Published.levy_n13), (leon, Published.leon),
      (matyas, Published.matyas), (parsopoulos, Published.parsopoulos), (periodic, Published.periodic),
      (price1, Published.price1), (price3, Published.price3), (price4, Published.price4),
      (rotated_ellipse, Published.rotated_ellipse), (rotated_ellipse2, Published.rotated_ellipse2),
      (schaffer_n2, Published.schaffer_n2), (schaffer_n3, Published.schaffer_n3),
      (schaffer_n4, Published.schaffer_n4), (shubert, Published.shubert), (trecanni, Published.trecanni),
      (ursem1, Published.ursem1), (ursem4, Published.ursem4), (trefethen, Published.trefethen),
      (wayburn_seader1, Published.wayburn_seader1), (wayburn_seader3, Published.wayburn_seader3),
      (zettl, Published.zettl), (zirilli, Published.zirilli)] :
      List ((List ℝ → R) × (ℝ → ℝ → ℝ))), ∀ x y : ℝ, p.1 [x, y] = .ok (p.2 x y) := by
  simp only [List.forall_mem_cons, List.not_mem_nil, false_imp_iff, implies_true, and_true]
  refine ⟨?_, ?_, ?_, ?_, ?_, ?_, ?_, ?_, ?_, ?_, ?_, ?_, ?_, ?_, ?_, ?_, ?_, ?_, ?_, ?_, ?_, ?_, ?_, ?_, ?_, ?_, ?_, ?_, ?_, ?_, ?_, ?_, ?_, ?_, ?_, ?_, ?_, ?_, ?_, ?_, ?_, ?_, ?_, ?_, ?_, ?_, ?_, ?_, ?_, ?_, ?_, ?_, ?_⟩
  · exact fun x y => by first | rfl | (exact congrArg Except.ok (by unfold Published.adjiman; plane))
  · exact fun x y => by first | rfl | (exact congrArg Except.ok (by unfold Published.mccormick; plane))
  · exact fun x y => by first | rfl | (exact congrArg Except.ok (by unfold Published.periodic; plane))
  · exact fun x y => by first | rfl | (exact congrArg Except.ok (by unfold Published.ackley3; plane))
  · exact fun x y => by first | rfl | (exact congrArg Except.ok (by unfold Published.beale; plane))
  · exact fun x y => by first | rfl | (exact congrArg Except.ok (by unfold Published.bird; plane))
  · exact fun x y => by first | rfl | (exact congrArg Except.ok (by unfold Published.bohachevsky_n1; plane))
  · exact fun x y => by first | rfl | (exact congrArg Except.ok (by unfold Published.bohachevsky_n2; plane))
  · exact fun x y => by first | rfl | (exact congrArg Except.ok (by unfold Published.bohachevsky_n3; plane))
  · exact fun x y => by first | rfl | (exact congrArg Except.ok (by unfold Published.booth; plane))
  · exact fun x y => by first | rfl | (exact congrArg Except.ok (by unfold Published.brent; plane))
  · exact fun x y => by first | rfl | (exact congrArg Except.ok (by unfold Published.bukin_2; plane))
  · exact fun x y => by first | rfl | (exact congrArg Except.ok (by unfold Published.bukin_4; plane))
  · exact fun x y => by first | rfl | (exact congrArg Except.ok (by unfold Published.bukin_n6; plane))
  · exact fun x y => by first | rfl | (exact congrArg Except.ok (by unfold Published.three_hump_camel; plane))
  · exact fun x y => by first | rfl | (exact congrArg Except.ok (by unfold Published.chen_v Published.chenWell; plane))
  · exact fun x y => congrArg Except.ok (by unfold Published.chichinadze; norm_num)
  · exact fun x y => by first | rfl | (exact congrArg Except.ok (by unfold Published.cross_in_tray; plane))
  · exact fun x y => by first | rfl | (exact congrArg Except.ok (by unfold Published.cube; plane))
  · exact fun x y => by first | rfl | (exact congrArg Except.ok (by unfold Published.drop_wave; plane))
  · exact fun x y => by first | rfl | (exact congrArg Except.ok (by unfold Published.easom; plane))
  · exact fun x y => by first | rfl | (exact congrArg Except.ok (by unfold Published.eavd; plane))
  · exact fun x y => by first | rfl | (exact congrArg Except.ok (by unfold Published.egg_crate; plane))
  · exact fun x y => by first | rfl | (exact congrArg Except.ok (by unfold Published.eggholder; plane))
  · exact fun x y => by first | rfl | (exact congrArg Except.ok (by unfold Published.freudenstein_roth; plane))
  · exact fun x y => by first | rfl | (exact congrArg Except.ok (by unfold Published.goldstein_price; plane))
  · exact fun x y => by first | rfl | (exact congrArg Except.ok (by unfold Published.himmelblau; plane))
  · exact fun x y => congrArg Except.ok (by unfold Published.holder_table Published.ridge; ring1)
  · exact fun x y => congrArg Except.ok (by unfold Published.holder_table2 Published.ridge; ring1)
  · exact fun x y => by first | rfl | (exact congrArg Except.ok (by unfold Published.hosaki; plane))
  · exact fun x y => congrArg Except.ok (by
      unfold Published.jennrich_sampson
      rw [foldl_add, sum_range'_Icc, zero_add])
  · exact fun x y => by first | rfl | (exact congrArg Except.ok (by unfold Published.levy_n13; plane))
  · exact fun x y => by first | rfl | (exact congrArg Except.ok (by unfold Published.leon; plane))
  · exact fun x y => by first | rfl | (exact congrArg Except.ok (by unfold Published.matyas; plane))
  · exact fun x y => by first | rfl | (exact congrArg Except.ok (by unfold Published.parsopoulos; plane))
  · exact fun x y => by first | rfl | (exact congrArg Except.ok (by unfold Published.periodic; plane))
  · exact fun x y => by first | rfl | (exact congrArg Except.ok (by unfold Published.price1; plane))
  · exact fun x y => by first | rfl | (exact congrArg Except.ok (by unfold Published.price3; plane))
  · exact fun x y => by first | rfl | (exact congrArg Except.ok (by unfold Published.price4; plane))
  · exact fun x y => by first | rfl | (exact congrArg Except.ok (by unfold Published.rotated_ellipse; plane))
  · exact fun x y => by first | rfl | (exact congrArg Except.ok (by unfold Published.rotated_ellipse2; plane))
  · exact fun x y => by first | rfl | (exact congrArg Except.ok (by unfold Published.schaffer_n2; plane))
  · exact fun x y => by first | rfl | (exact congrArg Except.ok (by unfold Published.schaffer_n3; plane))
  · exact fun x y => by first | rfl | (exact congrArg Except.ok (by unfold Published.schaffer_n4; plane))
  · exact fun x y => congrArg Except.ok (by
      unfold Published.shubert Published.shubertFactor
      simp only [foldl_add, sum_range'_Icc, zero_add]
      push_cast; rfl)
  · exact fun x y => by first | rfl | (exact congrArg Except.ok (by unfold Published.trecanni; plane))
  · exact fun x y => by first | rfl | (exact congrArg Except.ok (by unfold Published.ursem1; plane))
  · exact fun x y => by first | rfl | (exact congrArg Except.ok (by unfold Published.ursem4; plane))
  · exact fun x y => by first | rfl | (exact congrArg Except.ok (by unfold Published.trefethen; plane))
  · exact fun x y => by first | rfl | (exact congrArg Except.ok (by unfold Published.wayburn_seader1; plane))
  · exact fun x y => by first | rfl | (exact congrArg Except.ok (by unfold Published.wayburn_seader3; plane))
  · exact fun x y => by first | rfl | (exact congrArg Except.ok (by unfold Published.zettl; plane))
  · exact fun x y => by first | rfl | (exact congrArg Except.ok (by unfold Published.zirilli; plane))

/-- **C147** Agreement of the functions of one, three, four and five coordinates.  `branin` takes
its six constants as arguments; `bartels_conn` wants a third coordinate, which it ignores. -/
theorem C147_other_dimensions :
    (∀ x, forrester_et_al x = Published.forrester_et_al x) ∧
    (∀ x y z : ℝ, bartels_conn [x, y, z] = .ok (Published.bartels_conn x y)) ∧
    (∀ a b c d : ℝ, colville [a, b, c, d] = .ok (Published.colville a b c d)) ∧
    (∀ a b c d : ℝ, miele_cantrell [a, b, c, d] = .ok (Published.miele_cantrell a b c d)) ∧
    (∀ a b c d e : ℝ, dolan [a, b, c, d, e] = .ok (Published.dolan a b c d e)) ∧
    ∀ a b c r s t x y : ℝ, branin [x, y] a b c r s t = .ok (Published.branin a b c r s t x y) := by
  refine ⟨fun x => rfl, fun x y z => rfl, fun a b c d => rfl, fun a b c d => ?_, fun a b c d e => rfl,
    fun a b c r s t x y => rfl⟩
  exact congrArg Except.ok (by unfold Published.miele_cantrell; rw [neg_one_mul])

/-- **C147** Agreement wherever the published formula makes sense. -/
theorem C147_where_defined :
    (∀ x y : ℝ, (x ≠ 0 ∨ y ≠ 0) → keane [x, y] = .ok (Published.keane x y)) ∧
    ∀ x : Fin n → ℝ, (∀ i, x i ≠ 0) → GivesAt csendes x (Published.csendes x) := by
  refine ⟨fun x y h => ?_, fun x h => ?_⟩
  · have hpos : 0 < x ^ 2 + y ^ 2 := by
      rcases h with h | h
      · have := sq_pos_of_ne_zero h; have := sq_nonneg y; linarith
      · have := sq_pos_of_ne_zero h; have := sq_nonneg x; linarith
    exact fdiv_ok (Real.sqrt_pos.2 hpos).ne'
  · unfold GivesAt csendes Published.csendes
    rw [forLoop_add (t := fun a => a ^ 6 * (2 + sin (1 / a))) 0, sum_map_ofFn, zero_add]
    intro a ha acc
    obtain ⟨i, rfl⟩ := (List.mem_ofFn' x a).1 ha
    rw [fdiv_ok (h i), bind_ok']
    rfl

/-! ## Functions that are not the published ones: the exact error -/

/-- **C147** Polynomial and exponential functions of the plane: the value is the published one plus
the stated error. -/
theorem C147_plane_errors (x y : ℝ) :
    six_hump_camel [x, y] = .ok (Published.six_hump_camel x y + (x ^ 5 - x ^ 6) / 3) ∧
    quadratic [x, y] = .ok (Published.quadratic x y - 180 * y ^ 2) ∧
    deckkers_aarts [x, y] = .ok (Published.deckkers_aarts x y - 1 / 10 ^ 5 * (x ^ 2 + y ^ 2) ^ 4) ∧
    wayburn_seader2 [x, y] = .ok (Published.wayburn_seader2 x y + (x - 2) ^ 2 - (y - 1) ^ 2) ∧
    (y ≠ 0 → rump [x, y] = .ok (Published.rump x y + x / 2 * (y - 1 / y))) ∧
    chen_bird [x, y] = .ok (Published.chen_bird x y
      + Published.chenWell (x - 0.4 * y - 0.1) - Published.chenWell (x - 0.4 * y + 0.1)) ∧
    rosenbrock_modified [x, y] = .ok (Published.rosenbrock_modified x y + (1 - y) ^ 2 - (1 - x) ^ 2
      + 400 * (exp (-((x + 1) ^ 2 + (y + 1) ^ 2) / 0.1) - exp (-(x + 1) ^ 2 + (y + 1) ^ 2 / 0.1))) ∧
    ursem_waves [x, y] = .ok (Published.ursem_waves x y
      + 4.7 * cos (3 * x - y ^ 2 * (2 + x)) * (1 - sin (2.5 * π * x))) ∧
    ursem3 [x, y] = .ok (Published.ursem3 x y
      - sin (2.2 * π * x + 0.5 * π) * (4.5 - 1.25 * |x|) - sin (2.2 * π * y + 0.5 * π) * (4.5 - 1.25 * |y|)) ∧
    testtube_holder [x, y] = .ok (Published.testtube_holder x y
      - 4 * sin x * cos y * (exp |cos (x ^ 2 + y ^ 2) / 200| - exp |cos ((x ^ 2 + y ^ 2) / 200)|)) := by
  have h25 : sin (2.5 * π) = 1 := by
    rw [show (2.5 : ℝ) * π = π / 2 + 2 * π from by ring, sin_add_two_pi, sin_pi_div_two]
  refine ⟨congrArg Except.ok ?_, congrArg Except.ok ?_, congrArg Except.ok ?_, congrArg Except.ok ?_,
    fun hy => congrArg Except.ok ?_, congrArg Except.ok ?_, congrArg Except.ok ?_, congrArg Except.ok ?_,
    congrArg Except.ok ?_, congrArg Except.ok ?_⟩
  · unfold Published.six_hump_camel; ring
  · unfold Published.quadratic; ring
  · unfold Published.deckkers_aarts
    rw [show ((1 / 100000 : ℕ) : ℝ) = 0 from by norm_num]; ring
  · unfold Published.wayburn_seader2; ring
  · unfold Published.rump; field_simp; ring
  · unfold Published.chen_bird Published.chenWell; ring
  · unfold Published.rosenbrock_modified; rw [neg_one_mul]; ring
  · unfold Published.ursem_waves; rw [h25]; ring
  · unfold Published.ursem3 Published.ursem3Term; ring
  · unfold Published.testtube_holder; ring

/-- **C147** None of these errors vanishes everywhere: points where the code's value is not the
published one. -/
theorem C147_plane_errors_matter :
    six_hump_camel [2, 0] ≠ .ok (Published.six_hump_camel 2 0) ∧
    quadratic [0, 1] ≠ .ok (Published.quadratic 0 1) ∧
    deckkers_aarts [0, 15] ≠ .ok (Published.deckkers_aarts 0 15) ∧
    wayburn_seader2 [0, 0] ≠ .ok (Published.wayburn_seader2 0 0) ∧
    rump [1, 2] ≠ .ok (Published.rump 1 2) ∧
    chen_bird [0.1, 0] ≠ .ok (Published.chen_bird 0.1 0) ∧
    rosenbrock_modified [-1, 1] ≠ .ok (Published.rosenbrock_modified (-1) 1) ∧
    ursem_waves [0, 0] ≠ .ok (Published.ursem_waves 0 0) ∧
    ursem3 [0, 0] ≠ .ok (Published.ursem3 0 0) ∧
    testtube_holder [π / 2, 0] ≠ .ok (Published.testtube_holder (π / 2) 0) := by
  have key : ∀ {r : R} {a e : ℝ}, r = .ok (a + e) → e ≠ 0 → r ≠ .ok a := by
    intro r a e h he h'
    rw [h] at h'
    have := Except.ok.inj h'
    exact he (by linarith)
  obtain ⟨h1, -⟩ := C147_plane_errors 2 0
  obtain ⟨-, h2, -⟩ := C147_plane_errors 0 1
  obtain ⟨-, -, h3, -⟩ := C147_plane_errors 0 15
  obtain ⟨-, -, -, h4, -⟩ := C147_plane_errors 0 0
  obtain ⟨-, -, -, -, h5, -⟩ := C147_plane_errors 1 2
  obtain ⟨-, -, -, -, -, h6, -⟩ := C147_plane_errors 0.1 0
  obtain ⟨-, -, -, -, -, -, h7, -⟩ := C147_plane_errors (-1) 1
  obtain ⟨-, -, -, -, -, -, -, h8, h9, -⟩ := C147_plane_errors 0 0
  obtain ⟨-, -, -, -, -, -, -, -, -, h10⟩ := C147_plane_errors (π / 2) 0
  refine ⟨key h1 (by norm_num), ?_, ?_, ?_, key (h5 (by norm_num)) (by norm_num), ?_, ?_, ?_, ?_, ?_⟩
  · rw [sub_eq_add_neg] at h2; exact key h2 (by norm_num)
  · rw [sub_eq_add_neg] at h3; exact key h3 (by norm_num)
  · rw [add_sub_assoc] at h4; exact key h4 (by norm_num)
  · rw [add_sub_assoc] at h6
    refine key h6 ?_
    unfold Published.chenWell; norm_num
  · rw [show ∀ a b c d : ℝ, a + b - c + d = a + (b - c + d) from fun a b c d => by ring] at h7
    refine key h7 ?_
    have e1 : exp (-40 : ℝ) ≤ 1 := exp_le_one_iff.2 (by norm_num)
    have e2 : (40 : ℝ) + 1 ≤ exp 40 := add_one_le_exp 40
    intro h
    norm_num at h
    linarith
  · exact key h8 (by norm_num)
  · rw [sub_sub, sub_eq_add_neg] at h9
    refine key h9 ?_
    rw [show 2.2 * π * 0 + 0.5 * π = π / 2 from by ring, sin_pi_div_two]
    norm_num
  · rw [sub_eq_add_neg] at h10
    refine key h10 ?_
    rw [sin_pi_div_two, cos_zero]
    have hq : (π / 2) ^ 2 + 0 ^ 2 ≤ 4 := by
      have := pi_le_four; have := pi_pos; nlinarith
    have hq0 : 0 ≤ (π / 2) ^ 2 + 0 ^ 2 := by positivity
    generalize (π / 2) ^ 2 + 0 ^ 2 = q at hq hq0
    have h1 : |cos q / 200| ≤ 1 / 200 := by
      rw [abs_div, abs_of_pos (by norm_num : (0 : ℝ) < 200)]
      exact div_le_div_of_nonneg_right (abs_cos_le_one q) (by norm_num)
    have h2 : 1 / 2 ≤ |cos (q / 200)| := by
      have := one_sub_sq_div_two_le_cos (x := q / 200)
      refine le_trans ?_ (le_abs_self _)
      nlinarith
    have := exp_lt_exp.2 (show |cos q / 200| < |cos (q / 200)| from by linarith)
    intro h
    linarith

/-- **C147** `branin_rcos` and `branin_default` are Branin functions, but with the constants
`b = 5.1 π² / 4` and `t = π / 8` instead of `5.1 / (4 π²)` and `1 / (8 π)`. -/
theorem C147_branin_constants (x y : ℝ) :
    (branin_rcos [x, y] = .ok (Published.branin 1 (5.1 * π ^ 2 / 4) (5 / π) 6 10 (π / 8) x y) ∧
      branin_default [x, y] = .ok (Published.branin 1 (5.1 * π ^ 2 / 4) (5 / π) 6 10 (π / 8) x y)) ∧
    branin_rcos2 [x, y] = .ok ((y - 5.1 * π ^ 2 / 4 * x ^ 2 + 5 / π * x - 6) ^ 2
      + 10 * (1 - π / 8) * cos x * cos y * log (x ^ 2 + y ^ 2 + 1) + 10) ∧
    ∃ v, branin_default [0, 6] = .ok v ∧ v < Published.branin_rcos 0 6 := by
  refine ⟨⟨congrArg Except.ok ?_, congrArg Except.ok ?_⟩, congrArg Except.ok ?_, _, rfl, ?_⟩
  · unfold Published.branin; ring
  · unfold Published.branin; ring
  · ring
  · unfold Published.branin_rcos Published.branin
    rw [cos_zero]
    have hpi := pi_gt_three
    have : 1 / (8 * π) < 1 / 8 * π := by
      rw [div_lt_iff₀ (by positivity)]
      nlinarith
    norm_num
    rw [show π⁻¹ * (1 / 8) = 1 / (8 * π) from by field_simp]
    linarith

/-- **C147** `wolfe` uses the factor `1` instead of `4/3`, `schmidt_vetters` divides by `2` instead
of by the second coordinate. -/
theorem C147_space_errors (x y z : ℝ) :
    wolfe [x, y, z] = .ok (Published.wolfe x y z - 1 / 3 * (x ^ 2 + y ^ 2 - x * y) ^ (0.75 : ℝ)) ∧
    schmidt_vetters [x, y, z] = .ok (Published.schmidt_vetters x y z
      + exp (((x + y) / 2 - 2) ^ 2) - exp (((x + y) / y - 2) ^ 2)) ∧
    wolfe [1, 0, 0] ≠ .ok (Published.wolfe 1 0 0) ∧
    schmidt_vetters [1, 1, 1] ≠ .ok (Published.schmidt_vetters 1 1 1) := by
  have hw : ∀ x y z : ℝ, wolfe [x, y, z] =
      .ok (Published.wolfe x y z - 1 / 3 * (x ^ 2 + y ^ 2 - x * y) ^ (0.75 : ℝ)) := by
    intro x y z
    show (powf (x ^ 2 + y ^ 2 - x * y) 0.75 >>= fun p => pure (((4 / 3 : ℕ) : ℝ) * p + z)) = _
    rw [powf_ok (by nlinarith [sq_nonneg (x - y), sq_nonneg x, sq_nonneg y]) (by norm_num), bind_ok']
    refine congrArg Except.ok ?_
    unfold Published.wolfe
    rw [show ((4 / 3 : ℕ) : ℝ) = 1 from by norm_num]; ring
  have hs : ∀ x y z : ℝ, schmidt_vetters [x, y, z] = .ok (Published.schmidt_vetters x y z
      + exp (((x + y) / 2 - 2) ^ 2) - exp (((x + y) / y - 2) ^ 2)) := fun x y z =>
    congrArg Except.ok (by unfold Published.schmidt_vetters; ring)
  refine ⟨hw x y z, hs x y z, ?_, ?_⟩
  · rw [hw]
    intro h
    have := Except.ok.inj h
    norm_num at this
  · rw [hs]
    intro h
    have := Except.ok.inj h
    norm_num at this
    have h1 : (1 : ℝ) + 1 ≤ exp 1 := add_one_le_exp 1
    linarith

/-- **C147** `gramacy_lee` multiplies by the coordinate where the published function divides by it,
`schaffer_n1` lacks two squares. -/
theorem C147_more_errors :
    (∀ x : ℝ, x ≠ 0 → gramacy_lee x = Published.gramacy_lee x + sin (10 * π * x) / 2 * (x - 1 / x)) ∧
    (∀ x y : ℝ, schaffer_n1 [x, y] = .ok (0.5 + (sin (x ^ 2 + y ^ 2) ^ 2 - 0.5) / (1 + 0.001 * (x ^ 2 + y ^ 2)))) ∧
    (gramacy_lee (1 / 20) ≠ Published.gramacy_lee (1 / 20)) ∧
    schaffer_n1 [sqrt (sqrt π), 0] ≠ .ok (Published.schaffer_n1 (sqrt (sqrt π)) 0) := by
  have hg : ∀ x : ℝ, x ≠ 0 → gramacy_lee x = Published.gramacy_lee x + sin (10 * π * x) / 2 * (x - 1 / x) := by
    intro x hx
    unfold gramacy_lee Published.gramacy_lee
    field_simp
    ring
  refine ⟨hg, fun x y => rfl, ?_, ?_⟩
  · rw [hg _ (by norm_num), show 10 * π * (1 / 20) = π / 2 from by ring, sin_pi_div_two]
    norm_num
  · intro h
    have h := Except.ok.inj h
    unfold Published.schaffer_n1 at h
    have e1 : sqrt (sqrt π) ^ 2 + 0 ^ 2 = sqrt π := by
      rw [Real.sq_sqrt (Real.sqrt_nonneg _)]; ring
    rw [e1, Real.sq_sqrt pi_pos.le, sin_pi] at h
    have hs1 : (1.7 : ℝ) < sqrt π := by
      apply Real.lt_sqrt_of_sq_lt
      have := pi_gt_three
      norm_num; linarith
    have hs2 : sqrt π < 2 := by
      rw [Real.sqrt_lt' (by norm_num)]
      have := pi_lt_d2
      linarith
    have hsin : 0.25 < sin (sqrt π) ^ 2 := by
      have h1 : sin (sqrt π) = sin (π - sqrt π) := (sin_pi_sub _).symm
      have h2 : π / 2 - (π - sqrt π) ≤ 0.5 := by have := pi_gt_d2; linarith
      have : cos (π / 2 - (π - sqrt π)) = sin (π - sqrt π) := cos_pi_div_two_sub _
      have h3 : -0.5 ≤ π / 2 - (π - sqrt π) := by have := pi_lt_d2; linarith
      have h4 := one_sub_sq_div_two_le_cos (x := π / 2 - (π - sqrt π))
      rw [h1, ← this]
      have h5 : (π / 2 - (π - sqrt π)) ^ 2 ≤ 0.25 := by nlinarith
      have h6 : 0.8 ≤ cos (π / 2 - (π - sqrt π)) := by linarith
      nlinarith
    have hd1 : (0 : ℝ) < 1 + 0.001 * sqrt π := by linarith
    have hd2 : (0 : ℝ) < 1 + 0.001 * π := by have := pi_pos; linarith
    have h := add_left_cancel h
    rw [div_eq_div_iff hd1.ne' hd2.ne'] at h
    have := pi_lt_d2
    have := pi_gt_three
    nlinarith

/-! ## Functions of any number of coordinates that are not the published ones -/

/-- **C147** The exact error of the functions of any number of coordinates: `salomon` takes the
cosine of the squared norm, `powell_sum` and `sum_of_powers` use the exponents `1, …, n` instead of
`2, …, n + 1`, `qing` compares every square with one constant instead of with `1, …, n`. -/
theorem C147_sum_errors (x : Fin n → ℝ) (c : ℝ) :
    GivesAt salomon x (Published.salomon x + cos (2 * π * sqrt (∑ i, x i ^ 2)) - cos (2 * π * ∑ i, x i ^ 2)) ∧
    GivesAt powell_sum x (∑ i : Fin n, |x i| ^ ((i : ℕ) + 1)) ∧
    (0 < n → GivesAt sum_of_powers x (∑ i : Fin n, |x i| ^ ((i : ℕ) + 1))) ∧
    GivesAt (fun l => qing l c) x (∑ i, (x i ^ 2 - c) ^ 2) := by
  unfold GivesAt
  refine ⟨?_, ?_, fun hn => ?_, ?_⟩
  · unfold salomon Published.salomon
    simp only [foldl_sum fun a => a ^ 2, zero_add]
    exact congrArg Except.ok (by ring)
  · unfold powell_sum
    rw [foldl_sum_idx fun p => |p.1| ^ (p.2 + 1), zero_add]
    rfl
  · unfold sum_of_powers
    rw [require_ok (ofFn_ne_nil hn x), bind_ok', foldl_sum_idx fun p => |p.1| ^ (p.2 + 1), zero_add]
    rfl
  · show qing (List.ofFn x) c = _
    unfold qing
    rw [foldl_sum fun a => (a ^ 2 - c) ^ 2, zero_add]
    rfl

/-- **C147** Points where these functions do not have the published value; for `qing`, whatever the
constant. -/
theorem C147_sum_errors_matter :
    (∃ v, salomon [sqrt (1 / 2)] = .ok v ∧ v ≠ Published.salomon (n := 1) fun _ => sqrt (1 / 2)) ∧
    (∃ v, powell_sum [1 / 2] = .ok v ∧ v ≠ Published.powell_sum (n := 1) fun _ => 1 / 2) ∧
    (∃ v, sum_of_powers [1 / 2] = .ok v ∧ v ≠ Published.powell_sum (n := 1) fun _ => 1 / 2) ∧
    ∀ c : ℝ, ∃ x : Fin 2 → ℝ, ∃ v, qing (List.ofFn x) c = .ok v ∧ v ≠ Published.qing x := by
  refine ⟨⟨_, (C147_sum_errors (n := 1) (fun _ => sqrt (1 / 2)) 0).1, ?_⟩,
    ⟨_, (C147_sum_errors (n := 1) (fun _ => 1 / 2) 0).2.1, ?_⟩,
    ⟨_, (C147_sum_errors (n := 1) (fun _ => 1 / 2) 0).2.2.1 one_pos, ?_⟩, fun c => ?_⟩
  · rw [Fin.sum_univ_one, Real.sq_sqrt (by norm_num), show 2 * π * (1 / 2) = π from by ring, cos_pi]
    intro h
    have h1 : cos (2 * π * sqrt (1 / 2)) = -1 := by linarith
    have h2 : sin (2 * π * sqrt (1 / 2)) = 0 := by
      have := sin_sq_add_cos_sq (2 * π * sqrt (1 / 2))
      rw [h1] at this
      nlinarith
    -- the angle lies strictly between `π` and `2 π`, where the sine is negative
    have hs : (1 : ℝ) / 2 < sqrt (1 / 2) := Real.lt_sqrt_of_sq_lt (by norm_num)
    have hs' : sqrt (1 / 2) < 1 := by rw [Real.sqrt_lt' one_pos]; norm_num
    have h3 := sin_pos_of_pos_of_lt_pi (x := 2 * π * sqrt (1 / 2) - π) (by have := pi_pos; nlinarith)
      (by have := pi_pos; nlinarith)
    rw [sin_sub_pi, h2] at h3
    simp at h3
  · unfold Published.powell_sum
    rw [Fin.sum_univ_one, Fin.sum_univ_one, abs_of_pos (by norm_num : (0 : ℝ) < 1 / 2)]
    norm_num
  · unfold Published.powell_sum
    rw [Fin.sum_univ_one, Fin.sum_univ_one, abs_of_pos (by norm_num : (0 : ℝ) < 1 / 2)]
    norm_num
  · by_contra hall
    push Not at hall
    have e1 := hall ![0, 0] _ (C147_sum_errors ![0, 0] c).2.2.2
    have e2 := hall ![1, 0] _ (C147_sum_errors ![1, 0] c).2.2.2
    have e3 := hall ![0, 1] _ (C147_sum_errors ![0, 1] c).2.2.2
    simp only [Published.qing, Published.num, Fin.sum_univ_two, Matrix.cons_val_zero, Matrix.cons_val_one,
      Fin.val_zero, Fin.val_one] at e1 e2 e3
    norm_num at e1 e2 e3
    nlinarith

/-- **C147** `deb1` and `deb3` divide by `n - 1` instead of `n`. -/
theorem C147_deb_errors (x : Fin n → ℝ) (hn : 2 ≤ n) :
    GivesAt deb1 x (n / (n - 1) * Published.deb1 x) ∧
    ((∀ i, 0 ≤ x i) → GivesAt deb3 x (n / (n - 1) * Published.deb3 x)) := by
  have hn0 : (n : ℝ) ≠ 0 := by positivity
  have hn1 : ((n - 1 : ℕ) : ℝ) ≠ 0 := by
    have : 0 < n - 1 := by omega
    positivity
  have hc : ((n - 1 : ℕ) : ℝ) = n - 1 := by push_cast [Nat.cast_sub (show 1 ≤ n by omega)]; rfl
  unfold GivesAt
  refine ⟨?_, fun hx => ?_⟩
  · unfold deb1 Published.deb1
    simp only [foldl_sum fun a => sin (5 * π * a) ^ 6, zero_add, List.length_ofFn]
    rw [usub_ok (by omega), bind_ok', fdiv_ok hn1, bind_ok', hc]
    refine congrArg Except.ok ?_
    rw [hc] at hn1
    field_simp
  · unfold deb3 Published.deb3
    rw [forLoop_add (t := fun a => sin (5 * π * (a ^ (0.75 : ℝ) - 0.05)) ^ 6) 0, bind_ok', sum_map_ofFn]
    · simp only [zero_add, List.length_ofFn]
      rw [usub_ok (by omega), bind_ok', fdiv_ok hn1, bind_ok', hc]
      refine congrArg Except.ok ?_
      rw [hc] at hn1
      rw [show (3 / 4 : ℝ) = 0.75 from by norm_num]
      field_simp
    · intro a ha acc
      obtain ⟨i, rfl⟩ := (List.mem_ofFn' x a).1 ha
      rw [powf_ok (hx i) (by norm_num), bind_ok']
      rfl

/-- **C147** `dixon_price` numbers its terms from `1` instead of `2`, `trigonometric1` from `0`
instead of `1`, and `trigonometric2` also adds the cosines of all coordinates. -/
theorem C147_numbering_errors (x : Fin (n + 1) → ℝ) (hn : 0 < n) :
    GivesAt dixon_price x
      (Published.dixon_price x - ∑ i : Fin n, (2 * x i.succ ^ 2 - x i.castSucc) ^ 2) ∧
    GivesAt trigonometric1 x (∑ i : Fin (n + 1), ((n + 1 : ℕ) - ∑ j, cos (x j)
      + (Published.num i - 1) * (1 - cos (x i) - sin (x i))) ^ 2) ∧
    GivesAt trigonometric2 x (Published.trigonometric2 x + ∑ i, cos (x i)) := by
  have hlen : (List.ofFn x).length = n + 1 := by simp
  have h0 : get (List.ofFn x) 0 = .ok (x 0) := get_ofFn x 0
  unfold GivesAt
  refine ⟨?_, ?_, ?_⟩
  · unfold dixon_price Published.dixon_price Published.num
    rw [hlen, require_ok (by omega), bind_ok', h0, bind_ok', Nat.add_sub_cancel,
      forLoop_range' 1 n (t := fun i : Fin n => ((1 + (i : ℕ) : ℕ) : ℝ) * (2 * x i.succ ^ 2 - x i.castSucc) ^ 2) _]
    · refine congrArg Except.ok ?_
      rw [add_sub_assoc, ← Finset.sum_sub_distrib]
      congr 1
      refine Finset.sum_congr rfl fun i _ => ?_
      rw [Fin.val_succ]; push_cast; ring
    · intro i acc
      rw [Nat.add_comm 1 (i : ℕ), show get (List.ofFn x) ((i : ℕ) + 1) = .ok (x i.succ) from get_ofFn x i.succ,
        bind_ok', Nat.add_sub_cancel,
        show get (List.ofFn x) (i : ℕ) = .ok (x i.castSucc) from get_ofFn x i.castSucc, bind_ok']
      rfl
  · unfold trigonometric1 Published.num
    simp only [hlen, foldl_sum fun a => cos a, zero_add]
    rw [require_ok (by omega), bind_ok', foldl_sum_idx fun p => ((n + 1 : ℕ) - ∑ i, cos (x i)
      + (p.2 : ℝ) * (1 - cos p.1 - sin p.1)) ^ 2, zero_add]
    refine congrArg Except.ok ?_
    simp only [add_sub_cancel_right]
  · unfold trigonometric2 Published.trigonometric2
    simp only [hlen, foldl_sum fun a => cos a, zero_add]
    rw [require_ok (by omega), bind_ok', h0, bind_ok', foldl_sum fun a => 8 * sin (7 * (a - 0.9) ^ 2) ^ 2
      + 6 * sin (14 * (x 0 - 0.9) ^ 2) ^ 2 + (a - 0.9) ^ 2]
    exact congrArg Except.ok (by ring)

/-- **C147** `pathological` leaves out the first and the last pair of consecutive coordinates,
`power_sum` numbers the powers from `0` instead of `1`. -/
theorem C147_window_errors (x : Fin (n + 3) → ℝ) (y b : Fin n → ℝ) :
    GivesAt pathological x (Published.pathological x
      - Published.pathologicalTerm (x 0) (x 1)
      - Published.pathologicalTerm (x (Fin.last (n + 1)).castSucc) (x (Fin.last (n + 2)))) ∧
    power_sum (List.ofFn y) (List.ofFn b) = .ok (∑ k : Fin n, (∑ i, y i ^ (k : ℕ) - b k) ^ 2) := by
  unfold GivesAt
  refine ⟨?_, ?_⟩
  · unfold pathological Published.pathological
    rw [show (List.ofFn x).length = n + 3 from by simp, usub_ok (by omega), bind_ok',
      show n + 3 - 2 - 1 = n from by omega,
      forLoop_range' 1 n (t := fun i : Fin n =>
        Published.pathologicalTerm (x i.castSucc.succ.castSucc) (x i.castSucc.succ.succ)) 0]
    · refine congrArg Except.ok ?_
      rw [Fin.sum_univ_castSucc (n := n + 1), Fin.sum_univ_succ (n := n)]
      have e : ∀ i : Fin n, x (Fin.castSucc i.succ).castSucc = x i.castSucc.succ.castSucc ∧
          x (Fin.castSucc i.succ).succ = x i.castSucc.succ.succ := fun i => ⟨rfl, rfl⟩
      simp only [zero_add]
      have e0 : x (Fin.castSucc (Fin.castSucc (0 : Fin (n + 1)))) = x 0 := rfl
      have e1 : x (Fin.castSucc (0 : Fin (n + 1))).succ = x 1 := rfl
      have e2 : x (Fin.last (n + 1)).succ = x (Fin.last (n + 2)) := rfl
      rw [e0, e1, e2]
      have e3 : ∀ i : Fin n, Published.pathologicalTerm (x (Fin.castSucc i.succ).castSucc) (x (Fin.castSucc i.succ).succ)
          = Published.pathologicalTerm (x i.castSucc.succ.castSucc) (x i.castSucc.succ.succ) := fun i => rfl
      simp only [e3]
      ring
    · intro i acc
      have g1 := get_ofFn x i.castSucc.succ.castSucc
      have g2 := get_ofFn x i.castSucc.succ.succ
      simp only [Fin.val_castSucc, Fin.val_succ] at g1 g2
      rw [Nat.add_comm 1 (i : ℕ), g1, bind_ok', g2, bind_ok']
      rfl
  · unfold power_sum
    rw [require_ok (by simp), bind_ok', foldl_sum_idx fun p =>
      ((List.ofFn y).foldl (fun sum j => sum + j ^ p.2) 0 - p.1) ^ 2, zero_add]
    refine congrArg Except.ok (Finset.sum_congr rfl fun k _ => ?_)
    show ((List.ofFn y).foldl (fun sum j => sum + j ^ (k : ℕ)) 0 - b k) ^ 2 = _
    rw [foldl_sum fun a => a ^ (k : ℕ), zero_add]

/-- A loop that keeps a running sum and adds a function of it each round. -/
theorem foldl_running (h : ℝ → ℝ) (g : Fin n → ℝ) (r a : ℝ) :
    (List.ofFn g).foldl (fun (s : ℝ × ℝ) v => (s.1 + h (s.2 + v), s.2 + v)) (r, a)
      = (r + ∑ j : Fin n, h (a + ∑ k with k ≤ j, g k), a + ∑ k, g k) := by
  induction n generalizing r a with
  | zero => simp
  | succ n ih =>
    rw [List.ofFn_succ, List.foldl_cons, ih, Fin.sum_univ_succ (f := g), Fin.sum_univ_succ]
    have h0 : ∑ k with k ≤ (0 : Fin (n + 1)), g k = g 0 := by
      rw [Finset.sum_filter, Fin.sum_univ_succ]
      simp
    have hs : ∀ j : Fin n, ∑ k with k ≤ j.succ, g k = g 0 + ∑ k with k ≤ j, g k.succ := by
      intro j
      rw [Finset.sum_filter, Fin.sum_univ_succ, Finset.sum_filter]
      simp [Fin.succ_le_succ_iff]
    simp only [h0, hs, add_assoc]

/-- **C147** `sargan` adds a term for every *pair* of coordinates, with the cross products
accumulated so far, instead of one term for every coordinate; the two agree in one dimension. -/
theorem C147_sargan (x : Fin n → ℝ) :
    GivesAt sargan x (∑ i : Fin n, ∑ j : Fin n,
      n * (x i ^ 2 + 0.4 * ∑ k with k ≤ j, if k = i then 0 else x i * x k)) := by
  unfold GivesAt sargan
  refine congrArg Except.ok ?_
  have inner : ∀ (p : ℝ × ℕ) (res : ℝ), ((List.ofFn x).zipIdx.foldl (fun (s : ℝ × ℝ) q =>
      let innersum := if p.2 ≠ q.2 then s.2 + p.1 * q.1 else s.2
      (s.1 + (List.ofFn x).length * (p.1 ^ 2 + 0.4 * innersum), innersum)) (res, 0)).1
      = res + ∑ j : Fin n, n * (p.1 ^ 2 + 0.4 * ∑ k with k ≤ j, if (k : ℕ) = p.2 then 0 else p.1 * x k) := by
    intro p res
    have := foldl_running (fun t => n * (p.1 ^ 2 + 0.4 * t)) (fun k => if (k : ℕ) = p.2 then 0 else p.1 * x k) res 0
    simp only [zero_add] at this
    simp only [List.length_ofFn]
    rw [ofFn_zipIdx, List.ofFn_eq_map, List.foldl_map]
    rw [List.ofFn_eq_map, List.foldl_map] at this
    have hb : ∀ (s : ℝ × ℝ) (k : Fin n), (let innersum := if p.2 ≠ (k : ℕ) then s.2 + p.1 * x k else s.2
        (s.1 + n * (p.1 ^ 2 + 0.4 * innersum), innersum))
        = (s.1 + n * (p.1 ^ 2 + 0.4 * (s.2 + if (k : ℕ) = p.2 then 0 else p.1 * x k)),
          s.2 + if (k : ℕ) = p.2 then 0 else p.1 * x k) := by
      intro s k
      by_cases h : (k : ℕ) = p.2
      · simp [h]
      · simp [h, Ne.symm h]
    simp only [hb]
    rw [this]
  simp only [inner]
  rw [foldl_sum_idx fun p => ∑ j : Fin n, n * (p.1 ^ 2 + 0.4 * ∑ k with k ≤ j, if (k : ℕ) = p.2 then 0 else p.1 * x k),
    zero_add]
  simp only [Fin.val_inj]

/-- **C147** `paviani` never subtracts the product (its accumulator starts at `0`), and `alpine2`
is `0` for the same reason. -/
theorem C147_product_errors :
    (∀ x : Fin 10 → ℝ, (∀ i, 2 < x i ∧ x i < 10) →
      GivesAt paviani x (Published.paviani x + (∏ i, x i) ^ (0.2 : ℝ))) ∧
    (∀ x : Fin n → ℝ, (∀ i, 0 ≤ x i) → GivesAt alpine2 x 0) ∧
    Published.alpine2 (n := 1) (fun _ => π / 2) ≠ 0 := by
  refine ⟨fun x hx => ?_, fun x hx => ?_, ?_⟩
  · unfold GivesAt paviani Published.paviani
    rw [require_ok (by simp), bind_ok', forLoop_add (t := fun a => log (a - 2) ^ 2 + log (10 - a) ^ 2) 0, bind_ok',
      sum_map_ofFn, foldl_mul (fun a : ℝ => a), zero_mul]
    · dsimp only
      rw [powf_ok le_rfl (by norm_num), bind_ok', Real.zero_rpow (by norm_num)]
      exact congrArg Except.ok (by ring)
    · intro a ha acc
      obtain ⟨i, rfl⟩ := (List.mem_ofFn' x a).1 ha
      obtain ⟨h1, h2⟩ := hx i
      unfold fln
      rw [if_neg (by linarith), bind_ok', if_neg (by linarith), bind_ok']
      rfl
  · unfold GivesAt alpine2
    have : ∀ l : List ℝ, (∀ a ∈ l, 0 ≤ a) → (forLoop l 0 fun res arg => do
        let s ← fsqrt arg
        pure (res * (s * sin arg))) = .ok 0 := by
      intro l
      induction l with
      | nil => intro _; rfl
      | cons a l ih =>
        intro h
        rw [forLoop_cons]
        unfold fsqrt at ih ⊢
        rw [if_neg (not_lt.2 (h a (by simp))), bind_ok']
        show forLoop l (0 * _) _ = _
        rw [zero_mul]
        exact ih fun b hb => h b (by simp [hb])
    apply this
    intro a ha
    obtain ⟨i, rfl⟩ := (List.mem_ofFn' x a).1 ha
    exact hx i
  · unfold Published.alpine2
    rw [Fin.prod_univ_one, sin_pi_div_two, mul_one]
    have := pi_pos
    positivity

/-- **C147** The exponential-fitting functions: every residual of `biggs_exp2`, `biggs_exp3` and
`biggs_exp4` is too small by `5 (e^i + e^-i)` — which is why the data are never fitted (C107). -/
theorem C147_fit_errors (a b c d : ℝ) :
    biggs_exp2 [a, b] = .ok (∑ i ∈ Finset.Icc (1 : ℕ) 10, (exp (-(0.1 * i) * a) - 5 * exp (-(0.1 * i) * b)
      - Published.biggsData2 i - 5 * (exp i + exp (-i))) ^ 2) ∧
    biggs_exp3 [a, b, c] = .ok (∑ i ∈ Finset.Icc (1 : ℕ) 10, (exp (-(0.1 * i) * a) - c * exp (-(0.1 * i) * b)
      - Published.biggsData2 i - 5 * (exp i + exp (-i))) ^ 2) ∧
    biggs_exp4 [a, b, c, d] = .ok (∑ i ∈ Finset.Icc (1 : ℕ) 10, (c * exp (-(0.1 * i) * a) - d * exp (-(0.1 * i) * b)
      - Published.biggsData2 i - 5 * (exp i + exp (-i))) ^ 2) := by
  refine ⟨congrArg Except.ok ?_, congrArg Except.ok ?_, congrArg Except.ok ?_⟩ <;>
  · rw [foldl_add, sum_range'_Icc, zero_add]
    refine Finset.sum_congr rfl fun i _ => ?_
    unfold Published.biggsData2
    rw [show (-(10 * (0.1 * (i : ℝ)))) = -i from by ring, show -(0.1 * (i : ℝ)) = -0.1 * i from by ring]
    ring

/-- **C147** `giunta` divides the integers `16 / 15` (giving `1`), squares the argument instead of
its sine and lacks the constant `0.6`; `box_betts` has plus signs for minus signs and the constants
inside the exponential; `exp2` leaves out the first term and divides integers. -/
theorem C147_sum_formula_errors (x y z : ℝ) :
    (giunta [x, y] = .ok (sin (x - 1) + (x - 1) ^ 2 + 1 / 50 * sin (4 * (x - 1))
      + (sin (y - 1) + (y - 1) ^ 2 + 1 / 50 * sin (4 * (y - 1))))) ∧
    box_betts [x, y, z] = .ok (∑ i ∈ Finset.Icc (1 : ℕ) 3, (exp (-0.1 * i * x) + exp (-0.1 * i * y)
      + exp (-0.1 * (i - 1) * z - exp (-(i : ℝ)))) ^ 2) ∧
    exp2 [x, y] = .ok (∑ i ∈ Finset.Icc (1 : ℕ) 9,
      (exp (-((i : ℝ) * x / 10)) - 5 * exp (-((i : ℝ) * y / 10)) - 1 + 5 * exp (-(i : ℝ))) ^ 2) := by
  refine ⟨?_, congrArg Except.ok ?_, congrArg Except.ok ?_⟩
  · unfold giunta
    rw [require_ok (by simp), bind_ok', show ((16 / 15 : ℕ) : ℝ) = 1 from by norm_num]
    simp only [List.foldl_cons, List.foldl_nil, one_mul, zero_add]
    exact congrArg Except.ok (by norm_num)
  · rw [foldl_add, zero_add]
    simp only [show List.range 3 = [0, 1, 2] from rfl, List.map_cons, List.map_nil, List.sum_cons, List.sum_nil]
    rw [show Finset.Icc 1 3 = ({1, 2, 3} : Finset ℕ) from by decide]
    rw [Finset.sum_insert (by decide), Finset.sum_insert (by decide), Finset.sum_singleton]
    push_cast
    ring_nf
  · rw [foldl_add, sum_range'_Icc, zero_add]
    refine Finset.sum_congr rfl fun i hi => ?_
    obtain ⟨h1, h2⟩ := Finset.mem_Icc.1 hi
    have ht : Int.tdiv (-(i : ℤ)) 10 = 0 := by interval_cases i <;> rfl
    rw [ht, zpow_zero, show exp 1 ^ (-(i : ℤ)) = exp (-(i : ℝ)) from by
      rw [zpow_neg, zpow_natCast, ← Real.exp_nat_mul, mul_one, Real.exp_neg]]
    rw [show -1 * (i : ℝ) * x / 10 = -((i : ℝ) * x / 10) from by ring,
      show -1 * (i : ℝ) * y / 10 = -((i : ℝ) * y / 10) from by ring]

/-- **C147** `powell2` leaves out the last window of four coordinates and weighs the last term of
every window with `1` instead of `10`; `powell` takes its blocks one coordinate too late (and
therefore panics when the number of coordinates is a multiple of four, C106). -/
theorem C147_powell_errors (x : Fin (n + 4) → ℝ) :
    GivesAt powell2 x (Published.powell2 (n := n + 1) x
      - Published.powellBlock (x (Fin.last n).castSucc.castSucc.castSucc) (x (Fin.last n).castSucc.castSucc.succ)
        (x (Fin.last n).castSucc.succ.succ) (x (Fin.last n).succ.succ.succ)
      - 9 * ∑ i : Fin n, (x i.castSucc.castSucc.castSucc.castSucc - x i.castSucc.succ.succ.succ) ^ 4) ∧
    ∀ (d r : ℕ) (hr : 1 ≤ r ∧ r ≤ 3) (hd : 0 < d) (y : Fin (4 * d + r) → ℝ),
      GivesAt powell y (Published.powell fun (i : Fin d) (k : Fin 4) =>
        y ⟨4 * (i : ℕ) + (k : ℕ) + 1, by have := i.2; have := k.2; omega⟩) := by
  unfold GivesAt
  refine ⟨?_, fun d r hr hd y => ?_⟩
  · unfold powell2 Published.powell2
    rw [show (List.ofFn x).length = n + 4 from by simp, require_ok (by omega), bind_ok', usub_ok (by omega), bind_ok',
      show n + 4 - 3 - 1 = n from by omega,
      forLoop_range' 1 n (t := fun i : Fin n =>
        Published.powellBlock (x i.castSucc.castSucc.castSucc.castSucc) (x i.castSucc.castSucc.castSucc.succ)
          (x i.castSucc.castSucc.succ.succ) (x i.castSucc.succ.succ.succ)
          - 9 * (x i.castSucc.castSucc.castSucc.castSucc - x i.castSucc.succ.succ.succ) ^ 4) 0]
    · refine congrArg Except.ok ?_
      rw [Finset.sum_sub_distrib, ← Finset.mul_sum, Fin.sum_univ_castSucc (n := n)]
      ring
    · intro i acc
      have g1 := get_ofFn x i.castSucc.castSucc.castSucc.castSucc
      have g2 := get_ofFn x i.castSucc.castSucc.castSucc.succ
      have g3 := get_ofFn x i.castSucc.castSucc.succ.succ
      have g4 := get_ofFn x i.castSucc.succ.succ.succ
      simp only [Fin.val_castSucc, Fin.val_succ] at g1 g2 g3 g4
      rw [Nat.add_comm 1 (i : ℕ), Nat.add_sub_cancel, g1, bind_ok', g2, bind_ok', g3, bind_ok', g4, bind_ok']
      refine congrArg Except.ok ?_
      unfold Published.powellBlock
      ring
  · unfold powell Published.powell
    rw [show (List.ofFn y).length = 4 * d + r from by simp, require_ok (by omega), bind_ok']
    dsimp only
    rw [show (4 * d + r) / 4 = d from by omega, forLoop_range' 1 d (t := fun i : Fin d =>
      Published.powellBlock (y ⟨4 * (i : ℕ) + 1, by have := i.2; omega⟩) (y ⟨4 * (i : ℕ) + 2, by have := i.2; omega⟩)
        (y ⟨4 * (i : ℕ) + 3, by have := i.2; omega⟩) (y ⟨4 * (i : ℕ) + 4, by have := i.2; omega⟩)) 0]
    · refine congrArg Except.ok ?_
      rw [zero_add]
      rfl
    · intro i acc
      have g1 := get_ofFn y ⟨4 * (i : ℕ) + 1, by have := i.2; omega⟩
      have g2 := get_ofFn y ⟨4 * (i : ℕ) + 2, by have := i.2; omega⟩
      have g3 := get_ofFn y ⟨4 * (i : ℕ) + 3, by have := i.2; omega⟩
      have g4 := get_ofFn y ⟨4 * (i : ℕ) + 4, by have := i.2; omega⟩
      rw [show 4 * (1 + (i : ℕ)) - 3 = 4 * (i : ℕ) + 1 from by omega,
        show 4 * (1 + (i : ℕ)) - 2 = 4 * (i : ℕ) + 2 from by omega,
        show 4 * (1 + (i : ℕ)) - 1 = 4 * (i : ℕ) + 3 from by omega,
        show 4 * (1 + (i : ℕ)) = 4 * (i : ℕ) + 4 from by omega]
      rw [show get (List.ofFn y) (4 * (i : ℕ) + 1) = _ from g1, bind_ok',
        show get (List.ofFn y) (4 * (i : ℕ) + 2) = _ from g2, bind_ok',
        show get (List.ofFn y) (4 * (i : ℕ) + 3) = _ from g3, bind_ok',
        show get (List.ofFn y) (4 * (i : ℕ) + 4) = _ from g4, bind_ok']
      rfl

/-- **C147** `brad` compares every term with the first datum `0.14` and numbers the terms from `0`
instead of `1`. -/
theorem C147_brad (x1 x2 x3 : ℝ)
    (h : ∀ i : Fin 15, (16 - (i : ℕ)) * x2 + min ((i : ℕ) : ℝ) (16 - (i : ℕ)) * x3 ≠ 0) :
    brad [x1, x2, x3] = .ok (∑ i : Fin 15, Published.bradResidual 0.14 i x1 x2 x3 ^ 2) := by
  unfold brad fn3
  dsimp only
  rw [forLoop_range 15 (t := fun i => Published.bradResidual 0.14 i x1 x2 x3 ^ 2) 0, zero_add]
  intro i acc
  have hc : ((16 - (i : ℕ) : ℕ) : ℝ) = 16 - (i : ℕ) := by
    rw [Nat.cast_sub (by omega)]; norm_num
  rw [show get bradY 0 = .ok (0.14 : ℚ) from rfl, bind_ok', hc, fdiv_ok (h i), bind_ok']
  refine congrArg Except.ok ?_
  unfold Published.bradResidual
  norm_num

/-- **C147** `damavandi` multiplies by the distances it should divide by and lacks the absolute
value; `pen_holder` lacks the minus sign of the inner exponent and raises the squared radius to the
power `1 / (2 π)` instead of dividing the radius by `π`; `vss` puts the second cosine term into the
exponent. -/
theorem C147_misplaced_operations (x y : ℝ) :
    damavandi [x, y] = .ok (Published.damavandi x y + (2 + (x - 7) ^ 2 + 2 * (y - 7) ^ 2)
      * (|sin (π * (x - 2)) * sin (π * (y - 2)) / (π ^ 2 * (x - 2) * (y - 2))| ^ 5
        - (sin (π * (x - 2)) * sin (π * (y - 2)) * (x - 2) * (y - 2) / π ^ 2) ^ 5)) ∧
    (cos x * cos y ≠ 0 → pen_holder [x, y] =
      .ok (-exp ((|cos x * cos y * exp (abs (1 - (x ^ 2 + y ^ 2) ^ (1 / (2 * π))))|)⁻¹))) ∧
    (0 < cos y → vss [x, y] = .ok (Published.vss x y + 100 * cos y ^ 2 + 100 * cos (y ^ 2 / 30)
      - 100 * cos y ^ (2 - 100 * cos (y ^ 2 / 30)))) := by
  refine ⟨congrArg Except.ok ?_, fun h => ?_, fun h => ?_⟩
  · unfold Published.damavandi; ring
  · show (fdiv 1 _ >>= fun q => pure (-1 * exp q)) = _
    rw [fdiv_ok (abs_ne_zero.2 (mul_ne_zero h (exp_pos _).ne')), bind_ok']
    refine congrArg Except.ok ?_
    rw [show (0.5 : ℝ) / π = 1 / (2 * π) from by ring, one_div, neg_one_mul]
  · show (powf _ _ >>= fun p => pure _) = _
    rw [powf_pos h, bind_ok']
    exact congrArg Except.ok (by unfold Published.vss; ring)

/-- The hypotheses are met: a point in three dimensions for the chains and windows, one in the
positive orthant for the roots, one inside the box of `paviani`. -/
example : GivesAt rosenbrock ![1, 2, 3] 201 := by
  have := (C147_chains ![1, 2, 3]).2.2.1 (by omega)
  rwa [show Published.rosenbrock ![1, 2, 3] = 201 from by
    unfold Published.rosenbrock; simp [Fin.sum_univ_succ]; norm_num] at this
example : GivesAt powell ![7, 1, 2, 3, 4] (Published.powellBlock 1 2 3 4) := by
  have := (C147_powell_errors (n := 0) ![0, 0, 0, 0]).2 1 1 (by omega) one_pos ![7, 1, 2, 3, 4]
  rwa [show (Published.powell fun (i : Fin 1) (k : Fin 4) => (![7, 1, 2, 3, 4] : Fin 5 → ℝ)
    ⟨4 * (i : ℕ) + (k : ℕ) + 1, by have := i.2; have := k.2; omega⟩) = Published.powellBlock 1 2 3 4 from by
      unfold Published.powell; rw [Fin.sum_univ_one]; rfl] at this
example : GivesAt (n := 10) paviani (fun _ => 3) (Published.paviani (fun _ => 3) + (∏ _i : Fin 10, (3 : ℝ)) ^ (0.2 : ℝ)) :=
  (C147_product_errors (n := 0)).1 _ fun _ => ⟨by norm_num, by norm_num⟩
example : GivesAt deb3 ![1, 2] ((2 : ℕ) / ((2 : ℕ) - 1) * Published.deb3 ![1, 2]) :=
  (C147_deb_errors ![1, 2] le_rfl).2 fun i => by fin_cases i <;> norm_num

section instances
example := C147_nonempty (n := 2) (by decide) fun i => (i : ℝ) + 1
example := C147_numbering_errors (n := 2) (fun i => (i : ℝ)) (by decide)
example := (C147_where_defined (n := 2)).1 0 1 (.inr one_ne_zero)
/-- The point of the literature, `(0.0824, 1.133, 2.3437)`, is in the domain of `C147_brad`. -/
example := C147_brad 0.0824 1.133 2.3437 (fun i => by
  have h0 : (0 : ℝ) ≤ min ((i : ℕ) : ℝ) (16 - (i : ℕ)) := by
    have : ((i : ℕ) : ℝ) ≤ 14 := by exact_mod_cast (show (i : ℕ) ≤ 14 by omega)
    exact le_min (by positivity) (by linarith)
  have h1 : (0 : ℝ) < 16 - (i : ℕ) := by
    have : ((i : ℕ) : ℝ) ≤ 14 := by exact_mod_cast (show (i : ℕ) ≤ 14 by omega)
    linarith
  positivity)
end instances

end Ecrs.Props
