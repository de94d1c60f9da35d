import Verif.Jssp.Report
import Mathlib.Algebra.BigOperators.Group.List.Lemmas
import Mathlib.Algebra.Order.BigOperators.Group.List
import Mathlib.Tactic.Linarith
import Mathlib.Tactic.Ring
import Mathlib.Tactic.Positivity

/-!
# C116: the average distance that the job shop example logs
-/

set_option linter.unusedSectionVars false

namespace Ecrs.Jssp
open Ecrs

/-! ## Specification -/

/-- The Euclidean distance of two vectors. -/
noncomputable def vecDist (u v : List ℝ) : ℝ := Real.sqrt ((List.zipWith (fun a b => (a - b) ^ 2) u v).sum)

/-- All pairs of two different positions, each once. -/
def pairsOf {α : Type} : List α → List (α × α)
  | [] => []
  | x :: xs => xs.map (fun y => (x, y)) ++ pairsOf xs

/-- The mean of `f` over all pairs. -/
noncomputable def meanOver (f : List ℝ → List ℝ → ℝ) (l : List (List ℝ)) : ℝ :=
  ((pairsOf l).map fun p => f p.1 p.2).sum / (pairsOf l).length

/-- Vectors of the same positive dimension. -/
def SameDim (n : Nat) (pop : List (List ℝ)) : Prop := 0 < n ∧ ∀ c ∈ pop, c.length = n

/-! ## Distances -/

private theorem sum_foldl (x : ℝ) (l : List ℝ) : l.foldl (· + ·) x = x + l.sum := by
  induction l generalizing x with
  | nil => simp
  | cons y ys ih => rw [List.foldl_cons, ih, List.sum_cons]; ring

private theorem zip_map (u v : List ℝ) :
    (u.zip v).map (fun p => (p.1 - p.2) * (p.1 - p.2)) = List.zipWith (fun a b => (a - b) ^ 2) u v := by
  rw [List.zip, List.map_zipWith]
  congr 1
  funext a b
  ring

private theorem euclid_ok {n : Nat} (hn : 0 < n) {u v : List ℝ} (hu : u.length = n) (hv : v.length = n) :
    euclideanDistance u v = .ok (vecDist u v) := by
  unfold euclideanDistance vecDist
  rw [zip_map]
  have hl : (List.zipWith (fun a b : ℝ => (a - b) ^ 2) u v).length = n := by simp [hu, hv]
  cases hz : List.zipWith (fun a b : ℝ => (a - b) ^ 2) u v with
  | nil => rw [hz] at hl; simp at hl; omega
  | cons x xs =>
    show Except.ok _ = _
    rw [sum_foldl, List.sum_cons]

private theorem sq_sum_nonneg (u v : List ℝ) : 0 ≤ (List.zipWith (fun a b : ℝ => (a - b) ^ 2) u v).sum := by
  refine List.sum_nonneg fun x hx => ?_
  obtain ⟨k, hk, rfl⟩ := List.mem_iff_getElem.1 hx
  rw [List.getElem_zipWith]
  positivity

private theorem vecDist_nonneg (u v : List ℝ) : 0 ≤ vecDist u v := Real.sqrt_nonneg _

private theorem vecDist_comm (u v : List ℝ) : vecDist u v = vecDist v u := by
  unfold vecDist
  rw [List.zipWith_comm]
  congr 2
  congr 1
  funext a b
  ring

private theorem sq_sum_eq_zero : ∀ {u v : List ℝ}, u.length = v.length →
    ((List.zipWith (fun a b : ℝ => (a - b) ^ 2) u v).sum = 0 ↔ u = v)
  | [], [], _ => by simp
  | [], _ :: _, h => by simp at h
  | _ :: _, [], h => by simp at h
  | a :: u, b :: v, h => by
    have h' : u.length = v.length := by simpa using h
    rw [List.zipWith_cons_cons, List.sum_cons]
    have h1 := sq_sum_nonneg u v
    have h2 : 0 ≤ (a - b) ^ 2 := by positivity
    constructor
    · intro h3
      have e1 : (a - b) ^ 2 = 0 := by linarith
      have e2 : (List.zipWith (fun a b : ℝ => (a - b) ^ 2) u v).sum = 0 := by linarith
      rw [(sq_sum_eq_zero h').1 e2]
      have := pow_eq_zero_iff (two_ne_zero) |>.1 e1
      rw [show a = b by linarith]
    · rintro h3
      rw [List.cons.injEq] at h3
      rw [(sq_sum_eq_zero h').2 h3.2, h3.1]; ring

private theorem vecDist_eq_zero {u v : List ℝ} (h : u.length = v.length) : vecDist u v = 0 ↔ u = v := by
  unfold vecDist
  rw [Real.sqrt_eq_zero (sq_sum_nonneg u v), sq_sum_eq_zero h]

private theorem sq_sum_le : ∀ {u v : List ℝ}, (∀ x ∈ u, 0 ≤ x ∧ x ≤ 1) → (∀ x ∈ v, 0 ≤ x ∧ x ≤ 1) →
    (List.zipWith (fun a b : ℝ => (a - b) ^ 2) u v).sum ≤ u.length
  | [], v, _, _ => by simp
  | _ :: _, [], _, _ => by simp; positivity
  | a :: u, b :: v, hu, hv => by
    rw [List.zipWith_cons_cons, List.sum_cons]
    have ih := sq_sum_le (fun x hx => hu x (List.mem_cons_of_mem _ hx)) (fun x hx => hv x (List.mem_cons_of_mem _ hx))
    have h1 := hu a List.mem_cons_self
    have h2 := hv b List.mem_cons_self
    have : (a - b) ^ 2 ≤ 1 := by
      rw [sq_le_one_iff_abs_le_one, abs_le]; constructor <;> linarith
    rw [List.length_cons]
    push_cast
    linarith

private theorem vecDist_le {n : Nat} {u v : List ℝ} (hl : u.length = n) (hu : ∀ x ∈ u, 0 ≤ x ∧ x ≤ 1) (hv : ∀ x ∈ v, 0 ≤ x ∧ x ≤ 1) :
    vecDist u v ≤ Real.sqrt n := by
  unfold vecDist
  exact Real.sqrt_le_sqrt (hl ▸ sq_sum_le hu hv)

/-! ## The loops -/

private theorem at_append {pre suf : List (List ℝ)} {x : List ℝ} : chromosomeAt (pre ++ x :: suf) pre.length = .ok x := by
  unfold chromosomeAt
  rw [List.getElem?_append_right (Nat.le_refl _)]
  simp

private theorem inner_ok {n : Nat} {pop : List (List ℝ)} (h : SameDim n pop) {i : Nat} {x : List ℝ}
    (hx : chromosomeAt pop i = .ok x) (hxl : x.length = n) : ∀ (suf pre : List (List ℝ)) (acc : ℝ), pop = pre ++ suf →
    (List.range' pre.length suf.length).foldlM (distanceStep pop i) acc = .ok (acc + (suf.map (vecDist x)).sum)
  | [], _, acc, _ => by simp [pure, Except.pure]
  | y :: ys, pre, acc, hp => by
    rw [List.length_cons, List.range'_succ, List.foldlM_cons]
    have hy : chromosomeAt pop pre.length = .ok y := by rw [hp]; exact at_append
    have hyl : y.length = n := h.2 y (by rw [hp]; simp)
    have hs : distanceStep pop i acc pre.length = .ok (acc + vecDist x y) := by
      unfold distanceStep
      rw [hx, hy]
      show (euclideanDistance x y >>= fun d => pure (acc + d)) = _
      rw [euclid_ok h.1 hxl hyl]; rfl
    rw [hs]
    show (List.range' (pre.length + 1) ys.length).foldlM (distanceStep pop i) (acc + vecDist x y) = _
    have := inner_ok h hx hxl ys (pre ++ [y]) (acc + vecDist x y) (by rw [hp]; simp)
    rw [List.length_append] at this
    rw [show pre.length + [y].length = pre.length + 1 from rfl] at this
    rw [this, List.map_cons, List.sum_cons, add_assoc]

private theorem outer_ok {n : Nat} {pop : List (List ℝ)} (h : SameDim n pop) : ∀ (suf pre : List (List ℝ)) (acc : ℝ),
    pop = pre ++ suf → (List.range' pre.length (suf.length - 1)).foldlM
      (fun acc i => (List.range' (i + 1) (pop.length - (i + 1))).foldlM (distanceStep pop i) acc) acc =
      .ok (acc + ((pairsOf suf).map fun p => vecDist p.1 p.2).sum)
  | [], _, acc, _ => by simp [pairsOf, pure, Except.pure]
  | [_], _, acc, _ => by simp [pairsOf, pure, Except.pure]
  | x :: y :: ys, pre, acc, hp => by
    rw [show (x :: y :: ys).length - 1 = ys.length + 1 from rfl, List.range'_succ, List.foldlM_cons]
    have hx : chromosomeAt pop pre.length = .ok x := by rw [hp]; exact at_append
    have hxl : x.length = n := h.2 x (by rw [hp]; simp)
    have e := inner_ok h hx hxl (y :: ys) (pre ++ [x]) acc (by rw [hp]; simp)
    rw [List.length_append, show pre.length + [x].length = pre.length + 1 from rfl] at e
    have hl : pop.length - (pre.length + 1) = (y :: ys).length := by rw [hp]; simp; omega
    rw [hl, e]
    have ih := outer_ok h (y :: ys) (pre ++ [x]) (acc + ((y :: ys).map (vecDist x)).sum) (by rw [hp]; simp)
    rw [List.length_append, show pre.length + [x].length = pre.length + 1 from rfl] at ih
    show (List.range' (pre.length + 1) ((y :: ys).length - 1)).foldlM _ _ = _
    rw [ih]
    congr 1
    rw [show pairsOf (x :: y :: ys) = (y :: ys).map (fun y => (x, y)) ++ pairsOf (y :: ys) from rfl, List.map_append, List.sum_append,
      List.map_map, add_assoc]
    rfl

private theorem distanceSum_ok {n : Nat} {pop : List (List ℝ)} (h : SameDim n pop) :
    distanceSum pop = .ok ((pairsOf pop).map fun p => vecDist p.1 p.2).sum := by
  have := outer_ok h pop [] 0 rfl
  rw [zero_add] at this
  unfold distanceSum
  rw [List.range_eq_range']
  exact this

private theorem pairs_length {α : Type} : ∀ l : List α, (pairsOf l).length * 2 = l.length * (l.length - 1)
  | [] => rfl
  | x :: xs => by
    have ih := pairs_length xs
    rw [pairsOf, List.length_append, List.length_map, List.length_cons, Nat.add_sub_cancel]
    cases hx : xs.length with
    | zero => rw [hx] at ih; omega
    | succ k =>
      rw [hx, Nat.add_sub_cancel] at ih
      have : (k + 1 + 1) * (k + 1) = (k + 1) * k + (k + 1) * 2 := by ring
      omega

private theorem mem_pairs {α : Type} {p : α × α} : ∀ {l : List α}, p ∈ pairsOf l → p.1 ∈ l ∧ p.2 ∈ l
  | [], h => by cases h
  | x :: xs, h => by
    rcases List.mem_append.1 h with h | h
    · obtain ⟨y, hy, rfl⟩ := List.mem_map.1 h
      exact ⟨List.mem_cons_self, List.mem_cons_of_mem _ hy⟩
    · have := mem_pairs h
      exact ⟨List.mem_cons_of_mem _ this.1, List.mem_cons_of_mem _ this.2⟩

/-! ## C116 -/

/-- **C116**: for two or more individuals with chromosomes of the same positive length the computed value is the mean
distance over all pairs. -/
theorem C116_mean_distance {n : Nat} {pop : List (List ℝ)} (h : SameDim n pop) (h2 : 2 ≤ pop.length) :
    avgDistance pop = .ok (some (meanOver vecDist pop)) := by
  unfold avgDistance
  rw [if_neg (by omega), distanceSum_ok h]
  have hl := pairs_length pop
  have e : pop.length * (pop.length - 1) / 2 = (pairsOf pop).length := by omega
  have hpos : 0 < (pairsOf pop).length := by
    have : 2 ≤ pop.length * (pop.length - 1) := Nat.mul_le_mul h2 (show 1 ≤ pop.length - 1 by omega)
    omega
  show Except.ok (if pop.length * (pop.length - 1) / 2 = 0 then none else some _) = _
  rw [e, if_neg (by omega)]
  rfl

/-- **C116**: it is non-negative, and zero exactly when all chromosomes are equal. -/
theorem C116_nonneg_and_zero {n : Nat} {pop : List (List ℝ)} (h : SameDim n pop) (h2 : 2 ≤ pop.length) :
    ∃ a, avgDistance pop = .ok (some a) ∧ 0 ≤ a ∧ (a = 0 ↔ ∀ c ∈ pop, ∀ c' ∈ pop, c = c') := by
  have hlen : 0 < ((pairsOf pop).length : ℝ) := by
    have hl := pairs_length pop
    have : 2 ≤ pop.length * (pop.length - 1) := Nat.mul_le_mul h2 (show 1 ≤ pop.length - 1 by omega)
    have : 0 < (pairsOf pop).length := by omega
    exact_mod_cast this
  have hnn : ∀ x ∈ (pairsOf pop).map (fun p => vecDist p.1 p.2), 0 ≤ x := by
    intro x hx
    obtain ⟨p, -, rfl⟩ := List.mem_map.1 hx
    exact vecDist_nonneg _ _
  refine ⟨_, C116_mean_distance h h2, div_nonneg (List.sum_nonneg hnn) hlen.le, ?_⟩
  unfold meanOver
  rw [div_eq_zero_iff, or_iff_left hlen.ne']
  constructor
  · intro hz
    have hall : ∀ p ∈ pairsOf pop, p.1 = p.2 := by
      intro p hp
      have hm := mem_pairs hp
      have h0 : vecDist p.1 p.2 ≤ 0 := by
        rw [← hz]
        exact List.single_le_sum hnn _ (List.mem_map.2 ⟨p, hp, rfl⟩)
      exact (vecDist_eq_zero ((h.2 _ hm.1).trans (h.2 _ hm.2).symm)).1 (le_antisymm h0 (vecDist_nonneg _ _))
    clear hz hnn hlen
    match pop, h2, hall with
    | x :: y :: ys, _, hall =>
      have hx : ∀ c ∈ x :: y :: ys, c = x := by
        intro c hc
        rcases List.mem_cons.1 hc with rfl | hc
        · rfl
        · exact (hall (x, c) (List.mem_append_left _ (List.mem_map.2 ⟨c, hc, rfl⟩))).symm
      intro c hc c' hc'
      rw [hx c hc, hx c' hc']
  · intro heq
    refine List.sum_eq_zero fun x hx => ?_
    obtain ⟨p, hp, rfl⟩ := List.mem_map.1 hx
    have hm := mem_pairs hp
    exact (vecDist_eq_zero ((h.2 _ hm.1).trans (h.2 _ hm.2).symm)).2 (heq _ hm.1 _ hm.2)

private theorem pairSum_perm {l l' : List (List ℝ)} (hp : l.Perm l') :
    ((pairsOf l).map fun p => vecDist p.1 p.2).sum = ((pairsOf l').map fun p => vecDist p.1 p.2).sum := by
  have hmap : ∀ (x : List ℝ) (xs : List (List ℝ)), ((pairsOf (x :: xs)).map fun p => vecDist p.1 p.2).sum =
      (xs.map (vecDist x)).sum + ((pairsOf xs).map fun p => vecDist p.1 p.2).sum := by
    intro x xs
    rw [pairsOf, List.map_append, List.sum_append, List.map_map]; rfl
  induction hp with
  | nil => rfl
  | cons x hp ih => rw [hmap, hmap, ih, (hp.map _).sum_eq]
  | swap x y l =>
    rw [hmap, hmap, hmap, hmap, List.map_cons, List.map_cons, List.sum_cons, List.sum_cons, vecDist_comm x y]; ring
  | trans _ _ ih1 ih2 => rw [ih1, ih2]

/-- **C116**: the order of the population does not matter. -/
theorem C116_order_irrelevant {n : Nat} {pop pop' : List (List ℝ)} (h : SameDim n pop) (hp : pop.Perm pop') :
    avgDistance pop = avgDistance pop' := by
  have h' : SameDim n pop' := ⟨h.1, fun c hc => h.2 c (hp.mem_iff.2 hc)⟩
  unfold avgDistance
  rw [distanceSum_ok h, distanceSum_ok h', pairSum_perm hp, hp.length_eq]

/-- **C116**: genes of the unit interval give at most the square root of the chromosome length. -/
theorem C116_bound {n : Nat} {pop : List (List ℝ)} (h : SameDim n pop) (h2 : 2 ≤ pop.length)
    (hg : ∀ c ∈ pop, ∀ x ∈ c, 0 ≤ x ∧ x ≤ 1) : ∃ a, avgDistance pop = .ok (some a) ∧ a ≤ Real.sqrt n := by
  refine ⟨_, C116_mean_distance h h2, ?_⟩
  unfold meanOver
  have hlen : 0 < ((pairsOf pop).length : ℝ) := by
    have hl := pairs_length pop
    have : 2 ≤ pop.length * (pop.length - 1) := Nat.mul_le_mul h2 (show 1 ≤ pop.length - 1 by omega)
    have : 0 < (pairsOf pop).length := by omega
    exact_mod_cast this
  rw [div_le_iff₀ hlen]
  have := List.sum_le_card_nsmul ((pairsOf pop).map fun p => vecDist p.1 p.2) (Real.sqrt n) (by
    intro x hx
    obtain ⟨p, hp, rfl⟩ := List.mem_map.1 hx
    have hm := mem_pairs hp
    exact vecDist_le (h.2 _ hm.1) (hg _ hm.1) (hg _ hm.2))
  rw [List.length_map, nsmul_eq_mul] at this
  linarith

/-- **C116**, the degenerate cases: one individual gives NaN, no individual a panic, and so do two individuals with empty
chromosomes. -/
theorem C116_degenerate : (∀ c, avgDistance [c] = .ok none) ∧ avgDistance [] = .error .underflow ∧
    avgDistance [[], []] = .error .unwrapNone := by
  refine ⟨fun c => ?_, rfl, ?_⟩
  · unfold avgDistance distanceSum
    rw [if_neg (by simp)]
    simp [pure, Except.pure, bind, Except.bind]
  · unfold avgDistance distanceSum
    rw [if_neg (by simp)]
    rfl

/-- **C116**, violated for a second run: after a run with a non-empty population the probe's debug assertion fails. -/
theorem C116_second_run_asserts (popLen popLen' : Nat) (h : 0 < popLen) :
    ∃ state, onInitialPopulation 0 popLen = .ok state ∧ onInitialPopulation state popLen' = .error .assertion := by
  refine ⟨popLen, rfl, ?_⟩
  unfold onInitialPopulation
  rw [if_neg (by omega)]

/-- Three points: distances 5, 0 and 5, mean 10/3. -/
example : avgDistance [[0, 0], [3, 4], [0, 0]] = .ok (some (10 / 3)) := by
  rw [C116_mean_distance (n := 2) ⟨by decide, by simp⟩ (by simp)]
  have h5 : Real.sqrt (3 ^ 2 + 4 ^ 2) = 5 := by
    rw [show (3 : ℝ) ^ 2 + 4 ^ 2 = 5 ^ 2 by norm_num]
    exact Real.sqrt_sq (by norm_num)
  simp [meanOver, pairsOf, vecDist, h5]
  norm_num

/-! ## Every theorem on a concrete case -/

section instances
theorem threePoints_dim : SameDim 2 [[0, 0], [1, 1 / 2], [0, 0]] := ⟨by decide, by simp⟩
example := C116_nonneg_and_zero threePoints_dim (by simp)
example := C116_order_irrelevant threePoints_dim (.swap _ _ _)
example := C116_bound threePoints_dim (by simp) (by
  intro c hc x hx
  simp only [List.mem_cons, List.not_mem_nil, or_false] at hc
  rcases hc with rfl | rfl | rfl <;> simp only [List.mem_cons, List.not_mem_nil, or_false] at hx <;>
    rcases hx with rfl | rfl <;> norm_num)
example := C116_second_run_asserts 20 30 (by decide)
end instances

end Ecrs.Jssp
