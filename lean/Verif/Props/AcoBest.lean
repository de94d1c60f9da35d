import Verif.Props.AcoPheromone
import Mathlib.Algebra.BigOperators.Group.List.Basic
import Mathlib.Data.List.Zip

set_option linter.unusedSectionVars false

/-!
# Best policies, tour lengths and problem generation: C60, C62, C94
-/

namespace Ecrs.Aco
open Ecrs

section general
variable {X K : Type} [LinearOrder K] {A : AcoOps X K}

/-! ## C60: the best solution -/

/-- Specification: neither value is NaN, and `s` is at most as fit as `t`. -/
def NotFitter (A : AcoOps X K) (s t : Sol X) : Prop := Fl.Le (A.view s.fitness) (A.view t.fitness)

/-- Specification: the fitness is a number. -/
def Numeric (A : AcoOps X K) (s : Sol X) : Prop := (A.view s.fitness).IsNum

theorem better_spec {a b : Sol X} (ha : Numeric A a) (hb : Numeric A b) :
    NotFitter A a (better A a b) ∧ NotFitter A b (better A a b) ∧ Numeric A (better A a b) := by
  unfold better
  by_cases h : A.lt b.fitness a.fitness = true
  · rw [if_pos h]
    exact ⟨Fl.le_refl ha, Fl.Lt.le (Fl.lt_iff.1 h), ha⟩
  · rw [if_neg h]
    exact ⟨(Fl.not_lt hb ha).1 fun hh => h (Fl.lt_iff.2 hh), Fl.le_refl hb, hb⟩

theorem fold_better_max : ∀ (ss : List (Sol X)) (s : Sol X), Numeric A s → (∀ t ∈ ss, Numeric A t) →
    NotFitter A s (ss.foldl (better A) s) ∧ (∀ t ∈ ss, NotFitter A t (ss.foldl (better A) s)) ∧
      Numeric A (ss.foldl (better A) s)
  | [], s, hs, _ => ⟨Fl.le_refl hs, by simp, hs⟩
  | t :: ss, s, hs, hss => by
    obtain ⟨h1, h2, h3⟩ := better_spec hs (hss t (by simp))
    obtain ⟨g1, g2, g3⟩ := fold_better_max ss (better A s t) h3 fun u hu => hss u (by simp [hu])
    rw [List.foldl_cons]
    refine ⟨Fl.Le.trans h1 g1, fun u hu => ?_, g3⟩
    rcases List.mem_cons.1 hu with rfl | hu
    · exact Fl.Le.trans h2 g1
    · exact g2 u hu

/-- **C61, the reported best.** If no fitness is NaN, the best of a non-empty batch is one of its solutions, and none is
fitter; an empty batch panics. -/
theorem C61_find_best_max {sols : List (Sol X)} (hn : ∀ s ∈ sols, Numeric A s) (hne : sols ≠ []) :
    ∃ b, findBest A sols = .ok b ∧ b ∈ sols ∧ ∀ s ∈ sols, NotFitter A s b := by
  cases sols with
  | nil => exact absurd rfl hne
  | cons s ss =>
    obtain ⟨g1, g2, -⟩ := fold_better_max ss s (hn s (by simp)) fun t ht => hn t (by simp [ht])
    refine ⟨_, rfl, better_mem ss s, fun t ht => ?_⟩
    rcases List.mem_cons.1 ht with rfl | ht
    · exact g1
    · exact g2 t ht

theorem C61_find_best_empty_panics : findBest A [] = .error .unwrapNone := rfl

/-- **C60, monotone.** Whatever is shown to `OverallBest` (NaN or not), its best never gets worse. -/
theorem C60_overall_best_monotone {best : Sol X} (hb : Numeric A best) (batches : List (List (Sol X))) :
    NotFitter A best (batches.foldl (overallBest A) best) ∧ Numeric A (batches.foldl (overallBest A) best) := by
  induction batches generalizing best with
  | nil => exact ⟨Fl.le_refl hb, hb⟩
  | cons b bs ih =>
    have key : NotFitter A best (overallBest A best b) ∧ Numeric A (overallBest A best b) := by
      cases b with
      | nil => exact ⟨Fl.le_refl hb, hb⟩
      | cons s ss =>
        rw [overallBest]
        split
        · rename_i h
          have := Fl.Lt.le (Fl.lt_iff.1 h)
          exact ⟨this, this.isNum_right⟩
        · exact ⟨Fl.le_refl hb, hb⟩
    obtain ⟨h1, h2⟩ := ih key.2
    exact ⟨Fl.Le.trans key.1 h1, h2⟩

/-- **C60, maximal.** If no fitness is NaN, then after any history of batches the best kept by `OverallBest` is at least as
fit as every solution ever shown, and is one of them (or the one it started with). -/
theorem C60_overall_best_is_best {best : Sol X} (hb : Numeric A best) (batches : List (List (Sol X)))
    (hn : ∀ b ∈ batches, ∀ s ∈ b, Numeric A s) :
    (∀ b ∈ batches, ∀ s ∈ b, NotFitter A s (batches.foldl (overallBest A) best)) ∧
    (batches.foldl (overallBest A) best = best ∨ ∃ b ∈ batches, batches.foldl (overallBest A) best ∈ b) := by
  induction batches generalizing best with
  | nil => exact ⟨by simp, .inl rfl⟩
  | cons b bs ih =>
    have key : (∀ s ∈ b, NotFitter A s (overallBest A best b)) := by
      cases b with
      | nil => simp
      | cons s ss =>
        obtain ⟨g1, g2, g3⟩ := fold_better_max ss s (hn (s :: ss) (by simp) s (by simp)) fun t ht =>
          hn (s :: ss) (by simp) t (by simp [ht])
        intro t ht
        have ht' : NotFitter A t (ss.foldl (better A) s) := by
          rcases List.mem_cons.1 ht with rfl | ht
          · exact g1
          · exact g2 t ht
        rw [overallBest]
        split
        · exact ht'
        · rename_i h
          exact Fl.Le.trans ht' ((Fl.not_lt hb g3).1 fun hh => h (Fl.lt_iff.2 hh))
    have hb' := (C60_overall_best_monotone hb [b]).2
    have hb' : Numeric A (overallBest A best b) := hb'
    obtain ⟨h1, h2⟩ := ih hb' fun c hc => hn c (by simp [hc])
    have hm := (C60_overall_best_monotone hb' bs).1
    rw [List.foldl_cons]
    refine ⟨fun c hc s hs => ?_, ?_⟩
    · rcases List.mem_cons.1 hc with rfl | hc
      · exact Fl.Le.trans (key s hs) hm
      · exact h1 c hc s hs
    · rcases h2 with h2 | ⟨c, hc, h2⟩
      · rw [h2]
        rcases overallBest_mem (A := A) best b with h | h
        · exact .inl h
        · exact .inr ⟨b, by simp, h⟩
      · exact .inr ⟨c, by simp [hc], h2⟩

/-- **C60, IterationBest.** It keeps the best of the last non-empty batch, whatever came before. -/
theorem C60_iteration_best {best : Sol X} {sols : List (Sol X)} (hn : ∀ s ∈ sols, Numeric A s) (hne : sols ≠ []) :
    iterationBest A best sols ∈ sols ∧ ∀ s ∈ sols, NotFitter A s (iterationBest A best sols) := by
  obtain ⟨b, h1, h2, h3⟩ := C61_find_best_max hn hne
  cases sols with
  | nil => exact absurd rfl hne
  | cons s ss => cases h1; exact ⟨h2, h3⟩

end general

/-- **C60 and C61 are false of the code when a fitness is NaN:** after the NaN in the second place the first and best
solution is forgotten, and the worst of the batch is reported and kept. -/
theorem C61_nan_hides_best :
    findBest Q [⟨[0, 1], .fin 5⟩, ⟨[1, 0], .nan⟩, ⟨[0], .fin 1⟩] = .ok ⟨[0], .fin 1⟩ ∧
    overallBest Q (Sol.default Q) [⟨[0, 1], .fin 5⟩, ⟨[1, 0], .nan⟩, ⟨[0], .fin 1⟩] = ⟨[0], .fin 1⟩ := by
  constructor
  · exact congrArg Except.ok (by decide +kernel)
  · decide +kernel

example : ∀ b ∈ ([[⟨[0, 1], .fin 5⟩], [⟨[1, 0], .fin 7⟩, ⟨[0], .fin 1⟩]] : List (List (Sol (Ext ℚ)))), ∀ s ∈ b, Numeric Q s := by
  intro b hb s hs
  simp at hb
  rcases hb with rfl | rfl
  · simp at hs; subst hs; trivial
  · simp at hs; rcases hs with rfl | rfl <;> trivial

example : [[⟨[0, 1], .fin 5⟩], [⟨[1, 0], .fin 7⟩, ⟨[0], .fin 1⟩]].foldl (overallBest Q) (Sol.default Q) = ⟨[1, 0], .fin 7⟩ := by
  decide +kernel

/-! ## C62: tour lengths -/

section exact
variable {F : Type} [Field F] [LinearOrder F] [IsStrictOrderedRing F]
variable (sqrt : Ext F → Ext F) (pow : Ext F → Ext F → Ext F) (maxv : F) (floor : F → Nat)

/-- Specification: the length of the closed tour `p[0] → p[1] → … → p[n-1] → p[0]`. -/
def tourLength (f : Nat → Nat → F) (p : List Nat) : F := ((windows p).map fun e => f e.1 e.2).sum

theorem cost_fin {n : Nat} {w : Mat (Ext F)} {f : Nat → Nat → F} (hw : FinMat n w f) : ∀ (es : List (Nat × Nat)) (acc : F),
    (∀ e ∈ es, e.1 < n ∧ e.2 < n) →
    cost (exactOps sqrt pow maxv floor) w es (.fin acc) = .ok (.fin (acc + (es.map fun e => f e.1 e.2).sum))
  | [], acc, _ => by simp [cost]
  | e :: es, acc, he => by
    obtain ⟨h1, h2⟩ := he e (by simp)
    have c1 : w.at' e.1 e.2 = .ok (.fin (f e.1 e.2)) := by
      unfold Mat.at'; rw [if_pos ⟨by rw [hw.1]; exact h1, by rw [hw.2.1]; exact h2⟩, hw.2.2 _ _ h1 h2]
    rw [cost, Exc.bind_of_ok c1]
    show cost _ w es (.fin (acc + f e.1 e.2)) = _
    rw [cost_fin hw es _ fun x hx => he x (by simp [hx]), List.map_cons, List.sum_cons, add_assoc]

/-- **C62, fitness.** With exact arithmetic `PathLengthInverse` gives a path in range the fitness `1 / length` of the
closed tour (infinity for length 0) and does not change the path. -/
theorem C62_fitness_is_inverse_length {n : Nat} {w : Mat (Ext F)} {f : Nat → Nat → F} (hw : FinMat n w f)
    {s : Sol (Ext F)} (hs : InRange n s) :
    gradeOne (exactOps sqrt pow maxv floor) w s =
      .ok ⟨s.path, if tourLength f s.path = 0 then .pinf else .fin (1 / tourLength f s.path)⟩ := by
  have h1 := cost_fin sqrt pow maxv floor hw (windows s.path) 0 (windows_lt hs)
  rw [zero_add] at h1
  unfold gradeOne
  have h2 : cost (exactOps sqrt pow maxv floor) w (windows s.path) (exactOps sqrt pow maxv floor).zero =
    .ok (.fin (tourLength f s.path)) := h1
  rw [Exc.bind_of_ok h2]
  show Except.ok _ = Except.ok _
  congr 2
  show (if tourLength f s.path = 0 then (if (1 : F) = 0 then Ext.nan else Ext.signed 1)
    else .fin (1 / tourLength f s.path)) = _
  by_cases h0 : tourLength f s.path = 0
  · rw [if_pos h0, if_pos h0, if_neg one_ne_zero, Ext.signed, if_neg (not_lt.2 zero_le_one)]
  · rw [if_neg h0, if_neg h0]

theorem windows_rotate (p : List Nat) (k : Nat) : windows (p.rotate k) = (windows p).rotate k := by
  rw [windows_eq, windows_eq, List.rotate_rotate, Nat.add_comm, ← List.rotate_rotate]
  exact (List.zipWith_rotate_distrib _ _ _ _ (by simp)).symm

/-- **C62, rotation.** Starting the tour elsewhere does not change its length. -/
theorem C62_rotation (f : Nat → Nat → F) (p : List Nat) (k : Nat) : tourLength f (p.rotate k) = tourLength f p := by
  unfold tourLength
  rw [windows_rotate]
  exact ((List.rotate_perm (windows p) k).map _).sum_eq

theorem windows_reverse (p : List Nat) : (windows p.reverse).Perm ((windows p).map Prod.swap) := by
  have e1 : (windows p).map Prod.swap = (p.rotate 1).zip p := by
    rw [windows_eq, List.zip_swap]
  rcases Nat.eq_zero_or_pos p.length with h0 | hpos
  · have : p = [] := List.length_eq_zero_iff.1 h0
    subst this; exact List.Perm.refl _
  have e2 : (windows p.reverse).reverse = p.zip (p.rotate (p.length - 1)) := by
    rw [windows_eq, List.zip, List.reverse_zipWith (by simp), List.reverse_reverse, List.reverse_rotate]
    simp only [List.length_reverse, List.reverse_reverse]
    by_cases h1 : p.length = 1
    · rw [h1]
      have : p.rotate 1 = p.rotate 0 := by
        rw [← List.rotate_mod, h1]
      rw [this]
    · rw [Nat.mod_eq_of_lt (by omega)]
  have e3 : p.zip (p.rotate (p.length - 1)) = ((p.rotate 1).zip p).rotate (p.length - 1) := by
    show _ = (List.zipWith Prod.mk (p.rotate 1) p).rotate (p.length - 1)
    rw [List.zipWith_rotate_distrib _ _ _ _ (by simp), List.rotate_rotate]
    rw [show 1 + (p.length - 1) = p.length by omega, List.rotate_length]
    rfl
  refine (List.reverse_perm _).symm.trans ?_
  rw [e2, e3, e1]
  exact List.rotate_perm _ _

/-- **C62, reversal.** For symmetric weights the direction of travel does not change the length. -/
theorem C62_reversal {f : Nat → Nat → F} (hf : ∀ i j, f i j = f j i) (p : List Nat) :
    tourLength f p.reverse = tourLength f p := by
  unfold tourLength
  rw [((windows_reverse p).map _).sum_eq, List.map_map]
  congr 1
  apply List.map_congr_left
  intro e _
  exact hf e.2 e.1

/-- **C62, ranking.** Of two paths of positive length the fitter one is the shorter one. -/
theorem C62_fitter_iff_shorter {n : Nat} {w : Mat (Ext F)} {f : Nat → Nat → F} (hw : FinMat n w f)
    {s t s' t' : Sol (Ext F)} (hs : InRange n s) (ht : InRange n t) (hs0 : 0 < tourLength f s.path)
    (ht0 : 0 < tourLength f t.path) (h1 : gradeOne (exactOps sqrt pow maxv floor) w s = .ok s')
    (h2 : gradeOne (exactOps sqrt pow maxv floor) w t = .ok t') :
    (exactOps sqrt pow maxv floor).lt s'.fitness t'.fitness = true ↔ tourLength f t.path < tourLength f s.path := by
  rw [C62_fitness_is_inverse_length sqrt pow maxv floor hw hs, if_neg hs0.ne'] at h1
  rw [C62_fitness_is_inverse_length sqrt pow maxv floor hw ht, if_neg ht0.ne'] at h2
  cases h1; cases h2
  rw [ex_lt sqrt pow maxv floor]
  exact one_div_lt_one_div hs0 ht0

/-- The weights of the example: `|i - j|`. -/
def lineF (i j : Nat) : ℚ := |(i : ℚ) - j|

example : FinMat 4 ⟨4, 4, fun i j => .fin (lineF i j)⟩ lineF ∧ tourLength lineF [0, 2, 1, 3] = 8 ∧
    tourLength lineF [3, 1, 2, 0] = 8 ∧ tourLength lineF [0, 1, 2, 3] = 6 := by
  refine ⟨⟨rfl, rfl, fun _ _ _ _ => rfl⟩, ?_, ?_, ?_⟩ <;> decide +kernel

/-- **C62, one vertex.** A tour of one vertex with zero self-distance gets infinite fitness. -/
theorem C62_one_vertex_infinite {w : Mat (Ext F)} {f : Nat → Nat → F} (hw : FinMat 1 w f) (h0 : f 0 0 = 0) :
    gradeOne (exactOps sqrt pow maxv floor) w ⟨[0], .fin 0⟩ = .ok ⟨[0], .pinf⟩ := by
  rw [C62_fitness_is_inverse_length sqrt pow maxv floor hw (by intro v hv; simp at hv; omega)]
  have : tourLength f [0] = 0 := by
    show f 0 0 + 0 = 0
    rw [h0, add_zero]
  rw [if_pos this]

end exact

/-! ## C94: generated problems -/

section general
variable {X K : Type} [LinearOrder K] {A : AcoOps X K}

/-- What is filled in after the rows below `i` and the columns `i..j` of row `i`. -/
def Filled (n : Nat) (D : Nat → Nat → X) (i j : Nat) (m : Mat X) : Prop :=
  m.rows = n ∧ m.cols = n ∧ ∀ a b, b < n → a ≤ b → (a < i ∨ (a = i ∧ b < j)) → m.get a b = D a b ∧ m.get b a = D a b

theorem costRow_filled {n : Nat} {cities : Nat → X × X} {i : Nat} (hi : i < n) : ∀ (m j : Nat) (c : Mat X), i ≤ j → j + m = n →
    Filled n (fun a b => cityDist A (cities a) (cities b)) i j c →
    ∃ c', costRow A cities i j m c = .ok c' ∧ Filled n (fun a b => cityDist A (cities a) (cities b)) i n c'
  | 0, j, c, _, hjn, h => by
    refine ⟨c, rfl, ?_⟩
    have : j = n := by omega
    rwa [this] at h
  | m + 1, j, c, hij, hjn, h => by
    obtain ⟨h1, h2, h3⟩ := h
    let D := cityDist A (cities i) (cities j)
    let c1 : Mat X := { c with get := fun a b => if a = i ∧ b = j then D else c.get a b }
    let c2 : Mat X := { c1 with get := fun a b => if a = j ∧ b = i then D else c1.get a b }
    have e1 : c.set i j D = .ok c1 := by unfold Mat.set; rw [if_pos ⟨by omega, by omega⟩]
    have e2 : c1.set j i D = .ok c2 := by
      unfold Mat.set; rw [if_pos (show j < c.rows ∧ i < c.cols from ⟨by omega, by omega⟩)]
    have hf : Filled n (fun a b => cityDist A (cities a) (cities b)) i (j + 1) c2 := by
      refine ⟨h1, h2, fun a b hb hab hcase => ?_⟩
      have hD : ∀ x y, c2.get x y = if x = j ∧ y = i then D else if x = i ∧ y = j then D else c.get x y := fun _ _ => rfl
      rw [hD, hD]
      by_cases hnew : a = i ∧ b = j
      · obtain ⟨rfl, rfl⟩ := hnew
        simp [D]
      · have hold := h3 a b hb hab (by omega)
        have : ¬ (a = j ∧ b = i) := by omega
        rw [if_neg this, if_neg hnew, if_neg (by omega), if_neg (by omega)]
        exact hold
    obtain ⟨c3, e3, e4⟩ := costRow_filled hi m (j + 1) c2 (by omega) (by omega) hf
    refine ⟨c3, ?_, e4⟩
    rw [costRow]
    rw [Exc.bind_of_ok e1, Exc.bind_of_ok e2]
    exact e3

theorem costRows_filled {n : Nat} {cities : Nat → X × X} : ∀ (m i : Nat) (c : Mat X), i + m = n →
    Filled n (fun a b => cityDist A (cities a) (cities b)) i i c →
    ∃ c', costRows A n cities i m c = .ok c' ∧ Filled n (fun a b => cityDist A (cities a) (cities b)) n n c'
  | 0, i, c, hin, h => by
    refine ⟨c, rfl, ?_⟩
    have : i = n := by omega
    rwa [this] at h
  | m + 1, i, c, hin, h => by
    obtain ⟨c1, e1, f1⟩ := costRow_filled (by omega) (n - i) i c (le_refl _) (by omega) h
    have f2 : Filled n (fun a b => cityDist A (cities a) (cities b)) (i + 1) (i + 1) c1 := by
      refine ⟨f1.1, f1.2.1, fun a b hb hab hcase => f1.2.2 a b hb hab ?_⟩
      omega
    obtain ⟨c2, e2, f3⟩ := costRows_filled m (i + 1) c1 (by omega) f2
    refine ⟨c2, ?_, f3⟩
    rw [costRows, Exc.bind_of_ok e1]
    exact e2

/-- **C94, generated distances.** For any arithmetic and any cities, `generate_tsp_cost` does not panic, and the entry at
`(a, b)` of its `n × n` matrix is the distance of the cities `min a b` and `max a b`; so it is symmetric. -/
theorem C94_tsp_cost (n : Nat) (cities : Nat → X × X) : ∃ c, tspCost A n cities = .ok c ∧ Sym n c ∧
    ∀ a b, a < n → b < n → c.get a b = cityDist A (cities (min a b)) (cities (max a b)) := by
  obtain ⟨c, e, f1, f2, f3⟩ := costRows_filled (A := A) (cities := cities) n 0 ⟨n, n, fun _ _ => A.zero⟩ (Nat.zero_add n)
    ⟨rfl, rfl, fun a b _ _ h => by omega⟩
  have key : ∀ a b, a < n → b < n → c.get a b = cityDist A (cities (min a b)) (cities (max a b)) := by
    intro a b ha hb
    rcases Nat.le_total a b with h | h
    · rw [Nat.min_eq_left h, Nat.max_eq_right h]
      exact (f3 a b hb h (.inl ha)).1
    · rw [Nat.min_eq_right h, Nat.max_eq_left h]
      exact (f3 b a ha h (.inl hb)).2
  refine ⟨c, e, ⟨f1, f2, fun i j hi hj => ?_⟩, key⟩
  rw [key i j hi hj, key j i hj hi, Nat.min_comm, Nat.max_comm]

/-- **C94, heuristic.** `create_heuristic_from_weights` keeps the shape; a zero weight gives a zero, any other the
inverse (any arithmetic). -/
theorem C94_heuristic (w : Mat X) (i j : Nat) :
    (heuristic A w).rows = w.rows ∧ (heuristic A w).cols = w.cols ∧
    (A.eq (w.get i j) A.zero = true → (heuristic A w).get i j = A.zero) ∧
    (A.eq (w.get i j) A.zero = false → (heuristic A w).get i j = A.div A.one (w.get i j)) := by
  refine ⟨rfl, rfl, fun h => ?_, fun h => ?_⟩
  · show (if A.eq (w.get i j) A.zero = true then _ else _) = _
    rw [if_pos h]
  · show (if A.eq (w.get i j) A.zero = true then _ else _) = _
    rw [if_neg (by rw [h]; simp)]

end general

section exact
variable {F : Type} [Field F] [LinearOrder F] [IsStrictOrderedRing F]
variable (sqrt : Ext F → Ext F) (pow : Ext F → Ext F → Ext F) (maxv : F) (floor : F → Nat)

theorem ex_eq_zero {x : F} (hx : x ≠ 0) :
    (exactOps sqrt pow maxv floor).eq (.fin x) (exactOps sqrt pow maxv floor).zero = false := by
  have hc : Fl.partialCmp (Ext.view (.fin x)) (Ext.view (.fin (0 : F))) ≠ some .eq := by
    unfold Ext.view Fl.partialCmp
    simp only
    intro h
    have := compare_eq_iff_eq.1 (Option.some.inj h)
    exact hx (by simpa using this)
  show (Fl.partialCmp (Ext.view (.fin x)) (Ext.view (.fin (0 : F))) == some .eq) = false
  exact beq_eq_false_iff_ne.2 hc

/-- **C94, positivity.** Positive distances give a positive heuristic (off the diagonal), the inverse distances. -/
theorem C94_heuristic_positive {n : Nat} {w : Mat (Ext F)} (hw : PosMat n w) :
    PosMat n (heuristic (exactOps sqrt pow maxv floor) w) := by
  refine ⟨hw.1, hw.2.1, fun i j hi hj hij => ?_⟩
  obtain ⟨x, hx, hx0⟩ := hw.2.2 i j hi hj hij
  refine ⟨1 / x, ?_, one_div_pos.2 hx0⟩
  rw [(C94_heuristic w i j).2.2.2 (by rw [hx]; exact ex_eq_zero sqrt pow maxv floor hx0.ne'), hx]
  show (if x = 0 then (if (1 : F) = 0 then Ext.nan else Ext.signed 1) else .fin (1 / x)) = _
  rw [if_neg hx0.ne']

/-- **C94, diagonal.** With exact arithmetic (`sqrt 0 = 0`) the generated distance of a city to itself is 0. -/
theorem C94_zero_diagonal (h0 : sqrt (.fin 0) = .fin 0) {n : Nat} {cities : Nat → Ext F × Ext F}
    (hc : ∀ i, i < n → ∃ x y, cities i = (.fin x, .fin y)) :
    ∃ c, tspCost (exactOps sqrt pow maxv floor) n cities = .ok c ∧ ∀ i, i < n → c.get i i = .fin 0 := by
  obtain ⟨c, h1, -, h3⟩ := C94_tsp_cost (A := exactOps sqrt pow maxv floor) n cities
  refine ⟨c, h1, fun i hi => ?_⟩
  obtain ⟨x, y, hxy⟩ := hc i hi
  rw [h3 i i hi hi, Nat.min_self, Nat.max_self, hxy]
  show sqrt (.fin ((x + -x) * (x + -x) + (y + -y) * (y + -y))) = _
  simp [h0]

end exact

example : ∃ c, tspCost Q 3 (fun i => (.fin i, .fin 0)) = .ok c ∧ Sym 3 c ∧ c.get 2 0 = .fin 4 := by
  obtain ⟨c, h1, h2, h3⟩ := C94_tsp_cost (A := Q) 3 (fun i => (.fin i, .fin 0))
  refine ⟨c, h1, h2, ?_⟩
  rw [h3 2 0 (by decide) (by decide)]
  decide +kernel

/-! ## Every theorem on a concrete case -/

section instances

/-- Three gradings, one below another. -/
def threeSols : List (Sol (Ext ℚ)) := [⟨[0, 1], .fin 5⟩, ⟨[1, 0], .fin 7⟩, ⟨[0], .fin 1⟩]

theorem threeSols_num : ∀ s ∈ threeSols, Numeric Q s := by
  intro s hs
  simp only [threeSols, List.mem_cons, List.not_mem_nil, or_false] at hs
  rcases hs with rfl | rfl | rfl <;> trivial

theorem twoBatches_num : ∀ b ∈ [threeSols, threeSols.reverse], ∀ s ∈ b, Numeric Q s := by
  intro b hb s hs
  simp only [List.mem_cons, List.not_mem_nil, or_false] at hb
  rcases hb with rfl | rfl
  · exact threeSols_num s hs
  · exact threeSols_num s (List.mem_reverse.1 hs)

example := C61_find_best_max threeSols_num (by decide)
example := C60_overall_best_monotone (A := Q) (best := ⟨[1, 0], .fin 6⟩) trivial [threeSols, [], threeSols]
example := C60_overall_best_is_best (A := Q) (best := ⟨[1, 0], .fin 6⟩) trivial [threeSols, threeSols.reverse] twoBatches_num
example := C60_iteration_best (best := ⟨[1, 0], .fin 6⟩) threeSols_num (by decide)
example := (C94_heuristic (A := Q) (constMat 3 4) 0 1).2.2.2 (by decide)
example := (C94_heuristic (A := Q) (constMat 3 0) 0 1).2.2.1 (by decide)
example := C94_heuristic_positive (fun x => x) (fun x _ => x) 1000 (fun _ => 0) (constMat_pos 3 (x := 4) (by norm_num))
example := C94_zero_diagonal (fun x => x) (fun x _ => x) 1000 (fun _ => 0) rfl (n := 3)
  (cities := fun i => (.fin (i : ℚ), .fin 7)) (fun _ _ => ⟨_, _, rfl⟩)

end instances

end Ecrs.Aco
