import Mathlib.Tactic.FinCases
import Verif.ProbTape
import Verif.Ga.Selection
import Verif.Props.Selection
import Mathlib.MeasureTheory.Measure.Lebesgue.EqHaar

/-!
# C133: with which probability the selection operators select
-/

set_option linter.unusedSectionVars false

namespace Ecrs.Props
open Ecrs Ecrs.Ga MeasureTheory
open scoped ENNReal

section
variable {G I C K : Type} [MeasurableSpace G] {R : Rng G ℝ} {μ : Measure G}

/-! ## Lemmas -/

open Classical in
theorem sum_positions (x : I) : ∀ pop : List I,
    (∑ i ∈ Finset.range pop.length, if pop[i]? = some x then (1 : ℝ≥0∞) else 0) = pop.count x
  | [] => by simp
  | a :: pop => by
    rw [List.length_cons, Finset.sum_range_succ', List.count_cons]
    simp only [List.getElem?_cons_succ, List.getElem?_cons_zero, Option.some.injEq]
    rw [sum_positions x pop]
    by_cases h : a = x <;> simp [h]

open Classical in
/-- A uniformly drawn member. -/
theorem member_law (hR : Ideal R μ) {pop : List I} (hp : pop ≠ []) :
    Law μ (R.genRange 0 pop.length >>= idx pop) fun x => (pop.count x : ℝ≥0∞) / pop.length := by
  have := hR.isProbability
  have h0 : 0 < pop.length := List.length_pos_iff.2 hp
  have hu := hR.below 0 pop.length h0
  have hb := Uniform.bind (f := idx pop) (q := fun i x => if pop[i]? = some x then 1 else 0) hu (Set.finite_Ico _ _)
    (fun g a g' h => by
      have := (R.genRange_returns h0).ifReturns g a g' h
      simpa using this)
    (fun i hi => by
      have hi' : i < pop.length := hi.2
      refine Law.of_eq ((Law.pure pop[i]).congr fun x => ?_) (by unfold idx; rw [List.getElem?_eq_getElem hi'])
      rw [List.getElem?_eq_getElem hi']
      by_cases e : x = pop[i]
      · subst e; simp
      · simp [e, Ne.symm e])
  refine hb.congr fun x => ?_
  have hf : (Set.finite_Ico 0 pop.length).toFinset = Finset.range pop.length := by ext i; simp
  have hn : (Set.Ico 0 pop.length).ncard = pop.length := by
    rw [← Finset.coe_Ico, Set.ncard_coe_finset, Nat.card_Ico, Nat.sub_zero]
  rw [hf, sum_positions, hn]

open Classical in
theorem tsum_member (F : I → ℝ≥0∞) (pop : List I) :
    ∑' a, (pop.count a : ℝ≥0∞) / pop.length * F a = (pop.map F).sum / pop.length := by
  rw [← tsum_count, ENNReal.div_eq_inv_mul, ← ENNReal.tsum_mul_left]
  exact tsum_congr fun a => by rw [ENNReal.div_eq_inv_mul, mul_assoc]

theorem sum_map_div (F : I → ℝ≥0∞) (c : ℝ≥0∞) : ∀ pop : List I, (pop.map fun a => F a / c).sum = (pop.map F).sum / c
  | [] => by simp
  | a :: pop => by
    rw [List.map_cons, List.sum_cons, sum_map_div F c pop, List.map_cons, List.sum_cons, ENNReal.add_div]

theorem div_div_ennreal (a : ℝ≥0∞) (n : ℕ) : a / n / n = a / (n * n) := by
  rw [div_eq_mul_inv, div_eq_mul_inv, div_eq_mul_inv, mul_assoc, ENNReal.mul_inv (by simp) (by simp)]

/-! ## Random -/

open Classical in
/-- **C133, Random**: every slot of the selection is, independently, each member with the same probability. -/
theorem C133_random (hR : Ideal R μ) {pop : List I} (hp : pop ≠ []) {xs : List I} {count : Nat} (hx : xs.length = count) :
    chance μ (selRandom R count pop) (· = xs) = (xs.map fun x => (pop.count x : ℝ≥0∞) / pop.length).prod := by
  have := hR.isProbability
  have h0 : 0 < pop.length := List.length_pos_iff.2 hp
  have e : selRandom R count pop = M.replicate count (R.genRange 0 pop.length >>= idx pop) := by
    unfold selRandom
    rw [hR.onClone_eq]
    have h1 : (M.assert (decide (0 < pop.length)) .emptyRange : M G Unit) = pure () := by
      unfold M.assert; rw [if_pos (by simpa using h0)]
    rw [h1, pure_bind]
    clear hx h1
    induction count with
    | zero => rfl
    | succ n ih =>
      rw [M.replicate, M.replicate, ← ih]
      simp only [bind_assoc, pure_bind, M.forEach]
      funext g
      obtain ⟨i, g1, h1, -, hi⟩ := R.genRange_returns h0 g
      have h2 : (idx pop i : M G I) = pure pop[i] := by unfold idx; rw [List.getElem?_eq_getElem hi]
      rw [M.bind_of_ok h1, M.bind_of_ok h1, h2]
      simp only [pure_bind]
  rw [e, ((member_law hR hp).replicate count).chance_eq, if_pos hx]

/-! ## Rank -/

open Classical in
/-- **C133, Rank**: every slot is, independently, the member `x` with a probability that depends only on how many
members have a fitness below, and how many have one not above, the fitness of `x`. -/
theorem C133_rank [LinearOrder K] (hR : Ideal R μ) (T : IndTrait I C K) {pop : List I} (hp : pop ≠ []) (v : I → K)
    (hv : ∀ x ∈ pop, T.fitness x = .num (v x)) {xs : List I} {count : Nat} (hx : xs.length = count) :
    chance μ (selRank R T count pop) (· = xs) = (xs.map fun x => (pop.count x : ℝ≥0∞) *
      ((pop.countP fun y => decide (v y < v x)) + (pop.countP fun y => decide (v y ≤ v x))) / pop.length ^ 2).prod := by
  have := hR.isProbability
  have hl := member_law hR hp
  have h1 := hl.bind (f := fun p1 => (R.genRange 0 pop.length >>= idx pop) >>= fun p2 =>
      Pure.pure (if Fl.ge (T.fitness p1) (T.fitness p2) then p1 else p2)) fun a _ =>
        hl.map fun p2 => if Fl.ge (T.fitness a) (T.fitness p2) then a else p2
  have e : rankOne R T pop = (R.genRange 0 pop.length >>= idx pop) >>= fun p1 => (R.genRange 0 pop.length >>= idx pop) >>= fun p2 =>
      Pure.pure (if Fl.ge (T.fitness p1) (T.fitness p2) then p1 else p2) := by
    unfold rankOne
    simp only [bind_assoc]
  unfold selRank
  rw [e, (h1.replicate count).chance_eq, if_pos hx]
  congr 1
  refine List.map_congr_left fun x _ => ?_
  have inner : ∀ a ∈ pop, (∑' b, if (if Fl.ge (T.fitness a) (T.fitness b) then a else b) = x then (pop.count b : ℝ≥0∞) / pop.length else 0) =
      ((if a = x then ((pop.countP fun y => decide (v y ≤ v x) : ℕ) : ℝ≥0∞) else 0) + (if v a < v x then (pop.count x : ℝ≥0∞) else 0)) / pop.length := by
    intro a ha
    have : ∀ b, (if (if Fl.ge (T.fitness a) (T.fitness b) then a else b) = x then (pop.count b : ℝ≥0∞) / pop.length else 0) =
        (pop.count b : ℝ≥0∞) / pop.length * (if (if Fl.ge (T.fitness a) (T.fitness b) then a else b) = x then 1 else 0) := by
      intro b; split <;> simp
    simp only [this]
    rw [tsum_member]
    congr 1
    have h2 : pop.map (fun b => if (if Fl.ge (T.fitness a) (T.fitness b) then a else b) = x then (1 : ℝ≥0∞) else 0) =
        pop.map (fun b => (if a = x ∧ v b ≤ v x then 1 else 0) + (if b = x then (if v a < v x then 1 else 0) else 0)) := by
      refine List.map_congr_left fun b hb => ?_
      rw [hv a ha, hv b hb]
      simp only [Fl.ge, decide_eq_true_eq]
      by_cases hab : v b ≤ v a
      · rw [if_pos hab]
        by_cases hax : a = x
        · subst hax
          simp [hab]
        · rw [if_neg hax, if_neg (by tauto)]
          by_cases hbx : b = x
          · subst hbx; simp [not_lt.2 hab]
          · simp [hbx]
      · rw [if_neg hab]
        by_cases hbx : b = x
        · subst hbx
          have : v a < v b := not_le.1 hab
          have hne : a ≠ b := by rintro rfl; exact lt_irrefl _ this
          simp [this, hne]
        · rw [if_neg hbx, if_neg hbx]
          by_cases hax : a = x
          · subst hax; simp [hab]
          · simp [hax]
    rw [h2, List.sum_map_add, sum_map_ite]
    congr 1
    · by_cases hax : a = x
      · simp only [hax, true_and, if_true]
        rw [sum_map_countP, mul_one]
      · simp [hax]
    · by_cases hc : v a < v x <;> simp [hc]
  rw [tsum_member, List.map_congr_left inner, sum_map_div, List.sum_map_add, sum_map_ite, sum_map_countP,
    div_div_ennreal, mul_comm (List.countP _ _ : ℝ≥0∞) (List.count _ _ : ℝ≥0∞), ← mul_add, add_comm (List.countP _ _ : ℝ≥0∞), sq]

/-! ## RankR -/

open Classical in
/-- **C133, RankR**: every slot is, independently, each member with the same probability: neither the fitness of the
members nor the parameter `r` has an influence. -/
theorem C133_rank_r (hR : Ideal R μ) {r : ℝ} (h0 : 0 ≤ r) (h1 : r ≤ 1) {pop : List I} (hp : pop ≠ []) {xs : List I}
    {count : Nat} (hx : xs.length = count) :
    chance μ (selRankR R r count pop) (· = xs) = (xs.map fun x => (pop.count x : ℝ≥0∞) / pop.length).prod := by
  have := hR.isProbability
  have hpos : 0 < pop.length := List.length_pos_iff.2 hp
  have hl := member_law hR hp
  have hu := hR.unit_lt h0 h1
  have h1 := hl.bind (f := fun p1 => (R.genRange 0 pop.length >>= idx pop) >>= fun p2 =>
      (R.genUnit >>= fun u => Pure.pure (decide (u < r))) >>= fun b => Pure.pure (if b then p1 else p2)) fun a _ =>
        hl.bind fun b _ => hu.map fun c => if c then a else b
  have e : rankROne R r pop = (R.genRange 0 pop.length >>= idx pop) >>= fun p1 => (R.genRange 0 pop.length >>= idx pop) >>= fun p2 =>
      (R.genUnit >>= fun u => Pure.pure (decide (u < r))) >>= fun b => Pure.pure (if b then p1 else p2) := by
    unfold rankROne
    simp only [bind_assoc, pure_bind, decide_eq_true_eq]
  have ha : (M.assert (decide (0 < pop.length)) .emptyRange : M G Unit) = pure () := by
    unfold M.assert; rw [if_pos (by simpa using hpos)]
  unfold selRankR
  rw [ha, pure_bind, e, (h1.replicate count).chance_eq, if_pos hx]
  congr 1
  refine List.map_congr_left fun x _ => ?_
  have hr : ENNReal.ofReal r + ENNReal.ofReal (1 - r) = 1 := by
    rw [← ENNReal.ofReal_add h0 (by linarith)]; simp
  have inner : ∀ a b : I, (∑' c : Bool, if (if c then a else b) = x then ENNReal.ofReal (if c then r else 1 - r) else 0) =
      (if a = x then ENNReal.ofReal r else 0) + (if b = x then ENNReal.ofReal (1 - r) else 0) := by
    intro a b
    rw [tsum_bool, add_comm]
    simp
  simp only [inner]
  simp only [tsum_member, List.sum_map_add, sum_map_ite, List.map_const', List.sum_replicate, nsmul_eq_mul, sum_map_div, mul_ite, mul_zero]
  have hn0 : (pop.length : ℝ≥0∞) ≠ 0 := by exact_mod_cast hpos.ne'
  have hs : (pop.count x : ℝ≥0∞) * (pop.length * ENNReal.ofReal r) + pop.length * (pop.count x * ENNReal.ofReal (1 - r)) =
      pop.count x * pop.length := by
    calc _ = (pop.count x : ℝ≥0∞) * pop.length * (ENNReal.ofReal r + ENNReal.ofReal (1 - r)) := by ring
      _ = _ := by rw [hr, mul_one]
  rw [hs, ENNReal.mul_div_cancel_right hn0 (ENNReal.natCast_ne_top _)]

/-! ## RouletteWheel -/

theorem roulette_measurable (fit : I → ℝ) (o : Option I) : ∀ (pop : List I) (s : ℝ),
    MeasurableSet {t : ℝ | roulettePick fit t s pop = o}
  | [], s => by
    by_cases h : (none : Option I) = o
    · simp [roulettePick, h]
    · simp [roulettePick, h]
  | a :: pop, s => by
    have ih := roulette_measurable fit o pop (s + fit a)
    have : {t : ℝ | roulettePick fit t s (a :: pop) = o} =
        (Set.Iic (s + fit a) ∩ {_t : ℝ | some a = o}) ∪ (Set.Ioi (s + fit a) ∩ {t : ℝ | roulettePick fit t (s + fit a) pop = o}) := by
      ext t
      simp only [Set.mem_ofPred_eq, Set.mem_union, Set.mem_inter_iff, Set.mem_Iic, Set.mem_Ioi]
      rw [roulettePick]
      by_cases h : t ≤ s + fit a
      · rw [if_pos h]; simp [h, not_lt.2 h]
      · rw [if_neg h]; simp [h, not_le.1 h]
    rw [this]
    exact (measurableSet_Iic.inter (.const _)).union (measurableSet_Ioi.inter ih)

open Classical in
theorem roulette_volume (fit : I → ℝ) (x : I) : ∀ (pop : List I) (s : ℝ), (∀ y ∈ pop, 0 ≤ fit y) →
    volume ({t : ℝ | roulettePick fit t s pop = some x} ∩ Set.Ioc s (s + (pop.map fit).sum)) =
      ENNReal.ofReal (pop.count x * fit x)
  | [], s, _ => by simp [roulettePick]
  | a :: pop, s, hf => by
    have ha := hf a (by simp)
    have hpop : ∀ y ∈ pop, 0 ≤ fit y := fun y hy => hf y (by simp [hy])
    have hsum : 0 ≤ (pop.map fit).sum := List.sum_nonneg (by simpa using hpop)
    have ih := roulette_volume fit x pop (s + fit a) hpop
    have : {t : ℝ | roulettePick fit t s (a :: pop) = some x} ∩ Set.Ioc s (s + ((a :: pop).map fit).sum) =
        (Set.Ioc s (s + fit a) ∩ {_t : ℝ | a = x}) ∪
        ({t : ℝ | roulettePick fit t (s + fit a) pop = some x} ∩ Set.Ioc (s + fit a) (s + fit a + (pop.map fit).sum)) := by
      ext t
      simp only [Set.mem_ofPred_eq, Set.mem_union, Set.mem_inter_iff, Set.mem_Ioc, List.map_cons, List.sum_cons, ← add_assoc]
      rw [roulettePick]
      by_cases h : t ≤ s + fit a
      · rw [if_pos h]
        simp only [Option.some.injEq, h, and_true, not_lt.2 h, false_and, and_false, or_false]
        constructor
        · rintro ⟨h1, h2, -⟩; exact ⟨h2, h1⟩
        · rintro ⟨h1, h2⟩; exact ⟨h2, h1, by linarith⟩
      · rw [if_neg h]
        have h' := not_le.1 h
        simp only [h, and_false, false_and, false_or, h', true_and]
        constructor
        · rintro ⟨h1, -, h2⟩; exact ⟨h1, h2⟩
        · rintro ⟨h1, h2⟩; exact ⟨h1, by linarith, h2⟩
    rw [this, measure_union]
    · rw [ih]
      by_cases hax : a = x
      · subst hax
        simp only [Set.ofPred_true, Set.inter_univ, Real.volume_Ioc, List.count_cons_self]
        rw [← ENNReal.ofReal_add (by linarith) (by positivity)]
        congr 1
        push_cast
        ring
      · have : (a == x) = false := by simpa using hax
        simp [hax]
    · rw [Set.disjoint_left]
      rintro t ⟨h1, -⟩ ⟨-, h2⟩
      exact absurd h1.2 (not_le.2 h2.1)
    · exact (roulette_measurable fit (some x) pop _).inter measurableSet_Ioc

open Classical in
/-- The values of the draw that select `x`. -/
theorem roulette_slot (fit : I → ℝ) (x : I) (pop : List I) (hf : ∀ y ∈ pop, 0 ≤ fit y) (hs : 0 < (pop.map fit).sum) :
    volume ({u : ℝ | roulettePick fit ((pop.map fit).sum * u) 0 pop = some x} ∩ Set.Ico 0 1) =
      ENNReal.ofReal (pop.count x * fit x / (pop.map fit).sum) := by
  have hv := roulette_volume fit x pop 0 hf
  rw [zero_add] at hv
  set S := (pop.map fit).sum with hS
  have e1 : ({u : ℝ | roulettePick fit (S * u) 0 pop = some x} ∩ Set.Ico 0 1 : Set ℝ) =ᵐ[volume]
      ({u : ℝ | roulettePick fit (S * u) 0 pop = some x} ∩ Set.Ioc 0 1 : Set ℝ) :=
    Filter.EventuallyEq.rfl.inter (MeasureTheory.Ico_ae_eq_Ioc)
  have e2 : ({u : ℝ | roulettePick fit (S * u) 0 pop = some x} ∩ Set.Ioc 0 1 : Set ℝ) =
      (S * ·) ⁻¹' ({t : ℝ | roulettePick fit t 0 pop = some x} ∩ Set.Ioc 0 S) := by
    ext u
    simp only [Set.mem_inter_iff, Set.mem_ofPred_eq, Set.mem_Ioc, Set.mem_preimage]
    constructor
    · rintro ⟨h, h1, h2⟩; exact ⟨h, by positivity, by nlinarith⟩
    · rintro ⟨h, h1, h2⟩
      exact ⟨h, (mul_pos_iff_of_pos_left hs).1 h1, by nlinarith⟩
  rw [measure_congr e1, e2, Real.volume_preimage_mul_left hs.ne', hv, abs_of_pos (inv_pos.2 hs),
    ← ENNReal.ofReal_mul (inv_pos.2 hs).le, div_eq_inv_mul]

theorem roulettePick_mem (fit : I → ℝ) {t : ℝ} {x : I} : ∀ {pop : List I} {s : ℝ}, roulettePick fit t s pop = some x → x ∈ pop
  | [], _, h => by cases h
  | a :: pop, s, h => by
    rw [roulettePick] at h
    split at h
    · cases h; simp
    · exact List.mem_cons_of_mem _ (roulettePick_mem fit h)

theorem roulettePick_isSome (fit : I → ℝ) {t : ℝ} : ∀ {pop : List I} {s : ℝ}, pop ≠ [] → t ≤ s + (pop.map fit).sum →
    roulettePick fit t s pop ≠ none
  | [], _, h, _ => absurd rfl h
  | [a], s, _, h => by
    rw [roulettePick, if_pos (by simpa using h)]; simp
  | a :: b :: pop, s, _, h => by
    rw [roulettePick]
    split
    · simp
    · exact roulettePick_isSome fit (by simp) (by simpa [add_assoc] using h)

theorem filterMap_map_eq {α β : Type} (h : α → Option β) (us : List α) : us.filterMap h = (us.map h).filterMap id := by
  rw [List.filterMap_map]; rfl

theorem replicate_map {α β : Type} (m : M G α) (h : α → β) : ∀ n : Nat,
    (M.replicate n m >>= fun us => (pure (us.map h) : M G (List β))) = M.replicate n (m >>= fun u => pure (h u))
  | 0 => rfl
  | n + 1 => by
    rw [M.replicate, M.replicate, ← replicate_map m h n]
    simp only [bind_assoc, pure_bind, List.map_cons]

open Classical in
/-- **C133, RouletteWheel**: every slot is, independently, the member `x` with a probability proportional to its
fitness (fitness not negative, not all zero). -/
theorem C133_roulette (hR : Ideal R μ) (fit : I → ℝ) {pop : List I} (hf : ∀ y ∈ pop, 0 ≤ fit y) (hs : 0 < (pop.map fit).sum)
    {xs : List I} {count : Nat} (hx : xs.length = count) :
    chance μ (selRoulette R fit count pop) (· = xs) =
      (xs.map fun x => ENNReal.ofReal (pop.count x * fit x / (pop.map fit).sum)).prod := by
  have := hR.isProbability
  have hp : pop ≠ [] := by rintro rfl; simp at hs
  set h : ℝ → Option I := fun u => roulettePick fit ((pop.map fit).sum * u) 0 pop with hh
  have hc : (Set.range h).Countable := by
    refine ((pop.finite_toSet.image some).insert none).countable.mono ?_
    rintro _ ⟨u, rfl⟩
    cases e : h u with
    | none => simp
    | some x => exact .inr ⟨x, roulettePick_mem fit e, rfl⟩
  have hm : ∀ b, MeasurableSet {u | h u = b} := by
    intro b
    exact (measurable_const_mul (pop.map fit).sum) (roulette_measurable fit b pop 0)
  have hl := ((hR.unit_map h hc hm).replicate count).map (List.filterMap id)
  have e : selRoulette R fit count pop =
      M.replicate count (R.genUnit >>= fun u => pure (h u)) >>= fun os => pure (os.filterMap id) := by
    unfold selRoulette
    rw [← replicate_map]
    simp only [bind_assoc, pure_bind, List.filterMap_map, Function.id_comp]
    rfl
  rw [e, hl.chance_eq, tsum_eq_single (xs.map some)]
  · rw [if_pos (by simp), if_pos (by simpa using hx), List.map_map]
    congr 1
    refine List.map_congr_left fun x _ => ?_
    exact roulette_slot fit x pop hf hs
  · intro os hos
    by_cases h1 : os.filterMap id = xs
    · rw [if_pos h1]
      by_cases h2 : os.length = count
      · rw [if_pos h2]
        have : none ∈ os := by
          by_contra hn
          apply hos
          rw [← h1]
          clear h1 h2 hos hl
          induction os with
          | nil => rfl
          | cons o os ih =>
            cases o with
            | none => simp at hn
            | some x =>
              rw [List.filterMap_cons_some (f := id) rfl, List.map_cons, ← ih (fun h => hn (by simp [h]))]
        refine List.prod_eq_zero (List.mem_map.2 ⟨none, this, ?_⟩)
        have : ({u | h u = none} ∩ Set.Ico 0 1 : Set ℝ) = ∅ := by
          rw [Set.eq_empty_iff_forall_notMem]
          rintro u ⟨h3, h4⟩
          exact roulettePick_isSome fit hp (by nlinarith [h4.2]) h3
        rw [this, measure_empty]
      · rw [if_neg h2]
    · rw [if_neg h1]

/-! ## Sampling without repetition -/

/-- The number of lists without repetition of a given length over a finite set. -/
theorem samples_finset (k : Nat) : ∀ A : Finset Nat, ∃ F : Finset (List Nat),
    (∀ l, l ∈ F ↔ l.length = k ∧ l.Nodup ∧ ∀ i ∈ l, i ∈ A) ∧ F.card = A.card.descFactorial k := by
  classical
  induction k with
  | zero =>
    intro A
    refine ⟨{[]}, ?_, by simp⟩
    intro l
    constructor
    · intro h; simp at h; subst h; simp
    · rintro ⟨h, -⟩; simp [List.length_eq_zero_iff.1 h]
  | succ k ih =>
    intro A
    choose F hF hc using ih
    refine ⟨A.biUnion fun a => (F (A.erase a)).image (a :: ·), ?_, ?_⟩
    · intro l
      simp only [Finset.mem_biUnion, Finset.mem_image]
      constructor
      · rintro ⟨a, ha, l', hl', rfl⟩
        obtain ⟨h1, h2, h3⟩ := (hF _ _).1 hl'
        refine ⟨by simp [h1], ?_, ?_⟩
        · rw [List.nodup_cons]
          exact ⟨fun h => (Finset.notMem_erase a A) (h3 a h), h2⟩
        · intro i hi
          rcases List.mem_cons.1 hi with rfl | hi
          · exact ha
          · exact Finset.mem_of_mem_erase (h3 i hi)
      · rintro ⟨h1, h2, h3⟩
        cases l with
        | nil => simp at h1
        | cons a l =>
          rw [List.nodup_cons] at h2
          refine ⟨a, h3 a (by simp), l, (hF _ _).2 ⟨by simpa using h1, h2.2, fun i hi => ?_⟩, rfl⟩
          refine Finset.mem_erase.2 ⟨?_, h3 i (by simp [hi])⟩
          rintro rfl; exact h2.1 hi
    · rw [Finset.card_biUnion]
      · have : ∀ a ∈ A, ((F (A.erase a)).image (a :: ·)).card = (A.card - 1).descFactorial k := by
          intro a ha
          rw [Finset.card_image_of_injective _ (List.cons_injective), hc, Finset.card_erase_of_mem ha]
        rw [Finset.sum_congr rfl this, Finset.sum_const, smul_eq_mul]
        cases h : A.card with
        | zero => simp
        | succ n => rw [Nat.succ_descFactorial_succ, Nat.add_sub_cancel]
      · intro a _ b _ hab
        rw [Function.onFun, Finset.disjoint_left]
        intro l h1 h2
        obtain ⟨l1, -, rfl⟩ := Finset.mem_image.1 h1
        obtain ⟨l2, -, h3⟩ := Finset.mem_image.1 h2
        exact hab (List.cons.inj h3).1.symm

theorem samples_ncard (A : Finset Nat) (k : Nat) :
    {l : List Nat | l.length = k ∧ l.Nodup ∧ ∀ i ∈ l, i ∈ A}.ncard = A.card.descFactorial k := by
  obtain ⟨F, hF, hc⟩ := samples_finset k A
  rw [← hc, ← Set.ncard_coe_finset]
  congr 1
  ext l
  simp [hF]

theorem samples_ncard_range (n k : Nat) :
    {l : List Nat | l.length = k ∧ l.Nodup ∧ ∀ i ∈ l, i < n}.ncard = n.descFactorial k := by
  have := samples_ncard (Finset.range n) k
  simpa using this

/-- Reading the members at valid positions. -/
theorem forEach_idx_pure {pop : List I} : ∀ {is : List Nat}, (∀ i ∈ is, i < pop.length) →
    (M.forEach (idx pop) is : M G (List I)) = pure (is.filterMap fun i => pop[i]?)
  | [], _ => rfl
  | i :: is, h => by
    have hi := h i (by simp)
    have h2 : (idx pop i : M G I) = pure pop[i] := by unfold idx; rw [List.getElem?_eq_getElem hi]
    rw [M.forEach, forEach_idx_pure (is := is) fun j hj => h j (by simp [hj]), h2,
      List.filterMap_cons_some (f := fun i => pop[i]?) (List.getElem?_eq_getElem hi)]
    simp only [pure_bind]

open Classical in
/-- The positions of given members of a list without repetition. -/
theorem filterMap_positions {pop : List I} (hp : pop.Nodup) : ∀ {is : List Nat} {xs : List I}, (∀ i ∈ is, i < pop.length) →
    is.filterMap (fun i => pop[i]?) = xs → is = xs.map pop.idxOf
  | [], xs, _, h => by rw [← h]; rfl
  | i :: is, xs, hi, h => by
    have h0 := hi i (by simp)
    rw [List.filterMap_cons_some (f := fun i => pop[i]?) (List.getElem?_eq_getElem h0)] at h
    cases xs with
    | nil => cases h
    | cons x xs =>
      obtain ⟨rfl, h2⟩ := List.cons.inj h
      rw [List.map_cons, ← filterMap_positions hp (fun j hj => hi j (by simp [hj])) h2, hp.idxOf_getElem]

/-- **C133, UniqueRandom**: every selection of `count` different members is equally likely. -/
theorem C133_unique_random (hR : Ideal R μ) {pop : List I} (hp : pop.Nodup) {xs : List I} {count : Nat} (hx : xs.length = count)
    (hn : xs.Nodup) (hm : ∀ x ∈ xs, x ∈ pop) :
    chance μ (selUniqueRandom R count pop) (· = xs) = ((pop.length.descFactorial count : ℕ) : ℝ≥0∞)⁻¹ := by
  classical
  have := hR.isProbability
  have hle : count ≤ pop.length := by
    rw [← hx]; exact (hn.subperm hm).length_le
  unfold selUniqueRandom
  rw [Uniform.chance_of (hR.sample pop.length count hle) (finite_samples _ _) (k := fun is => is.filterMap fun i => pop[i]?)
    (fun g a g' h => (R.indexSample_returns hle).ifReturns g a g' h) (fun is h => forEach_idx_pure h.2.2), samples_ncard_range]
  have : {l : List Nat | l.length = count ∧ l.Nodup ∧ ∀ i ∈ l, i < pop.length} ∩ {is | is.filterMap (fun i => pop[i]?) = xs} =
      {xs.map pop.idxOf} := by
    ext is
    simp only [Set.mem_inter_iff, Set.mem_ofPred_eq, Set.mem_singleton_iff]
    constructor
    · rintro ⟨⟨-, -, h1⟩, h2⟩; exact filterMap_positions hp h1 h2
    · rintro rfl
      refine ⟨⟨by simpa using hx, ?_, ?_⟩, ?_⟩
      · refine (List.nodup_map_iff_inj_on hn).2 ?_
        intro x hx' y _ hxy
        exact (List.idxOf_inj (hm x hx')).1 hxy
      · intro i hi
        obtain ⟨x, hx', rfl⟩ := List.mem_map.1 hi
        exact List.idxOf_lt_length_of_mem (hm x hx')
      · clear hx hn hle
        induction xs with
        | nil => rfl
        | cons x xs ih =>
          have h0 := List.idxOf_lt_length_of_mem (hm x (by simp))
          rw [List.map_cons, List.filterMap_cons_some (f := fun i => pop[i]?) (List.getElem?_eq_getElem h0),
            ih fun y hy => hm y (by simp [hy]), List.getElem_idxOf]
  rw [this, Set.ncard_singleton, Nat.cast_one, one_div]

/-! ## Tournament -/

/-- **C133, Tournament**: every slot, independently, has a fitness of at most `t` with the probability that `s` members
drawn without repetition all have; `s` is the size of the tournament.  (So the distribution of the fitness of the
selected members, largest fitness winning, is that of the maximum of `s` members.) -/
theorem C133_tournament [LinearOrder K] (hR : Ideal R μ) (T : IndTrait I C K) {pop : List I} (hp : pop ≠ []) (v : I → K)
    (hv : ∀ x ∈ pop, T.fitness x = .num (v x)) {factor : ℝ} (hf : factor ≤ 1) {s : Nat}
    (hs : s = max ⌊(pop.length : ℝ) * factor⌋₊ 1) (count : Nat) (t : K) :
    chance μ (selTournament R T factor count pop) (fun xs => ∀ x ∈ xs, v x ≤ t) =
      (((pop.countP fun y => decide (v y ≤ t)).choose s : ℝ≥0∞) / (pop.length.choose s)) ^ count := by
  classical
  have := hR.isProbability
  have h0 : 0 < pop.length := List.length_pos_iff.2 hp
  have hsz : tournamentSize factor pop.length = s := by rw [hs]; rfl
  have hb := tournamentSize_bounds hf h0
  rw [hsz] at hb
  have hnum : ∀ x ∈ pop, (T.fitness x).IsNum := fun x hx => by rw [hv x hx]; trivial
  -- the winner of a drawn sample
  have hwin : ∀ is ∈ {l : List Nat | l.length = s ∧ l.Nodup ∧ ∀ i ∈ l, i < pop.length},
      ∃ w, findMax T (is.filterMap fun i => pop[i]?) = .ok w ∧ (v w ≤ t ↔ ∀ i ∈ is, ∀ x, pop[i]? = some x → v x ≤ t) := by
    rintro is ⟨h1, h2, h3⟩
    have hne : (is.filterMap fun i => pop[i]?) ≠ [] := by
      cases is with
      | nil => simp at h1; omega
      | cons i is =>
        rw [List.filterMap_cons_some (f := fun i => pop[i]?) (List.getElem?_eq_getElem (h3 i (by simp)))]; simp
    have hmem : ∀ x ∈ (is.filterMap fun i => pop[i]?), x ∈ pop := by
      intro x hx
      obtain ⟨i, -, hi⟩ := List.mem_filterMap.1 hx
      exact List.mem_of_getElem? hi
    obtain ⟨w, hw, hwm, hmax⟩ := findMax_ok T hne fun x hx => hnum x (hmem x hx)
    refine ⟨w, hw, ?_⟩
    constructor
    · intro hle i hi x hx
      have hxm : x ∈ (is.filterMap fun i => pop[i]?) := List.mem_filterMap.2 ⟨i, hi, hx⟩
      have := hmax x hxm
      rw [hv x (hmem x hxm), hv w (hmem w hwm)] at this
      exact le_trans (by simpa [Fl.Le] using this) hle
    · intro h
      obtain ⟨i, hi, hx⟩ := List.mem_filterMap.1 hwm
      exact h i hi w hx
  have : Nonempty I := ⟨pop.head hp⟩
  choose! w hw1 hw2 using hwin
  have hone : ∀ is ∈ {l : List Nat | l.length = s ∧ l.Nodup ∧ ∀ i ∈ l, i < pop.length},
      (M.forEach (idx pop) is >>= fun contenders => M.ofExcept (findMax T contenders) : M G I) = pure (w is) := by
    intro is his
    rw [forEach_idx_pure his.2.2, pure_bind, hw1 is his]
    rfl
  have hS := hR.sample pop.length s hb.2
  have hSm : ∀ g a g', R.indexSample pop.length s g = .ok (a, g') →
      a ∈ {l : List Nat | l.length = s ∧ l.Nodup ∧ ∀ i ∈ l, i < pop.length} :=
    fun g a g' h => (R.indexSample_returns hb.2).ifReturns g a g' h
  have hlaw := Uniform.bind hS (finite_samples _ _) hSm (f := fun is => M.forEach (idx pop) is >>= fun contenders => M.ofExcept (findMax T contenders))
    fun is his => Law.of_eq (Law.pure (w is)) (hone is his)
  unfold selTournament tournamentOne
  rw [hsz, hlaw.chance_replicate_all]
  congr 1
  rw [Uniform.chance_of hS (finite_samples _ _) hSm hone, samples_ncard_range]
  set A : Finset Nat := (Finset.range pop.length).filter fun i => ∀ x, pop[i]? = some x → v x ≤ t with hA
  have hset : {l : List Nat | l.length = s ∧ l.Nodup ∧ ∀ i ∈ l, i < pop.length} ∩ {is | v (w is) ≤ t} =
      {l : List Nat | l.length = s ∧ l.Nodup ∧ ∀ i ∈ l, i ∈ A} := by
    ext is
    simp only [Set.mem_inter_iff, Set.mem_ofPred_eq, hA, Finset.mem_filter, Finset.mem_range]
    constructor
    · rintro ⟨h, h2⟩
      exact ⟨h.1, h.2.1, fun i hi => ⟨h.2.2 i hi, (hw2 is h).1 h2 i hi⟩⟩
    · rintro ⟨h1, h2, h3⟩
      have h : is ∈ {l : List Nat | l.length = s ∧ l.Nodup ∧ ∀ i ∈ l, i < pop.length} := ⟨h1, h2, fun i hi => (h3 i hi).1⟩
      exact ⟨h, (hw2 is h).2 fun i hi => (h3 i hi).2⟩
  have hcard : A.card = pop.countP fun y => decide (v y ≤ t) := by
    rw [hA]
    clear hset hA A hw1 hw2 hone hS hSm hlaw hnum hs hsz hb hv hp h0
    induction pop with
    | nil => rfl
    | cons a pop ih =>
      rw [List.countP_cons, ← ih, Finset.card_filter, Finset.card_filter, List.length_cons, Finset.sum_range_succ']
      simp
  rw [hset, samples_ncard, hcard, Nat.descFactorial_eq_factorial_mul_choose, Nat.descFactorial_eq_factorial_mul_choose]
  push_cast
  rw [ENNReal.mul_div_mul_left _ _ (by exact_mod_cast s.factorial_ne_zero) (ENNReal.natCast_ne_top _)]

/-! ## Non-vacuity -/

/-- The hypotheses hold: the ideal generator exists, and a roulette wheel over the fitnesses 1 and 3 selects the second
member three times out of four. -/
example : chance tapeLaw (selRoulette tapeRng (fun b : Bool => if b then (3 : ℝ) else 1) 1 [false, true]) (· = [true]) =
    ENNReal.ofReal (3 / 4) := by
  have := C133_roulette tapeRng_ideal (fun b : Bool => if b then (3 : ℝ) else 1) (pop := [false, true]) (by simp) (by norm_num)
    (xs := [true]) (count := 1) rfl
  refine this.trans ?_
  norm_num

end

/-- Two of the three members are `true`: a random selection of two is `[true, false]` with probability 2/3 · 1/3. -/
example : chance tapeLaw (selRandom tapeRng 2 [true, false, true]) (· = [true, false]) = 2 / 3 * (1 / 3) := by
  refine (C133_random tapeRng_ideal (pop := [true, false, true]) (by simp) (xs := [true, false]) rfl).trans ?_
  norm_num
example := C133_rank_r tapeRng_ideal (r := 1 / 2) (by norm_num) (by norm_num) (pop := [true, false, true]) (by simp)
  (xs := [true, false]) (count := 2) rfl
example := C133_unique_random tapeRng_ideal (pop := [1, 2, 3]) (by decide) (xs := [3, 1]) (count := 2) rfl (by decide) (by decide)
/-- Three members, tournaments of two: both winners are at most 2 with probability (1/3)². -/
example : chance tapeLaw (selTournament tapeRng (Individual.trait (List Nat) Nat) (2 / 3) 2 [⟨[0], .num 1⟩, ⟨[1], .num 2⟩, ⟨[2], .num 3⟩])
    (fun xs => ∀ x ∈ xs, (match x.fitness with | .num v => v | .nan => 0) ≤ 2) = (1 / 3) ^ 2 := by
  have hs : 2 = max ⌊(([⟨[0], .num 1⟩, ⟨[1], .num 2⟩, ⟨[2], .num 3⟩] : List (Individual (List Nat) Nat)).length : ℝ) * (2 / 3)⌋₊ 1 := by
    norm_num
  refine (C133_tournament tapeRng_ideal (Individual.trait (List Nat) Nat) (by simp)
    (fun x : Individual (List Nat) Nat => match x.fitness with | .num v => v | .nan => 0) (by intro x hx; fin_cases hx <;> rfl)
    (by norm_num) hs 2 2).trans ?_
  rw [show List.countP _ _ = 2 from rfl]
  norm_num [Nat.choose]

end Ecrs.Props
