import Verif.Props.Selection
import Verif.ProbTape
import Mathlib.Algebra.Order.Floor.Ring

/-!
# C152: StochasticUniversalSampling is unbiased
-/

set_option linter.unusedSectionVars false

namespace Ecrs.Ga
open Ecrs MeasureTheory
open scoped ENNReal

/-- Specification: `gen_range(lo..=hi)` is uniform on the interval. -/
def UniformBetween {G : Type} [MeasurableSpace G] (R : FRng G ℝ) (μ : Measure G) : Prop :=
  ∀ lo hi, lo < hi → ∀ A, MeasurableSet A →
    μ {g | (R.between g lo hi).1 ∈ A} = volume (A ∩ Set.Icc lo hi) / ENNReal.ofReal (hi - lo)

section
variable {G I : Type} (fit : I → ℝ)

/-- The number of pointers `p, p + d, p + 2 d, …` that are at most `s`. -/
noncomputable def ticks (d p s : ℝ) : Nat := ⌊(s - p) / d + 1⌋₊

theorem ticks_mono {d p : ℝ} (hd : 0 < d) {s s' : ℝ} (h : s ≤ s') : ticks d p s ≤ ticks d p s' :=
  Nat.floor_mono (by
    have := div_le_div_of_nonneg_right (sub_le_sub_right h p) hd.le
    linarith)

/-- The selection, individual by individual. -/
noncomputable def picks (d p : ℝ) : ℝ → List I → List I
  | _, [] => []
  | s, x :: xs => List.replicate (ticks d p (s + fit x) - ticks d p s) x ++ picks d p (s + fit x) xs

theorem susGo_picks {d p : ℝ} (hd : 0 < d) (hp : 0 ≤ p) {fuel N : Nat} (hfuel : N + 2 < fuel) : ∀ (pop : List I) (s : ℝ),
    (∀ y ∈ pop, 0 ≤ fit y) → 0 ≤ s → s + (pop.map fit).sum ≤ (N : ℝ) * d →
    (susGo fit d fuel s (p + (ticks d p s : ℝ) * d) pop : M G _) = pure (picks fit d p s pop) := by
  intro pop
  induction pop with
  | nil => intro s _ _ _; rfl
  | cons x xs ih =>
    intro s hf hs hN
    have hx := hf x (by simp)
    have hxs : 0 ≤ (xs.map fit).sum := List.sum_nonneg (by
      intro a ha; obtain ⟨y, hy, rfl⟩ := List.mem_map.1 ha; exact hf y (by simp [hy]))
    simp only [List.map_cons, List.sum_cons] at hN
    have hfuel' : ((N : ℝ) + 3) ≤ (fuel : ℝ) := by exact_mod_cast hfuel
    have ht : 0 ≤ (ticks d p s : ℝ) * d := by positivity
    obtain ⟨k, h1, h2, h3⟩ := susWhile_eq (G := G) (sum := s + fit x) (d := d) fuel (p + (ticks d p s : ℝ) * d) (by omega)
      (by nlinarith)
    have hk : ticks d p (s + fit x) = ticks d p s + k := by
      have hup : (s + fit x - p) / d + 1 < ((ticks d p s + k : Nat) : ℝ) + 1 := by
        have : (s + fit x - p) / d < ((ticks d p s + k : Nat) : ℝ) := by
          rw [div_lt_iff₀ hd]; push_cast; linarith
        linarith
      apply le_antisymm
      · apply Nat.lt_succ_iff.1
        unfold ticks at hup ⊢
        exact (Nat.floor_lt' (by omega)).2 (by push_cast at hup ⊢; exact hup)
      · rcases h3 with rfl | h3
        · exact ticks_mono hd (by linarith)
        · have : ((ticks d p s + k : Nat) : ℝ) ≤ (s + fit x - p) / d + 1 := by
            have : ((ticks d p s : ℝ) + k - 1) ≤ (s + fit x - p) / d := by
              rw [le_div_iff₀ hd]; linarith
            push_cast; linarith
          exact Nat.le_floor this
    unfold susGo picks
    rw [h1, pure_bind]
    simp only
    have e : p + (ticks d p s : ℝ) * d + (k : ℝ) * d = p + (ticks d p (s + fit x) : ℝ) * d := by rw [hk]; push_cast; ring
    rw [e, ih (s + fit x) (fun y hy => hf y (by simp [hy])) (by linarith) (by linarith), pure_bind, hk, Nat.add_sub_cancel_left]

theorem picks_mem {d p : ℝ} : ∀ (pop : List I) (s : ℝ) (y : I), y ∈ picks fit d p s pop → y ∈ pop := by
  intro pop
  induction pop with
  | nil => intro s y h; exact h
  | cons x xs ih =>
    intro s y h
    unfold picks at h
    rcases List.mem_append.1 h with h | h
    · rw [List.eq_of_mem_replicate h]; simp
    · exact List.mem_cons_of_mem _ (ih _ _ h)

variable [DecidableEq I]

theorem picks_count {d p : ℝ} : ∀ (xs : List I) (y : I) (ys : List I) (s : ℝ), y ∉ xs → y ∉ ys →
    (picks fit d p s (xs ++ y :: ys)).count y =
      ticks d p (s + (xs.map fit).sum + fit y) - ticks d p (s + (xs.map fit).sum) := by
  intro xs
  induction xs with
  | nil =>
    intro y ys s _ hy
    simp only [List.nil_append, List.map_nil, List.sum_nil, add_zero, picks, List.count_append, List.count_replicate_self]
    rw [List.count_eq_zero.2 fun h => hy (picks_mem fit _ _ _ h), Nat.add_zero]
  | cons x xs ih =>
    intro y ys s hy hy'
    have hxy : x ≠ y := fun h => hy (by simp [h])
    simp only [List.cons_append, picks, List.count_append, List.map_cons, List.sum_cons]
    rw [List.count_replicate, if_neg (by simpa using hxy), Nat.zero_add, ih y ys _ (fun h => hy (by simp [h])) hy', ← add_assoc]

/-! ## How the number of copies depends on the first pointer -/

theorem ticks_eq {d p s : ℝ} (hd : 0 < d) (hp : 0 < p) (hpd : p ≤ d) (hs : 0 ≤ s) :
    ticks d p s = ⌊s / d⌋₊ + if p ≤ d * Int.fract (s / d) then 1 else 0 := by
  have hα : 0 ≤ s / d := div_nonneg hs hd.le
  have hfr : s / d = (⌊s / d⌋₊ : ℝ) + Int.fract (s / d) := by
    rw [natCast_floor_eq_intCast_floor hα, Int.floor_add_fract]
  have e : (s - p) / d + 1 = (⌊s / d⌋₊ : ℝ) + (Int.fract (s / d) - p / d + 1) := by
    rw [sub_div]; linarith
  have hpd' : p / d ≤ 1 := (div_le_one hd).2 hpd
  have hp' : 0 < p / d := div_pos hp hd
  have h0 := Int.fract_nonneg (s / d)
  have h1 := Int.fract_lt_one (s / d)
  unfold ticks
  rw [e]
  split
  · next h =>
    have : p / d ≤ Int.fract (s / d) := by rw [div_le_iff₀ hd]; linarith
    rw [Nat.floor_eq_iff (by linarith [Nat.cast_nonneg (α := ℝ) ⌊s / d⌋₊])]
    push_cast
    constructor <;> linarith
  · next h =>
    have : Int.fract (s / d) < p / d := by
      rw [lt_div_iff₀ hd]; linarith
    rw [Nat.floor_eq_iff (by linarith [Nat.cast_nonneg (α := ℝ) ⌊s / d⌋₊])]
    push_cast
    constructor <;> linarith

/-- The first pointers for which an individual after the total `s` gets one copy more than the integer part of its share. -/
theorem more_iff {d p s f : ℝ} (hd : 0 < d) (hp : 0 < p) (hpd : p ≤ d) (hs : 0 ≤ s) (hf : 0 ≤ f) :
    let α := Int.fract (s / d)
    let β := Int.fract ((s + f) / d)
    (ticks d p (s + f) - ticks d p s = ⌊f / d⌋₊ + 1 ∧
      (if α ≤ β then d * α < p ∧ p ≤ d * β else ¬ (d * β < p ∧ p ≤ d * α))) ∨
    (ticks d p (s + f) - ticks d p s = ⌊f / d⌋₊ ∧
      ¬ (if α ≤ β then d * α < p ∧ p ≤ d * β else ¬ (d * β < p ∧ p ≤ d * α))) := by
  intro α β
  have hx : 0 ≤ f / d := div_nonneg hf hd.le
  have ha : 0 ≤ s / d := div_nonneg hs hd.le
  have hb : (s + f) / d = s / d + f / d := add_div ..
  have e1 : s / d = (⌊s / d⌋₊ : ℝ) + α := by rw [natCast_floor_eq_intCast_floor ha, Int.floor_add_fract]
  have e2 : (s + f) / d = (⌊(s + f) / d⌋₊ : ℝ) + β := by
    rw [natCast_floor_eq_intCast_floor (by rw [hb]; linarith), Int.floor_add_fract]
  have e3 : f / d = (⌊f / d⌋₊ : ℝ) + Int.fract (f / d) := by rw [natCast_floor_eq_intCast_floor hx, Int.floor_add_fract]
  have a0 : 0 ≤ α := Int.fract_nonneg _
  have a1 : α < 1 := Int.fract_lt_one _
  have b0 : 0 ≤ β := Int.fract_nonneg _
  have b1 : β < 1 := Int.fract_lt_one _
  have x0 := Int.fract_nonneg (f / d)
  have x1 := Int.fract_lt_one (f / d)
  have t1 := ticks_eq (s := s) hd hp hpd hs
  have t2 := ticks_eq (s := s + f) hd hp hpd (by linarith)
  change _ = _ + if p ≤ d * α then 1 else 0 at t1
  change _ = _ + if p ≤ d * β then 1 else 0 at t2
  generalize ⌊s / d⌋₊ = A at *
  generalize ⌊(s + f) / d⌋₊ = B at *
  generalize ⌊f / d⌋₊ = C at *
  by_cases hαβ : α ≤ β
  · have hdd : d * α ≤ d * β := mul_le_mul_of_nonneg_left hαβ hd.le
    have hB : B = A + C := by
      have u1 : (B : ℝ) < (A + C : Nat) + 1 := by push_cast; linarith
      have u2 : ((A + C : Nat) : ℝ) < B + 1 := by push_cast; linarith
      have u1 : B < A + C + 1 := by exact_mod_cast u1
      have u2 : A + C < B + 1 := by exact_mod_cast u2
      omega
    rw [if_pos hαβ]
    by_cases h1 : p ≤ d * α
    · right
      rw [if_pos h1] at t1
      rw [if_pos (h1.trans hdd)] at t2
      exact ⟨by omega, fun h => absurd h.1 (not_lt.2 h1)⟩
    · rw [if_neg h1] at t1
      by_cases h2 : p ≤ d * β
      · left
        rw [if_pos h2] at t2
        exact ⟨by omega, not_le.1 h1, h2⟩
      · right
        rw [if_neg h2] at t2
        exact ⟨by omega, fun h => h2 h.2⟩
  · have hdd : d * β ≤ d * α := mul_le_mul_of_nonneg_left (le_of_not_ge hαβ) hd.le
    have hB : B = A + C + 1 := by
      have u1 : (B : ℝ) < (A + C + 1 : Nat) + 1 := by push_cast; linarith
      have u2 : ((A + C + 1 : Nat) : ℝ) < B + 1 := by push_cast; linarith
      have u1 : B < A + C + 1 + 1 := by exact_mod_cast u1
      have u2 : A + C + 1 < B + 1 := by exact_mod_cast u2
      omega
    rw [if_neg hαβ]
    by_cases h1 : p ≤ d * β
    · left
      rw [if_pos h1] at t2
      rw [if_pos (h1.trans hdd)] at t1
      exact ⟨by omega, fun h => absurd h.1 (not_lt.2 h1)⟩
    · rw [if_neg h1] at t2
      by_cases h2 : p ≤ d * α
      · right
        rw [if_pos h2] at t1
        exact ⟨by omega, fun h => h ⟨not_le.1 h1, h2⟩⟩
      · left
        rw [if_neg h2] at t1
        exact ⟨by omega, fun h => h2 h.2⟩

/-- The pointers that give one copy more are `fract (f / d)` of all. -/
theorem more_volume {d s f : ℝ} (hd : 0 < d) (hs : 0 ≤ s) (hf : 0 ≤ f) (A : Set ℝ)
    (hA : A = {p | 0 < p ∧ p ≤ d ∧ ticks d p (s + f) - ticks d p s = ⌊f / d⌋₊ + 1}) :
    MeasurableSet A ∧ volume A = ENNReal.ofReal (d * Int.fract (f / d)) := by
  have hx : 0 ≤ f / d := div_nonneg hf hd.le
  set α := Int.fract (s / d) with hα
  set β := Int.fract ((s + f) / d) with hβ
  have hb : (s + f) / d = s / d + f / d := add_div ..
  have a0 : 0 ≤ α := Int.fract_nonneg _
  have a1 : α < 1 := Int.fract_lt_one _
  have b0 : 0 ≤ β := Int.fract_nonneg _
  have b1 : β < 1 := Int.fract_lt_one _
  have hda : d * α ≤ d := by nlinarith
  have hdb : d * β ≤ d := by nlinarith
  have hfr : Int.fract (f / d) = if α ≤ β then β - α else 1 + β - α := by
    have e1 : (⌊s / d⌋ : ℝ) + α = s / d := Int.floor_add_fract _
    have e2 : (⌊(s + f) / d⌋ : ℝ) + β = (s + f) / d := Int.floor_add_fract _
    split
    · next h =>
      rw [Int.fract_eq_iff]
      exact ⟨by linarith, by linarith, ⌊(s + f) / d⌋ - ⌊s / d⌋, by push_cast; linarith⟩
    · next h =>
      rw [Int.fract_eq_iff]
      exact ⟨by linarith, by linarith, ⌊(s + f) / d⌋ - ⌊s / d⌋ - 1, by push_cast; linarith⟩
  by_cases h : α ≤ β
  · have e : A = Set.Ioc (d * α) (d * β) := by
      rw [hA]
      ext p
      simp only [Set.mem_ofPred_eq, Set.mem_Ioc]
      constructor
      · rintro ⟨h1, h2, h3⟩
        rcases more_iff hd h1 h2 hs hf with ⟨-, q⟩ | ⟨q, -⟩
        · rwa [if_pos h] at q
        · omega
      · rintro ⟨h1, h2⟩
        have hp : 0 < p := by nlinarith
        refine ⟨hp, h2.trans hdb, ?_⟩
        rcases more_iff hd hp (h2.trans hdb) hs hf with ⟨q, -⟩ | ⟨-, q⟩
        · exact q
        · exact absurd (by rw [if_pos h]; exact ⟨h1, h2⟩) q
    rw [e]
    refine ⟨measurableSet_Ioc, ?_⟩
    rw [Real.volume_Ioc, hfr, if_pos h]
    congr 1; ring
  · have e : A = Set.Ioc 0 (d * β) ∪ Set.Ioc (d * α) d := by
      rw [hA]
      ext p
      simp only [Set.mem_ofPred_eq, Set.mem_Ioc, Set.mem_union]
      constructor
      · rintro ⟨h1, h2, h3⟩
        rcases more_iff hd h1 h2 hs hf with ⟨-, q⟩ | ⟨q, -⟩
        · rw [if_neg h] at q
          by_cases h4 : p ≤ d * β
          · exact .inl ⟨h1, h4⟩
          · exact .inr ⟨by by_contra h5; exact q ⟨not_le.1 h4, not_lt.1 h5⟩, h2⟩
        · omega
      · intro h1
        have hp : 0 < p := by
          rcases h1 with h1 | h1
          · exact h1.1
          · nlinarith [h1.1]
        have hpd : p ≤ d := by
          rcases h1 with h1 | h1
          · exact h1.2.trans hdb
          · exact h1.2
        refine ⟨hp, hpd, ?_⟩
        rcases more_iff hd hp hpd hs hf with ⟨q, -⟩ | ⟨-, q⟩
        · exact q
        · exfalso
          rw [if_neg h, not_not] at q
          have q : d * β < p ∧ p ≤ d * α := q
          rcases h1 with h1 | h1
          · exact absurd h1.2 (not_le.2 q.1)
          · exact absurd h1.1 (not_lt.2 q.2)
    rw [e]
    refine ⟨measurableSet_Ioc.union measurableSet_Ioc, ?_⟩
    rw [measure_union ?_ measurableSet_Ioc, Real.volume_Ioc, Real.volume_Ioc, hfr, if_neg h, ← ENNReal.ofReal_add]
    · congr 1; ring
    · simpa using mul_nonneg hd.le b0
    · linarith
    · rw [Set.disjoint_left]
      rintro p ⟨-, h1⟩ ⟨h2, -⟩
      have : d * β ≤ d * α := mul_le_mul_of_nonneg_left (le_of_not_ge h) hd.le
      linarith

omit [DecidableEq I] in
/-- What the operator returns when the first pointer is positive. -/
theorem sus_run {R : FRng G ℝ} {count fuel : Nat} {pop : List I} (hf : ∀ y ∈ pop, 0 ≤ fit y)
    (ht : 0 < (pop.map fit).sum) (hcount : 0 < count) (hfuel : count + 2 < fuel) (g : G)
    (hdraw : 0 < (R.between g 0 ((pop.map fit).sum / (count : ℝ))).1) :
    ∃ g', selSus R fit fuel count pop g = .ok (picks fit ((pop.map fit).sum / (count : ℝ))
      (R.between g 0 ((pop.map fit).sum / (count : ℝ))).1 0 pop, g') := by
  have hc : (0 : ℝ) < (count : ℝ) := by exact_mod_cast hcount
  have hd : 0 < (pop.map fit).sum / (count : ℝ) := div_pos ht hc
  have hdt : (pop.map fit).sum = (count : ℝ) * ((pop.map fit).sum / (count : ℝ)) := by field_simp
  obtain ⟨sel, g', h1, -⟩ := C34_sus_no_panic (R := R) fit hf ht hcount hfuel g hdraw
  refine ⟨g', ?_⟩
  rw [h1]
  unfold selSus at h1
  rw [M.bind_of_ok (a := ()) (w' := g) (by simp [hd, M.assert])] at h1
  rw [M.bind_of_ok (a := (R.between g 0 ((pop.map fit).sum / (count : ℝ))).1)
    (w' := (R.between g 0 ((pop.map fit).sum / (count : ℝ))).2) (by
      unfold FRng.genBetween; rw [if_pos hd.le]; rfl)] at h1
  have ht0 : ticks ((pop.map fit).sum / (count : ℝ)) (R.between g 0 ((pop.map fit).sum / (count : ℝ))).1 0 = 0 := by
    unfold ticks
    rw [Nat.floor_eq_zero]
    have : (0 - (R.between g 0 ((pop.map fit).sum / (count : ℝ))).1) / ((pop.map fit).sum / (count : ℝ)) < 0 :=
      div_neg_of_neg_of_pos (by linarith) hd
    linarith
  have e := susGo_picks (G := G) (fit := fit) hd hdraw.le (N := count) hfuel pop 0 hf le_rfl (by rw [zero_add]; exact hdt.le)
  rw [ht0, Nat.cast_zero, zero_mul, add_zero] at e
  rw [e, pure_bind] at h1
  obtain ⟨_, g1, h2, h3⟩ := M.bind_ok_iff.1 h1
  rw [M.pure_ok_iff] at h3
  have h4 : sel = _ := (Prod.ext_iff.1 h3).1
  rw [h4]

variable [MeasurableSpace G] {μ : Measure G}

omit [DecidableEq I] in
/-- Chances are shares of the first pointers. -/
theorem sus_chance {R : FRng G ℝ} (hR : UniformBetween R μ) {count fuel : Nat} {pop : List I} (hf : ∀ y ∈ pop, 0 ≤ fit y)
    (ht : 0 < (pop.map fit).sum) (hcount : 0 < count) (hfuel : count + 2 < fuel) (Q : List I → Prop)
    (hA : MeasurableSet {p | 0 < p ∧ p ≤ (pop.map fit).sum / (count : ℝ) ∧ Q (picks fit ((pop.map fit).sum / (count : ℝ)) p 0 pop)}) :
    chance μ (selSus R fit fuel count pop) Q =
      volume {p | 0 < p ∧ p ≤ (pop.map fit).sum / (count : ℝ) ∧ Q (picks fit ((pop.map fit).sum / (count : ℝ)) p 0 pop)} /
        ENNReal.ofReal ((pop.map fit).sum / (count : ℝ)) := by
  have hc : (0 : ℝ) < (count : ℝ) := by exact_mod_cast hcount
  have hd : 0 < (pop.map fit).sum / (count : ℝ) := div_pos ht hc
  have h := hR 0 _ hd _ hA
  have hsub : {p | 0 < p ∧ p ≤ (pop.map fit).sum / (count : ℝ) ∧ Q (picks fit ((pop.map fit).sum / (count : ℝ)) p 0 pop)} ⊆
      Set.Icc 0 ((pop.map fit).sum / (count : ℝ)) := by
    rintro p ⟨h1, h2, -⟩
    exact ⟨h1.le, h2⟩
  rw [sub_zero, Set.inter_eq_left.2 hsub] at h
  rw [← h]
  unfold chance
  congr 1
  ext g
  simp only [Set.mem_ofPred_eq]
  have hb := R.between_spec g 0 _ hd.le
  rcases eq_or_lt_of_le hb.1 with h0 | h0
  · constructor
    · rintro ⟨a, g', h1, -⟩
      rw [C34_sus_panics_on_zero_draw (R := R) fit hf ht hcount hfuel g h0.symm] at h1
      cases h1
    · rintro ⟨h1, -⟩
      exact absurd h0 (ne_of_lt h1)
  · obtain ⟨g', h1⟩ := sus_run (R := R) fit hf ht hcount hfuel g h0
    constructor
    · rintro ⟨a, g'', h2, h3⟩
      rw [h1] at h2
      have : a = _ := ((Prod.ext_iff.1 (Except.ok.inj h2)).1).symm
      rw [this] at h3
      exact ⟨h0, hb.2, h3⟩
    · rintro ⟨-, -, h3⟩
      exact ⟨_, g', h1, h3⟩

/-- Only two numbers of copies are possible. -/
theorem sus_two {d p : ℝ} {xs ys : List I} {y : I} (hxs : y ∉ xs) (hys : y ∉ ys) (hf : ∀ x ∈ xs ++ y :: ys, 0 ≤ fit x)
    (hd : 0 < d) (h1 : 0 < p) (h2 : p ≤ d) : (picks fit d p 0 (xs ++ y :: ys)).count y = ⌊fit y / d⌋₊ + 1 ∨
      (picks fit d p 0 (xs ++ y :: ys)).count y = ⌊fit y / d⌋₊ := by
  have hs0 : 0 ≤ (xs.map fit).sum := List.sum_nonneg (by
      intro a ha; obtain ⟨z, hz, rfl⟩ := List.mem_map.1 ha; exact hf z (by simp [hz]))
  rw [picks_count fit xs y ys 0 hxs hys, zero_add]
  rcases more_iff hd h1 h2 hs0 (hf y (by simp)) with ⟨q, -⟩ | ⟨q, -⟩
  · exact .inl q
  · exact .inr q

/-- **C152.** Let the start pointer be uniform on its interval and let `share = count · f / total` be the fair number of copies of
an individual of fitness `f`.  StochasticUniversalSampling selects it `⌊share⌋ + 1` times with probability the fractional part of
`share` and `⌊share⌋` times otherwise; the expected number of copies is exactly `share`.  (Non-negative fitness values of positive
total.) -/
theorem C152_sus_unbiased {R : FRng G ℝ} (hR : UniformBetween R μ) {count fuel : Nat} {xs ys : List I} {y : I} (hxs : y ∉ xs)
    (hys : y ∉ ys) (hf : ∀ x ∈ xs ++ y :: ys, 0 ≤ fit x) (ht : 0 < ((xs ++ y :: ys).map fit).sum) (hcount : 0 < count)
    (hfuel : count + 2 < fuel) (share : ℝ) (hshare : share = count * fit y / ((xs ++ y :: ys).map fit).sum) :
    chance μ (selSus R fit fuel count (xs ++ y :: ys)) (fun sel => sel.count y = ⌊share⌋₊ + 1) = ENNReal.ofReal (Int.fract share) ∧
    chance μ (selSus R fit fuel count (xs ++ y :: ys)) (fun sel => sel.count y = ⌊share⌋₊) = ENNReal.ofReal (1 - Int.fract share) ∧
    ∑' k : Nat, (k : ℝ≥0∞) * chance μ (selSus R fit fuel count (xs ++ y :: ys)) (fun sel => sel.count y = k) =
      ENNReal.ofReal share := by
  have hc : (0 : ℝ) < (count : ℝ) := by exact_mod_cast hcount
  set total := ((xs ++ y :: ys).map fit).sum with htot
  have hd : 0 < total / (count : ℝ) := div_pos ht hc
  set d := total / (count : ℝ) with hdd
  have hs0 : 0 ≤ (xs.map fit).sum := List.sum_nonneg (by
      intro a ha; obtain ⟨z, hz, rfl⟩ := List.mem_map.1 ha; exact hf z (by simp [hz]))
  have hy0 := hf y (by simp)
  have hsd : fit y / d = share := by rw [hshare, hdd]; field_simp
  have hsh0 : 0 ≤ share := by rw [← hsd]; exact div_nonneg hy0 hd.le
  have hcnt : ∀ p, (picks fit d p 0 (xs ++ y :: ys)).count y =
      ticks d p ((xs.map fit).sum + fit y) - ticks d p (xs.map fit).sum := by
    intro p
    rw [picks_count fit xs y ys 0 hxs hys, zero_add]
  have hdne : ENNReal.ofReal d ≠ 0 := by simpa using hd
  have hfr0 := Int.fract_nonneg share
  have hfr1 := Int.fract_lt_one share
  obtain ⟨m1, v1⟩ := more_volume (s := (xs.map fit).sum) hd hs0 hy0 {p | 0 < p ∧ p ≤ d ∧
    (picks fit d p 0 (xs ++ y :: ys)).count y = ⌊share⌋₊ + 1} (by simp only [hcnt, hsd])
  rw [hsd] at v1
  have two : ∀ p, 0 < p → p ≤ d → (picks fit d p 0 (xs ++ y :: ys)).count y = ⌊share⌋₊ + 1 ∨
      (picks fit d p 0 (xs ++ y :: ys)).count y = ⌊share⌋₊ := by
    intro p h1 h2
    rw [← hsd]
    exact sus_two fit hxs hys hf hd h1 h2
  have e2 : {p | 0 < p ∧ p ≤ d ∧ (picks fit d p 0 (xs ++ y :: ys)).count y = ⌊share⌋₊} =
      Set.Ioc 0 d \ {p | 0 < p ∧ p ≤ d ∧ (picks fit d p 0 (xs ++ y :: ys)).count y = ⌊share⌋₊ + 1} := by
    ext p
    simp only [Set.mem_ofPred_eq, Set.mem_sdiff, Set.mem_Ioc]
    constructor
    · rintro ⟨h1, h2, h3⟩
      exact ⟨⟨h1, h2⟩, fun h => by omega⟩
    · rintro ⟨⟨h1, h2⟩, h3⟩
      rcases two p h1 h2 with h | h
      · exact absurd ⟨h1, h2, h⟩ h3
      · exact ⟨h1, h2, h⟩
  have m2 : MeasurableSet {p | 0 < p ∧ p ≤ d ∧ (picks fit d p 0 (xs ++ y :: ys)).count y = ⌊share⌋₊} := by
    rw [e2]; exact measurableSet_Ioc.diff m1
  have v2 : volume {p | 0 < p ∧ p ≤ d ∧ (picks fit d p 0 (xs ++ y :: ys)).count y = ⌊share⌋₊} =
      ENNReal.ofReal (d * (1 - Int.fract share)) := by
    have hsub : {p | 0 < p ∧ p ≤ d ∧ (picks fit d p 0 (xs ++ y :: ys)).count y = ⌊share⌋₊ + 1} ⊆ Set.Ioc 0 d := by
      rintro p ⟨h1, h2, -⟩
      exact ⟨h1, h2⟩
    rw [e2, measure_sdiff hsub m1.nullMeasurableSet (by rw [v1]; exact ENNReal.ofReal_ne_top), v1,
      Real.volume_Ioc, sub_zero, ← ENNReal.ofReal_sub _ (by positivity)]
    congr 1; ring
  have c1 : chance μ (selSus R fit fuel count (xs ++ y :: ys)) (fun sel => sel.count y = ⌊share⌋₊ + 1) =
      ENNReal.ofReal (Int.fract share) := by
    rw [sus_chance fit hR hf ht hcount hfuel _ m1, v1, ENNReal.ofReal_mul hd.le, mul_comm, ENNReal.mul_div_cancel_right hdne ENNReal.ofReal_ne_top]
  have c2 : chance μ (selSus R fit fuel count (xs ++ y :: ys)) (fun sel => sel.count y = ⌊share⌋₊) =
      ENNReal.ofReal (1 - Int.fract share) := by
    rw [sus_chance fit hR hf ht hcount hfuel _ m2, v2, ENNReal.ofReal_mul hd.le, mul_comm, ENNReal.mul_div_cancel_right hdne ENNReal.ofReal_ne_top]
  refine ⟨c1, c2, ?_⟩
  have h0 : ∀ k, k ∉ ({⌊share⌋₊, ⌊share⌋₊ + 1} : Finset Nat) →
      (k : ℝ≥0∞) * chance μ (selSus R fit fuel count (xs ++ y :: ys)) (fun sel => sel.count y = k) = 0 := by
    intro k hk
    have e : {p | 0 < p ∧ p ≤ d ∧ (picks fit d p 0 (xs ++ y :: ys)).count y = k} = ∅ := by
      ext p
      simp only [Set.mem_ofPred_eq, Set.mem_empty_iff_false, iff_false]
      rintro ⟨h1, h2, h3⟩
      simp only [Finset.mem_insert, Finset.mem_singleton] at hk
      rcases two p h1 h2 with h | h <;> omega
    rw [sus_chance fit hR hf ht hcount hfuel _ (by show MeasurableSet {p | 0 < p ∧ p ≤ d ∧ _}; rw [e]; exact .empty)]
    show _ * (volume {p | 0 < p ∧ p ≤ d ∧ (picks fit d p 0 (xs ++ y :: ys)).count y = k} / _) = 0
    rw [e]; simp
  rw [tsum_eq_sum h0, Finset.sum_pair (by omega), c1, c2]
  have hfl : share = (⌊share⌋₊ : ℝ) + Int.fract share := by rw [natCast_floor_eq_intCast_floor hsh0, Int.floor_add_fract]
  have hcast : ∀ n : Nat, (n : ℝ≥0∞) = ENNReal.ofReal (n : ℝ) := fun n => (ENNReal.ofReal_natCast n).symm
  rw [hcast, hcast, ← ENNReal.ofReal_mul (by positivity), ← ENNReal.ofReal_mul (by positivity),
    ← ENNReal.ofReal_add (by
      have : 0 ≤ 1 - Int.fract share := by linarith
      positivity) (by positivity)]
  congr 1
  conv_rhs => rw [hfl]
  push_cast
  ring

/-- **C152, who is missed.** An individual with a fair share of at least one copy is always selected; one with a smaller share is
selected with probability exactly that share.  Altogether the operator panics with probability zero. -/
theorem C152_sus_missed {R : FRng G ℝ} (hR : UniformBetween R μ) {count fuel : Nat} {xs ys : List I} {y : I} (hxs : y ∉ xs)
    (hys : y ∉ ys) (hf : ∀ x ∈ xs ++ y :: ys, 0 ≤ fit x) (ht : 0 < ((xs ++ y :: ys).map fit).sum) (hcount : 0 < count)
    (hfuel : count + 2 < fuel) (share : ℝ) (hshare : share = count * fit y / ((xs ++ y :: ys).map fit).sum) :
    chance μ (selSus R fit fuel count (xs ++ y :: ys)) (fun sel => y ∈ sel) = ENNReal.ofReal (min 1 share) ∧
    chance μ (selSus R fit fuel count (xs ++ y :: ys)) (fun _ => True) = 1 := by
  have hc : (0 : ℝ) < (count : ℝ) := by exact_mod_cast hcount
  set total := ((xs ++ y :: ys).map fit).sum with htot
  have hd : 0 < total / (count : ℝ) := div_pos ht hc
  have hdne : ENNReal.ofReal (total / (count : ℝ)) ≠ 0 := by simpa using hd
  have hy0 := hf y (by simp)
  have hsh0 : 0 ≤ share := by rw [hshare]; positivity
  have hall : chance μ (selSus R fit fuel count (xs ++ y :: ys)) (fun _ => True) = 1 := by
    have e : {p | 0 < p ∧ p ≤ total / (count : ℝ) ∧ True} = Set.Ioc 0 (total / (count : ℝ)) := by ext p; simp
    rw [sus_chance fit hR hf ht hcount hfuel _ (by show MeasurableSet {p | 0 < p ∧ p ≤ total / (count : ℝ) ∧ True}; rw [e]; exact measurableSet_Ioc)]
    show volume {p | 0 < p ∧ p ≤ total / (count : ℝ) ∧ True} / ENNReal.ofReal (total / (count : ℝ)) = 1
    rw [e, Real.volume_Ioc, sub_zero]
    exact ENNReal.div_self hdne ENNReal.ofReal_ne_top
  refine ⟨?_, hall⟩
  obtain ⟨h1, h2, -⟩ := C152_sus_unbiased fit hR hxs hys hf ht hcount hfuel share hshare
  have hsd : fit y / (total / (count : ℝ)) = share := by rw [hshare]; field_simp
  have hmem : ∀ Q : List I → Prop, (∀ p, 0 < p → p ≤ total / (count : ℝ) →
      (y ∈ picks fit (total / (count : ℝ)) p 0 (xs ++ y :: ys) ↔ Q (picks fit (total / (count : ℝ)) p 0 (xs ++ y :: ys)))) →
      chance μ (selSus R fit fuel count (xs ++ y :: ys)) (fun sel => y ∈ sel) = chance μ (selSus R fit fuel count (xs ++ y :: ys)) Q := by
    intro Q hQ
    unfold chance
    congr 1
    ext g
    simp only [Set.mem_ofPred_eq]
    have hb := R.between_spec g 0 _ hd.le
    rcases eq_or_lt_of_le hb.1 with h0 | h0
    · have := C34_sus_panics_on_zero_draw (R := R) fit hf ht hcount hfuel g h0.symm
      constructor <;>
      · rintro ⟨a, g', h3, -⟩
        rw [this] at h3
        cases h3
    · obtain ⟨g', h3⟩ := sus_run (R := R) fit hf ht hcount hfuel g h0
      have hq := hQ _ h0 hb.2
      constructor <;>
      · rintro ⟨a, g'', h4, h5⟩
        rw [h3] at h4
        have : a = _ := ((Prod.ext_iff.1 (Except.ok.inj h4)).1).symm
        rw [this] at h5
        first | exact ⟨_, g', h3, hq.1 h5⟩ | exact ⟨_, g', h3, hq.2 h5⟩
  rcases lt_or_ge share 1 with hlt | hge
  · have hfl : ⌊share⌋₊ = 0 := Nat.floor_eq_zero.2 hlt
    have hfr : Int.fract share = share := Int.fract_eq_self.2 ⟨hsh0, hlt⟩
    rw [min_eq_right hlt.le, ← hfr, ← h1]
    refine hmem _ fun p q1 q2 => ?_
    have := sus_two fit hxs hys hf hd q1 q2
    rw [hsd, hfl] at this
    rw [hfl, ← List.count_pos_iff]
    omega
  · rw [min_eq_left hge, ENNReal.ofReal_one, ← hall]
    refine hmem _ fun p q1 q2 => ?_
    have := sus_two fit hxs hys hf hd q1 q2
    rw [hsd] at this
    have h3 : 1 ≤ ⌊share⌋₊ := Nat.le_floor (by simpa using hge)
    rw [← List.count_pos_iff]
    simp only [iff_true]
    omega

end

/-! ## The hypotheses are met -/

/-- The tape generator with uniform draws from closed intervals. -/
noncomputable def tapeBetween : FRng Tape ℝ :=
  { tapeRng with
    between := fun g lo hi => (lo + (g 0 : ℝ) * (hi - lo), g.rest)
    between_spec := fun g lo hi h => by
      have h0 := (g 0).2.1
      have h1 := (g 0).2.2
      have h2 : 0 ≤ hi - lo := sub_nonneg.2 h
      exact ⟨by nlinarith, by nlinarith⟩
    halfOpen := fun g lo _ => (lo, g)
    halfOpen_spec := fun _ _ _ h => ⟨le_rfl, h⟩
    weighted := fun g _ _ => (none, g)
    weighted_spec := fun _ _ _ _ h => by cases h }

theorem tapeBetween_uniform : UniformBetween tapeBetween tapeLaw := by
  intro lo hi h A hA
  have hd : 0 < hi - lo := sub_pos.2 h
  have hB : MeasurableSet {u : ℝ | lo + u * (hi - lo) ∈ A} := hA.preimage (by fun_prop)
  have h1 := (tapeRng_ideal.unit {u : ℝ | lo + u * (hi - lo) ∈ A} Set.univ hB .univ).2
  have e1 : {g : Tape | (tapeBetween.between g lo hi).1 ∈ A} =
      {g : Tape | (tapeRng.unit g).1 ∈ {u : ℝ | lo + u * (hi - lo) ∈ A} ∧ (tapeRng.unit g).2 ∈ (Set.univ : Set Tape)} := by
    ext g
    simp only [Set.mem_ofPred_eq, Set.mem_univ, and_true]
    rfl
  rw [e1, h1, tapeRng_ideal.total, mul_one]
  have e2 : {u : ℝ | lo + u * (hi - lo) ∈ A} ∩ Set.Ico 0 1 =
      (fun u => u * (hi - lo)) ⁻¹' ((fun v => lo + v) ⁻¹' (A ∩ Set.Ico lo hi)) := by
    ext u
    simp only [Set.mem_inter_iff, Set.mem_ofPred_eq, Set.mem_Ico, Set.mem_preimage]
    refine and_congr_right fun _ => ⟨fun ⟨h2, h3⟩ => ⟨by nlinarith, by nlinarith⟩, fun ⟨h2, h3⟩ => ?_⟩
    have h2 : 0 ≤ u * (hi - lo) := by linarith
    have h3 : u * (hi - lo) < 1 * (hi - lo) := by linarith
    exact ⟨nonneg_of_mul_nonneg_left h2 hd, lt_of_mul_lt_mul_right h3 hd.le⟩
  rw [e2, Real.volume_preimage_mul_right hd.ne', measure_preimage_add, abs_of_pos (inv_pos.2 hd),
    ENNReal.ofReal_inv_of_pos hd, mul_comm, ENNReal.div_eq_inv_mul, mul_comm]
  congr 1
  exact measure_congr ((Filter.EventuallyEq.refl _ A).inter Ico_ae_eq_Icc)

/-- Three individuals of fitness 1, 3, 2, two selections: the second is selected exactly once, the third with probability 2/3. -/
example : chance tapeLaw (selSus tapeBetween (fun i : Fin 3 => ([1, 3, 2] : List ℝ).getD i 0) 5 2 [0, 1, 2]) (fun sel => (2 : Fin 3) ∈ sel) =
    ENNReal.ofReal (2 / 3) := by
  have := (C152_sus_missed (fun i : Fin 3 => ([1, 3, 2] : List ℝ).getD i 0) tapeBetween_uniform (count := 2) (fuel := 5)
    (xs := [0, 1]) (ys := []) (y := 2) (by decide) (by decide) (by
      intro x _
      fin_cases x <;> norm_num) (by norm_num) (by decide) (by decide) (2 / 3) (by norm_num)).1
  rw [min_eq_right (by norm_num)] at this
  exact this

example : ∑' k : Nat, (k : ℝ≥0∞) * chance tapeLaw (selSus tapeBetween (fun i : Fin 3 => ([1, 3, 2] : List ℝ).getD i 0) 5 2
    [0, 1, 2]) (fun sel => sel.count (2 : Fin 3) = k) = ENNReal.ofReal (2 / 3) :=
  (C152_sus_unbiased (fun i : Fin 3 => ([1, 3, 2] : List ℝ).getD i 0) tapeBetween_uniform (count := 2) (fuel := 5)
    (xs := [0, 1]) (ys := []) (y := 2) (by decide) (by decide) (by
      intro x _
      fin_cases x <;> norm_num) (by norm_num) (by decide) (by decide) (2 / 3) (by norm_num)).2.2

end Ecrs.Ga
