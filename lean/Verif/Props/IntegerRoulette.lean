import Verif.Ga.Integer
import Verif.ProbTape
import Verif.ProbRun
import Verif.Ga.ProbSolver
import Verif.Ga.Replacement
import Verif.Props.Schema
import Verif.Props.Population
import Mathlib.Data.Nat.Count
import Mathlib.Data.Nat.Periodic

/-!
# C164: RouletteWheel with integer fitness
-/

set_option linter.unusedSectionVars false

namespace Ecrs.Props
open Ecrs Ecrs.Ga MeasureTheory
open scoped ENNReal

/-! ## Counting -/

open Classical in
/-- How many of the numbers below `n` satisfy `P`. -/
noncomputable def numBelow (P : Nat → Prop) (n : Nat) : Nat := ((Finset.range n).filter P).card

theorem numBelow_congr {P Q : Nat → Prop} {n : Nat} (h : ∀ u < n, P u ↔ Q u) : numBelow P n = numBelow Q n := by
  classical
  unfold numBelow
  congr 1
  exact Finset.filter_congr fun u hu => h u (Finset.mem_range.1 hu)

theorem numBelow_add (P : Nat → Prop) (a b : Nat) : numBelow P (a + b) = numBelow P a + numBelow (fun k => P (a + k)) b := by
  classical
  unfold numBelow
  rw [← Nat.count_eq_card_filter_range, ← Nat.count_eq_card_filter_range, ← Nat.count_eq_card_filter_range, Nat.count_add]

theorem numBelow_periodic {P : Nat → Prop} {n : Nat} (h : ∀ u, P (n + u) ↔ P u) : ∀ d, numBelow P (n * d) = d * numBelow P n
  | 0 => by simp [numBelow]
  | d + 1 => by
    rw [Nat.mul_succ, Nat.add_comm, numBelow_add, numBelow_congr (Q := P) (fun u _ => h u), numBelow_periodic h d]
    ring

theorem numBelow_coprime {P : Nat → Prop} {m n : Nat} (h : m.Coprime n) : numBelow (fun u => P (m * u % n)) n = numBelow P n := by
  classical
  rcases Nat.eq_zero_or_pos n with rfl | hn
  · simp [numBelow]
  have hinj : Set.InjOn (fun u => m * u % n) (Finset.range n : Set Nat) := by
    intro a ha b hb hab
    have ha' : a < n := by simpa using ha
    have hb' : b < n := by simpa using hb
    have : a ≡ b [MOD n] := Nat.ModEq.cancel_left_of_coprime (c := m) (by rw [Nat.gcd_comm]; exact h) hab
    rwa [Nat.ModEq, Nat.mod_eq_of_lt ha', Nat.mod_eq_of_lt hb'] at this
  have himg : (Finset.range n).image (fun u => m * u % n) = Finset.range n :=
    Finset.eq_of_subset_of_card_le (fun y hy => by
      obtain ⟨u, -, rfl⟩ := Finset.mem_image.1 hy
      exact Finset.mem_range.2 (Nat.mod_lt _ hn)) (by rw [Finset.card_image_of_injOn hinj])
  unfold numBelow
  conv_rhs => rw [← himg, Finset.filter_image]
  rw [Finset.card_image_of_injOn (hinj.mono fun u hu => by
    have := Finset.mem_filter.1 (Finset.mem_coe.1 hu)
    exact Finset.mem_coe.2 this.1)]

/-- As `u` runs through the numbers below `N`, `S * u mod N` runs through the multiples of `gcd S N`, each as often as the others. -/
theorem numBelow_mul {P : Nat → Prop} {S N : Nat} (hN : 0 < N) :
    numBelow (fun u => P (S * u % N)) N = S.gcd N * numBelow (fun j => P (S.gcd N * j)) (N / S.gcd N) := by
  obtain ⟨d, m, n, hd, hco, hS, hn⟩ := Nat.exists_coprime' (m := S) (n := N) (Nat.gcd_pos_of_pos_right _ hN)
  have e : S.gcd N = d := by
    rw [hS, hn, Nat.gcd_mul_right, hco, one_mul]
  rw [e, hS, hn, Nat.mul_div_cancel _ hd, numBelow_periodic (n := n)]
  · rw [← numBelow_coprime (P := fun j => P (d * j)) hco]
    congr 1
    refine numBelow_congr fun u _ => ?_
    rw [show m * d * u = (m * u) * d by ring, Nat.mul_mod_mul_right, Nat.mul_comm d]
  · intro u
    rw [show m * d * (n + u) = m * d * u + n * d * m by ring, Nat.add_mul_mod_self_left]

theorem numBelow_interval (a b n : Nat) : numBelow (fun j => a < j ∧ j ≤ b) n = min (b + 1) n - (a + 1) := by
  classical
  unfold numBelow
  refine Eq.trans (congrArg Finset.card (?_ : _ = Finset.Ico (a + 1) (min (b + 1) n))) (Nat.card_Ico _ _)
  ext j; simp only [Finset.mem_filter, Finset.mem_range, Finset.mem_Ico]; omega

theorem numBelow_le (b n : Nat) : numBelow (fun j => j ≤ b) n = min (b + 1) n := by
  classical
  unfold numBelow
  refine Eq.trans (congrArg Finset.card (?_ : _ = Finset.range (min (b + 1) n))) (Finset.card_range _)
  ext j; simp only [Finset.mem_filter, Finset.mem_range]; omega

theorem numBelow_lt (b n : Nat) : numBelow (fun j => b < j) n = n - (b + 1) := by
  classical
  unfold numBelow
  refine Eq.trans (congrArg Finset.card (?_ : _ = Finset.Ico (b + 1) n)) (Nat.card_Ico _ _)
  ext j; simp only [Finset.mem_filter, Finset.mem_range, Finset.mem_Ico]; omega

/-! ## Integer arithmetic -/

/-- The number of values of the type that are not negative. -/
def cap (t : IntType) : Nat := if t.signed then 2 ^ (t.bits - 1) else 2 ^ t.bits

theorem wrap_small {t : IntType} {v : Nat} (h : v < cap t) : t.wrap v = v := by
  unfold cap at h
  unfold IntType.wrap
  cases hs : t.signed
  · rw [hs] at h
    simp only [Bool.false_eq_true, if_false] at h ⊢
    exact_mod_cast Nat.mod_eq_of_lt h
  · rw [hs] at h
    simp only [if_true] at h ⊢
    rcases Nat.eq_zero_or_pos t.bits with h0 | h0
    · rw [h0] at h ⊢
      have : v = 0 := by simpa using h
      subst this
      rfl
    · have e : 2 ^ t.bits = 2 * 2 ^ (t.bits - 1) := by
        rw [← Nat.pow_succ', Nat.sub_one, Nat.succ_pred_eq_of_pos h0]
      rw [e]
      refine Int.bmod_eq_of_le ?_ ?_ <;> omega

theorem result_small {t : IntType} {c : Bool} {v : Nat} (h : v < cap t) : t.result c v = .ok (v : Int) := by
  unfold IntType.result
  rw [if_pos (wrap_small h)]

variable {G I : Type} {fit : I → Nat}

theorem sumI_small {t : IntType} {c : Bool} : ∀ (pop : List I) (s : Nat), s + (pop.map fit).sum < cap t →
    sumI t c (fun x => (fit x : Int)) s pop = .ok ((s + (pop.map fit).sum : Nat) : Int)
  | [], s, _ => by simp [sumI]
  | x :: xs, s, h => by
    rw [List.map_cons, List.sum_cons] at h ⊢
    unfold sumI
    have e : ((s : Int) + (fit x : Int)) = ((s + fit x : Nat) : Int) := by push_cast; rfl
    rw [e, result_small (by omega)]
    simp only
    rw [sumI_small xs (s + fit x) (by omega), Nat.add_assoc]

/-- The loop without overflow. -/
def pickPlain (fit : I → Nat) (thr : Int) : Nat → List I → Option I
  | _, [] => none
  | s, x :: xs => if thr ≤ ((s + fit x : Nat) : Int) then some x else pickPlain fit thr (s + fit x) xs

theorem pickI_small {t : IntType} {c : Bool} {thr : Int} : ∀ (pop : List I) (s : Nat), s + (pop.map fit).sum < cap t →
    roulettePickI t c (fun x => (fit x : Int)) thr s pop = .ok (pickPlain fit thr s pop)
  | [], s, _ => rfl
  | x :: xs, s, h => by
    rw [List.map_cons, List.sum_cons] at h
    unfold roulettePickI pickPlain
    have e : ((s : Int) + (fit x : Int)) = ((s + fit x : Nat) : Int) := by push_cast; rfl
    rw [e, result_small (by omega)]
    simp only
    split
    · rfl
    · exact pickI_small xs (s + fit x) (by omega)

theorem pickPlain_none {thr : Int} : ∀ (pop : List I) (s : Nat), pop ≠ [] →
    (pickPlain fit thr s pop = none ↔ ((s + (pop.map fit).sum : Nat) : Int) < thr)
  | [x], s, _ => by simp [pickPlain]
  | x :: y :: xs, s, _ => by
    unfold pickPlain
    rw [List.map_cons, List.sum_cons]
    split
    · rename_i h
      simp only [reduceCtorEq, false_iff]
      generalize (List.map fit (y :: xs)).sum = z
      push_cast at h ⊢
      omega
    · rw [pickPlain_none (y :: xs) (s + fit x) (by simp), Nat.add_assoc]

theorem pickPlain_mem {thr : Int} {x : I} : ∀ (pop : List I) (s : Nat), pickPlain fit thr s pop = some x → x ∈ pop
  | [], s, h => by simp [pickPlain] at h
  | y :: xs, s, h => by
    unfold pickPlain at h
    split at h
    · rw [← Option.some.inj h]; simp
    · exact List.mem_cons_of_mem _ (pickPlain_mem xs _ h)

theorem pickPlain_some {thr : Int} {x : I} {l2 : List I} (h2 : x ∉ l2) : ∀ (l1 : List I) (s : Nat), x ∉ l1 →
    (pickPlain fit thr s (l1 ++ x :: l2) = some x ↔
      (l1 ≠ [] → ((s + (l1.map fit).sum : Nat) : Int) < thr) ∧ thr ≤ ((s + (l1.map fit).sum + fit x : Nat) : Int))
  | [], s, _ => by
    rw [List.nil_append]
    unfold pickPlain
    simp only [ne_eq, not_true_eq_false, false_implies, true_and, List.map_nil, List.sum_nil, Nat.add_zero]
    split
    · rename_i h
      exact ⟨fun _ => h, fun _ => rfl⟩
    · rename_i h
      simp only [h, iff_false]
      exact fun e => h2 (pickPlain_mem _ _ e)
  | y :: ys, s, h => by
    rw [List.cons_append]
    unfold pickPlain
    rw [List.map_cons, List.sum_cons]
    have hy : y ≠ x := fun e => h (by simp [e])
    have hys : x ∉ ys := fun e => h (List.mem_cons_of_mem _ e)
    split
    · rename_i hle
      generalize (ys.map fit).sum = z
      push_cast at hle ⊢
      constructor
      · intro e; exact absurd (Option.some.inj e) hy
      · rintro ⟨h1, -⟩
        have := h1 (by simp)
        omega
    · rename_i hle
      rw [pickPlain_some h2 ys (s + fit y) hys]
      have e : s + fit y + (ys.map fit).sum = s + (fit y + (ys.map fit).sum) := by ring
      rw [e]
      refine and_congr_left fun _ => ?_
      constructor
      · intro h1 _
        by_cases h0 : ys = []
        · subst h0
          simpa using hle
        · exact h1 h0
      · intro h1 _
        exact h1 (by simp)

/-! ## Chances -/

variable [MeasurableSpace G] {R : Rng G ℝ} {μ : Measure G}

theorem chance_uniform_except {α : Type} (hR : Ideal R μ) {N : Nat} (hN : 0 < N) (f : Nat → Except Panic α) (Q : α → Prop) :
    chance μ (R.genRange 0 N >>= fun u => M.ofExcept (f u)) Q = (numBelow (fun u => ∃ v, f u = .ok v ∧ Q v) N : ℝ≥0∞) / N := by
  classical
  have := hR.isProbability
  have h1 : chance μ (R.genRange 0 N >>= fun u => M.ofExcept (f u)) Q =
      chance μ (R.genRange 0 N >>= fun u => pure u) (fun u => ∃ v, f u = .ok v ∧ Q v) := by
    unfold chance
    congr 1
    ext g
    simp only [Set.mem_ofPred_eq]
    obtain ⟨u, g1, e, -⟩ := R.genRange_returns (hi := N) (lo := 0) hN g
    rw [M.bind_of_ok e, M.bind_of_ok e]
    constructor
    · rintro ⟨v, g2, hv, hq⟩
      obtain ⟨h3, -⟩ := M.ofExcept_ok_iff.1 hv
      exact ⟨u, g1, rfl, v, h3, hq⟩
    · rintro ⟨u', g2, hu, v, hv, hq⟩
      obtain ⟨rfl, rfl⟩ := Prod.mk.inj (Except.ok.inj hu)
      exact ⟨v, g1, M.ofExcept_ok_iff.2 ⟨hv, rfl⟩, hq⟩
  rw [h1, (hR.below 0 N hN).chance_of (Set.finite_Ico _ _) (fun g a g' h => by
      have := (R.genRange_returns hN).ifReturns g a g' h
      simpa using this) (k := fun u => u) (fun a _ => rfl)]
  have hn : (Set.Ico 0 N).ncard = N := by
    rw [← Finset.coe_Ico, Set.ncard_coe_finset, Nat.card_Ico, Nat.sub_zero]
  rw [hn]
  congr 2
  unfold numBelow
  rw [← Set.ncard_coe_finset]
  congr 1
  ext u
  simp

theorem result_release (t : IntType) (v : Int) : t.result false v = .ok (t.wrap v) := by
  unfold IntType.result
  split
  · rename_i h; rw [h]
  · rfl

/-- The threshold belonging to the residue `r` modulo `2^bits`. -/
def thrOf (t : IntType) (r : Nat) : Int := if t.signed then (r : Int).bmod (2 ^ t.bits) else r

theorem wrap_mul_wrap (t : IntType) (S u : Nat) (hu : u < 2 ^ t.bits) : t.wrap (S * t.wrap u) = thrOf t (S * u % 2 ^ t.bits) := by
  unfold IntType.wrap thrOf
  cases t.signed
  · simp only [Bool.false_eq_true, if_false]
    rw [show ((u : Int) % (2 ^ t.bits : Nat)) = (u : Int) by exact_mod_cast Nat.mod_eq_of_lt hu]
    push_cast
    rfl
  · simp only [if_true]
    rw [Int.mul_bmod_bmod]
    push_cast
    rw [← Int.emod_bmod]
    push_cast
    rfl

theorem spin_release (hR : Ideal R μ) (t : IntType) {pop : List I} (hS : (pop.map fit).sum < cap t) (Q : Option I → Prop) :
    chance μ (rouletteSpinI t false R (fun x => (fit x : Int)) ((pop.map fit).sum : Nat) pop) Q =
      ((pop.map fit).sum.gcd (2 ^ t.bits) *
        numBelow (fun j => Q (pickPlain fit (thrOf t ((pop.map fit).sum.gcd (2 ^ t.bits) * j)) 0 pop))
          (2 ^ t.bits / (pop.map fit).sum.gcd (2 ^ t.bits)) : Nat) / (2 ^ t.bits : Nat) := by
  have hN : 0 < 2 ^ t.bits := by positivity
  unfold rouletteSpinI
  rw [chance_uniform_except hR hN]
  congr 2
  rw [← numBelow_mul (P := fun r => Q (pickPlain fit (thrOf t r) 0 pop)) hN]
  refine numBelow_congr fun u hu => ?_
  rw [result_release, wrap_mul_wrap _ _ _ hu]
  simp only
  have := pickI_small (t := t) (c := false) (thr := thrOf t ((pop.map fit).sum * u % 2 ^ t.bits)) pop 0 (by rw [Nat.zero_add]; exact hS)
  rw [Nat.cast_zero] at this
  rw [this]
  constructor
  · rintro ⟨v, hv, hq⟩
    rw [Except.ok.inj hv]; exact hq
  · intro hq; exact ⟨_, rfl, hq⟩

theorem cap_le (t : IntType) : cap t ≤ 2 ^ t.bits := by
  unfold cap
  split
  · exact Nat.pow_le_pow_right (by norm_num) (by omega)
  · exact le_rfl

section unsigned
variable {w : Nat} {pop : List I}

/-- **C164, nobody.** Unsigned fitness of `w` bits, a positive total `S` without overflow, release build. One spin of the wheel selects nobody
with probability `(2^w - S - gcd(S, 2^w)) / 2^w`; somebody only with the rest, at most `2 S / 2^w`. -/
theorem C164_nobody (hR : Ideal R μ) (h0 : 0 < (pop.map fit).sum) (hS : (pop.map fit).sum < 2 ^ w) :
    chance μ (rouletteSpinI ⟨w, false⟩ false R (fun x => (fit x : Int)) ((pop.map fit).sum : Nat) pop) (· = none) =
      (2 ^ w - ((pop.map fit).sum + (pop.map fit).sum.gcd (2 ^ w)) : Nat) / (2 ^ w : Nat) := by
  have hpop : pop ≠ [] := by rintro rfl; simp at h0
  rw [spin_release hR ⟨w, false⟩ hS]
  set S := (pop.map fit).sum with hSd
  have hdS : S.gcd (2 ^ w) ∣ S := Nat.gcd_dvd_left _ _
  have hdN : S.gcd (2 ^ w) ∣ 2 ^ w := Nat.gcd_dvd_right _ _
  have hd0 : 0 < S.gcd (2 ^ w) := Nat.gcd_pos_of_pos_left _ h0
  show ((S.gcd (2 ^ w) * numBelow (fun j => pickPlain fit (thrOf ⟨w, false⟩ (S.gcd (2 ^ w) * j)) 0 pop = none)
    (2 ^ w / S.gcd (2 ^ w)) : Nat) : ℝ≥0∞) / (2 ^ w : Nat) = _
  generalize S.gcd (2 ^ w) = d at *
  obtain ⟨m, hm⟩ := hdS
  obtain ⟨n, hn⟩ := hdN
  congr 2
  rw [numBelow_congr (Q := fun j => m < j) (fun j _ => by
    rw [pickPlain_none _ _ hpop, ← hSd, Nat.zero_add, hm]
    show ((d * m : Nat) : Int) < ((d * j : Nat) : Int) ↔ _
    rw [Nat.cast_lt]
    exact Nat.mul_lt_mul_left hd0), numBelow_lt, hn, Nat.mul_div_cancel_left _ hd0, hm, Nat.mul_sub]
  rw [Nat.mul_add, Nat.mul_one]

/-- **C164, who.** An individual `x` behind at least one other is selected by one spin with probability
`(number of multiples of g in (a, a + fitness]) * g / 2^w`, where `a` is the total fitness of those before it and `g = gcd(S, 2^w)`. -/
theorem C164_selected (hR : Ideal R μ) {l1 l2 : List I} {x : I} (h1 : x ∉ l1) (h2 : x ∉ l2) (hl1 : l1 ≠ []) (hpop : pop = l1 ++ x :: l2)
    (h0 : 0 < (pop.map fit).sum) (hS : (pop.map fit).sum < 2 ^ w) :
    chance μ (rouletteSpinI ⟨w, false⟩ false R (fun x => (fit x : Int)) ((pop.map fit).sum : Nat) pop) (· = some x) =
      ((pop.map fit).sum.gcd (2 ^ w) * (((l1.map fit).sum + fit x) / (pop.map fit).sum.gcd (2 ^ w) -
        (l1.map fit).sum / (pop.map fit).sum.gcd (2 ^ w)) : Nat) / (2 ^ w : Nat) := by
  rw [spin_release hR ⟨w, false⟩ hS]
  have hle : (l1.map fit).sum + fit x ≤ (pop.map fit).sum := by
    rw [hpop, List.map_append, List.sum_append, List.map_cons, List.sum_cons]; omega
  have hdN : (pop.map fit).sum.gcd (2 ^ w) ∣ 2 ^ w := Nat.gcd_dvd_right _ _
  have hd0 : 0 < (pop.map fit).sum.gcd (2 ^ w) := Nat.gcd_pos_of_pos_left _ h0
  show (((pop.map fit).sum.gcd (2 ^ w) * numBelow (fun j => pickPlain fit (thrOf ⟨w, false⟩ ((pop.map fit).sum.gcd (2 ^ w) * j)) 0 pop = some x)
    (2 ^ w / (pop.map fit).sum.gcd (2 ^ w)) : Nat) : ℝ≥0∞) / (2 ^ w : Nat) = _
  generalize (pop.map fit).sum.gcd (2 ^ w) = d at *
  obtain ⟨n, hn⟩ := hdN
  congr 3
  rw [numBelow_congr (Q := fun j => (l1.map fit).sum / d < j ∧ j ≤ ((l1.map fit).sum + fit x) / d) (fun j _ => by
    rw [hpop, pickPlain_some h2 _ _ h1, Nat.div_lt_iff_lt_mul hd0, Nat.le_div_iff_mul_le hd0]
    show (_ → _ < ((d * j : Nat) : Int)) ∧ ((d * j : Nat) : Int) ≤ _ ↔ _
    rw [Nat.cast_lt, Nat.cast_le, Nat.zero_add, Nat.mul_comm d j]
    simp [hl1]), numBelow_interval, hn, Nat.mul_div_cancel_left _ hd0]
  have : ((l1.map fit).sum + fit x) / d < n := by
    rw [Nat.div_lt_iff_lt_mul hd0, Nat.mul_comm, ← hn]; omega
  omega

/-- **C164, the first.** The first individual is selected with probability `(floor(fitness / g) + 1) * g / 2^w`. -/
theorem C164_first (hR : Ideal R μ) {l2 : List I} {x : I} (h2 : x ∉ l2) (hpop : pop = x :: l2)
    (h0 : 0 < (pop.map fit).sum) (hS : (pop.map fit).sum < 2 ^ w) :
    chance μ (rouletteSpinI ⟨w, false⟩ false R (fun x => (fit x : Int)) ((pop.map fit).sum : Nat) pop) (· = some x) =
      ((pop.map fit).sum.gcd (2 ^ w) * (fit x / (pop.map fit).sum.gcd (2 ^ w) + 1) : Nat) / (2 ^ w : Nat) := by
  rw [spin_release hR ⟨w, false⟩ hS]
  have hle : fit x ≤ (pop.map fit).sum := by
    rw [hpop, List.map_cons, List.sum_cons]; omega
  have hdN : (pop.map fit).sum.gcd (2 ^ w) ∣ 2 ^ w := Nat.gcd_dvd_right _ _
  have hd0 : 0 < (pop.map fit).sum.gcd (2 ^ w) := Nat.gcd_pos_of_pos_left _ h0
  show (((pop.map fit).sum.gcd (2 ^ w) * numBelow (fun j => pickPlain fit (thrOf ⟨w, false⟩ ((pop.map fit).sum.gcd (2 ^ w) * j)) 0 pop = some x)
    (2 ^ w / (pop.map fit).sum.gcd (2 ^ w)) : Nat) : ℝ≥0∞) / (2 ^ w : Nat) = _
  generalize (pop.map fit).sum.gcd (2 ^ w) = d at *
  obtain ⟨n, hn⟩ := hdN
  congr 3
  rw [numBelow_congr (Q := fun j => j ≤ fit x / d) (fun j _ => by
    have := pickPlain_some (fit := fit) (thr := thrOf ⟨w, false⟩ (d * j)) h2 [] 0 (by simp)
    rw [List.nil_append] at this
    rw [hpop, this, Nat.le_div_iff_mul_le hd0]
    show (_ → _) ∧ ((d * j : Nat) : Int) ≤ _ ↔ _
    rw [Nat.cast_le, Nat.mul_comm d j]
    simp), numBelow_le, hn, Nat.mul_div_cancel_left _ hd0]
  have : fit x / d < n := by
    rw [Nat.div_lt_iff_lt_mul hd0, Nat.mul_comm, ← hn]; omega
  omega

/-- **C164, odd total.** When the total fitness is odd, the probability of an individual behind another one is its fitness divided by `2^w`,
where the documentation promises its fitness divided by the total fitness. -/
theorem C164_odd (hR : Ideal R μ) {l1 l2 : List I} {x : I} (h1 : x ∉ l1) (h2 : x ∉ l2) (hl1 : l1 ≠ []) (hpop : pop = l1 ++ x :: l2)
    (hodd : Odd (pop.map fit).sum) (hS : (pop.map fit).sum < 2 ^ w) :
    chance μ (rouletteSpinI ⟨w, false⟩ false R (fun x => (fit x : Int)) ((pop.map fit).sum : Nat) pop) (· = some x) =
      (fit x : ℝ≥0∞) / (2 ^ w : Nat) := by
  have hg : (pop.map fit).sum.gcd (2 ^ w) = 1 := Nat.Coprime.pow_right _ (Nat.Coprime.symm (Nat.coprime_two_left.2 hodd))
  rw [C164_selected hR h1 h2 hl1 hpop hodd.pos hS, hg, Nat.div_one, Nat.div_one, one_mul]
  congr 2
  omega

end unsigned

/-- **C164, zero total.** When every fitness is zero, every spin selects the first individual, in every integer type, with and without
overflow checks. -/
theorem C164_zero_total (t : IntType) (c : Bool) (x : I) (l : List I) (h0 : ∀ y ∈ x :: l, fit y = 0) (count : Nat) (R' : Rng G ℝ) :
    Returns (selRouletteI t c R' (fun x => (fit x : Int)) count (x :: l)) (· = List.replicate count x) := by
  have hz : ((x :: l).map fit).sum = 0 := List.sum_eq_zero (fun y hy => by
    obtain ⟨z, hz, rfl⟩ := List.mem_map.1 hy
    exact h0 z hz)
  have hcap : 0 < cap t := by unfold cap; split <;> positivity
  have hsum := sumI_small (t := t) (c := c) (fit := fit) (x :: l) 0 (by rw [hz]; exact hcap)
  rw [hz, Nat.cast_zero] at hsum
  unfold selRouletteI
  rw [hsum]
  have hspin : Returns (rouletteSpinI t c R' (fun x => (fit x : Int)) 0 (x :: l)) (· = some x) := by
    unfold rouletteSpinI
    refine (R'.genRange_returns (by positivity : 0 < 2 ^ t.bits)).bind fun u _ => ?_
    have e : t.result c (0 * t.wrap u) = .ok ((0 : Nat) : Int) := by
      rw [zero_mul]; exact_mod_cast result_small (t := t) (c := c) hcap
    rw [e]
    simp only
    have := pickI_small (t := t) (c := c) (thr := ((0 : Nat) : Int)) (fit := fit) (x :: l) 0 (by rw [hz]; exact hcap)
    rw [Nat.cast_zero] at this ⊢
    rw [this]
    have e2 : pickPlain fit (0 : Int) 0 (x :: l) = some x := by
      unfold pickPlain
      rw [if_pos (by positivity)]
    rw [e2]
    intro g
    exact ⟨_, _, rfl, rfl⟩
  have : (M.ofExcept (.ok (0 : Int)) : M G Int) = pure 0 := rfl
  show Returns ((M.ofExcept (.ok ((0 : Nat) : Int)) : M G Int) >>= _) _
  rw [Nat.cast_zero, this, pure_bind]
  refine (Returns.replicate hspin count).bind fun picks hp => Returns.pure ?_
  obtain ⟨hl, hall⟩ := hp
  have : picks = List.replicate count (some x) := List.eq_replicate_iff.2 ⟨hl, hall⟩
  rw [this, List.filterMap_replicate]
  rfl

/-! ## The mating pool -/

theorem hasLaw_spinI (hR : Ideal R μ) (t : IntType) (c : Bool) (f : I → Int) (total : Int) (pop : List I) :
    HasLaw μ (rouletteSpinI t c R f total pop) := by
  have := hR.isProbability
  exact (hR.hasLaw_below _ _).bind fun u => HasLaw.ofExcept _

theorem hasLaw_selRouletteI (hR : Ideal R μ) (t : IntType) (c : Bool) (f : I → Int) (count : Nat) (pop : List I) :
    HasLaw μ (selRouletteI t c R f count pop) := by
  have := hR.isProbability
  exact (HasLaw.ofExcept _).bind fun total => ((hasLaw_spinI hR t c f total pop).replicate count).bind fun picks => .pure _

theorem spin_returns (t : IntType) (f : I → Int) (total : Int) (pop : List I) :
    Returns (rouletteSpinI t false R f total pop) fun _ => True := by
  unfold rouletteSpinI
  refine (R.genRange_returns (by positivity : 0 < 2 ^ t.bits)).bind fun u _ => ?_
  rw [result_release]
  have : ∀ (pop : List I) (thr s : Int), ∃ o, roulettePickI t false f thr s pop = .ok o := by
    intro pop
    induction pop with
    | nil => intro thr s; exact ⟨none, rfl⟩
    | cons x xs ih =>
      intro thr s
      unfold roulettePickI
      rw [result_release]
      simp only
      split
      · exact ⟨_, rfl⟩
      · exact ih _ _
  obtain ⟨o, ho⟩ := this pop (t.wrap (total * t.wrap u)) 0
  simp only
  rw [ho]
  intro g
  exact ⟨_, _, rfl, trivial⟩

section pool
variable {w : Nat} {pop : List I}

theorem sel_eq {t : IntType} {c : Bool} (hS : (pop.map fit).sum < cap t) (count : Nat) :
    selRouletteI t c R (fun x => (fit x : Int)) count pop =
      (M.replicate count (rouletteSpinI t c R (fun x => (fit x : Int)) ((pop.map fit).sum : Nat) pop) >>= fun picks =>
        (pure (picks.filterMap id) : M G (List I))) := by
  have hsum := sumI_small (t := t) (c := c) (fit := fit) pop 0 (by rw [Nat.zero_add]; exact hS)
  rw [Nat.cast_zero, Nat.zero_add] at hsum
  unfold selRouletteI
  rw [hsum]
  rfl

theorem filterMap_id_nil {l : List (Option I)} : l.filterMap id = [] ↔ ∀ o ∈ l, o = none := by
  rw [List.filterMap_eq_nil_iff]
  rfl

/-- **C164, empty pool.** The whole mating pool is empty with probability `((2^w - S - gcd(S, 2^w)) / 2^w) ^ count`. -/
theorem C164_pool_empty (hR : Ideal R μ) (h0 : 0 < (pop.map fit).sum) (hS : (pop.map fit).sum < 2 ^ w) (count : Nat) :
    chance μ (selRouletteI ⟨w, false⟩ false R (fun x => (fit x : Int)) count pop) (· = []) =
      (((2 ^ w - ((pop.map fit).sum + (pop.map fit).sum.gcd (2 ^ w)) : Nat) : ℝ≥0∞) / (2 ^ w : Nat)) ^ count := by
  have := hR.isProbability
  obtain ⟨q, hq⟩ := hasLaw_spinI hR ⟨w, false⟩ false (fun x => (fit x : Int)) ((pop.map fit).sum : Nat) pop
  rw [sel_eq (t := ⟨w, false⟩) hS, chance_map, ← C164_nobody hR h0 hS, ← hq.chance_replicate_all]
  congr 1
  funext picks
  exact propext filterMap_id_nil

theorem bernoulli_ennreal {p q : ℝ≥0∞} (h : p + q = 1) : ∀ c : Nat, 1 ≤ p ^ c + c * q
  | 0 => by simp
  | c + 1 => by
    have hp : p ≤ 1 := by rw [← h]; exact le_self_add
    calc (1 : ℝ≥0∞) = p * 1 + q := by rw [mul_one, h]
      _ ≤ p * (p ^ c + c * q) + q := by gcongr; exact bernoulli_ennreal h c
      _ = p ^ (c + 1) + (p * (c * q) + q) := by ring
      _ ≤ p ^ (c + 1) + (1 * (c * q) + q) := by gcongr
      _ = _ := by push_cast; ring

/-- **C164, anybody at all.** The mating pool of `count` spins contains anybody at all with probability at most `count * 2 S / 2^w`. -/
theorem C164_pool (hR : Ideal R μ) (h0 : 0 < (pop.map fit).sum) (hS : (pop.map fit).sum < 2 ^ w) (count : Nat) :
    chance μ (selRouletteI ⟨w, false⟩ false R (fun x => (fit x : Int)) count pop) (fun sel => sel ≠ []) ≤
      (count * (2 * (pop.map fit).sum) : Nat) / (2 ^ w : Nat) := by
  have := hR.isProbability
  have hr : Returns (selRouletteI ⟨w, false⟩ false R (fun x => (fit x : Int)) count pop) fun _ => True := by
    rw [sel_eq (t := ⟨w, false⟩) hS]
    exact (Returns.replicate (spin_returns _ _ _ _) count).bind fun _ _ => Returns.pure trivial
  have hnot := (hasLaw_selRouletteI hR ⟨w, false⟩ false (fun x => (fit x : Int)) count pop).chance_not hr (· = [])
  have hnb := (hasLaw_spinI hR ⟨w, false⟩ false (fun x => (fit x : Int)) ((pop.map fit).sum : Nat) pop).chance_not (spin_returns _ _ _ _) (· = none)
  rw [C164_nobody hR h0 hS] at hnb
  rw [C164_pool_empty hR h0 hS] at hnot
  set S := (pop.map fit).sum
  set N := 2 ^ w
  have hN : (N : ℝ≥0∞) ≠ 0 := by simp [N]
  have hle : S + S.gcd N ≤ N := by
    obtain ⟨m, hm⟩ := Nat.gcd_dvd_left S N
    obtain ⟨n, hn⟩ := Nat.gcd_dvd_right S N
    have hd0 : 0 < S.gcd N := Nat.gcd_pos_of_pos_left _ h0
    have hmn : m < n := by
      have : S.gcd N * m < S.gcd N * n := by rw [← hm, ← hn]; exact hS
      exact Nat.lt_of_mul_lt_mul_left this
    calc S + S.gcd N = S.gcd N * m + S.gcd N * 1 := by rw [← hm, mul_one]
      _ = S.gcd N * (m + 1) := by ring
      _ ≤ S.gcd N * n := Nat.mul_le_mul_left _ hmn
      _ = N := hn.symm
  have hpq : (((N - (S + S.gcd N) : Nat) : ℝ≥0∞) / N) + ((S + S.gcd N : Nat) : ℝ≥0∞) / N = 1 := by
    rw [← ENNReal.add_div, ← Nat.cast_add, Nat.sub_add_cancel hle, ENNReal.div_self hN (by simp)]
  have hb := bernoulli_ennreal hpq count
  have hfin : ((((N - (S + S.gcd N) : Nat) : ℝ≥0∞) / N) ^ count) ≠ ⊤ := by
    refine ENNReal.pow_ne_top ?_
    exact ENNReal.div_ne_top (by simp) hN
  rw [← hnot] at hb
  have h1 := (ENNReal.add_le_add_iff_left hfin).1 hb
  refine h1.trans ?_
  rw [← mul_div_assoc]
  refine ENNReal.div_le_div_right ?_ _
  have : S.gcd N ≤ S := Nat.gcd_le_left _ h0
  have h2 : count * (S + S.gcd N) ≤ count * (2 * S) := Nat.mul_le_mul_left _ (by omega)
  exact_mod_cast h2

end pool

/-! ## Overflow checks -/

section checked
variable {w : Nat} {pop : List I}

theorem spin_checked (hR : Ideal R μ) (hS : (pop.map fit).sum < 2 ^ w) (Q : Option I → Prop) :
    chance μ (rouletteSpinI ⟨w, false⟩ true R (fun x => (fit x : Int)) ((pop.map fit).sum : Nat) pop) Q =
      (numBelow (fun u => (pop.map fit).sum * u < 2 ^ w ∧ Q (pickPlain fit (((pop.map fit).sum * u : Nat) : Int) 0 pop)) (2 ^ w) : Nat) /
        (2 ^ w : Nat) := by
  have hN : 0 < 2 ^ w := by positivity
  unfold rouletteSpinI
  rw [chance_uniform_except hR hN]
  congr 2
  refine numBelow_congr fun u hu => ?_
  rw [wrap_small (t := ⟨w, false⟩) hu]
  have e : (((pop.map fit).sum : Nat) : Int) * (u : Int) = (((pop.map fit).sum * u : Nat) : Int) := by push_cast; rfl
  rw [e]
  have hpick := pickI_small (t := ⟨w, false⟩) (c := true) (fit := fit) (thr := (((pop.map fit).sum * u : Nat) : Int)) pop 0
    (by rw [Nat.zero_add]; exact hS)
  by_cases h : (pop.map fit).sum * u < 2 ^ w
  · rw [result_small (t := ⟨w, false⟩) h]
    simp only
    rw [Nat.cast_zero] at hpick
    rw [hpick]
    constructor
    · rintro ⟨v, hv, hq⟩
      rw [Except.ok.inj hv]; exact ⟨h, hq⟩
    · rintro ⟨-, hq⟩; exact ⟨_, rfl, hq⟩
  · have hne : (⟨w, false⟩ : IntType).wrap (((pop.map fit).sum * u : Nat) : Int) ≠ (((pop.map fit).sum * u : Nat) : Int) := by
      unfold IntType.wrap
      simp only [Bool.false_eq_true, if_false]
      intro hc
      have h3 : ((pop.map fit).sum * u) % 2 ^ w = (pop.map fit).sum * u := by exact_mod_cast hc
      have h4 := Nat.mod_lt ((pop.map fit).sum * u) hN
      omega
    unfold IntType.result
    rw [if_neg hne]
    simp [h]

/-- **C164, overflow checks.** In a debug build one spin returns at all only with probability `(floor((2^w - 1) / S) + 1) / 2^w`, roughly
`1 / S`: otherwise the multiplication panics. -/
theorem C164_checked_returns (hR : Ideal R μ) (h0 : 0 < (pop.map fit).sum) (hS : (pop.map fit).sum < 2 ^ w) :
    chance μ (rouletteSpinI ⟨w, false⟩ true R (fun x => (fit x : Int)) ((pop.map fit).sum : Nat) pop) (fun _ => True) =
      ((2 ^ w - 1) / (pop.map fit).sum + 1 : Nat) / (2 ^ w : Nat) := by
  have hN : 0 < 2 ^ w := by positivity
  rw [spin_checked hR hS]
  congr 2
  rw [numBelow_congr (Q := fun u => u ≤ (2 ^ w - 1) / (pop.map fit).sum) (fun u _ => by
    rw [Nat.le_div_iff_mul_le h0, Nat.mul_comm u]
    simp only [and_true]
    omega), numBelow_le]
  have := Nat.div_le_self (2 ^ w - 1) (pop.map fit).sum
  omega

/-- **C164, overflow checks.** ... and it selects somebody with probability exactly `2 / 2^w`: only the draws 0 and 1 lead to a selection. -/
theorem C164_checked_selects (hR : Ideal R μ) (h0 : 0 < (pop.map fit).sum) (hS : (pop.map fit).sum < 2 ^ w) :
    chance μ (rouletteSpinI ⟨w, false⟩ true R (fun x => (fit x : Int)) ((pop.map fit).sum : Nat) pop) (fun o => o ≠ none) =
      2 / (2 ^ w : Nat) := by
  have hpop : pop ≠ [] := by rintro rfl; simp at h0
  rw [spin_checked hR hS]
  have : numBelow (fun u => (pop.map fit).sum * u < 2 ^ w ∧ pickPlain fit (((pop.map fit).sum * u : Nat) : Int) 0 pop ≠ none) (2 ^ w) = 2 := by
    rw [numBelow_congr (Q := fun u => u ≤ 1) (fun u _ => by
      rw [ne_eq, pickPlain_none _ _ hpop, Nat.zero_add, Nat.cast_lt]
      generalize (pop.map fit).sum = S at h0 hS
      constructor
      · rintro ⟨-, h⟩
        by_contra hc
        have : S * 2 ≤ S * u := Nat.mul_le_mul_left _ (by omega)
        omega
      · intro h
        have : S * u ≤ S * 1 := Nat.mul_le_mul_left _ h
        omega), numBelow_le]
    omega
  rw [this]
  rfl

end checked

/-! ## Signed types -/

section signed
variable {w : Nat} {pop : List I}

theorem thr_signed (hw : 0 < w) {r : Nat} (hr : r < 2 ^ w) :
    thrOf ⟨w, true⟩ r = if r < 2 ^ (w - 1) then (r : Int) else (r : Int) - (2 ^ w : Nat) := by
  have e : 2 ^ w = 2 * 2 ^ (w - 1) := by
    rw [← Nat.pow_succ', Nat.sub_one, Nat.succ_pred_eq_of_pos hw]
  unfold thrOf
  simp only [if_true]
  rw [Int.bmod_def, show ((r : Int) % ((2 ^ w : Nat) : Int)) = (r : Int) by exact_mod_cast Nat.mod_eq_of_lt hr]
  generalize 2 ^ (w - 1) = h at *
  rw [e]
  by_cases hh : r < h
  · rw [if_pos hh, if_pos (by push_cast; omega)]
  · rw [if_neg hh, if_neg (by push_cast; omega)]

theorem gcd_half (_ : 0 < w) {S : Nat} (h0 : 0 < S) (hS : S < 2 ^ (w - 1)) : S.gcd (2 ^ w) ∣ 2 ^ (w - 1) := by
  obtain ⟨k, hk, e⟩ := (Nat.dvd_prime_pow Nat.prime_two).1 (Nat.gcd_dvd_right S (2 ^ w))
  have h1 : S.gcd (2 ^ w) ≤ S := Nat.gcd_le_left _ h0
  rw [e] at h1 ⊢
  exact pow_dvd_pow 2 (Nat.pow_lt_pow_iff_right (by norm_num : 1 < 2) |>.1 (lt_of_le_of_lt h1 hS)).le

/-- **C164, signed types.** Signed fitness of `w` bits, no negative values, a positive total `S` without overflow, release build: the first
individual of the population is selected with probability `1/2 + (floor(fitness / g) + 1) * g / 2^w`, whatever its fitness, with
`g = gcd(S, 2^w)`. -/
theorem C164_signed_first (hR : Ideal R μ) (hw : 0 < w) {l2 : List I} {x : I} (h2 : x ∉ l2) (hpop : pop = x :: l2)
    (h0 : 0 < (pop.map fit).sum) (hS : (pop.map fit).sum < 2 ^ (w - 1)) :
    chance μ (rouletteSpinI ⟨w, true⟩ false R (fun x => (fit x : Int)) ((pop.map fit).sum : Nat) pop) (· = some x) =
      (2 ^ (w - 1) + (pop.map fit).sum.gcd (2 ^ w) * (fit x / (pop.map fit).sum.gcd (2 ^ w) + 1) : Nat) / (2 ^ w : Nat) := by
  rw [spin_release hR ⟨w, true⟩ hS]
  have hle : fit x ≤ (pop.map fit).sum := by
    rw [hpop, List.map_cons, List.sum_cons]; omega
  have hdh := gcd_half hw h0 hS
  have hd0 : 0 < (pop.map fit).sum.gcd (2 ^ w) := Nat.gcd_pos_of_pos_left _ h0
  have e : 2 ^ w = 2 * 2 ^ (w - 1) := by
    rw [← Nat.pow_succ', Nat.sub_one, Nat.succ_pred_eq_of_pos hw]
  show (((pop.map fit).sum.gcd (2 ^ w) * numBelow (fun j => pickPlain fit (thrOf ⟨w, true⟩ ((pop.map fit).sum.gcd (2 ^ w) * j)) 0 pop = some x)
    (2 ^ w / (pop.map fit).sum.gcd (2 ^ w)) : Nat) : ℝ≥0∞) / (2 ^ w : Nat) = _
  generalize (pop.map fit).sum.gcd (2 ^ w) = d at *
  obtain ⟨h, hh⟩ := hdh
  have hn : 2 ^ w / d = h + h := by
    rw [e, hh, show 2 * (d * h) = d * (h + h) by ring, Nat.mul_div_cancel_left _ hd0]
  have hfh : fit x / d < h := by
    rw [Nat.div_lt_iff_lt_mul hd0, Nat.mul_comm, ← hh]; omega
  have hthr : ∀ j < h + h, thrOf ⟨w, true⟩ (d * j) = if j < h then ((d * j : Nat) : Int) else ((d * j : Nat) : Int) - (2 ^ w : Nat) := by
    intro j hj
    have hjN : d * j < 2 ^ w := by
      rw [e, hh, show 2 * (d * h) = d * (h + h) by ring]; exact (Nat.mul_lt_mul_left hd0).2 hj
    rw [thr_signed hw hjN, hh]
    simp only [Nat.mul_lt_mul_left hd0]
  have hpick : ∀ thr : Int, (pickPlain fit thr 0 pop = some x ↔ thr ≤ ((fit x : Nat) : Int)) := by
    intro thr
    have := pickPlain_some (fit := fit) (thr := thr) h2 [] 0 (by simp)
    rw [List.nil_append] at this
    rw [hpop, this]
    simp
  congr 2
  rw [hn, numBelow_add, numBelow_congr (Q := fun j => j ≤ fit x / d) (n := h) (fun j hj => by
      rw [hpick, hthr j (by omega), if_pos hj, Nat.cast_le, Nat.le_div_iff_mul_le hd0, Nat.mul_comm]),
    numBelow_le, numBelow_congr (Q := fun j => j ≤ h) (n := h) (fun j hj => by
      rw [hpick, hthr (h + j) (by omega), if_neg (by omega)]
      have hjN : d * (h + j) < 2 ^ w := by
        rw [e, hh, show 2 * (d * h) = d * (h + h) by ring]; exact (Nat.mul_lt_mul_left hd0).2 (by omega)
      refine iff_of_true ?_ hj.le
      omega), numBelow_le, Nat.min_eq_left (by omega), Nat.min_eq_right (by omega), hh]
  ring

/-- **C164, signed types, nobody.** ... and nobody is selected with probability `1/2 - (S + g) / 2^w`. -/
theorem C164_signed_nobody (hR : Ideal R μ) (hw : 0 < w) (h0 : 0 < (pop.map fit).sum) (hS : (pop.map fit).sum < 2 ^ (w - 1)) :
    chance μ (rouletteSpinI ⟨w, true⟩ false R (fun x => (fit x : Int)) ((pop.map fit).sum : Nat) pop) (· = none) =
      (2 ^ (w - 1) - ((pop.map fit).sum + (pop.map fit).sum.gcd (2 ^ w)) : Nat) / (2 ^ w : Nat) := by
  have hpop : pop ≠ [] := by rintro rfl; simp at h0
  rw [spin_release hR ⟨w, true⟩ hS]
  set S := (pop.map fit).sum with hSd
  have hdS : S.gcd (2 ^ w) ∣ S := Nat.gcd_dvd_left _ _
  have hdh := gcd_half hw h0 hS
  have hd0 : 0 < S.gcd (2 ^ w) := Nat.gcd_pos_of_pos_left _ h0
  have e : 2 ^ w = 2 * 2 ^ (w - 1) := by
    rw [← Nat.pow_succ', Nat.sub_one, Nat.succ_pred_eq_of_pos hw]
  show ((S.gcd (2 ^ w) * numBelow (fun j => pickPlain fit (thrOf ⟨w, true⟩ (S.gcd (2 ^ w) * j)) 0 pop = none)
    (2 ^ w / S.gcd (2 ^ w)) : Nat) : ℝ≥0∞) / (2 ^ w : Nat) = _
  generalize S.gcd (2 ^ w) = d at *
  obtain ⟨m, hm⟩ := hdS
  obtain ⟨h, hh⟩ := hdh
  have hn : 2 ^ w / d = h + h := by
    rw [e, hh, show 2 * (d * h) = d * (h + h) by ring, Nat.mul_div_cancel_left _ hd0]
  have hmh : m < h := by
    have : d * m < d * h := by rw [← hm, ← hh]; exact hS
    exact Nat.lt_of_mul_lt_mul_left this
  congr 2
  rw [hn, numBelow_congr (Q := fun j => m < j ∧ j ≤ h - 1) (fun j hj => by
    have hjN : d * j < 2 ^ w := by
      rw [e, hh, show 2 * (d * h) = d * (h + h) by ring]; exact (Nat.mul_lt_mul_left hd0).2 hj
    rw [pickPlain_none _ _ hpop, ← hSd, Nat.zero_add, thr_signed hw hjN, hh]
    simp only [Nat.mul_lt_mul_left hd0]
    by_cases hjh : j < h
    · rw [if_pos hjh, Nat.cast_lt, hm, Nat.mul_lt_mul_left hd0]
      omega
    · rw [if_neg hjh]
      refine iff_of_false ?_ (by omega)
      omega), numBelow_interval, Nat.min_eq_left (by omega), hh, hm]
  rw [show h - 1 + 1 - (m + 1) = h - (m + 1) by omega, Nat.mul_sub, Nat.mul_add, Nat.mul_one]

end signed

/-! ## A whole run -/

section run
variable {C : Type} {T : IndTrait I C Nat} {ops : Ops G I Nat} {p : GAParams} {w n F count : Nat}

/-- A solver with unsigned `w`-bit fitness values between 1 and `F`, populations of `n`, RouletteWheel without overflow checks, a crossover that
makes no children out of no parents, and BothParents or WeakParent as the replacement. -/
structure IntegerGa (μ : Measure G) (R : Rng G ℝ) (T : IndTrait I C Nat) (ops : Ops G I Nat) (fit : I → Nat) (w n F count : Nat) : Prop where
  law : LawOps μ ops
  eval : ∀ i, T.requiresEval i = true
  gen : IfReturns (ops.generate n) fun pop => pop.length = n
  fitness : ∀ i, IfReturns (ops.fitnessFn i) fun r => ∃ v, r.2 = .num v ∧ 1 ≤ v ∧ v ≤ F
  read : ∀ i v, T.fitness i = .num v → fit i = v
  select : ∀ m pop, ops.select m pop = selRouletteI ⟨w, false⟩ false R (fun x => (fit x : Int)) count pop
  cross : ∀ m, IfReturns (ops.cross m []) (· = [])
  replace : ∃ (r : Replacement) (debug : Bool), r ≠ .noop ∧ ∀ m, ops.replace m = r.apply T debug

theorem evalOne_bounds {μ : Measure G} (h : IntegerGa μ R T ops fit w n F count) (i : I) :
    IfReturns (evalOne T ops i) fun j => 1 ≤ fit j ∧ fit j ≤ F := by
  unfold evalOne
  rw [if_pos (h.eval i)]
  refine IfReturns.bind (h.fitness i) fun r hr => ?_
  obtain ⟨v, hv, h1, h2⟩ := hr
  intro g a g' e
  obtain ⟨rfl, -⟩ := Prod.mk.inj (M.pure_ok_iff.1 e)
  rw [h.read _ v (by rw [T.fitness_set, hv])]
  exact ⟨h1, h2⟩

theorem evalPop_bounds {μ : Measure G} (h : IntegerGa μ R T ops fit w n F count) : ∀ (pop : List I),
    IfReturns (evalPop T ops pop) fun out => out.length = pop.length ∧ pop.length ≤ (out.map fit).sum ∧ (out.map fit).sum ≤ pop.length * F
  | [] => by
    intro g a g' e
    obtain ⟨rfl, -⟩ := Prod.mk.inj (Except.ok.inj e)
    simp
  | i :: pop => by
    intro g out g' e
    obtain ⟨j, g1, h1, h2⟩ := M.bind_ok_iff.1 e
    obtain ⟨js, g2, h3, h4⟩ := M.bind_ok_iff.1 h2
    obtain ⟨rfl, -⟩ := Prod.mk.inj (M.pure_ok_iff.1 h4)
    obtain ⟨ha, hb⟩ := evalOne_bounds h i _ _ _ h1
    obtain ⟨hc, hd, he⟩ := evalPop_bounds h pop _ _ _ h3
    simp only [List.length_cons, List.map_cons, List.sum_cons]
    refine ⟨by omega, by omega, ?_⟩
    rw [Nat.add_mul, Nat.one_mul]
    omega

/-- **C164, a generation.** A generation of such a solver survives with probability at most `count * 2 n F / 2^w`. -/
theorem C164_generation (hR : Ideal R μ) (h : IntegerGa μ R T ops fit w n F count) (hn : 2 ≤ n) (hF : n * F < 2 ^ w)
    (hp : p.populationSize = n) (g : Nat) (s : St I) (hs : s.pop.length = n) :
    chance μ (iteration T ops p g s) (fun _ => True) ≤ (count * (2 * (n * F)) : Nat) / (2 ^ w : Nat) := by
  have := hR.isProbability
  have hrest : ∀ m pop, LawOps μ ops → HasLaw μ (ops.select m pop) := fun m pop hl => hl.sel m pop
  have hl := h.law
  unfold iteration
  refine hl.elapsed.chance_bind_le_sup (A := fun _ => True) (fun _ _ _ _ => trivial) (fun d _ => ?_) (fun d _ => ?_)
  · exact (hl.evalPop _).bind fun pop => (hl.sel _ _).bind fun pool => (hl.cross _ _).bind fun cr =>
      (HasLaw.forEach (hl.mutate _) _).bind fun mu => (hl.evalChildren _).bind fun ch => (hl.replace _ _ _).bind fun re =>
      (HasLaw.assert _ _).bind fun _ => (hl.evalPop _).bind fun pop' => (HasLaw.ofExcept _).bind fun b =>
      hl.elapsed.bind fun d' => .pure _
  refine (hl.evalPop s.pop).chance_bind_le_sup (evalPop_bounds h s.pop) (fun pop _ => ?_) (fun pop hb => ?_)
  · exact (hl.sel _ _).bind fun pool => (hl.cross _ _).bind fun cr =>
      (HasLaw.forEach (hl.mutate _) _).bind fun mu => (hl.evalChildren _).bind fun ch => (hl.replace _ _ _).bind fun re =>
      (HasLaw.assert _ _).bind fun _ => (hl.evalPop _).bind fun pop' => (HasLaw.ofExcept _).bind fun b =>
      hl.elapsed.bind fun d' => .pure _
  obtain ⟨hb1, hb2, hb3⟩ := hb
  rw [hs] at hb1 hb2 hb3
  refine (chance_bind_le_of_returns (A := fun _ => True) (P := fun pool => pool ≠ []) (fun _ _ _ _ => trivial) (fun pool _ hpool => ?_)).trans ?_
  · have hpool : pool = [] := by simpa using hpool
    subst hpool
    intro w1 r w2 e
    obtain ⟨crossed, w3, e1, e⟩ := M.bind_ok_iff.1 e
    have hc := h.cross _ _ _ _ e1
    subst hc
    obtain ⟨mutated, w4, e2, e⟩ := M.bind_ok_iff.1 e
    obtain ⟨rfl, -⟩ := Prod.mk.inj (Except.ok.inj e2)
    obtain ⟨children, w5, e3, e⟩ := M.bind_ok_iff.1 e
    have hch : children = [] := by
      unfold evalChildren at e3
      split at e3
      · obtain ⟨rfl, -⟩ := Prod.mk.inj (Except.ok.inj e3); rfl
      · obtain ⟨rfl, -⟩ := Prod.mk.inj (Except.ok.inj e3); rfl
    subst hch
    obtain ⟨replaced, w6, e4, e⟩ := M.bind_ok_iff.1 e
    obtain ⟨u, w7, e5, e⟩ := M.bind_ok_iff.1 e
    have hlen : replaced.length = n := by
      have := (M.assert_ok_iff.1 e5).1
      rw [← hp]
      simpa using this
    obtain ⟨r', debug, hr', hre⟩ := h.replace
    rw [hre] at e4
    exfalso
    match r', hr' with
    | .bothParents, _ =>
      obtain ⟨rfl, -⟩ := Prod.mk.inj (Except.ok.inj e4)
      simp at hlen
      omega
    | .weakParent, _ =>
      obtain ⟨_, w8, -, e4⟩ := M.bind_ok_iff.1 e4
      obtain ⟨_, w9, -, e4⟩ := M.bind_ok_iff.1 e4
      obtain ⟨_, w10, -, e4⟩ := M.bind_ok_iff.1 e4
      match pop, hb1, e4 with
      | a :: b :: ps, _, e4 => exact absurd e4 (by unfold weakGo; intro hc; cases hc)
      | [a], hb1, _ => simp at hb1; omega
      | [], hb1, _ => simp at hb1; omega
  · rw [h.select]
    refine (C164_pool hR (by omega) (by omega) count).trans ?_
    refine ENNReal.div_le_div_right ?_ _
    have : count * (2 * (pop.map fit).sum) ≤ count * (2 * (n * F)) := Nat.mul_le_mul_left _ (by omega)
    exact_mod_cast this

/-- **C164, a run.** A whole run over at least one generation returns, instead of panicking, with probability at most
`count * 2 n F / 2^w`. -/
theorem C164_run (hR : Ideal R μ) (h : IntegerGa μ R T ops fit w n F count) (hn : 2 ≤ n) (hF : n * F < 2 ^ w)
    (hp : p.populationSize = n) (hg : 1 ≤ p.generationLimit) (m0 : Metrics) :
    chance μ (run T ops p m0) (fun _ => True) ≤ (count * (2 * (n * F)) : Nat) / (2 ^ w : Nat) := by
  have := hR.isProbability
  have hl := h.law
  have hpro : IfReturns (prologue T ops p m0) fun s => s.pop.length = n := by
    intro g s g' e
    obtain ⟨pop0, g1, e1, e⟩ := M.bind_ok_iff.1 e
    obtain ⟨pop, g2, e2, e⟩ := M.bind_ok_iff.1 e
    obtain ⟨b, g3, e3, e⟩ := M.bind_ok_iff.1 e
    obtain ⟨d, g4, e4, e⟩ := M.bind_ok_iff.1 e
    obtain ⟨rfl, -⟩ := Prod.mk.inj (M.pure_ok_iff.1 e)
    rw [hp] at e1
    show pop.length = n
    rw [(evalPop_bounds h pop0 _ _ _ e2).1, h.gen _ _ _ e1]
  have hprol : HasLaw μ (prologue T ops p m0) := by
    unfold prologue
    exact (hl.gen _).bind fun pop0 => (hl.evalPop _).bind fun pop => (HasLaw.ofExcept _).bind fun b =>
      hl.elapsed.bind fun d => .pure _
  unfold run
  refine hprol.chance_bind_le_sup hpro (fun s _ => (hl.loop _ _ _).bind fun s' => hl.elapsed.bind fun d => .pure _) (fun s hs => ?_)
  obtain ⟨k, hk⟩ : ∃ k, p.generationLimit = k + 1 := ⟨p.generationLimit - 1, by omega⟩
  rw [hk]
  refine le_trans (measure_mono ?_) (C164_generation hR h hn hF hp 1 s hs)
  rintro g ⟨r, g', e, -⟩
  obtain ⟨s', g1, e1, -⟩ := M.bind_ok_iff.1 e
  unfold loop at e1
  obtain ⟨⟨s'', stop⟩, g2, e2, -⟩ := M.bind_ok_iff.1 e1
  exact ⟨_, _, e2, trivial⟩

/-- The integer fitness of an individual. -/
def naturalFitness (i : Individual (List Bool) Nat) : Nat :=
  match i.fitness with
  | .num x => x
  | .nan => 0

/-- The textbook configuration of C155 with an integer fitness: BitStrings, RouletteWheel, SinglePoint, FlipBit and BothParents or WeakParent;
the fitness of a chromosome is `fitness`, of `w` unsigned bits. -/
noncomputable def integerOps (R : Rng G ℝ) (fitness : List Bool → Nat) (r : Replacement) (debug : Bool) (rate : ℝ) (w dim count : Nat)
    (elapsed : M G Nat) : Ops G (Individual (List Bool) Nat) Nat where
  generate k := bitStringsGenerate R (Individual.chromOps Bool (.num 0)) dim k
  fitnessFn := fnFitness (Individual.trait (List Bool) Nat) fun c => .num (fitness c)
  select _ pop := selRouletteI ⟨w, false⟩ false R (fun i => (naturalFitness i : Int)) count pop
  cross _ pool := applyPairs (liftSingle (Individual.chromOps Bool (.num 0)) (singlePoint R)) pool
  mutate _ i := applyMutation (Individual.chromOps Bool (.num 0)) (flipBit R rate) i
  replace _ := r.apply (Individual.trait (List Bool) Nat) debug
  requiresChildrenFitness := r.requiresChildrenFitness
  elapsed := elapsed

theorem hasLaw_weakGo [IsProbabilityMeasure μ] : ∀ ps cs : List I, HasLaw μ (weakGo T ps cs : M G (List I))
  | a :: b :: ps, c :: d :: cs => by unfold weakGo; exact (hasLaw_weakGo ps cs).bind fun _ => .pure _
  | _ :: _ :: _, [] => HasLaw.fail _
  | _ :: _ :: _, [_] => HasLaw.fail _
  | [], _ => HasLaw.pure _
  | [_], _ => HasLaw.pure _

/-- **C164, the textbook GA.** Bit strings with a fitness between 1 and `F` counted in a `w`-bit unsigned integer: a run over at least one
generation returns with probability at most `count * 2 n F / 2^w`; otherwise it panics. -/
theorem C164_textbook (hR : Ideal R μ) {fitness : List Bool → Nat} (hfit : ∀ c, 1 ≤ fitness c ∧ fitness c ≤ F) {r : Replacement}
    (hr : r ≠ .noop) (debug : Bool) (rate : ℝ) (dim : Nat) {elapsed : M G Nat} (hel : HasLaw μ elapsed) (hn : 2 ≤ n) (hF : n * F < 2 ^ w)
    (hp : p.populationSize = n) (hg : 1 ≤ p.generationLimit) (m0 : Metrics) :
    chance μ (run (Individual.trait (List Bool) Nat) (integerOps R fitness r debug rate w dim count elapsed) p m0) (fun _ => True) ≤
      (count * (2 * (n * F)) : Nat) / (2 ^ w : Nat) := by
  have := hR.isProbability
  refine C164_run (fit := naturalFitness) hR ⟨?_, fun _ => rfl, ?_, ?_, ?_, fun _ _ => rfl, ?_, r, debug, hr, fun _ => rfl⟩ hn hF hp hg m0
  · refine ⟨fun k => hasLaw_bitStringsGenerate hR _ _ _, fun i => .pure _, fun m pop => hasLaw_selRouletteI hR _ _ _ _ _,
      fun m pool => hasLaw_applyPairs (hasLaw_liftSingle _ (hasLaw_singlePoint hR)) _,
      fun m i => hasLaw_applyMutation _ (hasLaw_flipBit hR _) _, fun m pop ch => ?_, hel⟩
    match r, hr with
    | .bothParents, _ => exact .pure _
    | .weakParent, _ => exact (HasLaw.assert _ _).bind fun _ => (HasLaw.assert _ _).bind fun _ => (HasLaw.assert _ _).bind fun _ => hasLaw_weakGo _ _
  · exact (C38_bit_strings R _ _ _).1.ifReturns.mono fun _ h => h.1
  · intro i g a g' e
    obtain ⟨rfl, -⟩ := Prod.mk.inj (M.pure_ok_iff.1 e)
    exact ⟨_, rfl, hfit _⟩
  · intro i v h
    have h : i.fitness = .num v := h
    unfold naturalFitness
    rw [h]
  · intro m g a g' e
    obtain ⟨u, g1, -, e⟩ := M.bind_ok_iff.1 e
    obtain ⟨rfl, -⟩ := Prod.mk.inj (Except.ok.inj e)
    rfl

end run

/-! ## Examples -/

/-- Three individuals with fitness 3, 5 and 7, counted in a `u8`: `15 + 1` of the 256 draws select somebody. -/
example : chance tapeLaw (rouletteSpinI ⟨8, false⟩ false tapeRng (fun x : Nat => (id x : Int)) 15 [3, 5, 7]) (· = none) = (240 : Nat) / (256 : Nat) :=
  C164_nobody (w := 8) (fit := id) (pop := [3, 5, 7]) tapeRng_ideal (by decide) (by decide)

example : chance tapeLaw (rouletteSpinI ⟨8, false⟩ false tapeRng (fun x : Nat => (id x : Int)) 15 [3, 5, 7]) (· = some 5) = (5 : Nat) / (256 : Nat) :=
  C164_odd (w := 8) (fit := id) (pop := [3, 5, 7]) (l1 := [3]) (l2 := [7]) (x := 5) tapeRng_ideal (by decide) (by decide) (by decide) rfl
    (by decide) (by decide)

example := C164_selected (w := 8) (fit := id) (pop := [3, 5, 4]) (l1 := [3]) (l2 := [4]) (x := 5) tapeRng_ideal (by decide) (by decide) (by decide) rfl
    (by decide) (by decide)

example := C164_first (w := 8) (fit := id) (pop := [3, 5, 4]) (l2 := [5, 4]) (x := 3) tapeRng_ideal (by decide) rfl (by decide) (by decide)

example := C164_zero_total (fit := fun _ : Nat => 0) ⟨64, false⟩ true 1 [2, 3] (by simp) 5 tapeRng

example := C164_pool_empty (w := 64) (fit := id) (pop := [3, 5, 4]) tapeRng_ideal (by decide) (by decide) 10

example := C164_pool (w := 64) (fit := id) (pop := [3, 5, 4]) tapeRng_ideal (by decide) (by decide) 10

example : chance tapeLaw (rouletteSpinI ⟨8, false⟩ true tapeRng (fun x : Nat => (id x : Int)) 15 [3, 5, 7]) (fun _ => True) = (18 : Nat) / (256 : Nat) :=
  C164_checked_returns (w := 8) (fit := id) (pop := [3, 5, 7]) tapeRng_ideal (by decide) (by decide)

example := C164_checked_selects (w := 8) (fit := id) (pop := [3, 5, 7]) tapeRng_ideal (by decide) (by decide)

/-- The same in an `i8`: the first individual, the one with the lowest fitness, is selected by 132 of the 256 draws. -/
example : chance tapeLaw (rouletteSpinI ⟨8, true⟩ false tapeRng (fun x : Nat => (id x : Int)) 15 [3, 5, 7]) (· = some 3) = (132 : Nat) / (256 : Nat) :=
  C164_signed_first (w := 8) (fit := id) (pop := [3, 5, 7]) (l2 := [5, 7]) (x := 3) tapeRng_ideal (by decide) (by decide) rfl (by decide) (by decide)

example := C164_signed_nobody (w := 8) (fit := id) (pop := [3, 5, 7]) tapeRng_ideal (by decide) (by decide) (by decide)

/-- Counting ones of ten bits in a `u64`, a population of 100: the run returns with probability at most `220000 / 2^64`. -/
example (m0 : Metrics) := C164_textbook (F := 11) (n := 100) (w := 64) (count := 100) (p := ⟨100, 50, 1000⟩) tapeRng_ideal
  (fitness := fun c => min (c.countP id) 10 + 1) (fun c => ⟨by omega, by omega⟩) (r := .bothParents) (by decide) true 0.01 10 (elapsed := pure 0)
  (.pure 0) (by decide) (by decide) rfl (by decide) m0

/-- The hypotheses of the general statements are met by it. -/
example : ∃ ops : Ops Tape (Individual (List Bool) Nat) Nat,
    IntegerGa tapeLaw tapeRng (Individual.trait (List Bool) Nat) ops naturalFitness 64 2 1 2 := by
  have := tapeRng_ideal.isProbability
  refine ⟨⟨fun k => pure (List.replicate k ⟨[], .num 1⟩), fun i => pure (i, .num 1), fun _ pop => selRouletteI ⟨64, false⟩ false tapeRng
      (fun i => (naturalFitness i : Int)) 2 pop, fun _ pool => pure pool, fun _ i => pure i,
      fun _ => Replacement.bothParents.apply (Individual.trait (List Bool) Nat) true, false, pure 0⟩,
    ⟨⟨fun _ => .pure _, fun _ => .pure _, fun m pop => hasLaw_selRouletteI tapeRng_ideal _ _ _ _ _, fun _ _ => .pure _, fun _ _ => .pure _,
      fun _ _ _ => .pure _, .pure _⟩, fun _ => rfl, ?_, ?_, ?_, fun _ _ => rfl, ?_, .bothParents, true, by decide, fun _ => rfl⟩⟩
  · intro g a g' e
    obtain ⟨rfl, -⟩ := Prod.mk.inj (M.pure_ok_iff.1 e)
    simp
  · intro i g a g' e
    obtain ⟨rfl, -⟩ := Prod.mk.inj (M.pure_ok_iff.1 e)
    exact ⟨1, rfl, le_rfl, le_rfl⟩
  · intro i v h
    have h : i.fitness = .num v := h
    unfold naturalFitness
    rw [h]
  · intro m g a g' e
    obtain ⟨rfl, -⟩ := Prod.mk.inj (M.pure_ok_iff.1 e)
    rfl

end Ecrs.Props
