import Verif.Props.ProbAco
import Verif.Aco.SampledRun
import Verif.Props.AcoRun
import Mathlib.Analysis.SpecialFunctions.Pow.Real
import Mathlib.Analysis.SpecificLimits.Basic

/-!
# C137: ant colonies that evaporate can stagnate forever
-/

set_option linter.unusedSectionVars false

namespace Ecrs.Aco
open Ecrs MeasureTheory
open scoped ENNReal

/-! ## Specification -/

/-- Specification: `p` runs along the closed tour `T`, starting anywhere, in either direction. -/
def OnCycle (T p : List Nat) : Prop := p ~r T ∨ p ~r T.reverse

/-- Specification: `T` uses the edge between `i` and `j`, in one of the directions. -/
def Edge (T : List Nat) (i j : Nat) : Prop := (i, j) ∈ windows T ∨ (j, i) ∈ windows T

/-! ## Cycles -/

theorem Edge.symm {T : List Nat} {i j : Nat} (h : Edge T i j) : Edge T j i := h.elim .inr .inl

theorem mem_windows {L : List Nat} {x y : Nat} :
    (x, y) ∈ windows L ↔ ∃ (i : Nat) (h : i < L.length), L[i] = x ∧ L[(i + 1) % L.length]'(Nat.mod_lt _ (by omega)) = y := by
  constructor
  · intro h
    obtain ⟨i, hi⟩ := List.mem_iff_getElem?.1 h
    have hl : i < L.length := by
      rw [← windows_length]
      exact (List.getElem?_eq_some_iff.1 hi).1
    rw [windows_getElem L i hl] at hi
    cases hi
    exact ⟨i, hl, rfl, rfl⟩
  · rintro ⟨i, h, rfl, rfl⟩
    exact List.mem_iff_getElem?.2 ⟨i, windows_getElem L i h⟩

theorem edge_rotated {T p : List Nat} (h : p ~r T) (i j : Nat) : Edge p i j ↔ Edge T i j := by
  obtain ⟨k, rfl⟩ := h
  unfold Edge
  rw [windows_rotate]
  simp

theorem edge_reverse (T : List Nat) (i j : Nat) : Edge T.reverse i j ↔ Edge T i j := by
  unfold Edge
  rw [(windows_reverse T).mem_iff, (windows_reverse T).mem_iff]
  simp only [List.mem_map, Prod.exists, Prod.swap_prod_mk, Prod.mk.injEq]
  constructor
  · rintro (⟨a, b, h, rfl, rfl⟩ | ⟨a, b, h, rfl, rfl⟩)
    · exact .inr h
    · exact .inl h
  · rintro (h | h)
    · exact .inr ⟨_, _, h, rfl, rfl⟩
    · exact .inl ⟨_, _, h, rfl, rfl⟩

theorem OnCycle.edge {T p : List Nat} (h : OnCycle T p) (i j : Nat) : Edge p i j ↔ Edge T i j := by
  rcases h with h | h
  · exact edge_rotated h i j
  · rw [edge_rotated h, edge_reverse]

theorem OnCycle.tour {n : Nat} {T p : List Nat} (h : OnCycle T p) (ht : IsTour n T) : IsTour n p := by
  rcases h with h | h
  · exact h.perm.trans ht
  · exact (h.perm.trans (List.reverse_perm T)).trans ht

theorem edge_iff_next {L : List Nat} (hnd : L.Nodup) {i j : Nat} (hi : i < L.length) (hj : j < L.length) :
    Edge L L[i] L[j] ↔ j = (i + 1) % L.length ∨ i = (j + 1) % L.length := by
  unfold Edge
  rw [mem_windows, mem_windows]
  constructor
  · rintro (⟨k, hk, h1, h2⟩ | ⟨k, hk, h1, h2⟩)
    · have := (List.Nodup.getElem_inj_iff hnd).1 h1
      subst this
      exact .inl ((List.Nodup.getElem_inj_iff hnd).1 h2).symm
    · have := (List.Nodup.getElem_inj_iff hnd).1 h1
      subst this
      exact .inr ((List.Nodup.getElem_inj_iff hnd).1 h2).symm
  · rintro (h | h)
    · exact .inl ⟨i, hi, rfl, by simp only [← h]⟩
    · exact .inr ⟨j, hj, rfl, by simp only [← h]⟩

/-- Along `vs` from `x`: every step is an edge, and no other vertex to come is adjacent. -/
def Straight (T : List Nat) : Nat → List Nat → Prop
  | _, [] => True
  | x, v :: vs => Edge T x v ∧ (∀ z ∈ vs, ¬ Edge T x z) ∧ Straight T v vs

theorem straight_drop {L : List Nat} (hnd : L.Nodup) : ∀ (m i : Nat) (hi : i < L.length), 1 ≤ i → i + m + 1 = L.length →
    Straight L L[i] (L.drop (i + 1))
  | 0, i, hi, h1, hm => by
    rw [List.drop_of_length_le (by omega)]
    trivial
  | m + 1, i, hi, h1, hm => by
    have hi1 : i + 1 < L.length := by omega
    rw [List.drop_eq_getElem_cons hi1]
    refine ⟨(edge_iff_next hnd hi hi1).2 (.inl (Nat.mod_eq_of_lt hi1).symm), fun z hz => ?_,
      straight_drop hnd m (i + 1) hi1 (by omega) (by omega)⟩
    obtain ⟨k, hk, rfl⟩ := List.getElem_of_mem hz
    rw [List.length_drop] at hk
    rw [List.getElem_drop, edge_iff_next hnd hi (by omega)]
    rintro (h | h)
    · rw [Nat.mod_eq_of_lt hi1] at h; omega
    · by_cases hl : i + 1 + 1 + k + 1 < L.length
      · rw [Nat.mod_eq_of_lt hl] at h; omega
      · rw [show i + 1 + 1 + k + 1 = L.length by omega, Nat.mod_self] at h; omega

theorem straight_congr {T T' : List Nat} (h : ∀ i j, Edge T i j ↔ Edge T' i j) : ∀ (vs : List Nat) (x : Nat),
    Straight T x vs → Straight T' x vs
  | [], _, _ => trivial
  | v :: vs, _, ⟨h1, h2, h3⟩ => ⟨(h _ _).1 h1, fun z hz hc => h2 z hz ((h _ _).2 hc), straight_congr h vs v h3⟩

/-- A closed tour from `s`: first `v`, at the end `v'`; `s` is adjacent to these two only, and the rest is straight. -/
theorem cycle_shape {n : Nat} {T : List Nat} (ht : IsTour n T) (hn : 3 ≤ n) {s : Nat} (hs : s < n) :
    ∃ v mid v', (s :: v :: (mid ++ [v'])) ~r T ∧ Edge T s v ∧ Edge T s v' ∧ (∀ z ∈ mid, ¬ Edge T s z) ∧
      Straight T v (mid ++ [v']) ∧ Straight T v' (mid.reverse ++ [v]) := by
  have hmem : s ∈ T := ht.mem_iff.2 (List.mem_range.2 hs)
  obtain ⟨a, b, rfl⟩ := List.append_of_mem hmem
  have hrot : (s :: b ++ a) ~r (a ++ s :: b) := by
    exact List.IsRotated.symm ⟨a.length, by simp⟩
  have htour : IsTour n (s :: (b ++ a)) := OnCycle.tour (.inl hrot) ht
  have hlen : (b ++ a).length = n - 1 := by
    have := htour.length_eq
    rw [List.length_range, List.length_cons] at this; omega
  obtain ⟨v, r, hr⟩ : ∃ v r, b ++ a = v :: r := by
    cases h : b ++ a with
    | nil => rw [h] at hlen; simp at hlen; omega
    | cons v r => exact ⟨v, r, rfl⟩
  rw [List.cons_append, hr] at hrot
  rw [hr] at htour hlen
  have hrne : r ≠ [] := by rintro rfl; simp at hlen; omega
  obtain ⟨mid, v', hmid⟩ : ∃ mid v', r = mid ++ [v'] := ⟨r.dropLast, r.getLast hrne, (List.dropLast_append_getLast hrne).symm⟩
  subst hmid
  set L := s :: v :: (mid ++ [v']) with hL
  have hedge : ∀ i j, Edge L i j ↔ Edge (a ++ s :: b) i j := edge_rotated hrot
  have hnd : L.Nodup := htour.nodup_iff.2 List.nodup_range
  have hll : L.length = mid.length + 3 := by simp [hL]
  -- the other direction
  set L' := s :: v' :: (mid.reverse ++ [v]) with hL'
  have hrot' : L' ~r L.reverse := by
    refine List.IsRotated.symm ⟨L.length - 1, ?_⟩
    have e1 : L.reverse = (v' :: (mid.reverse ++ [v])) ++ [s] := by simp [hL]
    have e2 : L.length - 1 = (v' :: (mid.reverse ++ [v])).length := by simp [hL]
    rw [e1, e2, List.rotate_append_length_eq]
    rfl
  have hedge' : ∀ i j, Edge L' i j ↔ Edge (a ++ s :: b) i j := fun i j => by
    rw [edge_rotated hrot', edge_reverse, hedge]
  have hnd' : L'.Nodup := (hrot'.perm.nodup_iff).2 (List.nodup_reverse.2 hnd)
  have hll' : L'.length = mid.length + 3 := by simp [hL']
  refine ⟨v, mid, v', hrot, ?_, ?_, ?_, ?_, ?_⟩
  · rw [← hedge]
    have := (edge_iff_next hnd (i := 0) (j := 1) (by omega) (by omega)).2 (.inl (by rw [Nat.mod_eq_of_lt (by omega)]))
    exact this
  · rw [← hedge]
    have := (edge_iff_next hnd (i := 0) (j := mid.length + 2) (by omega) (by omega)).2
      (.inr (by rw [show mid.length + 2 + 1 = L.length by omega, Nat.mod_self]))
    have e : L[mid.length + 2]'(by omega) = v' := by simp [hL]
    rw [e] at this
    exact this
  · intro z hz
    rw [← hedge]
    obtain ⟨k, hk, rfl⟩ := List.getElem_of_mem hz
    have e : mid[k] = L[k + 2]'(by omega) := by simp [hL, List.getElem_append_left hk]
    have e0 : s = L[0]'(by omega) := rfl
    rw [e]
    intro hc
    rcases (edge_iff_next hnd (i := 0) (j := k + 2) (by omega) (by omega)).1 hc with h | h
    · rw [Nat.mod_eq_of_lt (by omega)] at h; omega
    · rw [Nat.mod_eq_of_lt (by omega)] at h; omega
  · refine straight_congr hedge _ _ ?_
    exact straight_drop hnd (mid.length + 1) 1 (by omega) le_rfl (by omega)
  · refine straight_congr hedge' _ _ ?_
    exact straight_drop hnd' (mid.length + 1) 1 (by omega) le_rfl (by omega)

/-! ## How likely it is to stay on a cycle -/

theorem exp_le_ratio {a b x y : ℝ} (ha : 0 < a) (hb : 0 ≤ b) (hx : a ≤ x) (hy : y ≤ b) (hy0 : 0 ≤ y) :
    Real.exp (-(b / a)) ≤ x / (x + y) := by
  have hx0 : 0 < x := ha.trans_le hx
  have h1 : y / x ≤ b / a := div_le_div₀ hb hy ha hx
  have h2 : 1 + b / a ≤ Real.exp (b / a) := by linarith [Real.add_one_le_exp (b / a)]
  have h3 : x / (x + y) = 1 / (1 + y / x) := by field_simp
  rw [h3, Real.exp_neg, ← one_div]
  refine one_div_le_one_div_of_le ?_ ?_
  · have : 0 ≤ y / x := div_nonneg hy0 hx0.le
    linarith
  · linarith

theorem sum_le_of_nonedge {n : Nat} {T : List Nat} {f : Nat → Nat → ℝ} {e : ℝ} (he : 0 ≤ e)
    (hf : ∀ i j, i < n → j < n → i ≠ j → 0 < f i j) (hne : ∀ i j, i < n → j < n → i ≠ j → ¬ Edge T i j → f i j ≤ e)
    {x : Nat} (hx : x < n) : ∀ (vs : List Nat), (∀ z ∈ vs, z < n ∧ x ≠ z ∧ ¬ Edge T x z) →
    0 ≤ (vs.map (f x)).sum ∧ (vs.map (f x)).sum ≤ vs.length * e
  | [], _ => by simp
  | v :: vs, h => by
    obtain ⟨i1, i2⟩ := sum_le_of_nonedge he hf hne hx vs fun z hz => h z (by simp [hz])
    obtain ⟨h1, h2, h3⟩ := h v (by simp)
    have := hf x v hx h1 h2
    have := hne x v hx h1 h2 h3
    rw [List.map_cons, List.sum_cons, List.length_cons]
    push_cast
    constructor <;> linarith

theorem tourProb_straight {n : Nat} {T : List Nat} {f : Nat → Nat → ℝ} {a e : ℝ} (ha : 0 < a) (he : 0 ≤ e)
    (hf : ∀ i j, i < n → j < n → i ≠ j → 0 < f i j)
    (hed : ∀ i j, i < n → j < n → i ≠ j → Edge T i j → a ≤ f i j)
    (hne : ∀ i j, i < n → j < n → i ≠ j → ¬ Edge T i j → f i j ≤ e) :
    ∀ (vs : List Nat) (x : Nat), (x :: vs).Nodup → (∀ z ∈ x :: vs, z < n) → vs.length ≤ n → Straight T x vs →
    Real.exp (-(n * e / a)) ^ vs.length ≤ tourProb 0 f x vs
  | [], x, _, _, _, _ => by simp [tourProb]
  | v :: vs, x, hnd, hlt, hlen, ⟨h1, h2, h3⟩ => by
    have hx : x < n := hlt x (by simp)
    have hv : v < n := hlt v (by simp)
    have hxn : ∀ z ∈ v :: vs, x ≠ z := by
      rintro z hz rfl
      exact (List.nodup_cons.1 hnd).1 hz
    have ih := tourProb_straight ha he hf hed hne vs v (List.nodup_cons.1 hnd).2 (fun z hz => hlt z (by simp [hz]))
      (by simp at hlen; omega) h3
    obtain ⟨s1, s2⟩ := sum_le_of_nonedge (T := T) he hf hne hx vs fun z hz =>
      ⟨hlt z (by simp [hz]), hxn z (by simp [hz]), h2 z hz⟩
    have hl' : (vs.length : ℝ) ≤ n := by
      have : vs.length ≤ n := by simp at hlen; omega
      exact_mod_cast this
    have hstep : Real.exp (-(n * e / a)) ≤ ruleStep 0 f x (v :: vs) v := by
      unfold ruleStep
      rw [zero_mul, zero_add, sub_zero, one_mul, List.map_cons, List.sum_cons]
      exact exp_le_ratio ha (by positivity) (hed x v hx hv (hxn v (by simp)) h1)
        (s2.trans (mul_le_mul_of_nonneg_right hl' he)) s1
    rw [List.length_cons, pow_succ, tourProb, mul_comm]
    exact mul_le_mul hstep ih (by positivity) ((Real.exp_pos _).le.trans hstep)

section
variable {G α : Type} [MeasurableSpace G] {μ : Measure G}

/-- Two outcomes that exclude each other. -/
theorem _root_.Ecrs.HasLaw.chance_or [IsProbabilityMeasure μ] {m : M G α} (h : HasLaw μ m) {P Q : α → Prop}
    (hd : ∀ a, P a → ¬ Q a) : chance μ m P + chance μ m Q = chance μ m fun a => P a ∨ Q a := by
  unfold chance
  rw [← measure_union _ (h.measurable Q)]
  · congr 1
    ext g
    simp only [Set.mem_union, Set.mem_ofPred_eq]
    constructor
    · rintro (⟨a, g', h1, h2⟩ | ⟨a, g', h1, h2⟩)
      · exact ⟨a, g', h1, .inl h2⟩
      · exact ⟨a, g', h1, .inr h2⟩
    · rintro ⟨a, g', h1, h2 | h2⟩
      · exact .inl ⟨a, g', h1, h2⟩
      · exact .inr ⟨a, g', h1, h2⟩
  · rw [Set.disjoint_left]
    rintro g ⟨a, g', h1, h2⟩ ⟨b, g'', h3, h4⟩
    rw [h1] at h3
    cases h3
    exact hd a h2 h4

/-- What certainly holds of the results can be added to an event. -/
theorem _root_.Ecrs.chance_and {m : M G α} {P A : α → Prop} (h : IfReturns m A) :
    chance μ m P = chance μ m fun a => P a ∧ A a := by
  unfold chance
  congr 1
  ext g
  simp only [Set.mem_ofPred_eq]
  constructor
  · rintro ⟨a, g', h1, h2⟩
    exact ⟨a, g', h1, h2, h g a g' h1⟩
  · rintro ⟨a, g', h1, h2⟩
    exact ⟨a, g', h1, h2.1⟩

end

section
variable {G : Type} [MeasurableSpace G] {R : Rng G ℝ} {μ : Measure G}
variable (sqrt : Ext ℝ → Ext ℝ) (pow : Ext ℝ → Ext ℝ → Ext ℝ) (maxv : ℝ) (floor : ℝ → Nat)

local notation "A0" => exactOps sqrt pow maxv floor

/-- One ant that does not exploit runs along the cycle `T` with probability at least `exp (-n²e/a)`, if the goodness is at least `a` on
the edges of `T` and at most `e` elsewhere. -/
theorem oneAntM_cycle (hR : Ideal R μ) (hmax : 0 ≤ maxv) {n : Nat} (hn : 3 ≤ n) {T : List Nat} (ht : IsTour n T)
    {g : Mat (Ext ℝ)} {f : Nat → Nat → ℝ} (hg : FinMat n g f) {a e : ℝ} (ha : 0 < a) (he : 0 ≤ e)
    (hf : ∀ i j, i < n → j < n → i ≠ j → 0 < f i j)
    (hed : ∀ i j, i < n → j < n → i ≠ j → Edge T i j → a ≤ f i j)
    (hne : ∀ i j, i < n → j < n → i ≠ j → ¬ Edge T i j → f i j ≤ e)
    {an : Ant (Ext ℝ)} (hr : Ready n an) (hrate : RateOf an 0) {o : Nat → List Nat → List Nat}
    (ho : ∀ t l, (o t l).Perm l) :
    ENNReal.ofReal (Real.exp (-(n * (n * e / a)))) ≤ chance μ (oneAntM R A0 g n o ho an) (fun b => OnCycle T b.path) := by
  have := hR.isProbability
  unfold oneAntM
  refine le_trans (le_of_eq ?_) ((hasLaw_startM hR an).le_chance_bind (fun b => hasLaw_walkM sqrt pow maxv floor hR g ho _ _ b)
    (fun b => Walking n 0 b ∧ b.stuck = false ∧ ∃ s, s < n ∧ b.path = [s])
    (ε := ENNReal.ofReal (Real.exp (-(n * (n * e / a))))) ?_)
  · have hret : Returns (startM R an) fun b => Walking n 0 b ∧ b.stuck = false ∧ ∃ s, s < n ∧ b.path = [s] := by
      have h1 : Returns (startM R an) fun _ => True := by
        unfold startM
        refine (R.genRange_returns (by rw [hr.1]; omega)).bind fun s hs => ?_
        intro w
        obtain ⟨-, c2, -, -⟩ := clear_unvisited hr
        have e : ∃ b, an.clear.start s = .ok b := by
          unfold Ant.start
          rw [if_neg (by omega)]
          exact ⟨_, rfl⟩
        obtain ⟨b, hb⟩ := e
        rw [hb]
        exact ⟨b, w, rfl, trivial⟩
      intro w
      obtain ⟨b, w', hb, -⟩ := h1 w
      exact ⟨b, w', hb, startM_walking hr hrate w b w' hb⟩
    rw [chance_of_returns hret, one_mul]
  · rintro b ⟨hw, hst, s, hs, hp⟩
    obtain ⟨v, mid, v', hrot, e1, e2, e3, s1, s2⟩ := cycle_shape ht hn hs
    have hlast : b.path.getLast? = some s := by rw [hp]; rfl
    have t1 : IsTour n (s :: v :: (mid ++ [v'])) := OnCycle.tour (.inl hrot) ht
    have p12 : (s :: v' :: (mid.reverse ++ [v])).Perm (s :: v :: (mid ++ [v'])) := by
      refine List.Perm.cons s ?_
      have q1 : (v' :: (mid.reverse ++ [v])) = (v :: (mid ++ [v'])).reverse := by simp
      rw [q1]
      exact List.reverse_perm _
    have t2 : IsTour n (s :: v' :: (mid.reverse ++ [v])) := p12.trans t1
    have hlen : mid.length + 3 = n := by
      have := t1.length_eq
      simpa using this
    have nd1 : (s :: v :: (mid ++ [v'])).Nodup := t1.nodup_iff.2 List.nodup_range
    have nd2 : (s :: v' :: (mid.reverse ++ [v])).Nodup := t2.nodup_iff.2 List.nodup_range
    have lt1 : ∀ z ∈ s :: v :: (mid ++ [v']), z < n := fun z hz => List.mem_range.1 (t1.mem_iff.1 hz)
    have lt2 : ∀ z ∈ s :: v' :: (mid.reverse ++ [v]), z < n := fun z hz => List.mem_range.1 (t2.mem_iff.1 hz)
    have c1 := walkM_chance sqrt pow maxv floor hR hmax hg hf (q := 0) (fun h => absurd rfl h) ho (v :: (mid ++ [v'])) 0 b s hw
      hst hlast (by rw [hp]; exact t1)
    have c2 := walkM_chance sqrt pow maxv floor hR hmax hg hf (q := 0) (fun h => absurd rfl h) ho (v' :: (mid.reverse ++ [v])) 0 b s
      hw hst hlast (by rw [hp]; exact t2)
    have l1 : (v :: (mid ++ [v'])).length = n - 1 := by simp; omega
    have l2 : (v' :: (mid.reverse ++ [v])).length = n - 1 := by simp; omega
    rw [l1] at c1
    rw [l2] at c2
    have hrot2 : (s :: v' :: (mid.reverse ++ [v])) ~r T.reverse := by
      have q := hrot.reverse
      refine List.IsRotated.trans (List.IsRotated.symm ⟨n - 1, ?_⟩) q
      have q1 : (s :: v :: (mid ++ [v'])).reverse = (v' :: (mid.reverse ++ [v])) ++ [s] := by simp
      rw [q1, ← l2, List.rotate_append_length_eq]
      rfl
    have hsub : chance μ (Ant.walkM R A0 g o ho 0 (n - 1) b) (fun c => c.path = b.path ++ (v :: (mid ++ [v'])) ∨
        c.path = b.path ++ (v' :: (mid.reverse ++ [v]))) ≤
        chance μ (Ant.walkM R A0 g o ho 0 (n - 1) b) (fun c => OnCycle T c.path) := by
      refine chance_mono fun c hc => ?_
      rw [hp] at hc
      rcases hc with hc | hc
      · rw [hc]; exact .inl hrot
      · rw [hc]; exact .inr hrot2
    refine le_trans ?_ hsub
    have hvv : v ≠ v' := by
      rintro rfl
      have := (List.nodup_cons.1 (List.nodup_cons.1 nd1).2).1
      simp at this
    rw [← (hasLaw_walkM sqrt pow maxv floor hR g ho _ _ b).chance_or, c1, c2]
    swap
    · intro c h1 h2
      rw [h1, List.append_cancel_left_eq] at h2
      simp only [List.cons.injEq] at h2
      exact hvv h2.1
    have hsn : ∀ z ∈ v :: (mid ++ [v']), s ≠ z := by
      rintro z hz rfl
      exact (List.nodup_cons.1 nd1).1 hz
    have hv : v < n := lt1 v (by simp)
    have hv' : v' < n := lt1 v' (by simp)
    have f1 := hed s v hs hv (hsn v (by simp)) e1
    have f2 := hed s v' hs hv' (hsn v' (by simp)) e2
    have b1 := tourProb_straight ha he hf hed hne (mid ++ [v']) v (List.nodup_cons.1 nd1).2
      (fun z hz => lt1 z (List.mem_cons_of_mem _ hz)) (by simp; omega) s1
    have b2 := tourProb_straight ha he hf hed hne (mid.reverse ++ [v]) v' (List.nodup_cons.1 nd2).2
      (fun z hz => lt2 z (List.mem_cons_of_mem _ hz)) (by simp; omega) s2
    rw [show (mid ++ [v']).length = n - 2 by simp; omega] at b1
    rw [show (mid.reverse ++ [v]).length = n - 2 by simp; omega] at b2
    obtain ⟨m1, m2⟩ := sum_le_of_nonedge (T := T) he hf hne hs mid fun z hz =>
      ⟨lt1 z (by simp [hz]), hsn z (by simp [hz]), e3 z hz⟩
    have hml : (mid.length : ℝ) ≤ n := by
      have : mid.length ≤ n := by omega
      exact_mod_cast this
    set E := Real.exp (-(n * e / a)) with hE
    have hE0 : 0 < E := Real.exp_pos _
    have hstep := exp_le_ratio (x := f s v + f s v') ha (b := n * e) (by positivity) (by linarith)
      (m2.trans (mul_le_mul_of_nonneg_right hml he)) m1
    have hS1 : ((v :: (mid ++ [v'])).map (f s)).sum = f s v + f s v' + (mid.map (f s)).sum := by
      simp only [List.map_cons, List.map_append, List.map_nil, List.sum_cons, List.sum_append, List.sum_nil]; ring
    have hS2 : ((v' :: (mid.reverse ++ [v])).map (f s)).sum = f s v + f s v' + (mid.map (f s)).sum := by
      simp only [List.map_cons, List.map_append, List.map_nil, List.sum_cons, List.sum_append, List.sum_nil, List.map_reverse,
        List.sum_reverse]; ring
    have hr1 : ruleStep 0 f s (v :: (mid ++ [v'])) v = f s v / (f s v + f s v' + (mid.map (f s)).sum) := by
      unfold ruleStep; rw [hS1]; ring
    have hr2 : ruleStep 0 f s (v' :: (mid.reverse ++ [v])) v' = f s v' / (f s v + f s v' + (mid.map (f s)).sum) := by
      unfold ruleStep; rw [hS2]; ring
    have hden : 0 < f s v + f s v' + (mid.map (f s)).sum := by linarith
    rw [tourProb, tourProb, hr1, hr2, ← ENNReal.ofReal_add]
    rotate_left
    · exact mul_nonneg (div_nonneg (by linarith) hden.le) ((pow_pos hE0 _).le.trans b1)
    · exact mul_nonneg (div_nonneg (by linarith) hden.le) ((pow_pos hE0 _).le.trans b2)
    refine ENNReal.ofReal_le_ofReal ?_
    have k1 : f s v / (f s v + f s v' + (mid.map (f s)).sum) * E ^ (n - 2) ≤
        f s v / (f s v + f s v' + (mid.map (f s)).sum) * tourProb 0 f v (mid ++ [v']) :=
      mul_le_mul_of_nonneg_left b1 (div_nonneg (by linarith) hden.le)
    have k2 : f s v' / (f s v + f s v' + (mid.map (f s)).sum) * E ^ (n - 2) ≤
        f s v' / (f s v + f s v' + (mid.map (f s)).sum) * tourProb 0 f v' (mid.reverse ++ [v]) :=
      mul_le_mul_of_nonneg_left b2 (div_nonneg (by linarith) hden.le)
    have k3 : E * E ^ (n - 2) ≤ (f s v + f s v') / (f s v + f s v' + (mid.map (f s)).sum) * E ^ (n - 2) :=
      mul_le_mul_of_nonneg_right hstep (by positivity)
    have k4 : Real.exp (-(n * (n * e / a))) ≤ E * E ^ (n - 2) := by
      have : E * E ^ (n - 2) = E ^ (n - 1) := by rw [← pow_succ']; congr 1; omega
      rw [this]
      have q1 : E ^ n = Real.exp (-(n * (n * e / a))) := by
        rw [hE, ← Real.exp_nat_mul]; congr 1; ring
      rw [← q1]
      refine pow_le_pow_of_le_one hE0.le ?_ (by omega)
      rw [hE]
      refine Real.exp_le_one_iff.2 ?_
      have : 0 ≤ n * e / a := by positivity
      linarith
    have k5 : (f s v + f s v') / (f s v + f s v' + (mid.map (f s)).sum) * E ^ (n - 2) =
        f s v / (f s v + f s v' + (mid.map (f s)).sum) * E ^ (n - 2) +
        f s v' / (f s v + f s v' + (mid.map (f s)).sum) * E ^ (n - 2) := by rw [add_div, add_mul]
    linarith

/-- Specification: ants made for `n` vertices that never exploit (canonical ants, or exploitation rate 0), in any state
calls leave them in. -/
def Canonical (n : Nat) (ants : List (Ant (Ext ℝ))) : Prop := ∀ a ∈ ants, Ready n a ∧ RateOf a 0

/-- A colony of ants that do not exploit runs along the cycle `T`, all of them. -/
theorem asLoopM_cycle (hR : Ideal R μ) (hmax : 0 ≤ maxv) {n : Nat} (hn : 3 ≤ n) {T : List Nat} (ht : IsTour n T)
    {g : Mat (Ext ℝ)} {f : Nat → Nat → ℝ} (hg : FinMat n g f) {a e : ℝ} (ha : 0 < a) (he : 0 ≤ e)
    (hf : ∀ i j, i < n → j < n → i ≠ j → 0 < f i j)
    (hed : ∀ i j, i < n → j < n → i ≠ j → Edge T i j → a ≤ f i j)
    (hne : ∀ i j, i < n → j < n → i ≠ j → ¬ Edge T i j → f i j ≤ e) {o : Nat → Nat → List Nat → List Nat}
    (ho : ∀ k t l, (o k t l).Perm l) : ∀ (ants : List (Ant (Ext ℝ))) (k : Nat), Canonical n ants →
    ENNReal.ofReal (Real.exp (-(ants.length * (n * (n * e / a))))) ≤ chance μ (asLoopM R A0 g n o ho k ants)
      (fun r => r.1.length = ants.length ∧ Canonical n r.1 ∧ r.2.length = ants.length ∧ ∀ p ∈ r.2, OnCycle T p)
  | [], k, _ => by
    have := hR.isProbability
    unfold asLoopM
    rw [chance_of_returns (Returns.pure ⟨rfl, fun a h => by simp at h, rfl, by simp⟩)]
    simp
  | an :: as, k, hc => by
    have := hR.isProbability
    have ih := asLoopM_cycle hR hmax hn ht hg ha he hf hed hne ho as (k + 1) fun x hx => hc x (by simp [hx])
    obtain ⟨hr, hq⟩ := hc an (by simp)
    have h1 := oneAntM_cycle sqrt pow maxv floor hR hmax hn ht hg ha he hf hed hne hr hq (ho k)
    rw [chance_and (oneAntM_walking sqrt pow maxv floor (q := 0) hr hq)] at h1
    unfold asLoopM
    refine le_trans ?_ ((hasLaw_oneAntM sqrt pow maxv floor hR g n (ho k) an).le_chance_bind
      (fun b => .ite (.pure _) ((hasLaw_asLoopM sqrt pow maxv floor hR g n ho as (k + 1)).bind fun r => .pure _))
      (fun b => OnCycle T b.path ∧ Walking n 0 b)
      (ε := ENNReal.ofReal (Real.exp (-(as.length * (n * (n * e / a)))))) ?_)
    · refine le_trans (le_of_eq ?_) (mul_le_mul_left h1 _)
      rw [← ENNReal.ofReal_mul (Real.exp_pos _).le, ← Real.exp_add]
      congr 2
      rw [List.length_cons]; push_cast; ring
    · rintro b ⟨hb, hw⟩
      have hst : ¬ b.stuck = true := fun h => hw.2.2 h ((hb.tour ht).nodup_iff.2 List.nodup_range)
      rw [if_neg hst, chance_map]
      refine ih.trans (chance_mono ?_)
      rintro r ⟨r1, r2, r3, r4⟩
      refine ⟨by simp [r1], fun x hx => ?_, by simp [r3], fun p hp => ?_⟩
      · rcases List.mem_cons.1 hx with rfl | hx
        · exact ⟨hw.1.1, hw.2.1⟩
        · exact r2 x hx
      · rcases List.mem_cons.1 hp with rfl | hp
        · exact hb
        · exact r4 p hp

/-! ## The pheromone of a colony that stays on a cycle -/

/-- The best solution a policy keeps: none yet, or a graded tour along `T`. -/
def Kept (n : Nat) (w : Nat → Nat → ℝ) (T : List Nat) (u : Sol (Ext ℝ)) : Prop :=
  u.fitness = .fin 0 ∨ (OnCycle T u.path ∧ GradedTour n w u)

/-- The smaller fitness of the two directions of `T`. -/
noncomputable def low (w : Nat → Nat → ℝ) (T : List Nat) : ℝ := min (1 / tourLength w T) (1 / tourLength w T.reverse)

theorem low_pos {n : Nat} {W : Mat (Ext ℝ)} {w : Nat → Nat → ℝ} (hi : Instance n W w) {T : List Nat} (ht : IsTour n T) :
    0 < low w T :=
  lt_min (one_div_pos.2 (tourLength_pos hi ht)) (one_div_pos.2 (tourLength_pos hi ((List.reverse_perm T).trans ht)))

theorem low_le {w : Nat → Nat → ℝ} {T p : List Nat} (h : OnCycle T p) : low w T ≤ 1 / tourLength w p := by
  rcases h with h | h
  · obtain ⟨k, rfl⟩ := h.symm
    rw [C62_rotation]
    exact min_le_left _ _
  · obtain ⟨k, rfl⟩ := h.symm
    rw [C62_rotation]
    exact min_le_right _ _

theorem pick_cycle {n : Nat} {w : Nat → Nat → ℝ} {T : List Nat} {u : Sol (Ext ℝ)} (hu : Kept n w T u)
    {sols : List (Sol (Ext ℝ))} (hne : sols ≠ []) (hs : ∀ s ∈ sols, OnCycle T s.path ∧ GradedTour n w s) (p : Policy) :
    OnCycle T (p.pick A0 u sols).path ∧ GradedTour n w (p.pick A0 u sols) := by
  have hnum : ∀ s ∈ sols, Numeric A0 s := fun s h => graded_numeric sqrt pow maxv floor (hs s h).2
  cases p with
  | iterationBest =>
    exact hs _ (C60_iteration_best (A := A0) (best := u) hnum hne).1
  | overallBest =>
    show OnCycle T (overallBest A0 u sols).path ∧ GradedTour n w (overallBest A0 u sols)
    cases sols with
    | nil => exact absurd rfl hne
    | cons s ss =>
      have hb := hs _ (better_mem (A := A0) ss s)
      unfold overallBest
      simp only
      split
      · exact hb
      · next hlt =>
        rcases hu with h0 | h
        · exfalso
          apply hlt
          rw [h0, hb.2.2.1, ex_lt]
          exact one_div_pos.2 hb.2.2.2
        · exact h

theorem deposit_edge {n : Nat} (hn : 3 ≤ n) {w : Nat → Nat → ℝ} {T : List Nat} (ht : IsTour n T) {φ : ℝ} (hφ : 0 ≤ φ) {i j : Nat} :
    ∀ ps : List (List Nat × ℝ), (∀ s ∈ ps, OnCycle T s.1 ∧ φ ≤ s.2) →
    (Edge T i j → ps ≠ [] → φ ≤ deposit ps i j) ∧ (Edge T i j → 0 ≤ deposit ps i j) ∧ (¬ Edge T i j → deposit ps i j = 0)
  | [], _ => ⟨fun _ h => absurd rfl h, fun _ => le_refl _, fun _ => rfl⟩
  | s :: ss, h => by
    obtain ⟨i1, i2, i3⟩ := deposit_edge hn (w := w) ht hφ (i := i) (j := j) ss fun x hx => h x (by simp [hx])
    obtain ⟨h1, h2⟩ := h s (by simp)
    have hu := C90_tour_uses_once (h1.tour ht) hn i j
    have he := h1.edge i j
    unfold Edge at he
    refine ⟨fun hE _ => ?_, fun hE => ?_, fun hE => ?_⟩
    · rw [deposit, hu, if_pos (he.2 hE)]
      have := i2 hE
      push_cast; linarith
    · rw [deposit, hu, if_pos (he.2 hE)]
      have := i2 hE
      push_cast; linarith
    · rw [deposit, hu, if_neg fun h => hE (he.1 h), i3 hE]
      push_cast; ring

/-- Specification: the bounds of a Max-Min rule are positive and in order. -/
def Rule.Ok : Rule (Ext ℝ) → Prop
  | .maxMin lo hi _ => ∃ l h, lo = .fin l ∧ hi = .fin h ∧ 0 < l ∧ l < h
  | _ => True

/-- One pheromone update after an iteration in which all ants ran along `T`: the edges of `T` have at least a fixed amount,
the others evaporate. -/
theorem update_cycle {n : Nat} (hn : 3 ≤ n) {W : Mat (Ext ℝ)} {w : Nat → Nat → ℝ} (hi : Instance n W w) {T : List Nat}
    (ht : IsTour n T) {rho : ℝ} (h0 : 0 < rho) (h1 : rho < 1) (rule : Rule (Ext ℝ)) (hrule : rule.Ok) :
    ∃ a : ℝ, 0 < a ∧ ∀ (u : Sol (Ext ℝ)) (sols : List (Sol (Ext ℝ))) (ph : Mat (Ext ℝ)) (τ : Nat → Nat → ℝ), Kept n w T u →
      sols ≠ [] → (∀ s ∈ sols, OnCycle T s.path ∧ GradedTour n w s) → FinMat n ph τ →
      (∀ i j, i < n → j < n → Edge T i j → 0 ≤ τ i j) →
      ∃ u' ph' τ', rule.update A0 (.fin rho) u sols ph = .ok (u', ph') ∧ Kept n w T u' ∧ FinMat n ph' τ' ∧
        ∀ i j, i < n → j < n → (Edge T i j → a ≤ τ' i j) ∧ (¬ Edge T i j → τ' i j = τ i j * (1 - rho)) := by
  have hφ := low_pos hi ht
  have hlt : ∀ {p : List Nat}, OnCycle T p → ∀ v ∈ p, v < n := fun hp v hv =>
    List.mem_range.1 ((hp.tour ht).mem_iff.1 hv)
  have hpairs : ∀ sols : List (Sol (Ext ℝ)), (∀ s ∈ sols, OnCycle T s.path ∧ GradedTour n w s) →
      sols = ofPairs (sols.map fun s => (s.path, 1 / tourLength w s.path)) := by
    intro sols hs
    unfold ofPairs
    rw [List.map_map]
    conv_lhs => rw [← List.map_id sols]
    refine List.map_congr_left fun s h => ?_
    show s = ⟨s.path, .fin (1 / tourLength w s.path)⟩
    rw [← (hs s h).2.2.1]
  have hps : ∀ sols : List (Sol (Ext ℝ)), (∀ s ∈ sols, OnCycle T s.path ∧ GradedTour n w s) →
      ∀ q ∈ sols.map (fun s => (s.path, 1 / tourLength w s.path)), OnCycle T q.1 ∧ low w T ≤ q.2 := by
    intro sols hs q hq
    obtain ⟨s, h, rfl⟩ := List.mem_map.1 hq
    exact ⟨(hs s h).1, low_le (hs s h).1⟩
  have huse : ∀ {p : List Nat}, OnCycle T p → ∀ i j, (Edge T i j → uses p i j = 1) ∧ (¬ Edge T i j → uses p i j = 0) := by
    intro p hp i j
    have hu := C90_tour_uses_once (hp.tour ht) hn i j
    have he := hp.edge i j
    unfold Edge at he
    exact ⟨fun h => by rw [hu, if_pos (he.2 h)], fun h => by rw [hu, if_neg fun h' => h (he.1 h')]⟩
  cases rule with
  | antSystem =>
    refine ⟨low w T, hφ, fun u sols ph τ hu hne hs hp hτ => ?_⟩
    obtain ⟨ph', e1, e2⟩ := C90_ant_system_formula sqrt pow maxv floor (rho := rho)
      (ps := sols.map fun s => (s.path, 1 / tourLength w s.path)) hp fun q hq => hlt (hps sols hs q hq).1
    rw [← hpairs sols hs] at e1
    refine ⟨u, ph', _, ?_, hu, e2, fun i j hi' hj' => ?_⟩
    · show asUpdate _ _ u sols ph = _
      unfold asUpdate
      rw [Exc.bind_of_ok e1]; rfl
    · obtain ⟨d1, d2, d3⟩ := deposit_edge hn (w := w) ht hφ.le (i := i) (j := j) _ (hps sols hs)
      refine ⟨fun hE => ?_, fun hE => ?_⟩
      · have := d1 hE (by simpa using hne)
        have := mul_nonneg (hτ i j hi' hj' hE) (by linarith : (0 : ℝ) ≤ 1 - rho)
        linarith
      · simp only [d3 hE, add_zero]
  | elitist =>
    refine ⟨low w T, hφ, fun u sols ph τ hu hne hs hp hτ => ?_⟩
    obtain ⟨b1, b2⟩ := pick_cycle sqrt pow maxv floor hu hne hs .overallBest
    have hb : overallBest A0 u (ofPairs (sols.map fun s => (s.path, 1 / tourLength w s.path))) =
        ⟨(overallBest A0 u sols).path, .fin (1 / tourLength w (overallBest A0 u sols).path)⟩ := by
      rw [← hpairs sols hs]
      have := b2.2.1
      unfold Policy.pick at this
      rw [← this]
    obtain ⟨ph', e1, e2⟩ := C90_elitist_formula sqrt pow maxv floor (rho := rho) hb (hlt b1) hp
      fun q hq => hlt (hps sols hs q hq).1
    rw [← hpairs sols hs] at e1
    refine ⟨⟨(overallBest A0 u sols).path, .fin (1 / tourLength w (overallBest A0 u sols).path)⟩, ph', _, ?_,
      .inr ⟨b1, b2.1, rfl, b2.2.2⟩, e2, fun i j hi' hj' => ?_⟩
    · show (do let r ← elitistPU A0 (.fin rho) u sols ph; pure (r.2, r.1)) = _
      rw [Exc.bind_of_ok e1]; rfl
    · obtain ⟨d1, d2, d3⟩ := deposit_edge hn (w := w) ht hφ.le (i := i) (j := j) _ (hps sols hs)
      obtain ⟨u1, u2⟩ := huse b1 i j
      refine ⟨fun hE => ?_, fun hE => ?_⟩
      · have q1 := d1 hE (by simpa using hne)
        have q2 := mul_nonneg (hτ i j hi' hj' hE) (by linarith : (0 : ℝ) ≤ 1 - rho)
        have q3 : 0 < 1 / tourLength w (overallBest A0 u sols).path := one_div_pos.2 b2.2.2
        unfold Policy.pick at u1
        simp only [u1 hE]
        push_cast
        linarith
      · unfold Policy.pick at u2
        simp only [d3 hE, u2 hE]
        push_cast; ring
  | maxMin lo hi' pol =>
    obtain ⟨l, h, rfl, rfl, hl, hlh⟩ := hrule
    refine ⟨l, hl, fun u sols ph τ hu hne hs hp hτ => ?_⟩
    obtain ⟨b1, b2⟩ := pick_cycle sqrt pow maxv floor hu hne hs pol
    have hb : pol.pick A0 u sols = ⟨(pol.pick A0 u sols).path, .fin (1 / tourLength w (pol.pick A0 u sols).path)⟩ := by
      rw [← b2.2.1]
    obtain ⟨ph', τ', e1, e2, e3⟩ := C59_max_min_update sqrt pow maxv floor (rho := rho) hlh hb (hlt b1) hp
    refine ⟨⟨(pol.pick A0 u sols).path, .fin (1 / tourLength w (pol.pick A0 u sols).path)⟩, ph', τ', ?_,
      .inr ⟨b1, b2.1, rfl, b2.2.2⟩, e2, fun i j hi2 hj2 => ?_⟩
    · show (do let r ← mmPU A0 (.fin rho) (.fin l) (.fin h) (pol.pick A0) u sols ph; pure (r.2, r.1)) = _
      rw [Exc.bind_of_ok e1]; rfl
    · have he := b1.edge i j
      unfold Edge at he
      exact ⟨fun hE => ((e3 i j).1 (he.2 hE)).1, fun hE => (e3 i j).2 fun hc => hE (he.1 hc)⟩
  | acs pol =>
    refine ⟨low w T * rho, mul_pos hφ h0, fun u sols ph τ hu hne hs hp hτ => ?_⟩
    obtain ⟨b1, b2⟩ := pick_cycle sqrt pow maxv floor hu hne hs pol
    have hb : pol.pick A0 u sols = ⟨(pol.pick A0 u sols).path, .fin (1 / tourLength w (pol.pick A0 u sols).path)⟩ := by
      rw [← b2.2.1]
    obtain ⟨ph', e1, e2⟩ := C90_acs_formula sqrt pow maxv floor (rho := rho) (policy := pol.pick A0) hb (hlt b1) hp
    refine ⟨⟨(pol.pick A0 u sols).path, .fin (1 / tourLength w (pol.pick A0 u sols).path)⟩, ph', _, ?_,
      .inr ⟨b1, b2.1, rfl, b2.2.2⟩, e2, fun i j hi2 hj2 => ?_⟩
    · show acsUpdate A0 (.fin rho) (pol.pick A0) u sols ph = _
      unfold acsUpdate
      rw [Exc.bind_of_ok e1]; rfl
    · obtain ⟨u1, u2⟩ := huse b1 i j
      refine ⟨fun hE => ?_, fun hE => ?_⟩
      · have q2 := mul_nonneg (hτ i j hi2 hj2 hE) (by linarith : (0 : ℝ) ≤ 1 - rho)
        have q3 := mul_le_mul_of_nonneg_right (low_le (w := w) b1) h0.le
        simp only [u1 hE]
        push_cast
        linarith
      · simp only [u2 hE]
        push_cast; ring

/-- What follows a colony that stayed on `T`. -/
theorem finishRound_cycle {n : Nat} {W : Mat (Ext ℝ)} {w : Nat → Nat → ℝ} (hi : Instance n W w) {T : List Nat}
    (ht : IsTour n T) {upd : Upd (Ext ℝ) (Sol (Ext ℝ))} {u : Sol (Ext ℝ)} {paths : List (List Nat)} {ph : Mat (Ext ℝ)}
    (hne : paths ≠ []) (hp : ∀ p ∈ paths, OnCycle T p) {P : Sol (Ext ℝ) → Mat (Ext ℝ) → Prop}
    (hu : ∀ sols : List (Sol (Ext ℝ)), sols ≠ [] → (∀ s ∈ sols, OnCycle T s.path ∧ GradedTour n w s) →
      ∃ u' ph', upd u sols ph = .ok (u', ph') ∧ P u' ph') :
    ∃ u' rd, finishRound A0 W upd u paths ph = .ok (u', rd) ∧ P u' rd.ph ∧ rd.sols.length = paths.length ∧ rd.best ∈ rd.sols ∧
      ∀ s ∈ rd.sols, OnCycle T s.path ∧ GradedTour n w s := by
  have htr : ∀ p ∈ paths, IsTour n p := fun p h => (hp p h).tour ht
  obtain ⟨gs, h1, h2, h3, h4⟩ := gradeAll_tours sqrt pow maxv floor hi paths htr
  have hgne : gs ≠ [] := by
    rintro rfl
    exact hne (List.length_eq_zero_iff.1 h2.symm)
  obtain ⟨b, e1, e2, -⟩ := C61_find_best_max (A := A0) (fun t ht => graded_numeric sqrt pow maxv floor (h4 t ht)) hgne
  have hc : ∀ s ∈ gs, OnCycle T s.path ∧ GradedTour n w s := fun s hs =>
    ⟨hp _ (h3 ▸ List.mem_map.2 ⟨s, hs, rfl⟩), h4 s hs⟩
  obtain ⟨u', ph', k1, k2⟩ := hu gs hgne hc
  refine ⟨u', ⟨gs, b, ph'⟩, ?_, k2, h2, e2, hc⟩
  unfold finishRound
  rw [Exc.bind_of_ok (fromPaths_tours sqrt pow maxv floor paths htr), Exc.bind_of_ok h1, Exc.bind_of_ok e1,
    Exc.bind_of_ok k1]
  rfl

/-- Finitely many positive numbers lie between two positive ones. -/
theorem between {n : Nat} {f : Nat → Nat → ℝ} (hf : ∀ i j, i < n → j < n → i ≠ j → 0 < f i j) :
    ∃ lo hi : ℝ, 0 < lo ∧ 0 < hi ∧ ∀ i j, i < n → j < n → i ≠ j → lo ≤ f i j ∧ f i j ≤ hi := by
  have key : ∀ g : Nat → Nat → ℝ, (∀ i j, i < n → j < n → i ≠ j → 0 < g i j) →
      ∃ hi : ℝ, 0 < hi ∧ ∀ i j, i < n → j < n → i ≠ j → g i j ≤ hi := by
    intro g hg
    have hnn : ∀ e ∈ ((Finset.range n) ×ˢ (Finset.range n)).filter (fun e => e.1 ≠ e.2), 0 ≤ g e.1 e.2 := by
      intro e he
      simp only [Finset.mem_filter, Finset.mem_product, Finset.mem_range] at he
      exact (hg _ _ he.1.1 he.1.2 he.2).le
    refine ⟨1 + ∑ e ∈ ((Finset.range n) ×ˢ (Finset.range n)).filter (fun e => e.1 ≠ e.2), g e.1 e.2, ?_, ?_⟩
    · have := Finset.sum_nonneg hnn
      linarith
    · intro i j hi hj hij
      have := Finset.single_le_sum hnn (a := (i, j)) (by simp [hi, hj, hij])
      have e : g (i, j).1 (i, j).2 = g i j := rfl
      rw [e] at this
      linarith
  obtain ⟨hi, h1, h2⟩ := key f hf
  obtain ⟨lo, h3, h4⟩ := key (fun i j => (f i j)⁻¹) fun i j a b c => inv_pos.2 (hf i j a b c)
  refine ⟨lo⁻¹, hi, inv_pos.2 h3, h1, fun i j a b c => ⟨?_, h2 i j a b c⟩⟩
  rw [inv_le_comm₀ h3 (hf i j a b c)]
  exact h4 i j a b c

/-- Specification: `powf` on nonnegative arguments. -/
def PowOk (pow : Ext ℝ → Ext ℝ → Ext ℝ) : Prop := ∀ x y : ℝ, 0 ≤ x → 0 ≤ y → pow (.fin x) (.fin y) = .fin (x ^ y)

/-- Specification: a square matrix of finite numbers, nonnegative everywhere and positive off the diagonal. -/
structure Positive (n : Nat) (M : Mat (Ext ℝ)) (f : Nat → Nat → ℝ) : Prop where
  fin : FinMat n M f
  nonneg : ∀ i j, i < n → j < n → 0 ≤ f i j
  pos : ∀ i j, i < n → j < n → i ≠ j → 0 < f i j

theorem goodness_fin {n : Nat} (hpow : PowOk pow) {alpha beta : ℝ} (ha : 0 ≤ alpha) (hb : 0 ≤ beta) {H ph : Mat (Ext ℝ)}
    {h τ : Nat → Nat → ℝ} (hH : Positive n H h) (hph : Positive n ph τ) :
    ∃ g, canonicalGoodness A0 (.fin alpha) (.fin beta) H ph = .ok g ∧ Positive n g (fun i j => τ i j ^ alpha * h i j ^ beta) := by
  obtain ⟨g, g1, g2, g3, g4⟩ := C88_goodness_entries (A := A0) (alpha := .fin alpha) (beta := .fin beta) hph.fin.1 hph.fin.2.1
    hH.fin.1 hH.fin.2.1
  refine ⟨g, g1, ⟨g2, g3, fun i j hi hj => ?_⟩, fun i j hi hj => ?_, fun i j hi hj hij => ?_⟩
  · rw [g4 i j hi hj, hph.fin.2.2 i j hi hj, hH.fin.2.2 i j hi hj]
    show Ext.mul (pow _ _) (pow _ _) = _
    rw [hpow _ _ (hph.nonneg i j hi hj) ha, hpow _ _ (hH.nonneg i j hi hj) hb]
    rfl
  · exact mul_nonneg (Real.rpow_nonneg (hph.nonneg i j hi hj) _) (Real.rpow_nonneg (hH.nonneg i j hi hj) _)
  · exact mul_pos (Real.rpow_pos_of_pos (hph.pos i j hi hj hij) _) (Real.rpow_pos_of_pos (hH.pos i j hi hj hij) _)

/-- The state before iteration `t` of a colony of `m` ants that stayed on `T`. -/
structure OnTrack (n m : Nat) (w : Nat → Nat → ℝ) (T : List Nat) (a hi q : ℝ) (t : Nat) (s : AsState (Ext ℝ)) : Prop where
  ants : s.ants.length = m
  canonical : Canonical n s.ants
  kept : Kept n w T s.upd
  ph : ∃ τ, Positive n s.ph τ ∧ (∀ i j, i < n → j < n → i ≠ j → Edge T i j → a ≤ τ i j) ∧
    ∀ i j, i < n → j < n → i ≠ j → ¬ Edge T i j → τ i j ≤ hi * q ^ t

/-- Specification: an iteration of `m` ants, all of which ran along `T` and were graded. -/
def RoundOn (n m : Nat) (w : Nat → Nat → ℝ) (T : List Nat) (r : Round (Ext ℝ)) : Prop :=
  r.sols.length = m ∧ r.best ∈ r.sols ∧ ∀ s ∈ r.sols, OnCycle T s.path ∧ GradedTour n w s

theorem hasLaw_antSystemM (hR : Ideal R μ) (goodness : Mat (Ext ℝ) → Except Panic (Mat (Ext ℝ)))
    {o : Nat → Nat → List Nat → List Nat} (ho : ∀ k t l, (o k t l).Perm l) (ants : List (Ant (Ext ℝ))) (ph : Mat (Ext ℝ)) :
    HasLaw μ (antSystemM R A0 goodness o ho ants ph) := by
  have := hR.isProbability
  unfold antSystemM
  exact (HasLaw.ofExcept _).bind fun g => (hasLaw_asLoopM sqrt pow maxv floor hR g _ ho ants 0).bind fun r => .pure _

theorem hasLaw_roundM (hR : Ideal R μ) (goodness : Mat (Ext ℝ) → Except Panic (Mat (Ext ℝ)))
    {o : Nat → Nat → Nat → List Nat → List Nat} (ho : ∀ i k t l, (o i k t l).Perm l) (W : Mat (Ext ℝ))
    (upd : Upd (Ext ℝ) (Sol (Ext ℝ))) (s : AsState (Ext ℝ)) : HasLaw μ (roundM R A0 goodness o ho W upd s) := by
  have := hR.isProbability
  unfold roundM
  exact (hasLaw_antSystemM sqrt pow maxv floor hR goodness (ho s.iter) _ _).bind fun b =>
    (HasLaw.ofExcept _).bind fun r => .pure _

theorem hasLaw_runM (hR : Ideal R μ) (goodness : Mat (Ext ℝ) → Except Panic (Mat (Ext ℝ)))
    {o : Nat → Nat → Nat → List Nat → List Nat} (ho : ∀ i k t l, (o i k t l).Perm l) (W : Mat (Ext ℝ))
    (upd : Upd (Ext ℝ) (Sol (Ext ℝ))) : ∀ (k : Nat) (s : AsState (Ext ℝ)), HasLaw μ (runM R A0 goodness o ho W upd k s)
  | 0, s => by unfold runM; exact .pure _
  | k + 1, s => by
    have := hR.isProbability
    unfold runM
    exact (hasLaw_roundM sqrt pow maxv floor hR goodness ho W upd s).bind fun r =>
      (hasLaw_runM hR goodness ho W upd k r.1).bind fun rs => .pure _

/-- One iteration from a state on track. -/
theorem roundM_cycle (hR : Ideal R μ) (hmax : 0 ≤ maxv) (hpow : PowOk pow) {n m : Nat} (hn : 3 ≤ n) (hm : 0 < m)
    {W : Mat (Ext ℝ)} {w : Nat → Nat → ℝ} (hi : Instance n W w) {T : List Nat} (ht : IsTour n T) {rho : ℝ} (h1 : rho < 1)
    {upd : Upd (Ext ℝ) (Sol (Ext ℝ))} {a thi : ℝ} (ha : 0 < a) (hthi : 0 < thi)
    (hupd : ∀ (u : Sol (Ext ℝ)) (sols : List (Sol (Ext ℝ))) (ph : Mat (Ext ℝ)) (τ : Nat → Nat → ℝ), Kept n w T u →
      sols ≠ [] → (∀ s ∈ sols, OnCycle T s.path ∧ GradedTour n w s) → FinMat n ph τ →
      (∀ i j, i < n → j < n → Edge T i j → 0 ≤ τ i j) →
      ∃ u' ph' τ', upd u sols ph = .ok (u', ph') ∧ Kept n w T u' ∧ FinMat n ph' τ' ∧
        ∀ i j, i < n → j < n → (Edge T i j → a ≤ τ' i j) ∧ (¬ Edge T i j → τ' i j = τ i j * (1 - rho)))
    {alpha beta : ℝ} (hal : 0 < alpha) (hbe : 0 ≤ beta) {H : Mat (Ext ℝ)} {h : Nat → Nat → ℝ} (hH : Positive n H h)
    {hlo hhi : ℝ} (hlo0 : 0 < hlo) (hh : ∀ i j, i < n → j < n → i ≠ j → hlo ≤ h i j ^ beta ∧ h i j ^ beta ≤ hhi)
    {o : Nat → Nat → Nat → List Nat → List Nat} (ho : ∀ i k t l, (o i k t l).Perm l) (t : Nat) {s : AsState (Ext ℝ)}
    (hs : OnTrack n m w T a thi (1 - rho) t s) :
    ENNReal.ofReal (Real.exp (-(m * (n * (n * (thi ^ alpha * hhi) / (a ^ alpha * hlo))) * ((1 - rho) ^ alpha) ^ t))) ≤
      chance μ (roundM R A0 (canonicalGoodness A0 (.fin alpha) (.fin beta) H) o ho W upd s)
        (fun r => OnTrack n m w T a thi (1 - rho) (t + 1) r.1 ∧ RoundOn n m w T r.2) := by
  have := hR.isProbability
  obtain ⟨s1, s2, s3, τ, p1, p2, p3⟩ := hs
  obtain ⟨g, g1, g2⟩ := goodness_fin sqrt pow maxv floor hpow hal.le hbe hH p1
  have hq : (0 : ℝ) < 1 - rho := by linarith
  have hhi0 : 0 ≤ hhi := by
    have := hh 0 1 (by omega) (by omega) (by omega)
    linarith [this.1, this.2]
  have hA : 0 < a ^ alpha := Real.rpow_pos_of_pos ha _
  have hTH : 0 < thi ^ alpha := Real.rpow_pos_of_pos hthi _
  have hr0 : 0 < (1 - rho) ^ alpha := Real.rpow_pos_of_pos hq _
  have hloop := asLoopM_cycle sqrt pow maxv floor hR hmax hn ht g2.fin (a := a ^ alpha * hlo)
    (e := thi ^ alpha * hhi * ((1 - rho) ^ alpha) ^ t) (by positivity) (by positivity) g2.pos
    (fun i j hi' hj hij hE => by
      refine mul_le_mul (Real.rpow_le_rpow ha.le (p2 i j hi' hj hij hE) hal.le) (hh i j hi' hj hij).1 hlo0.le ?_
      exact Real.rpow_nonneg (p1.nonneg i j hi' hj) _)
    (fun i j hi' hj hij hE => by
      have e1 : τ i j ^ alpha ≤ thi ^ alpha * ((1 - rho) ^ alpha) ^ t := by
        refine (Real.rpow_le_rpow (p1.nonneg i j hi' hj) (p3 i j hi' hj hij hE) hal.le).trans (le_of_eq ?_)
        rw [Real.mul_rpow hthi.le (by positivity), ← Real.rpow_natCast, ← Real.rpow_natCast, ← Real.rpow_mul hq.le,
          ← Real.rpow_mul hq.le, mul_comm (t : ℝ)]
      calc τ i j ^ alpha * h i j ^ beta ≤ thi ^ alpha * ((1 - rho) ^ alpha) ^ t * hhi :=
            mul_le_mul e1 (hh i j hi' hj hij).2 (Real.rpow_nonneg (hH.nonneg i j hi' hj) _) (by positivity)
        _ = _ := by ring)
    (ho s.iter) s.ants 0 s2
  rw [s1] at hloop
  unfold roundM antSystemM
  rw [g1, p1.fin.1]
  have eq : (M.ofExcept (.ok g) : M G (Mat (Ext ℝ))) = pure g := rfl
  rw [eq, pure_bind, bind_assoc]
  refine le_trans (le_trans (le_of_eq ?_) hloop) (chance_bind_of_returns ?_)
  · congr 3
    ring
  · rintro ⟨ants', paths⟩ ⟨r1, r2, r3, r4⟩
    simp only at r1 r2 r3 r4
    have hne : paths ≠ [] := by
      rintro rfl
      simp at r3; omega
    obtain ⟨u', rd, k1, ⟨k2, τ', k3, k4⟩, k5, k6, k7⟩ := finishRound_cycle sqrt pow maxv floor hi ht (upd := upd) (u := s.upd)
      (ph := s.ph) hne r4 (P := fun u' ph' => Kept n w T u' ∧ ∃ τ', FinMat n ph' τ' ∧ ∀ i j, i < n → j < n →
        (Edge T i j → a ≤ τ' i j) ∧ (¬ Edge T i j → τ' i j = τ i j * (1 - rho)))
      (fun sols hs1 hs2 => by
        obtain ⟨u', ph', τ', q1, q2, q3, q4⟩ := hupd s.upd sols s.ph τ s3 hs1 hs2 p1.fin fun i j a b _ => p1.nonneg i j a b
        exact ⟨u', ph', q1, q2, τ', q3, q4⟩)
    rw [pure_bind, k1]
    have eq : (M.ofExcept (.ok (u', rd)) : M G _) = pure (u', rd) := rfl
    rw [eq, pure_bind]
    refine Returns.pure ⟨⟨r1, r2, k2, τ', ⟨k3, fun i j hi' hj => ?_, fun i j hi' hj hij => ?_⟩, fun i j hi' hj hij hE =>
      (k4 i j hi' hj).1 hE, fun i j hi' hj hij hE => ?_⟩, k5.trans r3, k6, k7⟩
    · by_cases hE : Edge T i j
      · exact ha.le.trans ((k4 i j hi' hj).1 hE)
      · rw [(k4 i j hi' hj).2 hE]
        exact mul_nonneg (p1.nonneg i j hi' hj) hq.le
    · by_cases hE : Edge T i j
      · exact ha.trans_le ((k4 i j hi' hj).1 hE)
      · rw [(k4 i j hi' hj).2 hE]
        exact mul_pos (p1.pos i j hi' hj hij) hq
    · rw [(k4 i j hi' hj).2 hE, pow_succ, ← mul_assoc]
      exact mul_le_mul_of_nonneg_right (p3 i j hi' hj hij hE) hq.le

/-- A run from a state on track. -/
theorem runM_cycle (hR : Ideal R μ) {n m : Nat} {W : Mat (Ext ℝ)} {w : Nat → Nat → ℝ} {T : List Nat} {a thi q C r : ℝ}
    (hr1 : r < 1) {goodness : Mat (Ext ℝ) → Except Panic (Mat (Ext ℝ))} {upd : Upd (Ext ℝ) (Sol (Ext ℝ))}
    {o : Nat → Nat → Nat → List Nat → List Nat} (ho : ∀ i k t l, (o i k t l).Perm l)
    (hround : ∀ t s, OnTrack n m w T a thi q t s → ENNReal.ofReal (Real.exp (-(C * r ^ t))) ≤
      chance μ (roundM R A0 goodness o ho W upd s) (fun x => OnTrack n m w T a thi q (t + 1) x.1 ∧ RoundOn n m w T x.2)) :
    ∀ (k t : Nat) (s : AsState (Ext ℝ)), 0 ≤ C → 0 ≤ r → OnTrack n m w T a thi q t s →
    ENNReal.ofReal (Real.exp (-(C * r ^ t / (1 - r)))) ≤
      chance μ (runM R A0 goodness o ho W upd k s) (fun rs => rs.length = k ∧ ∀ x ∈ rs, RoundOn n m w T x)
  | 0, t, s, hC, hr0, _ => by
    have := hR.isProbability
    unfold runM
    rw [chance_of_returns (Returns.pure ⟨rfl, by simp⟩)]
    rw [← ENNReal.ofReal_one]
    refine ENNReal.ofReal_le_ofReal (Real.exp_le_one_iff.2 ?_)
    have : 0 ≤ C * r ^ t / (1 - r) := div_nonneg (by positivity) (by linarith)
    linarith
  | k + 1, t, s, hC, hr0, hs => by
    have := hR.isProbability
    unfold runM
    refine le_trans ?_ ((hasLaw_roundM sqrt pow maxv floor hR goodness ho W upd s).le_chance_bind
      (fun x => (hasLaw_runM sqrt pow maxv floor hR goodness ho W upd k x.1).bind fun rs => .pure _)
      (fun x => OnTrack n m w T a thi q (t + 1) x.1 ∧ RoundOn n m w T x.2)
      (ε := ENNReal.ofReal (Real.exp (-(C * r ^ (t + 1) / (1 - r))))) ?_)
    · refine le_trans (le_of_eq ?_) (mul_le_mul_left (hround t s hs) _)
      rw [← ENNReal.ofReal_mul (Real.exp_pos _).le, ← Real.exp_add]
      congr 2
      have : 1 - r ≠ 0 := by linarith
      field_simp
      ring
    · rintro x ⟨x1, x2⟩
      rw [chance_map]
      refine (runM_cycle hR hr1 ho hround k (t + 1) x.1 hC hr0 x1).trans (chance_mono ?_)
      rintro rs ⟨e1, e2⟩
      exact ⟨by simp [e1], fun y hy => (List.mem_cons.1 hy).elim (fun h => h ▸ x2) (e2 y)⟩

/-- **C137, stagnation.** Ant System with ants that never exploit, any of the shipped pheromone updates (Max-Min with
positive bounds included) and any evaporation rate strictly between 0 and 1: for every tour `T` there is a positive
probability, not depending on the iteration limit (nor on the hash set orders), that every ant of every iteration of the
run goes along `T` and nowhere else. -/
theorem C137_stagnation (hR : Ideal R μ) (hmax : 0 ≤ maxv) (hpow : PowOk pow) {n : Nat} (hn : 3 ≤ n)
    {W : Mat (Ext ℝ)} {w : Nat → Nat → ℝ} (hi : Instance n W w) {H : Mat (Ext ℝ)} {h : Nat → Nat → ℝ} (hH : Positive n H h)
    {alpha beta : ℝ} (hal : 0 < alpha) (hbe : 0 ≤ beta) {rho : ℝ} (h0 : 0 < rho) (h1 : rho < 1) {rule : Rule (Ext ℝ)}
    (hrule : rule.Ok) {ants : List (Ant (Ext ℝ))} (hne : ants ≠ []) (hants : Canonical n ants) {ph : Mat (Ext ℝ)}
    {τ : Nat → Nat → ℝ} (hph : Positive n ph τ) {u : Sol (Ext ℝ)} (hu : u.fitness = .fin 0) {T : List Nat} (ht : IsTour n T) :
    ∃ c : ℝ, 0 < c ∧ ∀ (o : Nat → Nat → Nat → List Nat → List Nat) (ho : ∀ i k t l, (o i k t l).Perm l) (k : Nat),
      ENNReal.ofReal c ≤ chance μ (runM R A0 (canonicalGoodness A0 (.fin alpha) (.fin beta) H) o ho W
        (rule.update A0 (.fin rho)) k ⟨0, ants, u, ph⟩) (fun rs => rs.length = k ∧ ∀ r ∈ rs, RoundOn n ants.length w T r) := by
  obtain ⟨a, ha, hupd⟩ := update_cycle sqrt pow maxv floor hn hi ht h0 h1 rule hrule
  obtain ⟨tlo, thi, t1, t2, t3⟩ := between hph.pos
  obtain ⟨hlo, hhi, k1, k2, k3⟩ := between (f := fun i j => h i j ^ beta) fun i j a b c =>
    Real.rpow_pos_of_pos (hH.pos i j a b c) _
  have hm : 0 < ants.length := List.length_pos_iff.2 hne
  have hq : (0 : ℝ) < 1 - rho := by linarith
  have ha' : 0 < min a tlo := lt_min ha t1
  have hA : 0 < min a tlo ^ alpha := Real.rpow_pos_of_pos ha' _
  have hTH : 0 < thi ^ alpha := Real.rpow_pos_of_pos t2 _
  refine ⟨Real.exp (-(ants.length * (n * (n * (thi ^ alpha * hhi) / (min a tlo ^ alpha * hlo))) * ((1 - rho) ^ alpha) ^ 0 /
    (1 - (1 - rho) ^ alpha))), Real.exp_pos _, fun o ho k => ?_⟩
  refine runM_cycle sqrt pow maxv floor hR (Real.rpow_lt_one hq.le (by linarith) hal) (a := min a tlo) (thi := thi)
    (q := 1 - rho) ho (fun t s hs => ?_) k 0 _ (by positivity) (Real.rpow_nonneg hq.le _) ?_
  · refine roundM_cycle sqrt pow maxv floor hR hmax hpow hn hm hi ht h1 ha' t2 ?_ hal hbe hH k1 k3 ho t hs
    intro u sols ph τ a1 a2 a3 a4 a5
    obtain ⟨u', ph', τ', b1, b2, b3, b4⟩ := hupd u sols ph τ a1 a2 a3 a4 a5
    exact ⟨u', ph', τ', b1, b2, b3, fun i j hi' hj => ⟨fun hE => (min_le_left _ _).trans ((b4 i j hi' hj).1 hE), (b4 i j hi' hj).2⟩⟩
  · refine ⟨rfl, hants, .inl hu, τ, hph, fun i j hi' hj hij _ => (min_le_right _ _).trans (t3 i j hi' hj hij).1,
      fun i j hi' hj hij _ => ?_⟩
    rw [pow_zero, mul_one]
    exact (t3 i j hi' hj hij).2

/-- Specification: `p` is a shortest tour. -/
def ShortestTour (n : Nat) (w : Nat → Nat → ℝ) (p : List Nat) : Prop :=
  IsTour n p ∧ ∀ q, IsTour n q → tourLength w p ≤ tourLength w q

theorem OnCycle.length {T p : List Nat} (h : OnCycle T p) (w : Nat → Nat → ℝ) :
    tourLength w p = tourLength w T ∨ tourLength w p = tourLength w T.reverse := by
  rcases h with h | h
  · obtain ⟨k, rfl⟩ := h.symm
    exact .inl (C62_rotation _ _ _)
  · obtain ⟨k, rfl⟩ := h.symm
    exact .inr (C62_rotation _ _ _)

/-- **C137, no convergence.** If some tour is, in both directions, not a shortest one, the probability that any ant of any
iteration ever finds a shortest tour stays below a bound less than 1, whatever the iteration limit. -/
theorem C137_never_shortest (hR : Ideal R μ) (hmax : 0 ≤ maxv) (hpow : PowOk pow) {n : Nat} (hn : 3 ≤ n)
    {W : Mat (Ext ℝ)} {w : Nat → Nat → ℝ} (hi : Instance n W w) {H : Mat (Ext ℝ)} {h : Nat → Nat → ℝ} (hH : Positive n H h)
    {alpha beta : ℝ} (hal : 0 < alpha) (hbe : 0 ≤ beta) {rho : ℝ} (h0 : 0 < rho) (h1 : rho < 1) {rule : Rule (Ext ℝ)}
    (hrule : rule.Ok) {ants : List (Ant (Ext ℝ))} (hne : ants ≠ []) (hants : Canonical n ants) {ph : Mat (Ext ℝ)}
    {τ : Nat → Nat → ℝ} (hph : Positive n ph τ) {u : Sol (Ext ℝ)} (hu : u.fitness = .fin 0) {T : List Nat} (ht : IsTour n T)
    (hT : ¬ ShortestTour n w T) (hT' : ¬ ShortestTour n w T.reverse) :
    ∃ b : ℝ, b < 1 ∧ ∀ (o : Nat → Nat → Nat → List Nat → List Nat) (ho : ∀ i k t l, (o i k t l).Perm l) (k : Nat),
      chance μ (runM R A0 (canonicalGoodness A0 (.fin alpha) (.fin beta) H) o ho W
        (rule.update A0 (.fin rho)) k ⟨0, ants, u, ph⟩) (fun rs => ∃ r ∈ rs, ∃ s ∈ r.sols, ShortestTour n w s.path) ≤
      ENNReal.ofReal b := by
  have := hR.isProbability
  obtain ⟨c, hc, hst⟩ := C137_stagnation sqrt pow maxv floor hR hmax hpow hn hi hH hal hbe h0 h1 hrule hne hants hph hu ht
  refine ⟨1 - c, by linarith, fun o ho k => ?_⟩
  have hlaw := hasLaw_runM sqrt pow maxv floor hR (canonicalGoodness A0 (.fin alpha) (.fin beta) H) ho W
    (rule.update A0 (.fin rho)) k ⟨0, ants, u, ph⟩
  have hdis : ∀ rs : List (Round (Ext ℝ)), ¬ ((∃ r ∈ rs, ∃ s ∈ r.sols, ShortestTour n w s.path) ∧
      (rs.length = k ∧ ∀ r ∈ rs, RoundOn n ants.length w T r)) := by
    rintro rs ⟨⟨r, hr, s, hs, h1, h2⟩, -, h4⟩
    rcases ((h4 r hr).2.2 s hs).1.length w with e | e
    · exact hT ⟨ht, fun q hq => e ▸ h2 q hq⟩
    · exact hT' ⟨(List.reverse_perm T).trans ht, fun q hq => e ▸ h2 q hq⟩
  have hor := hlaw.chance_or (P := fun rs => ∃ r ∈ rs, ∃ s ∈ r.sols, ShortestTour n w s.path)
    (Q := fun rs => rs.length = k ∧ ∀ r ∈ rs, RoundOn n ants.length w T r) (fun a h1 h2 => hdis a ⟨h1, h2⟩)
  have hle : _ ≤ (1 : ℝ≥0∞) := hor ▸ chance_le_one (μ := μ)
  rw [ENNReal.ofReal_sub _ hc.le, ENNReal.ofReal_one]
  exact ENNReal.le_sub_of_add_le_right ENNReal.ofReal_ne_top (le_trans (add_le_add_right (hst o ho k) _) hle)

/-- The heuristic made from nonnegative weights, positive off the diagonal, is of that kind. -/
theorem heuristic_positive {n : Nat} {W : Mat (Ext ℝ)} {w : Nat → Nat → ℝ} (hW : Positive n W w) :
    Positive n (heuristic A0 W) (fun i j => if w i j = 0 then 0 else 1 / w i j) := by
  refine ⟨⟨hW.fin.1, hW.fin.2.1, fun i j hi hj => ?_⟩, fun i j hi hj => ?_, fun i j hi hj h => ?_⟩
  · have hf := hW.fin.2.2 i j hi hj
    show _ = Ext.fin (if w i j = 0 then 0 else 1 / w i j)
    by_cases h : w i j = 0
    · rw [(C94_heuristic (A := A0) W i j).2.2.1 (by
        rw [hf, h]
        show (Fl.partialCmp (Ext.view (.fin (0 : ℝ))) (Ext.view (.fin (0 : ℝ))) == some .eq) = true
        rw [beq_iff_eq]
        unfold Ext.view Fl.partialCmp
        exact congrArg some (compare_eq_iff_eq.2 rfl)), if_pos h]
      rfl
    · rw [(C94_heuristic (A := A0) W i j).2.2.2 (by rw [hf]; exact ex_eq_zero sqrt pow maxv floor h), hf, if_neg h]
      show (if w i j = 0 then (if (1 : ℝ) = 0 then Ext.nan else Ext.signed 1) else .fin (1 / w i j)) = _
      rw [if_neg h]
  · have := hW.nonneg i j hi hj
    split
    · exact le_rfl
    · positivity
  · have := hW.pos i j hi hj h
    rw [if_neg this.ne']
    positivity

theorem addBoth_rows {X K : Type} [LinearOrder K] {A : AcoOps X K} {ph ph' : Mat X} {i j : Nat} {x : X}
    (h : addBoth A ph i j x = .ok ph') : ph'.rows = ph.rows := by
  unfold addBoth at h
  obtain ⟨a, -, h⟩ := Exc.bind_ok.1 h
  obtain ⟨p1, h1, h⟩ := Exc.bind_ok.1 h
  obtain ⟨b, -, h⟩ := Exc.bind_ok.1 h
  unfold Mat.set at h1 h
  split at h1
  · cases h1
    split at h
    · cases h; rfl
    · cases h
  · cases h1

theorem leaveEdges_rows {X K : Type} [LinearOrder K] {A : AcoOps X K} {x : X} : ∀ {es : List (Nat × Nat)} {ph ph' : Mat X},
    leaveEdges A x es ph = .ok ph' → ph'.rows = ph.rows
  | [], ph, ph', h => by cases h; rfl
  | e :: es, ph, ph', h => by
    rw [leaveEdges] at h
    obtain ⟨p1, h1, h⟩ := Exc.bind_ok.1 h
    exact (leaveEdges_rows h).trans (addBoth_rows h1)

theorem leaveTrails_rows {X K : Type} [LinearOrder K] {A : AcoOps X K} : ∀ {ss : List (Sol X)} {ph ph' : Mat X},
    leaveTrails A ss ph = .ok ph' → ph'.rows = ph.rows
  | [], ph, ph', h => by cases h; rfl
  | e :: es, ph, ph', h => by
    rw [leaveTrails] at h
    obtain ⟨p1, h1, h⟩ := Exc.bind_ok.1 h
    exact (leaveTrails_rows h).trans (leaveEdges_rows h1)

theorem mmEdges_rows {X K : Type} [LinearOrder K] {A : AcoOps X K} {x lo hi : X} : ∀ {es : List (Nat × Nat)} {ph ph' : Mat X},
    mmEdges A x lo hi es ph = .ok ph' → ph'.rows = ph.rows
  | [], ph, ph', h => by cases h; rfl
  | e :: es, ph, ph', h => by
    rw [mmEdges] at h
    obtain ⟨a, -, h⟩ := Exc.bind_ok.1 h
    obtain ⟨p1, h1, h⟩ := Exc.bind_ok.1 h
    obtain ⟨b, -, h⟩ := Exc.bind_ok.1 h
    obtain ⟨p2, h2, h⟩ := Exc.bind_ok.1 h
    rw [mmEdges_rows h]
    unfold Mat.set at h1 h2
    split at h1
    · cases h1
      split at h2
      · cases h2; rfl
      · cases h2
    · cases h1

theorem rule_rows {X K : Type} [LinearOrder K] {A : AcoOps X K} {rate : X} {rule : Rule X} {u u' : Sol X}
    {sols : List (Sol X)} {ph ph' : Mat X} (h : rule.update A rate u sols ph = .ok (u', ph')) : ph'.rows = ph.rows := by
  cases rule with
  | antSystem =>
    obtain ⟨r, h1, h⟩ := Exc.bind_ok.1 h
    cases h
    unfold antSystemPU at h1
    rw [leaveTrails_rows h1]; rfl
  | elitist =>
    obtain ⟨r, h1, h⟩ := Exc.bind_ok.1 h
    cases h
    unfold elitistPU at h1
    obtain ⟨p1, h2, h1⟩ := Exc.bind_ok.1 h1
    obtain ⟨p2, h3, h1⟩ := Exc.bind_ok.1 h1
    cases h1
    show p2.rows = _
    rw [leaveEdges_rows h3, leaveTrails_rows h2]; rfl
  | maxMin lo hi p =>
    obtain ⟨r, h1, h⟩ := Exc.bind_ok.1 h
    cases h
    obtain ⟨p1, h2, h1⟩ := Exc.bind_ok.1 h1
    cases h1
    show p1.rows = _
    rw [mmEdges_rows h2]; rfl
  | acs p =>
    obtain ⟨r, h1, h⟩ := Exc.bind_ok.1 h
    cases h
    obtain ⟨p1, h2, h1⟩ := Exc.bind_ok.1 h1
    cases h1
    show p1.rows = _
    rw [leaveEdges_rows h2]; rfl

theorem runM_refines {n : Nat} (hn : 0 < n) {goodness : Mat (Ext ℝ) → Except Panic (Mat (Ext ℝ))}
    {o : Nat → Nat → Nat → List Nat → List Nat} {ho : ∀ i k t l, (o i k t l).Perm l} {W : Mat (Ext ℝ)} {rule : Rule (Ext ℝ)}
    {rate : Ext ℝ} {Tm : Type} {check : Tm → Mat (Ext ℝ) → Tm × Bool} :
    ∀ (k : Nat) (s : AsState (Ext ℝ)) (rs : List (Round (Ext ℝ))) (g g' : G), s.ph.rows = n → (∀ a ∈ s.ants, Ready n a) →
    runM R A0 goodness o ho W (rule.update A0 rate) k s g = .ok (rs, g') →
    ∃ d0 : Draws (Ext ℝ), (∀ j, LegalDraws n (o j) (d0 j)) ∧ ∀ d : Draws (Ext ℝ), (∀ j, s.iter ≤ j → d j = d0 j) →
      ∀ (fuel : Nat) (tm : Tm), k < fuel → StopsAt check k tm →
      runLoop A0 (⟨asColony A0 goodness d, tspGrader A0 W, rule.update A0 rate⟩ :
        Algo (Ext ℝ) (Mat (Ext ℝ)) (Nat × List (Ant (Ext ℝ))) Unit (Sol (Ext ℝ))) check fuel tm ⟨(s.iter, s.ants), (), s.upd, s.ph⟩ =
      (rs.flatMap (fun r => block (r.best, r.ph)) ++ [.finish], .done)
  | 0, s, rs, g, g', hrows, hready, h => by
    unfold runM at h
    rw [M.pure_run] at h
    cases h
    choose d0 hd0 using fun j => legalDraws_exists (F := ℝ) hn (ho j)
    refine ⟨d0, hd0, fun d _ fuel tm hf hs => ?_⟩
    obtain ⟨f, rfl⟩ : ∃ f, fuel = f + 1 := ⟨fuel - 1, by omega⟩
    rw [runLoop, if_pos (hs s.ph)]
    rfl
  | k + 1, s, rs, g, g', hrows, hready, h => by
    unfold runM at h
    obtain ⟨⟨s1, rd⟩, g1, h1, h⟩ := M.bind_ok_iff.1 h
    obtain ⟨rs', g2, h2, h⟩ := M.bind_ok_iff.1 h
    rw [M.pure_run] at h
    cases h
    unfold roundM at h1
    obtain ⟨⟨ants', paths, ph1⟩, g3, h3, h1⟩ := M.bind_ok_iff.1 h1
    obtain ⟨⟨u', rd'⟩, g4, h4, h1⟩ := M.bind_ok_iff.1 h1
    rw [M.pure_run] at h1
    cases h1
    have h4 := ofExcept_ok h4
    simp only at h4
    unfold finishRound at h4
    obtain ⟨sols, e1, h4⟩ := Exc.bind_ok.1 h4
    obtain ⟨gs, e2, h4⟩ := Exc.bind_ok.1 h4
    obtain ⟨best, e3, h4⟩ := Exc.bind_ok.1 h4
    obtain ⟨⟨u2, ph2⟩, e4, h4⟩ := Exc.bind_ok.1 h4
    cases h4
    obtain ⟨d1, hd1, hr1⟩ := C136_ant_system_refines sqrt pow maxv floor (by rw [hrows]; exact hn)
      (fun a ha => by rw [hrows]; exact (hready a ha).1) h3
    obtain ⟨-, -, c1, -, c2⟩ := C55_ant_system_tours (fun a ha => by rw [hrows]; exact hready a ha) hr1
    rw [hrows] at c2 hd1
    obtain ⟨d0, hd0, hrun⟩ := runM_refines hn k _ rs' g1 g' (by
      show ph2.rows = n
      rw [rule_rows e4, c1, hrows]) c2 h2
    refine ⟨fun j => if j = s.iter then d1 else d0 j, fun j => ?_, fun d hd fuel tm hf hs => ?_⟩
    · by_cases hj : j = s.iter
      · simp only [hj, if_true]
        exact hd1
      · simp only [if_neg hj]
        exact hd0 j
    · obtain ⟨f, rfl⟩ : ∃ f, fuel = f + 1 := ⟨fuel - 1, by omega⟩
      obtain ⟨t', ht, hs'⟩ := hs
      have hds : d s.iter = d1 := by rw [hd s.iter le_rfl]; exact if_pos rfl
      have hb : buildGrade A0 (⟨asColony A0 goodness d, tspGrader A0 W, rule.update A0 rate⟩ :
          Algo (Ext ℝ) (Mat (Ext ℝ)) (Nat × List (Ant (Ext ℝ))) Unit (Sol (Ext ℝ))) ⟨(s.iter, s.ants), (), s.upd, s.ph⟩ =
          .ok (⟨(s.iter + 1, ants'), (), s.upd, ph1⟩, gs, best) := by
        unfold buildGrade
        have q1 : asColony A0 goodness d (s.iter, s.ants) s.ph = .ok ((s.iter + 1, ants'), paths, ph1) := by
          unfold asColony
          simp only
          rw [hds, Exc.bind_of_ok hr1]
          rfl
        have q2 : tspGrader A0 W () sols = .ok ((), gs) := by
          unfold tspGrader
          rw [Exc.bind_of_ok e2]
          rfl
        rw [Exc.bind_of_ok q1, Exc.bind_of_ok e1, Exc.bind_of_ok q2, Exc.bind_of_ok e3]
        rfl
      have hit : iterate A0 (⟨asColony A0 goodness d, tspGrader A0 W, rule.update A0 rate⟩ :
          Algo (Ext ℝ) (Mat (Ext ℝ)) (Nat × List (Ant (Ext ℝ))) Unit (Sol (Ext ℝ))) ⟨(s.iter, s.ants), (), s.upd, s.ph⟩ =
          ([.currentBest best, .pheromoneUpdate ph2], .ok ⟨(s.iter + 1, ants'), (), u2, ph2⟩) := by
        unfold iterate
        rw [hb]
        simp only
        rw [e4]
      rw [runLoop, ht, if_neg (by simp), hit]
      simp only
      rw [hrun d (fun j hj => by
        have hj : s.iter + 1 ≤ j := hj
        rw [hd j (by omega)]; exact if_neg (by omega)) f t' (by omega) hs']
      simp [block]

/-- **C137, the sampled run is a run.** Whatever the run with a generator returns is what the model of `run` with
`IterationCond` shows to its probe for some draws the generators can make. -/
theorem C137_refines {n : Nat} (hn : 0 < n) {goodness : Mat (Ext ℝ) → Except Panic (Mat (Ext ℝ))}
    {o : Nat → Nat → Nat → List Nat → List Nat} {ho : ∀ i k t l, (o i k t l).Perm l} {W : Mat (Ext ℝ)} {rule : Rule (Ext ℝ)}
    {rate : Ext ℝ} {k : Nat} {ants : List (Ant (Ext ℝ))} {u : Sol (Ext ℝ)} {ph : Mat (Ext ℝ)} (hrows : ph.rows = n)
    (hready : ∀ a ∈ ants, Ready n a) {rs : List (Round (Ext ℝ))} {g g' : G}
    (h : runM R A0 goodness o ho W (rule.update A0 rate) k ⟨0, ants, u, ph⟩ g = .ok (rs, g')) :
    ∃ d : Draws (Ext ℝ), (∀ j, LegalDraws n (o j) (d j)) ∧ ∀ (curr fuel : Nat), k < fuel →
      runIterations A0 (⟨asColony A0 goodness d, tspGrader A0 W, rule.update A0 rate⟩ :
        Algo (Ext ℝ) (Mat (Ext ℝ)) (Nat × List (Ant (Ext ℝ))) Unit (Sol (Ext ℝ))) fuel ⟨curr, k⟩ ⟨(0, ants), (), u, ph⟩ =
      (rs.flatMap (fun r => block (r.best, r.ph)) ++ [.finish], .done) := by
  obtain ⟨d, hd, hrun⟩ := runM_refines sqrt pow maxv floor hn (check := IterationCond.check) k _ rs g g' hrows hready h
  exact ⟨d, hd, fun curr fuel hf => hrun d (fun _ _ => rfl) fuel _ hf (stopsAt_iteration 0 k k (by omega))⟩

end

/-! ## A concrete case -/

/-- Four cities on a circle: neighbours at distance 1, opposite ones at distance 2. -/
def ring (i j : Nat) : ℝ := if i = j then 0 else if (i + 2) % 4 = j then 2 else 1

theorem ring_pos (i j : Nat) (h : i ≠ j) : 0 < ring i j := by
  unfold ring
  rw [if_neg h]
  split <;> norm_num

theorem ring_nonneg (i j : Nat) : 0 ≤ ring i j := by
  by_cases h : i = j
  · simp [ring, h]
  · exact (ring_pos i j h).le

/-- The real power function on finite arguments. -/
noncomputable def rpow (x y : Ext ℝ) : Ext ℝ :=
  match x, y with
  | .fin a, .fin b => .fin (a ^ b)
  | _, _ => .nan

/-- Two ants, `alpha = 1`, `beta = 2`, heuristic made from the weights, Max-Min with bounds 0.1 and 5, half of the pheromone
evaporates: the tour 0 2 1 3 is longer than 0 1 2 3, and the colony may follow it forever. -/
example : ∃ b : ℝ, b < 1 ∧ ∀ k, chance tapeLaw (runM tapeRng (exactOps (fun x => x) rpow 1000 fun _ => 0)
      (canonicalGoodness (exactOps (fun x => x) rpow 1000 fun _ => 0) (.fin 1) (.fin 2)
        (heuristic (exactOps (fun x => x) rpow 1000 fun _ => 0) ⟨4, 4, fun i j => .fin (ring i j)⟩))
      (fun _ _ _ => List.reverse) (fun _ _ _ l => List.reverse_perm l) ⟨4, 4, fun i j => .fin (ring i j)⟩
      ((Rule.maxMin (.fin (1 / 10)) (.fin 5) .overallBest).update (exactOps (fun x => x) rpow 1000 fun _ => 0) (.fin (1 / 2)))
      k ⟨0, [Ant.canonical 4, Ant.canonical 4], ⟨[], .fin 0⟩, ⟨4, 4, fun _ _ => .fin 1⟩⟩)
      (fun rs => ∃ r ∈ rs, ∃ s ∈ r.sols, ShortestTour 4 ring s.path) ≤ ENNReal.ofReal b := by
  have hH := heuristic_positive (fun x => x) rpow 1000 (fun _ => 0) (n := 4) (W := ⟨4, 4, fun i j => .fin (ring i j)⟩) (w := ring)
    ⟨⟨rfl, rfl, fun _ _ _ _ => rfl⟩, fun i j _ _ => ring_nonneg i j, fun i j _ _ h => ring_pos i j h⟩
  obtain ⟨b, h1, h2⟩ := C137_never_shortest (fun x => x) rpow 1000 (fun _ => 0) tapeRng_ideal (by norm_num)
    (fun x y _ _ => rfl) (n := 4) (by norm_num) (W := ⟨4, 4, fun i j => .fin (ring i j)⟩) (w := ring)
    ⟨by norm_num, ⟨rfl, rfl, fun _ _ _ _ => rfl⟩, fun i j _ _ h => ring_pos i j h⟩ hH (alpha := 1) (beta := 2) (by norm_num)
    (by norm_num) (rho := 1 / 2) (by norm_num) (by norm_num)
    (rule := Rule.maxMin (.fin (1 / 10)) (.fin 5) .overallBest) ⟨1 / 10, 5, rfl, rfl, by norm_num, by norm_num⟩
    (ants := [Ant.canonical 4, Ant.canonical 4]) (by simp)
    (fun a ha => by
      have : a = Ant.canonical 4 := by simpa using ha
      rw [this]
      exact ⟨ready_canonical 4, .inl ⟨rfl, rfl⟩⟩)
    (ph := ⟨4, 4, fun _ _ => .fin 1⟩) (τ := fun _ _ => 1)
    ⟨⟨rfl, rfl, fun _ _ _ _ => rfl⟩, fun _ _ _ _ => by norm_num, fun _ _ _ _ _ => by norm_num⟩
    (u := ⟨[], .fin 0⟩) rfl (T := [0, 2, 1, 3]) (by unfold IsTour; decide)
    (fun h => by
      have := h.2 [0, 1, 2, 3] (by unfold IsTour; decide)
      norm_num [tourLength, windows, ring] at this)
    (fun h => by
      have := h.2 [0, 1, 2, 3] (by unfold IsTour; decide)
      norm_num [tourLength, windows, ring] at this)
  exact ⟨b, h1, fun k => h2 _ _ k⟩

section instances
/-- The four cities on a ring and the goodness `τ η²`, under the ant system rule: the colony can run along a fixed bad tour in
every iteration, with a probability bounded below. -/
example := C137_stagnation (fun x => x) rpow 1000 (fun _ => 0) tapeRng_ideal (by norm_num) (fun x y _ _ => rfl) (n := 4)
  (by norm_num) (W := ⟨4, 4, fun i j => .fin (ring i j)⟩) (w := ring)
  ⟨by norm_num, ⟨rfl, rfl, fun _ _ _ _ => rfl⟩, fun i j _ _ h => ring_pos i j h⟩
  (heuristic_positive (fun x => x) rpow 1000 (fun _ => 0) (n := 4) (W := ⟨4, 4, fun i j => .fin (ring i j)⟩) (w := ring)
    ⟨⟨rfl, rfl, fun _ _ _ _ => rfl⟩, fun i j _ _ => ring_nonneg i j, fun i j _ _ h => ring_pos i j h⟩)
  (alpha := 1) (beta := 2) (by norm_num) (by norm_num) (rho := 1 / 2) (by norm_num) (by norm_num)
  (rule := .antSystem) trivial
  (ants := [Ant.canonical 4, Ant.canonical 4]) (by simp)
  (fun a ha => by
    have : a = Ant.canonical 4 := by simpa using ha
    rw [this]
    exact ⟨ready_canonical 4, .inl ⟨rfl, rfl⟩⟩)
  (ph := ⟨4, 4, fun _ _ => .fin 1⟩) (τ := fun _ _ => 1)
  ⟨⟨rfl, rfl, fun _ _ _ _ => rfl⟩, fun _ _ _ _ => by norm_num, fun _ _ _ _ _ => by norm_num⟩
  (u := ⟨[], .fin 0⟩) rfl (T := [0, 2, 1, 3]) (by unfold IsTour; decide)
example {rs g g'} (h : runM tapeRng (exactOps (fun x => x) rpow 1000 fun _ => 0) (fun ph => .ok ph)
    (fun _ _ _ => List.reverse) (fun _ _ _ l => List.reverse_perm l) ⟨4, 4, fun i j => .fin (ring i j)⟩
    ((Rule.antSystem).update (exactOps (fun x => x) rpow 1000 fun _ => 0) (.fin (1 / 2)))
    5 ⟨0, [Ant.canonical 4, Ant.canonical 4], ⟨[], .fin 0⟩, ⟨4, 4, fun _ _ => .fin 1⟩⟩ g = .ok (rs, g')) :=
  C137_refines _ _ _ _ (n := 4) (by norm_num) rfl (fun a ha => by
    have : a = Ant.canonical 4 := by simpa using ha
    rw [this]; exact ready_canonical 4) h
end instances

end Ecrs.Aco
