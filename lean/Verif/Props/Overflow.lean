import Verif.Ga.Overflow
import Verif.Ga.Mutation
import Verif.ProbRun
import Verif.ProbTape
import Verif.Props.ProbSelection
import Verif.CounterRng

/-!
# Property C157: sampling selections and infinite, overflowing or undefined fitness values
-/

set_option linter.unusedSectionVars false

namespace Ecrs.Ga
open Ecrs

variable {G K I : Type} [Field K] [LinearOrder K] [IsStrictOrderedRing K] {A : Rounding K} {maxv : K} {fit : I → Ext K}

/-! ## Lemmas -/

theorem addF_nan (x : Ext K) : addF A maxv x .nan = .nan := by cases x <;> rfl

theorem nan_addF (x : Ext K) : addF A maxv .nan x = .nan := by cases x <;> rfl

theorem foldl_nan : ∀ l : List (Ext K), l.foldl (addF A maxv) .nan = .nan
  | [] => rfl
  | x :: l => by rw [List.foldl_cons, nan_addF, foldl_nan l]

theorem sumF_nan {l : List (Ext K)} (h : .nan ∈ l) : sumF A maxv l = .nan := by
  obtain ⟨l1, l2, rfl⟩ := List.append_of_mem h
  unfold sumF
  rw [List.foldl_append, List.foldl_cons, addF_nan, foldl_nan]

theorem pinf_addF {x : Ext K} (h1 : x ≠ .nan) (h2 : x ≠ .ninf) : addF A maxv .pinf x = .pinf := by
  cases x <;> first | rfl | contradiction

theorem foldl_pinf : ∀ {l : List (Ext K)}, .nan ∉ l → .ninf ∉ l → l.foldl (addF A maxv) .pinf = .pinf
  | [], _, _ => rfl
  | x :: l, h1, h2 => by
    simp only [List.mem_cons, not_or] at h1 h2
    rw [List.foldl_cons, pinf_addF (Ne.symm h1.1) (Ne.symm h2.1), foldl_pinf h1.2 h2.2]

theorem addF_eq_fin {a b : Ext K} {t : K} (h : addF A maxv a b = .fin t) : ∃ s, a = .fin s := by
  cases a with
  | fin s => exact ⟨s, rfl⟩
  | nan => cases b <;> cases h
  | pinf => cases b <;> cases h
  | ninf => cases b <;> cases h

theorem foldl_eq_fin : ∀ {l : List (Ext K)} {a : Ext K} {t : K}, l.foldl (addF A maxv) a = .fin t → ∃ s, a = .fin s
  | [], a, t, h => ⟨t, h⟩
  | x :: l, a, t, h => by
    rw [List.foldl_cons] at h
    obtain ⟨s, hs⟩ := foldl_eq_fin h
    exact addF_eq_fin hs

theorem geF_nan (x : Ext K) : geF x .nan = false := by cases x <;> rfl

theorem geF_fin_pinf (s : K) : geF (.fin s) (.pinf : Ext K) = false := by
  simp [geF, Ext.view, Fl.ge]

theorem geF_pinf : geF (.pinf : Ext K) .pinf = true := by simp [geF, Ext.view, Fl.ge]

theorem geF_ninf {x : Ext K} (h : x ≠ .nan) : geF x .ninf = true := by
  cases x <;> first | contradiction | simp [geF, Ext.view, Fl.ge]

theorem geF_fin (a b : K) : geF (.fin a) (.fin b) = decide (b ≤ a) := by
  simp [geF, Ext.view, Fl.ge]

theorem pick_nan : ∀ (pop : List I) (s : Ext K), roulettePickF A maxv fit .nan s pop = none
  | [], _ => rfl
  | x :: pop, s => by rw [roulettePickF, geF_nan, if_neg (by simp), pick_nan pop]

theorem pick_pinf {x : I} {l2 : List I} : ∀ {l1 : List I} {a : Ext K} {t : K}, (l1.map fit).foldl (addF A maxv) a = .fin t →
    addF A maxv (.fin t) (fit x) = .pinf → roulettePickF A maxv fit .pinf a (l1 ++ x :: l2) = some x
  | [], a, t, h, hx => by
    obtain rfl : a = .fin t := h
    rw [List.nil_append, roulettePickF, hx, geF_pinf, if_pos rfl]
  | y :: l1, a, t, h, hx => by
    rw [List.map_cons, List.foldl_cons] at h
    obtain ⟨s, hs⟩ := foldl_eq_fin h
    rw [List.cons_append, roulettePickF, hs, geF_fin_pinf, if_neg (by simp)]
    rw [hs] at h
    exact pick_pinf h hx

theorem mulF_pinf_pos {u : K} (h : 0 < u) : mulF A maxv .pinf (.fin u) = .pinf := by
  show overflow A maxv (Ext.infMul u) = .pinf
  rw [Ext.infMul, if_neg h.ne', Ext.signed, if_neg h.not_gt]
  rfl

theorem mulF_ninf_pos {u : K} (h : 0 < u) : mulF A maxv .ninf (.fin u) = .ninf := by
  show overflow A maxv (Ext.neg (Ext.infMul u)) = .ninf
  rw [Ext.infMul, if_neg h.ne', Ext.signed, if_neg h.not_gt]
  rfl

theorem mulF_pinf_zero : mulF A maxv (.pinf : Ext K) (.fin 0) = .nan := by
  show overflow A maxv (Ext.infMul 0) = .nan
  rw [Ext.infMul, if_pos rfl]
  rfl

theorem mulF_ninf_zero : mulF A maxv (.ninf : Ext K) (.fin 0) = .nan := by
  show overflow A maxv (Ext.neg (Ext.infMul 0)) = .nan
  rw [Ext.infMul, if_pos rfl]
  rfl

theorem selRouletteF_run (R : Rng G K) (count : Nat) (pop : List I) (g : G) : ∃ us g', (M.replicate count R.genUnit) g = .ok (us, g') ∧
    us.length = count ∧ (∀ u ∈ us, 0 ≤ u ∧ u < 1) ∧ selRouletteF A maxv R fit count pop g =
      .ok (us.filterMap fun u => roulettePickF A maxv fit (mulF A maxv (sumF A maxv (pop.map fit)) (.fin u)) (.fin 0) pop, g') := by
  obtain ⟨us, g', h1, h2, h3⟩ := Returns.replicate (W := G) R.genUnit_returns count g
  refine ⟨us, g', h1, h2, h3, ?_⟩
  unfold selRouletteF
  rw [M.bind_of_ok h1]
  rfl

/-! ## RouletteWheel -/

/-- **C157, NaN.** If one fitness value is NaN, RouletteWheel selects nobody, whatever the other values, the requested count and the draws;
it does not panic. -/
theorem C157_nan_selects_nobody (R : Rng G K) (count : Nat) {pop : List I} (h : ∃ x ∈ pop, fit x = .nan) :
    Returns (selRouletteF A maxv R fit count pop) (fun sel => sel = []) := by
  intro g
  obtain ⟨us, g', -, -, -, e⟩ := selRouletteF_run (A := A) (maxv := maxv) (fit := fit) R count pop g
  refine ⟨_, g', e, ?_⟩
  obtain ⟨x, hx, hn⟩ := h
  rw [List.filterMap_eq_nil_iff]
  intro u _
  rw [sumF_nan (List.mem_map.2 ⟨x, hx, hn⟩)]
  exact pick_nan _ _

/-- **C157, infinite fitness.** No NaN and no minus infinity in the population; `x` is the first individual at which the running sum of the
fitness values becomes plus infinity, because its own fitness is infinite or because the sum overflows. Then RouletteWheel selects nobody
but `x`, once for every draw that is not exactly zero. -/
theorem C157_infinite_takes_all (R : Rng G K) (count : Nat) {l1 l2 : List I} {x : I} {t : K} (h1 : sumF A maxv (l1.map fit) = .fin t)
    (hx : addF A maxv (.fin t) (fit x) = .pinf) (hl2 : ∀ y ∈ l2, fit y ≠ .nan ∧ fit y ≠ .ninf) (g : G) :
    ∃ us g', (M.replicate count R.genUnit) g = .ok (us, g') ∧
      selRouletteF A maxv R fit count (l1 ++ x :: l2) g = .ok (List.replicate (us.countP fun u => u ≠ 0) x, g') := by
  obtain ⟨us, g', h2, -, h3, e⟩ := selRouletteF_run (A := A) (maxv := maxv) (fit := fit) R count (l1 ++ x :: l2) g
  refine ⟨us, g', h2, e.trans ?_⟩
  have hsum : sumF A maxv ((l1 ++ x :: l2).map fit) = .pinf := by
    unfold sumF at h1 ⊢
    rw [List.map_append, List.foldl_append, h1, List.map_cons, List.foldl_cons, hx]
    refine foldl_pinf (fun h => ?_) (fun h => ?_)
    · obtain ⟨y, hy, e⟩ := List.mem_map.1 h; exact (hl2 y hy).1 e
    · obtain ⟨y, hy, e⟩ := List.mem_map.1 h; exact (hl2 y hy).2 e
  rw [hsum]
  congr 2
  clear h2 e
  induction us with
  | nil => rfl
  | cons u us ih =>
    have ih := ih fun v hv => h3 v (by simp [hv])
    by_cases hu : u = 0
    · subst hu
      rw [List.filterMap_cons, mulF_pinf_zero, pick_nan, ih, List.countP_cons_of_neg (by simp)]
    · have hpos : 0 < u := lt_of_le_of_ne (h3 u (by simp)).1 (Ne.symm hu)
      rw [List.filterMap_cons, mulF_pinf_pos hpos, pick_pinf h1 hx, List.countP_cons_of_pos (by simpa using hu), List.replicate_succ]
      simp only
      rw [ih]

/-- **C157, an overflow.** All fitness values may be finite numbers: if the running sum `t` before `x` plus the fitness `v` of `x` exceeds
`f64::MAX` after rounding, RouletteWheel selects nobody but `x`, once for every draw that is not exactly zero. -/
theorem C157_overflow_takes_all (R : Rng G K) (count : Nat) {l1 l2 : List I} {x : I} {t v : K} (h1 : sumF A maxv (l1.map fit) = .fin t)
    (hx : fit x = .fin v) (hov : maxv < A.rnd (t + v)) (hl2 : ∀ y ∈ l2, fit y ≠ .nan ∧ fit y ≠ .ninf) (g : G) :
    ∃ us g', (M.replicate count R.genUnit) g = .ok (us, g') ∧
      selRouletteF A maxv R fit count (l1 ++ x :: l2) g = .ok (List.replicate (us.countP fun u => u ≠ 0) x, g') :=
  C157_infinite_takes_all R count h1 (by
    rw [hx]
    show overflow A maxv (.fin (t + v)) = .pinf
    unfold overflow
    simp only
    rw [if_pos hov]) hl2 g

/-- **C157, one infeasible individual.** In particular: if exactly one individual has infinite fitness (an infeasible solution punished
with `f64::INFINITY`) and the other fitness values are numbers with a finite running sum before it, it fills the whole mating pool although
the solver looks for the lowest fitness: every selected individual is that one, and as many are selected as draws are not zero. -/
theorem C157_infeasible_fills_pool (R : Rng G K) (count : Nat) {l1 l2 : List I} {x : I} {t : K} (h1 : sumF A maxv (l1.map fit) = .fin t)
    (hx : fit x = .pinf) (hl2 : ∀ y ∈ l2, ∃ v, fit y = .fin v) :
    Returns (selRouletteF A maxv R fit count (l1 ++ x :: l2)) (fun sel => (∀ y ∈ sel, y = x) ∧ sel.length ≤ count) := by
  intro g
  obtain ⟨us, g', h2, e⟩ := C157_infinite_takes_all R count (A := A) (maxv := maxv) (l2 := l2) h1 (by rw [hx]; rfl) (fun y hy => by
    obtain ⟨v, hv⟩ := hl2 y hy
    rw [hv]
    exact ⟨by simp, by simp⟩) g
  refine ⟨_, g', e, fun y hy => List.eq_of_mem_replicate hy, ?_⟩
  obtain ⟨us', g'', e', hl, -⟩ := Returns.replicate (W := G) R.genUnit_returns count g
  rw [e'] at h2
  cases h2
  rw [List.length_replicate, ← hl]
  exact List.countP_le_length

/-- **C157, individuals not evaluated yet.** A population of at least two individuals that all still have the fitness a new individual gets
(`f64::MIN`): the total overflows to minus infinity, and RouletteWheel selects the first individual once for every draw that is not zero. -/
theorem C157_fresh (hmax : 0 < maxv) (hrnd : A.rnd (-maxv + -maxv) < -maxv) (hm : A.rnd (-maxv) = -maxv) (R : Rng G K) (count : Nat) {x y : I}
    {l : List I} (hx : ∀ z ∈ x :: y :: l, fit z = .fin (-maxv)) (g : G) :
    ∃ us g', (M.replicate count R.genUnit) g = .ok (us, g') ∧
      selRouletteF A maxv R fit count (x :: y :: l) g = .ok (List.replicate (us.countP fun u => u ≠ 0) x, g') := by
  obtain ⟨us, g', h2, -, h3, e⟩ := selRouletteF_run (A := A) (maxv := maxv) (fit := fit) R count (x :: y :: l) g
  refine ⟨us, g', h2, e.trans ?_⟩
  have hfirst : addF A maxv (.fin 0) (fit x) = .fin (-maxv) := by
    rw [hx x (by simp)]
    show overflow A maxv (.fin (0 + -maxv)) = _
    unfold overflow
    simp only [zero_add, hm]
    rw [if_neg (by linarith), if_neg (lt_irrefl _)]
  have hsecond : addF A maxv (.fin (-maxv)) (fit y) = .ninf := by
    rw [hx y (by simp)]
    show overflow A maxv (.fin (-maxv + -maxv)) = _
    unfold overflow
    simp only
    rw [if_neg (by linarith), if_pos hrnd]
  have hrest : ∀ l : List I, (∀ z ∈ l, fit z = .fin (-maxv)) → (l.map fit).foldl (addF A maxv) .ninf = .ninf := by
    intro l
    induction l with
    | nil => intro _; rfl
    | cons z l ih =>
      intro hz
      rw [List.map_cons, List.foldl_cons, hz z (by simp)]
      exact ih fun w hw => hz w (by simp [hw])
  have hsum : sumF A maxv ((x :: y :: l).map fit) = .ninf := by
    unfold sumF
    rw [List.map_cons, List.foldl_cons, hfirst, List.map_cons, List.foldl_cons, hsecond]
    exact hrest l fun z hz => hx z (by simp [hz])
  rw [hsum]
  congr 2
  clear h2 e
  induction us with
  | nil => rfl
  | cons u us ih =>
    have ih := ih fun v hv => h3 v (by simp [hv])
    by_cases hu : u = 0
    · subst hu
      rw [List.filterMap_cons, mulF_ninf_zero, pick_nan, ih, List.countP_cons_of_neg (by simp)]
    · have hpos : 0 < u := lt_of_le_of_ne (h3 u (by simp)).1 (Ne.symm hu)
      rw [List.filterMap_cons, mulF_ninf_pos hpos, List.countP_cons_of_pos (by simpa using hu), List.replicate_succ]
      rw [show roulettePickF A maxv fit .ninf (.fin 0) (x :: y :: l) = some x by
        rw [roulettePickF, hfirst, geF_ninf (by simp), if_pos rfl]]
      simp only
      rw [ih]

/-! ## Without overflow nothing changes -/

theorem overflow_fin {v : K} (h1 : -maxv ≤ A.rnd v) (h2 : A.rnd v ≤ maxv) : overflow A maxv (.fin v) = .fin (A.rnd v) := by
  unfold overflow
  simp only
  rw [if_neg h2.not_gt, if_neg h1.not_gt]

theorem addF_fin {a b : K} (h1 : -maxv ≤ A.rnd (a + b)) (h2 : A.rnd (a + b) ≤ maxv) :
    addF A maxv (.fin a) (.fin b) = .fin (A.rnd (a + b)) := overflow_fin h1 h2

theorem sumF_foldl : ∀ (l : List K) (s : K), 0 ≤ s → A.rnd s = s → (∀ x ∈ l, 0 ≤ x) → l.foldl (fun s x => A.rnd (s + x)) s ≤ maxv →
    (l.map Ext.fin).foldl (addF A maxv) (.fin s) = .fin (l.foldl (fun s x => A.rnd (s + x)) s)
  | [], s, _, _, _, _ => rfl
  | x :: l, s, hs, hr, hx, hle => by
    have h0 : 0 ≤ A.rnd (s + x) := by rw [← A.zero]; exact A.mono (add_nonneg hs (hx x (by simp)))
    have hm : A.rnd (s + x) ≤ maxv := le_trans (foldl_ge l (fun y hy => hx y (by simp [hy])) _ (A.idem _)) hle
    rw [List.map_cons, List.foldl_cons, List.foldl_cons, addF_fin (by linarith) hm]
    exact sumF_foldl l _ h0 (A.idem _) (fun y hy => hx y (by simp [hy])) hle

theorem pickF_finite {f : I → K} {t : K} : ∀ (pop : List I) (s : K), 0 ≤ s → A.rnd s = s → (∀ x ∈ pop, 0 ≤ f x) →
    (pop.map f).foldl (fun s x => A.rnd (s + x)) s ≤ maxv →
    roulettePickF A maxv (fun x => .fin (f x)) (.fin t) (.fin s) pop = roulettePickR A f t s pop
  | [], _, _, _, _, _ => rfl
  | x :: pop, s, hs, hr, hx, hle => by
    have h0 : 0 ≤ A.rnd (s + f x) := by rw [← A.zero]; exact A.mono (add_nonneg hs (hx x (by simp)))
    rw [List.map_cons, List.foldl_cons] at hle
    have hm : A.rnd (s + f x) ≤ maxv := le_trans (foldl_ge _ (by
      intro y hy; obtain ⟨z, hz, rfl⟩ := List.mem_map.1 hy; exact hx z (by simp [hz])) _ (A.idem _)) hle
    rw [roulettePickF, roulettePickR, addF_fin (by linarith) hm, geF_fin, pickF_finite pop _ h0 (A.idem _) (fun y hy => hx y (by simp [hy])) hle]
    by_cases h : t ≤ A.rnd (s + f x)
    · rw [if_pos (by simpa using h), if_pos h]
    · rw [if_neg (by simpa using h), if_neg h]

/-- **C157, without overflow.** If all fitness values are finite and not negative and their computed sum does not exceed `f64::MAX`, the
operator is the one of C125 (rounded arithmetic without bounds). -/
theorem C157_no_overflow (R : Rng G K) (count : Nat) {f : I → K} {pop : List I} (h0 : ∀ x ∈ pop, 0 ≤ f x) (hle : rsum A (pop.map f) ≤ maxv)
    (g : G) : selRouletteF A maxv R (fun x => .fin (f x)) count pop g = selRouletteR A R f count pop g := by
  obtain ⟨us, g', h2, -, h3, e⟩ := selRouletteF_run (A := A) (maxv := maxv) (fit := fun x => .fin (f x)) R count pop g
  rw [e]
  unfold selRouletteR
  rw [M.bind_of_ok h2]
  show _ = Except.ok (_, g')
  congr 2
  have hnn : ∀ x ∈ pop.map f, 0 ≤ x := by
    intro y hy; obtain ⟨z, hz, rfl⟩ := List.mem_map.1 hy; exact h0 z hz
  have hs : sumF A maxv (pop.map fun x => .fin (f x)) = .fin (rsum A (pop.map f)) := by
    have := sumF_foldl (A := A) (maxv := maxv) (pop.map f) 0 le_rfl A.zero hnn hle
    rw [List.map_map] at this
    exact this
  have hr0 : 0 ≤ rsum A (pop.map f) := foldl_ge _ hnn 0 A.zero
  refine List.filterMap_congr fun u hu => ?_
  obtain ⟨u0, u1⟩ := h3 u hu
  have hm1 : 0 ≤ A.rnd (rsum A (pop.map f) * u) := by rw [← A.zero]; exact A.mono (mul_nonneg hr0 u0)
  have hm2 : A.rnd (rsum A (pop.map f) * u) ≤ maxv := by
    refine le_trans (A.mono ?_) (le_trans (rsum_rounded (A := A) _).le hle)
    nlinarith
  rw [hs]
  rw [show mulF A maxv (.fin (rsum A (pop.map f))) (.fin u) = .fin (A.rnd (rsum A (pop.map f) * u)) from overflow_fin (by linarith) hm2]
  exact pickF_finite pop 0 le_rfl A.zero h0 hle

/-! ## StochasticUniversalSampling -/

/-- **C157, SUS.** StochasticUniversalSampling panics for all draws as soon as one fitness value is NaN, or the computed total is an infinity
(one infinite fitness value or an overflow). -/
theorem C157_sus_panics (R : FRng G K) (fuel count : Nat) {pop : List I} (h : (∃ x ∈ pop, fit x = .nan) ∨ sumF A maxv (pop.map fit) = .pinf ∨
    sumF A maxv (pop.map fit) = .ninf) (g : G) : ∃ e, selSusF A maxv R fit fuel count pop g = .error e := by
  unfold selSusF
  rcases h with ⟨x, hx, hn⟩ | h | h
  · rw [sumF_nan (List.mem_map.2 ⟨x, hx, hn⟩)]
    exact ⟨_, rfl⟩
  · rw [h]
    have : divF A maxv .pinf (.fin (A.rnd (count : K))) = Ext.signed (A.rnd (count : K)) := by
      unfold divF
      show overflow A maxv (Ext.signed _) = _
      unfold Ext.signed
      split <;> rfl
    rw [this]
    unfold Ext.signed
    split <;> exact ⟨_, rfl⟩
  · rw [h]
    have : divF A maxv .ninf (.fin (A.rnd (count : K))) = Ext.neg (Ext.signed (A.rnd (count : K))) := by
      unfold divF
      show overflow A maxv (Ext.neg (Ext.signed _)) = _
      unfold Ext.signed
      split <;> rfl
    rw [this]
    unfold Ext.signed
    split <;> exact ⟨_, rfl⟩

theorem susWhileR_nonneg {d sum : K} (hd : 0 ≤ d) : ∀ (fuel : Nat) (ptr : K), 0 ≤ ptr → ∀ {g g' : G} {k : Nat} {p : K},
    susWhileR A d sum fuel ptr g = .ok ((k, p), g') → 0 ≤ p
  | 0, _, _, _, _, _, _, h => by cases h
  | fuel + 1, ptr, h0, g, g', k, p, h => by
    rw [susWhileR] at h
    by_cases hle : ptr ≤ sum
    · rw [if_pos hle] at h
      obtain ⟨⟨k', p'⟩, g1, e1, e2⟩ := M.bind_ok_iff.1 h
      have := (Prod.ext_iff.1 (M.pure_ok_iff.1 e2)).1
      have hpp : p = p' := (Prod.ext_iff.1 this).2
      rw [hpp]
      exact susWhileR_nonneg hd fuel _ (by rw [← A.zero]; exact A.mono (add_nonneg h0 hd)) e1
    · rw [if_neg hle] at h
      have := (Prod.ext_iff.1 (M.pure_ok_iff.1 h)).1
      have hpp : p = ptr := (Prod.ext_iff.1 this).2
      rw [hpp]; exact h0

theorem susWhileF_finite {d sum S : K} (hd : 0 ≤ d) (hS : sum ≤ S) (hle : A.rnd (S + d) ≤ maxv) : ∀ (fuel : Nat) (ptr : K), 0 ≤ ptr →
    susWhileF (G := G) A maxv (.fin d) (.fin sum) fuel (.fin ptr) =
      (do let (k, p) ← susWhileR A d sum fuel ptr; pure (k, Ext.fin p))
  | 0, _, _ => by funext g; rfl
  | fuel + 1, ptr, h0 => by
    rw [susWhileF, susWhileR, geF_fin]
    by_cases h : ptr ≤ sum
    · have r0 : 0 ≤ A.rnd (ptr + d) := by rw [← A.zero]; exact A.mono (add_nonneg h0 hd)
      have r1 : A.rnd (ptr + d) ≤ maxv := le_trans (A.mono (by linarith)) hle
      rw [if_pos (by simpa using h), if_pos h, addF_fin (by linarith) r1, susWhileF_finite hd hS hle fuel _ r0]
      simp only [bind_assoc, pure_bind]
    · rw [if_neg (by simpa using h), if_neg h, pure_bind]

theorem susGoF_finite {f : I → K} {d S : K} (hd : 0 ≤ d) (hSm : S ≤ maxv) (hle : A.rnd (S + d) ≤ maxv) (fuel : Nat) : ∀ (pop : List I) (s ptr : K),
    0 ≤ s → A.rnd s = s → 0 ≤ ptr → (∀ x ∈ pop, 0 ≤ f x) → (pop.map f).foldl (fun s x => A.rnd (s + x)) s ≤ S →
    susGoF (G := G) A maxv (fun x => .fin (f x)) (.fin d) fuel (.fin s) (.fin ptr) pop = susGoR A f d fuel s ptr pop
  | [], _, _, _, _, _, _, _ => rfl
  | x :: pop, s, ptr, hs, hr, hp, hx, hf => by
    have h0 : 0 ≤ A.rnd (s + f x) := by rw [← A.zero]; exact A.mono (add_nonneg hs (hx x (by simp)))
    rw [List.map_cons, List.foldl_cons] at hf
    have hm : A.rnd (s + f x) ≤ S := le_trans (foldl_ge _ (by
      intro y hy; obtain ⟨z, hz, rfl⟩ := List.mem_map.1 hy; exact hx z (by simp [hz])) _ (A.idem _)) hf
    rw [susGoF, susGoR, addF_fin (by linarith) (hm.trans hSm), susWhileF_finite hd hm hle fuel ptr hp]
    simp only [bind_assoc, pure_bind]
    funext g
    cases e : susWhileR A d (A.rnd (s + f x)) fuel ptr g with
    | error err => rw [M.bind_of_error e, M.bind_of_error e]
    | ok r =>
      obtain ⟨⟨k, p⟩, g'⟩ := r
      have hp' : 0 ≤ p := susWhileR_nonneg hd fuel ptr hp e
      rw [M.bind_of_ok e, M.bind_of_ok e]
      show (susGoF A maxv (fun x => .fin (f x)) (.fin d) fuel (.fin (A.rnd (s + f x))) (.fin p) pop >>= _) g' = _
      rw [susGoF_finite hd hSm hle fuel pop _ p h0 (A.idem _) hp' (fun y hy => hx y (by simp [hy])) hf]

/-- **C157, SUS without overflow.** If all fitness values are finite and not negative, at least one individual is requested and the computed
total plus one pointer step does not exceed `f64::MAX`, StochasticUniversalSampling is the operator of C126 (rounded arithmetic without
bounds), on every generator state. -/
theorem C157_sus_no_overflow (R : FRng G K) (fuel count : Nat) (hc : 0 < count) {f : I → K} {pop : List I} (h0 : ∀ x ∈ pop, 0 ≤ f x)
    (hle : A.rnd (rsum A (pop.map f) + A.rnd (rsum A (pop.map f) / A.rnd (count : K))) ≤ maxv) (g : G) :
    selSusF A maxv R (fun x => .fin (f x)) fuel count pop g = selSusR A R f fuel count pop g := by
  have hnn : ∀ x ∈ pop.map f, 0 ≤ x := by
    intro y hy; obtain ⟨z, hz, rfl⟩ := List.mem_map.1 hy; exact h0 z hz
  have hS0 : 0 ≤ rsum A (pop.map f) := rsum_nonneg hnn
  have hc1 : (1 : K) ≤ A.rnd (count : K) := by
    rw [← A.one]; exact A.mono (by exact_mod_cast hc)
  set S := rsum A (pop.map f) with hS
  set d := A.rnd (S / A.rnd (count : K)) with hd
  have hd0 : 0 ≤ d := by rw [hd, ← A.zero]; exact A.mono (div_nonneg hS0 (by linarith))
  have hSm : S ≤ maxv := by
    refine le_trans ?_ hle
    have := A.mono (show S ≤ S + d by linarith)
    rwa [show A.rnd S = S from rsum_rounded (A := A) (pop.map f)] at this
  have hdm : d ≤ maxv := by
    refine le_trans ?_ hle
    rw [hd]
    refine A.mono ?_
    have : S / A.rnd (count : K) ≤ S := div_le_self hS0 hc1
    linarith
  have hsum : sumF A maxv (pop.map fun x => .fin (f x)) = .fin S := by
    have := sumF_foldl (A := A) (maxv := maxv) (pop.map f) 0 le_rfl A.zero hnn hSm
    rw [List.map_map] at this
    exact this
  have hdiv : divF A maxv (.fin S) (.fin (A.rnd (count : K))) = .fin d := by
    have hne : A.rnd (count : K) ≠ 0 := by linarith
    show overflow A maxv (Ext.div (.fin S) (.fin (A.rnd (count : K)))) = _
    rw [show Ext.div (.fin S) (.fin (A.rnd (count : K))) = .fin (S / A.rnd (count : K)) by simp [Ext.div, hne]]
    exact overflow_fin (by linarith) hdm
  unfold selSusF selSusR
  rw [hsum, hdiv]
  simp only
  by_cases hpos : 0 < d
  · cases e : R.genBetween 0 d g with
    | error err => 
      simp only [← hS, ← hd, decide_eq_true hpos]
      rw [M.bind_of_ok (show (M.assert true : M G Unit) g = .ok ((), g) from rfl), M.bind_of_error e,
        M.bind_of_ok (show (M.assert true : M G Unit) g = .ok ((), g) from rfl), M.bind_of_error e]
    | ok r =>
      obtain ⟨ptr, g'⟩ := r
      have hp : 0 ≤ ptr := by
        obtain ⟨a, b, e1, e2⟩ := R.genBetween_returns hpos.le g
        rw [e] at e1; cases e1; exact e2.1
      simp only [← hS, ← hd, decide_eq_true hpos]
      rw [M.bind_of_ok (show (M.assert true : M G Unit) g = .ok ((), g) from rfl), M.bind_of_ok e,
        M.bind_of_ok (show (M.assert true : M G Unit) g = .ok ((), g) from rfl), M.bind_of_ok e,
        susGoF_finite hd0 hSm hle fuel pop 0 ptr le_rfl A.zero hp h0 le_rfl]
  · simp only [← hS, ← hd, decide_eq_false hpos]
    rfl

/-! ## With probability one -/

section chance
open MeasureTheory ENNReal
variable {R : Rng G ℝ} [MeasurableSpace G] {μ : Measure G}

/-- With probability one none of `n` draws is exactly zero. -/
theorem chance_nonzero (hR : Ideal R μ) (n : Nat) : chance μ (M.replicate n R.genUnit) (fun us => ∀ u ∈ us, u ≠ 0) = 1 := by
  have := hR.isProbability
  have hm : ∀ b, MeasurableSet {u : ℝ | decide (u ≠ 0) = b} := by
    intro b
    cases b
    · have : {u : ℝ | decide (u ≠ 0) = false} = {0} := by ext u; simp
      rw [this]; exact measurableSet_singleton 0
    · have : {u : ℝ | decide (u ≠ 0) = true} = {0}ᶜ := by ext u; simp
      rw [this]; exact (measurableSet_singleton 0).compl
  have hl := (hR.unit_map (fun u => decide (u ≠ 0)) (Set.to_countable _) hm).replicate n
  have hc := hl.chance_eq (List.replicate n true)
  rw [if_pos (by simp), List.map_replicate, List.prod_replicate] at hc
  have hv : volume ({u : ℝ | decide (u ≠ 0) = true} ∩ Set.Ico 0 1) = 1 := by
    have : ({u : ℝ | decide (u ≠ 0) = true} ∩ Set.Ico 0 1) = Set.Ioo 0 1 := by
      ext u
      simp only [ne_eq, decide_not, Bool.not_eq_eq_eq_not, Bool.not_true, decide_eq_false_iff_not, Set.mem_inter_iff, Set.mem_ofPred_eq,
        Set.mem_Ico, Set.mem_Ioo]
      constructor
      · rintro ⟨h, h1, h2⟩; exact ⟨lt_of_le_of_ne h1 (Ne.symm h), h2⟩
      · rintro ⟨h, h'⟩; exact ⟨h.ne', h.le, h'⟩
    rw [this, Real.volume_Ioo]; simp
  rw [hv, one_pow, ← Props.replicate_map, chance_map] at hc
  refine le_antisymm chance_le_one (hc ▸ chance_mono fun us h u hu => ?_)
  have : decide (u ≠ 0) ∈ List.replicate n true := h ▸ List.mem_map_of_mem hu
  simpa using List.eq_of_mem_replicate this

/-- **C157, probability.** For an ideal random generator the event of a draw that is exactly zero has probability zero: the individual that
makes the sum infinite is selected `count` times out of `count` with probability one. -/
theorem C157_almost_surely {A : Rounding ℝ} {maxv : ℝ} {fit : I → Ext ℝ} (hR : Ideal R μ) (count : Nat) {l1 l2 : List I} {x : I} {t : ℝ}
    (h1 : sumF A maxv (l1.map fit) = .fin t) (hx : addF A maxv (.fin t) (fit x) = .pinf)
    (hl2 : ∀ y ∈ l2, fit y ≠ .nan ∧ fit y ≠ .ninf) :
    chance μ (selRouletteF A maxv R fit count (l1 ++ x :: l2)) (fun sel => sel = List.replicate count x) = 1 := by
  have := hR.isProbability
  refine le_antisymm chance_le_one ((chance_nonzero hR count).symm.le.trans (measure_mono ?_))
  rintro g ⟨us, g', e, h⟩
  obtain ⟨us', g'', e1, e2⟩ := C157_infinite_takes_all R count (A := A) (maxv := maxv) h1 hx hl2 g
  rw [e] at e1
  obtain ⟨rfl, rfl⟩ := Prod.mk.inj (Except.ok.inj e1)
  refine ⟨_, _, e2, ?_⟩
  obtain ⟨us'', g'', e3, hl, -⟩ := Returns.replicate (W := G) R.genUnit_returns count g
  rw [e] at e3
  obtain ⟨rfl, rfl⟩ := Prod.mk.inj (Except.ok.inj e3)
  congr 1
  rw [← hl]
  exact List.countP_eq_length.2 fun u hu => by simpa using h u hu

end chance

/-! ## Examples -/

section examples

/-- `f64::MAX`. -/
def f64Max : ℚ := (2 ^ 53 - 1) * 2 ^ 971

/-- Fitness of the example: a NaN, an infinity and finite values. -/
def exFit : Nat → Ext ℚ
  | 0 => .nan
  | 1 => .pinf
  | 2 => .fin 3
  | _ => .fin 5

/-- Three individuals, the last with NaN: nobody is selected. -/
example := C157_nan_selects_nobody (A := exact ℚ) (maxv := f64Max) (fit := exFit) counterRng 7 (pop := [2, 1, 0]) ⟨0, by decide, rfl⟩
/-- Fitness 3, infinity, 5: the infinite one fills the pool. -/
example := C157_infeasible_fills_pool (A := nearestEven 53 (by decide)) (maxv := f64Max) (fit := exFit) counterRng 7 (l1 := [2]) (l2 := [3]) (x := 1)
  (t := 3) (by decide +kernel) rfl (by intro y hy; simp only [List.mem_singleton] at hy; subst hy; exact ⟨5, rfl⟩)
/-- The same by an overflow: `MAX / 2` three times; the individual at which the sum overflows takes all. -/
example := C157_infinite_takes_all (A := nearestEven 53 (by decide)) (maxv := f64Max) (fit := fun _ : Fin 4 => .fin (f64Max / 2)) counterRng 7
  (l1 := [0, 1]) (l2 := [3]) (x := 2) (t := f64Max) (by decide +kernel) (by decide +kernel) (by simp)
/-- A new population of three: the first individual is selected. -/
example := C157_fresh (A := nearestEven 53 (by decide)) (maxv := f64Max) (fit := fun _ : Fin 3 => .fin (-f64Max)) (by decide +kernel)
  (by decide +kernel) (by decide +kernel) counterRng 42 (x := 0) (y := 1) (l := [2]) (by simp)
example := C157_no_overflow (A := nearestEven 53 (by decide)) (maxv := f64Max) counterRng 4 (f := fun n : Nat => (n : ℚ)) (pop := [1, 2, 3])
  (by intro x _; positivity) (by decide +kernel)
example := C157_sus_panics (A := nearestEven 53 (by decide)) (maxv := f64Max) (fit := exFit) counterFRng 10 2 (pop := [2, 1]) (.inr (.inl (by decide +kernel)))
example := C157_sus_panics (A := nearestEven 53 (by decide)) (maxv := f64Max) (fit := exFit) counterFRng 10 2 (pop := [2, 0]) (.inl ⟨0, by decide, rfl⟩)
/-- SUS for three of the individuals with fitness 1, 2, 3, 4. -/
example := C157_sus_no_overflow (A := nearestEven 53 (by decide)) (maxv := f64Max) counterFRng 10 3 (by decide) (f := fun n : Nat => (n : ℚ))
  (pop := [1, 2, 3, 4]) (by intro x _; positivity) (by decide +kernel)
example := C157_overflow_takes_all (A := nearestEven 53 (by decide)) (maxv := f64Max) (fit := fun _ : Fin 4 => .fin (f64Max / 2)) counterRng 7
  (l1 := [0, 1]) (l2 := [3]) (x := 2) (t := f64Max) (v := f64Max / 2) (by decide +kernel) rfl (by decide +kernel) (by simp)
example := C157_almost_surely (A := exact ℝ) (maxv := 1000) (fit := fun n : Nat => if n = 1 then .pinf else .fin (n : ℝ)) tapeRng_ideal 7 (l1 := [2])
  (l2 := [3]) (x := 1) (t := 2) (by
    have h : sumF (exact ℝ) 1000 ([2].map fun n : Nat => if n = 1 then Ext.pinf else Ext.fin (n : ℝ)) = overflow (exact ℝ) 1000 (.fin (0 + 2)) := by
      simp [sumF, addF, Ext.add]
    rw [h, overflow_fin] <;> norm_num [exact])
  rfl (by intro y hy; simp only [List.mem_singleton] at hy; subst hy; simp)

end examples

end Ecrs.Ga
