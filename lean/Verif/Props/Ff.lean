import Verif.Ff.Ff
import Mathlib.Algebra.Order.Field.Basic
import Mathlib.Algebra.Order.Ring.Rat
import Mathlib.Tactic.Linarith
import Mathlib.Tactic.Ring

set_option linter.unusedSectionVars false

/-!
# Properties of the firefly algorithm: C52-C54, C78-C84
-/

namespace Ecrs.Ff
open Ecrs

section general
variable {X K : Type} [LinearOrder K] {A : FloatOps X K}

/-! ## Lemmas -/

theorem except_bind_ok {α β : Type} {m : Except Panic α} {k : α → Except Panic β} {b : β} :
    (m >>= k) = .ok b ↔ ∃ a, m = .ok a ∧ k a = .ok b := by
  cases m with
  | error e => simp [bind, Except.bind]
  | ok a => simp [bind, Except.bind]

theorem except_pure_ok {α : Type} {a b : α} : (pure a : Except Panic α) = .ok b ↔ a = b := by
  simp [pure, Except.pure]

theorem except_bind_of_ok {α β : Type} {m : Except Panic α} {k : α → Except Panic β} {a : α} (h : m = .ok a) :
    (m >>= k) = k a := by rw [h]; rfl

theorem index_ok {α : Type} {l : List α} {i : Nat} {a : α} : index l i = .ok a ↔ l[i]? = some a := by
  unfold index
  cases l[i]? <;> simp

theorem moveDims_ok {c : Cfg X} {alfa const1 gen : X} {u s : Nat → X} {target : List X} :
    ∀ {d : Nat} {xs ys : List X}, moveDims A c alfa const1 gen u s target d xs = .ok ys →
      List.Forall₂ (fun x y => ∃ d' t, target[d']? = some t ∧
        y = clamp A c (A.add x (attractStep A c alfa const1 x t (u d') (s d') gen))) xs ys
  | d, [], ys, h => by cases h; exact .nil
  | d, x :: xs, ys, h => by
    rw [moveDims] at h
    obtain ⟨y, h1, h⟩ := except_bind_ok.1 h
    obtain ⟨rest, h2, h⟩ := except_bind_ok.1 h
    rw [except_pure_ok] at h
    subst h
    exact .cons ⟨d, y, index_ok.1 h1, rfl⟩ (moveDims_ok h2)

/-- Specification of what `consider` leaves: the untouched input or the move towards some brighter firefly. -/
theorem consider_ok {c : Cfg X} {dist : List X → List X → Except Panic X} {dr : Draws X} {g i : Nat} {alfa : X}
    {bright : List X} {pop : List (List X)} :
    ∀ {n j : Nat} {st r : List X × Bool}, consider A c dist dr g i alfa bright pop j n st = .ok r →
      r = st ∨ (r.2 = true ∧ ∃ (j' : Nat) (bi bj : X) (xi xj : List X) (dd : X), j ≤ j' ∧ j' < j + n ∧
        bright[i]? = some bi ∧ bright[j']? = some bj ∧ A.lt bi bj = true ∧ pop[i]? = some xi ∧ pop[j']? = some xj ∧
        dist xi xj = .ok dd ∧
        moveDims A c alfa (attraction A c dd) (A.ofNat g) (dr.uni g i j') (dr.dist g i j') xj 0 xi = .ok r.1)
  | 0, j, st, r, h => by cases h; exact .inl rfl
  | n + 1, j, st, r, h => by
    rw [consider] at h
    obtain ⟨st', h1, h2⟩ := except_bind_ok.1 h
    rcases consider_ok h2 with rfl | ⟨h3, j', bi, bj, xi, xj, dd, g1, g2, g3⟩
    · unfold considerOne at h1
      obtain ⟨bi, e1, h1⟩ := except_bind_ok.1 h1
      obtain ⟨bj, e2, h1⟩ := except_bind_ok.1 h1
      by_cases hlt : A.lt bi bj = true
      · rw [if_pos hlt] at h1
        obtain ⟨xi, e3, h1⟩ := except_bind_ok.1 h1
        obtain ⟨xj, e4, h1⟩ := except_bind_ok.1 h1
        obtain ⟨dd, e5, h1⟩ := except_bind_ok.1 h1
        obtain ⟨res, e6, h1⟩ := except_bind_ok.1 h1
        rw [except_pure_ok] at h1
        subst h1
        exact .inr ⟨rfl, j, bi, bj, xi, xj, dd, le_refl _, by omega, index_ok.1 e1, index_ok.1 e2, hlt,
          index_ok.1 e3, index_ok.1 e4, e5, e6⟩
      · rw [if_neg hlt] at h1
        rw [except_pure_ok] at h1
        exact .inl h1.symm
    · exact .inr ⟨h3, j', bi, bj, xi, xj, dd, by omega, by omega, g3⟩

theorem brownian_forall (c : Cfg X) (alfa : X) (b : Nat → X) (xs : List X) (d : Nat) :
    List.Forall₂ (fun _ y => ∃ v, y = clamp A c v) xs (brownian A c alfa b d xs) := by
  induction xs generalizing d with
  | nil => exact .nil
  | cons x xs ih => exact .cons ⟨_, rfl⟩ (ih (d + 1))

/-- Every coordinate of a moved firefly went through the bounds test; the dimension is kept. -/
theorem moveFirefly_ok {c : Cfg X} {dist : List X → List X → Except Panic X} {dr : Draws X} {g i : Nat} {alfa : X}
    {bright : List X} {pop : List (List X)} {y : List X}
    (h : moveFirefly A c dist dr g alfa bright pop i = .ok y) :
    ∃ x, pop[i]? = some x ∧ y.length = x.length ∧ ∀ a ∈ y, ∃ v, a = clamp A c v := by
  unfold moveFirefly at h
  obtain ⟨x, h1, h⟩ := except_bind_ok.1 h
  obtain ⟨⟨res, moved⟩, h2, h⟩ := except_bind_ok.1 h
  rw [except_pure_ok] at h
  rw [index_ok] at h1
  refine ⟨x, h1, ?_⟩
  have hall : ∀ {xs ys : List X} {R : X → X → Prop}, List.Forall₂ R xs ys → (∀ a b, R a b → ∃ v, b = clamp A c v) →
      ∀ b ∈ ys, ∃ v, b = clamp A c v := by
    intro xs ys R hR himp
    induction hR with
    | nil => simp
    | cons hab _ ih =>
      intro b hb
      rcases List.mem_cons.1 hb with rfl | hb
      · exact himp _ _ hab
      · exact ih b hb
  rcases consider_ok h2 with heq | ⟨hm, j', bi, bj, xi, xj, dd, -, -, -, -, -, hxi, -, -, hmv⟩
  · cases heq
    simp only [Bool.false_eq_true, if_false] at h
    subst h
    have hf := brownian_forall (A := A) c alfa (dr.brown g i) x 0
    exact ⟨hf.length_eq.symm, hall hf fun a b hv => hv⟩
  · simp only at hm hmv
    rw [hm, if_pos rfl] at h
    subst h
    rw [h1] at hxi; cases hxi
    have hf := moveDims_ok hmv
    exact ⟨hf.length_eq.symm, hall hf fun a b ⟨d', t, _, hv⟩ => ⟨_, hv⟩⟩

theorem moveAll_ok {c : Cfg X} {dist : List X → List X → Except Panic X} {dr : Draws X} {g : Nat} {alfa : X}
    {bright : List X} {pop : List (List X)} :
    ∀ {n i : Nat} {ys : List (List X)}, moveAll A c dist dr g alfa bright pop i n = .ok ys →
      ys.length = n ∧ ∀ k, k < n → ∃ y, ys[k]? = some y ∧
        moveFirefly A c dist dr g alfa bright pop (i + k) = .ok y
  | 0, i, ys, h => by cases h; exact ⟨rfl, fun k hk => by omega⟩
  | n + 1, i, ys, h => by
    rw [moveAll] at h
    obtain ⟨x, h1, h⟩ := except_bind_ok.1 h
    obtain ⟨xs, h2, h⟩ := except_bind_ok.1 h
    rw [except_pure_ok] at h
    subst h
    obtain ⟨h3, h4⟩ := moveAll_ok h2
    refine ⟨by simp [h3], fun k hk => ?_⟩
    cases k with
    | zero => exact ⟨x, rfl, h1⟩
    | succ k =>
      obtain ⟨y, g1, g2⟩ := h4 k (by omega)
      exact ⟨y, by simpa using g1, by rw [show i + (k + 1) = i + 1 + k by omega]; exact g2⟩

theorem generation_ok {c : Cfg X} {f : List X → X} {dist : List X → List X → Except Panic X} {dr : Draws X} {g : Nat}
    {st st' : St X} {evs : List (Ev X)} (h : generation A c f dist dr g st = .ok (st', evs)) :
    ∃ x, moveAll A c dist dr g st.alfa st.bright st.pop 0 st.pop.length = .ok st'.pop ∧
      st'.bright = brightness A f st'.pop ∧ st'.alfa = A.mul st.alfa c.delta ∧
      st'.pop[brightest A 0 (st'.bright.take c.populationSize) 0 A.zero]? = some x ∧
      st'.best = (if A.lt (f x) st.best then f x else st.best) ∧
      evs = [.onIterationStart g, .onCurrentBest st'.best x, .onIterationEnd g] := by
  unfold generation at h
  obtain ⟨pop, h1, h⟩ := except_bind_ok.1 h
  simp only at h
  obtain ⟨x, h2, h⟩ := except_bind_ok.1 h
  rw [except_pure_ok] at h
  cases h
  exact ⟨x, h1, rfl, rfl, index_ok.1 h2, rfl, rfl⟩

theorem generations_ok {c : Cfg X} {f : List X → X} {dist : List X → List X → Except Panic X} {dr : Draws X} {g n : Nat}
    {st : St X} {sts : List (St X)} {evs : List (Ev X)}
    (h : generations A c f dist dr g (n + 1) st = .ok (sts, evs)) :
    ∃ st' e sts' evs', sts = st' :: sts' ∧ evs = e ++ evs' ∧ generation A c f dist dr g st = .ok (st', e) ∧
      generations A c f dist dr (g + 1) n st' = .ok (sts', evs') := by
  rw [generations] at h
  obtain ⟨⟨st', e⟩, h1, h⟩ := except_bind_ok.1 h
  obtain ⟨⟨sts', e'⟩, h2, h⟩ := except_bind_ok.1 h
  rw [except_pure_ok] at h
  cases h
  exact ⟨st', e, sts', e', rfl, rfl, h1, h2⟩

/-- Invariant rule for the states of a run. -/
theorem generations_inv {c : Cfg X} {f : List X → X} {dist : List X → List X → Except Panic X} {dr : Draws X}
    {P : St X → Prop} {Q : St X → Prop}
    (hstep : ∀ g st st' e, P st → generation A c f dist dr g st = .ok (st', e) → P st' ∧ Q st') :
    ∀ {n g : Nat} {st : St X} {sts : List (St X)} {evs : List (Ev X)}, P st →
      generations A c f dist dr g n st = .ok (sts, evs) → ∀ s ∈ sts, P s ∧ Q s
  | 0, g, st, sts, evs, _, h => by cases h; simp
  | n + 1, g, st, sts, evs, hp, h => by
    obtain ⟨st', e, sts', evs', rfl, rfl, h1, h2⟩ := generations_ok h
    have := hstep g st st' e hp h1
    intro s hs
    rcases List.mem_cons.1 hs with rfl | hs
    · exact this
    · exact generations_inv hstep this.1 h2 s hs

/-! ## C52, C78: the box -/

/-- Specification: `x` lies in the search box, or is NaN. -/
def InBox (A : FloatOps X K) (c : Cfg X) (x : X) : Prop :=
  A.view x = .nan ∨ (Fl.Le (A.view c.lower) (A.view x) ∧ Fl.Le (A.view x) (A.view c.upper))

theorem notLe_false {a b : X} (h : A.notLe a b = false) : Fl.Le (A.view a) (A.view b) := by
  unfold FloatOps.notLe Fl.partialCmp at h
  cases ha : A.view a with
  | nan => simp [ha] at h
  | num x =>
    cases hb : A.view b with
    | nan => simp [ha, hb] at h
    | num y =>
      simp only [ha, hb] at h
      rcases lt_trichotomy x y with hxy | hxy | hxy
      · exact le_of_lt hxy
      · exact le_of_eq hxy
      · rw [compare_gt_iff_gt.2 hxy] at h; simp at h

theorem notGe_false {a b : X} (h : A.notGe a b = false) : Fl.Le (A.view b) (A.view a) := by
  unfold FloatOps.notGe Fl.partialCmp at h
  cases ha : A.view a with
  | nan => simp [ha] at h
  | num x =>
    cases hb : A.view b with
    | nan => simp [ha, hb] at h
    | num y =>
      simp only [ha, hb] at h
      rcases lt_trichotomy x y with hxy | hxy | hxy
      · rw [compare_lt_iff_lt.2 hxy] at h; simp at h
      · exact le_of_eq hxy.symm
      · exact le_of_lt hxy

theorem notLe_iff {a b : X} : A.notLe a b = true ↔ A.view a = .nan ∨ A.view b = .nan ∨
    Fl.Lt (A.view b) (A.view a) := by
  unfold FloatOps.notLe Fl.partialCmp
  cases ha : A.view a with
  | nan => simp
  | num x =>
    cases hb : A.view b with
    | nan => simp
    | num y =>
      rcases lt_trichotomy x y with hxy | hxy | hxy
      · simp [compare_lt_iff_lt.2 hxy, Fl.Lt, le_of_lt hxy]
      · simp [hxy, Fl.Lt]
      · simp [compare_gt_iff_gt.2 hxy, Fl.Lt, hxy]

theorem notGe_iff {a b : X} : A.notGe a b = true ↔ A.view a = .nan ∨ A.view b = .nan ∨
    Fl.Lt (A.view a) (A.view b) := by
  unfold FloatOps.notGe Fl.partialCmp
  cases ha : A.view a with
  | nan => simp
  | num x =>
    cases hb : A.view b with
    | nan => simp
    | num y =>
      rcases lt_trichotomy x y with hxy | hxy | hxy
      · simp [compare_lt_iff_lt.2 hxy, Fl.Lt, hxy]
      · simp [hxy, Fl.Lt]
      · simp [compare_gt_iff_gt.2 hxy, Fl.Lt, le_of_lt hxy]

theorem clamp_inBox {c : Cfg X} (hb : Fl.Le (A.view c.lower) (A.view c.upper)) (v : X) : InBox A c (clamp A c v) := by
  unfold clamp
  by_cases h : (A.notGe v c.upper && A.notLe v c.lower) = true
  · rw [if_pos h]
    obtain ⟨h1, h2⟩ := Bool.and_eq_true_iff.1 h
    rw [notGe_iff] at h1
    rw [notLe_iff] at h2
    by_cases hn : A.view v = .nan
    · exact .inl hn
    · have hl : A.view c.lower ≠ .nan := fun h => by rw [h] at hb; exact hb.isNum_left
      have hu : A.view c.upper ≠ .nan := fun h => by rw [h] at hb; exact hb.isNum_right
      exact .inr ⟨((h2.resolve_left hn).resolve_left hl).le, ((h1.resolve_left hn).resolve_left hu).le⟩
  · rw [if_neg h]
    split
    · exact .inr ⟨hb, Fl.le_refl hb.isNum_right⟩
    · exact .inr ⟨Fl.le_refl hb.isNum_left, hb⟩

/-- **C52.** In every returning run with `lower_bound ≤ upper_bound`, whatever the objective, the distance, the
arithmetic, the draws and the initial population (even one outside the box): after every generation every coordinate
of every firefly is in `[lower_bound, upper_bound]`, or NaN. -/
theorem C52_positions_in_box {c : Cfg X} {f : List X → X} {dist : List X → List X → Except Panic X} {dr : Draws X}
    {pop : List (List X)} {sts : List (St X)} {evs : List (Ev X)}
    (hb : Fl.Le (A.view c.lower) (A.view c.upper)) (h : run A c f dist dr pop = .ok (sts, evs)) :
    ∀ s ∈ sts, ∀ x ∈ s.pop, ∀ a ∈ x, InBox A c a := by
  unfold run at h
  obtain ⟨⟨sts', e⟩, h1, h⟩ := except_bind_ok.1 h
  rw [except_pure_ok] at h
  cases h
  intro s hs
  refine (generations_inv (P := fun _ => True) (Q := fun s => ∀ x ∈ s.pop, ∀ a ∈ x, InBox A c a) ?_ trivial h1 s hs).2
  intro g st st' e _ hg
  refine ⟨trivial, fun x hx a ha => ?_⟩
  obtain ⟨-, hm, -⟩ := generation_ok hg
  obtain ⟨hl, hk⟩ := moveAll_ok hm
  obtain ⟨k, hkx⟩ := List.mem_iff_getElem?.1 hx
  have hklt : k < st.pop.length := by rw [← hl]; exact (List.getElem?_eq_some_iff.1 hkx).1
  obtain ⟨y, hy, hmv⟩ := hk k hklt
  rw [hkx] at hy; cases hy
  obtain ⟨-, -, -, hcl⟩ := moveFirefly_ok hmv
  obtain ⟨v, rfl⟩ := hcl a ha
  exact clamp_inBox hb v

/-- **C52, shape.** The number of fireflies and the dimension of each one never change. -/
theorem C52_shape {c : Cfg X} {f : List X → X} {dist : List X → List X → Except Panic X} {dr : Draws X}
    {pop : List (List X)} {sts : List (St X)} {evs : List (Ev X)} (h : run A c f dist dr pop = .ok (sts, evs)) :
    ∀ s ∈ sts, s.pop.map List.length = pop.map List.length := by
  unfold run at h
  obtain ⟨⟨sts', e⟩, h1, h⟩ := except_bind_ok.1 h
  rw [except_pure_ok] at h
  cases h
  intro s hs
  refine (generations_inv (P := fun s => s.pop.map List.length = pop.map List.length) (Q := fun _ => True) ?_ rfl
    h1 s hs).1
  intro g st st' e hp hg
  refine ⟨?_, trivial⟩
  obtain ⟨-, hm, -⟩ := generation_ok hg
  obtain ⟨hl, hk⟩ := moveAll_ok hm
  rw [← hp]
  apply List.ext_getElem?
  intro k
  rw [List.getElem?_map, List.getElem?_map]
  by_cases hklt : k < st.pop.length
  · obtain ⟨y, hy, hmv⟩ := hk k hklt
    obtain ⟨x, hx, hlen, -⟩ := moveFirefly_ok hmv
    rw [Nat.zero_add] at hx
    rw [hy, hx, Option.map_some, Option.map_some, hlen]
  · rw [List.getElem?_eq_none (by omega), List.getElem?_eq_none (by omega)]

/-- **C78, what the bounds test does.** A candidate strictly inside the box is kept, one above is moved to the upper
bound, one below or on the lower bound to the lower bound, NaN is kept. -/
theorem C78_bounds_test (c : Cfg X) (v : X) (hl : (A.view c.lower).IsNum) (hu : (A.view c.upper).IsNum) :
    (A.view v = .nan → clamp A c v = v) ∧
    (Fl.Lt (A.view c.lower) (A.view v) → Fl.Lt (A.view v) (A.view c.upper) → clamp A c v = v) ∧
    (Fl.Lt (A.view c.upper) (A.view v) → clamp A c v = c.upper) ∧
    (Fl.Le (A.view v) (A.view c.lower) → Fl.Le (A.view c.lower) (A.view c.upper) → clamp A c v = c.lower) := by
  refine ⟨fun h => ?_, fun h1 h2 => ?_, fun h => ?_, fun h1 h2 => ?_⟩
  · unfold clamp
    rw [notGe_iff.2 (.inl h), notLe_iff.2 (.inl h)]; rfl
  · unfold clamp
    rw [notGe_iff.2 (.inr (.inr h2)), notLe_iff.2 (.inr (.inr h1))]; rfl
  · unfold clamp
    have hg : A.notGe v c.upper = false := by
      cases hg : A.notGe v c.upper with
      | false => rfl
      | true =>
        rcases notGe_iff.1 hg with h' | h' | h'
        · rw [h'] at h; exact absurd h.le.isNum_right (by simp [Fl.IsNum])
        · rw [h'] at hu; exact absurd hu (by simp [Fl.IsNum])
        · exact absurd (h.trans_le h'.le) (by cases A.view c.upper <;> simp [Fl.Lt])
    rw [hg, Bool.false_and, if_neg (by simp)]
    have : A.lt c.upper v = true := Fl.lt_iff.2 h
    rw [if_pos this]
  · unfold clamp
    have hg : A.notLe v c.lower = false := by
      cases hg : A.notLe v c.lower with
      | false => rfl
      | true =>
        rcases notLe_iff.1 hg with h' | h' | h'
        · rw [h'] at h1; exact absurd h1.isNum_left (by simp [Fl.IsNum])
        · rw [h'] at hl; exact absurd hl (by simp [Fl.IsNum])
        · exact absurd (h'.trans_le h1) (by cases A.view c.lower <;> simp [Fl.Lt])
    rw [hg, Bool.and_false, if_neg (by simp)]
    have : ¬ A.lt c.upper v = true := by
      intro h
      have h := Fl.lt_iff.1 h
      exact absurd ((h.trans_le h1).trans_le h2) (by cases A.view c.upper <;> simp [Fl.Lt])
    rw [if_neg this]

/-- **C78 is false on the upper bound.** A candidate exactly on the upper bound is sent to the *lower* bound. -/
theorem C78_upper_bound_teleports (c : Cfg X) (v : X) (hv : A.view v = A.view c.upper)
    (hl : Fl.Lt (A.view c.lower) (A.view c.upper)) : clamp A c v = c.lower := by
  unfold clamp
  have hg : A.notGe v c.upper = false := by
    cases hg : A.notGe v c.upper with
    | false => rfl
    | true =>
      rcases notGe_iff.1 hg with h' | h' | h'
      · rw [hv] at h'; rw [h'] at hl; exact absurd hl.le.isNum_right (by simp [Fl.IsNum])
      · rw [h'] at hl; exact absurd hl.le.isNum_right (by simp [Fl.IsNum])
      · rw [hv] at h'; exact absurd h' (by cases A.view c.upper <;> simp [Fl.Lt])
  rw [hg, Bool.false_and, if_neg (by simp)]
  have : ¬ A.lt c.upper v = true := by
    intro h
    have h := Fl.lt_iff.1 h
    rw [hv] at h
    exact absurd h (by cases A.view c.upper <;> simp [Fl.Lt])
  rw [if_neg this]

/-! ## C80: callbacks and absence of panics -/

/-- **C80, callbacks.** A returning run calls `on_start`, then for each generation `g = 0, …, max_generations - 1` in
order `on_iteration_start(g)`, `on_current_best` and `on_iteration_end(g)`, then `on_end`; the randomness coefficient
after generation `g` is `alfa0 * delta^(g+1)` (multiplied up in that order). -/
theorem C80_callbacks {c : Cfg X} {f : List X → X} {dist : List X → List X → Except Panic X} {dr : Draws X}
    {pop : List (List X)} {sts : List (St X)} {evs : List (Ev X)} (h : run A c f dist dr pop = .ok (sts, evs)) :
    ∃ positions : List (List X), sts.length = c.maxGenerations ∧ positions.length = c.maxGenerations ∧
      evs = [.onStart] ++ ((List.range c.maxGenerations).zip (sts.zip positions)).flatMap
        (fun e => [.onIterationStart e.1, .onCurrentBest e.2.1.best e.2.2, .onIterationEnd e.1]) ++ [.onEnd] ∧
      (∀ (k : Nat) (s : St X) (x : List X), sts[k]? = some s → positions[k]? = some x → x ∈ s.pop) ∧
      sts.map St.alfa = (List.range c.maxGenerations).map fun k =>
        (List.replicate (k + 1) c.delta).foldl A.mul c.alfa0 := by
  unfold run at h
  obtain ⟨⟨sts', e⟩, h1, h⟩ := except_bind_ok.1 h
  rw [except_pure_ok] at h
  cases h
  have key : ∀ (n g : Nat) (st : St X) (sts : List (St X)) (evs : List (Ev X)),
      generations A c f dist dr g n st = .ok (sts, evs) → ∃ positions : List (List X), sts.length = n ∧
        positions.length = n ∧ evs = ((List.range' g n).zip (sts.zip positions)).flatMap
          (fun e => [.onIterationStart e.1, .onCurrentBest e.2.1.best e.2.2, .onIterationEnd e.1]) ∧
        (∀ (k : Nat) (s : St X) (x : List X), sts[k]? = some s → positions[k]? = some x → x ∈ s.pop) ∧
        sts.map St.alfa = (List.range n).map fun k => (List.replicate (k + 1) c.delta).foldl A.mul st.alfa := by
    intro n
    induction n with
    | zero => intro g st sts evs h; cases h; exact ⟨[], rfl, rfl, rfl, by simp, rfl⟩
    | succ n ih =>
      intro g st sts evs h
      obtain ⟨st', e, sts', evs', rfl, rfl, g1, g2⟩ := generations_ok h
      obtain ⟨x, -, -, ha, hx, -, he⟩ := generation_ok g1
      obtain ⟨ps, p1, p2, p3, p4, p5⟩ := ih _ _ _ _ g2
      refine ⟨x :: ps, by simp [p1], by simp [p2], ?_, ?_, ?_⟩
      · rw [List.range'_succ, he, p3]; simp
      · intro k s y hs hy
        cases k with
        | zero =>
          simp at hs hy; subst hs; subst hy
          exact List.mem_of_getElem? hx
        | succ k => exact p4 k s y (by simpa using hs) (by simpa using hy)
      · rw [List.map_cons, p5, List.range_succ_eq_map, List.map_cons, List.map_map, ha]
        rfl
  obtain ⟨ps, p1, p2, p3, p4, p5⟩ := key _ _ _ _ _ h1
  refine ⟨ps, p1, p2, ?_, p4, p5⟩
  rw [List.range_eq_range', p3]
  simp

theorem moveDims_returns {c : Cfg X} {alfa const1 gen : X} {u s : Nat → X} {target : List X} :
    ∀ {d : Nat} {xs : List X}, d + xs.length ≤ target.length →
      ∃ ys, moveDims A c alfa const1 gen u s target d xs = .ok ys
  | d, [], _ => ⟨[], rfl⟩
  | d, x :: xs, h => by
    obtain ⟨ys, hy⟩ := moveDims_returns (c := c) (alfa := alfa) (const1 := const1) (gen := gen) (u := u)
      (s := s) (target := target) (d := d + 1) (xs := xs) (by simp at h; omega)
    have hi : index target d = .ok (target[d]'(by simp at h; omega)) := index_ok.2 (List.getElem?_eq_getElem _)
    rw [moveDims, except_bind_of_ok hi, except_bind_of_ok hy]
    exact ⟨_, rfl⟩

/-- Specification: the populations on which a run cannot panic: not empty, at least `population_size` fireflies, all of
the same dimension. -/
def GoodPop (c : Cfg X) (dim : Nat) (pop : List (List X)) : Prop :=
  pop ≠ [] ∧ c.populationSize ≤ pop.length ∧ ∀ x ∈ pop, x.length = dim

theorem consider_returns {c : Cfg X} {dist : List X → List X → Except Panic X} {dr : Draws X} {g i dim : Nat} {alfa : X}
    {bright : List X} {pop : List (List X)} (hd : ∀ x y : List X, x.length = dim → y.length = dim → ∃ z, dist x y = .ok z)
    (hb : bright.length = pop.length) (hi : i < pop.length) (hp : ∀ x ∈ pop, x.length = dim) :
    ∀ {n j : Nat} (st : List X × Bool), j + n ≤ pop.length →
      ∃ r, consider A c dist dr g i alfa bright pop j n st = .ok r
  | 0, j, st, _ => ⟨st, rfl⟩
  | n + 1, j, st, h => by
    have e1 : index bright i = .ok bright[i] := index_ok.2 (List.getElem?_eq_getElem _)
    have e2 : index bright j = .ok (bright[j]'(by omega)) := index_ok.2 (List.getElem?_eq_getElem _)
    have e3 : index pop i = .ok pop[i] := index_ok.2 (List.getElem?_eq_getElem _)
    have e4 : index pop j = .ok (pop[j]'(by omega)) := index_ok.2 (List.getElem?_eq_getElem _)
    have l1 := hp _ (List.getElem_mem (by omega : i < pop.length))
    have l2 := hp _ (List.getElem_mem (by omega : j < pop.length))
    have h1 : ∃ st', considerOne A c dist dr g i alfa bright pop j st = .ok st' := by
      unfold considerOne
      rw [except_bind_of_ok e1, except_bind_of_ok e2]
      split
      · obtain ⟨dd, hdd⟩ := hd _ _ l1 l2
        obtain ⟨ys, hys⟩ := moveDims_returns (A := A) (c := c) (alfa := alfa) (const1 := attraction A c dd)
          (gen := A.ofNat g) (u := dr.uni g i j) (s := dr.dist g i j) (target := pop[j]'(by omega)) (d := 0)
          (xs := pop[i]) (by omega)
        rw [except_bind_of_ok e3, except_bind_of_ok e4, except_bind_of_ok hdd, except_bind_of_ok hys]
        exact ⟨_, rfl⟩
      · exact ⟨_, rfl⟩
    obtain ⟨st', hst⟩ := h1
    rw [consider, except_bind_of_ok hst]
    exact consider_returns hd hb hi hp st' (by omega)

theorem moveFirefly_returns {c : Cfg X} {dist : List X → List X → Except Panic X} {dr : Draws X} {g i dim : Nat}
    {alfa : X} {bright : List X} {pop : List (List X)}
    (hd : ∀ x y : List X, x.length = dim → y.length = dim → ∃ z, dist x y = .ok z)
    (hb : bright.length = pop.length) (hi : i < pop.length) (hg : GoodPop c dim pop) :
    ∃ y, moveFirefly A c dist dr g alfa bright pop i = .ok y := by
  unfold moveFirefly
  have e3 : index pop i = .ok pop[i] := index_ok.2 (List.getElem?_eq_getElem _)
  obtain ⟨r, hr⟩ := consider_returns (A := A) (c := c) (dr := dr) (g := g) (alfa := alfa) hd hb hi hg.2.2
    (n := c.populationSize) (j := 0) (pop[i], false) (by have := hg.2.1; omega)
  rw [except_bind_of_ok e3, except_bind_of_ok hr]
  exact ⟨_, rfl⟩

theorem moveAll_returns {c : Cfg X} {dist : List X → List X → Except Panic X} {dr : Draws X} {g dim : Nat}
    {alfa : X} {bright : List X} {pop : List (List X)}
    (hd : ∀ x y : List X, x.length = dim → y.length = dim → ∃ z, dist x y = .ok z)
    (hb : bright.length = pop.length) (hg : GoodPop c dim pop) :
    ∀ {n i : Nat}, i + n ≤ pop.length → ∃ ys, moveAll A c dist dr g alfa bright pop i n = .ok ys
  | 0, i, _ => ⟨[], rfl⟩
  | n + 1, i, h => by
    obtain ⟨y, hy⟩ := moveFirefly_returns (A := A) (dr := dr) (g := g) (alfa := alfa) hd hb
      (show i < pop.length by omega) hg
    obtain ⟨ys, hys⟩ := moveAll_returns (dr := dr) (g := g) (alfa := alfa) hd hb hg
      (n := n) (i := i + 1) (by omega)
    rw [moveAll, except_bind_of_ok hy, except_bind_of_ok hys]
    exact ⟨_, rfl⟩

theorem brightest_le (A : FloatOps X K) : ∀ (bs : List X) (i maxpos : Nat) (maxb : X) (n : Nat), maxpos < n → i + bs.length ≤ n →
    brightest A i bs maxpos maxb < n
  | [], i, maxpos, maxb, n, h, _ => h
  | b :: bs, i, maxpos, maxb, n, h, hl => by
    simp only [List.length_cons] at hl
    rw [brightest]
    split
    · omega
    · split
      · exact brightest_le A bs (i + 1) i b n (by omega) (by omega)
      · exact brightest_le A bs (i + 1) maxpos maxb n h (by omega)

/-- **C80, no panic.** A run returns (never panics) for every non-empty population of at least `population_size`
fireflies of equal dimension, whatever the objective, arithmetic and draws. -/
theorem C80_run_returns {c : Cfg X} {f : List X → X} {dist : List X → List X → Except Panic X} {dr : Draws X}
    {dim : Nat} {pop : List (List X)}
    (hd : ∀ x y : List X, x.length = dim → y.length = dim → ∃ z, dist x y = .ok z) (hg : GoodPop c dim pop) :
    ∃ r, run A c f dist dr pop = .ok r := by
  have key : ∀ (n g : Nat) (st : St X), GoodPop c dim st.pop → st.bright.length = st.pop.length →
      ∃ r, generations A c f dist dr g n st = .ok r := by
    intro n
    induction n with
    | zero => intro g st _ _; exact ⟨_, rfl⟩
    | succ n ih =>
      intro g st hgp hbl
      obtain ⟨ys, hys⟩ := moveAll_returns (A := A) (dr := dr) (g := g) (alfa := st.alfa) hd hbl hgp
        (n := st.pop.length) (i := 0) (by omega)
      obtain ⟨l1, l2⟩ := moveAll_ok hys
      have hne : ys ≠ [] := by
        intro h; subst h; simp at l1; exact hgp.1 (List.length_eq_zero_iff.1 l1.symm)
      have hpos : 0 < ys.length := List.length_pos_iff.2 hne
      have hgood : GoodPop c dim ys := by
        refine ⟨hne, by rw [l1]; exact hgp.2.1, fun x hx => ?_⟩
        obtain ⟨k, hk⟩ := List.mem_iff_getElem?.1 hx
        have hlt : k < st.pop.length := by rw [← l1]; exact (List.getElem?_eq_some_iff.1 hk).1
        obtain ⟨y, hy, hmv⟩ := l2 k hlt
        rw [hk] at hy; cases hy
        obtain ⟨x0, hx0, hlen, -⟩ := moveFirefly_ok hmv
        rw [hlen]; exact hgp.2.2 x0 (List.mem_of_getElem? hx0)
      have hmax : brightest A 0 ((brightness A f ys).take c.populationSize) 0 A.zero < ys.length := by
        refine brightest_le A _ _ _ _ _ hpos ?_
        simp [brightness]
      have hx : index ys (brightest A 0 ((brightness A f ys).take c.populationSize) 0 A.zero) =
          .ok ys[brightest A 0 ((brightness A f ys).take c.populationSize) 0 A.zero] :=
        index_ok.2 (List.getElem?_eq_getElem hmax)
      have hgen : ∃ st' e, generation A c f dist dr g st = .ok (st', e) ∧ st'.pop = ys ∧
          st'.bright = brightness A f ys := by
        unfold generation
        rw [except_bind_of_ok hys]
        simp only
        rw [except_bind_of_ok hx]
        exact ⟨_, _, rfl, rfl, rfl⟩
      obtain ⟨st', e, he, hp, hbr⟩ := hgen
      obtain ⟨r, hr⟩ := ih (g + 1) st' (by rw [hp]; exact hgood) (by rw [hp, hbr]; simp [brightness])
      rw [generations, except_bind_of_ok he]
      simp only
      rw [except_bind_of_ok hr]
      exact ⟨_, rfl⟩
  obtain ⟨r, hr⟩ := key c.maxGenerations 0 (initial A c f pop) hg (by simp [initial, brightness])
  unfold run
  rw [except_bind_of_ok hr]
  exact ⟨_, rfl⟩

/-! ## C54: the builder -/

/-- **C54 is false of the code.** Whatever setters are called (except `set_population`), the algorithm runs on the
population made by `FireflyAlgorithmBuilder::new` from the *default* configuration: the number of fireflies and their
dimension ignore `set_population_size`, `set_dimensions`, `set_lower_bound`, `set_upper_bound` and `set_config`. -/
theorem C54_population_ignores_setters {c0 : Cfg X} {f0 : List X → X} {draw : Nat → Nat → X} {b : Builder X}
    (hb : Builder.new A c0 f0 draw = .ok b) (l : List (Setter X)) (hl : ∀ s ∈ l, s.setsPopulation = false) :
    (l.foldl Setter.apply b).pop = b.pop ∧ b.pop.length = c0.populationSize ∧
      ∀ x ∈ b.pop, x.length = c0.dimensions := by
  constructor
  · clear hb
    induction l generalizing b with
    | nil => rfl
    | cons s l ih =>
      rw [List.foldl_cons, ih fun s hs => hl s (by simp [hs])]
      have := hl s (by simp)
      cases s <;> first | rfl | simp [Setter.setsPopulation] at this
  · unfold Builder.new at hb
    obtain ⟨pop, h1, h2⟩ := except_bind_ok.1 hb
    rw [except_pure_ok] at h2
    subst h2
    unfold fromConfig at h1
    split at h1
    · cases h1; simp
    · cases h1

/-- **C54, larger population.** Asking the builder for more fireflies than the default makes the first generation
panic (index out of bounds), for every objective, distance and draws. -/
theorem C54_larger_population_panics {c0 : Cfg X} {f0 : List X → X} {draw : Nat → Nat → X} {b : Builder X}
    (hb : Builder.new A c0 f0 draw = .ok b) (hne : 0 < c0.populationSize) (l : List (Setter X))
    (hl : ∀ s ∈ l, s.setsPopulation = false)
    (hbig : c0.populationSize < (l.foldl Setter.apply b).cfg.populationSize)
    (hgen : 0 < (l.foldl Setter.apply b).cfg.maxGenerations)
    (dist : List X → List X → Except Panic X) (dr : Draws X) :
    ∃ e, (l.foldl Setter.apply b).buildRun A dist dr = .error e := by
  obtain ⟨h1, h2, -⟩ := C54_population_ignores_setters hb l hl
  generalize l.foldl Setter.apply b = b' at h1 hbig hgen
  unfold Builder.buildRun
  cases hr : run A b'.cfg b'.f dist dr b'.pop with
  | error e => exact ⟨e, rfl⟩
  | ok r =>
    exfalso
    obtain ⟨sts, evs⟩ := r
    unfold run at hr
    obtain ⟨⟨sts', e⟩, g1, -⟩ := except_bind_ok.1 hr
    obtain ⟨n, hn⟩ : ∃ n, b'.cfg.maxGenerations = n + 1 := ⟨b'.cfg.maxGenerations - 1, by omega⟩
    rw [hn] at g1
    obtain ⟨st', e1, sts'', evs', -, -, g2, -⟩ := generations_ok g1
    obtain ⟨x, hm, -⟩ := generation_ok g2
    obtain ⟨-, hk⟩ := moveAll_ok hm
    have hlen : b'.pop.length = c0.populationSize := by rw [h1, h2]
    obtain ⟨y, -, hmv⟩ := hk 0 (by show 0 < b'.pop.length; omega)
    -- `consider` asks for a brightness out of range
    unfold moveFirefly at hmv
    obtain ⟨x0, -, hmv⟩ := except_bind_ok.1 hmv
    obtain ⟨r, hc, -⟩ := except_bind_ok.1 hmv
    have key : ∀ (n j : Nat) (st r : List X × Bool),
        consider A b'.cfg dist dr 0 (0 + 0) (initial A b'.cfg b'.f b'.pop).alfa
          (initial A b'.cfg b'.f b'.pop).bright (initial A b'.cfg b'.f b'.pop).pop j n st = .ok r →
        j + n ≤ (initial A b'.cfg b'.f b'.pop).bright.length ∨ n = 0 := by
      intro n
      induction n with
      | zero => intro j st r _; exact .inr rfl
      | succ n ih =>
        intro j st r h
        left
        rw [consider] at h
        obtain ⟨st', h3, h4⟩ := except_bind_ok.1 h
        unfold considerOne at h3
        obtain ⟨bi, -, h3⟩ := except_bind_ok.1 h3
        obtain ⟨bj, e2, -⟩ := except_bind_ok.1 h3
        have := (List.getElem?_eq_some_iff.1 (index_ok.1 e2)).1
        rcases ih _ _ _ h4 with h5 | h5
        · omega
        · omega
    have hbl : (initial A b'.cfg b'.f b'.pop).bright.length = b'.pop.length := by simp [initial, brightness]
    rcases key _ _ _ _ hc with h5 | h5 <;> omega

/-! ## C81: reported value -/

/-- **C81.** The value reported by `on_current_best` never gets worse during a run: each report equals the previous one
or is strictly smaller (first compared with `f64::MAX`). -/
theorem C81_reported_value_monotone {c : Cfg X} {f : List X → X} {dist : List X → List X → Except Panic X} {dr : Draws X}
    {pop : List (List X)} {sts : List (St X)} {evs : List (Ev X)} (h : run A c f dist dr pop = .ok (sts, evs)) :
    (A.maxv :: sts.map St.best).Pairwise fun a b => b = a ∨ Fl.Lt (A.view b) (A.view a) := by
  unfold run at h
  obtain ⟨⟨sts', e⟩, h1, h⟩ := except_bind_ok.1 h
  rw [except_pure_ok] at h
  cases h
  have key : ∀ (n g : Nat) (st : St X) (sts : List (St X)) (evs : List (Ev X)),
      generations A c f dist dr g n st = .ok (sts, evs) →
      (st.best :: sts.map St.best).Pairwise fun a b => b = a ∨ Fl.Lt (A.view b) (A.view a) := by
    intro n
    induction n with
    | zero => intro g st sts evs h; cases h; simp
    | succ n ih =>
      intro g st sts evs h
      obtain ⟨st', e, sts', evs', rfl, rfl, g1, g2⟩ := generations_ok h
      obtain ⟨x, -, -, -, -, hb, -⟩ := generation_ok g1
      have hp := ih _ _ _ _ g2
      have hrel : st'.best = st.best ∨ Fl.Lt (A.view st'.best) (A.view st.best) := by
        rw [hb]
        split
        · rename_i hlt; exact .inr (Fl.lt_iff.1 hlt)
        · exact .inl rfl
      rw [List.map_cons]
      refine List.pairwise_cons.2 ⟨fun b hbm => ?_, hp⟩
      rcases List.mem_cons.1 hbm with rfl | hbm
      · exact hrel
      · have h2 := (List.pairwise_cons.1 hp).1 b hbm
        rcases h2 with h2 | h2
        · rw [h2]; exact hrel
        · right
          rcases hrel with h3 | h3
          · rw [h3] at h2; exact h2
          · exact h2.trans_le h3.le
  exact key _ _ _ _ _ h1

/-! ## C86: which fireflies attract -/

/-- Specification: firefly `j` is the last of the first `n` fireflies that is brighter than firefly `i`. -/
def LastBrighter (A : FloatOps X K) (bright : List X) (i n j : Nat) : Prop :=
  j < n ∧ (∃ bi bj, bright[i]? = some bi ∧ bright[j]? = some bj ∧ A.lt bi bj = true) ∧
  ∀ k, j < k → k < n → ∀ bi bk, bright[i]? = some bi → bright[k]? = some bk → A.lt bi bk = false

theorem considerOne_brighter {c : Cfg X} {dist : List X → List X → Except Panic X} {dr : Draws X} {g i j : Nat} {alfa : X}
    {bright : List X} {pop : List (List X)} {st r : List X × Bool} {bi bj : X} (hi : bright[i]? = some bi)
    (hj : bright[j]? = some bj) (hlt : A.lt bi bj = true)
    (h : considerOne A c dist dr g i alfa bright pop j st = .ok r) :
    ∃ xi xj dd, pop[i]? = some xi ∧ pop[j]? = some xj ∧ dist xi xj = .ok dd ∧ r.2 = true ∧
      moveDims A c alfa (attraction A c dd) (A.ofNat g) (dr.uni g i j) (dr.dist g i j) xj 0 xi = .ok r.1 := by
  unfold considerOne at h
  rw [except_bind_of_ok (index_ok.2 hi), except_bind_of_ok (index_ok.2 hj), if_pos hlt] at h
  obtain ⟨xi, e3, h⟩ := except_bind_ok.1 h
  obtain ⟨xj, e4, h⟩ := except_bind_ok.1 h
  obtain ⟨dd, e5, h⟩ := except_bind_ok.1 h
  obtain ⟨res, e6, h⟩ := except_bind_ok.1 h
  rw [except_pure_ok] at h
  subst h
  exact ⟨xi, xj, dd, index_ok.1 e3, index_ok.1 e4, e5, rfl, e6⟩

theorem considerOne_not {c : Cfg X} {dist : List X → List X → Except Panic X} {dr : Draws X} {g i j : Nat} {alfa : X}
    {bright : List X} {pop : List (List X)} {st r : List X × Bool}
    (hlt : ∀ bi bj, bright[i]? = some bi → bright[j]? = some bj → A.lt bi bj = false)
    (h : considerOne A c dist dr g i alfa bright pop j st = .ok r) : r = st := by
  unfold considerOne at h
  obtain ⟨bi, e1, h⟩ := except_bind_ok.1 h
  obtain ⟨bj, e2, h⟩ := except_bind_ok.1 h
  rw [hlt bi bj (index_ok.1 e1) (index_ok.1 e2), if_neg (by simp), except_pure_ok] at h
  exact h.symm

theorem consider_none {c : Cfg X} {dist : List X → List X → Except Panic X} {dr : Draws X} {g i : Nat} {alfa : X}
    {bright : List X} {pop : List (List X)} (n : Nat) : ∀ (j : Nat) (st r : List X × Bool),
      (∀ k, j ≤ k → k < j + n → ∀ bi bk, bright[i]? = some bi → bright[k]? = some bk → A.lt bi bk = false) →
      consider A c dist dr g i alfa bright pop j n st = .ok r → r = st := by
  induction n with
  | zero => intro j st r _ h; cases h; rfl
  | succ n ih =>
    intro j st r hno h
    rw [consider] at h
    obtain ⟨st', h1, h2⟩ := except_bind_ok.1 h
    rw [ih (j + 1) st' r (fun k h1 h2 => hno k (by omega) (by omega)) h2]
    exact considerOne_not (hno j (le_refl _) (by omega)) h1

theorem consider_last {c : Cfg X} {dist : List X → List X → Except Panic X} {dr : Draws X} {g i : Nat} {alfa : X}
    {bright : List X} {pop : List (List X)} (n : Nat) : ∀ (j j' : Nat) (st r : List X × Bool), j ≤ j' →
      LastBrighter A bright i (j + n) j' →
      consider A c dist dr g i alfa bright pop j n st = .ok r →
      ∃ xi xj dd, pop[i]? = some xi ∧ pop[j']? = some xj ∧ dist xi xj = .ok dd ∧ r.2 = true ∧
        moveDims A c alfa (attraction A c dd) (A.ofNat g) (dr.uni g i j') (dr.dist g i j') xj 0 xi = .ok r.1 := by
  induction n with
  | zero => intro j j' st r hjj hl h; exact absurd hl.1 (by omega)
  | succ n ih =>
    intro j j' st r hjj hl h
    rw [consider] at h
    obtain ⟨st', h1, h2⟩ := except_bind_ok.1 h
    by_cases he : j = j'
    · subst he
      have := consider_none n (j + 1) st' r (fun k h1 h2 => hl.2.2 k (by omega) (by omega)) h2
      subst this
      obtain ⟨bi, bj, hi, hj, hlt⟩ := hl.2.1
      exact considerOne_brighter hi hj hlt h1
    · exact ih (j + 1) j' st' r (by omega) (by rw [show j + 1 + n = j + (n + 1) by omega]; exact hl) h2

/-- **C86.** In every generation of every returning run a firefly with brighter neighbours makes exactly one attraction
step, towards the brighter firefly with the *largest index*: in each dimension `d` the new coordinate is the bounds
test applied to `x_d + β₀ e^{-γ r²} (y_d - x_d) + α₀ α (u + s/g - ½) (upper - lower)`.  The other brighter fireflies
have no effect (the result of each attraction step overwrites the previous one). -/
theorem C86_last_brighter_wins {c : Cfg X} {f : List X → X} {dist : List X → List X → Except Panic X} {dr : Draws X}
    {g : Nat} {st st' : St X} {evs : List (Ev X)} (h : generation A c f dist dr g st = .ok (st', evs))
    {i j : Nat} (hi : i < st.pop.length) (hl : LastBrighter A st.bright i c.populationSize j) :
    ∃ xi xj y dd, st.pop[i]? = some xi ∧ st.pop[j]? = some xj ∧ st'.pop[i]? = some y ∧ dist xi xj = .ok dd ∧
      y.length = xi.length ∧ ∀ (d : Nat) (a : X), xi[d]? = some a → ∃ b, xj[d]? = some b ∧
        y[d]? = some (clamp A c (A.add a (A.add
          (A.mul (A.mul c.beta0 (A.expo (A.mul (A.mul A.minusOne c.gamma) (A.sq dd)))) (A.sub b a))
          (A.mul (A.mul (A.mul c.alfa0 st.alfa) (A.sub (A.add (dr.uni g i j d) (A.div (dr.dist g i j d) (A.ofNat g)))
            A.half)) (A.sub c.upper c.lower))))) := by
  obtain ⟨-, hm, -⟩ := generation_ok h
  obtain ⟨-, hk⟩ := moveAll_ok hm
  obtain ⟨y, hy, hmv⟩ := hk i hi
  rw [Nat.zero_add] at hmv
  unfold moveFirefly at hmv
  obtain ⟨x, h1, hmv⟩ := except_bind_ok.1 hmv
  obtain ⟨⟨res, moved⟩, h2, hmv⟩ := except_bind_ok.1 hmv
  rw [except_pure_ok] at hmv
  obtain ⟨xi, xj, dd, g1, g2, g3, g4, g5⟩ := consider_last _ 0 j _ _ (Nat.zero_le _) (by rw [Nat.zero_add]; exact hl) h2
  simp only at g4 g5
  rw [g4, if_pos rfl] at hmv
  subst hmv
  refine ⟨xi, xj, res, dd, g1, g2, hy, g3, (moveDims_ok g5).length_eq.symm, ?_⟩
  have key : ∀ (xs ys : List X) (d : Nat),
      moveDims A c st.alfa (attraction A c dd) (A.ofNat g) (dr.uni g i j) (dr.dist g i j) xj d xs = .ok ys →
      ∀ (k : Nat) (a : X), xs[k]? = some a → ∃ b, xj[d + k]? = some b ∧
        ys[k]? = some (clamp A c (A.add a (attractStep A c st.alfa (attraction A c dd) a b (dr.uni g i j (d + k))
          (dr.dist g i j (d + k)) (A.ofNat g)))) := by
    intro xs
    induction xs with
    | nil => intro ys d _ k a ha; simp at ha
    | cons x xs ih =>
      intro ys d hd k a ha
      rw [moveDims] at hd
      obtain ⟨b, e1, hd⟩ := except_bind_ok.1 hd
      obtain ⟨rest, e2, hd⟩ := except_bind_ok.1 hd
      rw [except_pure_ok] at hd
      subst hd
      cases k with
      | zero =>
        simp at ha
        subst ha
        exact ⟨b, index_ok.1 e1, rfl⟩
      | succ k =>
        have := ih rest (d + 1) e2 k a (by simpa using ha)
        rw [show d + 1 + k = d + (k + 1) by omega] at this
        simpa using this
  intro d a ha
  obtain ⟨b, hb1, hb2⟩ := key xi res 0 g5 d a ha
  rw [Nat.zero_add] at hb1 hb2
  exact ⟨b, hb1, hb2⟩

/-- **C86, no brighter firefly.** A firefly without a brighter one among the first `population_size` makes a random
step (through the bounds test) in every coordinate, whatever the others do. -/
theorem C86_brightest_walks {c : Cfg X} {f : List X → X} {dist : List X → List X → Except Panic X} {dr : Draws X}
    {g : Nat} {st st' : St X} {evs : List (Ev X)} (h : generation A c f dist dr g st = .ok (st', evs))
    {i : Nat} {x : List X} (hx : st.pop[i]? = some x)
    (hno : ∀ k, k < c.populationSize → ∀ bi bk, st.bright[i]? = some bi → st.bright[k]? = some bk → A.lt bi bk = false) :
    ∃ y, st'.pop[i]? = some y ∧ y.length = x.length ∧ ∀ (d : Nat) (a : X), x[d]? = some a →
      y[d]? = some (clamp A c (A.add a (A.mul (A.mul (dr.brown g i d) (A.sq st.alfa))
        (A.expo (A.mul (A.mul A.minusOne c.beta0) c.gamma))))) := by
  obtain ⟨-, hm, -⟩ := generation_ok h
  obtain ⟨-, hk⟩ := moveAll_ok hm
  obtain ⟨y, hy, hmv⟩ := hk i (List.getElem?_eq_some_iff.1 hx).1
  rw [Nat.zero_add] at hmv
  unfold moveFirefly at hmv
  rw [except_bind_of_ok (index_ok.2 hx)] at hmv
  obtain ⟨r, h2, hmv⟩ := except_bind_ok.1 hmv
  have := consider_none _ 0 _ r (fun k _ hk => hno k (by omega)) h2
  subst this
  simp only [Bool.false_eq_true, if_false] at hmv
  rw [except_pure_ok] at hmv
  subst hmv
  refine ⟨_, hy, (brownian_forall (A := A) c st.alfa (dr.brown g i) x 0).length_eq.symm, ?_⟩
  have key : ∀ (xs : List X) (d k : Nat) (a : X), xs[k]? = some a →
      (brownian A c st.alfa (dr.brown g i) d xs)[k]? = some (clamp A c (A.add a (A.mul (A.mul (dr.brown g i (d + k))
        (A.sq st.alfa)) (A.expo (A.mul (A.mul A.minusOne c.beta0) c.gamma))))) := by
    intro xs
    induction xs with
    | nil => intro d k a ha; simp at ha
    | cons x xs ih =>
      intro d k a ha
      cases k with
      | zero => simp at ha; subst ha; rfl
      | succ k =>
        rw [brownian, List.getElem?_cons_succ, ih (d + 1) k a (by simpa using ha), show d + 1 + k = d + (k + 1) by omega]
  intro d a ha
  have := key x 0 d a ha
  rwa [Nat.zero_add] at this

/-! ## C87: elapsed time policy -/

/-- **C87.** `ElapsedTime::new(interval, first)` constructed at time `t0`, iterations starting at the (non-decreasing)
times `ts`: if iteration `k` is logged, then at least `first + interval` seconds have passed since the construction. -/
theorem C87_elapsed_time (interval first t0 : Nat) (ts : List Nat) (k : Nat) (t : Nat) (ht : ts[k]? = some t)
    (hlog : (elapsedLogged interval (elapsedNew first t0) ts)[k]? = some true) (hi : 0 < interval) :
    t0 + (first + interval) * 1000000000 ≤ t := by
  have key : ∀ (ts : List Nat) (s : PolicyState) (k t : Nat), ts[k]? = some t → s.shouldLog = false →
      (elapsedLogged interval s ts)[k]? = some true → t0 + first * 1000000000 ≤ s.threshold →
      t0 + (first + interval) * 1000000000 ≤ t := by
    intro ts
    induction ts with
    | nil => intro s k t h; simp at h
    | cons now ts ih =>
      intro s k t h hs hl hthr
      rw [elapsedLogged] at hl
      cases k with
      | zero =>
        simp only [List.getElem?_cons_zero, Option.some.injEq] at h hl
        subst h
        unfold elapsedStart at hl
        split at hl
        · rename_i hge
          rw [Nat.le_div_iff_mul_le (by omega)] at hge
          have : 0 < interval * 1000000000 := by omega
          have h5 := Nat.add_mul first interval 1000000000
          generalize 1000000000 = N at *
          omega
        · rw [hs] at hl; simp at hl
      | succ k =>
        simp only [List.getElem?_cons_succ] at h hl
        refine ih _ k t h rfl hl ?_
        unfold elapsedStart
        split
        · rename_i hge
          rw [Nat.le_div_iff_mul_le (by omega)] at hge
          have : 0 < interval * 1000000000 := by omega
          show _ ≤ now
          omega
        · exact hthr
  exact key ts _ k t ht rfl hlog (le_refl _)

/-- **C87, spacing.** Between two logged iterations at least `interval` seconds pass. -/
theorem C87_spacing (interval first t0 : Nat) (ts : List Nat) (hmono : ts.Pairwise (· ≤ ·)) (j k : Nat) (tj tk : Nat)
    (hjk : j < k) (hj : ts[j]? = some tj) (hk : ts[k]? = some tk)
    (lj : (elapsedLogged interval (elapsedNew first t0) ts)[j]? = some true)
    (lk : (elapsedLogged interval (elapsedNew first t0) ts)[k]? = some true) :
    tj + interval * 1000000000 ≤ tk := by
  have key : ∀ (ts : List Nat) (s : PolicyState) (k t T : Nat), ts.Pairwise (· ≤ ·) → (∀ t ∈ ts, T ≤ t) →
      ts[k]? = some t → s.shouldLog = false → T ≤ s.threshold →
      (elapsedLogged interval s ts)[k]? = some true → T + interval * 1000000000 ≤ t := by
    intro ts
    induction ts with
    | nil => intro s k t T _ _ h; simp at h
    | cons now ts ih =>
      intro s k t T hp hT h hs hthr hl
      rw [elapsedLogged] at hl
      obtain ⟨hp1, hp2⟩ := List.pairwise_cons.1 hp
      cases k with
      | zero =>
        simp only [List.getElem?_cons_zero, Option.some.injEq] at h hl
        subst h
        have := hT now (by simp)
        unfold elapsedStart at hl
        split at hl
        · rename_i hge
          rw [Nat.le_div_iff_mul_le (by omega)] at hge
          omega
        · rw [hs] at hl; simp at hl
      | succ k =>
        simp only [List.getElem?_cons_succ] at h hl
        refine ih _ k t T hp2 (fun t ht => hT t (by simp [ht])) h rfl ?_ hl
        unfold elapsedStart
        split
        · exact hT now (by simp)
        · exact hthr
  have key2 : ∀ (ts : List Nat) (s : PolicyState) (j k tj tk : Nat), ts.Pairwise (· ≤ ·) → j < k → ts[j]? = some tj →
      ts[k]? = some tk → s.shouldLog = false → (elapsedLogged interval s ts)[j]? = some true →
      (elapsedLogged interval s ts)[k]? = some true → tj + interval * 1000000000 ≤ tk := by
    intro ts
    induction ts with
    | nil => intro s j k tj tk _ _ h; simp at h
    | cons now ts ih =>
      intro s j k tj tk hp hjk hj hk hs lj lk
      rw [elapsedLogged] at lj lk
      obtain ⟨hp1, hp2⟩ := List.pairwise_cons.1 hp
      obtain ⟨k, rfl⟩ : ∃ k', k = k' + 1 := ⟨k - 1, by omega⟩
      simp only [List.getElem?_cons_succ] at hk lk
      cases j with
      | zero =>
        simp only [List.getElem?_cons_zero, Option.some.injEq] at hj lj
        subst hj
        refine key ts _ k tk now hp2 hp1 hk rfl ?_ lk
        unfold elapsedStart at lj ⊢
        split at lj
        · rename_i hge; rw [if_pos hge]
        · rw [hs] at lj; simp at lj
      | succ j =>
        simp only [List.getElem?_cons_succ] at hj lj
        exact ih _ j k tj tk hp2 (by omega) hj hk rfl lj lk
  exact key2 ts _ j k tj tk hmono hjk hj hk rfl lj lk

/-- **C87 differs from its documentation** ("`first_threshold` - time of first logging iteration"): an iteration starting
after `first` but before `first + interval` seconds is not logged. -/
theorem C87_first_log_late : elapsedLogged 10 (elapsedNew 2 0) [3 * 1000000000, 11 * 1000000000, 12 * 1000000000] =
    [false, false, true] := by decide

/-! ## C82: interval policy; C83: records -/

/-- Specification: iteration `g` is logged by `GenerationInterval::new(interval, first)`. -/
def Logged (interval first g : Nat) : Prop := first ≤ g ∧ (g - first) % interval = 0

instance (interval first g : Nat) : Decidable (Logged interval first g) := by unfold Logged; infer_instance

/-- **C82.** In every returning run, a probe wrapped with `GenerationInterval::new(interval ≥ 1, first)` receives
`on_start`, `on_end` and all callbacks of exactly the iterations `g ≥ first` with `interval ∣ g - first`. -/
theorem C82_generation_interval {c : Cfg X} {f : List X → X} {dist : List X → List X → Except Panic X} {dr : Draws X}
    {pop : List (List X)} {sts : List (St X)} {evs : List (Ev X)} (h : run A c f dist dr pop = .ok (sts, evs))
    (interval first : Nat) (hi : 0 < interval) :
    ∃ positions : List (List X), positions.length = c.maxGenerations ∧
      intervalDriven interval ⟨first, false⟩ evs = [.onStart] ++
      (((List.range c.maxGenerations).zip (sts.zip positions)).filter fun e => decide (Logged interval first e.1)).flatMap
        (fun e => [.onIterationStart e.1, .onCurrentBest e.2.1.best e.2.2, .onIterationEnd e.1]) ++ [.onEnd] := by
  obtain ⟨ps, p1, p2, p3, -, -⟩ := C80_callbacks h
  refine ⟨ps, p2, ?_⟩
  have key : ∀ (n g thr : Nat) (l : List (St X × List X)), first ≤ thr → g ≤ thr →
      (thr - first) % interval = 0 → (thr = first ∨ thr < g + interval) →
      intervalDriven interval ⟨thr, false⟩ (((List.range' g n).zip l).flatMap
        (fun e => [.onIterationStart e.1, .onCurrentBest e.2.1.best e.2.2, .onIterationEnd e.1]) ++ [.onEnd]) =
      (((List.range' g n).zip l).filter fun e => decide (Logged interval first e.1)).flatMap
        (fun e => [.onIterationStart e.1, .onCurrentBest e.2.1.best e.2.2, .onIterationEnd e.1]) ++ [.onEnd] := by
    intro n
    induction n with
    | zero => intro g thr l _ _ _ _; simp [intervalDriven, intervalStep]
    | succ n ih =>
      intro g thr l h1 h2 h3 h4
      rw [List.range'_succ]
      cases l with
      | nil => simp [intervalDriven, intervalStep]
      | cons a l =>
        rw [List.zip_cons_cons, List.flatMap_cons, List.filter_cons]
        by_cases hle : thr ≤ g
        · have hgt : g = thr := by omega
          subst hgt
          have hlog : Logged interval first g := ⟨h1, h3⟩
          have := ih (g + 1) (g + interval) l (by omega) (by omega)
            (by rw [show g + interval - first = (g - first) + interval by omega, Nat.add_mod_right, h3])
            (.inr (by omega))
          simp [intervalDriven, intervalStep, hlog, this]
        · have hlog : ¬ Logged interval first g := by
            rintro ⟨h5, h6⟩
            have hlt : thr < g + interval := by omega
            have h7 : interval ∣ (thr - first) - (g - first) :=
              Nat.dvd_sub (Nat.dvd_of_mod_eq_zero h3) (Nat.dvd_of_mod_eq_zero h6)
            rw [show (thr - first) - (g - first) = thr - g by omega] at h7
            have := Nat.le_of_dvd (by omega) h7
            omega
          have := ih (g + 1) thr l h1 (by omega) h3 (by omega)
          simp [intervalDriven, intervalStep, hle, hlog, this]
  rw [p3, List.append_assoc, List.singleton_append]
  rw [intervalDriven]
  simp only [intervalStep, if_true]
  rw [List.range_eq_range', key c.maxGenerations 0 first (sts.zip ps) (le_refl _) (by omega) (by simp) (.inl rfl)]
  rfl

/-- **C83.** The JSON (and CSV) probe records exactly one entry per generation, in order, with the value and position
reported in that generation. -/
theorem C83_records {c : Cfg X} {f : List X → X} {dist : List X → List X → Except Panic X} {dr : Draws X}
    {pop : List (List X)} {sts : List (St X)} {evs : List (Ev X)} (h : run A c f dist dr pop = .ok (sts, evs))
    (r : RecState X) :
    ∃ positions : List (List X), positions.length = c.maxGenerations ∧
      (∀ (k : Nat) (s : St X) (x : List X), sts[k]? = some s → positions[k]? = some x → x ∈ s.pop) ∧
      (evs.foldl recStep r).records = r.records ++
        ((List.range c.maxGenerations).zip (sts.zip positions)).map fun e => (e.1, e.2.1.best, e.2.2) := by
  obtain ⟨ps, p1, p2, p3, p4, -⟩ := C80_callbacks h
  refine ⟨ps, p2, p4, ?_⟩
  rw [p3, List.foldl_append, List.foldl_append]
  show ((((List.range c.maxGenerations).zip (sts.zip ps)).flatMap _).foldl recStep r).records = _
  generalize (List.range c.maxGenerations).zip (sts.zip ps) = l
  induction l generalizing r with
  | nil => simp
  | cons e l ih =>
    rw [List.flatMap_cons, List.foldl_append, ih]
    simp [recStep]

end general

/-! ## Exact arithmetic -/

section exact
variable {F : Type} [Field F] [LinearOrder F] [IsStrictOrderedRing F]
variable (expo sqrt : Ext F → Ext F) (maxv : F)

/-- Brightness of an objective value. -/
def brightOf (a : Ext F) : Ext F := (Ext.ops expo sqrt maxv).div (Ext.ops expo sqrt maxv).one a

theorem brightOf_fin (v : F) :
    brightOf expo sqrt maxv (.fin v) = if v = 0 then .pinf else .fin (1 / v) := by
  show (if v = 0 then (if (1 : F) = 0 then Ext.nan else Ext.signed 1) else Ext.fin (1 / v)) = _
  unfold Ext.signed
  rw [if_neg one_ne_zero, if_neg (not_lt.2 zero_le_one)]

theorem fin_lt_fin {a b : F} : (Ext.ops expo sqrt maxv).lt (.fin a) (.fin b) = true ↔ a < b := by
  show Fl.lt (Ext.view (.fin a)) (Ext.view (.fin b)) = true ↔ _
  rw [Fl.lt_iff]
  show ((a : WithTop F) : WithBot (WithTop F)) < ((b : WithTop F) : WithBot (WithTop F)) ↔ _
  rw [WithBot.coe_lt_coe, WithTop.coe_lt_coe]

theorem fin_lt_pinf {a : F} : (Ext.ops expo sqrt maxv).lt (.fin a) .pinf = true := by
  show Fl.lt (Ext.view (.fin a)) (Ext.view .pinf) = true
  rw [Fl.lt_iff]
  show ((a : WithTop F) : WithBot (WithTop F)) < ((⊤ : WithTop F) : WithBot (WithTop F))
  rw [WithBot.coe_lt_coe]
  exact WithTop.coe_lt_top a

theorem pinf_lt {a : Ext F} : (Ext.ops expo sqrt maxv).lt .pinf a = false := by
  cases h : (Ext.ops expo sqrt maxv).lt .pinf a with
  | false => rfl
  | true =>
    have h : Fl.Lt (Ext.view (.pinf : Ext F)) (Ext.view a) := Fl.lt_iff.1 h
    cases a with
    | nan => exact h.elim
    | ninf => exact absurd h (not_lt.2 bot_le)
    | pinf => exact absurd h (lt_irrefl _)
    | fin x =>
      have h : ((⊤ : WithTop F) : WithBot (WithTop F)) < ((x : WithTop F) : WithBot (WithTop F)) := h
      rw [WithBot.coe_lt_coe] at h
      exact absurd h (not_lt.2 le_top)

theorem eq_pinf (a : Ext F) : (Ext.ops expo sqrt maxv).eq a (Ext.ops expo sqrt maxv).infinity = true ↔ a = .pinf := by
  show (Fl.partialCmp (Ext.view a) (Ext.view .pinf) == some .eq) = true ↔ _
  cases a with
  | nan => simp [Ext.view, Fl.partialCmp]
  | ninf =>
    simp only [Ext.view, Fl.partialCmp, beq_iff_eq, Option.some.injEq, compare_eq_iff_eq, reduceCtorEq, iff_false]
    exact fun h => WithBot.bot_ne_coe h
  | pinf => simp [Ext.view, Fl.partialCmp]
  | fin x =>
    simp only [Ext.view, Fl.partialCmp, beq_iff_eq, Option.some.injEq, compare_eq_iff_eq, reduceCtorEq, iff_false]
    intro h
    have := WithBot.coe_injective h
    exact WithTop.coe_ne_top this

/-- **C84.** For non-negative objectives a firefly is attracted exactly by those with a strictly smaller objective
value (exact arithmetic). -/
theorem C84_attracted_by_better (a b : F) (ha : 0 ≤ a) (hb : 0 ≤ b) :
    (Ext.ops expo sqrt maxv).lt (brightOf expo sqrt maxv (.fin a)) (brightOf expo sqrt maxv (.fin b)) = true ↔ b < a := by
  rw [brightOf_fin, brightOf_fin]
  by_cases h0 : a = 0
  · subst h0
    rw [if_pos rfl, pinf_lt]
    simp [hb]
  · rw [if_neg h0]
    have hap : 0 < a := lt_of_le_of_ne ha (Ne.symm h0)
    by_cases h1 : b = 0
    · subst h1
      rw [if_pos rfl, fin_lt_pinf]
      simp [hap]
    · rw [if_neg h1, fin_lt_fin]
      have hbp : 0 < b := lt_of_le_of_ne hb (Ne.symm h1)
      exact one_div_lt_one_div hap hbp

/-- Non-vacuity of C84 on rational objective values. -/
example : (Ext.ops (F := ℚ) id id 1000).lt (brightOf id id 1000 (.fin 4)) (brightOf id id 1000 (.fin 3)) = true :=
  (C84_attracted_by_better id id 1000 4 3 (by norm_num) (by norm_num)).2 (by norm_num)

/-- **C84 is false for objectives with negative values.** A firefly with a negative (better) value is attracted by every
one with a positive (worse) value, and never the other way round. -/
theorem C84_negative_attracted_by_worse (a b : F) (ha : a < 0) (hb : 0 < b) :
    (Ext.ops expo sqrt maxv).lt (brightOf expo sqrt maxv (.fin a)) (brightOf expo sqrt maxv (.fin b)) = true ∧
    (Ext.ops expo sqrt maxv).lt (brightOf expo sqrt maxv (.fin b)) (brightOf expo sqrt maxv (.fin a)) = false := by
  rw [brightOf_fin, brightOf_fin, if_neg ha.ne, if_neg hb.ne']
  have h1 : 1 / a < 0 := one_div_neg.2 ha
  have h2 : 0 < 1 / b := one_div_pos.2 hb
  refine ⟨(fin_lt_fin ..).2 (by linarith), ?_⟩
  cases h : (Ext.ops expo sqrt maxv).lt (.fin (1 / b)) (.fin (1 / a)) with
  | false => rfl
  | true => have := (fin_lt_fin ..).1 h; linarith

/-- The index found is a minimiser of a non-negative objective. -/
theorem brightest_min (vs : List F) (hv : ∀ v ∈ vs, 0 ≤ v) :
    ∀ (pre : List F) (maxpos : Nat) (maxb : Ext F),
      ((maxb = .fin 0 ∧ maxpos = 0 ∧ pre = []) ∨ ∃ m, 0 < m ∧ maxb = .fin (1 / m) ∧ pre[maxpos]? = some m ∧
        ∀ v ∈ pre, m ≤ v) → pre ++ vs ≠ [] →
      ∃ m, (pre ++ vs)[brightest (Ext.ops expo sqrt maxv) pre.length
          (vs.map fun v => brightOf expo sqrt maxv (.fin v)) maxpos maxb]? = some m ∧ ∀ v ∈ pre ++ vs, m ≤ v := by
  induction vs with
  | nil =>
    intro pre maxpos maxb h hne
    rcases h with ⟨-, -, rfl⟩ | ⟨m, -, -, h1, h2⟩
    · simp at hne
    · exact ⟨m, by simpa [brightest] using h1, by simpa using h2⟩
  | cons v vs ih =>
    intro pre maxpos maxb h hne
    have hv0 := hv v (by simp)
    have hvs : ∀ v ∈ vs, 0 ≤ v := fun v h => hv v (by simp [h])
    have happ : pre ++ v :: vs = (pre ++ [v]) ++ vs := by simp
    have hlen : (pre ++ [v]).length = pre.length + 1 := by simp
    have hnew : (pre ++ [v])[pre.length]? = some v := by simp
    rw [List.map_cons, brightest]
    by_cases h0 : v = 0
    · have : (Ext.ops expo sqrt maxv).eq (brightOf expo sqrt maxv (.fin v)) (Ext.ops expo sqrt maxv).infinity = true := by
        rw [eq_pinf, brightOf_fin, if_pos h0]
      rw [if_pos this]
      refine ⟨v, by simp, fun u hu => ?_⟩
      rw [h0]
      rcases List.mem_append.1 hu with hu | hu
      · rcases h with ⟨-, -, rfl⟩ | ⟨m, hm, -, -, h2⟩
        · simp at hu
        · exact le_trans hm.le (h2 u hu)
      · exact hv u hu
    · have hvp : 0 < v := lt_of_le_of_ne hv0 (Ne.symm h0)
      have hbr : brightOf expo sqrt maxv (.fin v) = .fin (1 / v) := by rw [brightOf_fin, if_neg h0]
      have hni : ¬ (Ext.ops expo sqrt maxv).eq (brightOf expo sqrt maxv (.fin v)) (Ext.ops expo sqrt maxv).infinity = true := by
        rw [eq_pinf, hbr]; simp
      rw [if_neg hni, hbr]
      rcases h with ⟨rfl, rfl, rfl⟩ | ⟨m, hm, rfl, h1, h2⟩
      · have : (Ext.ops expo sqrt maxv).lt (.fin 0) (.fin (1 / v)) = true := (fin_lt_fin ..).2 (one_div_pos.2 hvp)
        rw [if_pos this]
        have := ih hvs [v] 0 (.fin (1 / v)) (.inr ⟨v, hvp, rfl, rfl, by simp⟩) (by simp)
        simpa using this
      · by_cases hlt : v < m
        · have : (Ext.ops expo sqrt maxv).lt (.fin (1 / m)) (.fin (1 / v)) = true :=
            (fin_lt_fin ..).2 (one_div_lt_one_div_of_lt hvp hlt)
          rw [if_pos this, happ, ← hlen]
          refine ih hvs (pre ++ [v]) pre.length (.fin (1 / v)) (.inr ⟨v, hvp, rfl, hnew, fun u hu => ?_⟩) (by simp)
          rcases List.mem_append.1 hu with hu | hu
          · exact le_trans hlt.le (h2 u hu)
          · simp at hu; rw [hu]
        · have : ¬ (Ext.ops expo sqrt maxv).lt (.fin (1 / m)) (.fin (1 / v)) = true := by
            rw [fin_lt_fin]
            intro h
            exact hlt ((one_div_lt_one_div hm hvp).1 h)
          rw [if_neg this, happ, ← hlen]
          refine ih hvs (pre ++ [v]) maxpos (.fin (1 / m)) (.inr ⟨m, hm, rfl, ?_, fun u hu => ?_⟩) (by simp)
          · rw [List.getElem?_append_left (List.getElem?_eq_some_iff.1 h1).1]; exact h1
          · rcases List.mem_append.1 hu with hu | hu
            · exact h2 u hu
            · simp at hu; rw [hu]; exact not_lt.1 hlt


theorem brightest_argmin (pop : List (List (Ext F)))
    (val : List (Ext F) → F) (hval : ∀ x, 0 ≤ val x) (hne : pop ≠ []) :
    ∃ x, pop[brightest (Ext.ops expo sqrt maxv) 0
        (pop.map fun x => brightOf expo sqrt maxv (.fin (val x))) 0 (.fin 0)]? = some x ∧ ∀ y ∈ pop, val x ≤ val y := by
  have h := brightest_min expo sqrt maxv (pop.map val) (by simp [hval]) [] 0 (.fin 0) (.inl ⟨rfl, rfl, rfl⟩) (by simpa using hne)
  simp only [List.nil_append, List.length_nil, List.map_map] at h
  obtain ⟨m, h1, h2⟩ := h
  rw [List.getElem?_map] at h1
  obtain ⟨x, h3, rfl⟩ := Option.map_eq_some_iff.1 h1
  exact ⟨x, h3, fun y hy => h2 _ (List.mem_map_of_mem hy)⟩


/-- **C53, non-negative objectives (see also `C53_position_not_value`, `C53_negative_objective`).** For an objective with finite non-negative
values, exact arithmetic and a non-empty population: in every generation `k` the reported position is a best one among
the first `population_size` fireflies of that generation, and the reported value is the least objective value found
among them in all generations up to `k` (or `f64::MAX` if that is smaller). -/
theorem C53_reported_best {c : Cfg (Ext F)} {v : List (Ext F) → F} (hv : ∀ x, 0 ≤ v x)
    {dist : List (Ext F) → List (Ext F) → Except Panic (Ext F)} {dr : Draws (Ext F)} {pop : List (List (Ext F))}
    {sts : List (St (Ext F))} {evs : List (Ev (Ext F))} (hps : 0 < c.populationSize) (hne : pop ≠ [])
    (h : run (Ext.ops expo sqrt maxv) c (fun x => .fin (v x)) dist dr pop = .ok (sts, evs)) :
    ∃ positions : List (List (Ext F)), positions.length = c.maxGenerations ∧
      evs = [.onStart] ++ ((List.range c.maxGenerations).zip (sts.zip positions)).flatMap
        (fun e => [.onIterationStart e.1, .onCurrentBest e.2.1.best e.2.2, .onIterationEnd e.1]) ++ [.onEnd] ∧
      ∀ (k : Nat) (s : St (Ext F)) (x : List (Ext F)), sts[k]? = some s → positions[k]? = some x →
        (x ∈ s.pop.take c.populationSize ∧ ∀ y ∈ s.pop.take c.populationSize, v x ≤ v y) ∧
        ∃ m, s.best = .fin m ∧ m ≤ maxv ∧
          (∀ (j : Nat) (s' : St (Ext F)), j ≤ k → sts[j]? = some s' → ∀ y ∈ s'.pop.take c.populationSize, m ≤ v y) ∧
          (m = maxv ∨ ∃ (j : Nat) (s' : St (Ext F)), j ≤ k ∧ sts[j]? = some s' ∧
            ∃ y ∈ s'.pop.take c.populationSize, v y = m) := by
  have hf : ∀ (p : List (List (Ext F))), brightness (Ext.ops expo sqrt maxv) (fun x => .fin (v x)) p =
      p.map fun x => brightOf expo sqrt maxv (.fin (v x)) := fun p => rfl
  unfold run at h
  obtain ⟨⟨sts', e⟩, h1, h⟩ := except_bind_ok.1 h
  rw [except_pure_ok] at h
  cases h
  have key : ∀ (n g : Nat) (st : St (Ext F)) (b : F) (sts : List (St (Ext F))) (evs : List (Ev (Ext F))),
      st.pop ≠ [] → st.best = .fin b →
      generations (Ext.ops expo sqrt maxv) c (fun x => .fin (v x)) dist dr g n st = .ok (sts, evs) →
      ∃ positions : List (List (Ext F)), positions.length = n ∧
        evs = ((List.range' g n).zip (sts.zip positions)).flatMap
          (fun e => [.onIterationStart e.1, .onCurrentBest e.2.1.best e.2.2, .onIterationEnd e.1]) ∧
        ∀ (k : Nat) (s : St (Ext F)) (x : List (Ext F)), sts[k]? = some s → positions[k]? = some x →
          (x ∈ s.pop.take c.populationSize ∧ ∀ y ∈ s.pop.take c.populationSize, v x ≤ v y) ∧
          ∃ m, s.best = .fin m ∧ m ≤ b ∧
            (∀ (j : Nat) (s' : St (Ext F)), j ≤ k → sts[j]? = some s' → ∀ y ∈ s'.pop.take c.populationSize, m ≤ v y) ∧
            (m = b ∨ ∃ (j : Nat) (s' : St (Ext F)), j ≤ k ∧ sts[j]? = some s' ∧
              ∃ y ∈ s'.pop.take c.populationSize, v y = m) := by
    intro n
    induction n with
    | zero => intro g st b sts evs _ _ h; cases h; exact ⟨[], rfl, rfl, by simp⟩
    | succ n ih =>
      intro g st b sts evs hp hb h
      obtain ⟨st', e, sts', evs', rfl, rfl, g1, g2⟩ := generations_ok h
      obtain ⟨x, hm, hbr, -, hx, hbest, he⟩ := generation_ok g1
      have hl := (moveAll_ok hm).1
      have hp' : st'.pop ≠ [] := by
        intro h0
        rw [h0] at hl
        exact hp (List.length_eq_zero_iff.1 hl.symm)
      have htake : st'.pop.take c.populationSize ≠ [] := by
        intro h0
        rcases List.take_eq_nil_iff.1 h0 with h0 | h0
        · omega
        · exact hp' h0
      -- the reported firefly is a best one
      have hxmin : x ∈ st'.pop.take c.populationSize ∧ ∀ y ∈ st'.pop.take c.populationSize, v x ≤ v y := by
        obtain ⟨x', hx', hmin⟩ := brightest_argmin expo sqrt maxv (st'.pop.take c.populationSize) v hv htake
        rw [hbr, hf, ← List.map_take] at hx
        have hx2 := hx'
        rw [List.getElem?_take] at hx2
        split at hx2
        · have : some x = some x' := by rw [← hx2]; exact hx.symm
          cases this
          exact ⟨List.mem_of_getElem? hx', hmin⟩
        · cases hx2
      -- the new best value
      have hb' : ∃ m, st'.best = .fin m ∧ m ≤ b ∧ m ≤ v x ∧ (m = b ∨ m = v x) := by
        rw [hbest, hb]
        by_cases hlt : v x < b
        · rw [if_pos ((fin_lt_fin expo sqrt maxv).2 hlt)]
          exact ⟨v x, rfl, hlt.le, le_refl _, .inr rfl⟩
        · rw [if_neg (fun h => hlt ((fin_lt_fin expo sqrt maxv).1 h))]
          exact ⟨b, rfl, le_refl _, not_lt.1 hlt, .inl rfl⟩
      obtain ⟨m0, hm0, hm1, hm2, hm3⟩ := hb'
      obtain ⟨ps, p1, p2, p3⟩ := ih (g + 1) st' m0 sts' evs' hp' hm0 g2
      refine ⟨x :: ps, by simp [p1], ?_, ?_⟩
      · rw [List.range'_succ, he, p2]; simp
      · intro k s y hs hy
        cases k with
        | zero =>
          simp only [List.getElem?_cons_zero, Option.some.injEq] at hs hy
          subst hs; subst hy
          refine ⟨hxmin, m0, hm0, hm1, ?_, ?_⟩
          · intro j s' hj hs' y hy
            obtain rfl : j = 0 := by omega
            simp only [List.getElem?_cons_zero, Option.some.injEq] at hs'
            subst hs'
            exact le_trans hm2 (hxmin.2 y hy)
          · rcases hm3 with h | h
            · exact .inl h
            · exact .inr ⟨0, st', le_refl _, rfl, x, hxmin.1, h.symm⟩
        | succ k =>
          simp only [List.getElem?_cons_succ] at hs hy
          obtain ⟨q1, m, q2, q3, q4, q5⟩ := p3 k s y hs hy
          refine ⟨q1, m, q2, le_trans q3 hm1, ?_, ?_⟩
          · intro j s' hj hs' y hy
            cases j with
            | zero =>
              simp only [List.getElem?_cons_zero, Option.some.injEq] at hs'
              subst hs'
              exact le_trans q3 (le_trans hm2 (hxmin.2 y hy))
            | succ j => exact q4 j s' (by omega) (by simpa using hs') y hy
          · rcases q5 with rfl | ⟨j, s', r1, r2, r3⟩
            · rcases hm3 with h | h
              · exact .inl h
              · exact .inr ⟨0, st', by omega, rfl, x, hxmin.1, h.symm⟩
            · exact .inr ⟨j + 1, s', by omega, by simpa using r2, r3⟩
  obtain ⟨ps, p1, p2, p3⟩ := key _ _ _ maxv _ _ (by exact hne) rfl h1
  refine ⟨ps, p1, ?_, p3⟩
  rw [List.range_eq_range', p2]
  simp

/-- **C53 for objectives that are negative everywhere.** The search for the brightest firefly never accepts a negative
brightness: firefly 0 is reported, whatever the others are. -/
theorem C53_negative_objective (vs : List F) (hv : ∀ a ∈ vs, a < 0) (i : Nat) :
    brightest (Ext.ops expo sqrt maxv) i (vs.map fun a => brightOf expo sqrt maxv (.fin a)) 0 (.fin 0) = 0 := by
  induction vs generalizing i with
  | nil => rfl
  | cons a vs ih =>
    have ha := hv a (by simp)
    have hbr : brightOf expo sqrt maxv (.fin a) = .fin (1 / a) := by rw [brightOf_fin, if_neg ha.ne]
    rw [List.map_cons, brightest, hbr]
    have h1 : ¬ (Ext.ops expo sqrt maxv).eq (.fin (1 / a)) (Ext.ops expo sqrt maxv).infinity = true := by
      rw [eq_pinf]; simp
    have h2 : ¬ (Ext.ops expo sqrt maxv).lt (.fin 0) (.fin (1 / a)) = true := by
      rw [fin_lt_fin]
      exact not_lt.2 (one_div_neg.2 ha).le
    rw [if_neg h1, if_neg h2]
    exact ih (fun a h => hv a (by simp [h])) (i + 1)

/-! ## C79: generation 0 -/

theorem ext_lt_pinf_fin (a : F) : Fl.Lt (Ext.view (.fin a)) (Ext.view (.pinf : Ext F)) :=
  Fl.lt_iff.1 (fin_lt_pinf id id a)

/-- The candidate coordinate in generation 0 with a positive sample is `+∞`. -/
theorem gen0_candidate {c : Cfg (Ext F)} {lo up a0 : F} (hlo : c.lower = .fin lo) (hup : c.upper = .fin up)
    (ha0 : c.alfa0 = .fin a0) (hlt : lo < up) (ha : 0 < a0) (z x y u s : F) (hs : 0 < s) :
    clamp (Ext.ops expo sqrt maxv) c ((Ext.ops expo sqrt maxv).add (.fin x)
      (attractStep (Ext.ops expo sqrt maxv) c c.alfa0 (.fin z) (.fin x) (.fin y) (.fin u) (.fin s)
        ((Ext.ops expo sqrt maxv).ofNat 0))) = c.upper := by
  have h1 : (Ext.ops expo sqrt maxv).div (.fin s) ((Ext.ops expo sqrt maxv).ofNat 0) = .pinf := by
    show (if ((0 : Nat) : F) = 0 then (if s = 0 then Ext.nan else Ext.signed s) else Ext.fin (s / _)) = _
    rw [if_pos Nat.cast_zero, if_neg hs.ne', Ext.signed, if_neg (not_lt.2 hs.le)]
  have h2 : (Ext.ops expo sqrt maxv).mul ((Ext.ops expo sqrt maxv).mul c.alfa0 c.alfa0) .pinf = .pinf := by
    rw [ha0]
    show Ext.infMul (a0 * a0) = _
    rw [Ext.infMul, if_neg (mul_pos ha ha).ne', Ext.signed, if_neg (not_lt.2 (mul_pos ha ha).le)]
  have h3 : (Ext.ops expo sqrt maxv).mul .pinf ((Ext.ops expo sqrt maxv).sub c.upper c.lower) = .pinf := by
    rw [hup, hlo]
    show Ext.infMul (up + -lo) = _
    have : 0 < up + -lo := by linarith
    rw [Ext.infMul, if_neg this.ne', Ext.signed, if_neg (not_lt.2 this.le)]
  have h4 : attractStep (Ext.ops expo sqrt maxv) c c.alfa0 (.fin z) (.fin x) (.fin y) (.fin u) (.fin s)
      ((Ext.ops expo sqrt maxv).ofNat 0) = .pinf := by
    unfold attractStep
    rw [h1]
    show (Ext.ops expo sqrt maxv).add (.fin _) ((Ext.ops expo sqrt maxv).mul
      ((Ext.ops expo sqrt maxv).mul ((Ext.ops expo sqrt maxv).mul c.alfa0 c.alfa0) .pinf) _) = _
    rw [h2, h3]
    rfl
  rw [h4]
  refine (C78_bounds_test c _ ?_ ?_).2.2.1 ?_
  · rw [hlo]; trivial
  · rw [hup]; trivial
  · rw [hup]; exact ext_lt_pinf_fin up

/-- **C79.** In generation 0 the sample of the flight distribution is divided by the generation number 0.  So with exact
arithmetic, finite positions, `lower < upper`, `alfa0 > 0` and positive samples (the default distribution is uniform on
`[0, 1)`), *every* firefly with a brighter one jumps to the upper bound in *every* coordinate, whatever the objective,
distance and positions. -/
theorem C79_generation_zero_jump {c : Cfg (Ext F)} {f : List (Ext F) → Ext F}
    {dist : List (Ext F) → List (Ext F) → Except Panic (Ext F)} {dr : Draws (Ext F)} {pop : List (List F)}
    {st' : St (Ext F)} {sts : List (St (Ext F))} {evs : List (Ev (Ext F))} {lo up a0 : F}
    (h : run (Ext.ops expo sqrt maxv) c f dist dr (pop.map fun x => x.map .fin) = .ok (st' :: sts, evs))
    (hlo : c.lower = .fin lo) (hup : c.upper = .fin up) (ha0 : c.alfa0 = .fin a0) (hlt : lo < up) (ha : 0 < a0)
    (hatt : ∀ x ∈ pop, ∀ y ∈ pop, ∀ d, dist (x.map .fin) (y.map .fin) = .ok d →
      ∃ z, attraction (Ext.ops expo sqrt maxv) c d = .fin z)
    (huni : ∀ i j d, ∃ u, dr.uni 0 i j d = .fin u) (hdist : ∀ i j d, ∃ s, dr.dist 0 i j d = .fin s ∧ 0 < s)
    {i j : Nat} {x : List F} (hx : pop[i]? = some x)
    (hbr : LastBrighter (Ext.ops expo sqrt maxv) (pop.map fun x => brightOf expo sqrt maxv (f (x.map .fin))) i
      c.populationSize j) :
    st'.pop[i]? = some (List.replicate x.length c.upper) := by
  unfold run at h
  obtain ⟨⟨sts', e⟩, h1, h⟩ := except_bind_ok.1 h
  rw [except_pure_ok] at h
  cases h
  have hn : ∃ n, c.maxGenerations = n + 1 := by
    cases hm : c.maxGenerations with
    | zero => rw [hm] at h1; cases h1
    | succ n => exact ⟨n, rfl⟩
  obtain ⟨n, hn⟩ := hn
  rw [hn] at h1
  obtain ⟨st1, e1, sts1, evs1, hcons, -, g1, -⟩ := generations_ok h1
  cases hcons
  have hbe : (initial (Ext.ops expo sqrt maxv) c f (pop.map fun x => x.map .fin)).bright =
      pop.map fun x => brightOf expo sqrt maxv (f (x.map .fin)) := by
    simp [initial, brightness, brightOf]
  obtain ⟨xi, xj, y, dd, k1, k2, k3, k4, k5, k6⟩ := C86_last_brighter_wins g1 (i := i) (j := j)
    (by simp [initial]; exact (List.getElem?_eq_some_iff.1 hx).1) (by rw [hbe]; exact hbr)
  have hxi : xi = x.map .fin := by
    have : (pop.map fun x => x.map Ext.fin)[i]? = some xi := k1
    rw [List.getElem?_map, hx] at this
    simpa using this.symm
  obtain ⟨xj', hxjm, hxj⟩ : ∃ xj' ∈ pop, xj = xj'.map Ext.fin := by
    have := List.mem_of_getElem? k2
    obtain ⟨a, ha1, ha2⟩ := List.mem_map.1 this
    exact ⟨a, ha1, ha2.symm⟩
  subst hxi; subst hxj
  rw [k3]
  congr 1
  apply List.ext_getElem?
  intro d
  by_cases hd : d < x.length
  · obtain ⟨b, hb1, hb2⟩ := k6 d (.fin x[d]) (by rw [List.getElem?_map, List.getElem?_eq_getElem hd]; rfl)
    rw [List.getElem?_map] at hb1
    obtain ⟨b', -, rfl⟩ := Option.map_eq_some_iff.1 hb1
    obtain ⟨z, hz⟩ := hatt _ (List.mem_of_getElem? hx) _ hxjm _ k4
    obtain ⟨u, hu⟩ := huni i j d
    obtain ⟨s, hs, hspos⟩ := hdist i j d
    have := gen0_candidate expo sqrt maxv hlo hup ha0 hlt ha z x[d] b' u s hspos
    rw [hb2, List.getElem?_replicate, if_pos hd]
    congr 1
    refine Eq.trans ?_ this
    unfold attractStep
    rw [← hz, ← hu, ← hs]
    rfl
  · rw [List.getElem?_eq_none (by rw [k5]; simpa using hd), List.getElem?_eq_none (by simpa using hd)]

end exact

/-! ## C85: distances -/

section distances
variable {F : Type} [Field F] [LinearOrder F] [IsStrictOrderedRing F]
variable (expo sqrt : Ext F → Ext F) (maxv : F)

theorem taxiFrom_eq (xs ys : List F) : ∀ (pre : List F) (acc : F), xs.length ≤ ys.length →
    taxiFrom (Ext.ops expo sqrt maxv) ((pre ++ ys).map .fin) pre.length (.fin acc) (xs.map .fin) =
      .ok (.fin (acc + (List.zipWith (fun x y => |x - y|) xs ys).sum)) := by
  induction xs generalizing ys with
  | nil => intro pre acc _; simp [taxiFrom]
  | cons x xs ih =>
    intro pre acc h
    cases ys with
    | nil => simp at h
    | cons y ys =>
      rw [List.map_cons, taxiFrom]
      have hi : index ((pre ++ y :: ys).map Ext.fin) pre.length = .ok (.fin y) := by
        rw [index_ok, List.getElem?_map]; simp
      rw [except_bind_of_ok hi]
      have := ih ys (pre ++ [y]) (acc + |x - y|) (by simpa using h)
      simp only [List.append_assoc, List.singleton_append, List.length_append, List.length_singleton] at this
      show taxiFrom (Ext.ops expo sqrt maxv) _ _ (Ext.fin (acc + |x + -y|)) _ = _
      rw [← sub_eq_add_neg, this, List.zipWith_cons_cons, List.sum_cons, add_assoc]

/-- **C85, taxi distance.** For finite vectors of equal length the taxi distance is `Σ |xᵢ - yᵢ|` (exact arithmetic); it
never panics when the first vector is not longer than the second. -/
theorem C85_taxi (xs ys : List F) (h : xs.length ≤ ys.length) :
    taxi (Ext.ops expo sqrt maxv) (xs.map .fin) (ys.map .fin) =
      .ok (.fin (List.zipWith (fun x y => |x - y|) xs ys).sum) := by
  have := taxiFrom_eq expo sqrt maxv xs ys [] 0 h
  rw [zero_add] at this
  exact this

theorem sumSquares_eq (xs ys : List F) : ∀ (pre : List F) (acc : F), xs.length ≤ ys.length →
    sumSquares (Ext.ops expo sqrt maxv) ((pre ++ ys).map .fin) pre.length (.fin acc) (xs.map .fin) =
      .ok (.fin (acc + (List.zipWith (fun x y => (x - y) ^ 2) xs ys).sum)) := by
  induction xs generalizing ys with
  | nil => intro pre acc _; simp [sumSquares]
  | cons x xs ih =>
    intro pre acc h
    cases ys with
    | nil => simp at h
    | cons y ys =>
      rw [List.map_cons, sumSquares]
      have hi : index ((pre ++ y :: ys).map Ext.fin) pre.length = .ok (.fin y) := by
        rw [index_ok, List.getElem?_map]; simp
      rw [except_bind_of_ok hi]
      have := ih ys (pre ++ [y]) (acc + (x - y) ^ 2) (by simpa using h)
      simp only [List.append_assoc, List.singleton_append, List.length_append, List.length_singleton] at this
      show sumSquares (Ext.ops expo sqrt maxv) _ _ (Ext.fin (acc + (x + -y) * (x + -y))) _ = _
      rw [← sub_eq_add_neg, ← sq, this, List.zipWith_cons_cons, List.sum_cons, add_assoc]

/-- **C85, cartesian distance.** The square root of `Σ (xᵢ - yᵢ)²` (exact arithmetic, any square root). -/
theorem C85_cartesian (xs ys : List F) (h : xs.length ≤ ys.length) :
    cartesian (Ext.ops expo sqrt maxv) (xs.map .fin) (ys.map .fin) =
      .ok (sqrt (.fin (List.zipWith (fun x y => (x - y) ^ 2) xs ys).sum)) := by
  have := sumSquares_eq expo sqrt maxv xs ys [] 0 h
  rw [zero_add] at this
  unfold cartesian
  have h2 : sumSquares (Ext.ops expo sqrt maxv) (ys.map .fin) 0 (Ext.ops expo sqrt maxv).zero (xs.map .fin) = _ := this
  rw [except_bind_of_ok h2]
  rfl

/-- The taxi distance of the model on finite vectors, as a number. -/
def taxiVal (xs ys : List F) : F := (List.zipWith (fun x y => |x - y|) xs ys).sum

/-- **C85, metric.** On vectors of one dimension the taxi distance is a metric: non-negative, zero exactly for equal
vectors, symmetric, triangle inequality. -/
theorem C85_taxi_metric (xs ys zs : List F) (h1 : xs.length = ys.length) (h2 : ys.length = zs.length) :
    0 ≤ taxiVal xs ys ∧ (taxiVal xs ys = 0 ↔ xs = ys) ∧ taxiVal xs ys = taxiVal ys xs ∧
      taxiVal xs zs ≤ taxiVal xs ys + taxiVal ys zs := by
  induction xs generalizing ys zs with
  | nil =>
    obtain rfl : ys = [] := List.length_eq_zero_iff.1 h1.symm
    obtain rfl : zs = [] := List.length_eq_zero_iff.1 h2.symm
    simp [taxiVal]
  | cons x xs ih =>
    cases ys with
    | nil => simp at h1
    | cons y ys =>
      cases zs with
      | nil => simp at h2
      | cons z zs =>
        obtain ⟨a, b, c, d⟩ := ih ys zs (by simpa using h1) (by simpa using h2)
        have e : ∀ (p q : F) (ps qs : List F), taxiVal (p :: ps) (q :: qs) = |p - q| + taxiVal ps qs := by
          intro p q ps qs; simp [taxiVal]
        rw [e, e, e, e]
        have hx := abs_nonneg (x - y)
        refine ⟨add_nonneg hx a, ?_, ?_, ?_⟩
        · rw [List.cons.injEq]
          constructor
          · intro h
            have h3 : |x - y| = 0 := by linarith
            have h4 : taxiVal xs ys = 0 := by linarith
            exact ⟨sub_eq_zero.1 (abs_eq_zero.1 h3), b.1 h4⟩
          · rintro ⟨rfl, h⟩
            rw [b.2 h]; simp
        · rw [c, abs_sub_comm]
        · have := abs_sub_le x y z
          linarith

/-- **C85, panic.** A first vector longer than the second makes both distances panic (index out of bounds). -/
theorem C85_longer_panics {X K : Type} [LinearOrder K] (A : FloatOps X K) (a b : List X) (h : b.length < a.length) :
    (∃ e, taxi A a b = .error e) ∧ (∃ e, cartesian A a b = .error e) := by
  constructor
  · cases hr : taxi A a b with
    | error e => exact ⟨e, rfl⟩
    | ok r =>
      exfalso
      have key : ∀ (a : List X) (d : Nat) (acc r : X), taxiFrom A b d acc a = .ok r → a = [] ∨ d + a.length ≤ b.length := by
        intro a
        induction a with
        | nil => intros; exact .inl rfl
        | cons x xs ih =>
          intro d acc r h
          rw [taxiFrom] at h
          obtain ⟨y, h1, h2⟩ := except_bind_ok.1 h
          have := (List.getElem?_eq_some_iff.1 (index_ok.1 h1)).1
          rcases ih _ _ _ h2 with rfl | h3
          · exact .inr (by simp; omega)
          · exact .inr (by simp; omega)
      rcases key _ _ _ _ hr with rfl | h3
      · simp at h
      · omega
  · cases hr : cartesian A a b with
    | error e => exact ⟨e, rfl⟩
    | ok r =>
      exfalso
      have key : ∀ (a : List X) (d : Nat) (acc r : X), sumSquares A b d acc a = .ok r →
          a = [] ∨ d + a.length ≤ b.length := by
        intro a
        induction a with
        | nil => intros; exact .inl rfl
        | cons x xs ih =>
          intro d acc r h
          rw [sumSquares] at h
          obtain ⟨y, h1, h2⟩ := except_bind_ok.1 h
          have := (List.getElem?_eq_some_iff.1 (index_ok.1 h1)).1
          rcases ih _ _ _ h2 with rfl | h3
          · exact .inr (by simp; omega)
          · exact .inr (by simp; omega)
      unfold cartesian at hr
      obtain ⟨s, hs, -⟩ := except_bind_ok.1 hr
      rcases key _ _ _ _ hs with rfl | h3
      · simp at h
      · omega

/-- Non-vacuity of C85. -/
example : taxiVal [1, 2] [4, (-2 : ℚ)] = 7 := by decide +kernel

end distances

/-! ## Concrete runs -/

section concrete

/-- Exact rational arithmetic (exponential replaced by the constant 1, square root by the identity). -/
abbrev AQ : FloatOps (Ext ℚ) (WithBot (WithTop ℚ)) := Ext.ops (fun _ => .fin 1) id 1000

/-- A small configuration: one dimension, box `[-5, 5]`. -/
def cfgQ (gens n : Nat) (alfa0 : ℚ) : Cfg (Ext ℚ) :=
  { dimensions := 1, lower := .fin (-5), upper := .fin 5, maxGenerations := gens, populationSize := n,
    alfa0 := .fin alfa0, beta0 := .fin 1, gamma := .fin (1 / 100), delta := .fin 1 }

/-- The objective `|x₀|`. -/
def absQ (x : List (Ext ℚ)) : Ext ℚ := Ext.abs (x.headD (.fin 0))

/-- Draws: `½` for both samples of an attraction step; `g` for the random walk in generation `g`. -/
def drQ : Draws (Ext ℚ) :=
  { uni := fun _ _ _ _ => .fin (1 / 2), dist := fun _ _ _ _ => .fin (1 / 2), brown := fun g _ _ => .fin g }

/-- Callbacks and final positions of a run. -/
def summary (r : Except Panic (List (St (Ext ℚ)) × List (Ev (Ext ℚ)))) :
    Option (List (List (List (Ext ℚ))) × List (Ev (Ext ℚ))) :=
  match r with
  | .ok (sts, evs) => some (sts.map St.pop, evs)
  | .error _ => none

/-- Hypotheses of C52, C80-C83, C86: a run with three fireflies and two generations.  Fireflies 0 and 1 have a brighter
one, so they jump to the upper bound in generation 0 (C79); firefly 2 stays (`brown 0 = 0`). -/
theorem example_run : summary (run AQ (cfgQ 2 3 1) absQ (taxi AQ) drQ [[.fin 3], [.fin 2], [.fin 1]]) =
    some ([[[.fin 5], [.fin 5], [.fin 1]], [[.fin 5], [.fin 5], [.fin 2]]],
      [.onStart, .onIterationStart 0, .onCurrentBest (.fin 1) [.fin 1], .onIterationEnd 0,
       .onIterationStart 1, .onCurrentBest (.fin 1) [.fin 2], .onIterationEnd 1, .onEnd]) := by
  decide +kernel

/-- **C53 is false as stated.** The reported position need not have the reported value: in the run above generation 1
reports value `1` at position `[2]`, whose value is `2`. -/
theorem C53_position_not_value :
    ∃ pop evs, summary (run AQ (cfgQ 2 3 1) absQ (taxi AQ) drQ [[.fin 3], [.fin 2], [.fin 1]]) = some (pop, evs) ∧
      Ev.onCurrentBest (.fin 1) [.fin 2] ∈ evs ∧ absQ [.fin 2] ≠ .fin 1 :=
  ⟨_, _, example_run, by simp, by decide +kernel⟩

/-- A finite objective. -/
def finQ (x : List (Ext ℚ)) : ℚ :=
  match x with
  | .fin a :: _ => a * a
  | _ => 0

/-- Hypotheses of C53 are met: a non-negative finite objective and a returning run on a non-empty population. -/
example : (∀ x, 0 ≤ finQ x) ∧
    (summary (run AQ (cfgQ 2 3 1) (fun x => .fin (finQ x)) (taxi AQ) drQ [[.fin 3], [.fin 2], [.fin 1]])).isSome := by
  refine ⟨fun x => ?_, by decide +kernel⟩
  unfold finQ
  split
  · exact mul_self_nonneg _
  · exact le_refl _

/-- **C78 in a run.** With randomness switched off (`alfa0 = 0`) a lone firefly sitting on the upper bound is moved to
the lower bound; its objective `|x - 5|` goes from `0` to `10`. -/
theorem C78_run_teleports :
    summary (run AQ (cfgQ 1 1 0) (fun x => Ext.abs (Ext.sub (x.headD (.fin 0)) (.fin 5))) (taxi AQ) drQ [[.fin 5]]) =
      some ([[[.fin (-5)]]],
        [.onStart, .onIterationStart 0, .onCurrentBest (.fin 10) [.fin (-5)], .onIterationEnd 0, .onEnd]) := by
  decide +kernel

/-- Hypotheses of C78. -/
example : (AQ.view (cfgQ 1 1 1).lower).IsNum ∧ (AQ.view (cfgQ 1 1 1).upper).IsNum ∧
    Fl.Lt (AQ.view (cfgQ 1 1 1).lower) (AQ.view (cfgQ 1 1 1).upper) :=
  ⟨trivial, trivial, Fl.lt_iff.1 (by decide +kernel : AQ.lt (cfgQ 1 1 1).lower (cfgQ 1 1 1).upper = true)⟩

/-- Hypotheses of C80 (no panic): the run above is on a good population, and the taxi distance of two vectors of the
same dimension never panics (`C85_taxi`). -/
example : GoodPop (cfgQ 2 3 1) 1 [[Ext.fin (3 : ℚ)], [.fin 2], [.fin 1]] := by
  refine ⟨by simp, by decide, by simp⟩

/-- Hypotheses of C79 and C86: firefly 2 is the last one brighter than firefly 0. -/
example : LastBrighter AQ ([[3], [2], [(1 : ℚ)]].map fun x => brightOf (fun _ => .fin 1) id 1000 (absQ (x.map .fin)))
    0 3 2 :=
  ⟨by decide, ⟨_, _, rfl, rfl, by decide +kernel⟩, fun k h1 h2 => by omega⟩

example : (∀ i j d, ∃ u, drQ.uni 0 i j d = .fin u) ∧ (∀ i j d, ∃ s, drQ.dist 0 i j d = .fin s ∧ 0 < s) ∧
    (∀ x y d, taxi AQ x y = .ok d → ∃ z, attraction AQ (cfgQ 2 3 1) d = .fin z) :=
  ⟨fun _ _ _ => ⟨_, rfl⟩, fun _ _ _ => ⟨_, rfl, by decide +kernel⟩, fun _ _ d _ => ⟨_, rfl⟩⟩

/-- Hypotheses of C54: the builder, asked for four fireflies, keeps its default three and panics. -/
theorem C54_example : ∃ b, Builder.new AQ (cfgQ 2 3 1) absQ (fun i _ => .fin i) = .ok b ∧
    b.pop = [[.fin 0], [.fin 1], [.fin 2]] ∧
    ([Setter.populationSize 4].foldl Setter.apply b).cfg.populationSize = 4 ∧
    ∃ e, ([Setter.populationSize 4].foldl Setter.apply b).buildRun AQ (taxi AQ) drQ = .error e := by
  have hb : Builder.new AQ (cfgQ 2 3 1) absQ (fun i _ => .fin i) =
      .ok { cfg := cfgQ 2 3 1, f := absQ, pop := (List.range 3).map fun i => (List.range 1).map fun _ => .fin i } := by
    unfold Builder.new
    have : fromConfig AQ (cfgQ 2 3 1) (fun i _ => .fin i) =
        .ok ((List.range 3).map fun i => (List.range 1).map fun _ => .fin i) := by
      unfold fromConfig
      rw [if_pos (by decide +kernel)]
      rfl
    rw [except_bind_of_ok this]
    rfl
  exact ⟨_, hb, by decide +kernel, rfl,
    C54_larger_population_panics hb (by decide) [.populationSize 4] (by decide) (by decide) (by decide) _ _⟩

/-- Hypotheses of C82 and C87. -/
example : intervalDriven (X := Ext ℚ) 2 ⟨1, false⟩ [.onStart, .onIterationStart 0, .onIterationEnd 0, .onIterationStart 1,
    .onIterationEnd 1, .onIterationStart 2, .onIterationEnd 2, .onEnd] =
    [.onStart, .onIterationStart 1, .onIterationEnd 1, .onEnd] := by decide +kernel

example : [3 * 1000000000, 11 * 1000000000, 12 * 1000000000].Pairwise (· ≤ ·) := by decide

end concrete

/-! ## Every theorem on a concrete case -/

section instances

/-- The run computed in `example_run`. -/
theorem exRun_returns : ∃ r, run AQ (cfgQ 2 3 1) absQ (taxi AQ) drQ [[.fin 3], [.fin 2], [.fin 1]] = .ok r := by
  have h := example_run
  unfold summary at h
  split at h
  · rename_i sts evs hr; exact ⟨(sts, evs), hr⟩
  · cases h

section
variable {sts : List (St (Ext ℚ))} {evs : List (Ev (Ext ℚ))}
  (h : run AQ (cfgQ 2 3 1) absQ (taxi AQ) drQ [[.fin 3], [.fin 2], [.fin 1]] = .ok (sts, evs))
include h
example := C52_positions_in_box (A := AQ) (c := cfgQ 2 3 1) (show (WithBot.some (WithTop.some (-5 : ℚ))) ≤ WithBot.some (WithTop.some 5) from by decide +kernel) h
example := C52_shape h
example := C81_reported_value_monotone h
example := C83_records h ⟨0, .fin 0, [], []⟩
end

example {b : Builder (Ext ℚ)} (hb : Builder.new AQ (cfgQ 2 3 1) absQ (fun i _ => .fin i) = .ok b) :=
  C54_population_ignores_setters hb [.populationSize 4, .gamma (.fin 2)] (by simp [Setter.setsPopulation])
example {b : Builder (Ext ℚ)} (hb : Builder.new AQ (cfgQ 2 3 1) absQ (fun i _ => .fin i) = .ok b) :=
  C54_larger_population_panics hb (by decide) [.populationSize 4, .maxGenerations 7] (by simp [Setter.setsPopulation]) (by show 3 < 4; decide)
    (by show 0 < 7; decide) (taxi AQ) drQ
example := C87_elapsed_time 10 2 0 [3 * 1000000000, 11 * 1000000000, 12 * 1000000000] 2 (12 * 1000000000) rfl (by decide) (by decide)
example := C87_spacing 10 0 0 [3 * 1000000000, 11 * 1000000000, 12 * 1000000000, 22 * 1000000000] (by decide) 1 3 (11 * 1000000000)
  (22 * 1000000000) (by decide) rfl rfl (by decide) (by decide)

end instances

end Ecrs.Ff
