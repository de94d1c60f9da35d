import Verif.Props.Symmetry
import Verif.Props.FfCooling

set_option linter.unusedSectionVars false
set_option linter.unusedVariables false

/-!
# C145 and C146 for the firefly algorithm
-/

namespace Ecrs.Ff
open Ecrs

/-- The same callback in transformed coordinates (`sh`) and values (`ψ`). -/
def Ev.transport {X : Type} (sh ψ : X → X) : Ev X → Ev X
  | .onStart => .onStart
  | .onIterationStart g => .onIterationStart g
  | .onCurrentBest v x => .onCurrentBest (ψ v) (x.map sh)
  | .onIterationEnd g => .onIterationEnd g
  | .onEnd => .onEnd

section general
variable {X K : Type} [LinearOrder K] (A : FloatOps X K)

/-- The same state in transformed coordinates and values; the brightness is that of the transformed objective. -/
def St.transport (f' : List X → X) (sh ψ : X → X) (st : St X) : St X :=
  { pop := st.pop.map (List.map sh), bright := brightness A f' (st.pop.map (List.map sh)), alfa := st.alfa,
    best := ψ st.best }

/-- Two configurations of the firefly algorithm that differ by a change of coordinates `sh` and of objective values `ψ`. -/
structure Symmetry (c c' : Cfg X) (f f' : List X → X) (dist dist' : List X → List X → Except Panic X) (sh ψ : X → X) :
    Prop where
  populationSize : c'.populationSize = c.populationSize
  maxGenerations : c'.maxGenerations = c.maxGenerations
  alfa0 : c'.alfa0 = c.alfa0
  beta0 : c'.beta0 = c.beta0
  gamma : c'.gamma = c.gamma
  delta : c'.delta = c.delta
  lower : c'.lower = sh c.lower
  upper : c'.upper = sh c.upper
  add : ∀ x s, A.add (sh x) s = sh (A.add x s)
  sub : ∀ x y, A.sub (sh x) (sh y) = A.sub x y
  cmp : ∀ x y, Fl.partialCmp (A.view (sh x)) (A.view (sh y)) = Fl.partialCmp (A.view x) (A.view y)
  objective : ∀ x, f' (x.map sh) = ψ (f x)
  distance : ∀ x y, dist' (x.map sh) (y.map sh) = dist x y
  brighter : ∀ x y, A.lt (A.div A.one (ψ (f x))) (A.div A.one (ψ (f y))) = A.lt (A.div A.one (f x)) (A.div A.one (f y))
  infinite : ∀ x, A.eq (A.div A.one (ψ (f x))) A.infinity = A.eq (A.div A.one (f x)) A.infinity
  positive : ∀ x, A.lt A.zero (A.div A.one (ψ (f x))) = A.lt A.zero (A.div A.one (f x))
  value : ∀ x y, A.lt (ψ (f x)) (ψ (f y)) = A.lt (f x) (f y)
  max : ∀ x, A.lt (ψ (f x)) A.maxv = A.lt (f x) A.maxv
  reported : ψ A.maxv = A.maxv ∨ ∀ x, A.lt (f x) A.maxv = true

theorem index_map {α β : Type} (h : α → β) (l : List α) (i : Nat) : index (l.map h) i = (index l i).map h := by
  unfold index
  rw [List.getElem?_map]
  cases l[i]? <;> rfl

variable {A} {c c' : Cfg X} {f f' : List X → X} {dist dist' : List X → List X → Except Panic X} {sh ψ : X → X}
  (H : Symmetry A c c' f f' dist dist' sh ψ)
include H

theorem clamp_transport (v : X) : clamp A c' (sh v) = sh (clamp A c v) := by
  unfold clamp
  rw [H.upper, H.lower]
  have h1 : A.notGe (sh v) (sh c.upper) = A.notGe v c.upper := by unfold FloatOps.notGe; rw [H.cmp]
  have h2 : A.notLe (sh v) (sh c.lower) = A.notLe v c.lower := by unfold FloatOps.notLe; rw [H.cmp]
  have h3 : A.lt (sh c.upper) (sh v) = A.lt c.upper v := by unfold FloatOps.lt Fl.lt; rw [H.cmp]
  rw [h1, h2, h3]
  split
  · rfl
  · split <;> rfl

theorem moveDims_transport (alfa k gen : X) (u s : Nat → X) (target : List X) : ∀ (d : Nat) (xs : List X),
    moveDims A c' alfa k gen u s (target.map sh) d (xs.map sh) =
      (moveDims A c alfa k gen u s target d xs).map (List.map sh)
  | _, [] => rfl
  | d, x :: xs => by
    rw [List.map_cons, moveDims, moveDims, index_map, moveDims_transport alfa k gen u s target (d + 1) xs]
    cases index target d with
    | error e => rfl
    | ok y =>
      cases moveDims A c alfa k gen u s target (d + 1) xs with
      | error e => rfl
      | ok rest =>
        show Except.ok (clamp A c' (A.add (sh x) (attractStep A c' alfa k (sh x) (sh y) (u d) (s d) gen)) :: rest.map sh) =
          Except.ok (sh (clamp A c (A.add x (attractStep A c alfa k x y (u d) (s d) gen))) :: rest.map sh)
        rw [H.add, clamp_transport H]
        unfold attractStep
        rw [H.sub, H.alfa0, H.upper, H.lower, H.sub]

theorem considerOne_transport (dr : Draws X) (g i : Nat) (alfa : X) (pop : List (List X)) (j : Nat) (st : List X × Bool) :
    considerOne A c' dist' dr g i alfa (brightness A f' (pop.map (List.map sh))) (pop.map (List.map sh)) j
      (st.1.map sh, st.2) =
    (considerOne A c dist dr g i alfa (brightness A f pop) pop j st).map fun r => (r.1.map sh, r.2) := by
  unfold considerOne brightness
  rw [List.map_map, index_map, index_map, index_map, index_map, index_map, index_map]
  cases hi : index pop i with
  | error e => rfl
  | ok xi =>
    cases hj : index pop j with
    | error e => rfl
    | ok xj =>
      show (if A.lt (A.div A.one (f' (xi.map sh))) (A.div A.one (f' (xj.map sh))) = true then _ else _ :
          Except Panic (List X × Bool)) =
        Except.map _ (if A.lt (A.div A.one (f xi)) (A.div A.one (f xj)) = true then _ else _)
      rw [H.objective, H.objective, H.brighter]
      cases A.lt (A.div A.one (f xi)) (A.div A.one (f xj)) with
      | false => rfl
      | true =>
        show (dist' (xi.map sh) (xj.map sh) >>= fun dd => _) =
          Except.map _ (dist xi xj >>= fun dd => _)
        rw [H.distance]
        cases dist xi xj with
        | error e => rfl
        | ok dd =>
          show (moveDims A c' alfa (attraction A c' dd) (A.ofNat g) (dr.uni g i j) (dr.dist g i j) (xj.map sh) 0
              (xi.map sh) >>= fun res => pure (res, true)) =
            Except.map _ (moveDims A c alfa (attraction A c dd) (A.ofNat g) (dr.uni g i j) (dr.dist g i j) xj 0 xi >>=
              fun res => pure (res, true))
          rw [show attraction A c' dd = attraction A c dd by unfold attraction; rw [H.beta0, H.gamma],
            moveDims_transport H]
          cases moveDims A c alfa (attraction A c dd) (A.ofNat g) (dr.uni g i j) (dr.dist g i j) xj 0 xi <;> rfl

theorem consider_transport (dr : Draws X) (g i : Nat) (alfa : X) (pop : List (List X)) :
    ∀ (n j : Nat) (st : List X × Bool),
    consider A c' dist' dr g i alfa (brightness A f' (pop.map (List.map sh))) (pop.map (List.map sh)) j n
      (st.1.map sh, st.2) =
    (consider A c dist dr g i alfa (brightness A f pop) pop j n st).map fun r => (r.1.map sh, r.2)
  | 0, _, _ => rfl
  | n + 1, j, st => by
    rw [consider, consider, considerOne_transport H]
    cases considerOne A c dist dr g i alfa (brightness A f pop) pop j st with
    | error e => rfl
    | ok r => exact consider_transport dr g i alfa pop n (j + 1) r

theorem brownian_transport (alfa : X) (b : Nat → X) : ∀ (d : Nat) (xs : List X),
    brownian A c' alfa b d (xs.map sh) = (brownian A c alfa b d xs).map sh
  | _, [] => rfl
  | d, x :: xs => by
    rw [List.map_cons, brownian, brownian, List.map_cons, brownian_transport alfa b (d + 1) xs, H.add, clamp_transport H,
      H.beta0, H.gamma]

theorem moveFirefly_transport (dr : Draws X) (g : Nat) (alfa : X) (pop : List (List X)) (i : Nat) :
    moveFirefly A c' dist' dr g alfa (brightness A f' (pop.map (List.map sh))) (pop.map (List.map sh)) i =
      (moveFirefly A c dist dr g alfa (brightness A f pop) pop i).map (List.map sh) := by
  unfold moveFirefly
  rw [index_map, H.populationSize]
  cases index pop i with
  | error e => rfl
  | ok x =>
    show (consider A c' dist' dr g i alfa _ _ 0 c.populationSize (x.map sh, false) >>= fun r => _) =
      Except.map _ (consider A c dist dr g i alfa _ _ 0 c.populationSize (x, false) >>= fun r => _)
    rw [consider_transport H dr g i alfa pop c.populationSize 0 (x, false)]
    cases consider A c dist dr g i alfa (brightness A f pop) pop 0 c.populationSize (x, false) with
    | error e => rfl
    | ok r =>
      obtain ⟨res, moved⟩ := r
      cases moved with
      | true => rfl
      | false =>
        show Except.ok (brownian A c' alfa (dr.brown g i) 0 (res.map sh)) =
          Except.ok ((brownian A c alfa (dr.brown g i) 0 res).map sh)
        rw [brownian_transport H]

theorem moveAll_transport (dr : Draws X) (g : Nat) (alfa : X) (pop : List (List X)) : ∀ (n i : Nat),
    moveAll A c' dist' dr g alfa (brightness A f' (pop.map (List.map sh))) (pop.map (List.map sh)) i n =
      (moveAll A c dist dr g alfa (brightness A f pop) pop i n).map (List.map (List.map sh))
  | 0, _ => rfl
  | n + 1, i => by
    rw [moveAll, moveAll, moveFirefly_transport H, moveAll_transport dr g alfa pop n (i + 1)]
    cases moveFirefly A c dist dr g alfa (brightness A f pop) pop i with
    | error e => rfl
    | ok x => cases moveAll A c dist dr g alfa (brightness A f pop) pop (i + 1) n <;> rfl

theorem brightest_transport : ∀ (xs : List (List X)) (i maxpos : Nat) (m m' : X),
    ((m = A.zero ∧ m' = A.zero) ∨ ∃ y, m = A.div A.one (f y) ∧ m' = A.div A.one (ψ (f y))) →
    brightest A i (brightness A f' (xs.map (List.map sh))) maxpos m' = brightest A i (brightness A f xs) maxpos m
  | [], _, _, _, _, _ => rfl
  | x :: xs, i, maxpos, m, m', hm => by
    show (if A.eq (A.div A.one (f' (x.map sh))) A.infinity = true then i else
        if A.lt m' (A.div A.one (f' (x.map sh))) = true then
          brightest A (i + 1) (brightness A f' (xs.map (List.map sh))) i (A.div A.one (f' (x.map sh)))
        else brightest A (i + 1) (brightness A f' (xs.map (List.map sh))) maxpos m') =
      (if A.eq (A.div A.one (f x)) A.infinity = true then i else
        if A.lt m (A.div A.one (f x)) = true then
          brightest A (i + 1) (brightness A f xs) i (A.div A.one (f x))
        else brightest A (i + 1) (brightness A f xs) maxpos m)
    have hlt : A.lt m' (A.div A.one (ψ (f x))) = A.lt m (A.div A.one (f x)) := by
      rcases hm with ⟨rfl, rfl⟩ | ⟨y, rfl, rfl⟩
      · exact H.positive x
      · exact H.brighter y x
    rw [H.objective, H.infinite, hlt, brightest_transport xs (i + 1) i _ _ (.inr ⟨x, rfl, rfl⟩),
      brightest_transport xs (i + 1) maxpos m m' hm]

/-- Related states of the main loop. -/
structure Related (A : FloatOps X K) (f f' : List X → X) (sh ψ : X → X) (st st' : St X) : Prop where
  pop : st'.pop = st.pop.map (List.map sh)
  bright : st.bright = brightness A f st.pop
  bright' : st'.bright = brightness A f' (st.pop.map (List.map sh))
  alfa : st'.alfa = st.alfa
  best : (st.best = A.maxv ∧ st'.best = A.maxv) ∨ ∃ y, st.best = f y ∧ st'.best = ψ (f y)

theorem generation_transport (dr : Draws X) (g : Nat) {st st' : St X} (hs : Related A f f' sh ψ st st') :
    generation A c' f' dist' dr g st' =
      (generation A c f dist dr g st).map (fun r => (r.1.transport A f' sh ψ, r.2.map (Ev.transport sh ψ))) ∧
    ∀ r, generation A c f dist dr g st = .ok r → Related A f f' sh ψ r.1 (r.1.transport A f' sh ψ) := by
  unfold generation
  rw [hs.pop, hs.bright, hs.bright', hs.alfa, List.length_map, moveAll_transport H]
  cases moveAll A c dist dr g st.alfa (brightness A f st.pop) st.pop 0 st.pop.length with
  | error e => exact ⟨rfl, fun r h => by cases h⟩
  | ok pop =>
    have ht : (brightness A f' (pop.map (List.map sh))).take c'.populationSize =
        brightness A f' ((pop.take c.populationSize).map (List.map sh)) := by
      unfold brightness; rw [← List.map_take, ← List.map_take, H.populationSize]
    have hb : brightest A 0 ((brightness A f' (pop.map (List.map sh))).take c'.populationSize) 0 A.zero =
        brightest A 0 ((brightness A f pop).take c.populationSize) 0 A.zero := by
      rw [ht, brightest_transport H _ 0 0 A.zero A.zero (.inl ⟨rfl, rfl⟩)]
      unfold brightness; rw [List.map_take]
    show (index (pop.map (List.map sh)) (brightest A 0 ((brightness A f' (pop.map (List.map sh))).take c'.populationSize)
        0 A.zero) >>= fun x => pure ((⟨pop.map (List.map sh), brightness A f' (pop.map (List.map sh)),
          A.mul st.alfa c'.delta, if A.lt (f' x) st'.best = true then f' x else st'.best⟩ : St X),
          [Ev.onIterationStart g, Ev.onCurrentBest (if A.lt (f' x) st'.best = true then f' x else st'.best) x,
            Ev.onIterationEnd g])) =
      Except.map _ (index pop (brightest A 0 ((brightness A f pop).take c.populationSize)
        0 A.zero) >>= fun x => pure ((⟨pop, brightness A f pop,
          A.mul st.alfa c.delta, if A.lt (f x) st.best = true then f x else st.best⟩ : St X),
          [Ev.onIterationStart g, Ev.onCurrentBest (if A.lt (f x) st.best = true then f x else st.best) x,
            Ev.onIterationEnd g])) ∧
      ∀ r, (index pop (brightest A 0 ((brightness A f pop).take c.populationSize)
        0 A.zero) >>= fun x => pure ((⟨pop, brightness A f pop,
          A.mul st.alfa c.delta, if A.lt (f x) st.best = true then f x else st.best⟩ : St X),
          [Ev.onIterationStart g, Ev.onCurrentBest (if A.lt (f x) st.best = true then f x else st.best) x,
            Ev.onIterationEnd g])) = Except.ok r → Related A f f' sh ψ r.1 (r.1.transport A f' sh ψ)
    rw [hb, index_map]
    cases index pop (brightest A 0 ((brightness A f pop).take c.populationSize) 0 A.zero) with
    | error e => exact ⟨rfl, fun r h => by cases h⟩
    | ok x =>
      have hbest : (if A.lt (ψ (f x)) st'.best = true then ψ (f x) else st'.best) =
          ψ (if A.lt (f x) st.best = true then f x else st.best) ∧
          (((if A.lt (f x) st.best = true then f x else st.best) = A.maxv ∧
            ψ (if A.lt (f x) st.best = true then f x else st.best) = A.maxv) ∨
            ∃ y, (if A.lt (f x) st.best = true then f x else st.best) = f y ∧
              ψ (if A.lt (f x) st.best = true then f x else st.best) = ψ (f y)) := by
        rcases hs.best with ⟨h1, h2⟩ | ⟨y, h1, h2⟩
        · rw [h1, h2, H.max]
          cases hl : A.lt (f x) A.maxv with
          | true => exact ⟨rfl, .inr ⟨x, rfl, rfl⟩⟩
          | false =>
            rcases H.reported with hr | hr
            · exact ⟨hr.symm, .inl ⟨rfl, hr⟩⟩
            · rw [hr x] at hl; cases hl
        · rw [h1, h2, H.value]
          cases A.lt (f x) (f y) with
          | true => exact ⟨rfl, .inr ⟨x, rfl, rfl⟩⟩
          | false => exact ⟨rfl, .inr ⟨y, rfl, rfl⟩⟩
      constructor
      · show Except.ok ((⟨pop.map (List.map sh), brightness A f' (pop.map (List.map sh)),
          A.mul st.alfa c'.delta, if A.lt (f' (x.map sh)) st'.best = true then f' (x.map sh) else st'.best⟩ : St X),
          [Ev.onIterationStart g,
            Ev.onCurrentBest (if A.lt (f' (x.map sh)) st'.best = true then f' (x.map sh) else st'.best) (x.map sh),
            Ev.onIterationEnd g]) = _
        rw [H.objective, hbest.1, H.delta]
        rfl
      · intro r hr
        have hr' : _ = r := Except.ok.inj hr
        subst hr'
        exact ⟨rfl, rfl, rfl, rfl, hbest.2⟩

theorem generations_transport (dr : Draws X) : ∀ (n g : Nat) {st st' : St X}, Related A f f' sh ψ st st' →
    generations A c' f' dist' dr g n st' =
      (generations A c f dist dr g n st).map
        (fun r => (r.1.map (St.transport A f' sh ψ), r.2.map (Ev.transport sh ψ)))
  | 0, _, _, _, _ => rfl
  | n + 1, g, st, st', hs => by
    obtain ⟨h1, h2⟩ := generation_transport H dr g hs
    rw [generations, generations, h1]
    cases hg : generation A c f dist dr g st with
    | error e => rfl
    | ok r =>
      obtain ⟨s1, evs⟩ := r
      show (generations A c' f' dist' dr (g + 1) n (s1.transport A f' sh ψ) >>= fun r => _) =
        Except.map _ (generations A c f dist dr (g + 1) n s1 >>= fun r => _)
      rw [generations_transport dr n (g + 1) (h2 _ hg)]
      cases generations A c f dist dr (g + 1) n s1 with
      | error e => rfl
      | ok q =>
        obtain ⟨sts, evs'⟩ := q
        show Except.ok (_ :: _, _ ++ _) = Except.ok (_, _)
        rw [List.map_append]
        rfl

/-- Configurations that differ by a change of coordinates and of values perform the same run up to that change. -/
theorem run_transport (dr : Draws X) (pop : List (List X)) :
    run A c' f' dist' dr (pop.map (List.map sh)) =
      (run A c f dist dr pop).map (fun r => (r.1.map (St.transport A f' sh ψ), r.2.map (Ev.transport sh ψ))) := by
  unfold run
  rw [H.maxGenerations, generations_transport H dr c.maxGenerations 0 (st := initial A c f pop)
    (st' := initial A c' f' (pop.map (List.map sh))) ⟨rfl, rfl, rfl, H.alfa0, .inl ⟨rfl, rfl⟩⟩]
  cases generations A c f dist dr 0 c.maxGenerations (initial A c f pop) with
  | error e => rfl
  | ok r =>
    obtain ⟨sts, evs⟩ := r
    show Except.ok (_, Ev.onStart :: _ ++ [Ev.onEnd]) = Except.ok (_, List.map (Ev.transport sh ψ) (Ev.onStart :: evs ++ [Ev.onEnd]))
    rw [List.map_append, List.map_cons]
    rfl

end general

section exact
variable {F : Type} [Field F] [LinearOrder F] [IsStrictOrderedRing F]
variable (expo sqrt : Ext F → Ext F) (maxv : F)

/-- A transformation of the finite values. -/
def onFinite (φ : F → F) : Ext F → Ext F
  | .fin a => .fin (φ a)
  | a => a

/-- A coordinate shifted by `b`. -/
def shifted (b : F) (x : Ext F) : Ext F := Ext.add x (.fin b)

theorem bright_lt {a b : F} (ha : 0 ≤ a) (hb : 0 ≤ b) :
    (Ext.ops expo sqrt maxv).lt (brightOf expo sqrt maxv (.fin a)) (brightOf expo sqrt maxv (.fin b)) = decide (b < a) := by
  rw [Bool.eq_iff_iff, decide_eq_true_iff]
  exact C84_attracted_by_better expo sqrt maxv a b ha hb

/-- **C145** (fireflies).  For an objective with finite values in `[0, f64::MAX)`, replace `f` by `φ ∘ f` with `φ`
strictly increasing on the values and staying in that range (and, if the value 0 occurs, fixing 0).  With the same draws the
run is the same: same panic or the same positions in every generation and the same callbacks with the same positions, every
reported value `v` now reading `φ v`.  (Exact arithmetic; distance, exponential and coordinates are arbitrary.) -/
theorem C145_firefly (c : Cfg (Ext F)) (v : List (Ext F) → F) (φ : F → F)
    (dist : List (Ext F) → List (Ext F) → Except Panic (Ext F)) (dr : Draws (Ext F)) (pop : List (List (Ext F)))
    (hv : ∀ x, 0 ≤ v x) (hm : ∀ x, v x < maxv) (hv' : ∀ x, 0 ≤ φ (v x)) (hm' : ∀ x, φ (v x) < maxv)
    (hφ : ∀ x y, v x < v y → φ (v x) < φ (v y)) (h0 : ∀ x, φ (v x) = 0 ↔ v x = 0) :
    run (Ext.ops expo sqrt maxv) c (fun x => .fin (φ (v x))) dist dr pop =
      (run (Ext.ops expo sqrt maxv) c (fun x => .fin (v x)) dist dr pop).map fun r =>
        (r.1.map (St.transport (Ext.ops expo sqrt maxv) (fun x => .fin (φ (v x))) id (onFinite φ)),
          r.2.map (Ev.transport id (onFinite φ))) := by
  have hlt : ∀ x y, φ (v x) < φ (v y) ↔ v x < v y := by
    intro x y
    refine ⟨fun h => ?_, hφ x y⟩
    rcases lt_trichotomy (v x) (v y) with h' | h' | h'
    · exact h'
    · rw [h'] at h; exact absurd h (lt_irrefl _)
    · exact absurd h (lt_asymm (hφ y x h'))
  have H : Symmetry (Ext.ops expo sqrt maxv) c c (fun x => .fin (v x)) (fun x => .fin (φ (v x))) dist dist id
      (onFinite φ) := by
    refine ⟨rfl, rfl, rfl, rfl, rfl, rfl, rfl, rfl, fun _ _ => rfl, fun _ _ => rfl, fun _ _ => rfl, fun x => ?_,
      fun x y => ?_, fun x y => ?_, fun x => ?_, fun x => ?_, fun x y => ?_, fun x => ?_, .inr fun x => ?_⟩
    · rw [List.map_id]; rfl
    · rw [List.map_id, List.map_id]
    · have h1 := bright_lt expo sqrt maxv (hv' x) (hv' y)
      have h2 := bright_lt expo sqrt maxv (hv x) (hv y)
      exact h1.trans ((decide_eq_decide.2 (hlt y x)).trans h2.symm)
    · have key : ∀ t : F, ((Ext.ops expo sqrt maxv).eq (brightOf expo sqrt maxv (.fin t))
          (Ext.ops expo sqrt maxv).infinity = true ↔ t = 0) := by
        intro t
        rw [eq_pinf, brightOf_fin]
        split
        · simpa
        · simpa
      rw [Bool.eq_iff_iff]
      exact (key _).trans ((h0 x).trans (key _).symm)
    · have key : ∀ t : F, 0 ≤ t → (Ext.ops expo sqrt maxv).lt (.fin 0) (brightOf expo sqrt maxv (.fin t)) = true := by
        intro t ht
        rw [brightOf_fin]
        split
        · exact fin_lt_pinf expo sqrt maxv
        · rename_i hne
          exact (fin_lt_fin expo sqrt maxv).2 (one_div_pos.2 (lt_of_le_of_ne ht (Ne.symm hne)))
      exact (key _ (hv' x)).trans (key _ (hv x)).symm
    · rw [Bool.eq_iff_iff]
      exact (fin_lt_fin expo sqrt maxv).trans ((hlt x y).trans (fin_lt_fin expo sqrt maxv).symm)
    · exact ((fin_lt_fin expo sqrt maxv).2 (hm' x)).trans ((fin_lt_fin expo sqrt maxv).2 (hm x)).symm
    · exact (fin_lt_fin expo sqrt maxv).2 (hm x)
  have := run_transport H dr pop
  rwa [show pop.map (List.map id) = pop by rw [show (List.map id : List (Ext F) → List (Ext F)) = id from
    funext List.map_id, List.map_id]] at this

theorem shift_sub (b : F) (x y : Ext F) : Ext.sub (shifted b x) (shifted b y) = Ext.sub x y := by
  cases x <;> cases y <;> simp [shifted, Ext.sub, Ext.add, Ext.neg]

theorem shift_cmp (b : F) (x y : Ext F) :
    Fl.partialCmp (Ext.view (shifted b x)) (Ext.view (shifted b y)) = Fl.partialCmp (Ext.view x) (Ext.view y) := by
  cases x with
  | nan => rfl
  | ninf => cases y <;> rfl
  | pinf => cases y <;> rfl
  | fin x =>
    cases y with
    | nan => rfl
    | ninf => rfl
    | pinf => rfl
    | fin y =>
      have h : ∀ z : F, Ext.view (.fin z : Ext F) = (Fl.num z : Fl F).map (fun t : F => ((t : WithTop F) : WithBot (WithTop F))) :=
        fun _ => rfl
      have hm : StrictMono (fun t : F => ((t : WithTop F) : WithBot (WithTop F))) := fun s t hst =>
        WithBot.coe_lt_coe.2 (WithTop.coe_lt_coe.2 hst)
      show Fl.partialCmp (Ext.view (.fin (x + b))) (Ext.view (.fin (y + b))) = _
      rw [h, h, h, h, Fl.partialCmp_map hm, Fl.partialCmp_map hm]
      have hs : StrictMono (fun t : F => t + b) := fun s t hst => by simpa using hst
      exact Fl.partialCmp_map hs (.num x) (.num y)

/-- **C146** (fireflies).  Move the origin: every bound and every starting coordinate is shifted by `b`, and the objective
and the distance read the shifted coordinates.  In exact arithmetic, with the same draws, the whole run is shifted by `b`:
same panic, or positions shifted by `b` in every generation and the same callbacks with the same values and the positions
shifted by `b`. -/
theorem C146_firefly (b : F) (c : Cfg (Ext F)) (f f' : List (Ext F) → Ext F)
    (dist dist' : List (Ext F) → List (Ext F) → Except Panic (Ext F)) (dr : Draws (Ext F)) (pop : List (List (Ext F)))
    (hf : ∀ x, f' (x.map (shifted b)) = f x) (hd : ∀ x y, dist' (x.map (shifted b)) (y.map (shifted b)) = dist x y) :
    run (Ext.ops expo sqrt maxv) { c with lower := shifted b c.lower, upper := shifted b c.upper } f' dist' dr
        (pop.map (List.map (shifted b))) =
      (run (Ext.ops expo sqrt maxv) c f dist dr pop).map fun r =>
        (r.1.map (St.transport (Ext.ops expo sqrt maxv) f' (shifted b) id), r.2.map (Ev.transport (shifted b) id)) := by
  have hadd : ∀ x s : Ext F, Ext.add (shifted b x) s = shifted b (Ext.add x s) := by
    intro x s
    cases x <;> cases s <;> simp [shifted, Ext.add, add_right_comm]
  have H : Symmetry (Ext.ops expo sqrt maxv) c { c with lower := shifted b c.lower, upper := shifted b c.upper } f f'
      dist dist' (shifted b) id :=
    ⟨rfl, rfl, rfl, rfl, rfl, rfl, rfl, rfl, hadd, shift_sub b, shift_cmp b, hf, hd,
      fun _ _ => rfl, fun _ => rfl, fun _ => rfl, fun _ _ => rfl, fun _ => rfl, .inl rfl⟩
  exact run_transport H dr pop

/-- **C146** (the distances).  Both shipped distances qualify: they do not change when both points are shifted. -/
theorem C146_distances (b : F) (x y : List (Ext F)) :
    taxi (Ext.ops expo sqrt maxv) (x.map (shifted b)) (y.map (shifted b)) = taxi (Ext.ops expo sqrt maxv) x y ∧
    cartesian (Ext.ops expo sqrt maxv) (x.map (shifted b)) (y.map (shifted b)) = cartesian (Ext.ops expo sqrt maxv) x y := by
  have h1 : ∀ (xs : List (Ext F)) (d : Nat) (acc : Ext F),
      taxiFrom (Ext.ops expo sqrt maxv) (y.map (shifted b)) d acc (xs.map (shifted b)) =
        taxiFrom (Ext.ops expo sqrt maxv) y d acc xs := by
    intro xs
    induction xs with
    | nil => intro d acc; rfl
    | cons x xs ih =>
      intro d acc
      rw [List.map_cons, taxiFrom, taxiFrom, index_map]
      cases index y d with
      | error e => rfl
      | ok z =>
        show taxiFrom _ _ _ (Ext.add acc (Ext.abs (Ext.sub (shifted b x) (shifted b z)))) _ =
          taxiFrom _ _ _ (Ext.add acc (Ext.abs (Ext.sub x z))) _
        rw [shift_sub, ih]
  have h2 : ∀ (xs : List (Ext F)) (d : Nat) (acc : Ext F),
      sumSquares (Ext.ops expo sqrt maxv) (y.map (shifted b)) d acc (xs.map (shifted b)) =
        sumSquares (Ext.ops expo sqrt maxv) y d acc xs := by
    intro xs
    induction xs with
    | nil => intro d acc; rfl
    | cons x xs ih =>
      intro d acc
      rw [List.map_cons, sumSquares, sumSquares, index_map]
      cases index y d with
      | error e => rfl
      | ok z =>
        show sumSquares _ _ _ (Ext.add acc (Ext.mul (Ext.sub (shifted b x) (shifted b z)) (Ext.sub (shifted b x) (shifted b z)))) _ =
          sumSquares _ _ _ (Ext.add acc (Ext.mul (Ext.sub x z) (Ext.sub x z))) _
        rw [shift_sub, ih]
  refine ⟨h1 x 0 _, ?_⟩
  unfold cartesian
  rw [h2]

/-- **C146** (the contrast).  The firefly algorithm does not scale with the box: a firefly without a brighter one moves, in
one generation, by at most the square of the current step size in every coordinate (plus the bounds test), however wide the
box is.  `st.alfa` is at most `alfa0` and shrinks (C120), draws are in [-1, 1]. -/
theorem C146_firefly_walk_ignores_box {c : Cfg (Ext F)} {f : List (Ext F) → Ext F}
    {dist : List (Ext F) → List (Ext F) → Except Panic (Ext F)} {dr : Draws (Ext F)} {g : Nat} {st st' : St (Ext F)}
    {evs : List (Ev (Ext F))} (h : generation (Ext.ops expo sqrt maxv) c f dist dr g st = .ok (st', evs)) {i : Nat}
    {x : List (Ext F)} (hx : st.pop[i]? = some x)
    (hno : ∀ k, k < c.populationSize → ∀ bi bk, st.bright[i]? = some bi → st.bright[k]? = some bk →
      (Ext.ops expo sqrt maxv).lt bi bk = false)
    {al w lo up : F} (hal : st.alfa = .fin al) (hlo : c.lower = .fin lo) (hup : c.upper = .fin up)
    (hw : expo (Ext.mul (Ext.mul (.fin (-1)) c.beta0) c.gamma) = .fin w) (hw1 : |w| ≤ 1)
    (hb : ∀ d, ∃ t : F, dr.brown g i d = .fin t ∧ |t| ≤ 1) {d : Nat} {a : F} (ha : x[d]? = some (.fin a))
    (hin : lo < a - al ^ 2 ∧ a + al ^ 2 < up) :
    ∃ (y : List (Ext F)) (a' : F), st'.pop[i]? = some y ∧ y[d]? = some (.fin a') ∧ |a' - a| ≤ al ^ 2 := by
  obtain ⟨y, hy, -, hk⟩ := C86_brightest_walks h hx hno
  obtain ⟨t, ht, ht1⟩ := hb d
  have hd := hk d _ ha
  have hstep : (Ext.ops expo sqrt maxv).add (.fin a) ((Ext.ops expo sqrt maxv).mul ((Ext.ops expo sqrt maxv).mul
      (dr.brown g i d) ((Ext.ops expo sqrt maxv).sq st.alfa)) ((Ext.ops expo sqrt maxv).expo
        ((Ext.ops expo sqrt maxv).mul ((Ext.ops expo sqrt maxv).mul (Ext.ops expo sqrt maxv).minusOne c.beta0) c.gamma))) =
      .fin (a + t * (al * al) * w) := by
    show Ext.add (.fin a) (Ext.mul (Ext.mul (dr.brown g i d) (Ext.mul st.alfa st.alfa))
      (expo (Ext.mul (Ext.mul (.fin (-1)) c.beta0) c.gamma))) = _
    rw [ht, hal, hw]; rfl
  rw [hstep] at hd
  have hle : |t * (al * al) * w| ≤ al ^ 2 := by
    rw [abs_mul, abs_mul, abs_of_nonneg (mul_self_nonneg al), ← sq]
    calc |t| * al ^ 2 * |w| ≤ 1 * al ^ 2 * 1 :=
          mul_le_mul (mul_le_mul_of_nonneg_right ht1 (sq_nonneg al)) hw1 (abs_nonneg w)
            (mul_nonneg zero_le_one (sq_nonneg al))
      _ = al ^ 2 := by ring
  have hb := abs_le.1 hle
  have hc := clamp_below expo sqrt maxv (c := c) hlo hup (v := a + t * (al * al) * w) (by linarith [hin.2, hb.2])
    (by linarith [hin.1, hin.2, sq_nonneg al])
  rw [hc, max_eq_right (by linarith [hin.1, hb.1])] at hd
  exact ⟨y, _, hy, hd, by rw [add_sub_cancel_left]; exact hle⟩

end exact

/-! ## Concrete cases -/

/-- `φ v = 2 v ^ 2` on the objective of the example run of C143 satisfies the hypotheses of `C145_firefly`. -/
example : (∀ x y : ℚ, 0 ≤ x → x < y → 2 * x ^ 2 < 2 * y ^ 2) ∧ ∀ x : ℚ, 2 * x ^ 2 = 0 ↔ x = 0 := by
  constructor
  · intro x y hx hxy; nlinarith
  · intro x; simp

/-- The example run of C143 (`ex_run`: two fireflies minimising `x²` on [-10, 10]) with the problem shifted by 5: every
position is shifted by 5. -/
example :
    (run (Ext.ops (fun _ => .fin 1) id 1000) { exCfg with lower := shifted 5 exCfg.lower, upper := shifted 5 exCfg.upper }
        (fun x => ((x.headD .nan).sub (.fin 5)).mul ((x.headD .nan).sub (.fin 5)))
        (taxi (Ext.ops (fun _ => .fin 1) id 1000)) exDraws [[.fin 6], [.fin 8]]).map (fun r => r.1.map St.pop) =
      .ok [[[.fin (13 / 2)], [.fin 15]], [[.fin (1301 / 200)], [.fin (67 / 10)]],
        [[.fin (130101 / 20000)], [.fin (1303 / 200)]], [[.fin (13010101 / 2000000)], [.fin (390343 / 60000)]]] := by
  decide +kernel

/-! ## Every theorem on a concrete case -/

section instances

/-- The square of the first coordinate, capped at 9: a non-negative objective below the largest float. -/
def cappedSq (x : List (Ext ℚ)) : ℚ := match x with
  | .fin a :: _ => min (a * a) 9
  | _ => 9

theorem cappedSq_range (x : List (Ext ℚ)) : 0 ≤ cappedSq x ∧ cappedSq x ≤ 9 := by
  unfold cappedSq
  split
  · exact ⟨le_min (mul_self_nonneg _) (by norm_num), min_le_right _ _⟩
  · norm_num

example := C145_firefly (fun _ => .fin 1) id 1000 exCfg cappedSq (fun x => 2 * x ^ 2) (taxi (Ext.ops (fun _ => .fin 1) id 1000)) exDraws
  [[.fin 1], [.fin 3]] (fun x => (cappedSq_range x).1) (fun x => lt_of_le_of_lt (cappedSq_range x).2 (by norm_num))
  (fun x => by positivity) (fun x => by have h := cappedSq_range x; nlinarith)
  (fun x y h => by have h1 := cappedSq_range x; nlinarith) (fun x => by simp)
example := C146_firefly (fun _ => .fin 1) id 1000 5 exCfg (fun _ => .fin 1) (fun _ => .fin 1) (taxi (Ext.ops (fun _ => .fin 1) id 1000))
  (taxi (Ext.ops (fun _ => .fin 1) id 1000)) exDraws [[.fin 1], [.fin 3]] (fun _ => rfl)
  (fun x y => (C146_distances (fun _ => .fin 1) id 1000 5 x y).1)
/-- A lone firefly at 1 in the box [-10, 10]: it moves by at most `alfa0² = 1`. -/
example {st' : St (Ext ℚ)} {evs : List (Ev (Ext ℚ))}
    (h : generation (Ext.ops (fun _ => .fin 1) id 1000) { exCfg with populationSize := 1 } exF
      (taxi (Ext.ops (fun _ => .fin 1) id 1000)) exDraws 0 ⟨[[.fin 1]], [.fin 1], .fin 1, .fin 1000⟩ = .ok (st', evs)) :=
  C146_firefly_walk_ignores_box (fun _ => .fin 1) id 1000 h (i := 0) (x := [.fin 1]) rfl
    (fun k hk bi bk h1 h2 => by
      have hk : k < 1 := hk
      obtain rfl : k = 0 := by omega
      cases h1; cases h2; decide +kernel)
    (al := 1) (w := 1) (lo := -10) (up := 10) rfl rfl rfl rfl (by norm_num)
    (fun d => ⟨1 / 2, rfl, by norm_num [abs_of_pos]⟩) (d := 0) (a := 1) rfl (by norm_num)

end instances

end Ecrs.Ff
