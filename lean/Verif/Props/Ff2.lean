import Verif.Props.Ff

set_option linter.unusedSectionVars false

/-!
# Properties of the firefly algorithm, part 2: C120 (the states of a run), C79 (without randomness)
-/

namespace Ecrs.Ff
open Ecrs

section general
variable {X K : Type} [LinearOrder K] {A : FloatOps X K}

theorem generations_states {c : Cfg X} {f : List X → X} {dist : List X → List X → Except Panic X} {dr : Draws X} :
    ∀ {n g : Nat} {st : St X} {sts : List (St X)} {evs : List (Ev X)},
      generations A c f dist dr g n st = .ok (sts, evs) → sts.length = n ∧
      ∀ k a b, (st :: sts)[k]? = some a → sts[k]? = some b → ∃ e, generation A c f dist dr (g + k) a = .ok (b, e)
  | 0, g, st, sts, evs, h => by cases h; simp
  | n + 1, g, st, sts, evs, h => by
    obtain ⟨st', e, sts', evs', rfl, rfl, h1, h2⟩ := generations_ok h
    obtain ⟨l, ih⟩ := generations_states h2
    refine ⟨by simp [l], fun k a b ha hb => ?_⟩
    cases k with
    | zero =>
      simp at ha hb
      subst ha hb
      exact ⟨e, h1⟩
    | succ k =>
      have := ih k a b (by simpa using ha) (by simpa using hb)
      rwa [show g + 1 + k = g + (k + 1) by omega] at this

/-- **C120, states.** A returning run goes through `max_generations` generations; generation `k` starts from what generation
`k - 1` left.  Generation 0 starts from the initial population with randomness coefficient `alfa0`; at the start of
*every* generation the brightness of every firefly is `1 / f` of its current position, and the coefficient has been
multiplied by `delta` once per completed generation. -/
theorem C120_states {c : Cfg X} {f : List X → X} {dist : List X → List X → Except Panic X} {dr : Draws X}
    {pop : List (List X)} {sts : List (St X)} {evs : List (Ev X)} (h : run A c f dist dr pop = .ok (sts, evs)) :
    sts.length = c.maxGenerations ∧
    ∃ st0 : St X, st0.pop = pop ∧
      (∀ k a b, (st0 :: sts)[k]? = some a → sts[k]? = some b → ∃ e, generation A c f dist dr k a = .ok (b, e)) ∧
      ∀ k a, (st0 :: sts)[k]? = some a →
        a.bright = a.pop.map (fun x => A.div A.one (f x)) ∧ a.alfa = (fun z => A.mul z c.delta)^[k] c.alfa0 := by
  unfold run at h
  obtain ⟨⟨sts', e⟩, h1, h⟩ := except_bind_ok.1 h
  rw [except_pure_ok] at h
  cases h
  obtain ⟨l, hs⟩ := generations_states h1
  have hstep : ∀ k a b, (initial A c f pop :: sts)[k]? = some a → sts[k]? = some b →
      ∃ e, generation A c f dist dr k a = .ok (b, e) := by
    intro k a b ha hb
    have := hs k a b ha hb
    rwa [Nat.zero_add] at this
  refine ⟨l, initial A c f pop, rfl, hstep, fun k => ?_⟩
  induction k with
  | zero =>
    intro a ha
    simp at ha
    subst ha
    exact ⟨rfl, rfl⟩
  | succ k ih =>
    intro a ha
    have hb : sts[k]? = some a := by simpa using ha
    have hk : k < (initial A c f pop :: sts).length := by
      have := (List.getElem?_eq_some_iff.1 hb).1
      rw [List.length_cons]; omega
    obtain ⟨e, he⟩ := hstep k _ a (List.getElem?_eq_getElem hk) hb
    obtain ⟨-, -, h2, h3, -⟩ := generation_ok he
    refine ⟨h2, ?_⟩
    rw [h3, (ih _ (List.getElem?_eq_getElem hk)).2, Function.iterate_succ_apply']

end general

section exact
variable {F : Type} [Field F] [LinearOrder F] [IsStrictOrderedRing F]
variable (expo sqrt : Ext F → Ext F) (maxv : F)

/-- **C120, decay.** In exact arithmetic the coefficient in generation `k` is `alfa0 · delta ^ k`.  An attraction step
multiplies it by `alfa0` once more (`C86_last_brighter_wins`): its noise has amplitude `alfa0² · delta ^ k`. -/
theorem C120_decay {c : Cfg (Ext F)} {f : List (Ext F) → Ext F}
    {dist : List (Ext F) → List (Ext F) → Except Panic (Ext F)} {dr : Draws (Ext F)}
    {pop : List (List (Ext F))} {sts : List (St (Ext F))} {evs : List (Ev (Ext F))} {a0 d : F}
    (h : run (Ext.ops expo sqrt maxv) c f dist dr pop = .ok (sts, evs)) (ha : c.alfa0 = .fin a0)
    (hd : c.delta = .fin d) (k : Nat) (st : St (Ext F)) (hst : sts[k]? = some st) :
    st.alfa = .fin (a0 * d ^ (k + 1)) ∧ (Ext.ops expo sqrt maxv).mul c.alfa0 st.alfa = .fin (a0 ^ 2 * d ^ (k + 1)) := by
  obtain ⟨-, st0, -, -, h1⟩ := C120_states h
  have h2 := (h1 (k + 1) st (by simpa using hst)).2
  have key : ∀ n : Nat, (fun z => (Ext.ops expo sqrt maxv).mul z c.delta)^[n] c.alfa0 = .fin (a0 * d ^ n) := by
    intro n
    induction n with
    | zero => rw [ha]; simp
    | succ n ih =>
      rw [Function.iterate_succ_apply', ih, hd]
      show Ext.fin (a0 * d ^ n * d) = _
      congr 1; ring
  rw [key] at h2
  refine ⟨h2, ?_⟩
  rw [h2, ha]
  show Ext.fin (a0 * (a0 * d ^ (k + 1))) = _
  congr 1; ring

theorem gen0_candidate_nan {c : Cfg (Ext F)} {lo up : F} (hlo : c.lower = .fin lo) (hup : c.upper = .fin up)
    (ha0 : c.alfa0 = .fin 0) (z x y u s : F) (hs : s ≠ 0) :
    clamp (Ext.ops expo sqrt maxv) c ((Ext.ops expo sqrt maxv).add (.fin x)
      (attractStep (Ext.ops expo sqrt maxv) c c.alfa0 (.fin z) (.fin x) (.fin y) (.fin u) (.fin s)
        ((Ext.ops expo sqrt maxv).ofNat 0))) = .nan := by
  have h1 : (Ext.ops expo sqrt maxv).div (.fin s) ((Ext.ops expo sqrt maxv).ofNat 0) = Ext.signed s := by
    show (if ((0 : Nat) : F) = 0 then (if s = 0 then Ext.nan else Ext.signed s) else Ext.fin (s / _)) = _
    rw [if_pos Nat.cast_zero, if_neg hs]
  have h2 : (Ext.ops expo sqrt maxv).mul ((Ext.ops expo sqrt maxv).mul c.alfa0 c.alfa0)
      ((Ext.ops expo sqrt maxv).sub ((Ext.ops expo sqrt maxv).add (.fin u) (Ext.signed s))
        (Ext.ops expo sqrt maxv).half) = .nan := by
    rw [ha0]
    unfold Ext.signed
    split
    · show Ext.neg (Ext.infMul (0 * 0)) = _
      rw [Ext.infMul, if_pos (mul_zero 0)]; rfl
    · show Ext.infMul (0 * 0) = _
      rw [Ext.infMul, if_pos (mul_zero 0)]
  have h4 : attractStep (Ext.ops expo sqrt maxv) c c.alfa0 (.fin z) (.fin x) (.fin y) (.fin u) (.fin s)
      ((Ext.ops expo sqrt maxv).ofNat 0) = .nan := by
    unfold attractStep
    rw [h1, h2]
    rfl
  rw [h4]
  show clamp (Ext.ops expo sqrt maxv) c .nan = .nan
  unfold clamp
  rw [if_pos]
  rw [hlo, hup]
  rfl

/-- **C79, without randomness.** With `alfa0 = 0` (randomness switched off) the division by the generation number 0 gives
`0 · ∞`: in generation 0 *every* firefly with a brighter one gets NaN in *every* coordinate, whatever the objective,
distance, positions and (non-zero) samples.  The bounds test lets NaN pass. -/
theorem C79_zero_alfa_nan {c : Cfg (Ext F)} {f : List (Ext F) → Ext F}
    {dist : List (Ext F) → List (Ext F) → Except Panic (Ext F)} {dr : Draws (Ext F)} {pop : List (List F)}
    {st' : St (Ext F)} {sts : List (St (Ext F))} {evs : List (Ev (Ext F))} {lo up : F}
    (h : run (Ext.ops expo sqrt maxv) c f dist dr (pop.map fun x => x.map .fin) = .ok (st' :: sts, evs))
    (hlo : c.lower = .fin lo) (hup : c.upper = .fin up) (ha0 : c.alfa0 = .fin 0)
    (hatt : ∀ x ∈ pop, ∀ y ∈ pop, ∀ d, dist (x.map .fin) (y.map .fin) = .ok d →
      ∃ z, attraction (Ext.ops expo sqrt maxv) c d = .fin z)
    (huni : ∀ i j d, ∃ u, dr.uni 0 i j d = .fin u) (hdist : ∀ i j d, ∃ s, dr.dist 0 i j d = .fin s ∧ s ≠ 0)
    {i j : Nat} {x : List F} (hx : pop[i]? = some x)
    (hbr : LastBrighter (Ext.ops expo sqrt maxv) (pop.map fun x => brightOf expo sqrt maxv (f (x.map .fin))) i
      c.populationSize j) :
    st'.pop[i]? = some (List.replicate x.length .nan) := by
  obtain ⟨-, st0, hp, hstep, hst⟩ := C120_states h
  obtain ⟨hbright, halfa⟩ := hst 0 st0 rfl
  obtain ⟨e, he⟩ := hstep 0 st0 st' rfl rfl
  have hbe : st0.bright = pop.map fun x => brightOf expo sqrt maxv (f (x.map .fin)) := by
    rw [hbright, hp]; simp [brightOf]
  obtain ⟨xi, xj, y, dd, k1, k2, k3, k4, k5, k6⟩ := C86_last_brighter_wins he (i := i) (j := j)
    (by rw [hp, List.length_map]; exact (List.getElem?_eq_some_iff.1 hx).1) (by rw [hbe]; exact hbr)
  rw [hp] at k1 k2
  have hxi : xi = x.map .fin := by
    rw [List.getElem?_map, hx] at k1
    simpa using k1.symm
  obtain ⟨xj', hxjm, hxj⟩ : ∃ xj' ∈ pop, xj = xj'.map Ext.fin := by
    obtain ⟨a, ha1, ha2⟩ := List.mem_map.1 (List.mem_of_getElem? k2)
    exact ⟨a, ha1, ha2.symm⟩
  subst hxi; subst hxj
  rw [k3]
  congr 1
  apply List.ext_getElem?
  intro d
  by_cases hd : d < x.length
  · obtain ⟨b, hb1, hb2⟩ := k6 d (.fin x[d]) (by rw [List.getElem?_map, List.getElem?_eq_getElem hd]; rfl)
    rw [List.getElem?_map] at hb1
    obtain ⟨b', -, rfl⟩ := Option.map_eq_some_iff.1 hb1
    obtain ⟨z, hz⟩ := hatt _ (List.mem_of_getElem? hx) _ hxjm _ k4
    obtain ⟨u, hu⟩ := huni i j d
    obtain ⟨s, hs, hs0⟩ := hdist i j d
    have := gen0_candidate_nan expo sqrt maxv hlo hup ha0 z x[d] b' u s hs0
    rw [hb2, List.getElem?_replicate, if_pos hd]
    congr 1
    refine Eq.trans ?_ this
    rw [halfa]
    unfold attractStep
    rw [← hz, ← hu, ← hs]
    rfl
  · rw [List.getElem?_eq_none (by rw [k5]; simpa using hd), List.getElem?_eq_none (by simpa using hd)]

/-- **C84, all signs.** Which of two fireflies with objective values `a` and `b` attracts the other, for all values
(exact arithmetic, `1/0 = +∞`): if both are non-negative or both negative, the one with value `a` is attracted by the other
iff `b < a`, as it should be; if `a < 0 ≤ b` it is attracted although the other is worse; if `b < 0 ≤ a` it is not
attracted although the other is better. -/
theorem C84_all_signs (a b : F) :
    let attracted := (Ext.ops expo sqrt maxv).lt (brightOf expo sqrt maxv (.fin a)) (brightOf expo sqrt maxv (.fin b))
    ((0 ≤ a ∧ 0 ≤ b) ∨ (a < 0 ∧ b < 0) → (attracted = true ↔ b < a)) ∧
    (a < 0 ∧ 0 ≤ b → attracted = true) ∧ (b < 0 ∧ 0 ≤ a → attracted = false) := by
  intro attracted
  refine ⟨?_, ?_, ?_⟩
  · rintro (⟨ha, hb⟩ | ⟨ha, hb⟩)
    · exact C84_attracted_by_better expo sqrt maxv a b ha hb
    · show (Ext.ops expo sqrt maxv).lt (brightOf expo sqrt maxv (.fin a)) (brightOf expo sqrt maxv (.fin b)) = true ↔ _
      rw [brightOf_fin, brightOf_fin, if_neg ha.ne, if_neg hb.ne, fin_lt_fin]
      exact one_div_lt_one_div_of_neg ha hb
  · rintro ⟨ha, hb⟩
    rcases hb.eq_or_lt with hb | hb
    · subst hb
      show (Ext.ops expo sqrt maxv).lt (brightOf expo sqrt maxv (.fin a)) (brightOf expo sqrt maxv (.fin 0)) = true
      rw [brightOf_fin, brightOf_fin, if_neg ha.ne, if_pos rfl]
      exact fin_lt_pinf expo sqrt maxv
    · exact (C84_negative_attracted_by_worse expo sqrt maxv a b ha hb).1
  · rintro ⟨hb, ha⟩
    rcases ha.eq_or_lt with ha | ha
    · subst ha
      show (Ext.ops expo sqrt maxv).lt (brightOf expo sqrt maxv (.fin 0)) (brightOf expo sqrt maxv (.fin b)) = false
      rw [brightOf_fin, brightOf_fin, if_pos rfl]
      exact pinf_lt expo sqrt maxv
    · exact (C84_negative_attracted_by_worse expo sqrt maxv b a hb ha).2

end exact

/-! ## Non-vacuity -/

/-- `C120_states` and `C120_decay` apply to the run of `example_run` (two generations). -/
example : ∃ sts evs, run AQ (cfgQ 2 3 1) absQ (taxi AQ) drQ [[.fin 3], [.fin 2], [.fin 1]] = .ok (sts, evs) ∧
    sts.length = 2 ∧ ∃ st, sts[1]? = some st ∧ st.alfa = .fin (1 * 1 ^ 2) := by
  have h := example_run
  unfold summary at h
  split at h
  · rename_i sts evs hr
    have hl := (C120_states hr).1
    have h1 : 1 < sts.length := by rw [hl]; decide
    exact ⟨sts, evs, hr, hl, _, List.getElem?_eq_getElem h1, (C120_decay _ _ _ hr rfl rfl 1 _ (List.getElem?_eq_getElem h1)).1⟩
  · cases h

/-- A run without randomness: after one generation the two fireflies that had a brighter one are at NaN. -/
example : summary (run AQ (cfgQ 1 3 0) absQ (taxi AQ) drQ [[.fin 3], [.fin 2], [.fin 1]]) =
    some ([[[.nan], [.nan], [.fin 1]]],
      [.onStart, .onIterationStart 0, .onCurrentBest (.fin 1) [.fin 1], .onIterationEnd 0, .onEnd]) := by
  decide +kernel

/-! ## Every theorem on a concrete case -/

section instances

/-- With `alfa0 = 0` the first of three fireflies, which sees a brighter one, gets NaN coordinates. -/
example {st' : St (Ext ℚ)} {sts : List (St (Ext ℚ))} {evs : List (Ev (Ext ℚ))}
    (h : run AQ (cfgQ 1 3 0) absQ (taxi AQ) drQ ([[3], [2], [(1 : ℚ)]].map fun x => x.map .fin) = .ok (st' :: sts, evs)) :
    st'.pop[0]? = some [.nan] :=
  C79_zero_alfa_nan (fun _ => .fin 1) id 1000 h rfl rfl rfl (fun _ _ _ _ _ _ => ⟨_, rfl⟩) (fun _ _ _ => ⟨_, rfl⟩)
    (fun _ _ _ => ⟨_, rfl, by decide +kernel⟩) (i := 0) (j := 2) (x := [3]) rfl
    ⟨by decide, ⟨_, _, rfl, rfl, by decide +kernel⟩, fun k h1 h2 => by have : (cfgQ 1 3 0).populationSize = 3 := rfl; omega⟩
example := (C84_all_signs id id (1000 : ℚ) (-3) 4).2.1 (by norm_num)
example := (C84_all_signs id id (1000 : ℚ) (-3) (-4)).1 (.inr (by norm_num))

end instances

end Ecrs.Ff
