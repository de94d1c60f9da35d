import Verif.Props.AcoBest
import Verif.Props.GaSolver
import Verif.Props.Ff2
import Verif.Props.Replacement
import Verif.Props.Presets

set_option linter.unusedSectionVars false

/-!
# Cases of C07, C08, C61, C69, C78, C87 and C90, for all inputs

The theorems of these names in the other files exhibit one failing input each, or assume more; here the case is characterised.
-/

namespace Ecrs.Aco
open Ecrs

/-- **C90, two vertices, every tour.** Whichever of the two tours an ant of a two-vertex instance found, it uses the only
edge twice, so `AntSystemPU` adds its fitness twice (`C90_ant_system_formula`). -/
theorem C90_two_vertices_every_tour (p : List Nat) (h : IsTour 2 p) : uses p 0 1 = 2 ∧ uses p 1 0 = 2 := by
  unfold IsTour at h
  have hl : p.length = 2 := by simpa using h.length_eq
  match p, hl with
  | [a, b], _ =>
    have ha : a ∈ List.range 2 := h.subset (by simp)
    have hb : b ∈ List.range 2 := h.subset (by simp)
    have hn : [a, b].Nodup := h.nodup_iff.2 List.nodup_range
    have hab : a ≠ b := by simpa using hn
    have ha' : a < 2 := List.mem_range.1 ha
    have hb' : b < 2 := List.mem_range.1 hb
    obtain ⟨rfl, rfl⟩ | ⟨rfl, rfl⟩ : (a = 0 ∧ b = 1) ∨ (a = 1 ∧ b = 0) := by omega
    · decide
    · decide

example : IsTour 2 [1, 0] := by unfold IsTour; decide

section nan
variable {X K : Type} [LinearOrder K] {A : AcoOps X K}

private theorem lt_nan_left {a b : X} (h : A.view a = .nan) : A.lt a b = false := by
  cases hh : A.lt a b with
  | false => rfl
  | true =>
    have := Fl.lt_iff.1 hh
    rw [h] at this
    simp [Fl.Lt] at this

private theorem lt_nan_right {a b : X} (h : A.view b = .nan) : A.lt a b = false := by
  cases hh : A.lt a b with
  | false => rfl
  | true =>
    have := Fl.lt_iff.1 hh
    rw [h] at this
    cases hv : A.view a <;> rw [hv] at this <;> simp [Fl.Lt] at this

/-- **C61, what a NaN does.** Whatever came before a solution of NaN fitness is forgotten, however fit it was: the best of
the batch is the best of what comes after the (last) NaN, or the NaN itself when nothing does.  The same holds of the two
best policies, except that `OverallBest` ignores a batch that ends with a NaN. -/
theorem C61_nan_forgets_everything_before (pre post : List (Sol X)) (s best : Sol X) (hs : A.view s.fitness = .nan) :
    (post ≠ [] → findBest A (pre ++ s :: post) = findBest A post ∧
      iterationBest A best (pre ++ s :: post) = iterationBest A best post ∧
      overallBest A best (pre ++ s :: post) = overallBest A best post) ∧
    (post = [] → findBest A (pre ++ s :: post) = .ok s ∧ iterationBest A best (pre ++ s :: post) = s ∧
      overallBest A best (pre ++ s :: post) = best) := by
  have habs : ∀ a : Sol X, better A a s = s := fun a => by
    unfold better; rw [lt_nan_left hs]; rfl
  have hfst : ∀ b : Sol X, better A s b = b := fun b => by
    unfold better; rw [lt_nan_right hs]; rfl
  have hpre : ∀ rest : List (Sol X), ∃ x xs, pre ++ s :: rest = x :: xs ∧
      xs.foldl (better A) x = rest.foldl (better A) s := by
    intro rest
    cases pre with
    | nil => exact ⟨s, rest, rfl, rfl⟩
    | cons x xs => exact ⟨x, xs ++ s :: rest, rfl, by rw [List.foldl_append, List.foldl_cons, habs]⟩
  constructor
  · intro hne
    obtain ⟨x, xs, he, hf⟩ := hpre post
    cases post with
    | nil => exact absurd rfl hne
    | cons t ts =>
      rw [List.foldl_cons, hfst] at hf
      rw [he]
      refine ⟨congrArg Except.ok hf, hf, ?_⟩
      simp only [overallBest, hf]
  · rintro rfl
    obtain ⟨x, xs, he, hf⟩ := hpre []
    rw [List.foldl_nil] at hf
    rw [he]
    refine ⟨congrArg Except.ok hf, hf, ?_⟩
    simp only [overallBest, hf]
    rw [lt_nan_right hs]
    rfl

end nan

/-- The hypothesis is met, and the loss is real: the fittest solution stands before the NaN. -/
example : Q.view (⟨[1, 0], .nan⟩ : Sol (Ext ℚ)).fitness = .nan ∧
    findBest Q ([⟨[0, 1], .fin 5⟩] ++ ⟨[1, 0], .nan⟩ :: [⟨[0], .fin 1⟩]) = .ok ⟨[0], .fin 1⟩ :=
  ⟨rfl, ((C61_nan_forgets_everything_before _ _ _ (Sol.default Q) rfl).1 (by simp)).1⟩

end Ecrs.Aco

namespace Ecrs.Ga
open Ecrs

section
variable {W I C K : Type} [LinearOrder K] (T : IndTrait I C K) (ops : Ops W I K) (p : GAParams)

/-- **C07, a lone NaN sticks, always.** Whatever the operators, the clock and the later generations are: if the initial
population shown to the probe consists of one individual and its fitness is NaN, then every returning run returns that
very individual, and never announces another best. -/
theorem C07_lone_nan_is_returned {m0 : Metrics} {best x : I} {tr : List (Ev I)} {w w' : W}
    (h : run T ops p m0 w = .ok ((best, tr), w')) (h0 : (shownPops tr).head? = some [x])
    (hx : T.fitness x = .nan) : best = x ∧ newBests tr = [x] := by
  obtain ⟨s, wa, s', wb, d, h1, h2, -, rfl, rfl⟩ := run_ok T ops p h
  obtain ⟨pop0, w1, w2, d0, -, -, hb, -, -, htr⟩ := prologue_ok T ops p h1
  have key : ∃ k ≤ p.generationLimit, (fun _ (s'' : St I) => s''.best = s.best ∧
      (T.fitness s.best = .nan → newBests s''.trace = [s.best]) ∧
      (shownPops s''.trace).head? = some s.pop ∨ T.fitness s.best ≠ .nan ∧
      (shownPops s''.trace).head? = some s.pop) (1 + k) s' := by
    refine loop_inv T ops p (Inv := fun _ (s'' : St I) => s''.best = s.best ∧
      (T.fitness s.best = .nan → newBests s''.trace = [s.best]) ∧
      (shownPops s''.trace).head? = some s.pop ∨ T.fitness s.best ≠ .nan ∧
      (shownPops s''.trace).head? = some s.pop) ?_ _ _ _ _ _ _ (.inl ⟨rfl, fun _ => by rw [htr]; simp [newBests], by
      rw [htr]; simp [shownPops]⟩) h2
    intro g s1 u s2 stop u' hi hit
    obtain ⟨_, _, _, _, _, _, _, _, _, _, _, _, _, _, _, _, _, b, _, _, -, -, -, -, -, -, -, -, -, -, -, -, -, hbest, -, -,
      htr2⟩ := iteration_ok T ops p hit
    by_cases hnan : T.fitness s.best = .nan
    · left
      rcases hi with ⟨e1, e2, e3⟩ | ⟨e, -⟩
      · have hlt : Fl.lt (T.fitness b) (T.fitness s1.best) = false := by
          cases hh : Fl.lt (T.fitness b) (T.fitness s1.best) with
          | false => rfl
          | true =>
            have := Fl.lt_iff.1 hh
            rw [e1, hnan] at this
            cases hv : T.fitness b <;> rw [hv] at this <;> simp [Fl.Lt] at this
        rw [hlt] at hbest htr2
        refine ⟨hbest.trans e1, fun _ => ?_, ?_⟩
        · rw [htr2]
          simpa [newBests] using e2 hnan
        · rw [htr2]
          unfold shownPops at e3 ⊢
          rw [List.filterMap_append, List.filterMap_append, List.filterMap_append, List.append_assoc, List.append_assoc,
            List.head?_append, e3]
          rfl
      · exact absurd hnan e
    · right
      refine ⟨hnan, ?_⟩
      have e3 : (shownPops s1.trace).head? = some s.pop := by
        rcases hi with ⟨-, -, e3⟩ | ⟨-, e3⟩ <;> exact e3
      rw [htr2]
      unfold shownPops at e3 ⊢
      rw [List.filterMap_append, List.filterMap_append, List.filterMap_append, List.append_assoc, List.append_assoc,
        List.head?_append, e3]
      rfl
  obtain ⟨k, -, hk⟩ := key
  have hhead : (shownPops s'.trace).head? = some s.pop := by
    rcases hk with ⟨-, -, e3⟩ | ⟨-, e3⟩ <;> exact e3
  have h0' : s.pop = [x] := by
    have : (shownPops (s'.trace ++ [Ev.onEnd { s'.metrics with totalDur := some d } s'.pop s'.best])).head? =
        some s.pop := by
      unfold shownPops at hhead ⊢
      rw [List.filterMap_append, List.head?_append, hhead]
      rfl
    rw [this] at h0
    exact Option.some.inj h0
  have hsb : s.best = x := by
    have := findBest_mem T hb
    rw [h0'] at this
    simpa using this
  rw [hsb] at hk
  rcases hk with ⟨e1, e2, -⟩ | ⟨e, -⟩
  · refine ⟨e1, ?_⟩
    have := e2 hx
    unfold newBests at this ⊢
    rw [List.filterMap_append, this]
    rfl
  · exact absurd hx e

end

/-- The hypotheses are met by the run of `C07_single_individual_nan_sticks`, whose later generations are numeric. -/
example : ∃ best tr w',
    run (Individual.trait Int Int) nanOps ⟨1, 3, 100⟩ (initialMetrics ⟨1, 3, 100⟩) 0 = .ok ((best, tr), w') ∧
      (shownPops tr).head? = some [⟨5, .nan⟩] ∧ (Individual.trait Int Int).fitness ⟨5, .nan⟩ = .nan :=
  ⟨_, _, _, rfl, by decide, rfl⟩

end Ecrs.Ga

namespace Ecrs.Ff
open Ecrs

/-- **C87, exactly which iterations are logged.** With a positive interval, an iteration starting at reading `t` is logged
iff `t` is at least `interval` seconds after the first threshold and at least `interval` seconds after every earlier
logged iteration.  So the first logged iteration is the first one starting `first + interval` seconds after the
construction of the policy, not `first` seconds after it as documented. -/
theorem C87_logged_iff (interval first t0 : Nat) (hi : 0 < interval) (ts : List Nat) (k t : Nat) (ht : ts[k]? = some t) :
    (elapsedLogged interval (elapsedNew first t0) ts)[k]? = some true ↔
      t0 + first * 1000000000 + interval * 1000000000 ≤ t ∧
      ∀ j tj, j < k → ts[j]? = some tj → (elapsedLogged interval (elapsedNew first t0) ts)[j]? = some true →
        tj + interval * 1000000000 ≤ t := by
  have key : ∀ (ts : List Nat) (T k t : Nat), ts[k]? = some t →
      ((elapsedLogged interval ⟨T, false⟩ ts)[k]? = some true ↔ T + interval * 1000000000 ≤ t ∧
        ∀ j tj, j < k → ts[j]? = some tj → (elapsedLogged interval ⟨T, false⟩ ts)[j]? = some true →
          tj + interval * 1000000000 ≤ t) := by
    intro ts
    induction ts with
    | nil => intro T k t h; simp at h
    | cons now ts ih =>
      intro T k t h
      have hcond : interval ≤ (now - T) / 1000000000 ↔ T + interval * 1000000000 ≤ now := by
        rw [Nat.le_div_iff_mul_le (by omega)]
        omega
      have hcons : elapsedLogged interval ⟨T, false⟩ (now :: ts) =
          decide (T + interval * 1000000000 ≤ now) ::
            elapsedLogged interval ⟨if T + interval * 1000000000 ≤ now then now else T, false⟩ ts := by
        rw [elapsedLogged]
        unfold elapsedStart
        by_cases hc : T + interval * 1000000000 ≤ now
        · rw [if_pos (hcond.2 hc), if_pos hc, decide_eq_true hc]
        · rw [if_neg (fun h => hc (hcond.1 h)), if_neg hc, decide_eq_false hc]
      rw [hcons]
      cases k with
      | zero =>
        simp only [List.getElem?_cons_zero, Option.some.injEq] at h ⊢
        subst h
        simp
      | succ k =>
        simp only [List.getElem?_cons_succ] at h ⊢
        rw [ih _ k t h]
        by_cases hc : T + interval * 1000000000 ≤ now
        · rw [if_pos hc]
          constructor
          · rintro ⟨a, b⟩
            refine ⟨by omega, fun j tj hj h1 h2 => ?_⟩
            cases j with
            | zero => simp at h1; omega
            | succ j => exact b j tj (by omega) (by simpa using h1) (by simpa using h2)
          · rintro ⟨a, b⟩
            refine ⟨b 0 now (by omega) (by simp) (by simpa using hc), fun j tj hj h1 h2 => ?_⟩
            exact b (j + 1) tj (by omega) (by simpa using h1) (by simpa using h2)
        · rw [if_neg hc]
          constructor
          · rintro ⟨a, b⟩
            refine ⟨a, fun j tj hj h1 h2 => ?_⟩
            cases j with
            | zero => simp at h2; omega
            | succ j => exact b j tj (by omega) (by simpa using h1) (by simpa using h2)
          · rintro ⟨a, b⟩
            refine ⟨a, fun j tj hj h1 h2 => ?_⟩
            exact b (j + 1) tj (by omega) (by simpa using h1) (by simpa using h2)
  exact key ts _ k t ht

example : elapsedLogged 10 (elapsedNew 2 0) [3 * 1000000000, 12 * 1000000000, 21 * 1000000000, 22 * 1000000000] =
    [false, true, false, true] := by decide

section teleport
variable {F : Type} [Field F] [LinearOrder F] [IsStrictOrderedRing F]
variable (expo sqrt : Ext F → Ext F) (maxv : F)

/-- **C78 in every run.** With the randomness switched off (`alfa0 = 0`, so every random step is 0), in any number of
dimensions, for any objective: a lone firefly that starts on the upper bound is on the lower bound after the first and
every later generation. -/
theorem C78_lone_firefly_teleports {c : Cfg (Ext F)} {f : List (Ext F) → Ext F}
    {dist : List (Ext F) → List (Ext F) → Except Panic (Ext F)} {dr : Draws (Ext F)} {n : Nat}
    {sts : List (St (Ext F))} {evs : List (Ev (Ext F))} {l u d e : F} (hl : c.lower = .fin l) (hu : c.upper = .fin u)
    (hlu : l < u) (ha : c.alfa0 = .fin 0) (hd : c.delta = .fin d)
    (hb : ∀ g k, ∃ z : F, dr.brown g 0 k = .fin z)
    (he : expo ((Ext.ops expo sqrt maxv).mul ((Ext.ops expo sqrt maxv).mul (.fin (-1)) c.beta0) c.gamma) = .fin e)
    (h : run (Ext.ops expo sqrt maxv) c f dist dr [List.replicate n c.upper] = .ok (sts, evs)) :
    ∀ st ∈ sts, st.pop = [List.replicate n c.lower] := by
  obtain ⟨hlen, st0, hp0, hstep, hall⟩ := C120_states h
  have halfa : ∀ (k : Nat) (a : St (Ext F)), (st0 :: sts)[k]? = some a → a.alfa = .fin 0 := by
    intro k a hk
    rw [(hall k a hk).2, ha, hd]
    clear hk
    induction k with
    | zero => rfl
    | succ k ih =>
      rw [Function.iterate_succ_apply', ih]
      show Ext.fin ((0 : F) * d) = _
      rw [zero_mul]
  -- one generation
  have hone : ∀ (k : Nat) (a b : St (Ext F)) (v : Ext F), (st0 :: sts)[k]? = some a → sts[k]? = some b → a.pop = [List.replicate n v] →
      (v = c.upper ∨ v = c.lower) → b.pop = [List.replicate n c.lower] := by
    intro k a b v hk hkb hpop hv
    obtain ⟨ev, hg⟩ := hstep k a b hk hkb
    have hba := (hall k a hk).1
    obtain ⟨y, hy, hylen, hyd⟩ := C86_brightest_walks hg (i := 0) (x := List.replicate n v) (by rw [hpop]; rfl) (by
      intro j _ bi bk h1 h2
      rw [hba, hpop] at h1 h2
      simp at h1
      cases j with
      | zero =>
        simp at h2
        rw [← h1, ← h2]
        cases hh : (Ext.ops expo sqrt maxv).lt ((Ext.ops expo sqrt maxv).div (Ext.ops expo sqrt maxv).one
            (f (List.replicate n v))) ((Ext.ops expo sqrt maxv).div (Ext.ops expo sqrt maxv).one
            (f (List.replicate n v))) with
        | false => rfl
        | true =>
          have := Fl.lt_iff.1 hh
          revert this
          generalize (Ext.ops expo sqrt maxv).view _ = q
          cases q <;> simp [Fl.Lt]
      | succ j => simp at h2)
    obtain ⟨x, hm, -⟩ := generation_ok hg
    have hlen' : b.pop.length = 1 := by
      have := (moveAll_ok hm).1
      rw [this, hpop]; rfl
    have hyv : y = List.replicate n c.lower := by
      refine List.ext_getElem? fun i => ?_
      by_cases hi : i < n
      · rw [hyd i v (by simp [hi]), halfa k a hk]
        obtain ⟨z, hz⟩ := hb k i
        obtain ⟨vf, hvf⟩ : ∃ vf : F, v = .fin vf := by
          rcases hv with rfl | rfl
          · exact ⟨u, hu⟩
          · exact ⟨l, hl⟩
        have : (Ext.ops expo sqrt maxv).add v ((Ext.ops expo sqrt maxv).mul ((Ext.ops expo sqrt maxv).mul (dr.brown k 0 i)
            ((Ext.ops expo sqrt maxv).sq (.fin 0))) ((Ext.ops expo sqrt maxv).expo
              ((Ext.ops expo sqrt maxv).mul ((Ext.ops expo sqrt maxv).mul (Ext.ops expo sqrt maxv).minusOne c.beta0)
                c.gamma))) = v := by
          have he' : (Ext.ops expo sqrt maxv).expo
              ((Ext.ops expo sqrt maxv).mul ((Ext.ops expo sqrt maxv).mul (Ext.ops expo sqrt maxv).minusOne c.beta0)
                c.gamma) = .fin e := he
          rw [he', hz, hvf]
          show Ext.fin (vf + (z * (0 * 0)) * e) = _
          rw [mul_zero, mul_zero, zero_mul, add_zero]
        rw [this]
        have hlt : Fl.Lt ((Ext.ops expo sqrt maxv).view c.lower) ((Ext.ops expo sqrt maxv).view c.upper) := by
          rw [hl, hu]
          exact Fl.lt_iff.1 ((fin_lt_fin expo sqrt maxv).2 hlu)
        have hcl : clamp (Ext.ops expo sqrt maxv) c v = c.lower := by
          rcases hv with rfl | rfl
          · exact C78_upper_bound_teleports c _ rfl hlt
          · have hnl : ((Ext.ops expo sqrt maxv).view c.lower).IsNum := hlt.le.isNum_left
            have hnu : ((Ext.ops expo sqrt maxv).view c.upper).IsNum := hlt.le.isNum_right
            exact (C78_bounds_test c _ hnl hnu).2.2.2 (Fl.le_refl hnl) hlt.le
        rw [hcl]
        simp [hi]
      · rw [List.getElem?_eq_none (by rw [hylen]; simp; omega), List.getElem?_eq_none (by simp; omega)]
    match hbp : b.pop, hlen' with
    | [y'], _ =>
      rw [hbp] at hy
      simp at hy
      rw [hy, hyv]
  -- induction over the generations
  have hind : ∀ (k : Nat) (b : St (Ext F)), sts[k]? = some b → b.pop = [List.replicate n c.lower] := by
    intro k
    induction k with
    | zero => intro b hk; exact hone 0 st0 b _ rfl hk hp0 (.inl rfl)
    | succ k ih =>
      intro b hk
      have hlt := (List.getElem?_eq_some_iff.1 hk).1
      have hk' : sts[k]? = some (sts[k]'(by omega)) := List.getElem?_eq_getElem _
      exact hone (k + 1) _ b _ (by simp) hk (ih _ hk') (.inr rfl)
  intro st hst
  obtain ⟨i, hi, rfl⟩ := List.getElem_of_mem hst
  exact hind i _ (List.getElem?_eq_getElem hi)

end teleport

/-- The hypotheses are met, by a run of three generations in two dimensions. -/
example : ∃ sts evs, run AQ { cfgQ 3 1 0 with dimensions := 2 } absQ (taxi AQ) drQ [List.replicate 2 (.fin 5)] =
      .ok (sts, evs) ∧ sts.length = 3 ∧ ∀ st ∈ sts, st.pop = [[.fin (-5), .fin (-5)]] := by
  have hs : (summary (run AQ { cfgQ 3 1 0 with dimensions := 2 } absQ (taxi AQ) drQ
      [List.replicate 2 (.fin 5)])).isSome = true := by decide +kernel
  cases hr : run AQ { cfgQ 3 1 0 with dimensions := 2 } absQ (taxi AQ) drQ [List.replicate 2 (.fin 5)] with
  | error e => rw [hr] at hs; simp [summary] at hs
  | ok r =>
    obtain ⟨sts, evs⟩ := r
    exact ⟨sts, evs, rfl, (C120_states hr).1, C78_lone_firefly_teleports (fun _ => .fin 1) id 1000 (l := -5) (u := 5)
      (d := 1) (e := 1) rfl rfl (by norm_num) rfl rfl (fun g k => ⟨_, rfl⟩) rfl hr⟩

end Ecrs.Ff

/-! ## C08: every family of WeakParent -/

namespace Ecrs.Ga
open Ecrs

section
variable {W I C K : Type} [LinearOrder K] (T : IndTrait I C K)

/-- Of a family in which `a` is strictly below three others, the two largest are strictly above `a`. -/
theorem twoLargest_above {a x y : I} {l₁ l₂ : List I} {p q r s : I} (h : TwoLargest T p q r s x y)
    (hfam : [p, q, r, s] = l₁ ++ a :: l₂) (hrest : ∀ z ∈ l₁ ++ l₂, Fl.Lt (T.fitness a) (T.fitness z)) :
    Fl.Lt (T.fitness a) (T.fitness x) ∧ Fl.Lt (T.fitness a) (T.fitness y) := by
  obtain ⟨u, v, hperm, h1, h2, h3⟩ := h
  have hlen : (l₁ ++ l₂).length = 3 := by
    have := congrArg List.length hfam
    simp only [List.length_cons, List.length_nil, List.length_append] at this ⊢
    omega
  have na : (T.fitness a).IsNum := by
    obtain ⟨z, hz⟩ := List.exists_mem_of_length_pos (l := l₁ ++ l₂) (by omega)
    exact (hrest z hz).le.isNum_left
  have nx := h1.isNum_right
  have ny := h1.isNum_left
  have hy : Fl.Lt (T.fitness a) (T.fitness y) := by
    by_contra hy
    have hya : Fl.Le (T.fitness y) (T.fitness a) := (Fl.not_lt na ny).1 hy
    have low : ∀ {z : I}, Fl.Le (T.fitness z) (T.fitness a) → Fl.lt (T.fitness a) (T.fitness z) = false := by
      intro z hz
      cases h : Fl.lt (T.fitness a) (T.fitness z) with
      | false => rfl
      | true => exact ((Fl.not_lt na hz.isNum_left).2 hz (Fl.lt_iff.1 h)).elim
    have hcount := hperm.countP_eq (fun z => Fl.lt (T.fitness a) (T.fitness z))
    have hall : (l₁ ++ l₂).countP (fun z => Fl.lt (T.fitness a) (T.fitness z)) = 3 := by
      rw [List.countP_eq_length.2 (fun z hz => Fl.lt_iff.2 (hrest z hz)), hlen]
    rw [hfam, List.perm_middle.countP_eq, List.countP_cons (l := l₁ ++ l₂), hall] at hcount
    simp only [List.countP_cons, List.countP_nil, low hya, low (h2.trans hya), low (h3.trans hya),
      low (Fl.le_refl na), Bool.false_eq_true, if_false] at hcount
    split at hcount <;> omega
  exact ⟨hy.trans_le h1, hy⟩

/-- **C08, violation, replacement, every family of every population.** In populations of the same even non-zero size
without NaN, a parent strictly better (smaller) than the other parent and both children of its family is always
discarded: both survivors of the family are strictly worse than it. -/
theorem C08_weak_parent_any_family {debug : Bool} {pop children : List I} (hl : pop.length = children.length)
    (he : pop.length % 2 = 0) (h0 : 0 < pop.length) (hp : ∀ i ∈ pop, (T.fitness i).IsNum)
    (hc : ∀ i ∈ children, (T.fitness i).IsNum) :
    Returns (weakParent T debug pop children : M W _) fun out => out.length = pop.length ∧
      ∀ k (h : 2 * k + 1 < pop.length) (h' : 2 * k + 1 < children.length) (h'' : 2 * k + 1 < out.length) (a b : I),
        (a = pop[2 * k] ∧ b = pop[2 * k + 1] ∨ a = pop[2 * k + 1] ∧ b = pop[2 * k]) →
        Fl.Lt (T.fitness a) (T.fitness b) → Fl.Lt (T.fitness a) (T.fitness children[2 * k]) →
        Fl.Lt (T.fitness a) (T.fitness children[2 * k + 1]) →
        Fl.Lt (T.fitness a) (T.fitness out[2 * k]) ∧ Fl.Lt (T.fitness a) (T.fitness out[2 * k + 1]) := by
  refine (C35_weak_parent T (debug := debug) hl he h0 hp hc).mono ?_
  rintro out ⟨hlen, hk⟩
  refine ⟨hlen, fun k h h' h'' a b hab hb hc1 hc2 => ?_⟩
  rcases hab with ⟨rfl, rfl⟩ | ⟨rfl, rfl⟩
  · refine twoLargest_above T (hk k h h' h'') (l₁ := []) (l₂ := [pop[2 * k + 1], children[2 * k], children[2 * k + 1]]) rfl ?_
    simp only [List.nil_append, List.mem_cons, List.not_mem_nil, or_false]
    rintro z (rfl | rfl | rfl) <;> assumption
  · refine twoLargest_above T (hk k h h' h'') (l₁ := [pop[2 * k]]) (l₂ := [children[2 * k], children[2 * k + 1]]) rfl ?_
    simp only [List.cons_append, List.nil_append, List.mem_cons, List.not_mem_nil, or_false]
    rintro z (rfl | rfl | rfl) <;> assumption

end

/-- The hypotheses are met, and the best individual of the population (fitness 1, second parent of the second family) is
evicted. -/
example := C08_weak_parent_any_family (W := Unit) (T := Individual.trait Nat Int) (debug := true)
  (pop := [⟨1, .num 60⟩, ⟨2, .num 40⟩, ⟨3, .num 5⟩, ⟨4, .num 1⟩]) (children := [⟨5, .num 10⟩, ⟨6, .num 12⟩, ⟨7, .num 7⟩, ⟨8, .num 2⟩])
  rfl rfl (by decide) (by simp [Individual.trait, Fl.IsNum]) (by simp [Individual.trait, Fl.IsNum])

end Ecrs.Ga

/-! ## C69: the real-valued preset and the unit cube, without assumptions on the fitness function -/

namespace Ecrs.Ga
open Ecrs

section
variable {G K F W : Type} [Field K] [LinearOrder K] [IsStrictOrderedRing K] [FloorSemiring K] [LinearOrder F]

/-- **C69, the unit cube.** For every fitness function (NaN included), population size, limit and draw: in a returning
run of the real-valued preset every gene of the result and of every individual shown or handed to an operator lies in
`[0,1)`. -/
theorem C69_unit_cube (R : Rng G K) (S : Slots W G) (worst : Fl F) (f : List K → Fl F) {dim : Nat} (hd : 0 < dim) (n : Nat)
    (elapsed : M W Nat) {p : GAParams} {m0 : Metrics} {best : Individual (List K) F}
    {tr : List (Ev (Individual (List K) F))} {w w' : W}
    (h : run (Individual.trait (List K) F) (rvcOps R S worst f dim n elapsed) p m0 w = .ok ((best, tr), w')) :
    (∀ x ∈ best.chromosome, 0 ≤ x ∧ x < 1) ∧ ∀ e ∈ tr, EvAll (fun i => ∀ x ∈ i.chromosome, 0 ≤ x ∧ x < 1) e := by
  have hc : Closed (Individual.trait (List K) F) (rvcOps R S worst f dim n elapsed)
      (fun i => ∀ x ∈ i.chromosome, 0 ≤ x ∧ x < 1) :=
    { set := fun _ _ h => h
      gen := fun k => S.gen.run_ifReturns <| by
        refine Returns.ifReturns (fun g => ?_)
        have hnew : (RandomPoints.new dim : M G (RandomPoints K)) g =
            .ok (⟨dim, List.replicate dim (0, 1)⟩, g) := by
          unfold RandomPoints.new
          rw [M.bind_of_ok (a := ()) (w' := g) (by simp [hd, M.assert])]; rfl
        exact ((C37_random_points_unit R (Individual.chromOps K worst) hnew).2.mono
          fun pop hp i hi => (hp.2 i hi).2) g
      fit := fun i h => IfReturns.pure h
      sel := fun m pop h => S.sel.run_ifReturns <| by
        refine (IfReturns.replicate (Q := fun x => x ∈ pop) ?_ n).mono fun sel hs i hi => h i (hs.2 i hi)
        refine IfReturns.bind IfReturns.trivial fun is _ => ?_
        refine IfReturns.bind forEach_idx_ifReturns fun cs hcs => ?_
        exact ofExcept_findMax_mem.mono fun x hx => hcs.mem x hx
      cross := fun m pool h => S.cross.run_ifReturns <| by
        refine IfReturns.bind IfReturns.trivial fun _ _ => chunks2_all (fun a b ha hb => ?_) pool h
        refine IfReturns.bind (singlePoint_mem R _ _) fun c hc => ?_
        obtain ⟨c1, c2⟩ := c
        exact IfReturns.pure ⟨fun x hx => (hc.1 x hx).elim (ha x) (hb x),
          fun x hx => (hc.2 x hx).elim (ha x) (hb x)⟩
      mutate := fun m i h => S.mutate.run_ifReturns
        ((C25_reordering_mutations R (Individual.chromOps K worst) (.interchange (1 / 20)) i).mono
          fun i' hi' x hx => h x (hi'.mem_iff.1 hx))
      replace := fun m pop children _ h2 => IfReturns.pure h2 }
  exact hc.run p h

example {best tr w'} (h : run (Individual.trait (List ℚ) ℚ) (rvcOps counterRng sharedSlots (.num (-100))
    (fun c => .num c.sum) 2 4 tickClock) ⟨4, 2, 1000⟩ ⟨0, 4, none⟩ 0 = .ok ((best, tr), w')) :=
  C69_unit_cube _ _ _ _ (by decide) _ _ h

/-- The run of the example above does return. -/
example : okWith (run (Individual.trait (List ℚ) ℚ) (rvcOps counterRng sharedSlots (.num (-100))
    (fun c => .num c.sum) 2 4 tickClock) ⟨4, 2, 1000⟩ ⟨0, 4, none⟩ 0) (fun r => r.2.length = 18) = true := by decide +kernel
end

end Ecrs.Ga
