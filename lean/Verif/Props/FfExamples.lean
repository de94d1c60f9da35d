import Verif.Ff.Examples
import Verif.Props.Ff3
import Verif.Props.Pso2
import Verif.Props.TestFunctions

/-!
# Property C142: the firefly and PSO example programs
-/

set_option linter.unusedSectionVars false
set_option linter.unusedVariables false

namespace Ecrs.Ff
open Ecrs

/-! ## The initial population is forgotten -/

section general
variable {X K : Type} [LinearOrder K] {A : FloatOps X K}

theorem lastBrighter_exists {bright : List X} {i n j0 : Nat} {bi bj : X} (hj : j0 < n) (hi : bright[i]? = some bi)
    (hb : bright[j0]? = some bj) (hlt : A.lt bi bj = true) : ∃ j, LastBrighter A bright i n j := by
  classical
  let P : Nat → Prop := fun j => ∃ bj, bright[j]? = some bj ∧ A.lt bi bj = true
  have hp : P j0 := ⟨bj, hb, hlt⟩
  have h1 := Nat.findGreatest_spec (P := P) (n := n - 1) (show j0 ≤ n - 1 by omega) hp
  have h2 := Nat.findGreatest_le (P := P) (n - 1)
  refine ⟨Nat.findGreatest P (n - 1), by omega, ?_, fun k hk hkn bi' bk hi' hk' => ?_⟩
  · obtain ⟨b, g1, g2⟩ := h1
    exact ⟨bi, b, hi, g1, g2⟩
  · rw [hi] at hi'
    cases hi'
    have := Nat.findGreatest_is_greatest (P := P) hk (show k ≤ n - 1 by omega)
    cases h : A.lt bi bk with
    | false => rfl
    | true => exact absurd ⟨bk, hk', h⟩ this

theorem lt_asymm' {a b : X} (h : A.lt a b = true) : A.lt b a = false := by
  cases h' : A.lt b a with
  | false => rfl
  | true =>
    have h1 := Fl.lt_iff.1 h
    have h2 := Fl.lt_iff.1 h'
    exact absurd h2.le (fun h => by
      have := h1.trans_le h
      revert this
      cases A.view a <;> simp [Fl.Lt])

/-- A generation depends on the population only through the fireflies after the move. -/
theorem generation_of_move {c : Cfg X} {f : List X → X} {dist : List X → List X → Except Panic X} {dr : Draws X} {g : Nat} {st st' : St X}
    (h : moveAll A c dist dr g st.alfa st.bright st.pop 0 st.pop.length = moveAll A c dist dr g st'.alfa st'.bright st'.pop 0 st'.pop.length)
    (ha : st.alfa = st'.alfa) (hb : st.best = st'.best) : generation A c f dist dr g st = generation A c f dist dr g st' := by
  unfold generation
  rw [h, ha, hb]

end general

section exact
variable {F : Type} [Field F] [LinearOrder F] [IsStrictOrderedRing F] (expo sqrt : Ext F → Ext F) (maxv : F)

/-- **C142, the initial population is forgotten.** Exact arithmetic, any objective: if two initial populations of `population_size`
fireflies have the same strictly brightest firefly (same index, same position), the two runs with the same draws are the same: same states,
same callbacks. Only one initial position matters. (Hypotheses as in C79: `lower < upper`, `alfa0 > 0`, positive samples of the flight
distribution in generation 0.) -/
theorem C142_initial_population_forgotten {c : Cfg (Ext F)} {f : List (Ext F) → Ext F}
    {dist : List (Ext F) → List (Ext F) → Except Panic (Ext F)} {dr : Draws (Ext F)} {pop pop' : List (List F)} {dim b : Nat} {x : List F}
    {lo up a0 : F} (hlo : c.lower = .fin lo) (hup : c.upper = .fin up) (ha0 : c.alfa0 = .fin a0) (hlt : lo < up) (ha : 0 < a0)
    (hret : ∀ x y : List (Ext F), x.length = dim → y.length = dim → ∃ z, dist x y = .ok z)
    (hatt : ∀ x y : List F, ∀ d, x.length = dim → y.length = dim → dist (x.map .fin) (y.map .fin) = .ok d →
      ∃ z, attraction (Ext.ops expo sqrt maxv) c d = .fin z)
    (huni : ∀ i j d, ∃ u, dr.uni 0 i j d = .fin u) (hdist : ∀ i j d, ∃ s, dr.dist 0 i j d = .fin s ∧ 0 < s)
    (hb : b < c.populationSize) (hl : pop.length = c.populationSize) (hl' : pop'.length = c.populationSize)
    (hd : ∀ y ∈ pop, y.length = dim) (hd' : ∀ y ∈ pop', y.length = dim) (hx : pop[b]? = some x) (hx' : pop'[b]? = some x)
    (hbest : ∀ i y, i ≠ b → pop[i]? = some y →
      (Ext.ops expo sqrt maxv).lt (brightOf expo sqrt maxv (f (y.map .fin))) (brightOf expo sqrt maxv (f (x.map .fin))) = true)
    (hbest' : ∀ i y, i ≠ b → pop'[i]? = some y →
      (Ext.ops expo sqrt maxv).lt (brightOf expo sqrt maxv (f (y.map .fin))) (brightOf expo sqrt maxv (f (x.map .fin))) = true) :
    run (Ext.ops expo sqrt maxv) c f dist dr (pop.map fun x => x.map .fin) =
      run (Ext.ops expo sqrt maxv) c f dist dr (pop'.map fun x => x.map .fin) := by
  cases hm : c.maxGenerations with
  | zero => unfold run; rw [hm]; rfl
  | succ n =>
    -- what one of the populations becomes in generation 0
    have key : ∀ pop : List (List F), pop.length = c.populationSize → (∀ y ∈ pop, y.length = dim) → pop[b]? = some x →
        (∀ i y, i ≠ b → pop[i]? = some y →
          (Ext.ops expo sqrt maxv).lt (brightOf expo sqrt maxv (f (y.map .fin))) (brightOf expo sqrt maxv (f (x.map .fin))) = true) →
        ∃ q, moveAll (Ext.ops expo sqrt maxv) c dist dr 0 c.alfa0
            (brightness (Ext.ops expo sqrt maxv) f (pop.map fun x => x.map .fin)) (pop.map fun x => x.map .fin) 0
            (pop.map fun x => x.map Ext.fin).length = .ok q ∧
          q.length = c.populationSize ∧ (∀ i, i ≠ b → i < c.populationSize → q[i]? = some (List.replicate dim c.upper)) ∧
          ∃ y, q[b]? = some y ∧ y.length = dim ∧ ∀ (d : Nat) (a : F), x[d]? = some a →
            y[d]? = some (clamp (Ext.ops expo sqrt maxv) c ((Ext.ops expo sqrt maxv).add (.fin a)
              ((Ext.ops expo sqrt maxv).mul ((Ext.ops expo sqrt maxv).mul (dr.brown 0 b d) ((Ext.ops expo sqrt maxv).sq c.alfa0))
              ((Ext.ops expo sqrt maxv).expo ((Ext.ops expo sqrt maxv).mul
                ((Ext.ops expo sqrt maxv).mul (Ext.ops expo sqrt maxv).minusOne c.beta0) c.gamma))))) := by
      intro pop hl hd hx hbest
      have hne : pop ≠ [] := by
        intro h0
        rw [h0] at hl
        simp only [List.length_nil] at hl
        omega
      obtain ⟨⟨sts, evs⟩, hr⟩ := C80_run_returns (A := Ext.ops expo sqrt maxv) (c := c) (f := f) (dr := dr) (pop := pop.map fun x => x.map .fin)
        hret ⟨by simpa using hne, by simp [hl], by simpa using hd⟩
      have hr' := hr
      unfold run at hr'
      obtain ⟨⟨sts', e⟩, h1, h2⟩ := except_bind_ok.1 hr'
      rw [except_pure_ok] at h2
      cases h2
      rw [hm] at h1
      obtain ⟨st1, e1, sts1, evs1, rfl, -, g1, -⟩ := generations_ok h1
      obtain ⟨-, hmove, -⟩ := generation_ok g1
      have hlen := (moveAll_ok hmove).1
      have hbe : (initial (Ext.ops expo sqrt maxv) c f (pop.map fun x => x.map .fin)).bright =
          pop.map fun x => brightOf expo sqrt maxv (f (x.map .fin)) := by
        simp [initial, brightness, brightOf]
      refine ⟨st1.pop, hmove, by rw [hlen]; simp [initial, hl], fun i hib hi => ?_, ?_⟩
      · have hi' : i < pop.length := by omega
        have hxi : pop[i]? = some pop[i] := List.getElem?_eq_getElem hi'
        obtain ⟨j, hj⟩ := lastBrighter_exists (A := Ext.ops expo sqrt maxv)
          (bright := pop.map fun x => brightOf expo sqrt maxv (f (x.map .fin))) (i := i) hb
          (by rw [List.getElem?_map, hxi]; rfl) (by rw [List.getElem?_map, hx]; rfl) (hbest i _ hib hxi)
        have := C79_generation_zero_jump expo sqrt maxv hr hlo hup ha0 hlt ha
          (fun x hx y hy d => hatt x y d (hd x hx) (hd y hy)) huni hdist hxi hj
        rw [hd _ (List.mem_of_getElem? hxi)] at this
        exact this
      · obtain ⟨y, y1, y2, y3⟩ := C86_brightest_walks g1 (i := b) (x := x.map .fin) (by simp [initial, hx]) (by
          rw [hbe]
          intro k hk bi bk hbi hbk
          rw [List.getElem?_map, hx] at hbi
          rw [List.getElem?_map] at hbk
          obtain ⟨z, hz, rfl⟩ := Option.map_eq_some_iff.1 hbk
          obtain rfl : brightOf expo sqrt maxv (f (x.map .fin)) = bi := by simpa using hbi
          by_cases hkb : k = b
          · subst hkb
            rw [hx] at hz
            cases hz
            cases h : (Ext.ops expo sqrt maxv).lt (brightOf expo sqrt maxv (f (x.map .fin))) (brightOf expo sqrt maxv (f (x.map .fin))) with
            | false => rfl
            | true => rw [lt_asymm' h] at h; cases h
          · exact lt_asymm' (hbest k z hkb hz))
        refine ⟨y, y1, by rw [y2, List.length_map, hd _ (List.mem_of_getElem? hx)], fun d a hda => ?_⟩
        exact y3 d (.fin a) (by rw [List.getElem?_map, hda]; rfl)
    obtain ⟨q, m1, m2, m3, y, m4, m5, m6⟩ := key pop hl hd hx hbest
    obtain ⟨q', m1', m2', m3', y', m4', m5', m6'⟩ := key pop' hl' hd' hx' hbest'
    have hy : y = y' := by
      apply List.ext_getElem?
      intro d
      by_cases hdd : d < x.length
      · rw [m6 d _ (List.getElem?_eq_getElem hdd), m6' d _ (List.getElem?_eq_getElem hdd)]
      · have hxd := hd x (List.mem_of_getElem? hx)
        rw [List.getElem?_eq_none (by omega), List.getElem?_eq_none (by omega)]
    have hq : q = q' := by
      apply List.ext_getElem?
      intro i
      by_cases hi : i < c.populationSize
      · by_cases hib : i = b
        · rw [hib, m4, m4', hy]
        · rw [m3 i hib hi, m3' i hib hi]
      · rw [List.getElem?_eq_none (by omega), List.getElem?_eq_none (by omega)]
    subst hq
    have hgen : generation (Ext.ops expo sqrt maxv) c f dist dr 0 (initial (Ext.ops expo sqrt maxv) c f (pop.map fun x => x.map .fin)) =
        generation (Ext.ops expo sqrt maxv) c f dist dr 0 (initial (Ext.ops expo sqrt maxv) c f (pop'.map fun x => x.map .fin)) :=
      generation_of_move (m1.trans m1'.symm) rfl rfl
    unfold run
    rw [hm]
    unfold generations
    rw [hgen]

end exact

/-! ## examples/ff.rs -/

/-- Specification: the draws are in the ranges of the code: `gen_range(0.01..0.99)`, a sample of `Standard` in `[0, 1)`,
`gen_range(-1.0..1.0)`. -/
structure RealDraws (dr : Draws (Ext ℝ)) : Prop where
  uni : ∀ g i j d, ∃ u : ℝ, dr.uni g i j d = .fin u ∧ 1 / 100 ≤ u ∧ u < 99 / 100
  dist : ∀ g i j d, ∃ s : ℝ, dr.dist g i j d = .fin s ∧ 0 ≤ s ∧ s < 1
  brown : ∀ g i d, ∃ b : ℝ, dr.brown g i d = .fin b ∧ -1 ≤ b ∧ b < 1

/-- A firefly of the default algorithm: two finite coordinates in the box. -/
def Fine (x : List (Ext ℝ)) : Prop := ∃ a b : ℝ, x = [.fin a, .fin b] ∧ -5 ≤ a ∧ a ≤ 5 ∧ -5 ≤ b ∧ b ≤ 5

/-- The objective as a number. -/
noncomputable def normSq : List (Ext ℝ) → ℝ
  | [.fin a, .fin b] => a ^ 2 + b ^ 2
  | _ => 0

theorem sphereR_fine {x : List (Ext ℝ)} (h : Fine x) : sphereR x = .fin (normSq x) := by
  obtain ⟨a, b, rfl, -⟩ := h
  show Ext.fin (0 + a * a + b * b) = .fin (a ^ 2 + b ^ 2)
  congr 1
  ring

theorem le_fin {a b : ℝ} : Fl.Le (opsR.view (.fin a)) (opsR.view (.fin b)) ↔ a ≤ b := by
  show ((a : WithTop ℝ) : WithBot (WithTop ℝ)) ≤ ((b : WithTop ℝ) : WithBot (WithTop ℝ)) ↔ _
  rw [WithBot.coe_le_coe, WithTop.coe_le_coe]

theorem clamp_fin (v : ℝ) : ∃ w : ℝ, clamp opsR defaultCfg (.fin v) = .fin w ∧ -5 ≤ w ∧ w ≤ 5 := by
  have hlt : opsR.lt defaultCfg.lower defaultCfg.upper = true := (fin_lt_fin expR sqrtR _).2 (by norm_num)
  have hb := clamp_inBox (A := opsR) (c := defaultCfg) (Fl.lt_iff.1 hlt).le (.fin v)
  have hfin : ∃ w : ℝ, clamp opsR defaultCfg (.fin v) = .fin w := by
    unfold clamp
    split
    · exact ⟨_, rfl⟩
    · split
      · exact ⟨5, rfl⟩
      · exact ⟨-5, rfl⟩
  obtain ⟨w, hw⟩ := hfin
  refine ⟨w, hw, ?_⟩
  rw [hw] at hb
  rcases hb with hb | ⟨h1, h2⟩
  · cases hb
  · exact ⟨le_fin.1 h1, le_fin.1 h2⟩

/-- One coordinate of a move towards a brighter firefly. -/
theorem attracted_fine {g : Nat} {a z x y u s : ℝ} (hg : g = 0 → a = 1 ∧ 0 < s) :
    ∃ w : ℝ, clamp opsR defaultCfg (opsR.add (.fin x) (attractStep opsR defaultCfg (.fin a) (.fin z) (.fin x) (.fin y) (.fin u) (.fin s)
      (opsR.ofNat g))) = .fin w ∧ -5 ≤ w ∧ w ≤ 5 := by
  by_cases h0 : g = 0
  · obtain ⟨rfl, hs⟩ := hg h0
    subst h0
    have := gen0_candidate expR sqrtR ((2 ^ 53 - 1) * 2 ^ 971) (c := defaultCfg) (lo := -5) (up := 5) (a0 := 1) rfl rfl rfl (by norm_num)
      (by norm_num) z x y u s hs
    exact ⟨5, this, by norm_num, by norm_num⟩
  · have : ∃ v : ℝ, opsR.add (.fin x) (attractStep opsR defaultCfg (.fin a) (.fin z) (.fin x) (.fin y) (.fin u) (.fin s) (opsR.ofNat g)) =
        .fin v := by
      have hdiv : opsR.div (.fin s) (opsR.ofNat g) = .fin (s / (g : ℝ)) := by
        show (if (g : ℝ) = 0 then (if s = 0 then Ext.nan else Ext.signed s) else Ext.fin (s / (g : ℝ))) = _
        rw [if_neg (by exact_mod_cast h0)]
      unfold attractStep
      rw [hdiv]
      exact ⟨_, rfl⟩
    obtain ⟨v, hv⟩ := this
    rw [hv]
    exact clamp_fin v

theorem cartesian_fine {x y : List (Ext ℝ)} (hx : Fine x) (hy : Fine y) : ∃ d : ℝ, cartesian opsR x y = .ok (.fin d) := by
  obtain ⟨a, b, rfl, -⟩ := hx
  obtain ⟨a', b', rfl, -⟩ := hy
  have := C85_cartesian expR sqrtR ((2 ^ 53 - 1) * 2 ^ 971) [a, b] [a', b'] (le_refl _)
  refine ⟨Real.sqrt ((a - a') ^ 2 + ((b - b') ^ 2 + 0)), this.trans ?_⟩
  show Except.ok (sqrtR (.fin ((a - a') ^ 2 + ((b - b') ^ 2 + 0)))) = _
  unfold sqrtR
  simp only
  rw [if_neg (by nlinarith [sq_nonneg (a - a'), sq_nonneg (b - b')])]

theorem attraction_fine (d : ℝ) : ∃ z : ℝ, attraction opsR defaultCfg (.fin d) = .fin z := ⟨_, rfl⟩

theorem moveFirefly_fine {dr : Draws (Ext ℝ)} (hd : RealDraws dr) {g i : Nat} {a : ℝ} {bright : List (Ext ℝ)} {pop : List (List (Ext ℝ))}
    {y : List (Ext ℝ)} (hg : g = 0 → a = 1 ∧ ∀ j d, dr.dist 0 i j d ≠ .fin 0) (hp : ∀ x ∈ pop, Fine x)
    (hrun : moveFirefly opsR defaultCfg (cartesian opsR) dr g (.fin a) bright pop i = .ok y) : Fine y := by
  unfold moveFirefly at hrun
  obtain ⟨x, h1, h⟩ := except_bind_ok.1 hrun
  clear hrun
  obtain ⟨⟨res, moved⟩, h2, hfin⟩ := except_bind_ok.1 h
  clear h
  rw [except_pure_ok] at hfin
  rw [index_ok] at h1
  obtain ⟨x1, x2, rfl, -⟩ := hp x (List.mem_of_getElem? h1)
  rcases consider_ok h2 with heq | ⟨hm, j', bi, bj, xi, xj, dd, -, -, -, -, -, hxi, hxj, hdd, hmv⟩
  · cases heq
    simp only [Bool.false_eq_true, if_false] at hfin
    subst hfin
    obtain ⟨b0, e0, -⟩ := hd.brown g i 0
    obtain ⟨b1, e1, -⟩ := hd.brown g i 1
    have hstep : ∀ v b : ℝ, ∃ w : ℝ, opsR.add (.fin v) (opsR.mul (opsR.mul (.fin b) (opsR.sq (.fin a)))
        (opsR.expo (opsR.mul (opsR.mul opsR.minusOne defaultCfg.beta0) defaultCfg.gamma))) = .fin w := fun v b => ⟨_, rfl⟩
    obtain ⟨v1, hv1⟩ := hstep x1 b0
    obtain ⟨v2, hv2⟩ := hstep x2 b1
    obtain ⟨w1, c1, c2, c3⟩ := clamp_fin v1
    obtain ⟨w2, d1, d2, d3⟩ := clamp_fin v2
    refine ⟨w1, w2, ?_, c2, c3, d2, d3⟩
    unfold brownian brownian brownian
    rw [e0, e1, hv1, hv2, c1, d1]
  · simp only at hm hmv
    rw [hm, if_pos rfl] at hfin
    subst hfin
    rw [h1] at hxi
    cases hxi
    have hfj := hp xj (List.mem_of_getElem? hxj)
    obtain ⟨d', hd'⟩ := cartesian_fine (hp _ (List.mem_of_getElem? h1)) hfj
    rw [hd'] at hdd
    cases hdd
    obtain ⟨y1, y2, rfl, -⟩ := hfj
    obtain ⟨z, hz⟩ := attraction_fine d'
    obtain ⟨u0, e0, -⟩ := hd.uni g i j' 0
    obtain ⟨u1, e1, -⟩ := hd.uni g i j' 1
    obtain ⟨s0, f0, p0, -⟩ := hd.dist g i j' 0
    obtain ⟨s1, f1, p1, -⟩ := hd.dist g i j' 1
    have q0 : g = 0 → a = 1 ∧ 0 < s0 := fun h => by
      subst h
      exact ⟨(hg rfl).1, lt_of_le_of_ne p0 fun h' => (hg rfl).2 j' 0 (by rw [f0, ← h'])⟩
    have q1 : g = 0 → a = 1 ∧ 0 < s1 := fun h => by
      subst h
      exact ⟨(hg rfl).1, lt_of_le_of_ne p1 fun h' => (hg rfl).2 j' 1 (by rw [f1, ← h'])⟩
    obtain ⟨w1, c1, c2, c3⟩ := attracted_fine (g := g) (z := z) (x := x1) (y := y1) (u := u0) q0
    obtain ⟨w2, d1, d2, d3⟩ := attracted_fine (g := g) (z := z) (x := x2) (y := y2) (u := u1) q1
    refine ⟨w1, w2, ?_, c2, c3, d2, d3⟩
    rw [hz] at hmv
    have : moveDims opsR defaultCfg (.fin a) (.fin z) (opsR.ofNat g) (dr.uni g i j') (dr.dist g i j') [.fin y1, .fin y2] 0 [.fin x1, .fin x2] =
        .ok [.fin w1, .fin w2] := by
      unfold moveDims moveDims moveDims
      show Except.ok [clamp opsR defaultCfg (opsR.add (.fin x1) (attractStep opsR defaultCfg (.fin a) (.fin z) (.fin x1) (.fin y1)
        (dr.uni g i j' 0) (dr.dist g i j' 0) (opsR.ofNat g))), clamp opsR defaultCfg (opsR.add (.fin x2) (attractStep opsR defaultCfg (.fin a)
        (.fin z) (.fin x2) (.fin y2) (dr.uni g i j' 1) (dr.dist g i j' 1) (opsR.ofNat g)))] = _
      rw [e0, e1, f0, f1, c1, d1]
    rw [this] at hmv
    exact (Except.ok.inj hmv).symm

/-- The fireflies stay two finite coordinates in the box, and on them the objective is the sum of squares: the run is that of a total
objective with real values. -/
theorem generations_fine {dr : Draws (Ext ℝ)} (hd : RealDraws dr) (h0 : ∀ i j d, dr.dist 0 i j d ≠ .fin 0) : ∀ (n g : Nat) (st : St (Ext ℝ)),
    (∃ a : ℝ, st.alfa = .fin a ∧ (g = 0 → a = 1)) → (∀ x ∈ st.pop, Fine x) →
    generations opsR defaultCfg sphereR (cartesian opsR) dr g n st =
      generations opsR defaultCfg (fun x => .fin (normSq x)) (cartesian opsR) dr g n st ∧
    ∀ sts evs, generations opsR defaultCfg sphereR (cartesian opsR) dr g n st = .ok (sts, evs) → ∀ s ∈ sts, ∀ x ∈ s.pop, Fine x
  | 0, g, st, _, _ => ⟨rfl, fun sts evs h => by cases h; simp⟩
  | n + 1, g, st, ⟨a, ha, ha1⟩, hp => by
    have hfine : ∀ q, moveAll opsR defaultCfg (cartesian opsR) dr g st.alfa st.bright st.pop 0 st.pop.length = .ok q → ∀ x ∈ q, Fine x := by
      intro q hq x hx
      obtain ⟨hl, hk⟩ := moveAll_ok hq
      obtain ⟨k, hkx⟩ := List.mem_iff_getElem?.1 hx
      have hklt : k < st.pop.length := by rw [← hl]; exact (List.getElem?_eq_some_iff.1 hkx).1
      obtain ⟨y, hy, hmv⟩ := hk k hklt
      rw [hkx] at hy
      cases hy
      rw [ha] at hmv
      exact moveFirefly_fine hd (fun h => ⟨ha1 h, h0 _⟩) hp hmv
    have hgen : generation opsR defaultCfg sphereR (cartesian opsR) dr g st =
        generation opsR defaultCfg (fun x => .fin (normSq x)) (cartesian opsR) dr g st := by
      unfold generation
      cases hq : moveAll opsR defaultCfg (cartesian opsR) dr g st.alfa st.bright st.pop 0 st.pop.length with
      | error e => rfl
      | ok q =>
        have hq' := hfine q hq
        have hbr : brightness opsR sphereR q = brightness opsR (fun x => .fin (normSq x)) q :=
          List.map_congr_left fun x hx => by rw [sphereR_fine (hq' x hx)]
        rw [except_bind_of_ok rfl, except_bind_of_ok rfl]
        simp only [hbr]
        cases hi : index q (brightest opsR 0 ((brightness opsR (fun x => .fin (normSq x)) q).take defaultCfg.populationSize) 0 opsR.zero) with
        | error e => rfl
        | ok x =>
          rw [except_bind_of_ok rfl, except_bind_of_ok rfl, sphereR_fine (hq' x (List.mem_of_getElem? (index_ok.1 hi)))]
    have hstep : ∀ st' e, generation opsR defaultCfg sphereR (cartesian opsR) dr g st = .ok (st', e) →
        (∃ a : ℝ, st'.alfa = .fin a ∧ (g + 1 = 0 → a = 1)) ∧ ∀ x ∈ st'.pop, Fine x := by
      intro st' e h
      obtain ⟨x, hm, -, hal, -⟩ := generation_ok h
      refine ⟨⟨a * (97 / 100), ?_, fun h => by omega⟩, hfine _ hm⟩
      rw [hal, ha]
      rfl
    constructor
    · unfold generations
      rw [← hgen]
      cases hg : generation opsR defaultCfg sphereR (cartesian opsR) dr g st with
      | error e => rfl
      | ok r =>
        obtain ⟨st', e⟩ := r
        obtain ⟨q1, q2⟩ := hstep st' e hg
        rw [except_bind_of_ok rfl, except_bind_of_ok rfl]
        simp only [(generations_fine hd h0 n (g + 1) st' q1 q2).1]
    · intro sts evs h
      obtain ⟨st', e, sts', evs', rfl, rfl, g1, g2⟩ := generations_ok h
      obtain ⟨q1, q2⟩ := hstep st' e g1
      intro s hs
      rcases List.mem_cons.1 hs with rfl | hs
      · exact q2
      · exact (generations_fine hd h0 n (g + 1) st' q1 q2).2 _ _ g2 s hs

/-- The initial population drawn. -/
def start (p : Nat → Nat → ℝ) : List (List ℝ) := (List.range 25).map fun i => [p i 0, p i 1]

theorem fromConfig_default (p : Nat → Nat → ℝ) :
    fromConfig opsR defaultCfg (fun i d => .fin (p i d)) = .ok ((start p).map fun x => x.map .fin) := by
  unfold fromConfig
  rw [if_pos (.inr (.inr ((fin_lt_fin expR sqrtR _).2 (by norm_num))))]
  rfl

theorem start_getElem? (p : Nat → Nat → ℝ) {i : Nat} (h : i < 25) : (start p)[i]? = some [p i 0, p i 1] := by
  unfold start
  rw [List.getElem?_map, List.getElem?_range h]
  rfl

theorem start_mem {p : Nat → Nat → ℝ} {x : List ℝ} (h : x ∈ start p) : ∃ i < 25, x = [p i 0, p i 1] := by
  obtain ⟨i, hi, rfl⟩ := List.mem_map.1 h
  exact ⟨i, List.mem_range.1 hi, rfl⟩

theorem start_good (p : Nat → Nat → ℝ) : GoodPop defaultCfg 2 ((start p).map fun x => x.map Ext.fin) := by
  have hl : (start p).length = 25 := by simp [start]
  refine ⟨fun h => ?_, by rw [List.length_map, hl]; exact le_refl _, fun x hx => ?_⟩
  · have := congrArg List.length h
    rw [List.length_map, hl] at this
    cases this
  · obtain ⟨y, hy, rfl⟩ := List.mem_map.1 hx
    obtain ⟨i, -, rfl⟩ := start_mem hy
    rfl

theorem cartesian_returns (x y : List (Ext ℝ)) (hx : x.length = 2) (hy : y.length = 2) : ∃ z, cartesian opsR x y = .ok z := by
  match x, y, hx, hy with
  | [a, b], [a', b'], _, _ => exact ⟨_, rfl⟩

theorem brighter_iff (a b a' b' : ℝ) : opsR.lt (brightOf expR sqrtR ((2 ^ 53 - 1) * 2 ^ 971) (sphereR ([a, b].map .fin)))
    (brightOf expR sqrtR ((2 ^ 53 - 1) * 2 ^ 971) (sphereR ([a', b'].map .fin))) = true ↔ a' ^ 2 + b' ^ 2 < a ^ 2 + b ^ 2 := by
  have h : ∀ a b : ℝ, sphereR ([a, b].map .fin) = .fin (a ^ 2 + b ^ 2) := by
    intro a b
    show Ext.fin (0 + a * a + b * b) = _
    congr 1
    ring
  rw [h, h]
  exact C84_attracted_by_better expR sqrtR _ _ _ (by positivity) (by positivity)

/-- The values reported by the callbacks. -/
def reported (evs : List (Ev (Ext ℝ))) : List (Ext ℝ) := evs.filterMap fun | .onCurrentBest v _ => some v | _ => none

theorem reported_callbacks : ∀ (l : List (Nat × St (Ext ℝ) × List (Ext ℝ))),
    reported (l.flatMap fun e => [.onIterationStart e.1, .onCurrentBest e.2.1.best e.2.2, .onIterationEnd e.1]) = l.map fun e => e.2.1.best
  | [] => rfl
  | e :: l => by
    have := reported_callbacks l
    unfold reported at this ⊢
    rw [List.flatMap_cons, List.filterMap_append, this]
    rfl

theorem box_le_fifty {a b : ℝ} (g1 : -5 ≤ a) (g2 : a ≤ 5) (g3 : -5 ≤ b) (g4 : b ≤ 5) : a ^ 2 + b ^ 2 ≤ 50 := by
  nlinarith [mul_nonneg (sub_nonneg.2 g2) (neg_le_iff_add_nonneg.1 g1), mul_nonneg (sub_nonneg.2 g4) (neg_le_iff_add_nonneg.1 g3)]

theorem fifty_lt : (50 : ℝ) < (2 ^ 53 - 1) * 2 ^ 971 := by
  have h : ∀ t : ℝ, 1 ≤ t → (50 : ℝ) < (2 ^ 53 - 1) * t := by
    intro t ht
    norm_num
    linarith
  exact h _ (one_le_pow₀ (by norm_num))

/-- **C142, examples/ff.rs.** For every initial population in the box and all draws in their ranges (the samples of the flight distribution
not exactly 0 in generation 0) the program runs its 1000 generations without panic; all 25 fireflies stay finite and in the box `[-5, 5]²`;
the value reported in each generation is the least sum of squares of all fireflies of all generations so far. But in the first generation
every firefly that is not a best one of the initial population is sent to the corner `(5, 5)`. -/
theorem C142_ff (p : Nat → Nat → ℝ) (hp : ∀ i < 25, ∀ d, -5 ≤ p i d ∧ p i d < 5) {dr : Draws (Ext ℝ)} (hd : RealDraws dr)
    (h0 : ∀ i j d, dr.dist 0 i j d ≠ .fin 0) :
    ∃ (sts : List (St (Ext ℝ))) (evs : List (Ev (Ext ℝ))), ffMain (fun i d => .fin (p i d)) dr = .ok (sts, evs) ∧ sts.length = 1000 ∧ reported evs = sts.map St.best ∧
      (∀ s ∈ sts, s.pop.length = 25 ∧ ∀ x ∈ s.pop, ∃ a b : ℝ, x = [.fin a, .fin b] ∧ -5 ≤ a ∧ a ≤ 5 ∧ -5 ≤ b ∧ b ≤ 5) ∧
      (∀ (k : Nat) (s : St (Ext ℝ)), sts[k]? = some s → ∃ m : ℝ, s.best = .fin m ∧
        (∀ (j : Nat) (s' : St (Ext ℝ)), j ≤ k → sts[j]? = some s' → ∀ a b : ℝ, [.fin a, .fin b] ∈ s'.pop → m ≤ a ^ 2 + b ^ 2) ∧
        ∃ (j : Nat) (s' : St (Ext ℝ)), j ≤ k ∧ sts[j]? = some s' ∧ ∃ a b : ℝ, [.fin a, .fin b] ∈ s'.pop ∧ m = a ^ 2 + b ^ 2) ∧
      ∀ s0 : St (Ext ℝ), sts[0]? = some s0 → ∀ i k, i < 25 → k < 25 → p k 0 ^ 2 + p k 1 ^ 2 < p i 0 ^ 2 + p i 1 ^ 2 →
        s0.pop[i]? = some [.fin 5, .fin 5] := by
  obtain ⟨⟨sts, evs⟩, hr⟩ := C80_run_returns (A := opsR) (c := defaultCfg) (f := sphereR) (dr := dr) cartesian_returns (start_good p)
  have hmain : ffMain (fun i d => .fin (p i d)) dr = .ok (sts, evs) := by
    unfold ffMain
    rw [fromConfig_default, except_bind_of_ok rfl, hr]
  have hstart : ∀ x ∈ (start p).map fun x => x.map Ext.fin, Fine x := by
    intro x hx
    obtain ⟨y, hy, rfl⟩ := List.mem_map.1 hx
    obtain ⟨i, hi, rfl⟩ := start_mem hy
    exact ⟨_, _, rfl, (hp i hi 0).1, (hp i hi 0).2.le, (hp i hi 1).1, (hp i hi 1).2.le⟩
  obtain ⟨ps, c1, c2, c3, -, -⟩ := C80_callbacks hr
  have hstart' : ∀ x ∈ (initial opsR defaultCfg sphereR ((start p).map fun x => x.map Ext.fin)).pop, Fine x := hstart
  obtain ⟨f1, f2⟩ := generations_fine hd h0 1000 0 _ ⟨1, rfl, fun _ => rfl⟩ hstart'
  have hinit : initial opsR defaultCfg sphereR ((start p).map fun x => x.map Ext.fin) =
      initial opsR defaultCfg (fun x => .fin (normSq x)) ((start p).map fun x => x.map Ext.fin) := by
    unfold initial
    congr 1
    exact List.map_congr_left fun x hx => by rw [sphereR_fine (hstart x hx)]
  have hr2 : run opsR defaultCfg (fun x => .fin (normSq x)) (cartesian opsR) dr ((start p).map fun x => x.map .fin) = .ok (sts, evs) := by
    rw [← hr]
    show (generations opsR defaultCfg (fun x => .fin (normSq x)) (cartesian opsR) dr 0 1000
      (initial opsR defaultCfg (fun x => .fin (normSq x)) ((start p).map fun x => x.map Ext.fin)) >>= _) =
      (generations opsR defaultCfg sphereR (cartesian opsR) dr 0 1000 _ >>= _)
    rw [f1, hinit]
  have hfine : ∀ s ∈ sts, ∀ x ∈ s.pop, Fine x := by
    have h := hr
    unfold run at h
    obtain ⟨⟨sts', e⟩, h1, h2⟩ := except_bind_ok.1 h
    rw [except_pure_ok] at h2
    cases h2
    exact f2 _ _ h1
  have hshape : ∀ s ∈ sts, s.pop.length = 25 := by
    intro s hs
    have := congrArg List.length (C52_shape hr s hs)
    simpa [start] using this
  have hnn : ∀ x, 0 ≤ normSq x := by
    intro x
    unfold normSq
    split
    · positivity
    · exact le_refl _
  refine ⟨sts, evs, hmain, c1, ?_, fun s hs => ⟨hshape s hs, hfine s hs⟩, fun k s hk => ?_, fun s0 hs0 i k hi hk hlt => ?_⟩
  · rw [c3]
    unfold reported
    rw [List.filterMap_append, List.filterMap_append]
    have := reported_callbacks ((List.range defaultCfg.maxGenerations).zip (sts.zip ps))
    unfold reported at this
    rw [this]
    simp only [List.filterMap_cons, List.filterMap_nil, List.nil_append, List.append_nil]
    have hz : ∀ (a : List Nat) (b : List (St (Ext ℝ))) (c : List (List (Ext ℝ))), a.length = b.length → b.length = c.length →
        (a.zip (b.zip c)).map (fun e => e.2.1.best) = b.map St.best := by
      intro a b c h1 h2
      induction a generalizing b c with
      | nil => cases b with
        | nil => rfl
        | cons => cases h1
      | cons _ _ ih =>
        cases b with
        | nil => cases h1
        | cons _ b =>
          cases c with
          | nil => cases h2
          | cons _ c => simp only [List.zip_cons_cons, List.map_cons, ih b c (by simpa using h1) (by simpa using h2)]
    exact hz _ _ _ (by rw [List.length_range, c1]) (by rw [c1, c2])
  · have hne : ((start p).map fun x => x.map Ext.fin) ≠ [] := (start_good p).1
    obtain ⟨ps', d1, -, d3⟩ := C53_reported_best expR sqrtR ((2 ^ 53 - 1) * 2 ^ 971) (c := defaultCfg) hnn (by decide) hne hr2
    have hklt : k < ps'.length := by
      rw [d1, ← c1]
      exact (List.getElem?_eq_some_iff.1 hk).1
    obtain ⟨-, m, m1, -, m3, m4⟩ := d3 k s _ hk (List.getElem?_eq_getElem hklt)
    have htake : ∀ s ∈ sts, s.pop.take defaultCfg.populationSize = s.pop := by
      intro s hs
      exact List.take_of_length_le (by rw [hshape s hs]; exact le_refl _)
    have hle : ∀ (j : Nat) (s' : St (Ext ℝ)), j ≤ k → sts[j]? = some s' → ∀ a b : ℝ, [.fin a, .fin b] ∈ s'.pop → m ≤ a ^ 2 + b ^ 2 := by
      intro j s' hj hs' a b hab
      have := m3 j s' hj hs' [.fin a, .fin b] (by rw [htake _ (List.mem_of_getElem? hs')]; exact hab)
      exact this
    refine ⟨m, m1, hle, ?_⟩
    rcases m4 with h | ⟨j, s', hj, hs', y, hy, hym⟩
    · -- the largest number is never reported
      exfalso
      have hpos : 0 < s.pop.length := by rw [hshape s (List.mem_of_getElem? hk)]; decide
      obtain ⟨a, b, hab, g1, g2, g3, g4⟩ := hfine s (List.mem_of_getElem? hk) (s.pop[0]) (List.getElem_mem hpos)
      have h2 := hle k s (le_refl _) hk a b (by rw [← hab]; exact List.getElem_mem hpos)
      have h3 := box_le_fifty g1 g2 g3 g4
      have h4 : (50 : ℝ) < (2 ^ 53 - 1) * 2 ^ 971 := fifty_lt
      rw [h] at h2
      exact absurd (h4.trans_le (h2.trans h3)) (lt_irrefl _)
    · rw [htake _ (List.mem_of_getElem? hs')] at hy
      obtain ⟨a, b, rfl, -⟩ := hfine s' (List.mem_of_getElem? hs') y hy
      exact ⟨j, s', hj, hs', a, b, hy, hym.symm⟩
  · obtain ⟨s1, sts', rfl⟩ : ∃ s1 sts', sts = s1 :: sts' := by
      cases sts with
      | nil => cases hs0
      | cons s1 sts' => exact ⟨s1, sts', rfl⟩
    obtain rfl : s1 = s0 := by simpa using hs0
    have hbi : ((start p).map fun x => brightOf expR sqrtR ((2 ^ 53 - 1) * 2 ^ 971) (sphereR (x.map .fin)))[i]? =
        some (brightOf expR sqrtR ((2 ^ 53 - 1) * 2 ^ 971) (sphereR ([p i 0, p i 1].map .fin))) := by
      rw [List.getElem?_map, start_getElem? p hi]; rfl
    have hbk : ((start p).map fun x => brightOf expR sqrtR ((2 ^ 53 - 1) * 2 ^ 971) (sphereR (x.map .fin)))[k]? =
        some (brightOf expR sqrtR ((2 ^ 53 - 1) * 2 ^ 971) (sphereR ([p k 0, p k 1].map .fin))) := by
      rw [List.getElem?_map, start_getElem? p hk]; rfl
    obtain ⟨j, hj⟩ := lastBrighter_exists (A := opsR) (n := 25) hk hbi hbk ((brighter_iff _ _ _ _).2 hlt)
    have := C79_generation_zero_jump expR sqrtR ((2 ^ 53 - 1) * 2 ^ 971) (c := defaultCfg) (lo := -5) (up := 5) (a0 := 1) hr rfl rfl rfl
      (by norm_num) (by norm_num) (fun x hx y hy d hxy => by
        obtain ⟨i, -, rfl⟩ := start_mem hx
        obtain ⟨j, -, rfl⟩ := start_mem hy
        obtain ⟨d', hd'⟩ := cartesian_fine (hstart _ (List.mem_map_of_mem hx)) (hstart _ (List.mem_map_of_mem hy))
        rw [hd'] at hxy
        cases hxy
        exact attraction_fine d')
      (fun i j d => by obtain ⟨u, hu, -⟩ := hd.uni 0 i j d; exact ⟨u, hu⟩)
      (fun i j d => by
        obtain ⟨s, hs, hs0, -⟩ := hd.dist 0 i j d
        exact ⟨s, hs, lt_of_le_of_ne hs0 fun h => h0 i j d (by rw [hs, ← h])⟩)
      (start_getElem? p hi) hj
    exact this

/-- **C142, examples/ff.rs forgets.** Two initial populations with the same strictly best firefly give the same run. -/
theorem C142_ff_forgets (p p' : Nat → Nat → ℝ) {dr : Draws (Ext ℝ)} (hd : RealDraws dr)
    (h0 : ∀ i j d, dr.dist 0 i j d ≠ .fin 0) {b : Nat} (hb : b < 25) (hsame : ∀ d, p b d = p' b d)
    (hbest : ∀ i < 25, i ≠ b → p b 0 ^ 2 + p b 1 ^ 2 < p i 0 ^ 2 + p i 1 ^ 2)
    (hbest' : ∀ i < 25, i ≠ b → p b 0 ^ 2 + p b 1 ^ 2 < p' i 0 ^ 2 + p' i 1 ^ 2) :
    ffMain (fun i d => .fin (p i d)) dr = ffMain (fun i d => .fin (p' i d)) dr := by
  have hlen : ∀ p, (start p).length = defaultCfg.populationSize := fun p => by simp [start, defaultCfg]
  have hdim : ∀ p, ∀ y ∈ start p, y.length = 2 := by
    intro p y hy
    obtain ⟨i, -, rfl⟩ := start_mem hy
    rfl
  have hbr : ∀ q : Nat → Nat → ℝ, (∀ i < 25, i ≠ b → p b 0 ^ 2 + p b 1 ^ 2 < q i 0 ^ 2 + q i 1 ^ 2) → ∀ i y, i ≠ b → (start q)[i]? = some y →
      opsR.lt (brightOf expR sqrtR ((2 ^ 53 - 1) * 2 ^ 971) (sphereR (y.map .fin)))
        (brightOf expR sqrtR ((2 ^ 53 - 1) * 2 ^ 971) (sphereR ([p b 0, p b 1].map .fin))) = true := by
    intro q hq i y hib hy
    have hi : i < 25 := by
      have := (List.getElem?_eq_some_iff.1 hy).1
      rwa [hlen] at this
    rw [start_getElem? q hi] at hy
    cases hy
    exact (brighter_iff _ _ _ _).2 (hq i hi hib)
  unfold ffMain
  rw [fromConfig_default, fromConfig_default, except_bind_of_ok rfl, except_bind_of_ok rfl]
  exact C142_initial_population_forgotten expR sqrtR ((2 ^ 53 - 1) * 2 ^ 971) (c := defaultCfg) (lo := -5) (up := 5) (a0 := 1) (dim := 2)
    (b := b) (x := [p b 0, p b 1]) rfl rfl rfl (by norm_num) (by norm_num) cartesian_returns
    (fun x y d hx hy hxy => by
      match x, y, hx, hy with
      | [a, b], [a', b'], _, _ =>
        have := C85_cartesian expR sqrtR ((2 ^ 53 - 1) * 2 ^ 971) [a, b] [a', b'] (le_refl _)
        have h2 : Except.ok d = Except.ok (sqrtR (.fin (List.zipWith (fun x y => (x - y) ^ 2) [a, b] [a', b']).sum)) := hxy.symm.trans this
        obtain rfl := Except.ok.inj h2
        have h3 : sqrtR (.fin (List.zipWith (fun x y => (x - y) ^ 2) [a, b] [a', b']).sum) = .fin (Real.sqrt ((a - a') ^ 2 + ((b - b') ^ 2 + 0))) := by
          show sqrtR (.fin ((a - a') ^ 2 + ((b - b') ^ 2 + 0))) = _
          unfold sqrtR
          simp only
          rw [if_neg (by nlinarith [sq_nonneg (a - a'), sq_nonneg (b - b')])]
        rw [h3]
        exact attraction_fine _)
    (fun i j d => by obtain ⟨u, hu, -⟩ := hd.uni 0 i j d; exact ⟨u, hu⟩)
    (fun i j d => by
      obtain ⟨s, hs, hs0, -⟩ := hd.dist 0 i j d
      exact ⟨s, hs, lt_of_le_of_ne hs0 fun h => h0 i j d (by rw [hs, ← h])⟩)
    hb (hlen p) (hlen p') (hdim p) (hdim p') (start_getElem? p hb) (by rw [start_getElem? p' hb, ← hsame, ← hsame]) (hbr p hbest) (hbr p' hbest')

/-- A case for `C142_ff` and `C142_ff_forgets`: fireflies `(i/25, i/25)` and `(i/5, i/5)`, constant draws. Firefly 0 is the best, the other 24
go to the corner. -/
example : ∃ (p p' : Nat → Nat → ℝ) (dr : Draws (Ext ℝ)), (∀ i < 25, ∀ d, -5 ≤ p i d ∧ p i d < 5) ∧ RealDraws dr ∧ (∀ i j d, dr.dist 0 i j d ≠ .fin 0) ∧
    (∀ d, p 0 d = p' 0 d) ∧ p 3 0 ≠ p' 3 0 ∧ (∀ i < 25, i ≠ 0 → p 0 0 ^ 2 + p 0 1 ^ 2 < p i 0 ^ 2 + p i 1 ^ 2) ∧
    ∀ i < 25, i ≠ 0 → p 0 0 ^ 2 + p 0 1 ^ 2 < p' i 0 ^ 2 + p' i 1 ^ 2 := by
  have hpos : ∀ i : Nat, i ≠ 0 → (0 : ℝ) < i := fun i hi => by exact_mod_cast Nat.pos_of_ne_zero hi
  refine ⟨fun i _ => i / 25, fun i _ => i / 5, ⟨fun _ _ _ _ => .fin (1 / 2), fun _ _ _ _ => .fin (1 / 2), fun _ _ _ => .fin (1 / 2)⟩,
    fun i hi d => ?_, ⟨fun _ _ _ _ => ⟨1 / 2, rfl, by norm_num, by norm_num⟩, fun _ _ _ _ => ⟨1 / 2, rfl, by norm_num, by norm_num⟩,
      fun _ _ _ => ⟨1 / 2, rfl, by norm_num, by norm_num⟩⟩, fun _ _ _ h => ?_, fun d => by norm_num, by norm_num, fun i _ hi => ?_, fun i _ hi => ?_⟩
  · have h1 : (i : ℝ) < 25 := by exact_mod_cast hi
    have h2 : (0 : ℝ) ≤ i := Nat.cast_nonneg i
    constructor <;> simp only <;> linarith
  · have : (1 / 2 : ℝ) = 0 := by injection h
    norm_num at this
  · have := hpos i hi
    simp only [Nat.cast_zero]
    norm_num
    positivity
  · have := hpos i hi
    simp only [Nat.cast_zero]
    norm_num
    positivity

/-! ## examples/ff_logging.rs -/

theorem records_blocks {X : Type} (pre post : List (Ev X)) (hpre : ∀ r : RecState X, pre.foldl recStep r = r) (hpost : ∀ r : RecState X, post.foldl recStep r = r) :
    ∀ (l : List (Nat × St X × List X)) (r : RecState X), ((pre ++ l.flatMap (fun e => [Ev.onIterationStart e.1, Ev.onCurrentBest e.2.1.best e.2.2, Ev.onIterationEnd e.1]) ++
      post).foldl recStep r).records = r.records ++ l.map fun e => (e.1, e.2.1.best, e.2.2) := by
  intro l r
  rw [List.foldl_append, List.foldl_append, hpre, hpost]
  induction l generalizing r with
  | nil => simp
  | cons e l ih =>
    rw [List.flatMap_cons, List.foldl_append, ih]
    simp [recStep]

theorem logged_generations : (List.range 1000).filter (fun g => decide (Logged 15 25 g)) = (List.range 65).map (fun k => 25 + 15 * k) := by decide +kernel

/-- **C142, examples/ff_logging.rs.** The program returns for all draws, and the file `firefly_example.csv` has exactly the 65 records of the
generations 25, 40, 55, …, 985, each with the best value of `examples/ff.rs` after that generation on the same draws. The last generation of
the run (number 999), hence the final result, is not recorded; neither are the first 25. -/
theorem C142_ff_logging (p : Nat → Nat → ℝ) (dr : Draws (Ext ℝ)) :
    ∃ (sts : List (St (Ext ℝ))) (evs received : List (Ev (Ext ℝ))) (records : List (Nat × Ext ℝ)),
      ffMain (fun i d => .fin (p i d)) dr = .ok (sts, evs) ∧ sts.length = 1000 ∧
      loggingMain (fun i d => .fin (p i d)) dr = .ok (received, records) ∧
      records.map Prod.fst = (List.range 65).map (fun k => 25 + 15 * k) ∧
      (∀ (g : Nat) (v : Ext ℝ), (g, v) ∈ records → ∃ s : St (Ext ℝ), sts[g]? = some s ∧ v = s.best) ∧
      ∀ v : Ext ℝ, (999, v) ∉ records := by
  obtain ⟨⟨sts, evs⟩, hr⟩ := C80_run_returns (A := opsR) (c := defaultCfg) (f := sphereR) (dr := dr) cartesian_returns (start_good p)
  have hmain : ffMain (fun i d => .fin (p i d)) dr = .ok (sts, evs) := by
    unfold ffMain
    rw [fromConfig_default, except_bind_of_ok rfl, hr]
  obtain ⟨-, c1, -⟩ := C80_callbacks hr
  obtain ⟨ps, p1, p2⟩ := C82_generation_interval hr 15 25 (by decide)
  have hps : ps.length = 1000 := p1
  have hsts : sts.length = 1000 := c1
  have hlog : loggingMain (fun i d => .fin (p i d)) dr = .ok (intervalDriven 15 ⟨25, false⟩ evs,
      (((List.range 1000).zip (sts.zip ps)).filter fun e => decide (Logged 15 25 e.1)).map fun e => (e.1, e.2.1.best)) := by
    unfold loggingMain
    rw [fromConfig_default, except_bind_of_ok rfl, except_bind_of_ok hr]
    have hrec : ((intervalDriven 15 ⟨25, false⟩ evs).foldl recStep ⟨0, .fin 0, [], []⟩).records.map (fun r => (r.1, r.2.1)) =
        (((List.range 1000).zip (sts.zip ps)).filter fun e => decide (Logged 15 25 e.1)).map fun e => (e.1, e.2.1.best) := by
      rw [p2, records_blocks [.onStart] [.onEnd] (fun _ => rfl) (fun _ => rfl), List.nil_append, List.map_map]
      rfl
    rw [← hrec]
    rfl
  have hzip : ∀ (q : Nat → Bool) (a : List Nat) (b : List (St (Ext ℝ) × List (Ext ℝ))), a.length ≤ b.length →
      ((a.zip b).filter fun e => q e.1).map (fun e => e.1) = a.filter q := by
    intro q a
    induction a with
    | nil => intro b _; rfl
    | cons x a ih =>
      intro b hb
      cases b with
      | nil => cases hb
      | cons y b =>
        have := ih b (by simpa using hb)
        rw [List.zip_cons_cons, List.filter_cons, List.filter_cons]
        split
        · rw [List.map_cons, this]
        · exact this
  have hfst : ((((List.range 1000).zip (sts.zip ps)).filter fun e => decide (Logged 15 25 e.1)).map fun e => (e.1, e.2.1.best)).map Prod.fst =
      (List.range 65).map (fun k => 25 + 15 * k) := by
    rw [List.map_map]
    refine (hzip (fun g => decide (Logged 15 25 g)) _ _ ?_).trans ?_
    · rw [List.length_range, List.length_zip, hsts, hps]
      exact le_refl _
    · exact logged_generations
  refine ⟨sts, evs, _, _, hmain, hsts, hlog, hfst, fun g v hgv => ?_, fun v hv => ?_⟩
  · obtain ⟨⟨g', s, x⟩, he, hev⟩ := List.mem_map.1 hgv
    obtain ⟨rfl, rfl⟩ := Prod.ext_iff.1 hev
    obtain ⟨k, hk⟩ := List.mem_iff_getElem?.1 (List.mem_of_mem_filter he)
    rw [List.getElem?_zip_eq_some, List.getElem?_zip_eq_some] at hk
    obtain ⟨hk1, hk2, -⟩ := hk
    obtain ⟨hk3, hk4⟩ := List.getElem?_eq_some_iff.1 hk1
    rw [List.getElem_range] at hk4
    subst hk4
    exact ⟨s, hk2, rfl⟩
  · have := List.mem_map_of_mem (f := Prod.fst) hv
    rw [hfst] at this
    obtain ⟨k, hk, hk2⟩ := List.mem_map.1 this
    have := List.mem_range.1 hk
    simp only at hk2
    omega

end Ecrs.Ff

namespace Ecrs.Pso
open Ecrs

/-! ## examples/pso_multiple_probes.rs -/

theorem csvRecords_map (s0 : Swarm ℝ ℝ) (sw : Nat → Swarm ℝ ℝ) (l : List Nat) (s : Swarm ℝ ℝ) (n : Nat) :
    csvRecords ([.onBegin s0] ++ (l.map fun k => Ev.onNewGeneration (sw k) k) ++ [.onEnd s n]) =
      (0, s0.bestValue) :: l.map fun k => (k, (sw k).bestValue) := by
  have : csvRecords ((l.map fun k => Ev.onNewGeneration (sw k) k) ++ [.onEnd s n]) = l.map fun k => (k, (sw k).bestValue) := by
    induction l with
    | nil => rfl
    | cons a l ih => simp [csvRecords, ih]
  rw [List.append_assoc, List.singleton_append, csvRecords, this]

theorem jsonRecords_map (s0 : Swarm ℝ ℝ) (sw : Nat → Swarm ℝ ℝ) (l : List Nat) (s : Swarm ℝ ℝ) (n : Nat) :
    jsonRecords ([.onBegin s0] ++ (l.map fun k => Ev.onNewGeneration (sw k) k) ++ [.onEnd s n]) =
      (0, s0.bestValue, s0.bestPosition) :: l.map fun k => (k, (sw k).bestValue, (sw k).bestPosition) := by
  have : jsonRecords ((l.map fun k => Ev.onNewGeneration (sw k) k) ++ [.onEnd s n]) = l.map fun k => (k, (sw k).bestValue, (sw k).bestPosition) := by
    induction l with
    | nil => rfl
    | cons a l ih => simp [jsonRecords, ih]
  rw [List.append_assoc, List.singleton_append, jsonRecords, this]

theorem onEnd_inj {s s' : Swarm ℝ ℝ} {n m : Nat} (h : Ev.onEnd s n = Ev.onEnd s' m) : n = m := by
  injection h

/-- The history of a swarm object up to generation `k`. -/
theorem history_after {c : Coeffs ℝ} {f : List ℝ → Fl ℝ} {draw : Nat → Nat → Nat → ℝ × ℝ} {s0 : Swarm ℝ ℝ} (h0 : History c f [s0] s0) :
    ∀ k, History c f ((List.range (k + 1)).map (swarmAfter c f draw s0)) (swarmAfter c f draw s0 k)
  | 0 => h0
  | k + 1 => by
    have := History.step _ _ (draw (k + 1)) (history_after (draw := draw) h0 k)
    rw [List.range_succ, List.map_append]
    exact this

theorem dim_after {c : Coeffs ℝ} {f : List ℝ → Fl ℝ} {draw : Nat → Nat → Nat → ℝ × ℝ} {s0 : Swarm ℝ ℝ} {dim n : Nat} (h : HasDim dim s0) (hn : s0.particles.length = n) :
    ∀ k, HasDim dim (swarmAfter c f draw s0 k) ∧ (swarmAfter c f draw s0 k).particles.length = n
  | 0 => ⟨h, hn⟩
  | k + 1 => by
    obtain ⟨h1, h2⟩ := dim_after h hn k
    obtain ⟨h3, h4⟩ := C49_dimension_invariant c f (draw (k + 1)) h1
    exact ⟨h3, h4.trans h2⟩

theorem rosenbrockR_ok {x : List ℝ} (hx : x.length = 3) : ∃ v : ℝ, TF.rosenbrock x = .ok v ∧ rosenbrockR x = .num v ∧ 0 ≤ v := by
  obtain ⟨-, -, h⟩ := Ecrs.Props.C67_rosenbrock 2 (le_refl _)
  obtain ⟨v, h1, h2⟩ := h x (by rw [hx]; decide)
  exact ⟨v, h1, by unfold rosenbrockR; rw [h1], h2⟩

/-- **C142, examples/pso_multiple_probes.rs.** The program returns for all draws (whatever the fuel above 2000, so the loop ends by itself),
with 30 particles of dimension 3; both files have exactly the 41 records of the generations 0, 50, 100, …, 2000; the record of a generation
is the best position and value of the swarm after that many iterations, where the value is the least value of the Rosenbrock function over
all positions all particles visited up to then, attained at the recorded position; and the last record is the final result. -/
theorem C142_pso (draw0 : Nat → Nat → ℝ × ℝ) (draw : Nat → Nat → Nat → ℝ × ℝ) {fuel : Nat} (hf : 2000 < fuel) :
    ∃ (at_ : Nat → Swarm ℝ ℝ) (received : List (Ev ℝ ℝ)),
      Swarm.generate abs 30 3 (-10) 10 rosenbrockR draw0 = .ok (at_ 0) ∧
      (∀ k, at_ (k + 1) = (at_ k).iterate ⟨1 / 2, 1, 3⟩ rosenbrockR (draw (k + 1))) ∧
      multipleProbesMain draw0 draw fuel () = .ok ((at_ 2000, received,
        (List.range 41).map (fun k => (50 * k, (at_ (50 * k)).bestValue)),
        (List.range 41).map (fun k => (50 * k, (at_ (50 * k)).bestValue, (at_ (50 * k)).bestPosition))), ()) ∧
      ∀ n, (at_ n).particles.length = 30 ∧ (∀ q ∈ (at_ n).particles, q.position.length = 3) ∧
        ∃ v : ℝ, (at_ n).bestValue = .num v ∧ 0 ≤ v ∧ TF.rosenbrock (at_ n).bestPosition = .ok v ∧
          (∃ m ≤ n, ∃ q ∈ (at_ m).particles, q.position = (at_ n).bestPosition) ∧
          ∀ m ≤ n, ∀ q ∈ (at_ m).particles, ∃ u : ℝ, TF.rosenbrock q.position = .ok u ∧ v ≤ u := by
  obtain ⟨s0, h1, h2, h3⟩ := C77_built_shape (Tm := Nat) abs draw0 ([Setter.dimensions 3, Setter.term 2000].foldl Setter.apply defaultCfg)
    (by show 0 < 30; decide)
  have hgen : Swarm.generate abs 30 3 (-10) 10 rosenbrockR draw0 = .ok s0 := h1
  have hrun := C48_generation_limit (W := Unit) 2000 (⟨1 / 2, 1, 3⟩ : Coeffs ℝ) rosenbrockR draw fuel hf s0 ()
  obtain ⟨n, st, g1, g3, g2⟩ := C51_generation_interval hrun 50 (by decide) ()
  obtain rfl : n = 2000 := by
    rw [List.getLast?_concat] at g3
    exact (onEnd_inj (Option.some.inj g3)).symm
  have hist := history_after (draw := draw) (History.new (c := (⟨1 / 2, 1, 3⟩ : Coeffs ℝ)) (f := rosenbrockR) abs 30 3 (-10) 10 draw0 s0 hgen)
  have hdim := dim_after (c := (⟨1 / 2, 1, 3⟩ : Coeffs ℝ)) (f := rosenbrockR) (draw := draw) h3 h2
  have hfilt : ((List.range' 1 2000).filter fun g => decide (g % 50 = 0 ∨ g = 2000)) = (List.range' 1 40).map (50 * ·) := by decide +kernel
  refine ⟨swarmAfter ⟨1 / 2, 1, 3⟩ rosenbrockR draw s0, [.onBegin s0] ++ (((List.range' 1 40).map (50 * ·)).map fun k =>
    Ev.onNewGeneration (swarmAfter ⟨1 / 2, 1, 3⟩ rosenbrockR draw s0 k) k) ++ [.onEnd (swarmAfter ⟨1 / 2, 1, 3⟩ rosenbrockR draw s0 2000) 2000], hgen, fun k => rfl, ?_, fun n => ⟨(hdim n).2, fun q hq => ((hdim n).1.2 q hq).1, ?_⟩⟩
  · rw [hfilt] at g2
    unfold multipleProbesMain
    refine (M.bind_of_ok (a := s0) (w' := ()) (by rw [h1]; rfl)).trans ?_
    refine (M.bind_of_ok hrun).trans ?_
    simp only
    rw [M.bind_of_ok g2]
    simp only
    rw [csvRecords_map, jsonRecords_map, M.pure_run, List.map_map, List.map_map]
    rfl
  · have hnum : NumericStart rosenbrockR ((List.range (n + 1)).map (swarmAfter ⟨1 / 2, 1, 3⟩ rosenbrockR draw s0)) := by
      intro s hs q hq
      rw [List.range_succ_eq_map, List.map_cons] at hs
      obtain rfl := Option.some.inj hs
      obtain ⟨v, -, hv, -⟩ := rosenbrockR_ok ((hdim 0).1.2 q hq).1
      rw [hv]
      trivial
    obtain ⟨e1, ⟨k, e2⟩, e3⟩ := C45_swarm_best (hist n) hnum
    obtain ⟨v, v1, v2, v3⟩ := rosenbrockR_ok (hdim n).1.1
    refine ⟨v, by rw [e1, v2], v3, v1, ?_, fun m hm q hq => ?_⟩
    · obtain ⟨s, hs, q, hq, hqp⟩ := e2
      obtain ⟨m, hm, rfl⟩ := List.mem_map.1 hs
      exact ⟨m, by have := List.mem_range.1 hm; omega, q, List.mem_of_getElem? hq, hqp⟩
    · obtain ⟨u, u1, u2, -⟩ := rosenbrockR_ok ((hdim m).1.2 q hq).1
      refine ⟨u, u1, ?_⟩
      obtain ⟨k, hk⟩ := List.mem_iff_getElem?.1 hq
      have := e3 k q.position ⟨_, List.mem_map_of_mem (List.mem_range.2 (by omega : m < n + 1)), q, hk, rfl⟩ (by rw [u2]; trivial)
      rw [e1, v2, u2] at this
      exact this

/-- Any draws will do for `C142_pso`; the loop needs 2000 steps. -/
example : ∃ fuel, 2000 < fuel := ⟨2001, by decide⟩

/-- `C142_pso` with the smallest fuel and some draws. -/
example := C142_pso (fun i _ => (1 / (i + 1), 1 / 3)) (fun _ i _ => (1 / (i + 1), 1 / 2)) (fuel := 2001) (by decide)

end Ecrs.Pso
