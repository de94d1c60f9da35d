import Verif.Props.FfExamples

/-!
# Property C143: the firefly search cools down
-/

set_option linter.unusedSectionVars false
set_option linter.unusedVariables false

namespace Ecrs.Ff
open Ecrs

section exact
variable {F : Type} [Field F] [LinearOrder F] [IsStrictOrderedRing F] (expo sqrt : Ext F → Ext F) (maxv : F)

/-- What is stored for a finite candidate below the upper bound. -/
theorem clamp_below {c : Cfg (Ext F)} {lo up v : F} (hlo : c.lower = .fin lo) (hup : c.upper = .fin up) (hv : v < up) (hlt : lo < up) :
    clamp (Ext.ops expo sqrt maxv) c (.fin v) = .fin (max lo v) := by
  have hb := C78_bounds_test (A := Ext.ops expo sqrt maxv) c (.fin v) (by rw [hlo]; trivial) (by rw [hup]; trivial)
  have lt_fin : ∀ {a b : F}, a < b → Fl.Lt ((Ext.ops expo sqrt maxv).view (.fin a)) ((Ext.ops expo sqrt maxv).view (.fin b)) :=
    fun h => Fl.lt_iff.1 ((fin_lt_fin expo sqrt maxv).2 h)
  by_cases h : lo < v
  · rw [hb.2.1 (by rw [hlo]; exact lt_fin h) (by rw [hup]; exact lt_fin hv), max_eq_right h.le]
  · rw [hb.2.2.2 ?_ (by rw [hlo, hup]; exact (lt_fin hlt).le), hlo, max_eq_left (not_lt.1 h)]
    rw [hlo]
    show ((v : WithTop F) : WithBot (WithTop F)) ≤ ((lo : WithTop F) : WithBot (WithTop F))
    rw [WithBot.coe_le_coe, WithTop.coe_le_coe]
    exact not_lt.1 h

theorem clamp_finite {c : Cfg (Ext F)} {lo up : F} (hlo : c.lower = .fin lo) (hup : c.upper = .fin up) (v : F) :
    ∃ w : F, clamp (Ext.ops expo sqrt maxv) c (.fin v) = .fin w := by
  unfold clamp
  split
  · exact ⟨v, rfl⟩
  · split
    · exact ⟨up, hup⟩
    · exact ⟨lo, hlo⟩

/-- Specification: the numbers a run of the algorithm uses: finite bounds, coefficients and draws, cooling `delta` below 1, attraction between
0 and 1 (for the default attraction: `0 ≤ beta0 ≤ 1`, `gamma ≥ 0`), flight lengths at most `S`. -/
structure Moderate (c : Cfg (Ext F)) (dist : List (Ext F) → List (Ext F) → Except Panic (Ext F)) (dr : Draws (Ext F)) (lo up a0 δ S : F) : Prop where
  lower : c.lower = .fin lo
  upper : c.upper = .fin up
  alfa0 : c.alfa0 = .fin a0
  delta : c.delta = .fin δ
  order : lo < up
  delta0 : 0 ≤ δ
  delta1 : δ < 1
  attract : ∀ (x y : List F) (d : Ext F), dist (x.map .fin) (y.map .fin) = .ok d →
    ∃ z : F, attraction (Ext.ops expo sqrt maxv) c d = .fin z ∧ 0 ≤ z ∧ z ≤ 1
  walk : ∃ w : F, (Ext.ops expo sqrt maxv).expo ((Ext.ops expo sqrt maxv).mul ((Ext.ops expo sqrt maxv).mul (Ext.ops expo sqrt maxv).minusOne c.beta0) c.gamma) =
    .fin w ∧ |w| ≤ 1
  uni : ∀ g i j d, ∃ u : F, dr.uni g i j d = .fin u ∧ 0 ≤ u ∧ u ≤ 1
  flight : ∀ g i j d, ∃ s : F, dr.dist g i j d = .fin s ∧ |s| ≤ S
  brown : ∀ g i d, ∃ b : F, dr.brown g i d = .fin b ∧ |b| ≤ 1

/-- The largest random displacement in generation `k ≥ 1`, in one coordinate. -/
def jitter (lo up a0 δ S : F) (k : Nat) : F := a0 ^ 2 * max 1 ((1 / 2 + S) * (up - lo)) * δ ^ k

variable {expo sqrt maxv}

/-- The noise of an attraction step. -/
theorem noise_le {lo up a0 δ S u s : F} {k : Nat} (hk : 0 < k) (hlt : lo < up) (hδ : 0 ≤ δ) (hu : 0 ≤ u) (hu1 : u ≤ 1) (hs : |s| ≤ S) :
    |a0 * (a0 * δ ^ k) * (u + s / (k : F) - 1 / 2) * (up - lo)| ≤ jitter lo up a0 δ S k := by
  have hp : (0 : F) ≤ δ ^ k := pow_nonneg hδ k
  have hk1 : (1 : F) ≤ (k : F) := by exact_mod_cast hk
  have h1 : |u + s / (k : F) - 1 / 2| ≤ 1 / 2 + S := by
    have h2 : |s / (k : F)| ≤ S := by
      rw [abs_div, abs_of_pos (lt_of_lt_of_le one_pos hk1)]
      exact (div_le_self (abs_nonneg s) hk1).trans hs
    have h3 : u + s / (k : F) - 1 / 2 = (u - 1 / 2) + s / (k : F) := by ring
    rw [h3]
    refine (abs_add_le _ _).trans (add_le_add ?_ h2)
    rw [abs_le]
    constructor <;> linarith
  have h4 : a0 * (a0 * δ ^ k) * (u + s / (k : F) - 1 / 2) * (up - lo) = (a0 ^ 2 * δ ^ k) * ((u + s / (k : F) - 1 / 2) * (up - lo)) := by ring
  have h5 : jitter lo up a0 δ S k = (a0 ^ 2 * δ ^ k) * max 1 ((1 / 2 + S) * (up - lo)) := by unfold jitter; ring
  rw [h4, h5, abs_mul, abs_of_nonneg (by positivity)]
  refine mul_le_mul_of_nonneg_left ?_ (by positivity)
  refine le_trans ?_ (le_max_right _ _)
  rw [abs_mul, abs_of_pos (by linarith : 0 < up - lo)]
  exact mul_le_mul_of_nonneg_right h1 (by linarith)

theorem jitter_nonneg {lo up a0 δ S : F} (hδ : 0 ≤ δ) (k : Nat) : 0 ≤ jitter lo up a0 δ S k := by
  unfold jitter
  have : (0 : F) ≤ max 1 ((1 / 2 + S) * (up - lo)) := le_trans zero_le_one (le_max_left _ _)
  positivity

/-- The step of a firefly without a brighter one. -/
theorem walk_le {lo up a0 δ S b w : F} {k : Nat} (hδ : 0 ≤ δ) (hδ1 : δ ≤ 1) (hb : |b| ≤ 1) (hw : |w| ≤ 1) :
    |b * (a0 * δ ^ k * (a0 * δ ^ k)) * w| ≤ jitter lo up a0 δ S k := by
  have hp : (0 : F) ≤ δ ^ k := pow_nonneg hδ k
  have hp1 : δ ^ k ≤ 1 := pow_le_one₀ hδ hδ1
  have h4 : b * (a0 * δ ^ k * (a0 * δ ^ k)) * w = (a0 ^ 2 * δ ^ k) * (δ ^ k * (b * w)) := by ring
  have h5 : jitter lo up a0 δ S k = (a0 ^ 2 * δ ^ k) * max 1 ((1 / 2 + S) * (up - lo)) := by unfold jitter; ring
  rw [h4, h5, abs_mul, abs_of_nonneg (by positivity : 0 ≤ a0 ^ 2 * δ ^ k)]
  refine mul_le_mul_of_nonneg_left (le_trans ?_ (le_max_left _ _)) (by positivity)
  rw [abs_mul, abs_mul, abs_of_nonneg hp]
  have : |b| * |w| ≤ 1 := mul_le_one₀ hb (abs_nonneg _) hw
  exact mul_le_one₀ hp1 (by positivity) this

theorem between_low {a v t z n N : F} (z0 : 0 ≤ z) (z1 : z ≤ 1) (v1 : a ≤ v) (t1 : a ≤ t) (hn : -N ≤ n) : a - N ≤ v + (z * (t - v) + n) := by
  have h1 := mul_nonneg z0 (sub_nonneg.2 t1)
  have h2 := mul_nonneg (sub_nonneg.2 z1) (sub_nonneg.2 v1)
  have h3 : v + (z * (t - v) + n) - a = z * (t - a) + (1 - z) * (v - a) + n := by ring
  linarith

theorem between_high {b v t z n N : F} (z0 : 0 ≤ z) (z1 : z ≤ 1) (v1 : v ≤ b) (t1 : t ≤ b) (hn : n ≤ N) : v + (z * (t - v) + n) ≤ b + N := by
  have h1 := mul_nonneg z0 (sub_nonneg.2 t1)
  have h2 := mul_nonneg (sub_nonneg.2 z1) (sub_nonneg.2 v1)
  have h3 : b - (v + (z * (t - v) + n)) = z * (b - t) + (1 - z) * (b - v) - n := by ring
  linarith

theorem candidate_eq (v z t a0 p u s up lo : F) :
    (Ext.ops expo sqrt maxv).add (.fin v) ((Ext.ops expo sqrt maxv).add ((Ext.ops expo sqrt maxv).mul (.fin z) ((Ext.ops expo sqrt maxv).sub (.fin t) (.fin v)))
      ((Ext.ops expo sqrt maxv).mul ((Ext.ops expo sqrt maxv).mul ((Ext.ops expo sqrt maxv).mul (.fin a0) (.fin p))
        ((Ext.ops expo sqrt maxv).sub ((Ext.ops expo sqrt maxv).add (.fin u) (.fin s)) (Ext.ops expo sqrt maxv).half))
        ((Ext.ops expo sqrt maxv).sub (.fin up) (.fin lo)))) = .fin (v + (z * (t - v) + a0 * p * (u + s - 1 / 2) * (up - lo))) := by
  simp only [sub_eq_add_neg]
  rfl

/-- One generation: if coordinate `d` of all fireflies is in `[a, b]`, it is afterwards in the interval enlarged by the jitter. -/
theorem generation_cools {c : Cfg (Ext F)} {f : List (Ext F) → Ext F} {dist : List (Ext F) → List (Ext F) → Except Panic (Ext F)} {dr : Draws (Ext F)}
    {lo up a0 δ S : F} (hm : Moderate expo sqrt maxv c dist dr lo up a0 δ S) {k : Nat} (hk : 0 < k) {st st' : St (Ext F)} {e : List (Ev (Ext F))}
    (h : generation (Ext.ops expo sqrt maxv) c f dist dr k st = .ok (st', e)) (hbl : st.bright = st.pop.map fun x => (Ext.ops expo sqrt maxv).div (Ext.ops expo sqrt maxv).one (f x))
    (halfa : st.alfa = .fin (a0 * δ ^ k))
    (hfin : ∀ x ∈ st.pop, ∃ y : List F, x = y.map .fin) {d : Nat} {a b : F}
    (hbox : ∀ y : List F, y.map .fin ∈ st.pop → ∀ v, y[d]? = some v → a ≤ v ∧ v ≤ b) (hlob : lo ≤ b) (hup : b + jitter lo up a0 δ S k < up) :
    ∀ x ∈ st'.pop, ∃ y : List F, x = y.map .fin ∧ ∀ v, y[d]? = some v → a - jitter lo up a0 δ S k ≤ v ∧ v ≤ b + jitter lo up a0 δ S k := by
  intro y hy
  obtain ⟨i, hi⟩ := List.mem_iff_getElem?.1 hy
  have hil : i < st.pop.length := by
    obtain ⟨x0, hm0, -⟩ := generation_ok h
    obtain ⟨hl, -⟩ := moveAll_ok hm0
    rw [← hl]
    exact (List.getElem?_eq_some_iff.1 hi).1
  obtain ⟨x, hx⟩ : ∃ x, st.pop[i]? = some x := ⟨_, List.getElem?_eq_getElem hil⟩
  obtain ⟨xs, rfl⟩ := hfin x (List.mem_of_getElem? hx)
  -- it suffices to know every coordinate as the clamped image of a finite number, in range for coordinate d
  have key : (y.length = xs.length ∧ ∀ (d' : Nat) (v : F), xs[d']? = some v → ∃ v' : F, y[d']? = some (clamp (Ext.ops expo sqrt maxv) c (.fin v')) ∧
      (d' = d → a - jitter lo up a0 δ S k ≤ v' ∧ v' ≤ b + jitter lo up a0 δ S k)) →
      ∃ y' : List F, y = y'.map .fin ∧ ∀ v, y'[d]? = some v → a - jitter lo up a0 δ S k ≤ v ∧ v ≤ b + jitter lo up a0 δ S k := by
    rintro ⟨hl, hc⟩
    have hall : ∀ q ∈ y, ∃ w : F, q = .fin w := by
      intro q hq
      obtain ⟨d', hd'⟩ := List.mem_iff_getElem?.1 hq
      have hlt : d' < xs.length := by rw [← hl]; exact (List.getElem?_eq_some_iff.1 hd').1
      obtain ⟨v', hv', -⟩ := hc d' _ (List.getElem?_eq_getElem hlt)
      rw [hd'] at hv'
      obtain ⟨w, hw⟩ := clamp_finite expo sqrt maxv hm.lower hm.upper v'
      exact ⟨w, by rw [Option.some.inj hv', hw]⟩
    have : ∃ y' : List F, y = y'.map .fin := by
      clear hc hl hy hi
      induction y with
      | nil => exact ⟨[], rfl⟩
      | cons q y ih =>
        obtain ⟨w, rfl⟩ := hall q (by simp)
        obtain ⟨y', rfl⟩ := ih fun q hq => hall q (by simp [hq])
        exact ⟨w :: y', rfl⟩
    obtain ⟨y', rfl⟩ := this
    refine ⟨y', rfl, fun v hv => ?_⟩
    have hlt : d < xs.length := by
      rw [← hl, List.length_map]; exact (List.getElem?_eq_some_iff.1 hv).1
    obtain ⟨v', hv', hr⟩ := hc d _ (List.getElem?_eq_getElem hlt)
    obtain ⟨h1, h2⟩ := hr rfl
    rw [List.getElem?_map, hv, clamp_below expo sqrt maxv hm.lower hm.upper (lt_of_le_of_lt h2 hup) hm.order] at hv'
    have hv2 : v = max lo v' := by
      have := Option.some.inj hv'
      injection this
    have hj := jitter_nonneg (lo := lo) (up := up) (a0 := a0) (S := S) hm.delta0 k
    rw [hv2]
    exact ⟨h1.trans (le_max_right _ _), max_le (by linarith) h2⟩
  apply key
  have hbi : st.bright[i]? = some ((Ext.ops expo sqrt maxv).div (Ext.ops expo sqrt maxv).one (f (xs.map .fin))) := by
    rw [hbl, List.getElem?_map, hx]; rfl
  by_cases hb : ∃ j < c.populationSize, ∃ bj, st.bright[j]? = some bj ∧
      (Ext.ops expo sqrt maxv).lt ((Ext.ops expo sqrt maxv).div (Ext.ops expo sqrt maxv).one (f (xs.map .fin))) bj = true
  · obtain ⟨j0, hj0, bj, hbj, hlt⟩ := hb
    obtain ⟨j, hj⟩ := lastBrighter_exists hj0 hbi hbj hlt
    obtain ⟨xi, xj, y', dd, g1, g2, g3, g4, g5, g6⟩ := C86_last_brighter_wins h hil hj
    rw [hx] at g1
    obtain rfl := Option.some.inj g1
    rw [hi] at g3
    obtain rfl := Option.some.inj g3
    obtain ⟨ys, rfl⟩ := hfin xj (List.mem_of_getElem? g2)
    obtain ⟨z, hz, z0, z1⟩ := hm.attract xs ys dd g4
    refine ⟨by rw [g5, List.length_map], fun d' v hv => ?_⟩
    obtain ⟨q, hq, hyq⟩ := g6 d' (.fin v) (by rw [List.getElem?_map, hv]; rfl)
    rw [List.getElem?_map] at hq
    obtain ⟨t, ht, rfl⟩ := Option.map_eq_some_iff.1 hq
    obtain ⟨u, hu, u0, u1⟩ := hm.uni k i j d'
    obtain ⟨s, hs, hsS⟩ := hm.flight k i j d'
    have hk0 : (k : F) ≠ 0 := by exact_mod_cast hk.ne'
    have hdiv : (Ext.ops expo sqrt maxv).div (.fin s) ((Ext.ops expo sqrt maxv).ofNat k) = .fin (s / (k : F)) := by
      show (if (k : F) = 0 then (if s = 0 then Ext.nan else Ext.signed s) else Ext.fin (s / (k : F))) = _
      rw [if_neg hk0]
    have hz' : (Ext.ops expo sqrt maxv).mul c.beta0 ((Ext.ops expo sqrt maxv).expo ((Ext.ops expo sqrt maxv).mul ((Ext.ops expo sqrt maxv).mul
        (Ext.ops expo sqrt maxv).minusOne c.gamma) ((Ext.ops expo sqrt maxv).sq dd))) = .fin z := hz
    rw [hz', hm.alfa0, halfa, hu, hs, hdiv, hm.upper, hm.lower, candidate_eq] at hyq
    refine ⟨v + (z * (t - v) + a0 * (a0 * δ ^ k) * (u + s / (k : F) - 1 / 2) * (up - lo)), hyq, fun hd => ?_⟩
    subst hd
    have hn := abs_le.1 (noise_le (a0 := a0) (δ := δ) (S := S) hk hm.order hm.delta0 u0 u1 hsS)
    obtain ⟨v1, v2⟩ := hbox xs (List.mem_of_getElem? hx) v hv
    obtain ⟨t1, t2⟩ := hbox ys (List.mem_of_getElem? g2) t ht
    constructor
    · exact between_low z0 z1 v1 t1 hn.1
    · exact between_high z0 z1 v2 t2 hn.2
  · have hno : ∀ j, j < c.populationSize → ∀ bi bk, st.bright[i]? = some bi → st.bright[j]? = some bk →
        (Ext.ops expo sqrt maxv).lt bi bk = false := by
      intro j hj bi bk h1 h2
      rw [hbi] at h1
      obtain rfl := Option.some.inj h1
      by_contra hc
      exact hb ⟨j, hj, bk, h2, by simpa using hc⟩
    obtain ⟨y', g1, g2, g3⟩ := C86_brightest_walks h hx hno
    rw [hi] at g1
    obtain rfl := Option.some.inj g1
    refine ⟨by rw [g2, List.length_map], fun d' v hv => ?_⟩
    have hyq := g3 d' (.fin v) (by rw [List.getElem?_map, hv]; rfl)
    obtain ⟨w, hw, hw1⟩ := hm.walk
    obtain ⟨q, hq, hq1⟩ := hm.brown k i d'
    rw [hw, halfa, hq] at hyq
    refine ⟨v + q * (a0 * δ ^ k * (a0 * δ ^ k)) * w, hyq, fun hd => ?_⟩
    subst hd
    have hn := abs_le.1 (walk_le (lo := lo) (up := up) (a0 := a0) (S := S) (k := k) hm.delta0 hm.delta1.le hq1 hw1)
    obtain ⟨v1, v2⟩ := hbox xs (List.mem_of_getElem? hx) v hv
    constructor <;> linarith [hn.1, hn.2]

/-- **C143, cooling.** Exact arithmetic, any objective and any number of generations: if after generation `g` coordinate `d` of every firefly
is a number in `[a, b]`, then for ever after it is in `[a - W, b + W]` with `W = alfa0² · max(1, (1/2 + S)(upper - lower)) · delta^(g+1) / (1 - delta)`
(for as long as `b + W` stays below the upper bound, so that the teleport of C78 does not happen). `W` shrinks geometrically with `g`:
a point outside the bounding box of the swarm at a late generation is out of reach, whatever the later draws and however many generations follow. -/
theorem C143_cooling {c : Cfg (Ext F)} {f : List (Ext F) → Ext F} {dist : List (Ext F) → List (Ext F) → Except Panic (Ext F)} {dr : Draws (Ext F)}
    {pop : List (List (Ext F))} {sts : List (St (Ext F))} {evs : List (Ev (Ext F))} {lo up a0 δ S : F}
    (h : run (Ext.ops expo sqrt maxv) c f dist dr pop = .ok (sts, evs)) (hm : Moderate expo sqrt maxv c dist dr lo up a0 δ S)
    {g : Nat} {st : St (Ext F)} (hst : sts[g]? = some st) (hfin : ∀ x ∈ st.pop, ∃ y : List F, x = y.map .fin) {d : Nat} {a b W : F}
    (hbox : ∀ y : List F, y.map .fin ∈ st.pop → ∀ v, y[d]? = some v → a ≤ v ∧ v ≤ b) (hlob : lo ≤ b)
    (hW : W = a0 ^ 2 * max 1 ((1 / 2 + S) * (up - lo)) * δ ^ (g + 1) / (1 - δ)) (hup : b + W < up) :
    ∀ (k : Nat) (st' : St (Ext F)), g ≤ k → sts[k]? = some st' → ∀ x ∈ st'.pop, ∃ y : List F, x = y.map .fin ∧
      ∀ v, y[d]? = some v → a - W ≤ v ∧ v ≤ b + W := by
  obtain ⟨-, st0, -, hstep, hb⟩ := C120_states h
  have h1δ : 0 < 1 - δ := sub_pos.2 hm.delta1
  -- what is left of the noise after generation k
  set R : Nat → F := fun k => jitter lo up a0 δ S (k + 1) / (1 - δ) with hR
  have hR0 : ∀ k, 0 ≤ R k := fun k => div_nonneg (jitter_nonneg hm.delta0 _) h1δ.le
  have hRW : W = R g := by rw [hW]; rfl
  have hstepR : ∀ k, R k = jitter lo up a0 δ S (k + 1) + R (k + 1) := by
    intro k
    have h2 : jitter lo up a0 δ S (k + 1 + 1) = jitter lo up a0 δ S (k + 1) * δ := by unfold jitter; rw [pow_succ δ (k + 1)]; ring
    show jitter lo up a0 δ S (k + 1) / (1 - δ) = jitter lo up a0 δ S (k + 1) + jitter lo up a0 δ S (k + 1 + 1) / (1 - δ)
    rw [h2]
    field_simp
    ring
  have hinv : ∀ (n : Nat) (st' : St (Ext F)), sts[g + n]? = some st' → ∀ x ∈ st'.pop, ∃ y : List F, x = y.map .fin ∧
      ∀ v, y[d]? = some v → a - (R g - R (g + n)) ≤ v ∧ v ≤ b + (R g - R (g + n)) := by
    intro n
    induction n with
    | zero =>
      intro st' hst' x hx
      rw [Nat.add_zero, hst] at hst'
      obtain rfl := Option.some.inj hst'
      obtain ⟨y, rfl⟩ := hfin x hx
      refine ⟨y, rfl, fun v hv => ?_⟩
      have := hbox y hx v hv
      rw [Nat.add_zero, sub_self, sub_zero, add_zero]
      exact this
    | succ n ih =>
      intro st' hst'
      have hlen : g + n < sts.length := by
        have := (List.getElem?_eq_some_iff.1 hst').1
        omega
      have hprev : sts[g + n]? = some sts[g + n] := List.getElem?_eq_getElem hlen
      have ih' := ih _ hprev
      obtain ⟨e, hg⟩ := hstep (g + n + 1) sts[g + n] st' (by rw [List.getElem?_cons_succ]; exact hprev) hst'
      have hbl := (hb (g + n + 1) sts[g + n] (by rw [List.getElem?_cons_succ]; exact hprev)).1
      have halfa := (C120_decay expo sqrt maxv h hm.alfa0 hm.delta (g + n) _ hprev).1
      have hRR := hstepR (g + n)
      have hmono : R (g + n) ≤ R g := by
        clear ih ih' hst' hprev hg hbl halfa hlen hRR
        induction n with
        | zero => exact le_refl _
        | succ n ihn =>
          have := hstepR (g + n)
          have h3 := jitter_nonneg (lo := lo) (up := up) (a0 := a0) (S := S) hm.delta0 (g + n + 1)
          show R (g + n + 1) ≤ R g
          linarith
      have hres := generation_cools hm (Nat.succ_pos _) hg hbl halfa (fun x hx => by obtain ⟨y, hy, -⟩ := ih' x hx; exact ⟨y, hy⟩)
        (d := d) (a := a - (R g - R (g + n))) (b := b + (R g - R (g + n)))
        (fun y hy v hv => by
          obtain ⟨y', hy', hr⟩ := ih' _ hy
          have : y = y' := List.map_injective_iff.2 (fun p q hpq => by injection hpq) hy'
          subst this
          exact hr v hv)
        (by linarith) (by have := hR0 (g + n + 1); rw [hRW] at hup; linarith)
      intro x hx
      obtain ⟨y, hy, hr⟩ := hres x hx
      refine ⟨y, hy, fun v hv => ?_⟩
      obtain ⟨r1, r2⟩ := hr v hv
      show a - (R g - R (g + n + 1)) ≤ v ∧ v ≤ b + (R g - R (g + n + 1))
      constructor <;> linarith
  intro k st' hgk hst' x hx
  obtain ⟨n, rfl⟩ := Nat.exists_eq_add_of_le hgk
  obtain ⟨y, hy, hr⟩ := hinv n st' hst' x hx
  refine ⟨y, hy, fun v hv => ?_⟩
  obtain ⟨r1, r2⟩ := hr v hv
  have := hR0 (g + n)
  rw [hRW]
  constructor <;> linarith

end exact

/-! ## The default configuration -/

theorem default_moderate {dr : Draws (Ext ℝ)} (hd : RealDraws dr) :
    Moderate expR sqrtR ((2 ^ 53 - 1) * 2 ^ 971) defaultCfg (cartesian opsR) dr (-5) 5 1 (97 / 100) 1 where
  lower := rfl
  upper := rfl
  alfa0 := rfl
  delta := rfl
  order := by norm_num
  delta0 := by norm_num
  delta1 := by norm_num
  attract := by
    intro x y d hd
    by_cases hl : x.length ≤ y.length
    · have h1 := C85_cartesian expR sqrtR ((2 ^ 53 - 1) * 2 ^ 971) x y hl
      have h2 : Except.ok d = Except.ok (sqrtR (.fin (List.zipWith (fun x y => (x - y) ^ 2) x y).sum)) := hd.symm.trans h1
      obtain rfl := Except.ok.inj h2
      have hnn : 0 ≤ (List.zipWith (fun x y : ℝ => (x - y) ^ 2) x y).sum := by
        refine List.sum_nonneg fun v hv => ?_
        obtain ⟨i, hi⟩ := List.mem_iff_getElem?.1 hv
        rw [List.getElem?_zipWith] at hi
        split at hi
        · cases hi; positivity
        · cases hi
      have h3 : sqrtR (.fin (List.zipWith (fun x y : ℝ => (x - y) ^ 2) x y).sum) = .fin (Real.sqrt (List.zipWith (fun x y : ℝ => (x - y) ^ 2) x y).sum) := by
        unfold sqrtR
        simp only
        rw [if_neg (not_lt.2 hnn)]
      rw [h3]
      refine ⟨1 * Real.exp (-1 * (1 / 100) * (Real.sqrt (List.zipWith (fun x y : ℝ => (x - y) ^ 2) x y).sum *
        Real.sqrt (List.zipWith (fun x y : ℝ => (x - y) ^ 2) x y).sum)), rfl, by positivity, ?_⟩
      rw [one_mul, Real.exp_le_one_iff, Real.mul_self_sqrt hnn]
      linarith
    · obtain ⟨e, hp⟩ := (C85_longer_panics (Ext.ops expR sqrtR ((2 ^ 53 - 1) * 2 ^ 971)) (x.map .fin) (y.map .fin) (by simpa using not_le.1 hl)).2
      have := hd.symm.trans hp
      cases this
  walk := by
    refine ⟨Real.exp (-1 * 1 * (1 / 100)), rfl, ?_⟩
    rw [abs_of_pos (Real.exp_pos _), Real.exp_le_one_iff]
    norm_num
  uni := fun g i j d => by
    obtain ⟨u, hu, h1, h2⟩ := hd.uni g i j d
    exact ⟨u, hu, by linarith, by linarith⟩
  flight := fun g i j d => by
    obtain ⟨s, hs, h1, h2⟩ := hd.dist g i j d
    exact ⟨s, hs, by rw [abs_of_nonneg h1]; exact h2.le⟩
  brown := fun g i d => by
    obtain ⟨b, hb, h1, h2⟩ := hd.brown g i d
    exact ⟨b, hb, abs_le.2 ⟨h1, h2.le⟩⟩

theorem reach_of_small {t : ℝ} (h : t < (48 / 1000) ^ 3) : (1 : ℝ) ^ 2 * max 1 ((1 / 2 + 1) * (5 - -5)) * t / (1 - 97 / 100) < 3 / 50 := by
  have h3 : max (1 : ℝ) ((1 / 2 + 1) * (5 - -5)) = 15 := by norm_num
  rw [h3, div_lt_iff₀ (by norm_num)]
  norm_num at h ⊢
  linarith

theorem pow_100 : ((97 : ℝ) / 100) ^ 100 < 48 / 1000 := by norm_num

theorem default_reach : (1 : ℝ) ^ 2 * max 1 ((1 / 2 + 1) * (5 - -5)) * (97 / 100) ^ (299 + 1) / (1 - 97 / 100) < 3 / 50 := by
  refine reach_of_small ?_
  rw [show 299 + 1 = 100 * 3 from rfl, pow_mul]
  exact pow_lt_pow_left₀ pow_100 (by positivity) three_ne_zero

/-- **C143, default configuration.** 1000 generations, any objective: from generation 299 on no coordinate of any firefly leaves the range of
that coordinate over the swarm by more than 0.06 (if that range ends below 4.94): the last 700 of the 1000 generations can find
nothing outside the bounding box of the swarm. -/
theorem C143_default {f : List (Ext ℝ) → Ext ℝ} {dr : Draws (Ext ℝ)} (hd : RealDraws dr) {pop : List (List (Ext ℝ))} {sts : List (St (Ext ℝ))}
    {evs : List (Ev (Ext ℝ))} (h : run opsR defaultCfg f (cartesian opsR) dr pop = .ok (sts, evs)) {st : St (Ext ℝ)} (hst : sts[299]? = some st)
    (hfin : ∀ x ∈ st.pop, ∃ y : List ℝ, x = y.map .fin) {d : Nat} {a b : ℝ}
    (hbox : ∀ y : List ℝ, y.map .fin ∈ st.pop → ∀ v, y[d]? = some v → a ≤ v ∧ v ≤ b) (hlob : -5 ≤ b) (hb : b ≤ 494 / 100) :
    ∀ (k : Nat) (st' : St (Ext ℝ)), 299 ≤ k → sts[k]? = some st' → ∀ x ∈ st'.pop, ∃ y : List ℝ, x = y.map .fin ∧
      ∀ v, y[d]? = some v → a - 3 / 50 ≤ v ∧ v ≤ b + 3 / 50 := by
  intro k st' hk hst' x hx
  have hr := default_reach
  obtain ⟨y, hy, hv⟩ := C143_cooling h (default_moderate hd) hst hfin hbox hlob rfl (lt_of_lt_of_eq (add_lt_add_of_le_of_lt hb hr) (by norm_num)) k st' hk hst' x hx
  refine ⟨y, hy, fun v hvd => ?_⟩
  obtain ⟨h1, h2⟩ := hv v hvd
  exact ⟨(sub_le_sub_left hr.le a).trans h1, h2.trans (add_le_add_right hr.le b)⟩

/-! ## A case that meets the hypotheses -/

/-- Two fireflies on a line, exact rational arithmetic, attraction 1. -/
def exCfg : Cfg (Ext ℚ) where
  dimensions := 1
  lower := .fin (-10)
  upper := .fin 10
  maxGenerations := 4
  populationSize := 2
  alfa0 := .fin 1
  beta0 := .fin 1
  gamma := .fin 0
  delta := .fin (1 / 10)

/-- Constant draws. -/
def exDraws : Draws (Ext ℚ) := ⟨fun _ _ _ _ => .fin (1 / 2), fun _ _ _ _ => .fin (1 / 10), fun _ _ _ => .fin (1 / 2)⟩

/-- The objective `x²`. -/
def exF (x : List (Ext ℚ)) : Ext ℚ := match x with
  | [.fin a] => .fin (a * a)
  | _ => .nan

/-- The swarm after each of the four generations. -/
theorem ex_run : (run (Ext.ops (fun _ => .fin 1) id 1000) exCfg exF (taxi (Ext.ops (fun _ => .fin 1) id 1000)) exDraws [[.fin 1], [.fin 3]]).map
    (fun r => r.1.map St.pop) = .ok [[[.fin (3 / 2)], [.fin 10]], [[.fin (301 / 200)], [.fin (17 / 10)]],
      [[.fin (30101 / 20000)], [.fin (303 / 200)]], [[.fin (3010101 / 2000000)], [.fin (90343 / 60000)]]] := by
  decide +kernel

theorem ex_moderate : Moderate (fun _ => .fin 1) id 1000 exCfg (taxi (Ext.ops (fun _ => .fin (1 : ℚ)) id 1000)) exDraws (-10) 10 1 (1 / 10) (1 / 10) where
  lower := rfl
  upper := rfl
  alfa0 := rfl
  delta := rfl
  order := by norm_num
  delta0 := by norm_num
  delta1 := by norm_num
  attract := fun x y d hd => ⟨1 * 1, rfl, by norm_num, by norm_num⟩
  walk := ⟨1, rfl, by norm_num⟩
  uni := fun _ _ _ _ => ⟨1 / 2, rfl, by norm_num, by norm_num⟩
  flight := fun _ _ _ _ => ⟨1 / 10, rfl, by norm_num⟩
  brown := fun _ _ _ => ⟨1 / 2, rfl, by norm_num⟩

/-- Non-vacuity: after generation 1 the two fireflies are at 1.505 and 1.7; the theorem gives that no later one is ever outside
`[1.505 - 2/15, 1.7 + 2/15]`. -/
example : ∃ (sts : List (St (Ext ℚ))) (evs : List (Ev (Ext ℚ))) (st : St (Ext ℚ)),
    run (Ext.ops (fun _ => .fin 1) id 1000) exCfg exF (taxi (Ext.ops (fun _ => .fin 1) id 1000)) exDraws [[.fin 1], [.fin 3]] = .ok (sts, evs) ∧
    sts[1]? = some st ∧ st.pop = [[.fin (301 / 200)], [.fin (17 / 10)]] ∧
    ∀ (k : Nat) (st' : St (Ext ℚ)), 1 ≤ k → sts[k]? = some st' → ∀ x ∈ st'.pop, ∃ y : List ℚ, x = y.map .fin ∧
      ∀ v, y[0]? = some v → 301 / 200 - 2 / 15 ≤ v ∧ v ≤ 17 / 10 + 2 / 15 := by
  have h := ex_run
  cases hr : run (Ext.ops (fun _ => .fin 1) id 1000) exCfg exF (taxi (Ext.ops (fun _ => .fin 1) id 1000)) exDraws [[.fin 1], [.fin 3]] with
  | error p => rw [hr] at h; cases h
  | ok r =>
    obtain ⟨sts, evs⟩ := r
    rw [hr] at h
    have hl : sts.map St.pop = _ := Except.ok.inj h
    have h1 : (sts.map St.pop)[1]? = some [[.fin (301 / 200)], [.fin (17 / 10)]] := by rw [hl]; rfl
    rw [List.getElem?_map] at h1
    obtain ⟨st, hst, hpop⟩ := Option.map_eq_some_iff.1 h1
    refine ⟨sts, evs, st, rfl, hst, hpop, fun k st' hk hst' x hx => ?_⟩
    obtain ⟨y, hy, hv⟩ := C143_cooling hr ex_moderate hst (d := 0) (a := 301 / 200) (b := 17 / 10)
      (by
        rw [hpop]
        intro x hx
        rcases List.mem_pair.1 hx with rfl | rfl
        · exact ⟨[301 / 200], rfl⟩
        · exact ⟨[17 / 10], rfl⟩)
      (by
        rw [hpop]
        intro y hy v hv
        have inj : ∀ z : List ℚ, y.map Ext.fin = z.map Ext.fin → y = z := fun z hz =>
          List.map_injective_iff.2 (fun p q hpq => by injection hpq) hz
        rcases List.mem_pair.1 hy with he | he
        · obtain rfl := inj [301 / 200] he
          cases hv; norm_num
        · obtain rfl := inj [17 / 10] he
          cases hv; norm_num)
      (by norm_num) rfl (by norm_num) k st' hk hst' x hx
    refine ⟨y, hy, fun v hvd => ?_⟩
    obtain ⟨h1, h2⟩ := hv v hvd
    norm_num at h1 h2
    constructor <;> linarith

theorem lt_irrefl_view {K : Type} [LinearOrder K] (a : Fl K) : ¬ Fl.Lt a a := by
  cases a <;> simp [Fl.Lt]

/-- On a constant objective with the walk drawing 0, a swarm inside the box does not move. -/
theorem constant_stays {f : List (Ext ℝ) → Ext ℝ} {z : Ext ℝ} (hf : ∀ x, f x = z) {dr : Draws (Ext ℝ)} (hb : ∀ g i d, dr.brown g i d = .fin 0) {pop : List (List (Ext ℝ))}
    (hin : ∀ x ∈ pop, ∀ q ∈ x, ∃ v : ℝ, q = .fin v ∧ -5 < v ∧ v < 5)
    {sts : List (St (Ext ℝ))} {evs : List (Ev (Ext ℝ))} (h : run opsR defaultCfg f (cartesian opsR) dr pop = .ok (sts, evs)) :
    ∀ (k : Nat) (st : St (Ext ℝ)), sts[k]? = some st → st.pop = pop := by
  obtain ⟨-, st0, h0, hstep, hbr⟩ := C120_states h
  have key : ∀ (k : Nat) (st : St (Ext ℝ)), (st0 :: sts)[k]? = some st → st.pop = pop := by
    intro k
    induction k with
    | zero => intro st hst; cases hst; exact h0
    | succ k ih =>
      intro st hst
      rw [List.getElem?_cons_succ] at hst
      have hlen : k < (st0 :: sts).length := by
        have := (List.getElem?_eq_some_iff.1 hst).1
        rw [List.length_cons]; omega
      obtain ⟨prev, hprev⟩ : ∃ prev, (st0 :: sts)[k]? = some prev := ⟨_, List.getElem?_eq_getElem hlen⟩
      obtain ⟨e, hg⟩ := hstep k prev st hprev hst
      obtain ⟨hbl, halfa⟩ := hbr k prev hprev
      have hpp := ih prev hprev
      obtain ⟨-, hm0, -⟩ := generation_ok hg
      obtain ⟨hl, -⟩ := moveAll_ok hm0
      have hα : ∃ q : ℝ, prev.alfa = .fin q := by
        cases k with
        | zero => exact ⟨1, halfa⟩
        | succ k => exact ⟨_, (C120_decay expR sqrtR _ h rfl rfl k _ (by rw [List.getElem?_cons_succ] at hprev; exact hprev)).1⟩
      obtain ⟨q, hq⟩ := hα
      rw [← hpp]
      refine List.ext_getElem? fun i => ?_
      cases hx : prev.pop[i]? with
      | none =>
        rw [List.getElem?_eq_none_iff] at hx ⊢
        omega
      | some x =>
        obtain ⟨y, g1, g2, g3⟩ := C86_brightest_walks hg hx (by
          intro j hj bi bk h1 h2
          rw [hbl, List.getElem?_map] at h1 h2
          obtain ⟨_, -, rfl⟩ := Option.map_eq_some_iff.1 h1
          obtain ⟨_, -, rfl⟩ := Option.map_eq_some_iff.1 h2
          rw [hf, hf]
          cases hl : opsR.lt (opsR.div opsR.one z) (opsR.div opsR.one z) with
          | false => rfl
          | true => exact absurd (Fl.lt_iff.1 hl) (lt_irrefl_view _))
        rw [g1]
        congr 1
        refine List.ext_getElem? fun d => ?_
        cases ha : x[d]? with
        | none =>
          rw [List.getElem?_eq_none_iff] at ha ⊢
          omega
        | some a =>
          rw [g3 d a ha]
          obtain ⟨v, rfl, v1, v2⟩ := hin x (by rw [← hpp]; exact List.mem_of_getElem? hx) a (List.mem_of_getElem? ha)
          have hstay : opsR.add (.fin v) (opsR.mul (opsR.mul (dr.brown k i d) (opsR.sq prev.alfa)) (opsR.expo (opsR.mul (opsR.mul opsR.minusOne defaultCfg.beta0) defaultCfg.gamma))) =
              .fin v := by
            rw [hb, hq]
            show Ext.fin (v + 0 * (q * q) * Real.exp (-1 * 1 * (1 / 100))) = Ext.fin v
            rw [zero_mul, zero_mul, add_zero]
          rw [hstay]
          have := clamp_below expR sqrtR ((2 ^ 53 - 1) * 2 ^ 971) (c := defaultCfg) (lo := -5) (up := 5) rfl rfl v2 (by norm_num)
          rw [max_eq_right v1.le] at this
          exact congrArg some this
  intro k st hst
  exact key (k + 1) st (by rw [List.getElem?_cons_succ]; exact hst)

/-- Non-vacuity of the default-configuration theorem: 25 different fireflies on the diagonal between 0 and 1. -/
example : ∃ (f : List (Ext ℝ) → Ext ℝ) (dr : Draws (Ext ℝ)) (pop : List (List (Ext ℝ))) (sts : List (St (Ext ℝ))) (evs : List (Ev (Ext ℝ))) (st : St (Ext ℝ)),
    RealDraws dr ∧ run opsR defaultCfg f (cartesian opsR) dr pop = .ok (sts, evs) ∧ sts[299]? = some st ∧
    (∀ x ∈ st.pop, ∃ y : List ℝ, x = y.map .fin) ∧ ∀ (d : Nat) (y : List ℝ), y.map .fin ∈ st.pop → ∀ v, y[d]? = some v → 0 ≤ v ∧ v ≤ 1 := by
  let p : Nat → Nat → ℝ := fun i _ => i / 25
  let dr : Draws (Ext ℝ) := ⟨fun _ _ _ _ => .fin (1 / 2), fun _ _ _ _ => .fin (1 / 2), fun _ _ _ => .fin 0⟩
  obtain ⟨⟨sts, evs⟩, hr⟩ := C80_run_returns (A := opsR) (c := defaultCfg) (f := fun _ => .fin 1) (dr := dr) cartesian_returns (start_good p)
  have hp : ∀ y ∈ start p, ∀ v ∈ y, 0 ≤ v ∧ v ≤ 1 := by
    intro y hy v hv
    obtain ⟨i, hi, rfl⟩ := start_mem hy
    have h1 : (i : ℝ) < 25 := by exact_mod_cast hi
    have h2 : (0 : ℝ) ≤ i := Nat.cast_nonneg i
    have : v = i / 25 := by simpa [p] using hv
    rw [this]
    constructor <;> linarith
  have hpop := constant_stays (z := .fin 1) (fun _ => rfl) (fun _ _ _ => rfl) (by
    intro x hx q hq
    obtain ⟨y, hy, rfl⟩ := List.mem_map.1 hx
    obtain ⟨v, hv, rfl⟩ := List.mem_map.1 hq
    have := hp y hy v hv
    exact ⟨v, rfl, by linarith, by linarith⟩) hr
  have hlen : sts.length = 1000 := (C120_states hr).1
  have h299 : sts[299]? = some sts[299] := List.getElem?_eq_getElem (by omega)
  refine ⟨_, dr, _, sts, evs, _, ⟨fun _ _ _ _ => ⟨1 / 2, rfl, by norm_num, by norm_num⟩, fun _ _ _ _ => ⟨1 / 2, rfl, by norm_num, by norm_num⟩,
      fun _ _ _ => ⟨0, rfl, by norm_num, by norm_num⟩⟩, hr, h299, ?_, ?_⟩
  · rw [hpop _ _ h299]
    intro x hx
    obtain ⟨y, -, rfl⟩ := List.mem_map.1 hx
    exact ⟨y, rfl⟩
  · rw [hpop _ _ h299]
    intro d y hy v hv
    obtain ⟨y', hy', he⟩ := List.mem_map.1 hy
    have : y' = y := List.map_injective_iff.2 (fun p q hpq => by injection hpq) he
    subst this
    exact hp y' hy' v (List.mem_of_getElem? hv)

end Ecrs.Ff
