import Verif.Jssp.Evaluate

/-!
# The decoder of the job shop example step by step

Which operation is scheduled next, when, and at which start time.  Lemmas for Props/JsspDecode.
-/

namespace Ecrs.Jssp
open Ecrs

/-- The comparison of priorities is a strict weak order on the genes (`f64` without NaN). -/
structure EvalOps.Ordered {X : Type} (E : EvalOps X) (ch : List X) : Prop where
  asymm : ∀ x ∈ ch, ∀ y ∈ ch, E.gt x y = true → E.gt y x = false
  cotrans : ∀ x ∈ ch, ∀ y ∈ ch, ∀ z ∈ ch, E.gt x y = true → E.gt x z = true ∨ E.gt z y = true

section
variable {X : Type} {E : EvalOps X} {S : Shop}

/-- The operation can be scheduled at time `t` with delay `d`. -/
def El (S : Shop) (E : EvalOps X) (ft : Nat → Option Nat) (d : X) (t v : Nat) : Prop :=
  S.Reg v ∧ ft v = none ∧ E.late (ft (S.dp v)) (some t) d = false

theorem gene_some {ch : List X} {i : Nat} {p : X} : gene ch i = .ok p ↔ ch[i]? = some p := by
  unfold gene
  cases ch[i]? <;> simp

/-- The accumulator after the operations below `k`. -/
structure FeasSpec (S : Shop) (E : EvalOps X) (ch : List X) (ft : Nat → Option Nat) (d : X) (t k : Nat) (a : Feas X) : Prop where
  empty : a.feasibles = [] → a.prio = E.minv ∧ ∀ v, v < k → ¬ El S E ft d t v
  el : a.feasibles ≠ [] → a.best < k ∧ El S E ft d t a.best ∧ ch[a.best - 1]? = some a.prio
  best : a.feasibles ≠ [] → ∀ u p, u < k → El S E ft d t u → ch[u - 1]? = some p →
    E.gt p a.prio = false ∧ (u < a.best → E.gt a.prio p = true)

theorem feasStep_spec (hS : S.WF) {ops : Arr Operation} {ms mp} (hf : Fits S ops ms mp) {ch : List X}
    (hE : E.Sane ch) (hO : E.Ordered ch) (hch : ch.length = 2 * S.n) {ft : Arr (Option Nat)} (hsz : ft.size = S.n + 2)
    (h0 : ft.get 0 = some 0) {x : X} (hx : x ∈ ch) {md t : Nat}
    (hun : ∃ v, S.Reg v ∧ ft.get v = none) {v : Nat} (hv : v ≤ S.n + 1) {a : Feas X}
    (ha : FeasSpec S E ch ft.get (E.delay x md) t v a) :
    ∃ a', feasStep E ch ops.size ft (E.delay x md) (some t) a (ops.get v) = .ok a' ∧
      FeasSpec S E ch ft.get (E.delay x md) t (v + 1) a' := by
  have skip : ¬ El S E ft.get (E.delay x md) t v → FeasSpec S E ch ft.get (E.delay x md) t (v + 1) a := by
    intro hn
    have lt : ∀ u, u < v + 1 → El S E ft.get (E.delay x md) t u → u < v := by
      intro u hu he
      rcases Nat.lt_succ_iff_lt_or_eq.1 hu with h | h
      · exact h
      · subst h; exact absurd he hn
    refine ⟨fun h => ⟨(ha.empty h).1, fun u hu he => (ha.empty h).2 u (lt u hu he) he⟩,
      fun h => ?_, fun h u p hu he hp => ha.best h u p (lt u hu he) he hp⟩
    obtain ⟨h1, h2⟩ := ha.el h
    exact ⟨by omega, h2⟩
  have hid := hf.id v hv
  have hat : ft.at' (ops.get v).id = .ok (ft.get v) := by rw [hid]; exact Arr.at'_ok (by omega)
  unfold feasStep
  cases hft : ft.get v with
  | some y =>
    refine ⟨a, ?_, skip fun he => ?_⟩
    · rw [Exc.bind_of_ok (hat.trans (by rw [hft]))]; rfl
    · rw [he.2.1] at hft; cases hft
  | none =>
    rw [Exc.bind_of_ok (hat.trans (by rw [hft]))]
    show ∃ a', (isFeasible E ops.size ft (E.delay x md) (some t) (ops.get v) >>= _) = .ok a' ∧ _
    have hv0 : v ≠ 0 := by rintro rfl; rw [h0] at hft; cases hft
    by_cases hs : v = S.n + 1
    · have hsz' : (ops.get v).id = ops.size - 1 := by rw [hid, hf.size]; omega
      have hlate := hE.unfinished x hx md t
      obtain ⟨b, hb, hb'⟩ := noneLate_ok (E := E) (ft := ft) (d := E.delay x md) (t := t) hlate (ops.get v).preds
        (by intro p hp; rw [hs] at hp; have := hf.sink_le p hp; omega)
      have hbf : b = false := by
        obtain ⟨w, hw, hwn⟩ := hun
        exact hb' ⟨w, by rw [hs]; exact hf.sink_mem w hw.2, hwn⟩
      subst hbf
      have hfe : isFeasible E ops.size ft (E.delay x md) (some t) (ops.get v) = .ok false := by
        unfold isFeasible; rw [if_neg (by simpa using hsz')]; exact hb
      refine ⟨a, ?_, skip fun he => ?_⟩
      · rw [Exc.bind_of_ok hfe]; rfl
      · have := he.1.2; omega
    · have hreg : S.Reg v := ⟨by omega, by omega⟩
      have hfe : isFeasible E ops.size ft (E.delay x md) (some t) (ops.get v) =
          .ok (!E.late (ft.get (S.dp v)) (some t) (E.delay x md)) := by
        unfold isFeasible
        rw [if_pos (by rw [hid, hf.size]; omega), hf.last v hreg]
        show (ft.at' (S.dp v) >>= _) = _
        have := hS.dp_lt v hreg
        rw [Exc.bind_of_ok (Arr.at'_ok (by omega))]; rfl
      rw [Exc.bind_of_ok hfe]
      by_cases hl : E.late (ft.get (S.dp v)) (some t) (E.delay x md) = true
      · refine ⟨a, ?_, skip fun he => ?_⟩
        · rw [hl]; rfl
        · rw [he.2.2] at hl; cases hl
      · have hl' : (!E.late (ft.get (S.dp v)) (some t) (E.delay x md)) = true := by simpa using hl
        have hel : El S E ft.get (E.delay x md) t v := ⟨hreg, hft, by simpa using hl⟩
        rw [if_pos hl']
        obtain ⟨p, hp, hgp⟩ := gene_ok (ch := ch) (i := v - 1) (by omega)
        have hgp' := gene_some.1 hgp
        have hop : opPriority ch (ops.get v).id = .ok p := by
          unfold opPriority; rw [hid, if_neg hv0]; exact hgp
        unfold pushFeasible
        rw [Exc.bind_of_ok hop]
        by_cases hg : E.gt p a.prio = true
        · refine ⟨⟨a.feasibles ++ [(ops.get v).id], (ops.get v).id, p⟩, by rw [if_pos hg]; rfl, ?_⟩
          rw [hid]
          refine ⟨fun h => absurd h (by simp), fun _ => ⟨by show v < v + 1; omega, hel, hgp'⟩, ?_⟩
          intro _ u q hu he hq
          show E.gt q p = false ∧ (u < v → E.gt p q = true)
          have hqm : q ∈ ch := List.mem_of_getElem? hq
          rcases Nat.lt_succ_iff_lt_or_eq.1 hu with h | h
          · have hne : a.feasibles ≠ [] := fun hc => (ha.empty hc).2 u h he
            obtain ⟨b1, -⟩ := ha.best hne u q h he hq
            have hpm : a.prio ∈ ch := List.mem_of_getElem? (ha.el hne).2.2
            rcases hO.cotrans p hp a.prio hpm q hqm hg with h1 | h1
            · exact ⟨hO.asymm p hp q hqm h1, fun _ => h1⟩
            · rw [b1] at h1; cases h1
          · subst h
            rw [hgp'] at hq
            obtain rfl := Option.some.inj hq
            refine ⟨?_, fun h => absurd h (by omega)⟩
            cases hpp : E.gt p p with
            | false => rfl
            | true => have := hO.asymm p hp p hp hpp; rw [hpp] at this; cases this
        · refine ⟨{ a with feasibles := a.feasibles ++ [(ops.get v).id] }, by rw [if_neg hg]; rfl, ?_⟩
          have hne : a.feasibles ≠ [] := by
            intro h
            rw [(ha.empty h).1] at hg
            exact hg (hE.prio p hp)
          obtain ⟨e1, e2⟩ := ha.el hne
          refine ⟨fun h => absurd h (by simp), fun _ => ⟨by show a.best < v + 1; omega, e2⟩, ?_⟩
          intro _ u q hu he hq
          show E.gt q a.prio = false ∧ (u < a.best → E.gt a.prio q = true)
          rcases Nat.lt_succ_iff_lt_or_eq.1 hu with h | h
          · exact ha.best hne u q h he hq
          · subst h
            rw [hgp'] at hq
            obtain rfl := Option.some.inj hq
            exact ⟨by simpa using hg, fun h => absurd h (by omega)⟩

theorem updateFeasibles_spec (hS : S.WF) {ops : Arr Operation} {ms mp} (hf : Fits S ops ms mp) {ch : List X}
    (hE : E.Sane ch) (hO : E.Ordered ch) (hch : ch.length = 2 * S.n) {ft : Arr (Option Nat)} (hsz : ft.size = S.n + 2)
    (h0 : ft.get 0 = some 0) {x : X} (hx : x ∈ ch) {md t : Nat} (hun : ∃ v, S.Reg v ∧ ft.get v = none) :
    ∃ a', updateFeasibles E ch ops ft (E.delay x md) (some t) = .ok a' ∧
      FeasSpec S E ch ft.get (E.delay x md) t (S.n + 2) a' := by
  have key : ∀ k, k ≤ S.n + 2 → ∃ a', ((List.range k).map ops.get).foldlM
      (feasStep E ch ops.size ft (E.delay x md) (some t)) ⟨[], 0, E.minv⟩ = .ok a' ∧
        FeasSpec S E ch ft.get (E.delay x md) t k a' := by
    intro k
    induction k with
    | zero => intro _; exact ⟨_, rfl, ⟨fun _ => ⟨rfl, by omega⟩, fun h => absurd rfl h, fun h => absurd rfl h⟩⟩
    | succ k ih =>
      intro hk
      obtain ⟨a, h1, h2⟩ := ih (by omega)
      obtain ⟨a', h3, h4⟩ := feasStep_spec (t := t) (md := md) hS hf hE hO hch hsz h0 hx hun (v := k) (by omega) h2
      refine ⟨a', ?_, h4⟩
      rw [List.range_succ, List.map_append, List.foldlM_append, Exc.bind_of_ok h1, List.map_cons, List.map_nil, List.foldlM_cons,
        Exc.bind_of_ok h3]
      rfl
  obtain ⟨a', h1, h2⟩ := key (S.n + 2) (Nat.le_refl _)
  refine ⟨a', ?_, h2⟩
  unfold updateFeasibles Arr.toList
  rw [hf.size]
  rw [hf.size] at h1
  exact h1

/-! ## The start time -/

/-- Scheduling puts the operation at the earliest time at which its predecessor has finished and its machine is idle. -/
theorem scheduleOp_least (hS : S.WF) {s s' : Sched} {order pos cnt rk ms mp}
    (h : SInv S s order pos cnt rk ms mp) {j : Nat} (hj : S.Reg j) {pf : Nat}
    (hpf : s.ft.get (S.dp j) = some pf) (hs : scheduleOp s j = .ok s') :
    ∃ st, s'.ft.get j = some (st + S.dur j) ∧ (∀ v, v ≠ j → s'.ft.get v = s.ft.get v) ∧ pf ≤ st ∧
      (s.machines.get (S.mach j)).isIdle (st, st + S.dur j) = true ∧
      ∀ t, pf ≤ t → (s.machines.get (S.mach j)).isIdle (t, t + S.dur j) = true → st ≤ t := by
  have hjle := hj.2
  have hmj := hS.mach_lt j hj
  have hdp := hS.dp_lt j hj
  have hsz := h.fits.size
  have hfs := h.ft_size
  unfold scheduleOp at hs
  rw [Exc.bind_of_ok (Arr.at'_ok (by omega)), h.fits.last j hj] at hs
  change (s.ft.at' (S.dp j) >>= _) = _ at hs
  rw [Exc.bind_of_ok (Arr.at'_ok (by omega)), hpf, h.fits.mach j hj, h.fits.dur j (by omega), h.fits.id j (by omega),
    Exc.bind_of_ok (Arr.at'_ok (by rw [h.m_size]; exact hmj))] at hs
  obtain ⟨st, h1, hs⟩ := Exc.bind_ok.1 hs
  have hst : minimum? (startCandidates s.ft (some pf) (s.machines.get (S.mach j)) (S.dur j)) = some st := by
    revert h1
    cases minimum? (startCandidates s.ft (some pf) (s.machines.get (S.mach j)) (S.dur j)) with
    | none => intro h; cases h
    | some y => intro h; cases h; rfl
  obtain ⟨hm, hleast⟩ := minimum?_eq_some hst
  obtain ⟨-, hge, hidle⟩ := mem_startCandidates.1 hm
  rw [Exc.bind_of_ok (Arr.modify_ok _ (by omega))] at hs
  obtain ⟨o1, -, hs⟩ := Exc.bind_ok.1 hs
  obtain ⟨o2, -, hs⟩ := Exc.bind_ok.1 hs
  obtain ⟨o3, -, hs⟩ := Exc.bind_ok.1 hs
  cases hs
  refine ⟨st, if_pos rfl, fun v hv => if_neg hv, hge, hidle, ?_⟩
  intro t
  induction t with
  | zero =>
    intro ht hi
    have : pf = 0 := by omega
    exact hleast 0 (mem_startCandidates.2 ⟨⟨S.dp j, by omega, by rw [hpf, this]⟩, by omega, hi⟩)
  | succ t ih =>
    intro ht hi
    by_cases hfin : ∃ i, i < s.ft.size ∧ s.ft.get i = some (t + 1)
    · exact hleast (t + 1) (mem_startCandidates.2 ⟨hfin, ht, hi⟩)
    · have hne : pf ≠ t + 1 := fun hc => hfin ⟨S.dp j, by omega, by rw [hpf, hc]⟩
      have : st ≤ t := by
        refine ih (by omega) (isIdle_iff.2 fun r hr => ?_)
        rcases isIdle_iff.1 hi r hr with h2 | h2
        · left; omega
        · right
          obtain ⟨w, hw, -, f, hf, rfl⟩ := (h.rmc _ hmj r).1 hr
          have : f ≠ t + 1 := fun hc => hfin ⟨w, by have := ((h.mem w).1 hw).1.2; omega, by rw [hf, hc]⟩
          simp only at h2
          omega
      omega

/-! ## Traces -/

/-- In state `s`, with the clock at `t0`, operation `v` is scheduled next, at time `t`. -/
structure SStep (S : Shop) (E : EvalOps X) (ch : List X) (md : Nat) (s : Sched) (t0 t v : Nat) : Prop where
  rule : ∃ x, ch[S.n + s.g - 1]? = some x ∧ El S E s.ft.get (E.delay x md) t v ∧
    (∀ u p q, El S E s.ft.get (E.delay x md) t u → ch[u - 1]? = some p → ch[v - 1]? = some q →
      E.gt p q = false ∧ (u < v → E.gt q p = true)) ∧
    ∀ t', (t' = t0 ∨ (t0 < t' ∧ ∃ w, S.Reg w ∧ s.ft.get w = some t')) → t' < t → ∀ u, ¬ El S E s.ft.get (E.delay x md) t' u
  clock : t = t0 ∨ (t0 < t ∧ ∃ w, S.Reg w ∧ s.ft.get w = some t)

inductive STrace (S : Shop) (E : EvalOps X) (ch : List X) (md : Nat) : Nat → Sched → List (Nat × Nat) → Sched → Prop
  | nil (t0 s) : STrace S E ch md t0 s [] s
  | cons {t0 s t v s1 l s'} : SStep S E ch md s t0 t v → scheduleOp s v = .ok s1 → Inv S s → STrace S E ch md t s1 l s' →
      STrace S E ch md t0 s ((v, t) :: l) s'

/-- Waiting for the next finish time when nothing can be scheduled. -/
theorem STrace.wait {ch : List X} {md t0 t1 : Nat} {s s' : Sched} {l} (h : STrace S E ch md t1 s l s') (h01 : t0 < t1)
    {x : X} (hx : ch[S.n + s.g - 1]? = some x) (hno : ∀ u, ¬ El S E s.ft.get (E.delay x md) t0 u)
    (hfin : ∃ w, S.Reg w ∧ s.ft.get w = some t1) (hleast : ∀ w a, S.Reg w → s.ft.get w = some a → t0 < a → t1 ≤ a) :
    STrace S E ch md t0 s l s' := by
  cases h with
  | nil => exact .nil _ _
  | cons h1 h2 h3 h4 =>
    refine .cons ⟨?_, ?_⟩ h2 h3 h4
    · obtain ⟨y, hy, he, hb, hw⟩ := h1.rule
      rw [hx] at hy
      obtain rfl := Option.some.inj hy
      refine ⟨x, hx, he, hb, ?_⟩
      intro t' ht' htt
      rcases ht' with rfl | ⟨h5, w, h6, h7⟩
      · exact hno
      · have := hleast w t' h6 h7 h5
        refine hw t' ?_ htt
        by_cases hc : t' = t1
        · exact .inl hc
        · exact .inr ⟨by omega, w, h6, h7⟩
    · rcases h1.clock with h5 | ⟨h5, h6⟩
      · subst h5; exact .inr ⟨h01, hfin⟩
      · exact .inr ⟨by omega, h6⟩

theorem delayFeasibles_spec (hS : S.WF) {ch : List X} (hE : E.Sane ch) (hO : E.Ordered ch) (hch : ch.length = 2 * S.n) {s : Sched}
    (h : Inv S s) (hg : s.g ≤ S.n) (md t : Nat) :
    ∃ x f, ch[S.n + s.g - 1]? = some x ∧ x ∈ ch ∧ delayForG E ch S.n s.g md = .ok (E.delay x md) ∧
      updateFeasibles E ch s.ops s.ft (E.delay x md) (some t) = .ok f ∧
      FeasSpec S E ch s.ft.get (E.delay x md) t (S.n + 2) f := by
  have hun := h.unscheduled hg
  have hgl := h.g_le
  obtain ⟨order, pos, cnt, rk, ms, mp, h⟩ := h
  obtain ⟨x, hx, hgx⟩ := gene_ok (ch := ch) (i := S.n + s.g - 1) (by omega)
  obtain ⟨f, h1, h2⟩ := updateFeasibles_spec (E := E) (t := t) (md := md) hS h.fits hE hO hch h.ft_size h.ft_zero hx hun
  refine ⟨x, f, gene_some.1 hgx, hx, ?_, h1, h2⟩
  unfold delayForG; rw [Exc.bind_of_ok hgx]; rfl

theorem El.pred {ch : List X} (hE : E.Sane ch) {ft : Nat → Option Nat} {x : X} (hx : x ∈ ch) {md t v : Nat}
    (h : El S E ft (E.delay x md) t v) : ∃ f, ft (S.dp v) = some f := by
  cases hd : ft (S.dp v) with
  | some f => exact ⟨f, rfl⟩
  | none =>
    have := h.2.2
    rw [hd, hE.unfinished x hx md t] at this
    cases this

theorem innerLoop_trace (hS : S.WF) {ch : List X} (hE : E.Sane ch) (hO : E.Ordered ch) (hch : ch.length = 2 * S.n) {md t : Nat} :
    ∀ (fuel : Nat) (f : Feas X) (s s1 : Sched) (x : X), Inv S s → s.g ≤ S.n → ch[S.n + s.g - 1]? = some x →
      FeasSpec S E ch s.ft.get (E.delay x md) t (S.n + 2) f → innerLoop E ch S.n md (some t) fuel f s = .ok s1 →
      Inv S s1 ∧ (s1.g ≤ S.n → ∃ y, ch[S.n + s1.g - 1]? = some y ∧ y ∈ ch ∧ ∀ u, ¬ El S E s1.ft.get (E.delay y md) t u) ∧
        ∀ s' l2, STrace S E ch md t s1 l2 s' → ∃ l, STrace S E ch md t s l s' := by
  intro fuel
  induction fuel with
  | zero => intro f s s1 x _ _ _ _ h; cases h
  | succ fuel ih =>
    intro f s s1 x hs hg hx hf h
    have hxm := List.mem_of_getElem? hx
    rw [innerLoop] at h
    by_cases he : f.feasibles = []
    · rw [if_pos he] at h
      cases h
      refine ⟨hs, fun _ => ⟨x, hx, hxm, fun u hu => (hf.empty he).2 u ?_ hu⟩, fun s' l2 h => ⟨l2, h⟩⟩
      have := hu.1.2; omega
    · rw [if_neg he] at h
      obtain ⟨hb0, hb1, hb2⟩ := hf.el he
      obtain ⟨a, hb3⟩ := hb1.pred hE hxm
      have hs' := hs
      obtain ⟨order, pos, cnt, rk, ms, mp, hi⟩ := hs'
      obtain ⟨s2, hs2, hg2, pos', cnt', rk', ms', mp', hi2⟩ := scheduleOp_ok hS hi hb1.1 hb1.2.1 hb3
      have hI2 : Inv S s2 := ⟨_, _, _, _, _, _, hi2⟩
      rw [Exc.bind_of_ok hs2] at h
      have hstep : SStep S E ch md s t t f.best := by
        refine ⟨⟨x, hx, hb1, ?_, ?_⟩, .inl rfl⟩
        · intro u p q hu hp hq
          rw [hb2] at hq
          obtain rfl := Option.some.inj hq
          exact hf.best he u p (by have := hu.1.2; omega) hu hp
        · rintro t' (rfl | ⟨h3, -⟩) h4
          · omega
          · omega
      by_cases hn : S.n < s2.g
      · rw [if_pos hn] at h
        cases h
        exact ⟨hI2, fun h => absurd h (by omega), fun s' l2 h => ⟨_, .cons hstep hs2 hs h⟩⟩
      · rw [if_neg hn] at h
        obtain ⟨y, f', h0, h0', h1, h2, h3⟩ := delayFeasibles_spec hS hE hO hch hI2 (by omega) md t
        rw [Exc.bind_of_ok h1, Exc.bind_of_ok h2] at h
        obtain ⟨h4, h5, h6⟩ := ih f' s2 s1 y hI2 (by omega) h0 h3 h
        refine ⟨h4, h5, fun s' l2 h7 => ?_⟩
        obtain ⟨l, hl⟩ := h6 s' l2 h7
        exact ⟨_, .cons hstep hs2 hs hl⟩

theorem nextTime_least {ft : Arr (Option Nat)} {t a : Nat} (h : nextTime ft (some t) = .ok (some a)) :
    t < a ∧ (∃ v, v < ft.size ∧ ft.get v = some a) ∧ ∀ v b, v < ft.size → ft.get v = some b → t < b → a ≤ b := by
  unfold nextTime at h
  have hm : minimum? ((ft.toList.filter (later (some t))).filterMap id) = some a := by
    revert h
    cases ft.toList.filter (later (some t)) with
    | nil => intro h; cases h
    | cons y ys => intro h; exact Except.ok.inj h
  obtain ⟨h1, h2⟩ := minimum?_eq_some hm
  rw [List.mem_filterMap] at h1
  obtain ⟨y, hy, rfl⟩ := h1
  rw [List.mem_filter] at hy
  obtain ⟨w, hw, hwf⟩ := Arr.mem_toList.1 hy.1
  refine ⟨by simpa [later] using hy.2, ⟨w, hw, hwf⟩, ?_⟩
  intro v b hv hb htb
  refine h2 b ?_
  rw [List.mem_filterMap]
  refine ⟨some b, ?_, rfl⟩
  rw [List.mem_filter]
  exact ⟨Arr.mem_toList.2 ⟨v, hv, hb⟩, by simpa [later] using htb⟩

theorem outerLoop_trace (hS : S.WF) {ch : List X} (hE : E.Sane ch) (hO : E.Ordered ch) (hch : ch.length = 2 * S.n) {md : Nat} :
    ∀ (fuel t : Nat) (s s' : Sched), Inv S s → outerLoop E ch S.n md fuel (some t) s = .ok s' →
      ∃ l, STrace S E ch md t s l s' := by
  intro fuel
  induction fuel with
  | zero => intro t s s' _ h; cases h
  | succ fuel ih =>
    intro t s s' hs h
    have hcg : s.count = s.g := by obtain ⟨_, _, _, _, _, _, h⟩ := hs; exact h.count
    have hgl := hs.g_le
    rw [outerLoop] at h
    by_cases hc : s.count < S.n + 1
    · rw [if_pos hc] at h
      obtain ⟨x, f, h0, hxm, h1, h2, h3⟩ := delayFeasibles_spec hS hE hO hch hs (by omega) md t
      rw [Exc.bind_of_ok h1, Exc.bind_of_ok h2] at h
      obtain ⟨s1, h4, h⟩ := Exc.bind_ok.1 h
      obtain ⟨tg, h5, h⟩ := Exc.bind_ok.1 h
      obtain ⟨h6, h7, h8⟩ := innerLoop_trace hS hE hO hch _ _ _ _ _ hs (by omega) h0 h3 h4
      have hgl1 := h6.g_le
      have hI := h6
      obtain ⟨order, pos, cnt, rk, ms, mp, hi⟩ := hI
      by_cases hg1 : s1.g ≤ S.n
      · obtain ⟨y, hy, hym, hno⟩ := h7 hg1
        obtain ⟨v, a, hv, hn, ha⟩ := minUnscheduled hS hi.ft_zero (h6.unscheduled hg1)
        have hla : E.late (some a) (some t) (E.delay y md) = true := by
          have := hno v
          cases hl : E.late (some a) (some t) (E.delay y md) with
          | true => rfl
          | false => exact absurd ⟨hv, hn, by rw [ha]; exact hl⟩ this
        have hta := hE.finished y hym md a t hla
        have hdl := hS.dp_lt v hv
        obtain ⟨z, h9, h10⟩ := nextTime_ok (t := t) (by rw [hi.ft_size]; exact Nat.lt_succ_self _) hi.ft_sink
        obtain ⟨w, b, hw, hwb, htb, rfl⟩ := h10 ⟨S.dp v, a, by rw [hi.ft_size]; have := hv.2; omega, ha, hta⟩
        rw [h5] at h9
        obtain rfl := Except.ok.inj h9
        obtain ⟨l, hl⟩ := ih b s1 s' h6 h
        obtain ⟨-, ⟨w', hw1, hw2⟩, hleast⟩ := nextTime_least h5
        have reg : ∀ u c, u < s1.ft.size → s1.ft.get u = some c → t < c → S.Reg u := by
          intro u c hu hc htc
          rw [hi.ft_size] at hu
          have n0 : u ≠ 0 := by rintro rfl; rw [hi.ft_zero] at hc; have := Option.some.inj hc; omega
          have n1 : u ≠ S.n + 1 := by rintro rfl; rw [hi.ft_sink] at hc; cases hc
          exact ⟨by omega, by omega⟩
        refine h8 s' l (hl.wait htb hy hno ⟨w', reg w' b hw1 hw2 htb, hw2⟩ ?_)
        intro u c hu hc htc
        exact hleast u c (by rw [hi.ft_size]; have := hu.2; omega) hc htc
      · have : s' = s1 := by
          cases fuel with
          | zero => cases h
          | succ fuel =>
            rw [outerLoop, if_neg (by have := hi.count; omega)] at h
            exact (Except.ok.inj h).symm
        subst this
        exact h8 s' [] (.nil _ _)
    · rw [if_neg hc] at h
      cases h
      exact ⟨[], .nil _ _⟩

theorem schedule_trace (hS : S.WF) {i : Individual X} (hE : E.Sane i.chromosome) (hO : E.Ordered i.chromosome)
    (hch : i.chromosome.length = 2 * S.n) (h : Ready S i.operations i.machines) {fuel : Nat} {s : Sched}
    (hs : schedule E fuel i = .ok s) :
    ∃ md l, maxDuration (initialSched i).ops = .ok md ∧ STrace S E i.chromosome md 0 (initialSched i) l s := by
  have hsz := h.fits.size
  unfold schedule at hs
  rw [if_neg (by omega)] at hs
  obtain ⟨ops, h1, hs⟩ := Exc.bind_ok.1 hs
  obtain ⟨md, h2, hs⟩ := Exc.bind_ok.1 hs
  rw [Arr.modify_ok _ (by omega)] at h1
  cases h1
  rw [show i.operations.size - 2 = S.n by omega] at hs
  have e : initialSched i = ⟨{ i.operations with get := fun k => if k = 0 then { i.operations.get 0 with finishTime := some 0 } else i.operations.get k },
      i.machines, ⟨S.n + 2, fun k => if k = 0 then some 0 else none⟩, 1, 1, 0⟩ := by unfold initialSched; rw [hsz]
  rw [← e] at hs
  obtain ⟨l, hl⟩ := outerLoop_trace hS hE hO hch _ _ _ _ (ready_inv hS h) hs
  exact ⟨md, l, h2, hl⟩

end
end Ecrs.Jssp
