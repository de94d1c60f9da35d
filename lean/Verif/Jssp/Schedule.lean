import Verif.Jssp.Shop
import Mathlib.Data.List.Perm.Subperm

/-!
# The schedule construction of the job shop example

Invariant of the loops of `evaluate_individual` and their termination.
-/

namespace Ecrs.Jssp
open Ecrs

/-- What the proofs need of the `f64` arithmetic: priorities beat `f64::MIN`, an operation without finish time
(`usize::MAX`) is late at every time, and what has finished by `t` is not late at `t` (delays are not negative). -/
structure EvalOps.Sane {X : Type} (E : EvalOps X) (ch : List X) : Prop where
  prio : ∀ x ∈ ch, E.gt x E.minv = true
  unfinished : ∀ x ∈ ch, ∀ (md t : Nat), E.late none (some t) (E.delay x md) = true
  finished : ∀ x ∈ ch, ∀ (md a t : Nat), E.late (some a) (some t) (E.delay x md) = true → t < a

/-- The state of the loops represents a partial schedule. -/
structure SInv (S : Shop) (s : Sched) (order : List Nat) (pos cnt rk : Nat → Nat) (ms mp : Nat → Option Nat) : Prop where
  fits : Fits S s.ops ms mp
  nodup : order.Nodup
  mem : ∀ v, v ∈ order ↔ S.Reg v ∧ ∃ f, s.ft.get v = some f
  len : order.length + 1 = s.g
  count : s.count = s.g
  ft_size : s.ft.size = S.n + 2
  ft_zero : s.ft.get 0 = some 0
  ft_sink : s.ft.get (S.n + 1) = none
  ft_ops : ∀ v, v ≤ S.n → (s.ops.get v).finishTime = s.ft.get v
  m_size : s.machines.size = S.machines
  rmc : ∀ m, m < S.machines → ∀ r, r ∈ (s.machines.get m).rmc ↔
    ∃ v ∈ order, S.mach v = m ∧ ∃ f, s.ft.get v = some f ∧ r = (f - S.dur v, f)
  prec : ∀ v ∈ order, ∃ a f, s.ft.get (S.dp v) = some a ∧ s.ft.get v = some f ∧ a + S.dur v ≤ f
  disj : ∀ u ∈ order, ∀ v ∈ order, u ≠ v → S.mach u = S.mach v → ∀ a b, s.ft.get u = some a → s.ft.get v = some b →
    a ≤ b - S.dur v ∨ b ≤ a - S.dur u
  pos_lt : ∀ v ∈ order, pos v < cnt (S.mach v)
  pos_inj : ∀ u ∈ order, ∀ v ∈ order, S.mach u = S.mach v → pos u = pos v → u = v
  pos_pred : ∀ v ∈ order, ∀ (k : Nat), pos v = k + 1 → ∃ u ∈ order, S.mach u = S.mach v ∧ pos u = k
  msucc : ∀ u v, ms u = some v ↔ u ∈ order ∧ v ∈ order ∧ S.mach u = S.mach v ∧ pos v = pos u + 1
  mpred : ∀ u v, mp v = some u ↔ ms u = some v
  lastOp : ∀ m, m < S.machines → ∀ l, (s.machines.get m).lastScheduledOp = some l ↔
    l ∈ order ∧ S.mach l = m ∧ pos l + 1 = cnt m
  lastNone : ∀ m, m < S.machines → (s.machines.get m).lastScheduledOp = none → cnt m = 0
  rk_zero : rk 0 = 0
  rk_lt : ∀ v ∈ order, rk v < s.g
  rk_dp : ∀ v ∈ order, rk (S.dp v) < rk v
  rk_ms : ∀ u v, ms u = some v → rk u < rk v
  le_last : ∀ v f, v ≤ S.n → s.ft.get v = some f → f ≤ s.last
  last_le : ∃ v, v ≤ S.n ∧ s.ft.get v = some s.last

section
variable {X : Type} {E : EvalOps X}

theorem gene_ok {ch : List X} {i : Nat} (h : i < ch.length) : ∃ x ∈ ch, gene ch i = .ok x := by
  refine ⟨ch[i], List.getElem_mem h, ?_⟩
  unfold gene
  rw [List.getElem?_eq_getElem h]

theorem noneLate_ok {ft : Arr (Option Nat)} {d : X} {t : Nat} (hl : E.late none (some t) d = true) :
    ∀ ps : List Nat, (∀ p ∈ ps, p < ft.size) →
      ∃ b, noneLate E ft d (some t) ps = .ok b ∧ ((∃ p ∈ ps, ft.get p = none) → b = false) := by
  intro ps
  induction ps with
  | nil => intro _; exact ⟨true, rfl, by rintro ⟨p, hp, -⟩; cases hp⟩
  | cons p ps ih =>
    intro h
    obtain ⟨b, hb, hb'⟩ := ih fun q hq => h q (by simp [hq])
    have h1 := Arr.at'_ok (h p (by simp))
    by_cases hp : E.late (ft.get p) (some t) d = true
    · refine ⟨false, ?_, fun _ => rfl⟩
      show (ft.at' p >>= _) = _
      rw [Exc.bind_of_ok h1, if_pos hp]
    · refine ⟨b, ?_, ?_⟩
      · show (ft.at' p >>= _) = _
        rw [Exc.bind_of_ok h1, if_neg hp]; exact hb
      · rintro ⟨q, hq, hn⟩
        rcases List.mem_cons.1 hq with rfl | hq
        · rw [hn] at hp; exact absurd hl hp
        · exact hb' ⟨q, hq, hn⟩

/-- What the accumulator of the feasibility loop satisfies. -/
def FeasGood (S : Shop) (E : EvalOps X) (ft : Arr (Option Nat)) (a : Feas X) : Prop :=
  (a.feasibles = [] → a.prio = E.minv) ∧
  (a.feasibles ≠ [] → S.Reg a.best ∧ ft.get a.best = none ∧ ∃ f, ft.get (S.dp a.best) = some f)

theorem feasStep_ok {S : Shop} (hS : S.WF) {ops : Arr Operation} {ms mp} (hf : Fits S ops ms mp) {ch : List X}
    (hE : E.Sane ch) (hch : ch.length = 2 * S.n) {ft : Arr (Option Nat)} (hsz : ft.size = S.n + 2)
    (h0 : ft.get 0 = some 0) {x : X} (hx : x ∈ ch) {md t : Nat}
    (hun : ∃ v, S.Reg v ∧ ft.get v = none) {v : Nat} (hv : v ≤ S.n + 1) {a : Feas X} (ha : FeasGood S E ft a) :
    ∃ a', feasStep E ch ops.size ft (E.delay x md) (some t) a (ops.get v) = .ok a' ∧ FeasGood S E ft a' ∧
      (a'.feasibles = [] → a.feasibles = [] ∧
        (S.Reg v → ft.get v = none → E.late (ft.get (S.dp v)) (some t) (E.delay x md) = true)) := by
  have hid := hf.id v hv
  have hat : ft.at' (ops.get v).id = .ok (ft.get v) := by rw [hid]; exact Arr.at'_ok (by omega)
  unfold feasStep
  cases hft : ft.get v with
  | some y =>
    refine ⟨a, ?_, ha, fun h => ⟨h, by simp⟩⟩
    rw [Exc.bind_of_ok (hat.trans (by rw [hft]))]; rfl
  | none =>
    rw [Exc.bind_of_ok (hat.trans (by rw [hft]))]
    show ∃ a', (isFeasible E ops.size ft (E.delay x md) (some t) (ops.get v) >>= _) = .ok a' ∧ _
    have hv0 : v ≠ 0 := by rintro rfl; rw [h0] at hft; cases hft
    by_cases hs : v = S.n + 1
    · -- the sink
      have hsz' : (ops.get v).id = ops.size - 1 := by rw [hid, hf.size]; omega
      have hlate := hE.unfinished x hx md t
      obtain ⟨b, hb, hb'⟩ := noneLate_ok (E := E) (ft := ft) (d := E.delay x md) (t := t) hlate (ops.get v).preds
        (by intro p hp; rw [hs] at hp; have := hf.sink_le p hp; omega)
      have hbf : b = false := by
        obtain ⟨w, hw, hwn⟩ := hun
        exact hb' ⟨w, by rw [hs]; exact hf.sink_mem w hw.2, hwn⟩
      subst hbf
      have hfe : isFeasible E ops.size ft (E.delay x md) (some t) (ops.get v) = .ok false := by
        unfold isFeasible; rw [if_neg (by simpa using hsz')]; exact hb
      refine ⟨a, ?_, ha, fun h => ⟨h, fun hr => absurd hr.2 (by omega)⟩⟩
      rw [Exc.bind_of_ok hfe]; rfl
    · have hreg : S.Reg v := ⟨by omega, by omega⟩
      have hfe : isFeasible E ops.size ft (E.delay x md) (some t) (ops.get v) =
          .ok (!E.late (ft.get (S.dp v)) (some t) (E.delay x md)) := by
        unfold isFeasible
        rw [if_pos (by rw [hid, hf.size]; omega), hf.last v hreg]
        show (ft.at' (S.dp v) >>= _) = _
        have := hS.dp_lt v hreg
        rw [Exc.bind_of_ok (Arr.at'_ok (by omega))]; rfl
      rw [Exc.bind_of_ok hfe]
      by_cases hl : E.late (ft.get (S.dp v)) (some t) (E.delay x md) = true
      · refine ⟨a, ?_, ha, fun h => ⟨h, fun _ _ => hl⟩⟩
        rw [hl]; rfl
      · have hl' : (!E.late (ft.get (S.dp v)) (some t) (E.delay x md)) = true := by simpa using hl
        rw [if_pos hl']
        obtain ⟨p, hp, hgp⟩ := gene_ok (ch := ch) (i := v - 1) (by omega)
        have hop : opPriority ch (ops.get v).id = .ok p := by
          unfold opPriority; rw [hid, if_neg hv0]; exact hgp
        have hdp : ∃ f, ft.get (S.dp v) = some f := by
          cases hd : ft.get (S.dp v) with
          | some f => exact ⟨f, rfl⟩
          | none => rw [hd] at hl; exact absurd (hE.unfinished x hx md t) hl
        unfold pushFeasible
        rw [Exc.bind_of_ok hop]
        by_cases hg : E.gt p a.prio = true
        · refine ⟨⟨a.feasibles ++ [(ops.get v).id], (ops.get v).id, p⟩, by rw [if_pos hg]; rfl, ⟨by simp, ?_⟩, by simp⟩
          intro _
          show S.Reg (ops.get v).id ∧ ft.get (ops.get v).id = none ∧ ∃ f, ft.get (S.dp (ops.get v).id) = some f
          rw [hid]; exact ⟨hreg, hft, hdp⟩
        · refine ⟨{ a with feasibles := a.feasibles ++ [(ops.get v).id] }, by rw [if_neg hg]; rfl, ⟨by simp, ?_⟩, by simp⟩
          intro _
          have : a.feasibles ≠ [] := by
            intro h
            rw [ha.1 h] at hg
            exact hg (hE.prio p hp)
          exact ha.2 this

theorem updateFeasibles_ok {S : Shop} (hS : S.WF) {ops : Arr Operation} {ms mp} (hf : Fits S ops ms mp) {ch : List X}
    (hE : E.Sane ch) (hch : ch.length = 2 * S.n) {ft : Arr (Option Nat)} (hsz : ft.size = S.n + 2)
    (h0 : ft.get 0 = some 0) {x : X} (hx : x ∈ ch) {md t : Nat} (hun : ∃ v, S.Reg v ∧ ft.get v = none) :
    ∃ a', updateFeasibles E ch ops ft (E.delay x md) (some t) = .ok a' ∧
      (a'.feasibles ≠ [] → S.Reg a'.best ∧ ft.get a'.best = none ∧ ∃ f, ft.get (S.dp a'.best) = some f) ∧
      (a'.feasibles = [] → ∀ v, S.Reg v → ft.get v = none →
        E.late (ft.get (S.dp v)) (some t) (E.delay x md) = true) := by
  have key : ∀ (L : List Nat), (∀ v ∈ L, v ≤ S.n + 1) → ∀ a, FeasGood S E ft a →
      ∃ a', (L.map ops.get).foldlM (feasStep E ch ops.size ft (E.delay x md) (some t)) a = .ok a' ∧ FeasGood S E ft a' ∧
        (a'.feasibles = [] → a.feasibles = [] ∧ ∀ v ∈ L, S.Reg v → ft.get v = none →
          E.late (ft.get (S.dp v)) (some t) (E.delay x md) = true) := by
    intro L
    induction L with
    | nil => intro _ a ha; exact ⟨a, rfl, ha, fun h => ⟨h, by simp⟩⟩
    | cons v L ih =>
      intro hL a ha
      obtain ⟨a1, h1, h2, h3⟩ := feasStep_ok (t := t) (md := md) hS hf hE hch hsz h0 hx hun (hL v (by simp)) ha
      obtain ⟨a2, h4, h5, h6⟩ := ih (fun w hw => hL w (by simp [hw])) a1 h2
      refine ⟨a2, ?_, h5, ?_⟩
      · rw [List.map_cons, List.foldlM_cons, Exc.bind_of_ok h1, h4]
      · intro h
        obtain ⟨h7, h8⟩ := h6 h
        obtain ⟨h9, h10⟩ := h3 h7
        refine ⟨h9, ?_⟩
        intro w hw
        rcases List.mem_cons.1 hw with rfl | hw
        · exact h10
        · exact h8 w hw
  obtain ⟨a', h1, h2, h3⟩ := key (List.range ops.size) (by intro v hv; rw [List.mem_range, hf.size] at hv; omega)
    ⟨[], 0, E.minv⟩ ⟨fun _ => rfl, by simp⟩
  refine ⟨a', h1, h2.2, ?_⟩
  intro h v hv
  exact (h3 h).2 v (by rw [List.mem_range, hf.size]; have := hv.2; omega) hv

end

theorem mem_startCandidates {ft : Arr (Option Nat)} {p : Nat} {m : Machine} {dur t : Nat} :
    t ∈ startCandidates ft (some p) m dur ↔
      (∃ i, i < ft.size ∧ ft.get i = some t) ∧ p ≤ t ∧ m.isIdle (t, t + dur) = true := by
  unfold startCandidates
  rw [List.mem_filterMap]
  constructor
  · rintro ⟨a, ha, h⟩
    cases a with
    | none => cases h
    | some a =>
      by_cases hc : p ≤ a ∧ m.isIdle (a, a + dur) = true
      · simp only [if_pos hc, Option.some.injEq] at h
        subst h
        exact ⟨Arr.mem_toList.1 ha, hc⟩
      · simp only [if_neg hc] at h
        cases h
  · rintro ⟨hi, hc⟩
    exact ⟨some t, Arr.mem_toList.2 hi, by simp only [if_pos hc]⟩

/-- The update of the operations by `scheduleOp`. -/
def scheduledOps (ops : Arr Operation) (last : Option Nat) (j fin : Nat) : Arr Operation :=
  ⟨ops.size, fun k =>
    let o := ops.get k
    let o := if k = j then { o with finishTime := some fin } else o
    match last with
    | none => o
    | some l =>
      let o := if k = l then { o with edgesOut := o.edgesOut ++ [⟨j, .machineSucc⟩] } else o
      if k = j then { o with machinePred := some l } else o⟩

theorem linkMachine_ok {ops : Arr Operation} {last : Option Nat} {j fin : Nat} (hj : j < ops.size)
    (hl : ∀ l, last = some l → l < ops.size) :
    (ops.modify j (fun o => { o with finishTime := some fin }) >>= fun ops => linkMachine ops last j) =
      .ok (scheduledOps ops last j fin) := by
  rw [Exc.bind_of_ok (Arr.modify_ok _ hj)]
  cases last with
  | none =>
    show Except.ok _ = _
    congr 2
    funext k
    by_cases hk : k = j
    · subst hk; simp
    · simp [hk]
  | some l =>
    have hl' := hl l rfl
    unfold linkMachine
    dsimp only
    rw [Exc.bind_of_ok (Arr.modify_ok _ (by exact hl')), Arr.modify_ok _ (by exact hj)]
    congr 2
    funext k
    by_cases hk : k = j
    · subst hk
      by_cases hkl : k = l
      · subst hkl; simp
      · simp [hkl]
    · by_cases hkl : k = l
      · subst hkl; simp [hk]
      · simp [hk, hkl]

theorem scheduleOp_ok {S : Shop} (hS : S.WF) {s : Sched} {order pos cnt rk ms mp}
    (h : SInv S s order pos cnt rk ms mp) {j : Nat} (hj : S.Reg j) (hjn : s.ft.get j = none) {pf : Nat}
    (hpf : s.ft.get (S.dp j) = some pf) :
    ∃ s', scheduleOp s j = .ok s' ∧ s'.g = s.g + 1 ∧ ∃ pos' cnt' rk' ms' mp', SInv S s' (j :: order) pos' cnt' rk' ms' mp' := by
  have hjle := hj.2
  have hj1 := hj.1
  have hmj := hS.mach_lt j hj
  have hdp := hS.dp_lt j hj
  have hsz := h.fits.size
  have hfs := h.ft_size
  have hjno : j ∉ order := by
    intro hc
    obtain ⟨-, f, hf⟩ := (h.mem j).1 hc
    rw [hjn] at hf; cases hf
  -- the machine
  obtain ⟨M, hM⟩ : ∃ M, s.machines.get (S.mach j) = M := ⟨_, rfl⟩
  -- a start exists
  have hcand : s.last ∈ startCandidates s.ft (some pf) M (S.dur j) := by
    rw [mem_startCandidates]
    obtain ⟨v, hv, hvl⟩ := h.last_le
    refine ⟨⟨v, by omega, hvl⟩, h.le_last (S.dp j) pf (by omega) hpf, isIdle_iff.2 ?_⟩
    intro r hr
    rw [← hM] at hr
    obtain ⟨w, hw, -, f, hf, rfl⟩ := (h.rmc _ hmj r).1 hr
    exact .inr (h.le_last w f ((h.mem w).1 hw).1.2 hf)
  obtain ⟨st, hst⟩ := minimum?_isSome hcand
  obtain ⟨hstm, -⟩ := minimum?_eq_some hst
  obtain ⟨-, hst1, hst2⟩ := mem_startCandidates.1 hstm
  have hidle := isIdle_iff.1 hst2
  have hlast_lt : ∀ l, M.lastScheduledOp = some l → l < s.ops.size := by
    intro l hl
    rw [← hM] at hl
    have := ((h.mem l).1 ((h.lastOp _ hmj l).1 hl).1).1.2
    omega
  let fin := st + S.dur j
  let s' : Sched :=
    ⟨scheduledOps s.ops M.lastScheduledOp j fin,
      { s.machines with get := fun k => if k = S.mach j then M.reserve (fin - S.dur j, fin) j else s.machines.get k },
      { s.ft with get := fun k => if k = j then some fin else s.ft.get k }, s.count + 1, s.g + 1, max s.last fin⟩
  have hrun : scheduleOp s j = .ok s' := by
    unfold scheduleOp
    rw [Exc.bind_of_ok (Arr.at'_ok (by omega)), h.fits.last j hj]
    show (s.ft.at' (S.dp j) >>= _) = _
    rw [Exc.bind_of_ok (Arr.at'_ok (by omega)), hpf, h.fits.mach j hj, h.fits.dur j (by omega), h.fits.id j (by omega)]
    rw [Exc.bind_of_ok (Arr.at'_ok (by rw [h.m_size]; exact hmj)), hM, hst]
    show (s.ft.modify j _ >>= _) = _
    rw [Exc.bind_of_ok (Arr.modify_ok _ (by omega))]
    have hl := linkMachine_ok (fin := fin) (j := j) (by omega) hlast_lt
    obtain ⟨o1, ho1, ho2⟩ := Exc.bind_ok.1 hl
    rw [Exc.bind_of_ok ho1, Exc.bind_of_ok ho2, Exc.bind_of_ok (Arr.modify_ok _ (by rw [h.m_size]; exact hmj)), hM]
    rfl
  have hft' : ∀ v, v ≠ j → s'.ft.get v = s.ft.get v := fun v hv => if_neg hv
  have hftj : s'.ft.get j = some fin := if_pos rfl
  have hlastM : ∀ l, M.lastScheduledOp = some l ↔ l ∈ order ∧ S.mach l = S.mach j ∧ pos l + 1 = cnt (S.mach j) := by
    intro l; rw [← hM]; exact h.lastOp _ hmj l
  have hlastN : M.lastScheduledOp = none → cnt (S.mach j) = 0 := by
    intro hl; rw [← hM] at hl; exact h.lastNone _ hmj hl
  refine ⟨s', hrun, rfl, fun v => if v = j then cnt (S.mach j) else pos v,
    fun m => if m = S.mach j then cnt m + 1 else cnt m, fun v => if v = j then s.g else rk v,
    fun u => if M.lastScheduledOp = some u then some j else ms u,
    fun v => if v = j then M.lastScheduledOp else mp v, ?_⟩
  have hmsj : ms j = none := by
    cases hc : ms j with
    | none => rfl
    | some w => exact absurd ((h.msucc j w).1 hc).1 hjno
  have hmpj : mp j = none := by
    cases hc : mp j with
    | none => rfl
    | some w => exact absurd ((h.msucc w j).1 ((h.mpred w j).1 hc)).2.1 hjno
  have hmslast : ∀ l, M.lastScheduledOp = some l → ms l = none := by
    intro l hl
    obtain ⟨h1, h2, h3⟩ := (hlastM l).1 hl
    cases hc : ms l with
    | none => rfl
    | some w =>
      obtain ⟨-, h5, h6, h7⟩ := (h.msucc l w).1 hc
      have := h.pos_lt w h5
      rw [← h6, h2] at this
      omega
  have hjl : M.lastScheduledOp ≠ some j := fun hc => hjno ((hlastM j).1 hc).1
  have hmsucc : ∀ u v, (if M.lastScheduledOp = some u then some j else ms u) = some v ↔
      u ∈ j :: order ∧ v ∈ j :: order ∧ S.mach u = S.mach v ∧
        (if v = j then cnt (S.mach j) else pos v) = (if u = j then cnt (S.mach j) else pos u) + 1 := by
    intro u v
    have hne : ∀ {v}, v ∈ order → v ≠ j := fun hv hc => hjno (hc ▸ hv)
    by_cases hu : M.lastScheduledOp = some u
    · rw [if_pos hu]
      obtain ⟨h1, h2, h3⟩ := (hlastM u).1 hu
      constructor
      · intro hv
        obtain rfl := Option.some.inj hv
        refine ⟨by simp [h1], by simp, h2, ?_⟩
        rw [if_pos rfl, if_neg (hne h1), h3]
      · rintro ⟨-, h5, h6, h7⟩
        by_cases hvj : v = j
        · rw [hvj]
        · rw [if_neg hvj, if_neg (hne h1)] at h7
          have h5' : v ∈ order := by simpa [hvj] using h5
          have := h.pos_lt v h5'
          rw [← h6, h2] at this
          omega
    · rw [if_neg hu, h.msucc]
      constructor
      · rintro ⟨h1, h2, h3, h4⟩
        exact ⟨by simp [h1], by simp [h2], h3, by rw [if_neg (hne h1), if_neg (hne h2), h4]⟩
      · rintro ⟨h1, h2, h3, h4⟩
        by_cases huj : u = j
        · subst huj
          rw [if_pos rfl] at h4
          by_cases hvj : v = u
          · rw [if_pos hvj] at h4; omega
          · rw [if_neg hvj] at h4
            have h2' : v ∈ order := by simpa [hvj] using h2
            have := h.pos_lt v h2'
            rw [← h3] at this
            omega
        · have h1' : u ∈ order := by simpa [huj] using h1
          rw [if_neg huj] at h4
          by_cases hvj : v = j
          · rw [if_pos hvj] at h4
            exact absurd ((hlastM u).2 ⟨h1', by rw [h3, hvj], h4.symm⟩) hu
          · rw [if_neg hvj] at h4
            exact ⟨h1', by simpa [hvj] using h2, h3, h4⟩
  refine ⟨⟨hsz, ?_, ?_, ?_, ?_, ?_, ?_, ?_, ?_, ?_⟩, List.nodup_cons.2 ⟨hjno, h.nodup⟩, ?_, ?_, ?_, hfs, ?_, ?_, ?_, h.m_size, ?_,
    ?_, ?_, ?_, ?_, ?_, hmsucc, ?_, ?_, ?_, ?_, ?_, ?_, ?_, ?_, ?_⟩
  · intro v hv
    have := h.fits.id v hv
    simp only [s', scheduledOps]
    cases M.lastScheduledOp <;> grind
  · intro v hv
    have := h.fits.dur v hv
    simp only [s', scheduledOps]
    cases M.lastScheduledOp <;> grind
  · intro v hv
    have := h.fits.mach v hv
    simp only [s', scheduledOps]
    cases M.lastScheduledOp <;> grind
  · intro v hv
    have := h.fits.last v hv
    simp only [s', scheduledOps]
    cases M.lastScheduledOp <;> grind
  · intro v hv
    have := h.fits.sink_mem v hv
    simp only [s', scheduledOps]
    cases M.lastScheduledOp <;> grind
  · intro v hv
    refine h.fits.sink_le v ?_
    simp only [s', scheduledOps] at hv
    cases hc : M.lastScheduledOp <;> rw [hc] at hv <;> grind
  · intro v hv
    have he := h.fits.edges v hv
    simp only [s', scheduledOps]
    cases hc : M.lastScheduledOp with
    | none =>
      by_cases hvj : v = j
      · subst hvj; simp [he]
      · simp [hvj, he]
    | some l =>
      have hml := hmslast l hc
      have hlj : l ≠ j := by rintro rfl; exact hjl hc
      by_cases hvl : v = l
      · subst hvl
        rw [hml] at he
        simp [hlj, he]
      · have hlv : l ≠ v := fun hh => hvl hh.symm
        by_cases hvj : v = j
        · subst hvj; simp [hlj.symm, hlj, he]
        · simp [hvl, hlv, hvj, he]
  · intro v hv
    have hm := h.fits.mpred v hv
    simp only [s', scheduledOps]
    cases hc : M.lastScheduledOp with
    | none =>
      by_cases hvj : v = j
      · subst hvj; simp [hm, hmpj]
      · simp [hvj, hm]
    | some l =>
      by_cases hvj : v = j
      · subst hvj; simp
      · by_cases hvl : v = l
        · subst hvl; simp [hvj, hm]
        · simp [hvj, hvl, hm]
  · have := h.fits.sink_cpe
    simp only [s', scheduledOps]
    cases M.lastScheduledOp <;> grind
  · -- mem
    intro v
    by_cases hvj : v = j
    · subst hvj; exact ⟨fun _ => ⟨hj, fin, hftj⟩, fun _ => by simp⟩
    · rw [hft' v hvj, List.mem_cons, ← h.mem v]
      exact ⟨fun hh => hh.resolve_left hvj, .inr⟩
  · have := h.len
    simp only [List.length_cons, s']; omega
  · have := h.count
    simp only [s']; omega
  · rw [hft' 0 (by omega)]; exact h.ft_zero
  · rw [hft' _ (by omega)]; exact h.ft_sink
  · -- ft_ops
    intro v hv
    have := h.ft_ops v hv
    simp only [s', scheduledOps]
    cases M.lastScheduledOp <;> grind
  · -- rmc
    intro m hm r
    have hr := h.rmc m hm r
    by_cases hmm : m = S.mach j
    · have hget : (s'.machines.get m).rmc = M.rmc ++ [(fin - S.dur j, fin)] := by
        simp only [s', if_pos hmm]; rfl
      rw [hget, List.mem_append, List.mem_singleton]
      rw [hmm, hM] at hr
      rw [hr]
      constructor
      · rintro (⟨v, hv, hvm, f, hf, rfl⟩ | rfl)
        · exact ⟨v, by simp [hv], by rw [hmm]; exact hvm, f, by rw [hft' v (fun hc => hjno (hc ▸ hv))]; exact hf, rfl⟩
        · exact ⟨j, by simp, hmm.symm, fin, hftj, rfl⟩
      · rintro ⟨v, hv, hvm, f, hf, rfl⟩
        by_cases hvj : v = j
        · subst hvj
          rw [hftj] at hf
          obtain rfl := Option.some.inj hf
          exact .inr rfl
        · rw [hft' v hvj] at hf
          exact .inl ⟨v, by simpa [hvj] using hv, by rw [← hmm]; exact hvm, f, hf, rfl⟩
    · have hget : (s'.machines.get m).rmc = (s.machines.get m).rmc := by simp only [s', if_neg hmm]
      rw [hget, hr]
      constructor
      · rintro ⟨v, hv, hvm, f, hf, rfl⟩
        exact ⟨v, by simp [hv], hvm, f, by rw [hft' v (fun hc => hjno (hc ▸ hv))]; exact hf, rfl⟩
      · rintro ⟨v, hv, hvm, f, hf, rfl⟩
        have hvj : v ≠ j := by rintro rfl; exact hmm hvm.symm
        rw [hft' v hvj] at hf
        exact ⟨v, by simpa [hvj] using hv, hvm, f, hf, rfl⟩
  · -- prec
    intro v hv
    by_cases hvj : v = j
    · subst hvj
      exact ⟨pf, fin, by rw [hft' _ (by omega)]; exact hpf, hftj, by simp only [fin]; omega⟩
    · obtain ⟨a, f, h1, h2, h3⟩ := h.prec v (by simpa [hvj] using hv)
      refine ⟨a, f, ?_, by rw [hft' v hvj]; exact h2, h3⟩
      rw [hft' _ (by rintro hc; rw [hc, hjn] at h1; cases h1)]; exact h1
  · -- disj
    intro u hu v hv huv hm a b ha hb
    have hres : ∀ w ∈ order, S.mach w = S.mach j → ∀ f, s.ft.get w = some f → fin ≤ f - S.dur w ∨ f ≤ st := by
      intro w hw hwm f hf
      refine hidle (f - S.dur w, f) ?_
      rw [← hM]
      exact (h.rmc _ hmj _).2 ⟨w, hw, hwm, f, hf, rfl⟩
    have hst' : fin - S.dur j = st := by simp only [fin]; omega
    by_cases huj : u = j
    · subst huj
      have hvj : v ≠ u := fun hc => huv hc.symm
      rw [hftj] at ha
      obtain rfl := Option.some.inj ha
      rw [hft' v hvj] at hb
      rcases hres v (by simpa [hvj] using hv) hm.symm b hb with h1 | h1
      · exact .inl h1
      · exact .inr (by rw [hst']; exact h1)
    · by_cases hvj : v = j
      · subst hvj
        rw [hftj] at hb
        obtain rfl := Option.some.inj hb
        rw [hft' u huj] at ha
        rcases hres u (by simpa [huj] using hu) hm a ha with h1 | h1
        · exact .inr h1
        · exact .inl (by rw [hst']; exact h1)
      · rw [hft' u huj] at ha
        rw [hft' v hvj] at hb
        exact h.disj u (by simpa [huj] using hu) v (by simpa [hvj] using hv) huv hm a b ha hb
  · -- pos_lt
    intro v hv
    by_cases hvj : v = j
    · subst hvj; simp
    · have := h.pos_lt v (by simpa [hvj] using hv)
      rw [if_neg hvj]
      by_cases hmm : S.mach v = S.mach j
      · rw [if_pos hmm]; omega
      · rw [if_neg hmm]; exact this
  · -- pos_inj
    intro u hu v hv hm hp
    by_cases huj : u = j
    · by_cases hvj : v = j
      · rw [huj, hvj]
      · rw [if_pos huj, if_neg hvj] at hp
        have := h.pos_lt v (by simpa [hvj] using hv)
        rw [← hm, huj] at this
        omega
    · by_cases hvj : v = j
      · rw [if_neg huj, if_pos hvj] at hp
        have := h.pos_lt u (by simpa [huj] using hu)
        rw [hm, hvj] at this
        omega
      · rw [if_neg huj, if_neg hvj] at hp
        exact h.pos_inj u (by simpa [huj] using hu) v (by simpa [hvj] using hv) hm hp
  · -- pos_pred
    intro v hv k hk
    by_cases hvj : v = j
    · subst hvj
      rw [if_pos rfl] at hk
      cases hc : M.lastScheduledOp with
      | none => have := hlastN hc; omega
      | some l =>
        obtain ⟨h1, h2, h3⟩ := (hlastM l).1 hc
        refine ⟨l, by simp [h1], h2, ?_⟩
        rw [if_neg (show l ≠ v from fun hc => hjno (hc ▸ h1))]
        omega
    · rw [if_neg hvj] at hk
      obtain ⟨u, h1, h2, h3⟩ := h.pos_pred v (by simpa [hvj] using hv) k hk
      exact ⟨u, by simp [h1], h2, by rw [if_neg (show u ≠ j from fun hc => hjno (hc ▸ h1))]; exact h3⟩
  · -- mpred
    intro u v
    by_cases hvj : v = j
    · rw [if_pos hvj]
      by_cases hu : M.lastScheduledOp = some u
      · rw [if_pos hu, hu, hvj]; simp
      · rw [if_neg hu, ← h.mpred u v, hvj, hmpj]
        exact ⟨fun hc => absurd hc hu, (by intro hc; cases hc)⟩
    · rw [if_neg hvj, h.mpred u v]
      by_cases hu : M.lastScheduledOp = some u
      · rw [if_pos hu, hmslast u hu]
        exact ⟨(by intro hc; cases hc), fun hc => absurd (Option.some.inj hc).symm hvj⟩
      · rw [if_neg hu]
  · -- lastOp
    intro m hm l
    have hl := h.lastOp m hm l
    by_cases hmm : m = S.mach j
    · have hget : (s'.machines.get m).lastScheduledOp = some j := by simp only [s', if_pos hmm]; rfl
      rw [hget]
      constructor
      · intro hc
        obtain rfl := Option.some.inj hc
        exact ⟨by simp, hmm.symm, by rw [if_pos rfl, if_pos hmm, hmm]⟩
      · rintro ⟨h1, h2, h3⟩
        by_cases hlj : l = j
        · rw [hlj]
        · rw [if_neg hlj, if_pos hmm] at h3
          have := h.pos_lt l (by simpa [hlj] using h1)
          rw [h2] at this
          omega
    · have hget : (s'.machines.get m).lastScheduledOp = (s.machines.get m).lastScheduledOp := by simp only [s', if_neg hmm]
      rw [hget, hl, if_neg hmm]
      constructor
      · rintro ⟨h1, h2, h3⟩
        exact ⟨by simp [h1], h2, by rw [if_neg (show l ≠ j from fun hc => hjno (hc ▸ h1))]; exact h3⟩
      · rintro ⟨h1, h2, h3⟩
        have hlj : l ≠ j := by rintro rfl; exact hmm h2.symm
        rw [if_neg hlj] at h3
        exact ⟨by simpa [hlj] using h1, h2, h3⟩
  · -- lastNone
    intro m hm hl
    by_cases hmm : m = S.mach j
    · have hget : (s'.machines.get m).lastScheduledOp = some j := by simp only [s', if_pos hmm]; rfl
      rw [hget] at hl; cases hl
    · have hget : (s'.machines.get m).lastScheduledOp = (s.machines.get m).lastScheduledOp := by simp only [s', if_neg hmm]
      rw [hget] at hl
      rw [if_neg hmm]
      exact h.lastNone m hm hl
  · rw [if_neg (by omega)]; exact h.rk_zero
  · intro v hv
    by_cases hvj : v = j
    · rw [if_pos hvj]; exact Nat.lt_succ_self _
    · rw [if_neg hvj]
      exact Nat.lt_succ_of_lt (h.rk_lt v (by simpa [hvj] using hv))
  · -- rk_dp
    have hdpj : rk (S.dp j) < s.g := by
      by_cases h0 : S.dp j = 0
      · rw [h0, h.rk_zero, ← h.len]; omega
      · exact h.rk_lt _ ((h.mem _).2 ⟨⟨by omega, by omega⟩, pf, hpf⟩)
    intro v hv
    by_cases hvj : v = j
    · subst hvj
      rw [if_neg (by omega), if_pos rfl]
      exact hdpj
    · have hv' : v ∈ order := by simpa [hvj] using hv
      have h1 := h.rk_dp v hv'
      rw [if_neg hvj, if_neg]
      · exact h1
      · intro hc
        obtain ⟨a, f, h2, -, -⟩ := h.prec v hv'
        rw [hc, hjn] at h2; cases h2
  · -- rk_ms
    intro u v huv
    by_cases hu : M.lastScheduledOp = some u
    · rw [if_pos hu] at huv
      obtain rfl := Option.some.inj huv
      have hu' := ((hlastM u).1 hu).1
      rw [if_pos rfl, if_neg (show u ≠ j from fun hc => hjno (hc ▸ hu'))]
      exact h.rk_lt u hu'
    · rw [if_neg hu] at huv
      obtain ⟨h1, h2, -, -⟩ := (h.msucc u v).1 huv
      rw [if_neg (show u ≠ j from fun hc => hjno (hc ▸ h1)), if_neg (show v ≠ j from fun hc => hjno (hc ▸ h2))]
      exact h.rk_ms u v huv
  · -- le_last
    intro v f hv hf
    show f ≤ max s.last fin
    by_cases hvj : v = j
    · subst hvj
      rw [hftj] at hf
      obtain rfl := Option.some.inj hf
      exact Nat.le_max_right _ _
    · rw [hft' v hvj] at hf
      exact Nat.le_trans (h.le_last v f hv hf) (Nat.le_max_left _ _)
  · -- last_le
    show ∃ v, v ≤ S.n ∧ s'.ft.get v = some (max s.last fin)
    rcases Nat.le_total s.last fin with hc | hc
    · exact ⟨j, hjle, by rw [hftj, Nat.max_eq_right hc]⟩
    · obtain ⟨v, hv, hvl⟩ := h.last_le
      refine ⟨v, hv, ?_⟩
      rw [Nat.max_eq_left hc, hft' v, hvl]
      rintro rfl
      rw [hjn] at hvl; cases hvl


/-- Some partial schedule is represented. -/
def Inv (S : Shop) (s : Sched) : Prop := ∃ order pos cnt rk ms mp, SInv S s order pos cnt rk ms mp

theorem reg_mem_range {S : Shop} {v : Nat} : S.Reg v ↔ v ∈ List.range' 1 S.n := by
  unfold Shop.Reg
  rw [List.mem_range'_1]; omega

theorem Inv.g_le {S : Shop} {s : Sched} (h : Inv S s) : 1 ≤ s.g ∧ s.g ≤ S.n + 1 := by
  obtain ⟨order, pos, cnt, rk, ms, mp, h⟩ := h
  have := h.len
  have h1 : order.length ≤ (List.range' 1 S.n).length :=
    (List.subperm_of_subset h.nodup fun v hv => reg_mem_range.1 ((h.mem v).1 hv).1).length_le
  rw [List.length_range'] at h1
  omega

theorem Inv.unscheduled {S : Shop} {s : Sched} (h : Inv S s) (hg : s.g ≤ S.n) : ∃ v, S.Reg v ∧ s.ft.get v = none := by
  obtain ⟨order, pos, cnt, rk, ms, mp, h⟩ := h
  by_contra hc
  have h1 : (List.range' 1 S.n).length ≤ order.length := by
    refine (List.subperm_of_subset List.nodup_range' fun v hv => ?_).length_le
    refine (h.mem v).2 ⟨reg_mem_range.2 hv, ?_⟩
    cases hf : s.ft.get v with
    | none => exact absurd ⟨v, reg_mem_range.2 hv, hf⟩ hc
    | some f => exact ⟨f, rfl⟩
  rw [List.length_range'] at h1
  have := h.len
  omega

theorem SInv.complete {S : Shop} {s : Sched} {order pos cnt rk ms mp} (h : SInv S s order pos cnt rk ms mp)
    (hg : s.g = S.n + 1) : ∀ v, S.Reg v → v ∈ order := by
  intro v hv
  by_contra hc
  have h1 : (v :: order).length ≤ (List.range' 1 S.n).length := by
    refine (List.subperm_of_subset (List.nodup_cons.2 ⟨hc, h.nodup⟩) fun w hw => ?_).length_le
    rcases List.mem_cons.1 hw with rfl | hw
    · exact reg_mem_range.1 hv
    · exact reg_mem_range.1 ((h.mem w).1 hw).1
  rw [List.length_range', List.length_cons] at h1
  have := h.len
  omega

section
variable {X : Type} {E : EvalOps X} {S : Shop}

/-- What `updateFeasibles` establishes. -/
def FeasOK (S : Shop) (s : Sched) (t : Nat) (f : Feas X) : Prop :=
  (f.feasibles ≠ [] → S.Reg f.best ∧ s.ft.get f.best = none ∧ ∃ a, s.ft.get (S.dp f.best) = some a) ∧
  (f.feasibles = [] → ∃ v a, v ≤ S.n ∧ s.ft.get v = some a ∧ t < a)

theorem minUnscheduled {S : Shop} (hS : S.WF) {ft : Nat → Option Nat} (h0 : ft 0 = some 0)
    (h : ∃ v, S.Reg v ∧ ft v = none) : ∃ v a, S.Reg v ∧ ft v = none ∧ ft (S.dp v) = some a := by
  obtain ⟨v, hv, hn⟩ := h
  induction v using Nat.strongRecOn with
  | _ v ih =>
    have hlt := hS.dp_lt v hv
    cases hd : ft (S.dp v) with
    | some a => exact ⟨v, a, hv, hn, hd⟩
    | none =>
      have hne : S.dp v ≠ 0 := by intro hc; rw [hc, h0] at hd; cases hd
      exact ih (S.dp v) hlt ⟨by omega, by have := hv.2; omega⟩ hd

theorem delayFeasibles_ok (hS : S.WF) {ch : List X} (hE : E.Sane ch) (hch : ch.length = 2 * S.n) {s : Sched}
    (h : Inv S s) (hg : s.g ≤ S.n) (md t : Nat) :
    ∃ d f, delayForG E ch S.n s.g md = .ok d ∧ updateFeasibles E ch s.ops s.ft d (some t) = .ok f ∧ FeasOK S s t f := by
  have hun := h.unscheduled hg
  have hgl := h.g_le
  obtain ⟨order, pos, cnt, rk, ms, mp, h⟩ := h
  obtain ⟨x, hx, hgx⟩ := gene_ok (ch := ch) (i := S.n + s.g - 1) (by omega)
  obtain ⟨f, h1, h2, h3⟩ := updateFeasibles_ok (E := E) (t := t) (md := md) hS h.fits hE hch h.ft_size h.ft_zero hx hun
  refine ⟨E.delay x md, f, ?_, h1, h2, ?_⟩
  · unfold delayForG; rw [Exc.bind_of_ok hgx]; rfl
  · intro hf
    obtain ⟨v, a, hv, hn, ha⟩ := minUnscheduled hS h.ft_zero hun
    have h4 := h3 hf v hv hn
    rw [ha] at h4
    have := hS.dp_lt v hv
    exact ⟨S.dp v, a, by have := hv.2; omega, ha, hE.finished x hx md a t h4⟩

theorem innerLoop_ok (hS : S.WF) {ch : List X} (hE : E.Sane ch) (hch : ch.length = 2 * S.n) {md t : Nat} :
    ∀ (fuel : Nat) (f : Feas X) (s : Sched), Inv S s → s.g ≤ S.n → FeasOK S s t f → S.n + 1 ≤ fuel + s.g →
    ∃ s', innerLoop E ch S.n md (some t) fuel f s = .ok s' ∧ Inv S s' ∧ s.g ≤ s'.g ∧ (s'.g = s.g → s' = s) ∧
      (s'.g ≤ S.n → ∃ v a, v ≤ S.n ∧ s'.ft.get v = some a ∧ t < a) := by
  intro fuel
  induction fuel with
  | zero => intro f s _ hg _ hfu; omega
  | succ fuel ih =>
    intro f s hs hg hf hfu
    rw [innerLoop]
    by_cases he : f.feasibles = []
    · rw [if_pos he]
      exact ⟨s, rfl, hs, Nat.le_refl _, fun _ => rfl, fun _ => hf.2 he⟩
    · rw [if_neg he]
      obtain ⟨hb1, hb2, a, hb3⟩ := hf.1 he
      obtain ⟨order, pos, cnt, rk, ms, mp, hi⟩ := hs
      obtain ⟨s1, hs1, hg1, pos', cnt', rk', ms', mp', hi1⟩ := scheduleOp_ok hS hi hb1 hb2 hb3
      have hI1 : Inv S s1 := ⟨_, _, _, _, _, _, hi1⟩
      rw [Exc.bind_of_ok hs1]
      by_cases hn : S.n < s1.g
      · refine ⟨s1, by rw [if_pos hn]; rfl, hI1, by omega, by omega, by omega⟩
      · rw [if_neg hn]
        obtain ⟨d, f', h1, h2, h3⟩ := delayFeasibles_ok hS hE hch hI1 (by omega) md t
        rw [Exc.bind_of_ok h1, Exc.bind_of_ok h2]
        obtain ⟨s', h4, h5, h6, -, h8⟩ := ih f' s1 hI1 (by omega) h3 (by omega)
        exact ⟨s', h4, h5, by omega, by omega, h8⟩

theorem nextTime_ok {ft : Arr (Option Nat)} {t i : Nat} (hi : i < ft.size) (hn : ft.get i = none) :
    ∃ x, nextTime ft (some t) = .ok x ∧
      ((∃ v a, v < ft.size ∧ ft.get v = some a ∧ t < a) → ∃ v a, v < ft.size ∧ ft.get v = some a ∧ t < a ∧ x = some a) := by
  have hmem : none ∈ ft.toList.filter (later (some t)) := by
    rw [List.mem_filter]
    exact ⟨Arr.mem_toList.2 ⟨i, hi, hn⟩, rfl⟩
  obtain ⟨l, hl⟩ : ∃ l, ft.toList.filter (later (some t)) = l := ⟨_, rfl⟩
  have hnt : nextTime ft (some t) = .ok (minimum? (l.filterMap id)) := by
    unfold nextTime
    rw [hl]
    rw [hl] at hmem
    cases l with
    | nil => cases hmem
    | cons y ys => rfl
  refine ⟨_, hnt, ?_⟩
  rintro ⟨v, a, hv, ha, hta⟩
  have h1 : a ∈ l.filterMap id := by
    rw [List.mem_filterMap]
    refine ⟨some a, ?_, rfl⟩
    rw [← hl, List.mem_filter]
    exact ⟨Arr.mem_toList.2 ⟨v, hv, ha⟩, by simpa [later] using hta⟩
  obtain ⟨m, hm⟩ := minimum?_isSome h1
  obtain ⟨hmm, -⟩ := minimum?_eq_some hm
  rw [List.mem_filterMap] at hmm
  obtain ⟨y, hy, rfl⟩ := hmm
  rw [← hl, List.mem_filter] at hy
  obtain ⟨w, hw, hwf⟩ := Arr.mem_toList.1 hy.1
  exact ⟨w, m, hw, hwf, by simpa [later] using hy.2, hm⟩

theorem outerLoop_ok (hS : S.WF) {ch : List X} (hE : E.Sane ch) (hch : ch.length = 2 * S.n) (md : Nat) :
    ∀ (p q : Nat) (s : Sched) (t : Nat), Inv S s → S.n + 1 - s.g = p → s.last - t = q →
      ∃ s', Inv S s' ∧ s'.g = S.n + 1 ∧ ∃ F, ∀ fuel, F ≤ fuel → outerLoop E ch S.n md fuel (some t) s = .ok s' := by
  intro p
  induction p using Nat.strongRecOn with
  | _ p ihp =>
    intro q
    induction q using Nat.strongRecOn with
    | _ q ihq =>
      intro s t hs hp hq
      have hcg : s.count = s.g := by obtain ⟨_, _, _, _, _, _, h⟩ := hs; exact h.count
      have hgl := hs.g_le
      by_cases hg : s.g = S.n + 1
      · refine ⟨s, hs, hg, 1, ?_⟩
        intro fuel hfu
        obtain ⟨k, rfl⟩ := Nat.exists_eq_add_of_le' hfu
        rw [outerLoop, if_neg (by omega)]
      · obtain ⟨d, f, h1, h2, h3⟩ := delayFeasibles_ok hS hE hch hs (by omega) md t
        obtain ⟨s1, h4, h5, h6, h7, h8⟩ := innerLoop_ok (md := md) (t := t) hS hE hch (S.n + 2) f s hs (by omega) h3 (by omega)
        have hI := h5
        obtain ⟨order, pos, cnt, rk, ms, mp, hi⟩ := hI
        obtain ⟨x, h9, h10⟩ := nextTime_ok (t := t) (by rw [hi.ft_size]; exact Nat.lt_succ_self _) hi.ft_sink
        have hstep : ∀ k, outerLoop E ch S.n md (k + 1) (some t) s = outerLoop E ch S.n md k x s1 := by
          intro k
          rw [outerLoop, if_pos (by omega), Exc.bind_of_ok h1, Exc.bind_of_ok h2, Exc.bind_of_ok h4, Exc.bind_of_ok h9]
        by_cases hg1 : s1.g = S.n + 1
        · refine ⟨s1, h5, hg1, 2, ?_⟩
          intro fuel hfu
          obtain ⟨k, rfl⟩ := Nat.exists_eq_add_of_le' hfu
          rw [hstep, outerLoop, if_neg (by have := hi.count; omega)]
        · have hgl1 := h5.g_le
          obtain ⟨v0, a0, hv0, ha0, hta0⟩ := h8 (by omega)
          obtain ⟨v, a, hv, ha, hta, rfl⟩ := h10 ⟨v0, a0, by rw [hi.ft_size]; omega, ha0, hta0⟩
          have hale : a ≤ s1.last := by
            refine hi.le_last v a ?_ ha
            rw [hi.ft_size] at hv
            by_contra hc
            have : v = S.n + 1 := by omega
            rw [this, hi.ft_sink] at ha; cases ha
          have hrec : ∃ s', Inv S s' ∧ s'.g = S.n + 1 ∧
              ∃ F, ∀ fuel, F ≤ fuel → outerLoop E ch S.n md fuel (some a) s1 = .ok s' := by
            by_cases hsame : s1.g = s.g
            · have := h7 hsame
              subst this
              exact ihq (s1.last - a) (by omega) s1 a h5 hp rfl
            · exact ihp (S.n + 1 - s1.g) (by omega) (s1.last - a) s1 a h5 rfl rfl
          obtain ⟨s', h11, h12, F, hF⟩ := hrec
          refine ⟨s', h11, h12, F + 1, ?_⟩
          intro fuel hfu
          obtain ⟨k, rfl⟩ := Nat.exists_eq_add_of_le' hfu
          rw [show k + (F + 1) = (k + F) + 1 by omega, hstep]
          exact hF _ (by omega)

/-- An individual ready for evaluation. -/
structure Ready (S : Shop) (ops : Arr Operation) (machines : Arr Machine) : Prop where
  fits : Fits S ops (fun _ => none) (fun _ => none)
  unfinished : ∀ v, v ≤ S.n + 1 → (ops.get v).finishTime = none
  m_size : machines.size = S.machines
  idle : ∀ m, m < S.machines → (machines.get m).rmc = [] ∧ (machines.get m).lastScheduledOp = none

/-- The state in which the decoding of an individual begins. -/
def initialSched {X : Type} (i : Individual X) : Sched :=
  ⟨{ i.operations with get := fun k => if k = 0 then { i.operations.get 0 with finishTime := some 0 } else i.operations.get k },
    i.machines, ⟨i.operations.size, fun k => if k = 0 then some 0 else none⟩, 1, 1, 0⟩

theorem ready_inv (hS : S.WF) {i : Individual X} (h : Ready S i.operations i.machines) : Inv S (initialSched i) := by
  have hsz := h.fits.size
  have hpos := hS.pos
  let ops : Arr Operation := { i.operations with
    get := fun k => if k = 0 then { i.operations.get 0 with finishTime := some 0 } else i.operations.get k }
  let s0 : Sched := ⟨ops, i.machines, ⟨S.n + 2, fun k => if k = 0 then some 0 else none⟩, 1, 1, 0⟩
  have hinv : Inv S s0 := by
    refine ⟨[], fun _ => 0, fun _ => 0, fun _ => 0, fun _ => none, fun _ => none, ?_⟩
    refine ⟨⟨hsz, ?_, ?_, ?_, ?_, ?_, ?_, ?_, ?_, ?_⟩, List.nodup_nil, ?_, rfl, rfl, rfl, rfl, ?_, ?_, h.m_size, ?_,
      by simp, by simp, by simp, by simp, by simp, by simp, by simp, ?_, ?_, rfl, by simp, by simp, by simp, ?_, ⟨0, by omega, rfl⟩⟩
    · intro v hv; have := h.fits.id v hv; simp only [s0, ops]; grind
    · intro v hv; have := h.fits.dur v hv; simp only [s0, ops]; grind
    · intro v hv; have := h.fits.mach v hv; simp only [s0, ops]; grind
    · intro v hv; have := h.fits.last v hv; simp only [s0, ops]; grind
    · intro v hv; have := h.fits.sink_mem v hv; simp only [s0, ops]; grind
    · intro v hv; refine h.fits.sink_le v ?_; simp only [s0, ops] at hv; grind
    · intro v hv; have := h.fits.edges v hv; simp only [s0, ops]; grind
    · intro v hv; have := h.fits.mpred v hv; simp only [s0, ops]; grind
    · have := h.fits.sink_cpe; simp only [s0, ops]; grind
    · intro v
      simp only [List.not_mem_nil, false_iff, not_and, s0]
      rintro ⟨h1, -⟩
      rw [if_neg (by omega)]; simp
    · show (if S.n + 1 = 0 then some 0 else none) = none
      rw [if_neg (by omega)]
    · intro v hv
      have := h.unfinished v (by omega)
      simp only [s0, ops]; grind
    · intro m hm r
      rw [show s0.machines = i.machines from rfl, (h.idle m hm).1]; simp
    · intro m hm l
      rw [show s0.machines = i.machines from rfl, (h.idle m hm).2]; simp
    · intro m hm _; rfl
    · intro v f hv hf
      simp only [s0] at hf
      by_cases hv0 : v = 0
      · rw [if_pos hv0] at hf
        have := Option.some.inj hf
        simp only [s0]; omega
      · rw [if_neg hv0] at hf; cases hf
  have e : initialSched i = s0 := by
    unfold initialSched
    rw [hsz]
  rw [e]; exact hinv

theorem schedule_ok (hS : S.WF) {i : Individual X} (hE : E.Sane i.chromosome) (hch : i.chromosome.length = 2 * S.n)
    (h : Ready S i.operations i.machines) :
    ∃ s, Inv S s ∧ s.g = S.n + 1 ∧ ∃ F, ∀ fuel, F ≤ fuel → schedule E fuel i = .ok s := by
  have hsz := h.fits.size
  have hpos := hS.pos
  let ops : Arr Operation := { i.operations with
    get := fun k => if k = 0 then { i.operations.get 0 with finishTime := some 0 } else i.operations.get k }
  let s0 : Sched := ⟨ops, i.machines, ⟨S.n + 2, fun k => if k = 0 then some 0 else none⟩, 1, 1, 0⟩
  have hinv : Inv S s0 := by
    have e : initialSched i = s0 := by unfold initialSched; rw [hsz]
    rw [← e]; exact ready_inv hS h
  obtain ⟨md, hmd⟩ : ∃ md, maxDuration ops = .ok md := by
    have hne : ops.toList ≠ [] := by
      unfold Arr.toList
      rw [show ops.size = S.n + 2 from hsz]
      simp
    unfold maxDuration
    cases hl : ops.toList with
    | nil => exact absurd hl hne
    | cons o os => exact ⟨_, rfl⟩
  obtain ⟨s, h1, h2, F, hF⟩ := outerLoop_ok (E := E) hS hE hch md _ _ s0 0 hinv rfl rfl
  refine ⟨s, h1, h2, F, ?_⟩
  intro fuel hfu
  unfold schedule
  rw [if_neg (by omega), Exc.bind_of_ok (Arr.modify_ok _ (by omega))]
  show (maxDuration ops >>= _) = _
  rw [Exc.bind_of_ok hmd]
  have := hF fuel hfu
  rw [show i.operations.size - 2 = S.n by omega]
  exact this

end
end Ecrs.Jssp
