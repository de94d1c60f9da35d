import Verif.Jssp.Determinism

/-!
# Evaluating an individual: the schedules behind the result, and independence of the history
-/

namespace Ecrs.Jssp
open Ecrs

/-! ## Schedules of a shop -/

/-- Start times of the regular operations form a feasible schedule. -/
structure SFeas (S : Shop) (st : Nat → Nat) : Prop where
  prec : ∀ v, S.Reg v → S.Reg (S.dp v) → st (S.dp v) + S.dur (S.dp v) ≤ st v
  excl : ∀ u v, S.Reg u → S.Reg v → u ≠ v → S.mach u = S.mach v → st u + S.dur u ≤ st v ∨ st v + S.dur v ≤ st u

/-- The schedule ends at `t`. -/
structure SEnds (S : Shop) (st : Nat → Nat) (t : Nat) : Prop where
  le : ∀ v, S.Reg v → st v + S.dur v ≤ t
  attained : ∃ v, S.Reg v ∧ st v + S.dur v = t

/-- The constructed schedule. -/
theorem SInv.feasible {S : Shop} (hS : S.WF) {s : Sched} {order pos cnt rk ms mp} (h : SInv S s order pos cnt rk ms mp)
    (hg : s.g = S.n + 1) :
    SFeas S (fun v => (s.ft.get v).getD 0 - S.dur v) ∧ SEnds S (fun v => (s.ft.get v).getD 0 - S.dur v) s.last ∧
      ∀ v, S.Reg v → ∃ f, s.ft.get v = some f ∧ S.dur v ≤ f := by
  have hall := h.complete hg
  have hfin : ∀ v, S.Reg v → ∃ f, s.ft.get v = some f ∧ S.dur v ≤ f := by
    intro v hv
    obtain ⟨a, f, h1, h2, h3⟩ := h.prec v (hall v hv)
    exact ⟨f, h2, by omega⟩
  refine ⟨⟨?_, ?_⟩, ⟨?_, ?_⟩, hfin⟩
  · intro v hv hd
    obtain ⟨a, f, h1, h2, h3⟩ := h.prec v (hall v hv)
    obtain ⟨b, h4, h5⟩ := hfin _ hd
    rw [h1] at h4
    cases h4
    simp only [h1, h2, Option.getD_some]
    omega
  · intro u v hu hv huv hm
    obtain ⟨a, h1, h2⟩ := hfin u hu
    obtain ⟨b, h3, h4⟩ := hfin v hv
    have := h.disj u (hall u hu) v (hall v hv) huv hm a b h1 h3
    simp only [h1, h3, Option.getD_some]
    omega
  · intro v hv
    obtain ⟨f, h1, h2⟩ := hfin v hv
    have := h.le_last v f hv.2 h1
    simp only [h1, Option.getD_some]
    omega
  · obtain ⟨v, h1, h2⟩ := h.last_le
    by_cases h0 : v = 0
    · subst h0
      have h3 : s.last = 0 := by rw [h.ft_zero] at h2; exact (Option.some.inj h2).symm
      have hr : S.Reg 1 := ⟨Nat.le_refl _, hS.pos⟩
      obtain ⟨f, h4, h5⟩ := hfin 1 hr
      have := h.le_last 1 f hr.2 h4
      refine ⟨1, hr, ?_⟩
      simp only [h4, Option.getD_some]
      omega
    · have hr : S.Reg v := ⟨by omega, h1⟩
      obtain ⟨f, h4, h5⟩ := hfin v hr
      rw [h2] at h4
      cases h4
      refine ⟨v, hr, ?_⟩
      simp only [h2, Option.getD_some]
      omega

theorem dp_adj {S : Shop} (hS : S.WF) (ms : Nat → Option Nat) {v : Nat} (hv : S.Reg v) : Adj S ms (S.dp v) v :=
  .inl ⟨_, hS.je_dp v hv, rfl⟩

/-- The schedule of the graph: every operation as late as the distances allow, counted from the start. -/
theorem graph_follows {S : Shop} (hS : S.WF) {ops ms mp pos rk N} (hp : Sel S pos ms mp) (hr : Rank S ms rk N)
    (hf : Fits S ops ms mp) (hd : AllDone S ops) :
    ∃ st, SFeas S st ∧ SEnds S st (ops.get 0).criticalDistance ∧
      ∀ u v, S.Reg u → S.Reg v → S.mach u = S.mach v → pos u < pos v → st u + S.dur u ≤ st v := by
  let cd := fun v => (ops.get v).criticalDistance
  have hle : ∀ v, v ≤ S.n → cd v ≤ cd 0 := by
    intro v
    induction v using Nat.strongRecOn with
    | _ v ih =>
      intro hv
      by_cases h0 : v = 0
      · rw [h0]
      · have hreg : S.Reg v := ⟨by omega, hv⟩
        have h1 := hS.dp_lt v hreg
        have h2 := ih _ h1 (by omega)
        have h3 := Done.edge hf hd (show S.dp v ≤ S.n + 1 by omega) (dp_adj hS ms hreg)
        show (ops.get v).criticalDistance ≤ _
        have : (ops.get (S.dp v)).criticalDistance ≤ cd 0 := h2
        omega
  have hdur : ∀ v, S.Reg v → S.dur v ≤ cd v := by
    intro v hv
    obtain ⟨e, -, -, -, -, -, -, h⟩ := crit_edge hS hp hf hd hv.2
    show _ ≤ (ops.get v).criticalDistance
    omega
  have hmach : ∀ (k : Nat) (u v : Nat), S.Reg u → S.Reg v → S.mach u = S.mach v → pos v = pos u + k + 1 → S.dur u + cd v ≤ cd u := by
    intro k
    induction k with
    | zero =>
      intro u v hu hv hm hpos
      have := hu.2
      exact Done.edge hf hd (by omega) (.inr ((hp.msucc u v).2 ⟨hu, hv, hm, by omega⟩))
    | succ k ih =>
      intro u v hu hv hm hpos
      obtain ⟨w, hw, hwm, hwp⟩ := hp.dense v hv (pos u + k + 1) (by omega)
      have h1 := ih u w hu hw (hm.trans hwm.symm) hwp
      have := hw.2
      have h2 := Done.edge hf hd (show w ≤ S.n + 1 by omega) (.inr ((hp.msucc w v).2 ⟨hw, hv, hwm, by omega⟩))
      show S.dur u + (ops.get v).criticalDistance ≤ _
      have h3 : S.dur u + (ops.get w).criticalDistance ≤ cd u := h1
      omega
  refine ⟨fun v => cd 0 - cd v, ⟨?_, ?_⟩, ⟨?_, ?_⟩, ?_⟩
  · intro v hv hdv
    have h1 := hdv.2
    have h3 : S.dur (S.dp v) + cd v ≤ cd (S.dp v) := Done.edge hf hd (show S.dp v ≤ S.n + 1 by omega) (dp_adj hS ms hv)
    have h4 := hle _ h1
    show cd 0 - cd (S.dp v) + S.dur (S.dp v) ≤ cd 0 - cd v
    omega
  · intro u v hu hv huv hm
    have h1 := hle u hu.2
    have h2 := hle v hv.2
    show cd 0 - cd u + S.dur u ≤ cd 0 - cd v ∨ cd 0 - cd v + S.dur v ≤ cd 0 - cd u
    rcases Nat.lt_trichotomy (pos u) (pos v) with h | h | h
    · have := hmach (pos v - pos u - 1) u v hu hv hm (by omega)
      omega
    · exact absurd (hp.inj u v hu hv hm h) huv
    · have := hmach (pos u - pos v - 1) v u hv hu hm.symm (by omega)
      omega
  · intro v hv
    have h1 := hle v hv.2
    have h2 := hdur v hv
    show cd 0 - cd v + S.dur v ≤ cd 0
    omega
  · have hend : ∀ (d v : Nat), S.Reg v → N - rk v = d → ∃ w, S.Reg w ∧ cd w = S.dur w := by
      intro d
      induction d using Nat.strongRecOn with
      | _ d ih =>
        intro v hv hdv
        obtain ⟨e, -, -, h1, h2, h3, -, h4⟩ := crit_edge hS hp hf hd hv.2
        by_cases hs : e.neigh = S.n + 1
        · refine ⟨v, hv, ?_⟩
          have h5 : (ops.get (S.n + 1)).criticalDistance = 0 := by
            have h6 : (ops.get (S.n + 1)).edgesOut = [] := by
              rw [hf.edges _ (Nat.le_refl _), hS.je_sink]
              cases hms : ms (S.n + 1) with
              | none => rfl
              | some w =>
                have := ((hp.msucc _ _).1 hms).1.2
                omega
            rw [(hd _ (Nat.le_refl _)).1 h6, hf.dur _ (Nat.le_refl _), hS.dur_sink]
          show (ops.get v).criticalDistance = _
          rw [h4, hs, h5]; rfl
        · have hreg : S.Reg e.neigh := ⟨h1, by omega⟩
          have := hv.2
          have h5 := hr.lt v e.neigh (by omega) h3
          have h6 := hr.le e.neigh h2
          exact ih (N - rk e.neigh) (by omega) e.neigh hreg rfl
    obtain ⟨w, hw, hcw⟩ := hend _ 1 ⟨Nat.le_refl _, hS.pos⟩ rfl
    refine ⟨w, hw, ?_⟩
    have := hle w hw.2
    show cd 0 - cd w + S.dur w = cd 0
    omega
  · intro u v hu hv hm h
    have h1 := hle u hu.2
    have h2 := hle v hv.2
    have := hmach (pos v - pos u - 1) u v hu hv hm (by omega)
    show cd 0 - cd u + S.dur u ≤ cd 0 - cd v
    omega

theorem graph_feasible {S : Shop} (hS : S.WF) {ops ms mp pos rk N} (hp : Sel S pos ms mp) (hr : Rank S ms rk N)
    (hf : Fits S ops ms mp) (hd : AllDone S ops) :
    ∃ st, SFeas S st ∧ SEnds S st (ops.get 0).criticalDistance := by
  obtain ⟨st, h1, h2, -⟩ := graph_follows hS hp hr hf hd
  exact ⟨st, h1, h2⟩

/-- The longest path is a lower bound for every schedule that follows the machine order. -/
theorem graph_lower {S : Shop} (hS : S.WF) {ops ms mp pos rk N} (hp : Sel S pos ms mp) (hr : Rank S ms rk N)
    (hf : Fits S ops ms mp) (hd : AllDone S ops) {st : Nat → Nat} {t : Nat}
    (hj : ∀ v, S.Reg v → S.Reg (S.dp v) → st (S.dp v) + S.dur (S.dp v) ≤ st v)
    (hm : ∀ u v, S.Reg u → S.Reg v → S.mach u = S.mach v → pos u < pos v → st u + S.dur u ≤ st v)
    (ht : ∀ v, S.Reg v → st v + S.dur v ≤ t) : (ops.get 0).criticalDistance ≤ t := by
  have key : ∀ (d v : Nat), S.Reg v → N - rk v = d → st v + (ops.get v).criticalDistance ≤ t := by
    intro d
    induction d using Nat.strongRecOn with
    | _ d ih =>
      intro v hv hdv
      have hvn := hv.2
      obtain ⟨e, -, -, h1, h2, h3, -, h4⟩ := crit_edge hS hp hf hd hv.2
      by_cases hs : e.neigh = S.n + 1
      · rw [h4, hs, sink_cd hS hp hf hd]
        exact ht v hv
      · have hreg : S.Reg e.neigh := ⟨h1, by omega⟩
        have h5 := hr.lt v e.neigh (by omega) h3
        have h6 := hr.le e.neigh h2
        have h7 := ih (N - rk e.neigh) (by omega) e.neigh hreg rfl
        have h8 : st v + S.dur v ≤ st e.neigh := by
          rcases h3 with ⟨e', he', h⟩ | h
          · rcases (hS.je_cases (by omega) he').2.2 with h' | ⟨-, h'⟩
            · rw [h] at h'; exact absurd h' hs
            · rw [h] at h'
              have := hj e.neigh hreg (by rw [h']; exact hv)
              rw [h'] at this
              exact this
          · obtain ⟨-, -, q1, q2⟩ := (hp.msucc _ _).1 h
            exact hm v e.neigh hv hreg q1 (by omega)
        omega
  obtain ⟨e, -, -, h1, h2, h3, -, h4⟩ := crit_edge hS hp hf hd (v := 0) (by omega)
  rw [h4, hS.dur_zero]
  by_cases hs : e.neigh = S.n + 1
  · rw [hs, sink_cd hS hp hf hd]; omega
  · have := key _ e.neigh ⟨h1, by omega⟩ rfl
    omega

theorem Carries.feasible {S : Shop} (hS : S.WF) {ops l} (h : Carries S ops l) : ∃ st, SFeas S st ∧ SEnds S st l := by
  obtain ⟨pos, ms, mp, rk, N, h1, h2, -, opsD, h3, h4, rfl⟩ := h
  exact graph_feasible hS h1 h2 h3 h4

theorem SInv.carries {S : Shop} (hS : S.WF) {s : Sched} {order pos cnt rk ms mp} (h : SInv S s order pos cnt rk ms mp)
    (hg : s.g = S.n + 1) : ∃ c, Carries S s.ops c := by
  obtain ⟨h1, rk', N, h2⟩ := h.sel hS hg
  obtain ⟨opsD, -, h3, h4, -⟩ := makespan_ok hS h1 h2 h.fits
  exact ⟨_, pos, ms, mp, rk', N, h1, h2, h.fits, opsD, h3, h4, rfl⟩

/-! ## Resetting -/

theorem resetEdges_spec {l : List Edge} (hl : ∀ e ∈ l, e.kind = .jobSucc) (w : Option Nat) :
    resetEdges (l ++ (w.toList.map fun w => (⟨w, .machineSucc⟩ : Edge))) = l := by
  unfold resetEdges
  cases w with
  | none =>
    have : (l ++ ((none : Option Nat).toList.map fun w => (⟨w, .machineSucc⟩ : Edge))) = l := by simp
    rw [this]
    have : l.findIdx? (fun e => e.kind == .machineSucc) = none := by
      rw [List.findIdx?_eq_none_iff]
      intro e he; rw [hl e he]; rfl
    rw [this]
  | some x =>
    have h1 : (l ++ ((some x).toList.map fun w => (⟨w, .machineSucc⟩ : Edge))).findIdx? (fun e => e.kind == .machineSucc) =
        some l.length := by
      have h2 : l.findIdx? (fun e => e.kind == .machineSucc) = none := by
        rw [List.findIdx?_eq_none_iff]
        intro e he; rw [hl e he]; rfl
      rw [List.findIdx?_append, h2]
      simp
    rw [h1]
    simp [swapRemove]

theorem je_kind {S : Shop} (hS : S.WF) {v : Nat} (hv : v ≤ S.n + 1) : ∀ e ∈ S.je v, e.kind = .jobSucc :=
  fun _ he => (hS.je_cases hv he).2.1

/-- Operations and machines as prepared for the first evaluation. -/
structure Base (S : Shop) (ops : Arr Operation) (machines : Arr Machine) : Prop extends Ready S ops machines where
  beyond : ∀ k, S.n + 1 < k → (ops.get k).reset = ops.get k
  clean : machines.map Machine.reset = machines

/-- After the preparatory step of an evaluation, the individual differs from the base in distances and critical edges only. -/
structure SimTo {X : Type} (S : Shop) (ops : Arr Operation) (machines : Arr Machine) (i : Individual X) : Prop where
  size : i.prepare.operations.size = ops.size
  redist : Redist S ops i.prepare.operations
  sink : (i.prepare.operations.get (S.n + 1)).criticalPathEdge = none
  machines : i.prepare.machines = machines

theorem erase_fields {a b : Operation} (h : erase a = erase b) : a.id = b.id ∧ a.duration = b.duration ∧ a.machine = b.machine ∧
    a.preds = b.preds ∧ a.edgesOut = b.edgesOut ∧ a.machinePred = b.machinePred ∧ a.finishTime = b.finishTime := by
  cases a; cases b
  simp only [erase, Operation.mk.injEq] at h
  simp only
  tauto

theorem Fits.redist {S : Shop} {o o' : Arr Operation} {ms mp} (h : Fits S o ms mp) (hs : o'.size = o.size) (hr : Redist S o o')
    (hc : (o'.get (S.n + 1)).criticalPathEdge = none) : Fits S o' ms mp := by
  have e1 : ∀ k, (o'.get k).id = (o.get k).id := fun k => (erase_fields (hr k).1).1
  have e2 : ∀ k, (o'.get k).duration = (o.get k).duration := fun k => (erase_fields (hr k).1).2.1
  have e3 : ∀ k, (o'.get k).machine = (o.get k).machine := fun k => (erase_fields (hr k).1).2.2.1
  have e4 : ∀ k, (o'.get k).preds = (o.get k).preds := fun k => (erase_fields (hr k).1).2.2.2.1
  have e5 : ∀ k, (o'.get k).edgesOut = (o.get k).edgesOut := fun k => (erase_fields (hr k).1).2.2.2.2.1
  have e6 : ∀ k, (o'.get k).machinePred = (o.get k).machinePred := fun k => (erase_fields (hr k).1).2.2.2.2.2.1
  refine ⟨hs.trans h.size, ?_, ?_, ?_, ?_, ?_, ?_, ?_, ?_, hc⟩
  · intro v hv; rw [e1]; exact h.id v hv
  · intro v hv; rw [e2]; exact h.dur v hv
  · intro v hv; rw [e3]; exact h.mach v hv
  · intro v hv; rw [e4]; exact h.last v hv
  · intro v hv; rw [e4]; exact h.sink_mem v hv
  · intro v hv; rw [e4] at hv; exact h.sink_le v hv
  · intro v hv; rw [e5]; exact h.edges v hv
  · intro v hv; rw [e6]; exact h.mpred v hv

theorem SimTo.ready {X : Type} {S : Shop} {ops machines} (hb : Base S ops machines) {i : Individual X} (h : SimTo S ops machines i) :
    Ready S i.prepare.operations i.prepare.machines := by
  refine ⟨hb.fits.redist h.size h.redist h.sink, ?_, ?_, ?_⟩
  · intro v hv
    rw [show (i.prepare.operations.get v).finishTime = (ops.get v).finishTime from (erase_fields (h.redist v).1).2.2.2.2.2.2]
    exact hb.unfinished v hv
  · rw [h.machines]; exact hb.m_size
  · rw [h.machines]; exact hb.idle

theorem SimTo.fresh {X : Type} {S : Shop} {ops machines} (hb : Base S ops machines) {i : Individual X} (ho : i.operations = ops)
    (hm : i.machines = machines) (hd : i.isDirty = false) : SimTo S ops machines i := by
  have : i.prepare = i := by unfold Individual.prepare; rw [hd]; rfl
  refine ⟨by rw [this, ho], by rw [this, ho]; exact Redist.refl _, ?_, by rw [this, hm]⟩
  rw [this, ho]; exact hb.fits.sink_cpe

/-- Resetting an evaluated individual. -/
theorem SimTo.after {X : Type} {S : Shop} (hS : S.WF) {ops machines} (hb : Base S ops machines) {i : Individual X} {ms mp}
    (hd : i.isDirty = true) (hf : Fits S i.operations ms mp) (hx : ∀ k, fixed (i.operations.get k) = fixed (ops.get k))
    (hbe : ∀ k, S.n + 1 < k → i.operations.get k = ops.get k)
    (hm : i.machines.map Machine.reset = machines.map Machine.reset) : SimTo S ops machines i := by
  have hp : i.prepare = i.reset := by unfold Individual.prepare; rw [hd]; rfl
  have hk : ∀ k, erase ((i.operations.get k).reset) = erase (ops.get k) ∧ (S.n + 1 < k → (i.operations.get k).reset = ops.get k) := by
    intro k
    by_cases hk : S.n + 1 < k
    · have : (i.operations.get k).reset = ops.get k := by rw [hbe k hk, hb.beyond k hk]
      exact ⟨by rw [this], fun _ => this⟩
    · refine ⟨?_, fun h => absurd h hk⟩
      have h1 := hx k
      have h2 := hf.edges k (by omega)
      have h3 := hb.fits.edges k (by omega)
      have h4 := hb.fits.mpred k (by omega)
      have h5 := hb.unfinished k (by omega)
      have h6 : resetEdges (i.operations.get k).edgesOut = S.je k := by
        rw [h2]; exact resetEdges_spec (je_kind hS (by omega)) _
      have h7 : S.je k = (ops.get k).edgesOut := by rw [h3]; simp
      unfold fixed at h1
      simp only [Prod.mk.injEq] at h1
      obtain ⟨f1, f2, f3, f4⟩ := h1
      unfold erase Operation.reset
      simp only [h6, f1, f2, f3, f4]
      rw [h7, h4, h5]
  refine ⟨?_, ?_, ?_, ?_⟩
  · rw [hp]; exact hf.size.trans hb.fits.size.symm
  · rw [hp]; exact hk
  · rw [hp]; exact hf.sink_cpe
  · rw [hp]; show i.machines.map Machine.reset = machines
    rw [hm, hb.clean]

/-! ## The local search sees only the machine order -/

theorem arr_ext {α : Type} {a b : Arr α} (h1 : a.size = b.size) (h2 : ∀ k, a.get k = b.get k) : a = b := by
  cases a; cases b
  cases h1
  congr 1
  exact funext h2

theorem op_ext {a b : Operation} (h1 : erase a = erase b) (h2 : a.criticalDistance = b.criticalDistance)
    (h3 : a.criticalPathEdge = b.criticalPathEdge) : a = b := by
  have e1 : a.id = b.id := (erase_fields h1).1
  have e2 : a.duration = b.duration := (erase_fields h1).2.1
  have e3 : a.machine = b.machine := (erase_fields h1).2.2.1
  have e4 : a.preds = b.preds := (erase_fields h1).2.2.2.1
  have e5 : a.edgesOut = b.edgesOut := (erase_fields h1).2.2.2.2.1
  have e6 : a.machinePred = b.machinePred := (erase_fields h1).2.2.2.2.2.1
  have e7 : a.finishTime = b.finishTime := (erase_fields h1).2.2.2.2.2.2
  cases a; cases b
  simp_all

theorem makespan_det {S : Shop} (hS : S.WF) {ms mp pos rk N} (hp : Sel S pos ms mp) (hr : Rank S ms rk N)
    {o1 o2 : Arr Operation} (hf1 : Fits S o1 ms mp) (hf2 : Fits S o2 ms mp) (h12 : Redist S o1 o2) :
    ∃ F, ∀ fuel, F ≤ fuel → makespan fuel o1 = makespan fuel o2 := by
  obtain ⟨d1, ⟨F1, a1⟩, b1, c1, e1⟩ := makespan_ok hS hp hr hf1
  obtain ⟨d2, ⟨F2, a2⟩, b2, c2, e2⟩ := makespan_ok hS hp hr hf2
  have heq : d1 = d2 := by
    have hcd := cd_unique hS hp hr b1 c1 b2 c2
    refine arr_ext (b1.size.trans b2.size.symm) fun k => ?_
    have herase : erase (d1.get k) = erase (d2.get k) := by rw [(e1 k).1, (e2 k).1, (h12 k).1]
    by_cases hk : S.n + 1 < k
    · rw [(e1 k).2 hk, (e2 k).2 hk, (h12 k).2 hk]
    · refine op_ext herase (hcd k (by omega)) ?_
      by_cases hks : k = S.n + 1
      · rw [hks, b1.sink_cpe, b2.sink_cpe]
      · have hed : (d1.get k).edgesOut = (d2.get k).edgesOut := (erase_fields herase).2.2.2.2.1
        obtain ⟨e, he, -⟩ := crit_edge hS hp b1 c1 (show k ≤ S.n by omega)
        cases hes : (d1.get k).edgesOut with
        | nil => rw [hes] at he; cases he
        | cons x xs =>
          rw [(c1 k (by omega)).2.2 x xs hes, (c2 k (by omega)).2.2 x xs (by rw [← hed]; exact hes)]
          congr 1
          refine maxByKey_congr xs x fun y hy => ?_
          have := Fits.edge_le hS b1 hp (show k ≤ S.n + 1 by omega) (e := y) (by rw [hes]; exact hy)
          exact hcd _ this.2.2.1
  refine ⟨max F1 F2, fun fuel hfuel => ?_⟩
  rw [a1 fuel (by omega), a2 fuel (by omega), heq]

theorem localSearch_det {S : Shop} (hS : S.WF) {ms mp pos rk N} (hp : Sel S pos ms mp) (hr : Rank S ms rk N)
    {o1 o2 : Arr Operation} (hf1 : Fits S o1 ms mp) (hf2 : Fits S o2 ms mp) (h12 : Redist S o1 o2) :
    ∃ F, ∀ k fuel, F ≤ k → localSearch k fuel o1 = localSearch k fuel o2 := by
  obtain ⟨F, h⟩ := makespan_det hS hp hr hf1 hf2 h12
  refine ⟨F, fun k fuel hk => ?_⟩
  cases fuel with
  | zero => rfl
  | succ fuel => rw [localSearch, localSearch, h k hk]

/-! ## Evaluation -/

section
variable {X : Type} {E : EvalOps X}

/-- The evaluation returns (the model's fuel suffices) with this individual and value. -/
def Evaluates (E : EvalOps X) (i i' : Individual X) (r : Nat) : Prop := ∃ F, ∀ fuel, F ≤ fuel → evaluate E fuel i = .ok (i', r)

theorem Evaluates.unique {i i1 i2 : Individual X} {r1 r2 : Nat} (h1 : Evaluates E i i1 r1) (h2 : Evaluates E i i2 r2) :
    i1 = i2 ∧ r1 = r2 := by
  obtain ⟨F1, h1⟩ := h1
  obtain ⟨F2, h2⟩ := h2
  have a := h1 (max F1 F2) (by omega)
  rw [h2 (max F1 F2) (by omega)] at a
  cases a
  exact ⟨rfl, rfl⟩

/-- What one evaluation does. -/
theorem evaluate_full {S : Shop} (hS : S.WF) (hA : S.Alternating) (hD : ∀ v, S.Reg v → 0 < S.dur v) {ops machines}
    (hb : Base S ops machines) {i : Individual X} (hi : SimTo S ops machines i) (hE : E.Sane i.chromosome)
    (hch : i.chromosome.length = 2 * S.n) :
    ∃ i' r s l c, Evaluates E i i' r ∧ (∃ F, ∀ fuel, F ≤ fuel → schedule E fuel i.prepare = .ok s) ∧ Inv S s ∧ s.g = S.n + 1 ∧ Carries S s.ops c ∧ l ≤ c ∧ LocOpt S i'.operations l ∧
      r = min s.last l ∧ i'.chromosome = i.chromosome ∧ i'.fitness = r ∧ i'.isFitnessValid = true ∧ i'.isDirty = true ∧
      SimTo S ops machines i' ∧ (∀ v, (i'.operations.get v).finishTime = (s.ops.get v).finishTime) ∧ i'.machines = s.machines ∧
      ∃ pos ms mp pos' ms' mp', CarriesAs S pos ms mp s.ops c ∧ LocOptAs S pos' ms' mp' i'.operations l ∧
        Descends S pos ms mp c pos' ms' mp' l := by
  have hready := hi.ready hb
  have hpc : i.prepare.chromosome = i.chromosome := by unfold Individual.prepare; split <;> rfl
  obtain ⟨s, h1, h2, F1, h3⟩ := schedule_ok (E := E) hS (i := i.prepare) (by rw [hpc]; exact hE) (by rw [hpc]; exact hch) hready
  obtain ⟨order, pos, cnt, rk, ms, mp, hs⟩ := id h1
  obtain ⟨c, pos0, ms0, mp0, hc⟩ := hs.carries hS h2
  obtain ⟨ops', l, posL, msL, mpL, ⟨F2, h4⟩, h5, h6', h7, hdesc⟩ := localSearch_ok hS hA hD c _ _ _ s.ops hc
  have h6 : LocOpt S ops' l := ⟨_, _, _, h6'⟩
  refine ⟨{ i with operations := ops', machines := s.machines, fitness := min s.last l, isFitnessValid := true, isDirty := true },
    min s.last l, s, l, c, ⟨max F1 F2, fun fuel hf => ?_⟩, ⟨F1, h3⟩, h1, h2,
    ⟨_, _, _, hc⟩, h5, h6, rfl, rfl, rfl, rfl, rfl, ?_, ?_, rfl, _, _, _, _, _, _, hc, h6', hdesc⟩
  · unfold evaluate
    rw [Exc.bind_of_ok (h3 fuel (by omega)), Exc.bind_of_ok (h4 fuel fuel (by omega) (by omega))]
    rfl
  · have ht := schedule_tracks E (h3 F1 (Nat.le_refl _))
    obtain ⟨pos', ms', mp', rk', N', -, -, hf', -⟩ := h6.carries
    have hbs := hb.fits.size
    have his := hready.fits.size
    refine SimTo.after hS hb (ms := ms') (mp := mp') rfl hf' ?_ ?_ ?_
    · intro k
      have e1 : fixed (ops'.get k) = fixed (s.ops.get k) := by
        have := (h7 k).1
        unfold static at this
        simp only [Prod.mk.injEq] at this
        unfold fixed
        rw [this.1, this.2.1, this.2.2.1, this.2.2.2.1]
      have e2 : fixed (i.prepare.operations.get k) = fixed (ops.get k) := by
        obtain ⟨q1, q2, q3, q4, -⟩ := erase_fields (hi.redist k).1
        unfold fixed; rw [q1, q2, q3, q4]
      exact e1.trans ((ht.fixed k).trans e2)
    · intro k hk
      exact ((h7 k).2 hk).trans ((ht.beyond k (by omega)).trans ((hi.redist k).2 hk))
    · show s.machines.map Machine.reset = _
      rw [ht.machines, hi.machines]
  · intro v
    have := (h7 v).1
    unfold static at this
    simp only [Prod.mk.injEq] at this
    exact this.2.2.2.2

theorem evaluate_ok {S : Shop} (hS : S.WF) (hA : S.Alternating) (hD : ∀ v, S.Reg v → 0 < S.dur v) {ops machines}
    (hb : Base S ops machines) {i : Individual X} (hi : SimTo S ops machines i) (hE : E.Sane i.chromosome)
    (hch : i.chromosome.length = 2 * S.n) :
    ∃ i' r s l c, Evaluates E i i' r ∧ Inv S s ∧ s.g = S.n + 1 ∧ Carries S s.ops c ∧ l ≤ c ∧ Carries S i'.operations l ∧
      r = min s.last l ∧ i'.chromosome = i.chromosome ∧ i'.fitness = r ∧ i'.isFitnessValid = true ∧ i'.isDirty = true ∧
      SimTo S ops machines i' ∧ (∀ v, (i'.operations.get v).finishTime = (s.ops.get v).finishTime) ∧ i'.machines = s.machines := by
  obtain ⟨i', r, s, l, c, h1, -, h2, h3, h4, h5, h6, h7, h8, h9, h10, h11, h12, h13, h14, -⟩ := evaluate_full hS hA hD hb hi hE hch
  exact ⟨i', r, s, l, c, h1, h2, h3, h4, h5, h6.carries, h7, h8, h9, h10, h11, h12, h13, h14⟩

/-- The result depends on the chromosome only. -/
theorem evaluate_indep {S : Shop} (hS : S.WF) {ops machines}
    (hb : Base S ops machines) {i j i' j' : Individual X} {r t : Nat} (hi : SimTo S ops machines i) (hj : SimTo S ops machines j)
    (hij : i.chromosome = j.chromosome) (hE : E.Sane i.chromosome) (hch : i.chromosome.length = 2 * S.n)
    (h1 : Evaluates E i i' r) (h2 : Evaluates E j j' t) : i' = j' ∧ r = t := by
  have hpc : ∀ i : Individual X, i.prepare.chromosome = i.chromosome := fun i => by unfold Individual.prepare; split <;> rfl
  have hE' := hE
  have hch' := hch
  rw [hij] at hE' hch'
  obtain ⟨s, a1, a2, F1, a3⟩ := schedule_ok (E := E) hS (i := i.prepare) (by rw [hpc]; exact hE) (by rw [hpc]; exact hch) (hi.ready hb)
  obtain ⟨u, b1, b2, F2, b3⟩ := schedule_ok (E := E) hS (i := j.prepare) (by rw [hpc]; exact hE') (by rw [hpc]; exact hch') (hj.ready hb)
  have hti := schedule_tracks E (a3 F1 (Nat.le_refl _))
  have htj := schedule_tracks E (b3 F2 (Nat.le_refl _))
  have hsu : s.erase = u.erase := by
    have hee : ∀ fuel, schedule E fuel i.prepare.erase = schedule E fuel j.prepare.erase := by
      intro fuel
      have ho : i.prepare.erase.operations = j.prepare.erase.operations := by
        refine arr_ext (hi.size.trans hj.size.symm) fun k => ?_
        show erase (i.prepare.operations.get k) = erase (j.prepare.operations.get k)
        rw [(hi.redist k).1, (hj.redist k).1]
      have hm : i.prepare.erase.machines = j.prepare.erase.machines := hi.machines.trans hj.machines.symm
      have hc : i.prepare.erase.chromosome = j.prepare.erase.chromosome := (hpc i).trans (hij.trans (hpc j).symm)
      unfold schedule
      rw [ho, hm, hc]
    have h := hee (max F1 F2)
    rw [schedule_erase, schedule_erase, a3 _ (by omega), b3 _ (by omega)] at h
    exact Except.ok.inj h
  have her : ∀ k, erase (u.ops.get k) = erase (s.ops.get k) := by
    intro k
    have : (u.ops.map erase).get k = (s.ops.map erase).get k := by
      rw [show s.ops.map erase = s.erase.ops from rfl, show u.ops.map erase = u.erase.ops from rfl, hsu]
    exact this
  have hred : Redist S s.ops u.ops := by
    intro k
    refine ⟨her k, fun hk => ?_⟩
    have h3 := (hi.ready hb).fits.size
    have h4 := (hj.ready hb).fits.size
    rw [hti.beyond k (by omega), htj.beyond k (by omega), (hi.redist k).2 hk, (hj.redist k).2 hk]
  obtain ⟨order, pos, cnt, rk, ms, mp, hs⟩ := id a1
  obtain ⟨_, _, _, _, _, _, hu⟩ := id b1
  obtain ⟨hp, rk', N, hr⟩ := hs.sel hS a2
  have hfu : Fits S u.ops ms mp := hs.fits.redist (by rw [hu.fits.size, hs.fits.size]) hred hu.fits.sink_cpe
  obtain ⟨F3, h3⟩ := localSearch_det hS hp hr hs.fits hfu hred
  obtain ⟨F4, h1⟩ := h1
  obtain ⟨F5, h2⟩ := h2
  let F := max (max F1 F2) (max F3 (max F4 F5))
  have e1 := h1 F (by omega)
  have e2 := h2 F (by omega)
  unfold evaluate at e1 e2
  rw [Exc.bind_of_ok (a3 F (by omega)), h3 F F (by omega)] at e1
  rw [Exc.bind_of_ok (b3 F (by omega))] at e2
  obtain ⟨⟨ops', l⟩, e3, e1⟩ := Exc.bind_ok.1 e1
  rw [Exc.bind_of_ok e3] at e2
  have hml : s.machines = u.machines ∧ s.last = u.last := by
    have h5 : s.erase.machines = u.erase.machines := by rw [hsu]
    have h6 : s.erase.last = u.erase.last := by rw [hsu]
    exact ⟨h5, h6⟩
  have e1' := Exc.pure_ok.1 e1
  have e2' := Exc.pure_ok.1 e2
  rw [← hml.1, ← hml.2, ← hij] at e2'
  have := e1'.symm.trans e2'
  exact ⟨congrArg Prod.fst this, congrArg Prod.snd this⟩

end
end Ecrs.Jssp
