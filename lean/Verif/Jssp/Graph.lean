import Verif.Jssp.Schedule

/-!
# The disjunctive graph of a complete schedule and the computation of critical distances
-/

namespace Ecrs.Jssp
open Ecrs

/-- The machine successors `ms` and predecessors `mp` order the operations of every machine by `pos`. -/
structure Sel (S : Shop) (pos : Nat → Nat) (ms mp : Nat → Option Nat) : Prop where
  inj : ∀ u v, S.Reg u → S.Reg v → S.mach u = S.mach v → pos u = pos v → u = v
  dense : ∀ v, S.Reg v → ∀ (k : Nat), pos v = k + 1 → ∃ u, S.Reg u ∧ S.mach u = S.mach v ∧ pos u = k
  msucc : ∀ u v, ms u = some v ↔ S.Reg u ∧ S.Reg v ∧ S.mach u = S.mach v ∧ pos v = pos u + 1
  mpred : ∀ u v, mp v = some u ↔ ms u = some v

/-- `w` follows `u` directly, in its job or on its machine. -/
def Adj (S : Shop) (ms : Nat → Option Nat) (u w : Nat) : Prop := (∃ e ∈ S.je u, e.neigh = w) ∨ ms u = some w

/-- The graph has no cycle: `rk` increases along the edges. -/
structure Rank (S : Shop) (ms : Nat → Option Nat) (rk : Nat → Nat) (N : Nat) : Prop where
  lt : ∀ u w, u ≤ S.n + 1 → Adj S ms u w → rk u < rk w
  le : ∀ v, v ≤ S.n + 1 → rk v ≤ N

theorem Shop.WF.je_cases {S : Shop} (hS : S.WF) {v : Nat} (hv : v ≤ S.n + 1) {e : Edge} (he : e ∈ S.je v) :
    v ≤ S.n ∧ e.kind = .jobSucc ∧ (e.neigh = S.n + 1 ∨ (S.Reg e.neigh ∧ S.dp e.neigh = v)) := by
  by_cases h0 : v = 0
  · subst h0
    obtain ⟨h1, h2, h3⟩ := hS.je_zero e he
    exact ⟨by omega, h1, .inr ⟨h2, h3⟩⟩
  · by_cases hs : v = S.n + 1
    · rw [hs, hS.je_sink] at he; cases he
    · have hr : S.Reg v := ⟨by omega, by omega⟩
      obtain ⟨w, hw, hc⟩ := hS.je_mid v hr
      rw [hw] at he
      obtain rfl := List.mem_singleton.1 he
      exact ⟨hr.2, rfl, hc⟩

theorem SInv.sel {S : Shop} (hS : S.WF) {s : Sched} {order pos cnt rk ms mp} (h : SInv S s order pos cnt rk ms mp)
    (hg : s.g = S.n + 1) : Sel S pos ms mp ∧ ∃ rk' N, Rank S ms rk' N := by
  have hall := h.complete hg
  have hiff : ∀ v, v ∈ order ↔ S.Reg v := fun v => ⟨fun hv => ((h.mem v).1 hv).1, hall v⟩
  refine ⟨⟨?_, ?_, ?_, h.mpred⟩, fun v => if v = S.n + 1 then S.n + 2 else rk v, S.n + 2, ?_, ?_⟩
  · intro u v hu hv; exact h.pos_inj u (hall u hu) v (hall v hv)
  · intro v hv k hk
    obtain ⟨u, hu, h1, h2⟩ := h.pos_pred v (hall v hv) k hk
    exact ⟨u, (hiff u).1 hu, h1, h2⟩
  · intro u v; rw [h.msucc, hiff, hiff]
  · intro u w hu ha
    rcases ha with ⟨e, he, rfl⟩ | ha
    · obtain ⟨h1, -, h2⟩ := hS.je_cases hu he
      rw [if_neg (by omega)]
      rcases h2 with h2 | ⟨h2, h3⟩
      · rw [if_pos h2]
        by_cases h0 : u = 0
        · rw [h0, h.rk_zero]; omega
        · have := h.rk_lt u (hall u ⟨by omega, by omega⟩)
          omega
      · have := h2.2
        rw [if_neg (by omega), ← h3]
        exact h.rk_dp _ (hall _ h2)
    · obtain ⟨h1, h2, -, -⟩ := (h.msucc u w).1 ha
      have := ((hiff u).1 h1).2
      have := ((hiff w).1 h2).2
      rw [if_neg (by omega), if_neg (by omega)]
      exact h.rk_ms u w ha
  · intro v hv
    by_cases hvn : v = S.n + 1
    · rw [if_pos hvn]; exact Nat.le_refl _
    · rw [if_neg hvn]
      by_cases h0 : v = 0
      · rw [h0, h.rk_zero]; omega
      · have := h.rk_lt v (hall v ⟨by omega, by omega⟩)
        omega

/-- A new distance and critical edge for `v`. -/
def setCrit (ops : Arr Operation) (v cd : Nat) (cpe : Option Edge) : Arr Operation :=
  ⟨ops.size, fun k => if k = v then { ops.get v with criticalDistance := cd, criticalPathEdge := cpe } else ops.get k⟩

theorem maxByKey_spec {α : Type} (key : α → Nat) (b : α) (l : List α) :
    maxByKey key b l ∈ b :: l ∧ ∀ x ∈ b :: l, key x ≤ key (maxByKey key b l) := by
  induction l generalizing b with
  | nil => simp [maxByKey]
  | cons y ys ih =>
    rw [maxByKey]
    by_cases h : key y < key b
    · rw [if_pos h]
      obtain ⟨h1, h2⟩ := ih b
      refine ⟨?_, ?_⟩
      · rcases List.mem_cons.1 h1 with h1 | h1
        · rw [h1]; simp
        · simp [h1]
      · intro x hx
        rcases List.mem_cons.1 hx with rfl | hx
        · exact h2 _ (by simp)
        · rcases List.mem_cons.1 hx with rfl | hx
          · have := h2 b (by simp); omega
          · exact h2 x (by simp [hx])
    · rw [if_neg h]
      obtain ⟨h1, h2⟩ := ih y
      refine ⟨by simp only [List.mem_cons] at h1 ⊢; tauto, ?_⟩
      intro x hx
      rcases List.mem_cons.1 hx with rfl | hx
      · have := h2 y (by simp); omega
      · exact h2 x hx

/-- Distance and critical edge of `v` are right, given those of its successors. -/
def Done (ops : Arr Operation) (v : Nat) : Prop :=
  ((ops.get v).edgesOut = [] → (ops.get v).criticalDistance = (ops.get v).duration) ∧
  ((ops.get v).edgesOut ≠ [] → ∃ e ∈ (ops.get v).edgesOut, (ops.get v).criticalPathEdge = some e ∧
    (ops.get v).criticalDistance = (ops.get v).duration + (ops.get e.neigh).criticalDistance ∧
    ∀ e' ∈ (ops.get v).edgesOut, (ops.get e'.neigh).criticalDistance ≤ (ops.get e.neigh).criticalDistance) ∧
  (∀ e es, (ops.get v).edgesOut = e :: es →
    (ops.get v).criticalPathEdge = some (maxByKey (fun x : Edge => (ops.get x.neigh).criticalDistance) e es))

theorem maxByKey_congr {α : Type} {f g : α → Nat} (l : List α) : ∀ b, (∀ x ∈ b :: l, f x = g x) → maxByKey f b l = maxByKey g b l := by
  induction l with
  | nil => intro b _; rfl
  | cons y ys ih =>
    intro b h
    rw [maxByKey, maxByKey, h y (by simp), h b (by simp)]
    split
    · exact ih b fun x hx => h x (by simp only [List.mem_cons] at hx ⊢; tauto)
    · exact ih y fun x hx => h x (by simp only [List.mem_cons] at hx ⊢; tauto)

/-- What evaluation never changes, together with the finish time. -/
def static (o : Operation) : Nat × Nat × Nat × List Nat × Option Nat := (o.id, o.duration, o.machine, o.preds, o.finishTime)

/-- The fields that `calculate_critical_distance` changes, removed. -/
def erase (o : Operation) : Operation := { o with criticalPathEdge := none, criticalDistance := 0 }

theorem static_erase (o : Operation) : static (erase o) = static o := rfl

/-- Only distances and critical edges of the operations of the shop differ. -/
def Redist (S : Shop) (o o' : Arr Operation) : Prop :=
  ∀ k, erase (o'.get k) = erase (o.get k) ∧ (S.n + 1 < k → o'.get k = o.get k)

/-- Only edges, machine predecessors, distances and critical edges of the operations of the shop differ. -/
def Keeps (S : Shop) (o o' : Arr Operation) : Prop :=
  ∀ k, static (o'.get k) = static (o.get k) ∧ (S.n + 1 < k → o'.get k = o.get k)

theorem Keeps.refl {S : Shop} (o : Arr Operation) : Keeps S o o := fun _ => ⟨rfl, fun _ => rfl⟩

theorem Keeps.trans {S : Shop} {a b c : Arr Operation} (h1 : Keeps S a b) (h2 : Keeps S b c) : Keeps S a c :=
  fun k => ⟨(h2 k).1.trans (h1 k).1, fun h => ((h2 k).2 h).trans ((h1 k).2 h)⟩

theorem Redist.refl {S : Shop} (o : Arr Operation) : Redist S o o := fun _ => ⟨rfl, fun _ => rfl⟩

theorem Redist.trans {S : Shop} {a b c : Arr Operation} (h1 : Redist S a b) (h2 : Redist S b c) : Redist S a c :=
  fun k => ⟨(h2 k).1.trans (h1 k).1, fun h => ((h2 k).2 h).trans ((h1 k).2 h)⟩

theorem Redist.keeps {S : Shop} {a b : Arr Operation} (h : Redist S a b) : Keeps S a b :=
  fun k => ⟨by rw [← static_erase, (h k).1, static_erase], (h k).2⟩

theorem Redist.edges {S : Shop} {a b : Arr Operation} (h : Redist S a b) (k : Nat) : (b.get k).edgesOut = (a.get k).edgesOut := by
  have : (erase (b.get k)).edgesOut = (erase (a.get k)).edgesOut := by rw [(h k).1]
  exact this

/-- The state of the depth-first search. -/
structure DInv (S : Shop) (ms mp : Nat → Option Nat) (ops : Arr Operation) (vis : Arr Bool) : Prop where
  fits : Fits S ops ms mp
  size : vis.size = S.n + 2
  done : ∀ v, v ≤ S.n + 1 → vis.get v = true → Done ops v
  closed : ∀ v, v ≤ S.n + 1 → vis.get v = true → ∀ e ∈ (ops.get v).edgesOut, vis.get e.neigh = true

theorem pushUnvisited_ok {vis : Arr Bool} (es : List Edge) (st : List Nat) (h : ∀ e ∈ es, e.neigh < vis.size) :
    pushUnvisited vis es st = .ok (((es.filter fun e => !vis.get e.neigh).map Edge.neigh).reverse ++ st,
      es.any fun e => !vis.get e.neigh) := by
  induction es generalizing st with
  | nil => rfl
  | cons e es ih =>
    rw [pushUnvisited, Exc.bind_of_ok (Arr.at'_ok (h e (by simp)))]
    by_cases hv : vis.get e.neigh = true
    · rw [if_pos hv, ih st fun e he => h e (by simp [he])]
      simp [hv]
    · rw [if_neg hv, Exc.bind_of_ok (ih _ fun e he => h e (by simp [he]))]
      have : vis.get e.neigh = false := by simpa using hv
      simp [this, pure, Except.pure]

theorem Fits.edge_le {S : Shop} (hS : S.WF) {ops ms mp} (hf : Fits S ops ms mp) {pos} (hp : Sel S pos ms mp) {v : Nat}
    (hv : v ≤ S.n + 1) {e : Edge} (he : e ∈ (ops.get v).edgesOut) : v ≤ S.n ∧ 1 ≤ e.neigh ∧ e.neigh ≤ S.n + 1 ∧ Adj S ms v e.neigh := by
  rw [hf.edges v hv, List.mem_append] at he
  rcases he with he | he
  · obtain ⟨h1, -, h2⟩ := hS.je_cases hv he
    refine ⟨h1, ?_, ?_, .inl ⟨e, he, rfl⟩⟩
    · rcases h2 with h2 | h2
      · omega
      · exact h2.1.1
    · rcases h2 with h2 | h2
      · omega
      · have := h2.1.2; omega
  · rw [List.mem_map] at he
    obtain ⟨w, hw, rfl⟩ := he
    have hw' : ms v = some w := by simpa using hw
    obtain ⟨h1, h2, -, -⟩ := (hp.msucc v w).1 hw'
    exact ⟨h1.2, h2.1, by have := h2.2; show w ≤ _; omega, .inr hw'⟩

theorem Fits.adj_edge {S : Shop} {ops ms mp} (hf : Fits S ops ms mp) {v w : Nat}
    (hv : v ≤ S.n + 1) (h : Adj S ms v w) : ∃ e ∈ (ops.get v).edgesOut, e.neigh = w := by
  rw [hf.edges v hv]
  rcases h with ⟨e, he, rfl⟩ | h
  · exact ⟨e, by simp [he], rfl⟩
  · exact ⟨⟨w, .machineSucc⟩, by simp [h], rfl⟩

/-- The effect of `finishVertex`. -/
theorem finishVertex_ok {S : Shop} (hS : S.WF) {ms mp pos} (hp : Sel S pos ms mp) {ops : Arr Operation} {vis : Arr Bool}
    (h : DInv S ms mp ops vis) {v : Nat} (hv : v ≤ S.n + 1) (hnv : vis.get v = false)
    (hch : ∀ e ∈ (ops.get v).edgesOut, vis.get e.neigh = true) :
    ∃ ops', finishVertex ops v = .ok ops' ∧
      DInv S ms mp ops' { vis with get := fun k => if k = v then true else vis.get k } := by
  have hsz := h.fits.size
  have hne : ∀ e ∈ (ops.get v).edgesOut, e.neigh ≠ v := by
    intro e he hc; have := hch e he; rw [hc, hnv] at this; cases this
  -- a general update of `v`
  have key : ∀ (cd : Nat) (cpe : Option Edge) (ops' : Arr Operation), ops' = setCrit ops v cd cpe →
      ((ops.get v).edgesOut = [] → cpe = (ops.get v).criticalPathEdge) → Done ops' v →
      DInv S ms mp ops' { vis with get := fun k => if k = v then true else vis.get k } := by
    intro cd cpe ops' ho hcpe hd
    have heq : ∀ k, (ops'.get k).edgesOut = (ops.get k).edgesOut := by intro k; rw [ho]; unfold setCrit; simp only; split <;> simp_all
    have hother : ∀ k, k ≠ v → ops'.get k = ops.get k := by intro k hk; rw [ho]; exact if_neg hk
    have hf' := h.fits
    refine ⟨⟨by rw [ho]; exact hsz, ?_, ?_, ?_, ?_, ?_, ?_, ?_, ?_, ?_⟩, h.size, ?_, ?_⟩
    · intro w hw; have := hf'.id w hw; rw [ho]; unfold setCrit; simp only; split <;> simp_all
    · intro w hw; have := hf'.dur w hw; rw [ho]; unfold setCrit; simp only; split <;> simp_all
    · intro w hw; have := hf'.mach w hw; rw [ho]; unfold setCrit; simp only; split <;> simp_all
    · intro w hw; have := hf'.last w hw; rw [ho]; unfold setCrit; simp only; split <;> simp_all
    · intro w hw; have := hf'.sink_mem w hw; rw [ho]; unfold setCrit; simp only; split <;> simp_all
    · intro w hw; refine hf'.sink_le w ?_; rw [ho] at hw; unfold setCrit at hw; simp only at hw; split at hw <;> simp_all
    · intro w hw; rw [heq]; exact hf'.edges w hw
    · intro w hw; have := hf'.mpred w hw; rw [ho]; unfold setCrit; simp only; split <;> simp_all
    · have h1 := hf'.sink_cpe
      by_cases hvs : S.n + 1 = v
      · have h2 := hf'.edges (S.n + 1) (Nat.le_refl _)
        have h3 : ms (S.n + 1) = none := by
          cases hc : ms (S.n + 1) with
          | none => rfl
          | some w => have := ((hp.msucc _ _).1 hc).1.2; omega
        rw [hS.je_sink, h3, hvs] at h2
        have h4 := hcpe (by simpa using h2)
        rw [ho, hvs]
        show (if v = v then _ else _ : Operation).criticalPathEdge = none
        rw [if_pos rfl]
        show cpe = none
        rw [h4, ← hvs, h1]
      · rw [hother _ hvs]; exact h1
    · intro w hw hvw
      by_cases hwv : w = v
      · subst hwv; exact hd
      · simp only [if_neg hwv] at hvw
        have h1 := h.done w hw hvw
        have h2 := h.closed w hw hvw
        have hnb : ∀ e ∈ (ops.get w).edgesOut, ops'.get e.neigh = ops.get e.neigh := by
          intro e he
          refine hother _ ?_
          intro hc
          have := h2 e he
          rw [hc, hnv] at this; cases this
        refine ⟨?_, ?_, ?_⟩
        · rw [hother w hwv]; exact h1.1
        rotate_left
        · intro e es hes
          rw [hother w hwv] at hes ⊢
          rw [h1.2.2 e es hes]
          congr 1
          refine maxByKey_congr es e fun x hx => ?_
          rw [hnb x (by rw [hes]; exact hx)]
        · rw [hother w hwv]
          intro hne'
          obtain ⟨e, he, h3, h4, h5⟩ := h1.2.1 hne'
          refine ⟨e, he, h3, by rw [hnb e he]; exact h4, ?_⟩
          intro e' he'
          rw [hnb e he, hnb e' he']; exact h5 e' he'
    · intro w hw hvw e he
      rw [heq] at he
      simp only
      by_cases hev : e.neigh = v
      · rw [if_pos hev]
      · rw [if_neg hev]
        by_cases hwv : w = v
        · subst hwv; exact hch e he
        · simp only [if_neg hwv] at hvw
          exact h.closed w hw hvw e he
  unfold finishVertex
  rw [Exc.bind_of_ok (Arr.at'_ok (by omega))]
  cases hes : (ops.get v).edgesOut with
  | nil =>
    refine ⟨_, Arr.modify_ok _ (by omega), key (ops.get v).duration (ops.get v).criticalPathEdge _ rfl (fun _ => rfl) ⟨?_, ?_, ?_⟩⟩
    · intro _; simp
    · intro hc
      exact absurd (by simpa [setCrit] using hes) hc
    · intro e es hc
      simp [hes] at hc
  | cons e es =>
    have hall : allInBounds ops (e :: es) = .ok () := by
      unfold allInBounds
      rw [if_pos]
      rw [List.all_eq_true]
      intro x hx
      rw [← hes] at hx
      have := h.fits.edge_le hS hp hv hx
      simp only [decide_eq_true_eq]; omega
    obtain ⟨h1, h2⟩ := maxByKey_spec (fun x : Edge => (ops.get x.neigh).criticalDistance) e es
    refine ⟨_, (Exc.bind_of_ok hall).trans (Arr.modify_ok _ (by omega)), ?_⟩
    refine key _ _ _ rfl (by intro hc; rw [hes] at hc; cases hc) ⟨?_, ?_, ?_⟩
    rotate_left 2
    · intro e1 es1 hc
      have hc' : e :: es = e1 :: es1 := by
        have : (ops.get v).edgesOut = e1 :: es1 := by simpa [setCrit] using hc
        rw [← this, hes]
      cases hc'
      show (if v = v then _ else _ : Operation).criticalPathEdge = _
      rw [if_pos rfl]
      show some _ = some _
      congr 1
      refine maxByKey_congr es e fun x hx => ?_
      show _ = (if x.neigh = v then _ else _ : Operation).criticalDistance
      rw [if_neg (hne x (by rw [hes]; exact hx))]
    · intro hc
      simp only [if_true] at hc
      rw [hes] at hc; cases hc
    · intro _
      simp only [if_true]
      rw [hes]
      have hcp : (maxByKey (fun x : Edge => (ops.get x.neigh).criticalDistance) e es).neigh ≠ v :=
        hne _ (by rw [hes]; exact h1)
      refine ⟨_, h1, rfl, by rw [if_neg hcp], ?_⟩
      intro e' he'
      rw [if_neg hcp, if_neg (hne e' (by rw [hes]; exact he'))]
      exact h2 e' he'

/-- The search, from the vertices `L` on top of the stack until they are gone. -/
def Runs (S : Shop) (ms mp : Nat → Option Nat) (ops : Arr Operation) (vis : Arr Bool) (L : List Nat) : Prop :=
  ∃ ops' vis' c, (∀ st fuel, dfs (fuel + c) ops vis (L ++ st) = dfs fuel ops' vis' st) ∧ DInv S ms mp ops' vis' ∧
    (∀ v, vis.get v = true → vis'.get v = true) ∧ (∀ v ∈ L, vis'.get v = true) ∧
    Redist S ops ops'

theorem runs_list {S : Shop} {ms mp} (L : List Nat)
    (h : ∀ v ∈ L, ∀ ops vis, DInv S ms mp ops vis → Runs S ms mp ops vis [v]) :
    ∀ ops vis, DInv S ms mp ops vis → Runs S ms mp ops vis L := by
  induction L with
  | nil => intro ops vis hd; exact ⟨ops, vis, 0, fun _ _ => rfl, hd, fun _ h => h, by simp, Redist.refl _⟩
  | cons v L ih =>
    intro ops vis hd
    obtain ⟨o1, v1, c1, h1, h2, h3, h4, h5⟩ := h v (by simp) ops vis hd
    obtain ⟨o2, v2, c2, h6, h7, h8, h9, h10⟩ := ih (fun w hw => h w (by simp [hw])) o1 v1 h2
    refine ⟨o2, v2, c2 + c1, ?_, h7, fun w hw => h8 w (h3 w hw), ?_, h5.trans h10⟩
    · intro st fuel
      rw [show v :: L ++ st = [v] ++ (L ++ st) by simp, ← Nat.add_assoc, h1, h6]
    · intro w hw
      rcases List.mem_cons.1 hw with rfl | hw
      · exact h8 w (h4 w (by simp))
      · exact h9 w hw

theorem finishVertex_keeps {S : Shop} {ops ops' : Arr Operation} {v : Nat} (hv : v ≤ S.n + 1)
    (h : finishVertex ops v = .ok ops') : Redist S ops ops' := by
  intro k
  unfold finishVertex at h
  obtain ⟨o, ho, h⟩ := Exc.bind_ok.1 h
  split at h
  · unfold Arr.modify at h
    split at h
    · cases h
      refine ⟨?_, fun hk => if_neg (by omega)⟩
      by_cases hkv : k = v
      · subst hkv; simp [erase]
      · simp [hkv]
    · cases h
  · obtain ⟨-, -, h⟩ := Exc.bind_ok.1 h
    unfold Arr.modify at h
    split at h
    · cases h
      refine ⟨?_, fun hk => if_neg (by omega)⟩
      by_cases hkv : k = v
      · subst hkv; simp [erase]
      · simp [hkv]
    · cases h

theorem runs_one {S : Shop} (hS : S.WF) {ms mp pos} (hp : Sel S pos ms mp) {rk N} (hr : Rank S ms rk N) :
    ∀ (d v : Nat), v ≤ S.n + 1 → N - rk v = d → ∀ ops vis, DInv S ms mp ops vis → Runs S ms mp ops vis [v] := by
  intro d
  induction d using Nat.strongRecOn with
  | _ d ih =>
    intro v hv hd ops vis h
    have hsz := h.fits.size
    have hvs := h.size
    by_cases hvv : vis.get v = true
    · refine ⟨ops, vis, 1, ?_, h, fun _ h => h, by simpa using hvv, Redist.refl _⟩
      intro st fuel
      show dfs (fuel + 1) ops vis (v :: st) = _
      rw [dfs, Exc.bind_of_ok (Arr.at'_ok (by omega)), if_pos hvv]
    · have hvf : vis.get v = false := by simpa using hvv
      -- visiting `v` once all its successors are visited
      have hfin : ∀ ops vis, DInv S ms mp ops vis → vis.get v = false →
          (∀ e ∈ (ops.get v).edgesOut, vis.get e.neigh = true) → Runs S ms mp ops vis [v] := by
        intro ops vis h hvf hch
        obtain ⟨ops', h1, h2⟩ := finishVertex_ok hS hp h hv hvf hch
        refine ⟨ops', _, 1, ?_, h2, ?_, by simp, finishVertex_keeps hv h1⟩
        · intro st fuel
          have hvs := h.size
          have hsz := h.fits.size
          show dfs (fuel + 1) ops vis (v :: st) = _
          rw [dfs, Exc.bind_of_ok (Arr.at'_ok (by omega)), if_neg (by rw [hvf]; decide)]
          have hany : ((ops.get v).edgesOut.any fun e => !vis.get e.neigh) = false := by
            rw [List.any_eq_false]; intro e he; rw [hch e he]; decide
          have : dfsVisit ops vis v st = .ok (ops', { vis with get := fun k => if k = v then true else vis.get k }, st) := by
            unfold dfsVisit
            rw [Exc.bind_of_ok (Arr.at'_ok (by omega)), Exc.bind_of_ok (pushUnvisited_ok _ _ (by
              intro e he; have := h.fits.edge_le hS hp hv he; omega))]
            simp only [hany]
            rw [if_neg (by decide), Exc.bind_of_ok (Arr.modify_ok _ (by omega)), Exc.bind_of_ok h1]
            rfl
          rw [Exc.bind_of_ok this]
        · intro w hw
          simp only
          split
          · rfl
          · exact hw
      by_cases hany : ((ops.get v).edgesOut.any fun e => !vis.get e.neigh) = true
      · -- the children first
        obtain ⟨L, hL⟩ : ∃ L, (((ops.get v).edgesOut.filter fun e => !vis.get e.neigh).map Edge.neigh).reverse = L := ⟨_, rfl⟩
        have hLm : ∀ w, w ∈ L ↔ ∃ e ∈ (ops.get v).edgesOut, vis.get e.neigh = false ∧ e.neigh = w := by
          intro w
          rw [← hL, List.mem_reverse, List.mem_map]
          constructor
          · rintro ⟨e, he, rfl⟩
            rw [List.mem_filter] at he
            exact ⟨e, he.1, by simpa using he.2, rfl⟩
          · rintro ⟨e, he, he2, rfl⟩
            exact ⟨e, List.mem_filter.2 ⟨he, by simp [he2]⟩, rfl⟩
        obtain ⟨o1, v1, c1, h1, h2, h3, h4, h5⟩ := runs_list L (by
          intro w hw o' vi' hd'
          obtain ⟨e, he, -, rfl⟩ := (hLm w).1 hw
          obtain ⟨h6, h7, h8, h9⟩ := h.fits.edge_le hS hp hv he
          have h10 := hr.lt v e.neigh hv h9
          have h11 := hr.le e.neigh h8
          exact ih (N - rk e.neigh) (by omega) e.neigh h8 rfl o' vi' hd') ops vis h
        have hkids : ∀ e ∈ (o1.get v).edgesOut, v1.get e.neigh = true := by
          intro e he
          rw [h5.edges v] at he
          cases hc : vis.get e.neigh with
          | true => exact h3 _ hc
          | false => exact h4 _ ((hLm _).2 ⟨e, he, hc, rfl⟩)
        obtain ⟨o2, v2, c2, h6, h7, h8, h9, h10⟩ : Runs S ms mp o1 v1 [v] := by
          by_cases hc : v1.get v = true
          · refine ⟨o1, v1, 1, ?_, h2, fun _ h => h, by simpa using hc, Redist.refl _⟩
            intro st fuel
            have := h2.size
            show dfs (fuel + 1) o1 v1 (v :: st) = _
            rw [dfs, Exc.bind_of_ok (Arr.at'_ok (by omega)), if_pos hc]
          · exact hfin o1 v1 h2 (by simpa using hc) hkids
        refine ⟨o2, v2, c2 + c1 + 1, ?_, h7, fun w hw => h8 w (h3 w hw), h9,
          h5.trans h10⟩
        intro st fuel
        show dfs (fuel + (c2 + c1) + 1) ops vis (v :: st) = _
        rw [dfs, Exc.bind_of_ok (Arr.at'_ok (by omega)), if_neg hvv]
        have : dfsVisit ops vis v st = .ok (ops, vis, L ++ (v :: st)) := by
          unfold dfsVisit
          rw [Exc.bind_of_ok (Arr.at'_ok (by omega)), Exc.bind_of_ok (pushUnvisited_ok _ _ (by
            intro e he; have := h.fits.edge_le hS hp hv he; omega))]
          simp only [hany, hL]
          rfl
        rw [Exc.bind_of_ok this]
        show dfs (fuel + (c2 + c1)) ops vis (L ++ ([v] ++ st)) = _
        rw [← Nat.add_assoc, h1, h6]
      · refine hfin ops vis h hvf ?_
        intro e he
        have hany' : ((ops.get v).edgesOut.any fun e => !vis.get e.neigh) = false := by simpa using hany
        rw [List.any_eq_false] at hany'
        simpa using hany' e he

/-- All distances are right. -/
def AllDone (S : Shop) (ops : Arr Operation) : Prop := ∀ v, v ≤ S.n + 1 → Done ops v

theorem makespan_ok {S : Shop} (hS : S.WF) {ms mp pos} (hp : Sel S pos ms mp) {rk N} (hr : Rank S ms rk N)
    {ops : Arr Operation} (hf : Fits S ops ms mp) :
    ∃ ops', (∃ F, ∀ fuel, F ≤ fuel → makespan fuel ops = .ok (ops', (ops'.get 0).criticalDistance)) ∧
      Fits S ops' ms mp ∧ AllDone S ops' ∧ Redist S ops ops' := by
  have hsz := hf.size
  obtain ⟨ops', vis', c, h1, h2, -, h4, h5⟩ := runs_one hS hp hr _ 0 (by omega) rfl ops ⟨ops.size, fun _ => false⟩
    ⟨hf, hsz, by intro v _ hc; simp at hc, by intro v _ hc; simp at hc⟩
  have hvis0 := h4 0 (by simp)
  have hreg : ∀ v, v ≤ S.n → vis'.get v = true := by
    intro v
    induction v using Nat.strongRecOn with
    | _ v ih =>
      intro hv
      by_cases h0 : v = 0
      · rw [h0]; exact hvis0
      · have hr' : S.Reg v := ⟨by omega, hv⟩
        have hlt := hS.dp_lt v hr'
        obtain ⟨e, he, rfl⟩ := h2.fits.adj_edge (v := S.dp v) (w := v) (by omega) (.inl ⟨_, hS.je_dp v hr', rfl⟩)
        exact h2.closed (S.dp e.neigh) (by omega) (ih _ hlt (by omega)) e he
  have hall : ∀ v, v ≤ S.n + 1 → vis'.get v = true := by
    intro v hv
    by_cases hvn : v ≤ S.n
    · exact hreg v hvn
    · have hv' : v = S.n + 1 := by omega
      have hn : S.Reg S.n := ⟨hS.pos, Nat.le_refl _⟩
      obtain ⟨w, hw, hc⟩ := hS.je_mid S.n hn
      have hw' : w = S.n + 1 := by
        rcases hc with hc | ⟨hc1, hc2⟩
        · exact hc
        · have := hS.dp_lt w hc1; have := hc1.2; omega
      obtain ⟨e, he, hew⟩ := h2.fits.adj_edge (v := S.n) (w := v) (by omega) (.inl ⟨⟨w, .jobSucc⟩, by rw [hw]; simp, by
        show w = v; omega⟩)
      rw [← hew]
      exact h2.closed S.n (by omega) (hreg _ (Nat.le_refl _)) e he
  refine ⟨ops', ⟨c, ?_⟩, h2.fits, fun v hv => h2.done v hv (hall v hv), h5⟩
  intro fuel hfu
  obtain ⟨k, rfl⟩ := Nat.exists_eq_add_of_le' hfu
  have hcp : criticalPath (k + c) ops = .ok ops' := by
    unfold criticalPath
    have := h1 [] k
    rw [List.append_nil] at this
    rw [this]
    cases k <;> rfl
  unfold makespan
  rw [Exc.bind_of_ok hcp, Exc.bind_of_ok (Arr.at'_ok (by rw [h2.fits.size]; omega))]
  rfl

end Ecrs.Jssp
