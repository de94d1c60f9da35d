import Verif.Jssp.Swap
import Mathlib.Data.List.Chain

/-!
# The local search: it terminates, keeps the machine orders acyclic and returns the length of a longest path
-/

namespace Ecrs.Jssp
open Ecrs

/-- The pair is joined by a critical machine edge. -/
def CritPair (S : Shop) (ops : Arr Operation) (u v : Nat) : Prop :=
  S.Reg u ∧ (ops.get u).criticalPathEdge = some ⟨v, .machineSucc⟩

theorem Done.edge {S : Shop} {ops ms mp} (hf : Fits S ops ms mp) (hd : AllDone S ops) {v : Nat}
    (hv : v ≤ S.n + 1) {w : Nat} (ha : Adj S ms v w) :
    S.dur v + (ops.get w).criticalDistance ≤ (ops.get v).criticalDistance := by
  obtain ⟨e, he, rfl⟩ := hf.adj_edge hv ha
  obtain ⟨e', -, -, h2, h3⟩ := (hd v hv).2.1 (by intro hc; rw [hc] at he; cases he)
  have := h3 e he
  rw [h2, hf.dur v hv]
  omega

theorem crit_edge {S : Shop} (hS : S.WF) {ops ms mp pos} (hp : Sel S pos ms mp) (hf : Fits S ops ms mp) (hd : AllDone S ops) {v : Nat}
    (hv : v ≤ S.n) : ∃ e ∈ (ops.get v).edgesOut, (ops.get v).criticalPathEdge = some e ∧ 1 ≤ e.neigh ∧ e.neigh ≤ S.n + 1 ∧
      Adj S ms v e.neigh ∧ (∀ w, Adj S ms v w → (ops.get w).criticalDistance ≤ (ops.get e.neigh).criticalDistance) ∧
      (ops.get v).criticalDistance = S.dur v + (ops.get e.neigh).criticalDistance := by
  have hne : (ops.get v).edgesOut ≠ [] := by
    rw [hf.edges v (by omega)]
    by_cases h0 : v = 0
    · have h1 : S.Reg 1 := ⟨Nat.le_refl _, hS.pos⟩
      have h2 := hS.dp_lt 1 h1
      have h3 := hS.je_dp 1 h1
      rw [show S.dp 1 = 0 by omega, ← h0] at h3
      intro hc
      rw [List.append_eq_nil_iff] at hc
      rw [hc.1] at h3; cases h3
    · obtain ⟨w, hw, -⟩ := hS.je_mid v ⟨by omega, hv⟩
      rw [hw]; simp
  obtain ⟨e, he, h1, h2, h3⟩ := (hd v (by omega)).2.1 hne
  obtain ⟨-, h4, h5, h6⟩ := hf.edge_le hS hp (v := v) (by omega) he
  refine ⟨e, he, h1, h4, h5, h6, ?_, ?_⟩
  · intro w hw
    obtain ⟨e', he', rfl⟩ := hf.adj_edge (by omega) hw
    exact h3 e' he'
  · rw [h2, hf.dur v (by omega)]

theorem CritPair.spec {S : Shop} (hS : S.WF) {ops ms mp pos} (hp : Sel S pos ms mp) (hf : Fits S ops ms mp) (hd : AllDone S ops) {u v : Nat}
    (h : CritPair S ops u v) : ms u = some v ∧ ∀ w, Adj S ms u w → (ops.get w).criticalDistance ≤ (ops.get v).criticalDistance := by
  obtain ⟨hu, hc⟩ := h
  have hun := hu.2
  obtain ⟨e, he, h1, -, -, -, h2, -⟩ := crit_edge hS hp hf hd hu.2
  rw [hc] at h1
  obtain rfl := Option.some.inj h1
  refine ⟨?_, h2⟩
  rw [hf.edges u (by omega), List.mem_append] at he
  rcases he with he | he
  · have := (hS.je_cases (by omega) he).2.1
    cases this
  · rw [List.mem_map] at he
    obtain ⟨w, hw, he⟩ := he
    cases he
    simpa using hw

/-- The blocks of a critical path from `v` to the sink: the path changes from one block to the next along job edges, and follows
machine edges within a block. -/
inductive CBlocks (S : Shop) (ms : Nat → Option Nat) (ops : Arr Operation) : Nat → List (List Nat) → Prop where
  | last {v} : S.Reg v → (ops.get v).criticalDistance = S.dur v → (∃ e ∈ S.je v, e.neigh = S.n + 1) → CBlocks S ms ops v [[v]]
  | job {v w b bs} : S.Reg v → S.Reg w → S.dp w = v →
      (ops.get v).criticalDistance = S.dur v + (ops.get w).criticalDistance → CBlocks S ms ops w (b :: bs) →
      CBlocks S ms ops v ([v] :: b :: bs)
  | mach {v w b bs} : S.Reg v → S.Reg w → ms v = some w → CritPair S ops v w →
      (ops.get v).criticalDistance = S.dur v + (ops.get w).criticalDistance → CBlocks S ms ops w (b :: bs) →
      CBlocks S ms ops v ((v :: b) :: bs)

theorem CBlocks.head {S : Shop} {ms ops v bs} (h : CBlocks S ms ops v bs) : ∃ t cs, bs = (v :: t) :: cs := by
  cases h <;> exact ⟨_, _, rfl⟩

theorem CBlocks.reg {S : Shop} {ms ops v bs} (h : CBlocks S ms ops v bs) : S.Reg v := by
  cases h <;> assumption

theorem CBlocks.chain {S : Shop} {ms ops v bs} (h : CBlocks S ms ops v bs) : ∀ b ∈ bs, List.IsChain (CritPair S ops) b := by
  induction h with
  | last => simp
  | job _ _ _ _ _ ih =>
    intro c hc
    rcases List.mem_cons.1 hc with rfl | hc
    · simp
    · exact ih c hc
  | @mach v w b bs _ _ _ hp _ h ih =>
    intro c hc
    rcases List.mem_cons.1 hc with rfl | hc
    · obtain ⟨t, cs, e⟩ := h.head
      cases e
      rw [List.isChain_cons_cons]
      exact ⟨hp, ih _ (by simp)⟩
    · exact ih c (by simp [hc])

theorem sink_cd {S : Shop} (hS : S.WF) {ops ms mp pos} (hp : Sel S pos ms mp) (hf : Fits S ops ms mp) (hd : AllDone S ops) :
    (ops.get (S.n + 1)).criticalDistance = 0 := by
  have h6 : (ops.get (S.n + 1)).edgesOut = [] := by
    rw [hf.edges _ (Nat.le_refl _), hS.je_sink]
    cases hms : ms (S.n + 1) with
    | none => rfl
    | some w =>
      have := ((hp.msucc _ _).1 hms).1.2
      omega
  rw [(hd _ (Nat.le_refl _)).1 h6, hf.dur _ (Nat.le_refl _), hS.dur_sink]

theorem blocksFrom_ok {S : Shop} (hS : S.WF) {ops ms mp pos} (hp : Sel S pos ms mp) {rk N} (hr : Rank S ms rk N)
    (hf : Fits S ops ms mp) (hd : AllDone S ops) :
    ∀ (d v : Nat), S.Reg v → N - rk v = d →
      ∃ bs, (∃ F, ∀ fuel, F ≤ fuel → blocksFrom ops fuel v = .ok (bs ++ [[]])) ∧ CBlocks S ms ops v bs := by
  intro d
  induction d using Nat.strongRecOn with
  | _ d ih =>
    intro v hv hdv
    have hsz := hf.size
    have hvn := hv.2
    obtain ⟨e, he, h1, h2, h3, h4, -, hcd⟩ := crit_edge hS hp hf hd hv.2
    have h5 := hr.lt v e.neigh (by omega) h4
    have h6 := hr.le e.neigh h3
    have step : ∀ (F : Nat) (L : List (List Nat)), (∀ fuel, F ≤ fuel → blocksFrom ops fuel e.neigh = .ok L) →
        ∀ fuel, F + 1 ≤ fuel → blocksFrom ops fuel v = .ok (consBlock v (if e.kind = .jobSucc then [] :: L else L)) := by
      intro F L hF fuel hfu
      obtain ⟨k, rfl⟩ := Nat.exists_eq_add_of_le' hfu
      show blocksFrom ops (k + F + 1) v = _
      rw [blocksFrom, Exc.bind_of_ok (Arr.at'_ok (by omega)), h1]
      show (blocksFrom ops (k + F) e.neigh >>= _) = _
      rw [Exc.bind_of_ok (hF _ (by omega)), hf.id v (by omega)]
      rfl
    have hcase : (e.kind = .jobSucc ∧ e ∈ S.je v) ∨ (e.kind = .machineSucc ∧ ms v = some e.neigh) := by
      rw [hf.edges v (by omega), List.mem_append] at he
      rcases he with he | he
      · exact .inl ⟨(hS.je_cases (by omega) he).2.1, he⟩
      · rw [List.mem_map] at he
        obtain ⟨w, hw, he⟩ := he
        subst he
        exact .inr ⟨rfl, by simpa using hw⟩
    by_cases hs : e.neigh = S.n + 1
    · have hj : e.kind = .jobSucc ∧ e ∈ S.je v := by
        rcases hcase with h | ⟨-, h⟩
        · exact h
        · have := ((hp.msucc _ _).1 h).2.1.2
          omega
      refine ⟨[[v]], ⟨2, ?_⟩, .last hv ?_ ⟨e, hj.2, hs⟩⟩
      · intro fuel hfu
        rw [step 1 [[]] ?_ fuel hfu, if_pos hj.1]
        · rfl
        · intro fuel hfu
          obtain ⟨k, rfl⟩ := Nat.exists_eq_add_of_le' hfu
          rw [blocksFrom, Exc.bind_of_ok (Arr.at'_ok (by omega)), hs, hf.sink_cpe]
          rfl
      · rw [hcd, hs, sink_cd hS hp hf hd]; rfl
    · have hreg : S.Reg e.neigh := ⟨h2, by omega⟩
      obtain ⟨bs, ⟨F, hF⟩, h7⟩ := ih (N - rk e.neigh) (by omega) e.neigh hreg rfl
      obtain ⟨t, cs, rfl⟩ := h7.head
      rcases hcase with ⟨hk, hj⟩ | ⟨hk, hm⟩
      · have hdp : S.dp e.neigh = v := by
          rcases (hS.je_cases (by omega) hj).2.2 with h | h
          · exact absurd h hs
          · exact h.2
        refine ⟨[v] :: (e.neigh :: t) :: cs, ⟨F + 1, fun fuel hfu => ?_⟩, .job hv hreg hdp hcd h7⟩
        rw [step F _ hF fuel hfu, if_pos hk]; rfl
      · refine ⟨(v :: e.neigh :: t) :: cs, ⟨F + 1, fun fuel hfu => ?_⟩, .mach hv hreg hm ⟨hv, ?_⟩ hcd h7⟩
        · rw [step F _ hF fuel hfu, if_neg (by rw [hk]; decide)]; rfl
        · rw [h1, ← hk]

theorem criticalBlocks_ok {S : Shop} (hS : S.WF) {ops ms mp pos} (hp : Sel S pos ms mp) {rk N} (hr : Rank S ms rk N)
    (hf : Fits S ops ms mp) (hd : AllDone S ops) :
    ∃ bs v, (∃ F, ∀ fuel, F ≤ fuel → criticalBlocks fuel ops = .ok bs) ∧ CBlocks S ms ops v bs ∧ S.dp v = 0 ∧
      (ops.get v).criticalDistance = (ops.get 0).criticalDistance := by
  obtain ⟨e, he, h1, h2, h3, h4, -, h6⟩ := crit_edge hS hp hf hd (v := 0) (by omega)
  have hz : S.Reg e.neigh ∧ S.dp e.neigh = 0 := by
    rcases h4 with ⟨e', he', h⟩ | h
    · have := (hS.je_zero e' he').2
      rw [h] at this
      exact this
    · have := ((hp.msucc _ _).1 h).1.1
      omega
  obtain ⟨bs, ⟨F, hF⟩, h5⟩ := blocksFrom_ok hS hp hr hf hd _ e.neigh hz.1 rfl
  refine ⟨bs, e.neigh, ⟨F, ?_⟩, h5, hz.2, by rw [h6, hS.dur_zero]; omega⟩
  intro fuel hfu
  unfold criticalBlocks
  rw [Exc.bind_of_ok (Arr.at'_ok (by rw [hf.size]; omega)), h1]
  show (blocksFrom ops fuel e.neigh >>= _) = _
  rw [Exc.bind_of_ok (hF fuel hfu)]
  show Except.ok ((bs ++ [[]]).dropLast) = _
  rw [List.dropLast_concat]

/-- The distances are determined by the machine order. -/
theorem cd_unique {S : Shop} (hS : S.WF) {ms mp pos} (hp : Sel S pos ms mp) {rk N} (hr : Rank S ms rk N)
    {o1 o2 : Arr Operation} (hf1 : Fits S o1 ms mp) (hd1 : AllDone S o1) (hf2 : Fits S o2 ms mp) (hd2 : AllDone S o2) :
    ∀ v, v ≤ S.n + 1 → (o1.get v).criticalDistance = (o2.get v).criticalDistance := by
  have key : ∀ (d v : Nat), v ≤ S.n + 1 → N - rk v = d →
      (o1.get v).criticalDistance = (o2.get v).criticalDistance := by
    intro d
    induction d using Nat.strongRecOn with
    | _ d ih =>
      intro v hv hd
      have he : (o1.get v).edgesOut = (o2.get v).edgesOut := by rw [hf1.edges v hv, hf2.edges v hv]
      have hnb : ∀ e ∈ (o1.get v).edgesOut, (o1.get e.neigh).criticalDistance = (o2.get e.neigh).criticalDistance := by
        intro e hm
        obtain ⟨-, -, h1, h2⟩ := hf1.edge_le hS hp hv hm
        have h3 := hr.lt v _ hv h2
        have h4 := hr.le _ h1
        exact ih (N - rk e.neigh) (by omega) e.neigh h1 rfl
      by_cases hn : (o1.get v).edgesOut = []
      · rw [(hd1 v hv).1 hn, (hd2 v hv).1 (by rw [← he]; exact hn), hf1.dur v hv, hf2.dur v hv]
      · obtain ⟨e1, m1, -, a1, b1⟩ := (hd1 v hv).2.1 hn
        obtain ⟨e2, m2, -, a2, b2⟩ := (hd2 v hv).2.1 (by rw [← he]; exact hn)
        rw [← he] at m2 b2
        have c1 := b1 e2 m2
        have c2 := b2 e1 m1
        rw [← hnb e1 m1, ← hnb e2 m2] at c2
        rw [a1, a2, hf1.dur v hv, hf2.dur v hv, ← hnb e2 m2]
        omega
  intro v hv
  exact key _ v hv rfl

/-- `ops` carries the machine order `pos` (`ms`, `mp`), without cycles, and the longest path through its graph has length `l`. -/
def CarriesAs (S : Shop) (pos : Nat → Nat) (ms mp : Nat → Option Nat) (ops : Arr Operation) (l : Nat) : Prop :=
  ∃ rk N, Sel S pos ms mp ∧ Rank S ms rk N ∧ Fits S ops ms mp ∧
    ∃ opsD, Fits S opsD ms mp ∧ AllDone S opsD ∧ (opsD.get 0).criticalDistance = l

/-- `ops` carries a machine order without cycles, and the longest path through its graph has length `l`. -/
def Carries (S : Shop) (ops : Arr Operation) (l : Nat) : Prop := ∃ pos ms mp, CarriesAs S pos ms mp ops l

/-- A sequence of exchanges of machine neighbours, each of which shortens the longest path, leads from the one order to the other. -/
inductive Descends (S : Shop) : (Nat → Nat) → (Nat → Option Nat) → (Nat → Option Nat) → Nat →
    (Nat → Nat) → (Nat → Option Nat) → (Nat → Option Nat) → Nat → Prop where
  | refl (pos ms mp c) : Descends S pos ms mp c pos ms mp c
  | step {pos ms mp c u v ops c' pos' ms' mp' l} : ms u = some v → c' < c →
      CarriesAs S (swapPos pos u v) (swapMs ms mp u v) (swapMp ms mp u v) ops c' →
      Descends S (swapPos pos u v) (swapMs ms mp u v) (swapMp ms mp u v) c' pos' ms' mp' l → Descends S pos ms mp c pos' ms' mp' l

/-- Exchanging `u` and its machine successor `v` gives an acyclic graph whose longest path is not shorter than `c`. -/
def NoGain (S : Shop) (pos : Nat → Nat) (ms mp : Nat → Option Nat) (c u v : Nat) : Prop :=
  ms u = some v ∧ ∃ rk N ops, Sel S (swapPos pos u v) (swapMs ms mp u v) (swapMp ms mp u v) ∧ Rank S (swapMs ms mp u v) rk N ∧
    Fits S ops (swapMs ms mp u v) (swapMp ms mp u v) ∧ AllDone S ops ∧ c ≤ (ops.get 0).criticalDistance

/-- No exchange at the front of a block (other than the first of all) or at the back of one (other than the last) helps. -/
def NoMove (S : Shop) (pos : Nat → Nat) (ms mp : Nat → Option Nat) (c : Nat) (first : Bool) (bs : List (List Nat)) : Prop :=
  ∀ pre b post, bs = pre ++ b :: post →
    ((first = false ∨ pre ≠ []) → ∀ u v t, b = u :: v :: t → NoGain S pos ms mp c u v) ∧
    (post ≠ [] → ∀ t u v, b = t ++ [u, v] → NoGain S pos ms mp c u v)

/-- `ops` carries the machine order `pos`, without cycles, whose longest path has length `l`, and no exchange at a block boundary of a
critical path leads to a shorter one. -/
def LocOptAs (S : Shop) (pos : Nat → Nat) (ms mp : Nat → Option Nat) (ops : Arr Operation) (l : Nat) : Prop :=
  ∃ rk N, Sel S pos ms mp ∧ Rank S ms rk N ∧ Fits S ops ms mp ∧
    ∃ opsD, Fits S opsD ms mp ∧ AllDone S opsD ∧ (opsD.get 0).criticalDistance = l ∧
      ∃ v bs, CBlocks S ms opsD v bs ∧ S.dp v = 0 ∧ (opsD.get v).criticalDistance = l ∧ NoMove S pos ms mp l true bs

/-- As before, for some machine order. -/
def LocOpt (S : Shop) (ops : Arr Operation) (l : Nat) : Prop := ∃ pos ms mp, LocOptAs S pos ms mp ops l

theorem LocOpt.carries {S : Shop} {ops l} (h : LocOpt S ops l) : Carries S ops l := by
  obtain ⟨pos, ms, mp, rk, N, h1, h2, h3, o, h4, h5, h6, -⟩ := h
  exact ⟨pos, ms, mp, rk, N, h1, h2, h3, o, h4, h5, h6⟩

/-- `ops` carries the machine order that arises from `pos` by the exchange of two machine neighbours, with longest path `l`. -/
def Better (S : Shop) (pos : Nat → Nat) (ms mp : Nat → Option Nat) (ops : Arr Operation) (l : Nat) : Prop :=
  ∃ u v, ms u = some v ∧ CarriesAs S (swapPos pos u v) (swapMs ms mp u v) (swapMp ms mp u v) ops l

section
variable {S : Shop} (hS : S.WF) (hA : S.Alternating) (hD : ∀ v, S.Reg v → 0 < S.dur v)
  {ms mp : Nat → Option Nat} {pos : Nat → Nat} (hp : Sel S pos ms mp) {rk : Nat → Nat} {N : Nat} (hr : Rank S ms rk N)
  {ops0 : Arr Operation} (hf0 : Fits S ops0 ms mp) (hd0 : AllDone S ops0)
include hS hA hD hp hr hf0 hd0

/-- One trial: either an improvement with a new machine order, or nothing but the distances has changed. -/
theorem trySwap_ok {u v : Nat} (huv : CritPair S ops0 u v) {ops : Arr Operation} (hf : Fits S ops ms mp) (crt : Nat) :
    ∃ ops' l b, (∃ F, ∀ fuel, F ≤ fuel → trySwap fuel ops crt u v = .ok (ops', l, b)) ∧
      (b = true → l < crt ∧ Better S pos ms mp ops' l) ∧ (b = false → l = crt ∧ Fits S ops' ms mp ∧ NoGain S pos ms mp crt u v) ∧
      Keeps S ops ops' := by
  obtain ⟨h1, h2⟩ := huv.spec hS hp hf0 hd0
  obtain ⟨rk', N', hr'⟩ := swap_rank hS hA hD hp hr (cd := fun x => (ops0.get x).criticalDistance)
    (fun x y hx ha => Done.edge hf0 hd0 (by omega) ha) h1 h2
  have hp' := swap_sel hp h1
  obtain ⟨o1, h3, h4, ft1⟩ := swapOps_ok hS hp hf h1
  obtain ⟨o2, ⟨F, h5⟩, h6, h7, rd2⟩ := makespan_ok hS hp' hr' h4
  have ft2 := rd2.keeps
  obtain ⟨h8, h9, h10⟩ := swap_swap hp h1
  by_cases hlt : (o2.get 0).criticalDistance < crt
  · refine ⟨o2, _, true, ⟨F, ?_⟩, fun _ => ⟨hlt, u, v, h1, _, _, hp', hr', h6, o2, h6, h7, rfl⟩, (by intro h; cases h),
      ft1.trans ft2⟩
    intro fuel hfu
    unfold trySwap
    rw [Exc.bind_of_ok h3, Exc.bind_of_ok (h5 fuel hfu)]
    show (if _ then _ else _) = _
    rw [if_pos hlt]; rfl
  · obtain ⟨o3, h11, h12, ft3⟩ := swapOps_ok hS hp' h6 h8
    rw [h9, h10] at h12
    refine ⟨o3, crt, false, ⟨F, ?_⟩, (by intro h; cases h), fun _ => ⟨rfl, h12, h1, _, _, o2, hp', hr', h6, h7, by omega⟩,
      (ft1.trans ft2).trans ft3⟩
    intro fuel hfu
    unfold trySwap
    rw [Exc.bind_of_ok h3, Exc.bind_of_ok (h5 fuel hfu)]
    show (if _ then _ else _) = _
    rw [if_neg hlt, Exc.bind_of_ok h11]; rfl

theorem tryFront_ok {block : List Nat} (hb : List.IsChain (CritPair S ops0) block) (first : Bool)
    {ops : Arr Operation} (hf : Fits S ops ms mp) (crt : Nat) :
    ∃ ops' l b, (∃ F, ∀ fuel, F ≤ fuel → tryFront fuel ops crt first block = .ok (ops', l, b)) ∧
      (b = true → l < crt ∧ Better S pos ms mp ops' l) ∧ (b = false → l = crt ∧ Fits S ops' ms mp ∧ (first = false → ∀ u v t, block = u :: v :: t → NoGain S pos ms mp crt u v)) ∧
      Keeps S ops ops' := by
  have hskip : (first = true ∨ ∀ u v t, block ≠ u :: v :: t) →
      ∃ ops' l b, (∃ F, ∀ fuel, F ≤ fuel → (.ok (ops, crt, false) : Except Panic _) = .ok (ops', l, b)) ∧
      (b = true → l < crt ∧ Better S pos ms mp ops' l) ∧ (b = false → l = crt ∧ Fits S ops' ms mp ∧
        (first = false → ∀ u v t, block = u :: v :: t → NoGain S pos ms mp crt u v)) ∧ Keeps S ops ops' := fun hn =>
    ⟨ops, crt, false, ⟨0, fun _ _ => rfl⟩, (by intro h; cases h), fun _ => ⟨rfl, hf, fun hf' u v t hb' => by
      rcases hn with hn | hn
      · rw [hn] at hf'; cases hf'
      · exact absurd hb' (hn u v t)⟩, Keeps.refl _⟩
  unfold tryFront
  match first, block, hb, hskip with
  | true, _, _, hskip => exact hskip (.inl rfl)
  | false, [], _, hskip => exact hskip (.inr (by simp))
  | false, [_], _, hskip => exact hskip (.inr (by simp))
  | false, u :: v :: _, hb, _ =>
    rw [List.isChain_cons_cons] at hb
    obtain ⟨ops', l, b, a1, a2, a3, a4⟩ := trySwap_ok hS hA hD hp hr hf0 hd0 hb.1 hf crt
    refine ⟨ops', l, b, a1, a2, fun hb' => ?_, a4⟩
    obtain ⟨b1, b2, b3⟩ := a3 hb'
    exact ⟨b1, b2, fun _ u' v' t' h => by cases h; exact b3⟩

theorem tryBack_ok {block : List Nat} (hb : List.IsChain (CritPair S ops0) block) (last : Bool)
    {ops : Arr Operation} (hf : Fits S ops ms mp) (crt : Nat) :
    ∃ ops' l b, (∃ F, ∀ fuel, F ≤ fuel → tryBack fuel ops crt last block = .ok (ops', l, b)) ∧
      (b = true → l < crt ∧ Better S pos ms mp ops' l) ∧ (b = false → l = crt ∧ Fits S ops' ms mp ∧ (last = false → ∀ t u v, block = t ++ [u, v] → NoGain S pos ms mp crt u v)) ∧
      Keeps S ops ops' := by
  have hskip : (last = true ∨ ∀ t u v, block ≠ t ++ [u, v]) →
      ∃ ops' l b, (∃ F, ∀ fuel, F ≤ fuel → (.ok (ops, crt, false) : Except Panic _) = .ok (ops', l, b)) ∧
      (b = true → l < crt ∧ Better S pos ms mp ops' l) ∧ (b = false → l = crt ∧ Fits S ops' ms mp ∧
        (last = false → ∀ t u v, block = t ++ [u, v] → NoGain S pos ms mp crt u v)) ∧ Keeps S ops ops' := fun hn =>
    ⟨ops, crt, false, ⟨0, fun _ _ => rfl⟩, (by intro h; cases h), fun _ => ⟨rfl, hf, fun hf' t u v hb' => by
      rcases hn with hn | hn
      · rw [hn] at hf'; cases hf'
      · exact absurd hb' (hn t u v)⟩, Keeps.refl _⟩
  unfold tryBack
  obtain ⟨r, hrev⟩ : ∃ r, block.reverse = r := ⟨_, rfl⟩
  rw [hrev]
  have short : r.length < 2 → ∀ t u v, block ≠ t ++ [u, v] := by
    intro hl t u v hb'
    rw [← hrev, hb', List.length_reverse, List.length_append] at hl
    exact absurd hl (by show ¬ t.length + 2 < 2; omega)
  match last, r, hrev, hskip, short with
  | true, _, _, hskip, _ => exact hskip (.inl rfl)
  | false, [], _, hskip, short => exact hskip (.inr (short (by simp)))
  | false, [_], _, hskip, short => exact hskip (.inr (short (by simp)))
  | false, v :: u :: t, hrev, _, _ =>
    have hbl : block = t.reverse ++ [u, v] := by
      rw [← List.reverse_reverse block, hrev]; simp
    rw [hbl] at hb
    have h2 : List.IsChain (CritPair S ops0) [u, v] := (List.isChain_append.1 hb).2.1
    rw [List.isChain_cons_cons] at h2
    obtain ⟨ops', l, b, a1, a2, a3, a4⟩ := trySwap_ok hS hA hD hp hr hf0 hd0 h2.1 hf crt
    refine ⟨ops', l, b, a1, a2, fun hb' => ?_, a4⟩
    obtain ⟨b1, b2, b3⟩ := a3 hb'
    refine ⟨b1, b2, fun _ t' u' v' h => ?_⟩
    rw [hbl] at h
    have h := congrArg List.reverse h
    simp only [List.reverse_append, List.reverse_cons, List.reverse_nil, List.nil_append, List.cons_append, List.reverse_reverse] at h
    cases h
    exact b3

theorem tryBlocks_ok : ∀ (bs : List (List Nat)), (∀ b ∈ bs, List.IsChain (CritPair S ops0) b) → ∀ (first : Bool)
    (ops : Arr Operation), Fits S ops ms mp → ∀ crt : Nat,
    ∃ ops' l b, (∃ F, ∀ fuel, F ≤ fuel → tryBlocks fuel ops crt first bs = .ok (ops', l, b)) ∧
      (b = true → l < crt ∧ Better S pos ms mp ops' l) ∧ (b = false → l = crt ∧ Fits S ops' ms mp ∧ NoMove S pos ms mp crt first bs) ∧
      Keeps S ops ops' := by
  intro bs
  induction bs with
  | nil =>
    intro _ first ops hf crt
    exact ⟨ops, crt, false, ⟨0, fun _ _ => rfl⟩, (by intro h; cases h), fun _ => ⟨rfl, hf, fun pre b post h => by simp at h⟩, Keeps.refl _⟩
  | cons b bs ih =>
    intro hbs first ops hf crt
    obtain ⟨o1, l1, b1, ⟨F1, h1⟩, h2, h3, ft1⟩ := tryFront_ok hS hA hD hp hr hf0 hd0 (hbs b (by simp)) first hf crt
    cases b1 with
    | true =>
      refine ⟨o1, l1, true, ⟨F1, ?_⟩, h2, (by intro h; cases h), ft1⟩
      intro fuel hfu
      rw [tryBlocks, Exc.bind_of_ok (h1 fuel hfu)]; rfl
    | false =>
      obtain ⟨rfl, hf1, ng1⟩ := h3 rfl
      obtain ⟨o2, l2, b2, ⟨F2, h4⟩, h5, h6, ft2⟩ := tryBack_ok hS hA hD hp hr hf0 hd0 (hbs b (by simp)) bs.isEmpty hf1 l1
      cases b2 with
      | true =>
        refine ⟨o2, l2, true, ⟨max F1 F2, ?_⟩, h5, (by intro h; cases h), ft1.trans ft2⟩
        intro fuel hfu
        rw [tryBlocks, Exc.bind_of_ok (h1 fuel (by omega))]
        show (tryBack fuel o1 l1 bs.isEmpty b >>= _) = _
        rw [Exc.bind_of_ok (h4 fuel (by omega))]; rfl
      | false =>
        obtain ⟨rfl, hf2, ng2⟩ := h6 rfl
        obtain ⟨o3, l3, b3, ⟨F3, h7⟩, h8, h9, ft3⟩ := ih (fun c hc => hbs c (by simp [hc])) false o2 hf2 l2
        refine ⟨o3, l3, b3, ⟨max F1 (max F2 F3), ?_⟩, h8, ?_, (ft1.trans ft2).trans ft3⟩
        rotate_left
        · intro hb3
          obtain ⟨e1, e2, ng3⟩ := h9 hb3
          refine ⟨e1, e2, ?_⟩
          intro pre c post hsplit
          cases pre with
          | nil =>
            cases hsplit
            refine ⟨fun hfp => ng1 (by simpa using hfp), fun hpo => ng2 ?_⟩
            cases bs with
            | nil => exact absurd rfl hpo
            | cons _ _ => rfl
          | cons a pre =>
            rw [List.cons_append] at hsplit
            cases hsplit
            obtain ⟨q1, q2⟩ := ng3 pre c post rfl
            exact ⟨fun _ => q1 (.inl rfl), q2⟩
        intro fuel hfu
        rw [tryBlocks, Exc.bind_of_ok (h1 fuel (by omega))]
        show (tryBack fuel o1 l2 bs.isEmpty b >>= _) = _
        rw [Exc.bind_of_ok (h4 fuel (by omega))]
        exact h7 fuel (by omega)

end

theorem localSearch_ok {S : Shop} (hS : S.WF) (hA : S.Alternating) (hD : ∀ v, S.Reg v → 0 < S.dur v) :
    ∀ (c : Nat) (pos : Nat → Nat) (ms mp : Nat → Option Nat) (ops : Arr Operation), CarriesAs S pos ms mp ops c →
      ∃ ops' l pos' ms' mp', (∃ F, ∀ k fuel, F ≤ k → F ≤ fuel → localSearch k fuel ops = .ok (ops', l)) ∧ l ≤ c ∧
        LocOptAs S pos' ms' mp' ops' l ∧ Keeps S ops ops' ∧ Descends S pos ms mp c pos' ms' mp' l := by
  intro c
  induction c using Nat.strongRecOn with
  | _ c ih =>
    rintro pos ms mp ops ⟨rk, N, hp, hr, hf, oD, hfD, hdD, rfl⟩
    obtain ⟨o1, ⟨F1, h1⟩, hf1, hd1, rd1⟩ := makespan_ok hS hp hr hf
    have ft1 := rd1.keeps
    have hc := cd_unique hS hp hr hf1 hd1 hfD hdD 0 (by omega)
    obtain ⟨bs, v0, ⟨F2, h2⟩, hbs, hv0, hcd0⟩ := criticalBlocks_ok hS hp hr hf1 hd1
    obtain ⟨o2, l2, b2, ⟨F3, h3⟩, h4, h5, ft2⟩ := tryBlocks_ok hS hA hD hp hr hf1 hd1 bs hbs.chain true o1 hf1
      (o1.get 0).criticalDistance
    cases b2 with
    | true =>
      obtain ⟨hlt, u, v, huv, hcar⟩ := h4 rfl
      obtain ⟨o3, l3, pos', ms', mp', ⟨F4, h6⟩, h7, h8, ft3, hd⟩ := ih l2 (by omega) _ _ _ o2 hcar
      refine ⟨o3, l3, pos', ms', mp', ⟨F1 + F2 + F3 + F4 + 1, ?_⟩, by omega, h8, (ft1.trans ft2).trans ft3,
        .step huv (by omega) hcar hd⟩
      intro k fuel hk hfu
      obtain ⟨j, rfl⟩ := Nat.exists_eq_add_of_le' hfu
      show localSearch k (j + (F1 + F2 + F3 + F4) + 1) ops = _
      rw [localSearch, Exc.bind_of_ok (h1 k (by omega))]
      show (criticalBlocks k o1 >>= _) = _
      rw [Exc.bind_of_ok (h2 k (by omega)), Exc.bind_of_ok (h3 k (by omega))]
      exact h6 k _ (by omega) (by omega)
    | false =>
      obtain ⟨rfl, hf2, hno⟩ := h5 rfl
      refine ⟨o2, _, pos, ms, mp, ⟨F1 + F2 + F3 + 1, ?_⟩, Nat.le_of_eq hc,
        ⟨rk, N, hp, hr, hf2, o1, hf1, hd1, rfl, v0, bs, hbs, hv0, hcd0, hno⟩, ft1.trans ft2, by rw [hc]; exact .refl _ _ _ _⟩
      intro k fuel hk hfu
      obtain ⟨j, rfl⟩ := Nat.exists_eq_add_of_le' hfu
      show localSearch k (j + (F1 + F2 + F3) + 1) ops = _
      rw [localSearch, Exc.bind_of_ok (h1 k (by omega))]
      show (criticalBlocks k o1 >>= _) = _
      rw [Exc.bind_of_ok (h2 k (by omega)), Exc.bind_of_ok (h3 k (by omega))]
      rfl

end Ecrs.Jssp
