import Verif.Props.JsspDecode

/-!
# C124: the local search of the job shop example ends in a local optimum

The specification speaks of jobs, machine orders (positions) and start times only; `Holds` says which machine order the edges of
an individual's operations represent.
-/

set_option linter.unusedSectionVars false

namespace Ecrs.Jssp
open Ecrs

/-! ## Specification -/

/-- `pos` numbers the operations of each machine consecutively from 0, without repetition. -/
structure MachineOrder (jobs : Jobs) (pos : Nat × Nat → Nat) : Prop where
  inj : ∀ a b m d d', jobs.op? a.1 a.2 = some (m, d) → jobs.op? b.1 b.2 = some (m, d') → pos a = pos b → a = b
  dense : ∀ a m d p, jobs.op? a.1 a.2 = some (m, d) → pos a = p + 1 → ∃ b d', jobs.op? b.1 b.2 = some (m, d') ∧ pos b = p

/-- Start times that respect the order within the jobs and the given order on each machine. -/
structure Follows (jobs : Jobs) (pos : Nat × Nat → Nat) (start : Nat → Nat → Nat) : Prop where
  job : ∀ j k m d m' d', jobs.op? j k = some (m, d) → jobs.op? j (k + 1) = some (m', d') → start j k + d ≤ start j (k + 1)
  machine : ∀ a b m d d', jobs.op? a.1 a.2 = some (m, d) → jobs.op? b.1 b.2 = some (m, d') → pos a < pos b →
    start a.1 a.2 + d ≤ start b.1 b.2

/-- `l` is the shortest makespan of the schedules that follow the machine order. -/
def Shortest (jobs : Jobs) (pos : Nat × Nat → Nat) (l : Nat) : Prop :=
  (∃ start, Follows jobs pos start ∧ EndsAt jobs start l) ∧ ∀ start t, Follows jobs pos start → EndsAt jobs start t → l ≤ t

/-- The order with `a` and `b` exchanged. -/
def exchange (pos : Nat × Nat → Nat) (a b : Nat × Nat) : Nat × Nat → Nat := fun x => if x = a then pos b else if x = b then pos a else pos x

/-- The duration of an operation. -/
def Jobs.duration (jobs : Jobs) (a : Nat × Nat) : Nat := ((jobs.op? a.1 a.2).map Prod.snd).getD 0

/-- A critical path of length `l`, in blocks: from the first operation of some job to the last operation of some job, from each
operation to the next of its machine within a block, and to the next of its job from block to block. -/
structure CriticalBlocks (jobs : Jobs) (pos : Nat × Nat → Nat) (blocks : List (List (Nat × Nat))) (l : Nat) : Prop where
  nonempty : blocks ≠ [] ∧ ∀ b ∈ blocks, b ≠ []
  ops : ∀ b ∈ blocks, ∀ a ∈ b, ∃ md, jobs.op? a.1 a.2 = some md
  machine : ∀ b ∈ blocks, b.IsChain fun x y =>
    (∃ m d d', jobs.op? x.1 x.2 = some (m, d) ∧ jobs.op? y.1 y.2 = some (m, d')) ∧ pos y = pos x + 1
  job : blocks.IsChain fun b c => ∃ j k, b.getLast? = some (j, k) ∧ c.head? = some (j, k + 1)
  first : ∃ j, blocks.flatten.head? = some (j, 0)
  last : ∃ j k, blocks.flatten.getLast? = some (j, k) ∧ jobs.op? j (k + 1) = none
  length : (blocks.flatten.map jobs.duration).sum = l

/-- The machine edges of the operations say what follows what on the machines according to `pos`. -/
def Holds (jobs : Jobs) (ops : Arr Operation) (pos : Nat × Nat → Nat) : Prop :=
  ∀ a b m d m' d', jobs.op? a.1 a.2 = some (m, d) → jobs.op? b.1 b.2 = some (m', d') →
    ((⟨jobs.number b.1 b.2, .machineSucc⟩ : Edge) ∈ (ops.get (jobs.number a.1 a.2)).edgesOut ↔ m = m' ∧ pos b = pos a + 1)

/-- Neither the exchange of the first two operations of a block other than the first, nor that of the last two operations of a
block other than the last, gives an order with a shorter schedule. -/
def NoBetterNeighbour (jobs : Jobs) (pos : Nat × Nat → Nat) (blocks : List (List (Nat × Nat))) (l : Nat) : Prop :=
  ∀ pre b post, blocks = pre ++ b :: post → ∀ u v t,
    (b = u :: v :: t ∧ pre ≠ []) ∨ (b = t ++ [u, v] ∧ post ≠ []) → ∃ l', Shortest jobs (exchange pos u v) l' ∧ l ≤ l'

/-- From the order `pos`, whose shortest schedule has length `l`, to the last order: exchanges of two operations that follow one
another on their machine, each of which shortens the shortest schedule.  (Orders are compared on the operations that exist.) -/
inductive Descent (jobs : Jobs) : (Nat × Nat → Nat) → Nat → (Nat × Nat → Nat) → Nat → Prop where
  | stay (pos l) : Descent jobs pos l pos l
  | exchange {pos l a b m d d' pos1 l1 pos' l'} : jobs.op? a.1 a.2 = some (m, d) → jobs.op? b.1 b.2 = some (m, d') →
      pos b = pos a + 1 → (∀ x md, jobs.op? x.1 x.2 = some md → pos1 x = exchange pos a b x) → Shortest jobs pos1 l1 → l1 < l →
      Descent jobs pos1 l1 pos' l' → Descent jobs pos l pos' l'

/-! ## From the graph to machine orders -/

variable {X : Type} {E : EvalOps X}

theorem shortest_of_graph {jobs : Jobs} {nM : Nat} (h : jobs.Proper nM) {ops ms mp pos rk N} (hp : Sel (jobs.shop nM) pos ms mp)
    (hr : Rank (jobs.shop nM) ms rk N) (hf : Fits (jobs.shop nM) ops ms mp) (hd : AllDone (jobs.shop nM) ops) {q : Nat × Nat → Nat}
    (hq : ∀ a md, jobs.op? a.1 a.2 = some md → q a = pos (jobs.number a.1 a.2)) :
    Shortest jobs q (ops.get 0).criticalDistance := by
  have hS := shop_wf h
  refine ⟨?_, ?_⟩
  · obtain ⟨st, h1, h2, h3⟩ := graph_follows hS hp hr hf hd
    refine ⟨fun j k => st (jobs.number j k), ⟨(feasible_of_shop h1).order, ?_⟩, endsAt_of_shop h2⟩
    intro a b m d d' ha hb hlt
    rw [hq a _ ha, hq b _ hb] at hlt
    have a1 := number_spec nM ha
    have a2 := number_spec nM hb
    have := h3 _ _ a1.1 a2.1 (by rw [a1.2.1, a2.2.1]) hlt
    rw [a1.2.2.1] at this
    exact this
  · intro start t h1 h2
    have hop : ∀ v, ∃ o : Nat × Nat, (jobs.shop nM).Reg v → (∃ md, jobs.op? o.1 o.2 = some md) ∧ jobs.number o.1 o.2 = v := by
      intro v
      by_cases hv : (jobs.shop nM).Reg v
      · obtain ⟨j, k, m, d, h3, h4⟩ := reg_number hv
        exact ⟨(j, k), fun _ => ⟨⟨_, h3⟩, h4⟩⟩
      · exact ⟨(0, 0), fun hc => absurd hc hv⟩
    choose opOf hopOf using hop
    have hst : ∀ j k md, jobs.op? j k = some md → opOf (jobs.number j k) = (j, k) := by
      intro j k md hjk
      obtain ⟨⟨md', h3⟩, h4⟩ := hopOf _ (number_spec nM (m := md.1) (d := md.2) hjk).1
      obtain ⟨e1, e2⟩ := number_inj jobs _ _ _ _ _ _ h3 hjk h4
      exact Prod.ext e1 e2
    refine graph_lower hS hp hr hf hd (st := fun v => start (opOf v).1 (opOf v).2) ?_ ?_ ?_
    · intro v hv hdv
      obtain ⟨j, k, m, d, h3, rfl⟩ := reg_number hv
      cases k with
      | zero => rw [dp_first nM h3] at hdv; exact absurd hdv.1 (by omega)
      | succ k =>
        obtain ⟨⟨m', d'⟩, h4⟩ := op_prev h3
        rw [dp_number nM h3, hst _ _ _ h3, hst _ _ _ h4, (number_spec nM h4).2.2.1]
        exact h1.job _ _ _ _ _ _ h4 h3
    · intro u v hu hv hm hlt
      obtain ⟨j, k, m, d, h3, rfl⟩ := reg_number hu
      obtain ⟨j', k', m', d', h4, rfl⟩ := reg_number hv
      have a1 := number_spec nM h3
      have a2 := number_spec nM h4
      rw [a1.2.1, a2.2.1] at hm
      subst hm
      rw [hst _ _ _ h3, hst _ _ _ h4, a1.2.2.1]
      exact h1.machine (j, k) (j', k') _ _ _ h3 h4 (by rw [hq (j, k) _ h3, hq (j', k') _ h4]; exact hlt)
    · intro v hv
      obtain ⟨j, k, m, d, h3, rfl⟩ := reg_number hv
      rw [hst _ _ _ h3, (number_spec nM h3).2.2.1]
      exact h2.1 _ _ _ _ h3

theorem machineOrder_of_sel {jobs : Jobs} {nM : Nat} {ms mp pos} (hp : Sel (jobs.shop nM) pos ms mp) :
    MachineOrder jobs fun a => pos (jobs.number a.1 a.2) := by
  refine ⟨?_, ?_⟩
  · intro a b m d d' ha hb he
    have a1 := number_spec nM ha
    have a2 := number_spec nM hb
    obtain ⟨e1, e2⟩ := number_inj jobs _ _ _ _ _ _ ha hb (hp.inj _ _ a1.1 a2.1 (by rw [a1.2.1, a2.2.1]) he)
    exact Prod.ext e1 e2
  · intro a m d p ha he
    have a1 := number_spec nM ha
    obtain ⟨u, h1, h2, h3⟩ := hp.dense _ a1.1 p he
    obtain ⟨j, k, m', d', h4, rfl⟩ := reg_number h1
    rw [a1.2.1, (number_spec nM h4).2.1] at h2
    subst h2
    exact ⟨(j, k), d', h4, h3⟩

theorem holds_of_fits {jobs : Jobs} {nM : Nat} (h : jobs.Proper nM) {ops ms mp pos} (hp : Sel (jobs.shop nM) pos ms mp)
    (hf : Fits (jobs.shop nM) ops ms mp) : Holds jobs ops fun a => pos (jobs.number a.1 a.2) := by
  intro a b m d m' d' ha hb
  have a1 := number_spec nM ha
  have a2 := number_spec nM hb
  have hle := a1.1.2
  have hle : jobs.number a.1 a.2 ≤ (jobs.shop nM).n + 1 := by omega
  rw [hf.edges _ hle, List.mem_append]
  constructor
  · rintro (h1 | h1)
    · have := ((shop_wf h).je_cases hle h1).2.1
      cases this
    · rw [List.mem_map] at h1
      obtain ⟨w, h2, h3⟩ := h1
      cases h3
      have h4 : ms (jobs.number a.1 a.2) = some (jobs.number b.1 b.2) := by simpa using h2
      obtain ⟨-, -, h5, h6⟩ := (hp.msucc _ _).1 h4
      rw [a1.2.1, a2.2.1] at h5
      exact ⟨h5, h6⟩
  · rintro ⟨h1, h2⟩
    right
    have h4 : ms (jobs.number a.1 a.2) = some (jobs.number b.1 b.2) :=
      (hp.msucc _ _).2 ⟨a1.1, a2.1, by rw [a1.2.1, a2.2.1]; exact h1, h2⟩
    rw [h4]
    simp

/-- The blocks of a critical path, as operations of jobs. -/
theorem blocks_of_graph {jobs : Jobs} {nM : Nat} (h : jobs.Proper nM) {ops ms mp pos} (hp : Sel (jobs.shop nM) pos ms mp)
    {opOf : Nat → Nat × Nat} (hopOf : ∀ v, (jobs.shop nM).Reg v → (∃ md, jobs.op? (opOf v).1 (opOf v).2 = some md) ∧
      jobs.number (opOf v).1 (opOf v).2 = v) {v : Nat} {bs : List (List Nat)} (hb : CBlocks (jobs.shop nM) ms ops v bs) :
    (∀ b ∈ bs, b ≠ [] ∧ ∀ x ∈ b, (jobs.shop nM).Reg x) ∧
    (∀ b ∈ bs.map (List.map opOf), b.IsChain fun x y =>
      (∃ m d d', jobs.op? x.1 x.2 = some (m, d) ∧ jobs.op? y.1 y.2 = some (m, d')) ∧
        pos (jobs.number y.1 y.2) = pos (jobs.number x.1 x.2) + 1) ∧
    (bs.map (List.map opOf)).IsChain (fun b c => ∃ j k, b.getLast? = some (j, k) ∧ c.head? = some (j, k + 1)) ∧
    (∃ j k, ((bs.map (List.map opOf)).flatten).getLast? = some (j, k) ∧ jobs.op? j (k + 1) = none) ∧
    (((bs.map (List.map opOf)).flatten).map jobs.duration).sum = (ops.get v).criticalDistance := by
  have hS := shop_wf h
  have hdur : ∀ v, (jobs.shop nM).Reg v → jobs.duration (opOf v) = (jobs.shop nM).dur v := by
    intro v hv
    obtain ⟨⟨⟨m, d⟩, h1⟩, h2⟩ := hopOf v hv
    have := (number_spec nM h1).2.2.1
    rw [h2] at this
    unfold Jobs.duration
    rw [h1, this]; rfl
  induction hb with
  | @last v hv hcd hje =>
    refine ⟨by simpa using hv, by simp, by simp, ⟨(opOf v).1, (opOf v).2, by simp, ?_⟩, ?_⟩
    · obtain ⟨⟨md, h1⟩, h2⟩ := hopOf v hv
      cases hn : jobs.op? (opOf v).1 ((opOf v).2 + 1) with
      | none => rfl
      | some md' =>
        exfalso
        have h3 := number_spec nM (m := md'.1) (d := md'.2) hn
        have h4 := hS.je_dp _ h3.1
        rw [dp_number nM (m := md'.1) (d := md'.2) hn, h2] at h4
        obtain ⟨w, h5, -⟩ := hS.je_mid v hv
        obtain ⟨e, h6, h7⟩ := hje
        rw [h5, List.mem_singleton] at h4 h6
        rw [h6] at h7
        have h8 : jobs.number (opOf v).1 ((opOf v).2 + 1) = w := congrArg Edge.neigh h4
        have h9 : w = (jobs.shop nM).n + 1 := h7
        have := h3.1.2
        omega
    · simp [hdur v hv, hcd]
  | @job v w b bs hv hw hdp hcd hb ih =>
    obtain ⟨i1, i2, i3, i4, i5⟩ := ih
    obtain ⟨t, cs, e⟩ := hb.head
    obtain ⟨rfl, rfl⟩ := List.cons.inj e
    refine ⟨?_, ?_, ?_, ?_, ?_⟩
    · intro c hc
      rcases List.mem_cons.1 hc with rfl | hc
      · simpa using hv
      · exact i1 c hc
    · intro c hc
      rw [List.map_cons, List.mem_cons] at hc
      rcases hc with rfl | hc
      · simp
      · exact i2 c hc
    · show List.IsChain _ (List.map opOf [v] :: List.map opOf (w :: t) :: bs.map (List.map opOf))
      rw [List.isChain_cons_cons]
      refine ⟨?_, i3⟩
      obtain ⟨⟨md, h1⟩, h2⟩ := hopOf w hw
      obtain ⟨⟨md', h3⟩, h4⟩ := hopOf v hv
      cases hk : (opOf w).2 with
      | zero =>
        rw [hk] at h1 h2
        have h5 := dp_first nM (m := md.1) (d := md.2) h1
        rw [h2, hdp] at h5
        exact absurd hv.1 (by omega)
      | succ k =>
        rw [hk] at h1 h2
        have h5 := dp_number nM (m := md.1) (d := md.2) h1
        rw [h2, hdp] at h5
        obtain ⟨md2, h6⟩ := op_prev h1
        obtain ⟨e1, e2⟩ := number_inj jobs _ _ _ _ _ _ h3 h6 (by rw [h4]; exact h5)
        refine ⟨(opOf w).1, k, ?_, ?_⟩
        · rw [← e1, ← e2]; rfl
        · show some (opOf w) = _
          rw [← hk]
    · obtain ⟨j, k, h1, h2⟩ := i4
      refine ⟨j, k, ?_, h2⟩
      rw [List.map_cons, List.flatten_cons, List.getLast?_append, h1]; rfl
    · rw [List.map_cons, List.flatten_cons, List.map_append, List.sum_append, i5, hcd]
      simp [hdur v hv]
  | @mach v w b bs hv hw hms hcp hcd hb ih =>
    obtain ⟨i1, i2, i3, i4, i5⟩ := ih
    obtain ⟨t, cs, e⟩ := hb.head
    obtain ⟨rfl, rfl⟩ := List.cons.inj e
    obtain ⟨-, -, hm, hpos⟩ := (hp.msucc _ _).1 hms
    refine ⟨?_, ?_, ?_, ?_, ?_⟩
    · intro c hc
      rcases List.mem_cons.1 hc with rfl | hc
      · refine ⟨by simp, ?_⟩
        intro x hx
        rcases List.mem_cons.1 hx with rfl | hx
        · exact hv
        · exact (i1 (w :: t) (by simp)).2 x hx
      · exact i1 c (by simp [hc])
    · intro c hc
      rw [List.map_cons, List.mem_cons] at hc
      rcases hc with rfl | hc
      · rw [List.map_cons, List.map_cons, List.isChain_cons_cons]
        refine ⟨⟨?_, ?_⟩, i2 _ (by simp)⟩
        · obtain ⟨⟨⟨m, d⟩, h1⟩, h2⟩ := hopOf v hv
          obtain ⟨⟨⟨m', d'⟩, h3⟩, h4⟩ := hopOf w hw
          have h5 := (number_spec nM h1).2.1
          have h6 := (number_spec nM h3).2.1
          rw [h2] at h5
          rw [h4] at h6
          have : m = m' := by rw [← h5, ← h6]; exact hm
          subst this
          exact ⟨m, d, d', h1, h3⟩
        · rw [(hopOf v hv).2, (hopOf w hw).2]; exact hpos
      · exact i2 c (by simp only [List.map_cons, List.mem_cons]; exact .inr hc)
    · rw [List.map_cons]
      rw [List.map_cons] at i3
      cases hcs : bs.map (List.map opOf) with
      | nil => simp
      | cons c cs' =>
        rw [hcs, List.isChain_cons_cons] at i3
        rw [List.isChain_cons_cons]
        obtain ⟨⟨j, k, h1, h2⟩, h3⟩ := i3
        refine ⟨⟨j, k, ?_, h2⟩, h3⟩
        rw [List.map_cons, List.map_cons, List.getLast?_cons_cons]
        exact h1
    · obtain ⟨j, k, h1, h2⟩ := i4
      refine ⟨j, k, ?_, h2⟩
      show (opOf v :: ((List.map opOf (w :: t)) :: bs.map (List.map opOf)).flatten).getLast? = _
      have h1 : ((List.map opOf (w :: t)) :: bs.map (List.map opOf)).flatten.getLast? = some (j, k) := h1
      rw [List.getLast?_cons, h1]; rfl
    · show (List.map jobs.duration (opOf v :: ((List.map opOf (w :: t)) :: bs.map (List.map opOf)).flatten)).sum = _
      have i5 : (List.map jobs.duration ((List.map opOf (w :: t)) :: bs.map (List.map opOf)).flatten).sum = _ := i5
      rw [List.map_cons, List.sum_cons, i5, hcd, hdur v hv]

theorem exchange_number {jobs : Jobs} {pos : Nat → Nat} {u v : Nat} {a b : Nat × Nat} {ma mb : Nat × Nat}
    (ha : jobs.op? a.1 a.2 = some ma) (hb : jobs.op? b.1 b.2 = some mb) (hu : jobs.number a.1 a.2 = u) (hv : jobs.number b.1 b.2 = v)
    (hne : u ≠ v) (x : Nat × Nat) (md : Nat × Nat) (hx : jobs.op? x.1 x.2 = some md) :
    exchange (fun o => pos (jobs.number o.1 o.2)) a b x = swapPos pos u v (jobs.number x.1 x.2) := by
  have hiff : ∀ (o : Nat × Nat) (mo : Nat × Nat), jobs.op? o.1 o.2 = some mo → (x = o ↔ jobs.number x.1 x.2 = jobs.number o.1 o.2) := by
    intro o mo ho
    constructor
    · rintro rfl; rfl
    · intro hc
      obtain ⟨e1, e2⟩ := number_inj jobs _ _ _ _ _ _ hx ho hc
      exact Prod.ext e1 e2
  show (if x = a then pos (jobs.number b.1 b.2) else if x = b then pos (jobs.number a.1 a.2) else pos (jobs.number x.1 x.2)) = _
  unfold swapPos upd
  have h1 := hiff a _ ha
  have h2 := hiff b _ hb
  rw [hu] at h1 ⊢
  rw [hv] at h2 ⊢
  by_cases hxa : x = a
  · rw [if_pos hxa, h1.1 hxa, if_neg hne, if_pos rfl]
  · rw [if_neg hxa]
    have hxu := fun hc => hxa (h1.2 hc)
    by_cases hxb : x = b
    · rw [if_pos hxb, h2.1 hxb, if_pos rfl]
    · rw [if_neg hxb, if_neg fun hc => hxb (h2.2 hc), if_neg hxu]

theorem descent_of_graph {jobs : Jobs} {nM : Nat} (h : jobs.Proper nM) {pos ms mp c pos' ms' mp' l}
    (hd : Descends (jobs.shop nM) pos ms mp c pos' ms' mp' l) (hp : Sel (jobs.shop nM) pos ms mp) :
    Descent jobs (fun a => pos (jobs.number a.1 a.2)) c (fun a => pos' (jobs.number a.1 a.2)) l := by
  induction hd with
  | refl pos ms mp c => exact .stay _ _
  | @step pos ms mp c u v ops c' pos' ms' mp' l huv hlt hc hd ih =>
    obtain ⟨rk, N, h1, h2, h3, oD, h4, h5, rfl⟩ := hc
    obtain ⟨hu, hv, hm, hpos⟩ := (hp.msucc _ _).1 huv
    obtain ⟨j, k, m, d, e1, rfl⟩ := reg_number hu
    obtain ⟨j', k', m', d', e2, rfl⟩ := reg_number hv
    rw [(number_spec nM e1).2.1, (number_spec nM e2).2.1] at hm
    subst hm
    refine .exchange (a := (j, k)) (b := (j', k')) e1 e2 hpos ?_ (shortest_of_graph h h1 h2 h4 h5 fun _ _ _ => rfl) hlt (ih h1)
    intro x md hx
    refine (exchange_number (a := (j, k)) (b := (j', k')) e1 e2 rfl rfl ?_ x md hx).symm
    intro hc
    have hc : jobs.number j k = jobs.number j' k' := hc
    rw [hc] at hpos
    omega

/-- **C124.** After the evaluation of any individual that occurs in a run, the edges of its operations describe a machine order
that is a local optimum: `l` is the shortest makespan of the schedules with this machine order, a critical path of length `l`
runs through it, and exchanging the first two operations of a block (not the first) or the last two of a block (not the last)
of this path does not lead to a shorter one.  `l` is no longer than what the machine order from the decoding permits
(`pos0`, `l0`): the order is reached from that of the decoding by exchanges of machine neighbours each of which shortened the
shortest schedule.  The fitness is the shorter of `l` and the makespan `T` of the decoded schedule. -/
theorem C124_local_optimum {jobs : Jobs} {nM worst : Nat} (h : jobs.Proper nM) (hA : jobs.Alternates) (hD : jobs.Positive)
    {ops : List Operation} (ho : load (jobs.file nM) = .ok (ops, nM)) {i i' : Individual X} {r : Nat}
    (hi : Arises E ops nM worst jobs.total i) (he : Evaluates E i i' r) :
    ∃ (pos pos0 : Nat × Nat → Nat) (l l0 T : Nat) (blocks : List (List (Nat × Nat))) (s : Sched) (start : Nat → Nat → Nat),
      MachineOrder jobs pos ∧ Holds jobs i'.operations pos ∧ Shortest jobs pos l ∧ CriticalBlocks jobs pos blocks l ∧
      NoBetterNeighbour jobs pos blocks l ∧
      (∃ F, ∀ fuel, F ≤ fuel → schedule E fuel i.prepare = .ok s) ∧
      MachineOrder jobs pos0 ∧ Holds jobs s.ops pos0 ∧ Shortest jobs pos0 l0 ∧ l ≤ l0 ∧ Descent jobs pos0 l0 pos l ∧
      (∀ j k m d, jobs.op? j k = some (m, d) → (s.ops.get (jobs.number j k)).finishTime = some (start j k + d) ∧
        (i'.operations.get (jobs.number j k)).finishTime = some (start j k + d)) ∧
      EndsAt jobs start T ∧ i'.fitness = min T l := by
  obtain ⟨hp, -⟩ := load_ok ho
  have hS := shop_wf h
  obtain ⟨a1, a2, a3⟩ := hi.inv h hA hD hp
  obtain ⟨i1, r1, s, l, c, b1, bs, b2, b3, -, b5, -, b7, -, b8, -, -, -, b9, -, pos0, ms0, mp0, pos, ms, mp, hc0, hcL, hdesc⟩ :=
    evaluate_full hS (shop_alternating nM hA) (shop_positive nM hD) (fresh_base h hp) a1 a2 a3
  obtain ⟨rfl, rfl⟩ := he.unique b1
  obtain ⟨rk0, N0, q1, q2, q3, oD0, q4, q5, q6⟩ := hc0
  obtain ⟨rk, N, c1, c2, c3, oD, c4, c5, c6, v0, bl, c7, c8, c9, c10⟩ := hcL
  obtain ⟨order, pos2, cnt, rk2, ms2, mp2, hs⟩ := b2
  obtain ⟨-, h5, h6⟩ := hs.feasible hS b3
  have hop : ∀ v, ∃ o : Nat × Nat, (jobs.shop nM).Reg v → (∃ md, jobs.op? o.1 o.2 = some md) ∧ jobs.number o.1 o.2 = v := by
    intro v
    by_cases hv : (jobs.shop nM).Reg v
    · obtain ⟨j, k, m, d, h3, h4⟩ := reg_number hv
      exact ⟨(j, k), fun _ => ⟨⟨_, h3⟩, h4⟩⟩
    · exact ⟨(0, 0), fun hc => absurd hc hv⟩
  choose opOf hopOf using hop
  obtain ⟨d1, d2, d3, d4, d5⟩ := blocks_of_graph h c1 hopOf c7
  subst c6 q6
  refine ⟨fun a => pos (jobs.number a.1 a.2), fun a => pos0 (jobs.number a.1 a.2), _, _, s.last, bl.map (List.map opOf), s, _,
    machineOrder_of_sel c1, holds_of_fits h c1 c3, shortest_of_graph h c1 c2 c4 c5 (fun _ _ _ => rfl), ?_, ?_, bs,
    machineOrder_of_sel q1, holds_of_fits h q1 q3, shortest_of_graph h q1 q2 q4 q5 (fun _ _ _ => rfl), b5, descent_of_graph h hdesc q1, ?_, endsAt_of_shop h5,
    by rw [b8, b7]⟩
  · obtain ⟨t, cs, e⟩ := c7.head
    have hv0 := c7.reg
    refine ⟨⟨by rw [e]; simp, ?_⟩, ?_, d2, d3, ?_, d4, by rw [d5, c9]⟩
    · intro b hb
      rw [List.mem_map] at hb
      obtain ⟨b', hb', rfl⟩ := hb
      have := (d1 b' hb').1
      simpa using this
    · intro b hb a ha
      rw [List.mem_map] at hb
      obtain ⟨b', hb', rfl⟩ := hb
      rw [List.mem_map] at ha
      obtain ⟨x, hx, rfl⟩ := ha
      exact (hopOf x ((d1 b' hb').2 x hx)).1
    · refine ⟨(opOf v0).1, ?_⟩
      rw [e]
      show some (opOf v0) = _
      obtain ⟨⟨md, h1⟩, h2⟩ := hopOf v0 hv0
      cases hk : (opOf v0).2 with
      | zero => rw [← hk]
      | succ k =>
        rw [hk] at h1 h2
        have h7 := dp_number nM (m := md.1) (d := md.2) h1
        obtain ⟨md2, h8⟩ := op_prev h1
        have := (number_spec nM (m := md2.1) (d := md2.2) h8).1.1
        rw [h2, c8] at h7
        omega
  · intro pre b post hsplit u v t hcase
    obtain ⟨pre', rest', e1, e2, e3⟩ := List.map_eq_append_iff.1 hsplit
    obtain ⟨b', post', e4, e5, e6⟩ := List.map_eq_cons_iff.1 e3
    subst e2 e5 e6 e4
    obtain ⟨f1, f2⟩ := c10 pre' b' post' e1
    have key : ∃ u' v', NoGain (jobs.shop nM) pos ms mp (oD.get 0).criticalDistance u' v' ∧ u = opOf u' ∧ v = opOf v' := by
      rcases hcase with ⟨g1, g2⟩ | ⟨g1, g2⟩
      · obtain ⟨u', r', k1, k2, k3⟩ := List.map_eq_cons_iff.1 g1
        obtain ⟨v', t', k4, k5, k6⟩ := List.map_eq_cons_iff.1 k3
        refine ⟨u', v', f1 (.inr ?_) u' v' t' (by rw [k1, k4]), k2.symm, k5.symm⟩
        intro hc; rw [hc] at g2; exact g2 rfl
      · obtain ⟨t', r', k1, k2, k3⟩ := List.map_eq_append_iff.1 g1
        obtain ⟨u', r2, k4, k5, k6⟩ := List.map_eq_cons_iff.1 k3
        obtain ⟨v', r3, k7, k8, k9⟩ := List.map_eq_cons_iff.1 k6
        have : r3 = [] := by simpa using k9
        refine ⟨u', v', f2 ?_ t' u' v' (by rw [k1, k4, k7, this]), k5.symm, k8.symm⟩
        intro hc; rw [hc] at g2; exact g2 rfl
    obtain ⟨u', v', ⟨hms, rk', N', o', n1, n2, n3, n4, n5⟩, rfl, rfl⟩ := key
    obtain ⟨hu, hv, -, hpos⟩ := (c1.msucc _ _).1 hms
    refine ⟨_, shortest_of_graph h n1 n2 n3 n4 ?_, n5⟩
    intro a md ha
    have hne : u' ≠ v' := by rintro rfl; omega
    obtain ⟨⟨mu, h1⟩, h2⟩ := hopOf u' hu
    obtain ⟨⟨mv, h3⟩, h4⟩ := hopOf v' hv
    exact exchange_number h1 h3 h2 h4 hne a md ha
  · intro j k m d hopj
    have a := number_spec nM hopj
    obtain ⟨f, h7, h8⟩ := h6 _ a.1
    rw [b9, and_self, hs.ft_ops _ a.1.2, h7]
    rw [a.2.2.1] at h8
    rw [Option.getD_some, a.2.2.1, Nat.sub_add_cancel h8]

/-! ## A concrete case -/

/-- The hypotheses hold of the individual of C102: its decoded schedule ends at 10, the local search ends at a machine order with
schedules of length 9, and no neighbour of that order has shorter ones. -/
example : ∃ (i' : Individual Nat) (r : Nat) (pos : Nat × Nat → Nat) (blocks : List (List (Nat × Nat))),
    Evaluates natEval threeInd i' r ∧ MachineOrder threeJobs pos ∧ Holds threeJobs i'.operations pos ∧ Shortest threeJobs pos 9 ∧
      CriticalBlocks threeJobs pos blocks 9 ∧ NoBetterNeighbour threeJobs pos blocks 9 := by
  have hpr : threeJobs.Proper 2 := ⟨by decide, by decide, by decide⟩
  have ops : ∀ {j k m d}, threeJobs.op? j k = some (m, d) → (j = 0 ∧ k = 0 ∧ m = 1 ∧ d = 4) ∨ (j = 0 ∧ k = 1 ∧ m = 0 ∧ d = 3) ∨
      (j = 1 ∧ k = 0 ∧ m = 0 ∧ d = 2) ∨ (j = 1 ∧ k = 1 ∧ m = 1 ∧ d = 1) ∨ (j = 2 ∧ k = 0 ∧ m = 1 ∧ d = 2) ∨
      (j = 2 ∧ k = 1 ∧ m = 0 ∧ d = 2) := by
    intro j k m d h
    match j, k with
    | 0, 0 => cases h; simp
    | 0, 1 => cases h; simp
    | 0, k + 2 => simp [threeJobs, Jobs.op?] at h
    | 1, 0 => cases h; simp
    | 1, 1 => cases h; simp
    | 1, k + 2 => simp [threeJobs, Jobs.op?] at h
    | 2, 0 => cases h; simp
    | 2, 1 => cases h; simp
    | 2, k + 2 => simp [threeJobs, Jobs.op?] at h
    | j + 3, k => simp [threeJobs, Jobs.op?] at h
  have hal : threeJobs.Alternates := by
    intro j k m d m' d' h h'
    have := ops h
    have := ops h'
    omega
  have hpo : threeJobs.Positive := by
    intro j k m d h
    have := ops h
    omega
  have hi : Arises natEval threeOps 2 1000 threeJobs.total threeInd := .fresh _ rfl (natEval_sane (by decide))
  obtain ⟨i', r, F, hF⟩ := C97_evaluation_returns hpr hal hpo (ops := threeOps) rfl hi
  have he : Evaluates natEval threeInd i' r := ⟨F, hF⟩
  obtain ⟨pos, pos0, l, l0, T, blocks, s, start, h1, h2, h3, h4, h5, -, -, -, -, -, -, h6, h7, h8⟩ :=
    C124_local_optimum hpr hal hpo (ops := threeOps) rfl hi he
  have e0 : (evaluate natEval (F + 100) threeInd).map (fun p => (p.1.fitness, p.1.operations.toList.map (·.finishTime),
      (p.1.operations.get 2).finishTime)) =
        .ok (9, [some 0, some 7, some 10, some 2, some 3, some 2, some 4, none], some 10) := rfl
  rw [hF (F + 100) (by omega)] at e0
  have e1 := Except.ok.inj e0
  simp only [Prod.mk.injEq] at e1
  have h9 : 10 ≤ T := by
    have h10 : (i'.operations.get 2).finishTime = some (start 0 1 + 3) := (h6 0 1 0 3 rfl).2
    rw [e1.2.2] at h10
    have := Option.some.inj h10
    have := h7.1 0 1 0 3 rfl
    omega
  have hl : l = 9 := by have := e1.1; omega
  subst hl
  exact ⟨i', r, pos, blocks, he, h1, h2, h3, h4, h5⟩

end Ecrs.Jssp
