import Verif.Jssp.Arises
import Verif.Jssp.Bounds

/-!
# Properties C64, C66, C95-C100: the job shop example
-/

set_option linter.unusedSectionVars false

namespace Ecrs.Jssp
open Ecrs

/-! ## A machine -/

/-- Histories in which every reservation was preceded by a successful idle query. -/
inductive Booked : Machine → Prop
  | new (id : Nat) : Booked (Machine.new id)
  | reserve {m : Machine} (a b op : Nat) : Booked m → m.isIdle (a, b) = true → Booked (m.reserve (a, b) op)

/-- **C64**: if every reservation was preceded by a successful idle query, no two reservations of a machine share a point in
time. -/
theorem C64_no_double_booking {m : Machine} (h : Booked m) :
    m.rmc.Pairwise fun r r' => ∀ x, ¬ ((r.1 ≤ x ∧ x < r.2) ∧ (r'.1 ≤ x ∧ x < r'.2)) := by
  induction h with
  | new id => exact List.Pairwise.nil
  | @reserve m a b op _ hq ih =>
    show List.Pairwise _ (m.rmc ++ [(a, b)])
    rw [List.pairwise_append]
    refine ⟨ih, List.pairwise_singleton _ _, ?_⟩
    intro r hr r' hr'
    rw [List.mem_singleton] at hr'
    subst hr'
    intro x hx
    have := isIdle_iff.1 hq r hr
    simp only at hx
    omega

/-- **C64**: the idle query is exact: it fails precisely when a reservation shares a point with the (nonempty) range. -/
theorem C64_query_exact {m : Machine} {a b : Nat} (hab : a < b) (hne : ∀ r ∈ m.rmc, r.1 < r.2) :
    m.isIdle (a, b) = false ↔ ∃ r ∈ m.rmc, ∃ x, (r.1 ≤ x ∧ x < r.2) ∧ (a ≤ x ∧ x < b) := by
  rw [← Bool.not_eq_true, isIdle_iff]
  constructor
  · intro h
    by_contra hc
    refine h fun r hr => ?_
    by_contra hd
    have h1 := hne r hr
    exact hc ⟨r, hr, max r.1 a, by omega, by omega⟩
  · rintro ⟨r, hr, x, h1, h2⟩ h
    have := h r hr
    omega

example : Booked ((((Machine.new 3).reserve (2, 5) 7).reserve (5, 9) 1).reserve (0, 2) 4) := by
  refine .reserve 0 2 4 (.reserve 5 9 1 (.reserve 2 5 7 (.new 3) ?_) ?_) ?_ <;> decide

/-! ## Loading -/

/-- Loading an instance file and preparing the operations, as `run` and `JsspPopProvider::try_from` do
(examples/jssp/main.rs:150, problem/population.rs:78-86): the operations and the number of machines. -/
def load (file : List (List Nat)) : Except Panic (List Operation × Nat) := do
  let inst ← parse file
  let ops ← provider inst
  pure (ops, inst.nMachines)

theorem load_ok {jobs : Jobs} {nM : Nat} {ops : List Operation} {k : Nat} (h : load (jobs.file nM) = .ok (ops, k)) :
    provider ⟨loaded 0 jobs, nM⟩ = .ok ops ∧ k = nM := by
  unfold load at h
  rw [Exc.bind_of_ok (parse_ok jobs nM)] at h
  obtain ⟨o, h1, h2⟩ := Exc.bind_ok.1 h
  cases h2
  exact ⟨h1, rfl⟩

/-- **C100**: loading a well-formed instance succeeds, and operation `k` of job `j` is found under its number with its machine
and duration, its predecessors being the dummy start and the earlier operations of its job, in order. -/
theorem C100_loading {jobs : Jobs} {nM : Nat} (h : jobs.Proper nM) :
    ∃ ops, load (jobs.file nM) = .ok (ops, nM) ∧ ops.length = jobs.total + 2 ∧
      ∀ j k m d, jobs.op? j k = some (m, d) → ∃ o, ops[jobs.number j k]? = some o ∧ o.id = jobs.number j k ∧
        o.machine = m ∧ o.duration = d ∧ o.finishTime = none ∧ o.preds = 0 :: (List.range k).map (jobs.number j) := by
  obtain ⟨ops, hp, hd⟩ : ∃ ops, provider ⟨loaded 0 jobs, nM⟩ = .ok ops ∧ ops = _ := ⟨_, provider_ok jobs nM h.some_op, rfl⟩
  refine ⟨ops, ?_, ?_, ?_⟩
  · unfold load
    rw [Exc.bind_of_ok (parse_ok jobs nM), Exc.bind_of_ok hp]
    rfl
  · rw [hd]; simp [recs_length]
  · intro j k m d ho
    obtain ⟨r, h1, h2, h3, h4, h5⟩ := recs_number jobs 0 j k m d ho
    obtain ⟨v, hv⟩ : ∃ v, jobs.number j k = v + 1 := ⟨(jobs.take j).flatten.length + k, rfl⟩
    have hlt := (List.getElem?_eq_some_iff.1 h1).1
    rw [hv, Nat.add_sub_cancel] at h1 hlt
    refine ⟨Rec.toOp jobs.total r, ?_, ?_, h3, h4, rfl, ?_⟩
    · rw [hd, hv, List.cons_append, List.getElem?_cons_succ, List.getElem?_append_left (by rw [List.length_map]; exact hlt),
        List.getElem?_map, h1]
      rfl
    · show r.off + r.k + 1 = _
      omega
    · show 0 :: (List.range r.k).map (r.off + · + 1) = _
      rw [h2]
      congr 1
      refine List.map_congr_left fun x _ => ?_
      unfold Jobs.number at h5 ⊢
      omega

/-- The header of the file is not checked against the jobs: a job without operations (an empty line) makes the preparation
panic. -/
theorem C100_empty_job_panics {jobs : Jobs} (nM : Nat) (rest : Jobs) (h : jobs.Proper nM) :
    load (Jobs.file (jobs ++ [] :: rest) nM) = .error .unwrapNone := by
  unfold load
  rw [Exc.bind_of_ok (parse_ok _ nM)]
  refine Exc.bind_of_error ?_
  unfold provider
  refine Exc.bind_of_error ?_
  have key : ∀ (sink off : Nat) (js : Jobs), (∀ job ∈ js, job ≠ []) →
      prepareJobs sink (loaded off (js ++ [] :: rest)) = .error .unwrapNone := by
    intro sink off js
    induction js generalizing off with
    | nil => intro _; rfl
    | cons job js ih =>
      intro hne
      rw [List.cons_append, loaded, prepareJobs]
      cases hr : redirectJob sink ((job.mapIdx fun k md => Operation.new (off + k) md.2 md.1 none ((List.range k).map (off + ·))).map shiftOp) with
      | error e =>
        refine (Exc.bind_of_error rfl).trans ?_
        -- redirecting a job with operations does not fail
        obtain ⟨n, hn⟩ | hz : (∃ n, sink = n + 1) ∨ sink = 0 := by
          cases sink with
          | zero => exact .inr rfl
          | succ n => exact .inl ⟨n, rfl⟩
        · rw [hn, redirectJob_ok n off (hne job (by simp))] at hr; cases hr
        · exfalso
          rw [hz] at hr
          unfold redirectJob at hr
          have hj := hne job (by simp)
          obtain ⟨init, l, rfl⟩ : ∃ init l, job = init ++ [l] := by
            obtain ⟨init, l, h⟩ := List.eq_nil_or_concat job |>.resolve_left hj
            exact ⟨init, l, by simpa using h⟩
          rw [List.mapIdx_append, List.map_append] at hr
          simp [redirectLast, shiftOp, Operation.new, bind, Except.bind, pure, Except.pure] at hr
      | ok job' =>
        refine (Exc.bind_of_ok rfl).trans ?_
        cases hh : job'.head? with
        | none => rfl
        | some o =>
          refine (Exc.bind_of_ok rfl).trans ?_
          exact Exc.bind_of_error (ih _ fun x hx => hne x (by simp [hx]))
  exact key _ 0 jobs h.some_op

/-! ## Evaluation -/

section
variable {X : Type} {E : EvalOps X}

/-- **C66**: for every instance and chromosome, decoding a fresh individual terminates and gives every operation a finish
time; the schedule respects the order within the jobs, no machine works on two operations at once, and the largest finish
time is the one reported by the decoding. -/
theorem C66_construction_feasible {jobs : Jobs} {nM : Nat} (h : jobs.Proper nM) {ops : List Operation}
    (ho : load (jobs.file nM) = .ok (ops, nM)) (worst : Nat) {ch : List X} (hch : ch.length = 2 * jobs.total) (hE : E.Sane ch) :
    ∃ (s : Sched) (start : Nat → Nat → Nat),
      (∃ F, ∀ fuel, F ≤ fuel → schedule E fuel (freshIndividual ops nM worst ch) = .ok s) ∧ Feasible jobs start ∧
      (∀ j k m d, jobs.op? j k = some (m, d) → (s.ops.get (jobs.number j k)).finishTime = some (start j k + d)) ∧
      EndsAt jobs start s.last := by
  obtain ⟨hp, -⟩ := load_ok ho
  obtain ⟨s, h1, h2, h3⟩ := schedule_ok (E := E) (S := jobs.shop nM) (shop_wf h) (i := freshIndividual ops nM worst ch) hE hch
    (fresh_ready h hp worst ch)
  obtain ⟨order, pos, cnt, rk, ms, mp, hs⟩ := h1
  obtain ⟨h4, h5, h6⟩ := hs.feasible (shop_wf h) h2
  refine ⟨s, _, h3, feasible_of_shop h4, ?_, endsAt_of_shop h5⟩
  intro j k m d hop
  have a := number_spec nM hop
  obtain ⟨f, h7, h8⟩ := h6 _ a.1
  rw [hs.ft_ops _ a.1.2, h7]
  rw [a.2.2.1] at h8
  rw [Option.getD_some, a.2.2.1, Nat.sub_add_cancel h8]

/-- **C66, C97**: every evaluation, of any individual that occurs in a run, returns; afterwards the finish times of the
operations are those of a feasible schedule, whose makespan is no less than the returned value. -/
theorem C66_evaluated_feasible {jobs : Jobs} {nM worst : Nat} (h : jobs.Proper nM) (hA : jobs.Alternates) (hD : jobs.Positive)
    {ops : List Operation} (ho : load (jobs.file nM) = .ok (ops, nM)) {i : Individual X}
    (hi : Arises E ops nM worst jobs.total i) :
    ∃ i' r T, ∃ start : Nat → Nat → Nat, Evaluates E i i' r ∧ Feasible jobs start ∧
      (∀ j k m d, jobs.op? j k = some (m, d) → (i'.operations.get (jobs.number j k)).finishTime = some (start j k + d)) ∧
      EndsAt jobs start T ∧ r ≤ T := by
  obtain ⟨hp, -⟩ := load_ok ho
  obtain ⟨a1, a2, a3⟩ := hi.inv h hA hD hp
  obtain ⟨i', r, s, l, c, b1, b2, b3, -, -, -, b4, -, -, -, -, -, b5, -⟩ :=
    evaluate_ok (shop_wf h) (shop_alternating nM hA) (shop_positive nM hD) (fresh_base h hp) a1 a2 a3
  obtain ⟨order, pos, cnt, rk, ms, mp, hs⟩ := b2
  obtain ⟨h4, h5, h6⟩ := hs.feasible (shop_wf h) b3
  refine ⟨i', r, s.last, _, b1, feasible_of_shop h4, ?_, endsAt_of_shop h5, by omega⟩
  intro j k m d hop
  have a := number_spec nM hop
  obtain ⟨f, h7, h8⟩ := h6 _ a.1
  rw [b5, hs.ft_ops _ a.1.2, h7]
  rw [a.2.2.1] at h8
  rw [Option.getD_some, a.2.2.1, Nat.sub_add_cancel h8]

/-- **C97**: on every well-formed instance with positive durations in which no job uses one machine twice in a row,
evaluating any individual that occurs in a run returns.  Both conditions are needed: `C97_reentrant_job_diverges`, `C97_zero_duration_diverges`. -/
theorem C97_evaluation_returns {jobs : Jobs} {nM worst : Nat} (h : jobs.Proper nM) (hA : jobs.Alternates) (hD : jobs.Positive)
    {ops : List Operation} (ho : load (jobs.file nM) = .ok (ops, nM)) {i : Individual X}
    (hi : Arises E ops nM worst jobs.total i) : ∃ i' r F, ∀ fuel, F ≤ fuel → evaluate E fuel i = .ok (i', r) := by
  obtain ⟨i', r, -, -, ⟨F, hF⟩, -⟩ := C66_evaluated_feasible h hA hD ho hi
  exact ⟨i', r, F, hF⟩

/-- **C95**: the value that an evaluation returns and stores is the makespan of a feasible schedule. -/
theorem C95_fitness_is_a_makespan {jobs : Jobs} {nM worst : Nat} (h : jobs.Proper nM) (hA : jobs.Alternates) (hD : jobs.Positive)
    {ops : List Operation} (ho : load (jobs.file nM) = .ok (ops, nM)) {i i' : Individual X} {r : Nat}
    (hi : Arises E ops nM worst jobs.total i) (he : Evaluates E i i' r) :
    i'.fitness = r ∧ i'.isFitnessValid = true ∧ i'.chromosome = i.chromosome ∧
      ∃ start, Feasible jobs start ∧ EndsAt jobs start r := by
  obtain ⟨hp, -⟩ := load_ok ho
  obtain ⟨a1, a2, a3⟩ := hi.inv h hA hD hp
  obtain ⟨i1, r1, s, l, c, b1, b2, b3, -, -, c3, b4, c4, c5, c6, -, -, b5, -⟩ :=
    evaluate_ok (shop_wf h) (shop_alternating nM hA) (shop_positive nM hD) (fresh_base h hp) a1 a2 a3
  obtain ⟨rfl, rfl⟩ := he.unique b1
  refine ⟨c5, c6, c4, ?_⟩
  obtain ⟨order, pos, cnt, rk, ms, mp, hs⟩ := b2
  rcases Nat.le_total s.last l with hle | hle
  · rw [Nat.min_eq_left hle] at b4
    rw [b4]
    obtain ⟨h4, h5, -⟩ := hs.feasible (shop_wf h) b3
    exact ⟨_, feasible_of_shop h4, endsAt_of_shop h5⟩
  · rw [Nat.min_eq_right hle] at b4
    rw [b4]
    obtain ⟨st, h4, h5⟩ := c3.feasible (shop_wf h)
    exact ⟨_, feasible_of_shop h4, endsAt_of_shop h5⟩

/-- **C96**: the value depends on the chromosome only: individuals with the same chromosome get the same value, and become
equal in every field, whatever was evaluated or crossed over before. -/
theorem C96_history_independent {jobs : Jobs} {nM worst : Nat} (h : jobs.Proper nM) (hA : jobs.Alternates) (hD : jobs.Positive)
    {ops : List Operation} (ho : load (jobs.file nM) = .ok (ops, nM)) {i j i' j' : Individual X} {r t : Nat}
    (hi : Arises E ops nM worst jobs.total i) (hj : Arises E ops nM worst jobs.total j) (hij : i.chromosome = j.chromosome)
    (h1 : Evaluates E i i' r) (h2 : Evaluates E j j' t) : r = t ∧ i' = j' := by
  obtain ⟨hp, -⟩ := load_ok ho
  obtain ⟨a1, a2, a3⟩ := hi.inv h hA hD hp
  obtain ⟨b1, -, -⟩ := hj.inv h hA hD hp
  obtain ⟨e1, e2⟩ := evaluate_indep (shop_wf h) (fresh_base h hp) a1 b1 hij a2 a3 h1 h2
  exact ⟨e2, e1⟩

/-- **C98**: no value is below the length of a job or the load of a machine. -/
theorem C98_lower_bounds {jobs : Jobs} {nM worst : Nat} (h : jobs.Proper nM) (hA : jobs.Alternates) (hD : jobs.Positive)
    {ops : List Operation} (ho : load (jobs.file nM) = .ok (ops, nM)) {i i' : Individual X} {r : Nat}
    (hi : Arises E ops nM worst jobs.total i) (he : Evaluates E i i' r) :
    (∀ job ∈ jobs, (job.map Prod.snd).sum ≤ r) ∧ ∀ m, ((jobs.flatten.filter fun o => o.1 = m).map Prod.snd).sum ≤ r := by
  obtain ⟨-, -, -, start, h1, h2⟩ := C95_fitness_is_a_makespan h hA hD ho hi he
  refine ⟨fun job hj => ?_, load_le h1 h2⟩
  obtain ⟨j, hj⟩ := List.mem_iff_getElem?.1 hj
  exact job_le h1 h2 hj

/-- **C99**: resetting an individual removes every machine edge (the `debug_assert` in `Operation::reset` holds), every finish
time and every reservation. -/
theorem C99_reset_leaves_no_machine_edge {jobs : Jobs} {nM worst : Nat} (h : jobs.Proper nM) (hA : jobs.Alternates)
    (hD : jobs.Positive) {ops : List Operation} (ho : load (jobs.file nM) = .ok (ops, nM)) {i : Individual X}
    (hi : Arises E ops nM worst jobs.total i) (hd : i.isDirty = true) :
    (∀ k, k < i.operations.size → (∀ e ∈ (i.reset.operations.get k).edgesOut, e.kind = .jobSucc) ∧
      (i.reset.operations.get k).finishTime = none ∧ (i.reset.operations.get k).machinePred = none) ∧
    ∀ m, m < nM → (i.reset.machines.get m).rmc = [] ∧ (i.reset.machines.get m).lastScheduledOp = none := by
  obtain ⟨hp, -⟩ := load_ok ho
  obtain ⟨a1, a2, a3⟩ := hi.inv h hA hD hp
  have hr := a1.ready (fresh_base h hp)
  have hpr : i.prepare = i.reset := by unfold Individual.prepare; rw [hd]; rfl
  rw [hpr] at hr
  have hsz : i.operations.size = jobs.total + 2 := hr.fits.size
  refine ⟨fun k hk => ⟨?_, rfl, rfl⟩, fun m hm => ⟨rfl, rfl⟩⟩
  intro e he
  have hk' : k ≤ (jobs.shop nM).n + 1 := by show k ≤ jobs.total + 1; omega
  rw [hr.fits.edges k hk'] at he
  simp only [Option.toList_none, List.map_nil, List.append_nil] at he
  exact je_kind (shop_wf h) hk' e he

end

/-! ## A concrete instance -/

/-- Natural numbers as genes: priorities above 0, the gene times the longest duration as delay. -/
def natEval : EvalOps Nat where
  delay x md := x * md
  late f t d := match f, t with
    | none, some _ => true
    | some a, some t => decide (t + d < a)
    | _, none => false
  gt x y := decide (y < x)
  minv := 0

theorem natEval_sane {ch : List Nat} (h : ∀ x ∈ ch, 0 < x) : natEval.Sane ch :=
  ⟨fun x hx => by simpa [natEval] using h x hx, fun _ _ _ _ => rfl, fun _ _ _ _ _ h => by
    have := of_decide_eq_true (p := _ + _ < _) h; omega⟩

/-- Two jobs on two machines, in opposite order. -/
def twoJobs : Jobs := [[(0, 3), (1, 2)], [(1, 2), (0, 4)]]

theorem twoJobs_op {j k m d : Nat} (h : twoJobs.op? j k = some (m, d)) :
    (j = 0 ∧ k = 0 ∧ m = 0 ∧ d = 3) ∨ (j = 0 ∧ k = 1 ∧ m = 1 ∧ d = 2) ∨ (j = 1 ∧ k = 0 ∧ m = 1 ∧ d = 2) ∨
      (j = 1 ∧ k = 1 ∧ m = 0 ∧ d = 4) := by
  match j, k with
  | 0, 0 => cases h; simp
  | 0, 1 => cases h; simp
  | 0, k + 2 => simp [twoJobs, Jobs.op?] at h
  | 1, 0 => cases h; simp
  | 1, 1 => cases h; simp
  | 1, k + 2 => simp [twoJobs, Jobs.op?] at h
  | j + 2, k => simp [twoJobs, Jobs.op?] at h

theorem twoJobs_proper : twoJobs.Proper 2 := ⟨by decide, by decide, by decide⟩

theorem twoJobs_alternates : twoJobs.Alternates := by
  intro j k m d m' d' h h'
  have := twoJobs_op h
  have := twoJobs_op h'
  omega

theorem twoJobs_positive : twoJobs.Positive := by
  intro j k m d h
  have := twoJobs_op h
  omega

/-- The hypotheses of C66, C95-C99 hold of a fresh individual, of what its evaluation returns and of its children. -/
example : ∃ ops, load (twoJobs.file 2) = .ok (ops, 2) ∧
    (let i := freshIndividual ops 2 1000 [1, 2, 2, 1, 1, 1, 1, 1]
     Arises natEval ops 2 1000 twoJobs.total i ∧ ∃ i' r, Evaluates natEval i i' r ∧ 7 ≤ r ∧ i'.isDirty = true ∧
      Arises natEval ops 2 1000 twoJobs.total i' ∧
      Arises natEval ops 2 1000 twoJobs.total { i' with chromosome := [3, 2, 2, 1, 1, 1, 1, 5], isFitnessValid := false }) := by
  obtain ⟨ops, h1, -, -⟩ := C100_loading twoJobs_proper
  have hs : ∀ {ch : List Nat}, (∀ x ∈ ch, 0 < x) → natEval.Sane ch := natEval_sane
  have hi : Arises natEval ops 2 1000 twoJobs.total (freshIndividual ops 2 1000 [1, 2, 2, 1, 1, 1, 1, 1]) :=
    .fresh _ (by decide) (hs (by decide))
  obtain ⟨i', r, T, start, h2, -⟩ := C66_evaluated_feasible twoJobs_proper twoJobs_alternates twoJobs_positive h1 hi
  refine ⟨ops, h1, hi, i', r, h2, ?_, ?_, .evaluated hi h2, .child _ (.evaluated hi h2) (by decide) (hs (by decide))⟩
  · exact (C98_lower_bounds twoJobs_proper twoJobs_alternates twoJobs_positive h1 hi h2).2 0
  · obtain ⟨F, hF⟩ := h2
    have h3 := hF F (Nat.le_refl _)
    unfold evaluate at h3
    obtain ⟨s, -, h3⟩ := Exc.bind_ok.1 h3
    obtain ⟨p, -, h3⟩ := Exc.bind_ok.1 h3
    have h4 := congrArg (fun q => q.1.isDirty) (Exc.pure_ok.1 h3)
    exact h4.symm

/-- The model computes: this chromosome is decoded to a schedule of length 7, which is optimal. -/
example : (load (twoJobs.file 2) >>= fun p => evaluate natEval 40 (freshIndividual p.1 p.2 1000 [1, 2, 2, 1, 1, 1, 1, 1])).map
    (·.2) = .ok 7 := by decide +kernel

/-! ## Instances on which evaluation does not return -/

/-- The depth-first search does not return from a set of vertices that are never left: the last edge of each leads back. -/
theorem dfs_diverges {ops : Arr Operation} {vis : Arr Bool} (P : Nat → Prop)
    (h : ∀ v, P v → v < ops.size ∧ v < vis.size ∧ vis.get v = false ∧ (∀ e ∈ (ops.get v).edgesOut, e.neigh < vis.size) ∧
      ∃ es e, (ops.get v).edgesOut = es ++ [e] ∧ P e.neigh) :
    ∀ (fuel v : Nat) (st : List Nat), P v → dfs fuel ops vis (v :: st) = .error .outOfFuel := by
  intro fuel
  induction fuel with
  | zero => intro v st _; rfl
  | succ fuel ih =>
    intro v st hv
    obtain ⟨h1, h2, h3, h4, es, e, h5, h6⟩ := h v hv
    have h7 := (h _ h6).2.2.1
    rw [dfs, Exc.bind_of_ok (Arr.at'_ok h2), h3, if_neg (by decide)]
    have hv : dfsVisit ops vis v st = .ok (ops, vis, e.neigh :: (((es.filter fun e => !vis.get e.neigh).map Edge.neigh).reverse ++ v :: st)) := by
      unfold dfsVisit
      rw [Exc.bind_of_ok (Arr.at'_ok h1), Exc.bind_of_ok (pushUnvisited_ok _ _ h4)]
      have hany : ((ops.get v).edgesOut.any fun e => !vis.get e.neigh) = true := by rw [h5]; simp [h7]
      rw [hany]
      show Except.ok _ = Except.ok _
      rw [h5]; simp [h7]
    rw [Exc.bind_of_ok hv]
    exact ih _ _ h6

/-- A job that visits machine 0 twice in a row. -/
def reentrant : Jobs := [[(0, 1), (0, 1), (1, 1)]]

/-- The value of a computation that is known to succeed. -/
def getOk {α : Type} (d : α) : Except Panic α → α
  | .ok a => a
  | .error _ => d

def reentrantOps : List Operation := (getOk ([], 0) (load (reentrant.file 2))).1

def reentrantInd : Individual Nat := freshIndividual reentrantOps 2 1000 [1, 1, 1, 1, 1, 1]

def reentrantSched : Sched := getOk ⟨⟨0, default⟩, ⟨0, Machine.new⟩, ⟨0, default⟩, 0, 0, 0⟩ (schedule natEval 40 reentrantInd)

def reentrantDist : Arr Operation × Nat := getOk (⟨0, default⟩, 0) (makespan 40 reentrantSched.ops)

def reentrantSwapped : Arr Operation := getOk ⟨0, default⟩ (swapOps reentrantDist.1 1 2)

/-- Out of fuel. -/
def isOutOfFuel {α : Type} : Except Panic α → Bool
  | .error .outOfFuel => true
  | _ => false

theorem isOutOfFuel_eq {α : Type} {x : Except Panic α} (h : isOutOfFuel x = true) : x = .error .outOfFuel := by
  unfold isOutOfFuel at h
  split at h
  · rfl
  · cases h

/-- **C97**, violated: consecutive operations of a job on one machine are not supported, though nothing rejects such an
instance.  The local search swaps the two, the graph gets a cycle and the search for the critical path never returns (its
stack grows until memory is exhausted). -/
theorem C97_reentrant_job_diverges : load (reentrant.file 2) = .ok (reentrantOps, 2) ∧ reentrant.Proper 2 ∧
    ∀ fuel, evaluate natEval fuel (freshIndividual reentrantOps 2 1000 [1, 1, 1, 1, 1, 1]) = .error .outOfFuel := by
  refine ⟨rfl, ⟨by decide, by decide, by decide⟩, fun fuel => ?_⟩
  show evaluate natEval fuel reentrantInd = _
  by_cases hf : fuel < 40
  · have h : ∀ fuel < 40, isOutOfFuel (evaluate natEval fuel reentrantInd) = true := by decide +kernel
    exact isOutOfFuel_eq (h fuel hf)
  · obtain ⟨k, rfl⟩ : ∃ k, fuel = k + 40 := ⟨fuel - 40, by omega⟩
    have h1 : schedule natEval (k + 40) reentrantInd.prepare = .ok reentrantSched := rfl
    have h2 : makespan (k + 40) reentrantSched.ops = .ok reentrantDist := rfl
    have h3 : criticalBlocks (k + 40) reentrantDist.1 = .ok [[1, 2], [3]] := rfl
    have h4 : swapOps reentrantDist.1 1 2 = .ok reentrantSwapped := rfl
    have h5 : makespan (k + 40) reentrantSwapped = .error .outOfFuel := by
      unfold makespan
      refine Exc.bind_of_error ?_
      unfold criticalPath
      refine dfs_diverges (fun v => v ≤ 2) ?_ _ 0 [] (by omega)
      have hall : ∀ v < 3, v < reentrantSwapped.size ∧ (∀ e ∈ (reentrantSwapped.get v).edgesOut, e.neigh < reentrantSwapped.size) ∧
          ∃ e ∈ (reentrantSwapped.get v).edgesOut.getLast?, e.neigh ≤ 2 := by decide +kernel
      intro v hv
      obtain ⟨a1, a2, e, a3, a4⟩ := hall v (by omega)
      refine ⟨a1, a1, rfl, a2, (reentrantSwapped.get v).edgesOut.dropLast, e, ?_, a4⟩
      exact (List.dropLast_append_getLast? e a3).symm
    unfold evaluate
    rw [Exc.bind_of_ok h1]
    refine Exc.bind_of_error ?_
    rw [localSearch, Exc.bind_of_ok h2]
    show (criticalBlocks (k + 40) reentrantDist.1 >>= _) = _
    rw [Exc.bind_of_ok h3]
    refine Exc.bind_of_error ?_
    rw [tryBlocks]
    show (tryBack (k + 40) reentrantDist.1 reentrantDist.2 false [1, 2] >>= _) = _
    refine Exc.bind_of_error ?_
    show trySwap (k + 40) reentrantDist.1 reentrantDist.2 1 2 = _
    unfold trySwap
    rw [Exc.bind_of_ok h4, Exc.bind_of_error h5]

/-! ## What the graph and the finish times describe -/

/-- Three jobs on two machines. -/
def threeJobs : Jobs := [[(1, 4), (0, 3)], [(0, 2), (1, 1)], [(1, 2), (0, 2)]]

def threeOps : List Operation := (getOk ([], 0) (load (threeJobs.file 2))).1

def threeInd : Individual Nat := freshIndividual threeOps 2 1000 [2, 2, 5, 6, 2, 1, 2, 1, 1, 2, 1, 2]

def threeSched : Sched := getOk ⟨⟨0, default⟩, ⟨0, Machine.new⟩, ⟨0, default⟩, 0, 0, 0⟩ (schedule natEval 40 threeInd)

/-- **C101**, violated: the graph handed to the local search is not that of the decoded schedule.  An operation may be put
into a gap before operations scheduled earlier on its machine, but its machine edge always comes from the operation scheduled
last (the comment at fitness.rs:110-114 suspects this).  Here the machine edge from operation 1 to operation 5 says that 1
precedes 5 on machine 1, although 5 finishes at 2 and 1 only at 7: the longest path (12) exceeds the makespan of the decoded
schedule (10). -/
theorem C101_machine_edges_follow_decoding_order : load (threeJobs.file 2) = .ok (threeOps, 2) ∧ threeJobs.Proper 2 ∧
    schedule natEval 40 threeInd = .ok threeSched ∧ threeSched.last = 10 ∧ (makespan 100 threeSched.ops).map (·.2) = .ok 12 ∧
    (⟨5, .machineSucc⟩ : Edge) ∈ (threeSched.ops.get 1).edgesOut ∧
    (threeSched.ops.get 1).finishTime = some 7 ∧ (threeSched.ops.get 5).finishTime = some 2 :=
  ⟨rfl, ⟨by decide, by decide, by decide⟩, rfl, by decide +kernel, by decide +kernel, by decide +kernel, by decide +kernel,
    by decide +kernel⟩

/-- **C102**, violated: after an evaluation the finish times need not realise the fitness: they are those of the decoded
schedule (it ends at 10), the fitness (9) is that of the schedule found by the local search, which is not stored. -/
theorem C102_finish_times_do_not_realise_fitness :
    (evaluate natEval 100 threeInd).map (fun p => (p.1.fitness, p.1.operations.toList.map (·.finishTime))) =
      .ok (9, [some 0, some 7, some 10, some 2, some 3, some 2, some 4, none]) := by
  decide +kernel

/-! ## C64 on a machine with three reservations -/

example := C64_no_double_booking (m := (((Machine.new 3).reserve (2, 5) 7).reserve (5, 9) 1).reserve (0, 2) 4)
  (.reserve 0 2 4 (.reserve 5 9 1 (.reserve 2 5 7 (.new 3) (by decide)) (by decide)) (by decide))
example := C64_query_exact (m := ((Machine.new 3).reserve (2, 5) 7).reserve (7, 9) 1) (a := 5) (b := 7) (by decide) (by decide)

end Ecrs.Jssp
