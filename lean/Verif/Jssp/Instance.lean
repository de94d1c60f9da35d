import Verif.Jssp.LocalSearch
import Verif.Jssp.Spec

/-!
# From instance files to shops

Loading an instance and building the provider represents it.
-/

namespace Ecrs.Jssp
open Ecrs

/-! ## Records: the operations in the order of their numbers -/

/-- An operation with its place: operations before its job, length of the job, index in the job. -/
structure Rec where
  off : Nat
  len : Nat
  k : Nat
  m : Nat
  d : Nat

/-- The records of one job. -/
def jobRecs (off : Nat) (job : List (Nat × Nat)) : List Rec := job.mapIdx fun k md => ⟨off, job.length, k, md.1, md.2⟩

/-- The records of all jobs. -/
def recs : Nat → Jobs → List Rec
  | _, [] => []
  | off, job :: jobs => jobRecs off job ++ recs (off + job.length) jobs

/-- The first operations of the jobs. -/
def starts : Nat → Jobs → List Nat
  | _, [] => []
  | off, job :: jobs => (off + 1) :: starts (off + job.length) jobs

/-- The prepared operation of a record. -/
def Rec.toOp (n : Nat) (r : Rec) : Operation :=
  { Operation.new (r.off + r.k + 1) r.d r.m none (0 :: (List.range r.k).map (r.off + · + 1)) with
    edgesOut := [⟨if r.k + 1 = r.len then n + 1 else r.off + r.k + 2, .jobSucc⟩] }

theorem jobRecs_length (off : Nat) (job) : (jobRecs off job).length = job.length := by simp [jobRecs]

theorem recs_length (off : Nat) (jobs : Jobs) : (recs off jobs).length = jobs.total := by
  induction jobs generalizing off with
  | nil => rfl
  | cons job jobs ih => simp [recs, jobRecs_length, ih, Jobs.total]

theorem jobRecs_get {off : Nat} {job : List (Nat × Nat)} {i : Nat} {md : Nat × Nat} (h : job[i]? = some md) :
    (jobRecs off job)[i]? = some ⟨off, job.length, i, md.1, md.2⟩ := by
  simp [jobRecs, h]

theorem jobRecs_get_inv {off : Nat} {job : List (Nat × Nat)} {i : Nat} {r : Rec} (h : (jobRecs off job)[i]? = some r) :
    ∃ md, job[i]? = some md ∧ r = ⟨off, job.length, i, md.1, md.2⟩ := by
  simp only [jobRecs, List.getElem?_mapIdx, Option.map_eq_some_iff] at h
  obtain ⟨md, h1, h2⟩ := h
  exact ⟨md, h1, h2.symm⟩

/-- A record and its neighbours. -/
theorem recs_spec (jobs : Jobs) : ∀ (off i : Nat) (r : Rec), (recs off jobs)[i]? = some r →
    r.off + r.k = off + i ∧ r.k < r.len ∧ off ≤ r.off ∧ r.off + r.len ≤ off + jobs.total ∧
    (∀ (k' : Nat), r.k = k' + 1 → ∃ r', (recs off jobs)[i - 1]? = some r' ∧ r'.off = r.off ∧ r'.len = r.len ∧ r'.k = k') ∧
    (∀ (l : Nat), r.len = r.k + 2 + l → ∃ r', (recs off jobs)[i + 1]? = some r' ∧ r'.off = r.off ∧ r'.len = r.len ∧ r'.k = r.k + 1) := by
  induction jobs with
  | nil => intro off i r h; cases h
  | cons job jobs ih =>
    intro off i r h
    rw [recs] at h ⊢
    have hlen := jobRecs_length off job
    have htot : Jobs.total (job :: jobs) = job.length + Jobs.total jobs := by simp [Jobs.total]
    by_cases hi : i < job.length
    · rw [List.getElem?_append_left (by omega)] at h
      obtain ⟨md, h1, rfl⟩ := jobRecs_get_inv h
      refine ⟨rfl, hi, Nat.le_refl _, by show off + job.length ≤ _; omega, ?_, ?_⟩
      · intro k' hk'
        have hk'' : i = k' + 1 := hk'
        obtain ⟨md', h2⟩ : ∃ md', job[i - 1]? = some md' := ⟨_, List.getElem?_eq_getElem (by omega)⟩
        refine ⟨⟨off, job.length, i - 1, md'.1, md'.2⟩, ?_, rfl, rfl, by show i - 1 = k'; omega⟩
        rw [List.getElem?_append_left (by omega)]
        exact jobRecs_get h2
      · intro l hk
        have hk' : job.length = i + 2 + l := hk
        obtain ⟨md', h2⟩ : ∃ md', job[i + 1]? = some md' := ⟨_, List.getElem?_eq_getElem (by omega)⟩
        refine ⟨⟨off, job.length, i + 1, md'.1, md'.2⟩, ?_, rfl, rfl, rfl⟩
        rw [List.getElem?_append_left (by omega)]
        exact jobRecs_get h2
    · rw [List.getElem?_append_right (by omega), hlen] at h
      obtain ⟨h1, h2, h3, h4, h5, h6⟩ := ih _ _ _ h
      refine ⟨by omega, h2, by omega, by omega, ?_, ?_⟩
      · intro k' hk'
        obtain ⟨r', h7, h8, h9, h10⟩ := h5 k' hk'
        have hpos : i - job.length ≠ 0 := by
          intro hc
          rw [hc] at h7
          have h7' : (recs (off + job.length) jobs)[0]? = some r' := h7
          have := (ih _ _ _ h7').1
          omega
        refine ⟨r', ?_, h8, h9, h10⟩
        rw [List.getElem?_append_right (by omega), hlen, show i - 1 - job.length = i - job.length - 1 by omega]
        exact h7
      · intro l hk
        obtain ⟨r', h7, h8⟩ := h6 l hk
        refine ⟨r', ?_, h8⟩
        rw [List.getElem?_append_right (by omega), hlen, show i + 1 - job.length = i - job.length + 1 by omega]
        exact h7

/-- The first operations are those with index 0. -/
theorem mem_starts (jobs : Jobs) (hne : ∀ job ∈ jobs, job ≠ []) : ∀ (off w : Nat),
    w ∈ starts off jobs ↔ off + 1 ≤ w ∧ ∃ r, (recs off jobs)[w - 1 - off]? = some r ∧ r.k = 0 := by
  induction jobs with
  | nil => intro off w; simp [starts, recs]
  | cons job jobs ih =>
    intro off w
    have hlen := jobRecs_length off job
    have hj : 0 < job.length := List.length_pos_iff.2 (hne job (by simp))
    rw [starts, recs, List.mem_cons, ih (fun x hx => hne x (by simp [hx]))]
    constructor
    · rintro (rfl | ⟨h1, r, h2, h3⟩)
      · refine ⟨Nat.le_refl _, ?_⟩
        obtain ⟨md, h2⟩ : ∃ md, job[0]? = some md := ⟨_, List.getElem?_eq_getElem hj⟩
        refine ⟨⟨off, job.length, 0, md.1, md.2⟩, ?_, rfl⟩
        rw [show off + 1 - 1 - off = 0 by omega, List.getElem?_append_left (by omega)]
        exact jobRecs_get h2
      · refine ⟨by omega, r, ?_, h3⟩
        rw [List.getElem?_append_right (by omega), hlen, show w - 1 - off - job.length = w - 1 - (off + job.length) by omega]
        exact h2
    · rintro ⟨h1, r, h2, h3⟩
      by_cases hw : w - 1 - off < job.length
      · rw [List.getElem?_append_left (by omega)] at h2
        obtain ⟨md, h4, rfl⟩ := jobRecs_get_inv h2
        have h3' : w - 1 - off = 0 := h3
        exact .inl (by omega)
      · rw [List.getElem?_append_right (by omega), hlen] at h2
        refine .inr ⟨by omega, r, ?_, h3⟩
        rw [show w - 1 - (off + job.length) = w - 1 - off - job.length by omega]
        exact h2

theorem recs_md (jobs : Jobs) : ∀ (off i : Nat) (r : Rec), (recs off jobs)[i]? = some r → ∃ job ∈ jobs, (r.m, r.d) ∈ job := by
  induction jobs with
  | nil => intro off i r h; cases h
  | cons job jobs ih =>
    intro off i r h
    rw [recs] at h
    have hlen := jobRecs_length off job
    by_cases hi : i < job.length
    · rw [List.getElem?_append_left (by omega)] at h
      obtain ⟨md, h1, rfl⟩ := jobRecs_get_inv h
      exact ⟨job, by simp, List.mem_of_getElem? h1⟩
    · rw [List.getElem?_append_right (by omega), hlen] at h
      obtain ⟨job', h1, h2⟩ := ih _ _ _ h
      exact ⟨job', by simp [h1], h2⟩

/-- Operation `k` of job `j` is found under its number. -/
theorem recs_number (jobs : Jobs) : ∀ (off j k m d : Nat), jobs.op? j k = some (m, d) →
    ∃ r, (recs off jobs)[jobs.number j k - 1]? = some r ∧ r.k = k ∧ r.m = m ∧ r.d = d ∧
      r.off + r.k + 1 = off + jobs.number j k := by
  induction jobs with
  | nil => intro off j k m d h; simp [Jobs.op?] at h
  | cons job jobs ih =>
    intro off j k m d h
    have hlen := jobRecs_length off job
    rw [recs]
    cases j with
    | zero =>
      have h' : job[k]? = some (m, d) := by simpa [Jobs.op?] using h
      have hk : k < job.length := (List.getElem?_eq_some_iff.1 h').1
      have hn : Jobs.number (job :: jobs) 0 k = k + 1 := by simp [Jobs.number]
      refine ⟨⟨off, job.length, k, m, d⟩, ?_, rfl, rfl, rfl, by rw [hn]; rfl⟩
      rw [hn, List.getElem?_append_left (by omega)]
      exact jobRecs_get h'
    | succ j =>
      have h' : Jobs.op? jobs j k = some (m, d) := by simpa [Jobs.op?] using h
      have hn : Jobs.number (job :: jobs) (j + 1) k = job.length + Jobs.number jobs j k := by
        simp [Jobs.number]; omega
      obtain ⟨r, h1, h2, h3, h4, h5⟩ := ih (off + job.length) j k m d h'
      have hpos : 1 ≤ Jobs.number jobs j k := by unfold Jobs.number; omega
      refine ⟨r, ?_, h2, h3, h4, by omega⟩
      rw [List.getElem?_append_right (by omega), hlen, hn,
        show job.length + Jobs.number jobs j k - 1 - job.length = Jobs.number jobs j k - 1 by omega]
      exact h1

/-- Different operations have different numbers. -/
theorem number_inj (jobs : Jobs) : ∀ (j k j' k' : Nat) (o o' : Nat × Nat), jobs.op? j k = some o → jobs.op? j' k' = some o' →
    jobs.number j k = jobs.number j' k' → j = j' ∧ k = k' := by
  induction jobs with
  | nil => intro j k j' k' o o' h; simp [Jobs.op?] at h
  | cons job jobs ih =>
    intro j k j' k' o o' h h' hn
    cases j with
    | zero =>
      have h1 : job[k]? = some o := by simpa [Jobs.op?] using h
      have hk : k < job.length := (List.getElem?_eq_some_iff.1 h1).1
      cases j' with
      | zero => exact ⟨rfl, by simpa [Jobs.number] using hn⟩
      | succ j' =>
        exfalso
        simp [Jobs.number] at hn
        omega
    | succ j =>
      cases j' with
      | zero =>
        exfalso
        have h1 : job[k']? = some o' := by simpa [Jobs.op?] using h'
        have hk : k' < job.length := (List.getElem?_eq_some_iff.1 h1).1
        simp [Jobs.number] at hn
        omega
      | succ j' =>
        have := ih j k j' k' o o' (by simpa [Jobs.op?] using h) (by simpa [Jobs.op?] using h')
          (by simp [Jobs.number] at hn ⊢; omega)
        exact ⟨by omega, this.2⟩

/-- Every number is that of an operation. -/
theorem number_surj (jobs : Jobs) : ∀ v, 1 ≤ v → v ≤ jobs.total → ∃ j k o, jobs.op? j k = some o ∧ jobs.number j k = v := by
  induction jobs with
  | nil => intro v h1 h2; simp [Jobs.total] at h2; omega
  | cons job jobs ih =>
    intro v h1 h2
    have htot : Jobs.total (job :: jobs) = job.length + Jobs.total jobs := by simp [Jobs.total]
    by_cases hv : v ≤ job.length
    · refine ⟨0, v - 1, job[v - 1], ?_, ?_⟩
      · simp [Jobs.op?, List.getElem?_eq_getElem (show v - 1 < job.length by omega)]
      · simp [Jobs.number]; omega
    · obtain ⟨j, k, o, h3, h4⟩ := ih (v - job.length) (by omega) (by omega)
      refine ⟨j + 1, k, o, by simpa [Jobs.op?] using h3, ?_⟩
      simp [Jobs.number] at h4 ⊢; omega

/-! ## Loading -/

theorem parseOps_ok (first : Nat) (job : List (Nat × Nat)) : ∀ opId, parseOps first opId (job.flatMap fun md => [md.1, md.2]) =
    .ok (job.mapIdx fun k md => Operation.new (opId + k) md.2 md.1 none ((List.range (opId + k - first)).map (first + ·))) := by
  induction job with
  | nil => intro opId; rfl
  | cons md job ih =>
    intro opId
    rw [List.flatMap_cons]
    show (parseOps first (opId + 1) (job.flatMap fun md => [md.1, md.2]) >>= _) = _
    rw [Exc.bind_of_ok (ih (opId + 1)), List.mapIdx_cons]
    show Except.ok _ = _
    congr 2
    refine List.ext_getElem? fun i => ?_
    simp only [List.getElem?_mapIdx]
    congr 1
    funext x
    rw [show opId + 1 + i = opId + (i + 1) by omega]

/-- The jobs as loaded. -/
def loaded : Nat → Jobs → List (List Operation)
  | _, [] => []
  | off, job :: jobs =>
    (job.mapIdx fun k md => Operation.new (off + k) md.2 md.1 none ((List.range k).map (off + ·))) :: loaded (off + job.length) jobs

theorem parseJobs_ok (jobs : Jobs) : ∀ off, parseJobs off (jobs.map fun job => job.flatMap fun md => [md.1, md.2]) =
    .ok (loaded off jobs) := by
  induction jobs with
  | nil => intro off; rfl
  | cons job jobs ih =>
    intro off
    rw [List.map_cons, parseJobs, Exc.bind_of_ok (parseOps_ok off job off)]
    rw [List.length_mapIdx, Exc.bind_of_ok (ih _)]
    show Except.ok _ = _
    rw [loaded]
    congr 2
    refine List.ext_getElem? fun i => ?_
    simp only [List.getElem?_mapIdx]
    congr 1
    funext x
    rw [show off + i - off = i by omega]

theorem parse_ok (jobs : Jobs) (nMachines : Nat) : parse (jobs.file nMachines) = .ok ⟨loaded 0 jobs, nMachines⟩ := by
  show (parseJobs 0 _ >>= _) = _
  rw [Exc.bind_of_ok (parseJobs_ok jobs 0)]
  rfl

/-- The jobs as prepared by the provider. -/
def prepared (n : Nat) : Nat → Jobs → List (List Operation)
  | _, [] => []
  | off, job :: jobs => (jobRecs off job).map (Rec.toOp n) :: prepared n (off + job.length) jobs

theorem redirectJob_ok (n off : Nat) {job : List (Nat × Nat)} (hne : job ≠ []) :
    redirectJob (n + 1) ((job.mapIdx fun k md => Operation.new (off + k) md.2 md.1 none ((List.range k).map (off + ·))).map shiftOp) =
      .ok ((jobRecs off job).map (Rec.toOp n)) := by
  obtain ⟨init, l, rfl⟩ : ∃ init l, job = init ++ [l] := by
    obtain ⟨init, l, h⟩ := List.eq_nil_or_concat job |>.resolve_left hne
    exact ⟨init, l, by simpa using h⟩
  unfold redirectJob
  rw [List.mapIdx_append, List.map_append]
  simp only [List.mapIdx_cons, List.mapIdx_nil, List.map_cons, List.map_nil, List.getLast?_append, List.getLast?_singleton,
    Option.some_or, List.dropLast_concat]
  show Except.ok _ = _
  congr 1
  unfold jobRecs
  rw [List.mapIdx_append, List.map_append]
  congr 1
  · refine List.ext_getElem? fun i => ?_
    simp only [List.getElem?_map, List.getElem?_mapIdx, Option.map_map]
    cases hi : init[i]? with
    | none => rfl
    | some x =>
      have hlt := (List.getElem?_eq_some_iff.1 hi).1
      simp only [Option.map_some, Function.comp]
      congr 1
      unfold shiftOp Rec.toOp Operation.new
      simp only [List.nil_append, List.length_append, List.length_singleton]
      rw [if_neg (by omega)]
      simp only [Operation.mk.injEq, true_and, and_true, List.map_map]
      rfl
  · simp only [List.mapIdx_cons, List.mapIdx_nil, List.map_cons, List.map_nil]
    congr 1
    unfold shiftOp Rec.toOp Operation.new
    simp only [List.length_append, List.length_singleton, Nat.zero_add, List.nil_append, List.dropLast_singleton]
    rw [if_pos trivial]
    simp only [Operation.mk.injEq, true_and, and_true, List.map_map]
    exact ⟨rfl, rfl⟩

theorem prepareJobs_ok (n : Nat) (jobs : Jobs) (hne : ∀ job ∈ jobs, job ≠ []) : ∀ off,
    prepareJobs (n + 1) (loaded off jobs) = .ok (prepared n off jobs, (starts off jobs).map fun w => ⟨w, .jobSucc⟩) := by
  induction jobs with
  | nil => intro off; rfl
  | cons job jobs ih =>
    intro off
    have hj := hne job (by simp)
    rw [loaded, prepareJobs, Exc.bind_of_ok (redirectJob_ok n off hj)]
    obtain ⟨x, xs, rfl⟩ := List.exists_cons_of_ne_nil hj
    have hhead : ((jobRecs off (x :: xs)).map (Rec.toOp n)).head? = some (Rec.toOp n ⟨off, (x :: xs).length, 0, x.1, x.2⟩) := by
      simp [jobRecs]
    rw [hhead]
    show (prepareJobs (n + 1) (loaded _ jobs) >>= _) = _
    rw [Exc.bind_of_ok (ih (fun y hy => hne y (by simp [hy])) _)]
    rfl

theorem loaded_total (jobs : Jobs) : ∀ off, ((loaded off jobs).map List.length).sum = jobs.total := by
  induction jobs with
  | nil => intro off; rfl
  | cons job jobs ih => intro off; simp [loaded, ih, Jobs.total]

theorem prepared_flatten (n : Nat) (jobs : Jobs) : ∀ off, (prepared n off jobs).flatten = (recs off jobs).map (Rec.toOp n) := by
  induction jobs with
  | nil => intro off; rfl
  | cons job jobs ih => intro off; simp [prepared, recs, ih]

/-- The operations shared by all individuals. -/
theorem provider_ok (jobs : Jobs) (nMachines : Nat) (hne : ∀ job ∈ jobs, job ≠ []) :
    provider ⟨loaded 0 jobs, nMachines⟩ = .ok
      ({ Operation.new 0 0 0 none [] with edgesOut := (starts 0 jobs).map fun w => ⟨w, .jobSucc⟩ } ::
        (recs 0 jobs).map (Rec.toOp jobs.total) ++
        [Operation.new (jobs.total + 1) 0 0 none (List.range (jobs.total + 1))]) := by
  unfold provider
  simp only [loaded_total]
  rw [Exc.bind_of_ok (prepareJobs_ok jobs.total jobs hne 0), ← prepared_flatten]
  rfl

/-! ## The shop of an instance -/

/-- The record of an operation number. -/
def recAt (jobs : Jobs) (v : Nat) : Rec := ((recs 0 jobs)[v - 1]?).getD ⟨0, 0, 0, 0, 0⟩

/-- The shop of an instance. -/
def Jobs.shop (jobs : Jobs) (nMachines : Nat) : Shop where
  n := jobs.total
  machines := nMachines
  dur v := if 1 ≤ v ∧ v ≤ jobs.total then (recAt jobs v).d else 0
  mach v := (recAt jobs v).m
  dp v := if (recAt jobs v).k = 0 then 0 else v - 1
  je v := if v = 0 then (starts 0 jobs).map fun w => ⟨w, .jobSucc⟩
    else if v ≤ jobs.total then [⟨if (recAt jobs v).k + 1 = (recAt jobs v).len then jobs.total + 1 else v + 1, .jobSucc⟩]
    else []

theorem shop_je_zero (jobs : Jobs) (nM : Nat) : (jobs.shop nM).je 0 = (starts 0 jobs).map fun w => ⟨w, .jobSucc⟩ := by
  simp [Jobs.shop]

theorem shop_je_mid (jobs : Jobs) (nM : Nat) {v : Nat} (h1 : 1 ≤ v) (h2 : v ≤ jobs.total) : (jobs.shop nM).je v =
    [⟨if (recAt jobs v).k + 1 = (recAt jobs v).len then jobs.total + 1 else v + 1, .jobSucc⟩] := by
  have h : v ≠ 0 := by omega
  simp [Jobs.shop, h, h2]

theorem shop_je_sink (jobs : Jobs) (nM : Nat) : (jobs.shop nM).je (jobs.total + 1) = [] := by
  simp [Jobs.shop]

theorem recAt_spec {jobs : Jobs} {v : Nat} (h1 : 1 ≤ v) (h2 : v ≤ jobs.total) : (recs 0 jobs)[v - 1]? = some (recAt jobs v) := by
  have : v - 1 < (recs 0 jobs).length := by rw [recs_length]; omega
  unfold recAt
  rw [List.getElem?_eq_getElem this]; rfl

theorem total_pos {jobs : Jobs} {nM} (h : jobs.Proper nM) : 1 ≤ jobs.total := by
  obtain ⟨job, rest, hj⟩ := List.exists_cons_of_ne_nil h.some_job
  have : job ≠ [] := h.some_op job (by rw [hj]; simp)
  have := List.length_pos_iff.2 this
  subst hj
  simp only [Jobs.total, List.flatten_cons, List.length_append]; omega

theorem shop_wf {jobs : Jobs} {nM : Nat} (h : jobs.Proper nM) : (jobs.shop nM).WF := by
  have hpos := total_pos h
  have hnext : ∀ w, 1 ≤ w → w ≤ jobs.total → ∀ r, (recs 0 jobs)[w - 1]? = some r → recAt jobs w = r := by
    intro w h3 h4 r hr
    have := recAt_spec h3 h4
    rw [this] at hr
    exact Option.some.inj hr
  refine ⟨hpos, ?_, ?_, ?_, ?_, ?_, ?_, ?_, ?_⟩
  · simp [Jobs.shop]
  · show (if 1 ≤ jobs.total + 1 ∧ jobs.total + 1 ≤ jobs.total then _ else 0) = 0
    rw [if_neg (by omega)]
  · rintro v ⟨h1, -⟩
    show (if (recAt jobs v).k = 0 then 0 else v - 1) < v
    have : 1 ≤ v := h1
    split
    · omega
    · omega
  · rintro v ⟨h1, h2⟩
    obtain ⟨job, h3, h4⟩ := recs_md jobs 0 (v - 1) _ (recAt_spec h1 h2)
    exact h.machine job h3 _ h4
  · rintro v ⟨h1, h2⟩
    have h2' : v ≤ jobs.total := h2
    obtain ⟨a1, a2, a3, a4, a5, a6⟩ := recs_spec jobs 0 (v - 1) _ (recAt_spec h1 h2)
    rw [shop_je_mid jobs nM h1 h2']
    refine ⟨_, rfl, ?_⟩
    by_cases hl : (recAt jobs v).k + 1 = (recAt jobs v).len
    · rw [if_pos hl]; exact .inl rfl
    · rw [if_neg hl]
      obtain ⟨r', b1, b2, b3, b4⟩ := a6 ((recAt jobs v).len - (recAt jobs v).k - 2) (by omega)
      have hlt : v + 1 ≤ jobs.total := by omega
      have : recAt jobs (v + 1) = r' := hnext (v + 1) (by omega) hlt r' (by
        rw [show v + 1 - 1 = v - 1 + 1 by omega]; exact b1)
      refine .inr ⟨⟨by omega, hlt⟩, ?_⟩
      show (if (recAt jobs (v + 1)).k = 0 then 0 else v + 1 - 1) = v
      rw [this, if_neg (by omega)]; omega
  · rintro w ⟨h1, h2⟩
    have h2' : w ≤ jobs.total := h2
    obtain ⟨a1, a2, a3, a4, a5, a6⟩ := recs_spec jobs 0 (w - 1) _ (recAt_spec h1 h2)
    show _ ∈ (jobs.shop nM).je (if (recAt jobs w).k = 0 then 0 else w - 1)
    by_cases hk : (recAt jobs w).k = 0
    · rw [if_pos hk]
      rw [shop_je_zero, List.mem_map]
      refine ⟨w, ?_, rfl⟩
      rw [mem_starts jobs h.some_op]
      exact ⟨by omega, _, by rw [show w - 1 - 0 = w - 1 by omega]; exact recAt_spec h1 h2, hk⟩
    · rw [if_neg hk]
      obtain ⟨r', b1, b2, b3, b4⟩ := a5 ((recAt jobs w).k - 1) (by omega)
      have hw : 1 ≤ w - 1 := by omega
      have : recAt jobs (w - 1) = r' := hnext (w - 1) (by omega) (by omega) r' b1
      rw [shop_je_mid jobs nM hw (by omega), List.mem_singleton, this, if_neg (by omega)]
      rw [show w - 1 + 1 = w by omega]
  · intro e he
    rw [shop_je_zero, List.mem_map] at he
    obtain ⟨w, hw, rfl⟩ := he
    rw [mem_starts jobs h.some_op] at hw
    obtain ⟨b1, r, b2, b3⟩ := hw
    have hlt : w - 1 - 0 < (recs 0 jobs).length := (List.getElem?_eq_some_iff.1 b2).1
    rw [recs_length] at hlt
    refine ⟨rfl, ⟨by show 1 ≤ w; omega, by show w ≤ jobs.total; omega⟩, ?_⟩
    show (if (recAt jobs w).k = 0 then 0 else w - 1) = 0
    have : recAt jobs w = r := hnext w (by omega) (by omega) r (by
      rw [show w - 1 = w - 1 - 0 by omega]; exact b2)
    rw [this, if_pos b3]
  · exact shop_je_sink jobs nM

/-- Models the individuals of `JsspPopProvider::generate` (examples/jssp/problem/population.rs:60-75), for a given
chromosome; the chromosome itself is drawn by `PointGenerator` (modelled in Ga/Population). -/
def freshIndividual {X : Type} (ops : List Operation) (nMachines : Nat) (worst : Nat) (chromosome : List X) : Individual X :=
  Individual.new chromosome (Arr.ofList ops) ⟨nMachines, Machine.new⟩ worst

theorem ofList_get {α : Type} [Inhabited α] {l : List α} {i : Nat} {a : α} (h : l[i]? = some a) : (Arr.ofList l).get i = a := by
  show l.getD i default = a
  rw [List.getD_eq_getElem?_getD, h]; rfl

/-- A fresh individual represents its instance. -/
theorem fresh_ready {jobs : Jobs} {nM : Nat} (h : jobs.Proper nM) {ops : List Operation}
    (ho : provider ⟨loaded 0 jobs, nM⟩ = .ok ops) {X : Type} (worst : Nat) (ch : List X) :
    Ready (jobs.shop nM) (freshIndividual ops nM worst ch).operations (freshIndividual ops nM worst ch).machines := by
  rw [provider_ok jobs nM h.some_op] at ho
  have ho' := Except.ok.inj ho
  have hpos := total_pos h
  have hlen : ((recs 0 jobs).map (Rec.toOp jobs.total)).length = jobs.total := by rw [List.length_map, recs_length]
  have hg0 : (Arr.ofList ops).get 0 = { Operation.new 0 0 0 none [] with edgesOut := (starts 0 jobs).map fun w => ⟨w, .jobSucc⟩ } :=
    ofList_get (by rw [← ho']; rfl)
  have hgs : (Arr.ofList ops).get (jobs.total + 1) = Operation.new (jobs.total + 1) 0 0 none (List.range (jobs.total + 1)) := by
    refine ofList_get ?_
    rw [← ho', List.cons_append, List.getElem?_cons_succ, List.getElem?_append_right (by omega), hlen, Nat.sub_self]
    rfl
  have hgm : ∀ v, 1 ≤ v → v ≤ jobs.total → (Arr.ofList ops).get v = Rec.toOp jobs.total (recAt jobs v) := by
    intro v h1 h2
    refine ofList_get ?_
    obtain ⟨w, rfl⟩ : ∃ w, v = w + 1 := ⟨v - 1, by omega⟩
    rw [← ho', List.cons_append, List.getElem?_cons_succ, List.getElem?_append_left (by omega), List.getElem?_map]
    have := recAt_spec h1 h2
    rw [show w + 1 - 1 = w by omega] at this
    rw [this]; rfl
  have hspec : ∀ v, 1 ≤ v → v ≤ jobs.total → (recAt jobs v).off + (recAt jobs v).k = v - 1 := fun v h1 h2 => by
    have := (recs_spec jobs 0 (v - 1) _ (recAt_spec h1 h2)).1
    omega
  have hcase : ∀ v, v ≤ jobs.total + 1 → v = 0 ∨ v = jobs.total + 1 ∨ (1 ≤ v ∧ v ≤ jobs.total) := by intro v hv; omega
  show Ready (jobs.shop nM) (Arr.ofList ops) ⟨nM, Machine.new⟩
  refine ⟨⟨?_, ?_, ?_, ?_, ?_, ?_, ?_, ?_, ?_, ?_⟩, ?_, rfl, fun m hm => ⟨rfl, rfl⟩⟩
  · show ops.length = jobs.total + 2
    rw [← ho']; simp [recs_length]
  · intro v hv
    rcases hcase v hv with rfl | rfl | ⟨h1, h2⟩
    · rw [hg0]; rfl
    · rw [hgs]; rfl
    · rw [hgm v h1 h2]
      have := hspec v h1 h2
      show (recAt jobs v).off + (recAt jobs v).k + 1 = v
      omega
  · intro v hv
    rcases hcase v hv with rfl | rfl | ⟨h1, h2⟩
    · rw [hg0]
      show 0 = if 1 ≤ 0 ∧ 0 ≤ jobs.total then (recAt jobs 0).d else 0
      rw [if_neg (by omega)]
    · rw [hgs]
      show 0 = if 1 ≤ jobs.total + 1 ∧ jobs.total + 1 ≤ jobs.total then _ else 0
      rw [if_neg (by omega)]
    · rw [hgm v h1 h2]
      show (recAt jobs v).d = if 1 ≤ v ∧ v ≤ jobs.total then _ else 0
      rw [if_pos ⟨h1, h2⟩]
  · rintro v ⟨h1, h2⟩
    rw [hgm v h1 h2]; rfl
  · rintro v ⟨h1, h2⟩
    rw [hgm v h1 h2]
    have := hspec v h1 h2
    show (0 :: (List.range (recAt jobs v).k).map ((recAt jobs v).off + · + 1)).getLast? = some (if (recAt jobs v).k = 0 then 0 else v - 1)
    cases hk : (recAt jobs v).k with
    | zero => rfl
    | succ k =>
      rw [List.range_succ, List.map_append, ← List.cons_append, List.getLast?_append]
      simp only [List.map_cons, List.map_nil, List.getLast?_singleton, Option.some_or]
      rw [if_neg (by omega)]
      congr 1; omega
  · intro v hv
    show v ∈ ((Arr.ofList ops).get (jobs.total + 1)).preds
    rw [hgs]
    have hv' : v ≤ jobs.total := hv
    show v ∈ List.range (jobs.total + 1)
    rw [List.mem_range]; omega
  · intro v hv
    have hv' : v ∈ ((Arr.ofList ops).get (jobs.total + 1)).preds := hv
    rw [hgs] at hv'
    have hv'' : v ∈ List.range (jobs.total + 1) := hv'
    rw [List.mem_range] at hv''
    show v ≤ jobs.total
    omega
  · intro v hv
    simp only [Option.toList_none, List.map_nil, List.append_nil]
    rcases hcase v hv with rfl | rfl | ⟨h1, h2⟩
    · rw [hg0, shop_je_zero]
    · rw [hgs, shop_je_sink]; rfl
    · rw [hgm v h1 h2, shop_je_mid jobs nM h1 h2]
      have := hspec v h1 h2
      show [(⟨if _ then _ else (recAt jobs v).off + (recAt jobs v).k + 2, _⟩ : Edge)] = _
      rw [show (recAt jobs v).off + (recAt jobs v).k + 2 = v + 1 by omega]
  · intro v hv
    rcases hcase v hv with rfl | rfl | ⟨h1, h2⟩
    · rw [hg0]; rfl
    · rw [hgs]; rfl
    · rw [hgm v h1 h2]; rfl
  · show ((Arr.ofList ops).get (jobs.total + 1)).criticalPathEdge = none
    rw [hgs]; rfl
  · intro v hv
    rcases hcase v hv with rfl | rfl | ⟨h1, h2⟩
    · rw [hg0]; rfl
    · show ((Arr.ofList ops).get (jobs.total + 1)).finishTime = none
      rw [hgs]; rfl
    · rw [hgm v h1 h2]; rfl

end Ecrs.Jssp
