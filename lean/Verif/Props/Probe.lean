import Verif.Ga.Probe
import Verif.Ga.SolverLemmas
import Verif.Props.Presets

/-!
# Properties C43, C44, C71: GA probes and probing policies
-/

set_option linter.unusedSectionVars false

namespace Ecrs.Ga
open Ecrs

/-! ## C44: aggregation -/

section agg
variable {W I : Type}

/-- A probe that appends its name and the callback to a shared log. -/
def recorder (name : Nat) : Probe (List (Nat × Ev I)) I := fun e w => .ok ((), w ++ [(name, e)])

theorem feed_append (p : Probe W I) (xs ys : List (Ev I)) :
    feed p (xs ++ ys) = (do feed p xs; feed p ys) := by
  induction xs with
  | nil => simp [feed]
  | cons x xs ih =>
    show (p x >>= fun _ => feed p (xs ++ ys)) = _
    rw [ih]
    simp [feed, bind_assoc]

theorem aggregated_recorders (names : List Nat) (e : Ev I) (log : List (Nat × Ev I)) :
    aggregated (names.map recorder) e log = .ok ((), log ++ names.map fun n => (n, e)) := by
  induction names generalizing log with
  | nil => simp [aggregated]
  | cons n ns ih =>
    show ((recorder n e) >>= fun _ => aggregated (ns.map recorder) e) log = _
    rw [M.bind_of_ok (a := ()) (w' := log ++ [(n, e)]) rfl, ih]
    simp

/-- **C44, order.** Feeding any callback sequence to an AggregatedProbe of recording probes produces, for each
callback in turn, one record per probe in the order the probes were added. -/
theorem C44_registration_order (names : List Nat) (es : List (Ev I)) (log : List (Nat × Ev I)) :
    feed (aggregated (names.map recorder)) es log =
      .ok ((), log ++ es.flatMap fun e => names.map fun n => (n, e)) := by
  induction es generalizing log with
  | nil => simp [feed]
  | cons e es ih =>
    show ((aggregated (names.map recorder) e) >>= fun _ => feed (aggregated (names.map recorder)) es) log = _
    rw [M.bind_of_ok (aggregated_recorders names e log), ih]
    simp

/-- **C44, completeness.** Each of the (distinctly named) probes sees exactly the callback sequence given to the
aggregate: nothing lost, duplicated or reordered. -/
theorem C44_each_probe_sees_everything (names : List Nat) (hn : names.Nodup) (es : List (Ev I)) :
    ∃ log, feed (aggregated (names.map recorder)) es [] = .ok ((), log) ∧
      ∀ n ∈ names, log.filterMap (fun r => if r.1 = n then some r.2 else none) = es := by
  refine ⟨_, C44_registration_order names es [], fun n h => ?_⟩
  have key : ∀ e : Ev I, (names.map fun m => (m, e)).filterMap
      (fun r => if r.1 = n then some r.2 else none) = [e] := by
    intro e
    clear es
    induction names with
    | nil => simp at h
    | cons m ms ih =>
      obtain ⟨hm, hms⟩ := List.nodup_cons.1 hn
      simp only [List.map_cons]
      by_cases hmn : m = n
      · subst hmn
        rw [List.filterMap_cons_some (f := fun r : Nat × Ev I => if r.1 = m then some r.2 else none)
          (b := e) (by simp)]
        congr 1
        rw [List.filterMap_eq_nil_iff]
        intro r hr
        obtain ⟨k, hk, rfl⟩ := List.mem_map.1 hr
        have : k ≠ m := by rintro rfl; exact hm hk
        simp [this]
      · rw [List.filterMap_cons_none (by simp [hmn])]
        exact ih hms (by simpa [Ne.symm hmn] using h)
  simp only [List.nil_append]
  induction es with
  | nil => simp
  | cons e es ih => simp only [List.flatMap_cons, List.filterMap_append, key e, ih]; simp

/-- **C44, arbitrary probes.** For arbitrary (possibly panicking) probes: adding a probe appends it, so it is
called after all the others for every callback; and aggregates may be nested freely. -/
theorem C44_nested (ps qs : List (Probe W I)) (e : Ev I) :
    aggregated (addProbe ps (aggregated qs)) e = aggregated (ps ++ qs) e ∧
    aggregated (addProbe ps (aggregated qs)) e = (do aggregated ps e; aggregated qs e) := by
  have h1 : ∀ rs : List (Probe W I), aggregated (ps ++ rs) e = (do aggregated ps e; aggregated rs e) := by
    intro rs
    induction ps with
    | nil => simp [aggregated]
    | cons p ps ih =>
      show (p e >>= fun _ => aggregated (ps ++ rs) e) = _
      rw [ih]; simp [aggregated, bind_assoc]
  have h2 : aggregated [aggregated qs] e = aggregated qs e := by
    show (aggregated qs e >>= fun _ => pure ()) = _
    exact bind_pure _
  unfold addProbe
  rw [h1, h1, h2]
  exact ⟨rfl, rfl⟩

end agg

/-! ## C43, C71: policies -/

section policy
variable {I : Type}

/-- Specification: with first threshold `t` and interval `n`, which of the iterations whose start values are `vs`
are logged: one is logged iff its value has reached `t + n * (number of iterations logged before)`. -/
def loggedIterations (n : Nat) : Nat → List Nat → List Bool
  | _, [] => []
  | t, v :: vs => if t ≤ v then true :: loggedIterations n (t + n) vs else false :: loggedIterations n t vs

/-- Specification: which callbacks reach the wrapped probe, given which generations (1-based) are logged:
`on_start`, `on_initial_population_created`, `on_new_best` and `on_end` always, the iteration callbacks of a
generation iff it is logged. -/
def keep (logged : List Bool) : Ev I → Bool
  | .onStart _ | .onInitialPopulation _ _ | .onNewBest _ _ | .onEnd _ _ _ => true
  | .onIterationStart m | .onNewGeneration m _ | .onBestFit m _ | .onIterationEnd m =>
    logged.getD (m.generation - 1) false
  | _ => false

/-- The elapsed time at the start of each generation, as reported by the metrics. -/
def startTimes (tr : List (Ev I)) : List Nat :=
  tr.filterMap fun | .onIterationStart m => m.totalDur | _ => none

/-- The generation numbers reported at the start of each generation. -/
def startGenerations (tr : List (Ev I)) : List Nat :=
  tr.filterMap fun | .onIterationStart m => some m.generation | _ => none

/-- Threshold after the iterations `vs`. -/
def thresholdAfter (n : Nat) : Nat → List Nat → Nat
  | t, [] => t
  | t, v :: vs => if t ≤ v then thresholdAfter n (t + n) vs else thresholdAfter n t vs

theorem loggedIterations_length (n : Nat) (vs : List Nat) (t : Nat) :
    (loggedIterations n t vs).length = vs.length := by
  induction vs generalizing t with
  | nil => rfl
  | cons v vs ih => unfold loggedIterations; split <;> simp [ih]

theorem loggedIterations_append (n : Nat) (vs ws : List Nat) (t : Nat) :
    loggedIterations n t (vs ++ ws) =
      loggedIterations n t vs ++ loggedIterations n (thresholdAfter n t vs) ws := by
  induction vs generalizing t with
  | nil => rfl
  | cons v vs ih =>
    simp only [List.cons_append, loggedIterations, thresholdAfter]
    split <;> simp [ih]

theorem thresholdAfter_append (n : Nat) (vs ws : List Nat) (t : Nat) :
    thresholdAfter n t (vs ++ ws) = thresholdAfter n (thresholdAfter n t vs) ws := by
  induction vs generalizing t with
  | nil => rfl
  | cons v vs ih =>
    simp only [List.cons_append, thresholdAfter]
    split <;> simp [ih]

theorem thresholdAfter_singleton (n t x : Nat) :
    thresholdAfter n t [x] = if t ≤ x then t + n else t := by
  rw [thresholdAfter]; split <;> rw [thresholdAfter]

theorem loggedIterations_singleton (n t x : Nat) : loggedIterations n t [x] = [decide (t ≤ x)] := by
  rw [loggedIterations]; split <;> simp_all [loggedIterations]

theorem policyDriven_append {σ : Type} {policy : σ → Ev I → Except Panic (Bool × σ)} :
    ∀ {s s' : σ} {xs ys out : List (Ev I)}, policyDriven policy s xs = .ok (out, s') →
      policyDriven policy s (xs ++ ys) = match policyDriven policy s' ys with
        | .error e => .error e
        | .ok (out', s'') => .ok (out ++ out', s'')
  | s, s', [], ys, out, h => by
    cases h
    show policyDriven policy s ys = _
    cases policyDriven policy s ys with
    | error e => rfl
    | ok r => rfl
  | s, s', x :: xs, ys, out, h => by
    unfold policyDriven at h
    cases hp : policy s x with
    | error e => rw [hp] at h; cases h
    | ok r =>
      obtain ⟨b, s1⟩ := r
      rw [hp] at h
      simp only at h
      cases hr : policyDriven policy s1 xs with
      | error e => rw [hr] at h; cases h
      | ok r =>
        obtain ⟨o1, s2⟩ := r
        rw [hr] at h
        cases h
        rw [List.cons_append, policyDriven, hp]
        simp only
        rw [policyDriven_append (ys := ys) hr]
        cases policyDriven policy s' ys with
        | error e => rfl
        | ok r => cases b <;> rfl

/-- The common shape of the two shipped policies: `v m` is the value compared with the threshold. -/
structure IsInterval (policy : PolicyState → Ev I → Except Panic (Bool × PolicyState)) (n : Nat)
    (v : Metrics → Option Nat) : Prop where
  start : ∀ s m, policy s (.onStart m) = .ok (true, s)
  initial : ∀ s m pop, policy s (.onInitialPopulation m pop) = .ok (true, s)
  newBest : ∀ s m i, policy s (.onNewBest m i) = .ok (true, s)
  newGen : ∀ s m pop, policy s (.onNewGeneration m pop) = .ok (s.shouldLog, s)
  bestFit : ∀ s m i, policy s (.onBestFit m i) = .ok (s.shouldLog, s)
  iterStart : ∀ s m x, v m = some x → policy s (.onIterationStart m) =
    if s.threshold ≤ x then .ok (true, ⟨s.threshold + n, true⟩) else .ok (false, s)
  iterEnd : ∀ s m, policy s (.onIterationEnd m) = .ok (s.shouldLog, { s with shouldLog := false })
  fin : ∀ s m pop b, policy s (.onEnd m pop b) = .ok (true, s)

theorem generationInterval_isInterval (n : Nat) :
    IsInterval (I := I) (generationInterval n) n (fun m => some m.generation) where
  start _ _ := rfl
  initial _ _ _ := rfl
  newBest _ _ _ := rfl
  newGen _ _ _ := rfl
  bestFit _ _ _ := rfl
  iterStart s m x h := by cases h; rfl
  iterEnd _ _ := rfl
  fin _ _ _ _ := rfl

theorem elapsedTime_isInterval (n : Nat) :
    IsInterval (I := I) (elapsedTime n) n (fun m => m.totalDur) where
  start _ _ := rfl
  initial _ _ _ := rfl
  newBest _ _ _ := rfl
  newGen _ _ _ := rfl
  bestFit _ _ _ := rfl
  iterStart s m x h := by unfold elapsedTime; simp only [h]
  iterEnd _ _ := rfl
  fin _ _ _ _ := rfl

theorem callbacks_append (xs ys : List (Ev I)) : callbacks (xs ++ ys) = callbacks xs ++ callbacks ys :=
  List.filter_append ..

theorem keep_mono {logged more : List Bool} {k : Nat} {e : Ev I} (hl : logged.length = k)
    (he : ∀ m, (e = .onIterationStart m ∨ (∃ p, e = .onNewGeneration m p) ∨ (∃ i, e = .onBestFit m i) ∨
      e = .onIterationEnd m) → 1 ≤ m.generation ∧ m.generation ≤ k) :
    keep (logged ++ more) e = keep logged e := by
  have aux : ∀ m : Metrics, 1 ≤ m.generation ∧ m.generation ≤ k →
      (logged ++ more).getD (m.generation - 1) false = logged.getD (m.generation - 1) false := by
    intro m hm
    simp only [List.getD_eq_getElem?_getD]
    rw [List.getElem?_append_left (by omega)]
  cases e with
  | onIterationStart m => exact aux m (he m (.inl rfl))
  | onNewGeneration m p => exact aux m (he m (.inr (.inl ⟨p, rfl⟩)))
  | onBestFit m i => exact aux m (he m (.inr (.inr (.inl ⟨i, rfl⟩))))
  | onIterationEnd m => exact aux m (he m (.inr (.inr (.inr rfl))))
  | _ => rfl

section run
variable {W C K : Type} [LinearOrder K] (T : IndTrait I C K) (ops : Ops W I K) (p : GAParams)

/-- Iteration callbacks of the trace carry generation numbers `1..k`. -/
def GensUpTo (k : Nat) (tr : List (Ev I)) : Prop :=
  ∀ e ∈ tr, ∀ m, (e = .onIterationStart m ∨ (∃ p, e = .onNewGeneration m p) ∨ (∃ i, e = .onBestFit m i) ∨
      e = .onIterationEnd m) → 1 ≤ m.generation ∧ m.generation ≤ k

/-- The invariant: `vs` are the policy values of the generations so far. -/
def PolicyInv (policy : PolicyState → Ev I → Except Panic (Bool × PolicyState)) (n t : Nat)
    (v : Metrics → Option Nat) (g : Nat) (s : St I) : Prop :=
  1 ≤ g ∧ GensUpTo (g - 1) s.trace ∧ ∃ vs : List Nat, vs.length = g - 1 ∧
    vs = s.trace.filterMap (fun | .onIterationStart m => v m | _ => none) ∧
    startGenerations s.trace = List.range' 1 (g - 1) ∧
    policyDriven policy (PolicyState.new t) (callbacks s.trace) =
      .ok ((callbacks s.trace).filter (keep (loggedIterations n t vs)), ⟨thresholdAfter n t vs, false⟩)

theorem policy_block {policy : PolicyState → Ev I → Except Panic (Bool × PolicyState)} {n t : Nat}
    {v : Metrics → Option Nat} (hp : IsInterval policy n v) {m m' : Metrics} {x : Nat} (hx : v m = some x)
    (pop : List I) (b : I) (nb : List (Ev I)) (hnb : nb = [] ∨ nb = [.onNewBest m' b]) :
    policyDriven policy ⟨t, false⟩
      ([.onIterationStart m, .onNewGeneration m' pop, .onBestFit m' b] ++ nb ++ [.onIterationEnd m']) =
    .ok (if t ≤ x then [.onIterationStart m, .onNewGeneration m' pop, .onBestFit m' b] ++ nb ++
        [.onIterationEnd m'] else nb,
      ⟨if t ≤ x then t + n else t, false⟩) := by
  by_cases h : t ≤ x
  · rcases hnb with rfl | rfl <;>
      simp [policyDriven, hp.iterStart _ _ _ hx, hp.newGen, hp.bestFit, hp.iterEnd, hp.newBest, h]
  · rcases hnb with rfl | rfl <;>
      simp [policyDriven, hp.iterStart _ _ _ hx, hp.newGen, hp.bestFit, hp.iterEnd, hp.newBest, h]

theorem policyInv_step {policy : PolicyState → Ev I → Except Panic (Bool × PolicyState)} {n t : Nat}
    {v : Metrics → Option Nat} (hp : IsInterval policy n v) (hv : ∀ m d, m.totalDur = some d → ∃ x, v m = some x)
    (g : Nat) (s : St I) (w : W) (s' : St I) (stop : Bool) (w' : W)
    (hi : PolicyInv policy n t v g s) (h : iteration T ops p g s w = .ok ((s', stop), w')) :
    PolicyInv policy n t v (g + 1) s' := by
  obtain ⟨d, wa, m, pop, wb, pool, wc, crossed, wd, mutated, we, children, wf, replaced, wg, m', wh, b, d',
    wi, -, hm, -, -, -, -, -, -, hm', -, -, -, -, -, -, -, htr⟩ := iteration_ok T ops p h
  obtain ⟨hg, hgens, vs, hlen, hvs, hsg, hdrive⟩ := hi
  obtain ⟨x, hx⟩ := hv m d (by rw [hm])
  have hgm : m.generation = g := by rw [hm]
  have hgm' : m'.generation = g := by rw [hm', hm]
  generalize hnb : (if Fl.lt (T.fitness b) (T.fitness s.best) then [Ev.onNewBest m' b] else []) = nb at htr
  have hnb' : nb = [] ∨ nb = [.onNewBest m' b] := by rw [← hnb]; split <;> simp
  have hcb : callbacks s'.trace = callbacks s.trace ++
      ([.onIterationStart m, .onNewGeneration m' s'.pop, .onBestFit m' b] ++ nb ++ [.onIterationEnd m']) := by
    rw [htr]
    simp only [callbacks_append, List.append_assoc]
    congr 1
    rcases hnb' with rfl | rfl <;> rfl
  refine ⟨by omega, ?_, vs ++ [x], by simp [hlen]; omega, ?_, ?_, ?_⟩
  · intro e he m1 hm1
    rw [htr] at he
    simp only [List.mem_append, List.mem_cons, List.not_mem_nil, or_false] at he
    rcases he with ((he | rfl | rfl | rfl | rfl | rfl) | he) | rfl | rfl
    · have := hgens e he m1 hm1; omega
    · simp at hm1; subst hm1; omega
    · simp at hm1
    · simp at hm1
    · simp at hm1; subst hm1; omega
    · simp at hm1; subst hm1; omega
    · rcases hnb' with rfl | rfl
      · simp at he
      · simp at he; subst he; simp at hm1
    · simp at hm1; subst hm1; omega
    · simp at hm1
  · rw [htr, hvs]
    rcases hnb' with rfl | rfl <;> simp [List.filterMap_append, hx]
  · rw [htr]
    have : startGenerations (s.trace ++ [.onIterationStart m, .selectCall pop, .replaceCall pop children,
        .onNewGeneration m' s'.pop, .onBestFit m' b] ++ nb ++ [.onIterationEnd m', .clockCheck d']) =
        startGenerations s.trace ++ [g] := by
      unfold startGenerations
      rcases hnb' with rfl | rfl <;> simp [List.filterMap_append, hgm]
    rw [this, hsg, show g + 1 - 1 = (g - 1) + 1 by omega, List.range'_concat]
    simp; omega
  · rw [hcb, policyDriven_append hdrive, policy_block hp hx _ _ _ hnb']
    simp only
    have hle : (loggedIterations n t vs).length = g - 1 := by rw [loggedIterations_length, hlen]
    have hold : (callbacks s.trace).filter (keep (loggedIterations n t (vs ++ [x]))) =
        (callbacks s.trace).filter (keep (loggedIterations n t vs)) := by
      rw [loggedIterations_append]
      refine List.filter_congr fun e he => ?_
      exact keep_mono hle fun m1 hm1 => hgens e (List.mem_of_mem_filter he) m1 hm1
    have hdec : (loggedIterations n t (vs ++ [x])).getD (g - 1) false = decide (thresholdAfter n t vs ≤ x) := by
      rw [loggedIterations_append, List.getD_eq_getElem?_getD, List.getElem?_append_right (by omega)]
      rw [hle]
      rw [loggedIterations_singleton]; simp
    rw [List.filter_append, hold]
    have hthr : thresholdAfter n t (vs ++ [x]) =
        if thresholdAfter n t vs ≤ x then thresholdAfter n t vs + n else thresholdAfter n t vs := by
      rw [thresholdAfter_append, thresholdAfter_singleton]
    rw [hthr]
    congr 2
    have k1 : keep (loggedIterations n t (vs ++ [x])) (.onIterationStart m : Ev I) =
        decide (thresholdAfter n t vs ≤ x) := by rw [← hdec, ← hgm]; rfl
    have k2 : keep (loggedIterations n t (vs ++ [x])) (.onNewGeneration m' s'.pop : Ev I) =
        decide (thresholdAfter n t vs ≤ x) := by rw [← hdec, ← hgm']; rfl
    have k3 : keep (loggedIterations n t (vs ++ [x])) (.onBestFit m' b : Ev I) =
        decide (thresholdAfter n t vs ≤ x) := by rw [← hdec, ← hgm']; rfl
    have k4 : keep (loggedIterations n t (vs ++ [x])) (.onIterationEnd m' : Ev I) =
        decide (thresholdAfter n t vs ≤ x) := by rw [← hdec, ← hgm']; rfl
    have k5 : keep (loggedIterations n t (vs ++ [x])) (.onNewBest m' b : Ev I) = true := rfl
    by_cases hthx : thresholdAfter n t vs ≤ x
    · rw [if_pos hthx]
      rcases hnb' with rfl | rfl <;>
        simp [k1, k2, k3, k4, k5, hthx]
    · rw [if_neg hthx]
      rcases hnb' with rfl | rfl <;>
        simp [k1, k2, k3, k4, k5, hthx]

theorem policy_run {policy : PolicyState → Ev I → Except Panic (Bool × PolicyState)} {n t : Nat}
    {v : Metrics → Option Nat} (hp : IsInterval policy n v) (hv : ∀ m d, m.totalDur = some d → ∃ x, v m = some x)
    {m0 : Metrics} {best : I} {tr : List (Ev I)} {w w' : W} (h : run T ops p m0 w = .ok ((best, tr), w')) :
    ∃ (k : Nat) (vs : List Nat) (s : PolicyState), vs.length = k ∧ startGenerations tr = List.range' 1 k ∧
      vs = tr.filterMap (fun | .onIterationStart m => v m | _ => none) ∧
      policyDriven policy (PolicyState.new t) (callbacks tr) =
        .ok ((callbacks tr).filter (keep (loggedIterations n t vs)), s) := by
  obtain ⟨s, wa, s', wb, d, h1, hl, -, -, htr⟩ := run_ok T ops p h
  obtain ⟨pop0, wc, wd, d0, -, -, -, -, -, g6⟩ := prologue_ok T ops p h1
  have h0 : PolicyInv policy n t v 1 s := by
    refine ⟨le_rfl, ?_, [], rfl, ?_, ?_, ?_⟩
    · intro e he m hm
      rw [g6] at he; simp at he
      rcases he with rfl | rfl | rfl <;> simp at hm
    · rw [g6]; simp
    · rw [g6]; rfl
    · rw [g6]
      simp [callbacks, Ev.isCallback, policyDriven, hp.start, hp.initial, hp.newBest, keep, PolicyState.new,
        thresholdAfter, List.filter_cons]
  obtain ⟨k, -, -, hgens, vs, hlen, hvs, hsg, hdrive⟩ := loop_inv T ops p
    (policyInv_step T ops p hp hv) _ _ _ _ _ _ h0 hl
  have hlen' : vs.length = k := by omega
  rw [show 1 + k - 1 = k by omega] at hsg
  subst htr
  refine ⟨k, vs, ⟨thresholdAfter n t vs, false⟩, hlen', ?_, ?_, ?_⟩
  · simp only [startGenerations, List.filterMap_append]
    show startGenerations s'.trace ++ _ = _
    rw [hsg]; simp
  · rw [List.filterMap_append, ← hvs]; simp
  · rw [callbacks_append, policyDriven_append hdrive]
    simp [callbacks, Ev.isCallback, policyDriven, hp.fin, keep, List.filter_cons]

/-! ### C43 -/

/-- Specification: the generations logged by `GenerationInterval::new(interval, first)`. -/
def GenerationLogged (interval first g : Nat) : Prop :=
  first ≤ g ∧ ((g - first) % interval = 0 ∨ interval = 0 ∨ (first = 0 ∧ g = 1))

instance (interval first g : Nat) : Decidable (GenerationLogged interval first g) := by
  unfold GenerationLogged; infer_instance

theorem logged_range (n t : Nat) : ∀ (k g thr : Nat), 1 ≤ g →
    ((n = 0 ∧ thr = t) ∨ (n = 1 ∧ t = 0 ∧ thr = g - 1) ∨ (t = 0 ∧ g = 1 ∧ thr = 0 ∧ 2 ≤ n) ∨
      (1 ≤ n ∧ g ≤ thr ∧ t ≤ thr ∧ (thr - t) % n = 0 ∧ (thr = t ∨ thr < g + n) ∧ (t = 0 → 2 ≤ g))) →
    loggedIterations n thr (List.range' g k) =
      (List.range' g k).map fun g => decide (GenerationLogged n t g)
  | 0, _, _, _, _ => rfl
  | k + 1, g, thr, hg, hinv => by
    rw [List.range'_succ]
    have hcase : ∀ (b : Bool), b = decide (thr ≤ g) → b = decide (GenerationLogged n t g) ∧
        loggedIterations n (if b then thr + n else thr) (List.range' (g + 1) k) =
          (List.range' (g + 1) k).map fun g => decide (GenerationLogged n t g) := by
      intro b hb
      subst hb
      by_cases hle : thr ≤ g
      · simp only [hle, decide_true, if_true]
        rcases hinv with ⟨rfl, rfl⟩ | ⟨rfl, rfl, h⟩ | ⟨rfl, rfl, rfl, hn⟩ | ⟨hn, h1, h2, h3, h4, h5⟩
        · exact ⟨by simp [GenerationLogged, hle], logged_range 0 thr k _ _ (by omega) (.inl ⟨rfl, by omega⟩)⟩
        · exact ⟨by simp [GenerationLogged, Nat.mod_one],
            logged_range 1 0 k _ _ (by omega) (.inr (.inl ⟨rfl, rfl, by omega⟩))⟩
        · exact ⟨by simp [GenerationLogged],
            logged_range n 0 k _ _ (by omega) (.inr (.inr (.inr ⟨by omega, by omega, by omega, by simp,
              .inr (by omega), fun _ => by omega⟩)))⟩
        · have hgt : g = thr := by omega
          subst hgt
          refine ⟨by simp [GenerationLogged, h2, h3], ?_⟩
          refine logged_range n t k _ _ (by omega) (.inr (.inr (.inr ⟨hn, by omega, by omega, ?_, .inr (by omega),
            fun h => by have := h5 h; omega⟩)))
          rw [show g + n - t = (g - t) + n by omega, Nat.add_mod_right, h3]
      · simp only [hle, decide_false, Bool.false_eq_true, if_false]
        rcases hinv with ⟨rfl, rfl⟩ | ⟨rfl, rfl, h⟩ | ⟨rfl, rfl, rfl, hn⟩ | ⟨hn, h1, h2, h3, h4, h5⟩
        · exact ⟨by simp [GenerationLogged, hle], logged_range 0 thr k _ _ (by omega) (.inl ⟨rfl, rfl⟩)⟩
        · omega
        · omega
        · refine ⟨?_, logged_range n t k _ _ (by omega) (.inr (.inr (.inr ⟨hn, by omega, h2, h3, by omega,
            fun h => by have := h5 h; omega⟩)))⟩
          symm
          rw [decide_eq_false_iff_not]
          rintro ⟨ht, h | h | h⟩
          · have hne : thr ≠ t := by omega
            have hlt : thr < g + n := by omega
            have h6 : (thr - t) - (g - t) = thr - g := by omega
            have h7 : n ∣ (thr - t) - (g - t) :=
              Nat.dvd_sub (Nat.dvd_of_mod_eq_zero h3) (Nat.dvd_of_mod_eq_zero h)
            rw [h6] at h7
            have := Nat.le_of_dvd (by omega) h7
            omega
          · omega
          · have := h5 h.1; omega
    obtain ⟨h1, h2⟩ := hcase _ rfl
    rw [List.map_cons, ← h1, ← h2]
    rw [loggedIterations]
    by_cases hle : thr ≤ g
    · rw [if_pos hle]; simp [hle]
    · rw [if_neg hle]; simp [hle]

/-- Specification: what reaches a probe wrapped in `PolicyDrivenProbe(GenerationInterval::new(n, t))`. -/
def keepGenerations (n t : Nat) : Ev I → Bool
  | .onStart _ | .onInitialPopulation _ _ | .onNewBest _ _ | .onEnd _ _ _ => true
  | .onIterationStart m | .onNewGeneration m _ | .onBestFit m _ | .onIterationEnd m =>
    decide (GenerationLogged n t m.generation)
  | _ => false

/-- **C43.** In every returning run, a probe wrapped with `GenerationInterval::new(interval, first)` receives
exactly, and in order: `on_start`, `on_initial_population_created`, every `on_new_best`, `on_end`, and the
iteration callbacks of the generations `g ≥ first` with `interval ∣ g - first` (every `g ≥ first` when the
interval is 0; when `first` is 0 also generation 1). -/
theorem C43_generation_interval {m0 : Metrics} {best : I} {tr : List (Ev I)} {w w' : W}
    (h : run T ops p m0 w = .ok ((best, tr), w')) (interval first : Nat) :
    ∃ s, policyDriven (generationInterval interval) (PolicyState.new first) (callbacks tr) =
      .ok ((callbacks tr).filter (keepGenerations interval first), s) := by
  obtain ⟨s, wa, s', wb, d, h1, hl, -, -, htr⟩ := run_ok T ops p h
  obtain ⟨pop0, wc, wd, d0, -, -, -, -, -, g6⟩ := prologue_ok T ops p h1
  have hp := generationInterval_isInterval (I := I) interval
  obtain ⟨k, vs, s1, hlen, hsg, hvs, hdrive⟩ := policy_run T ops p (t := first) hp
    (fun m d _ => ⟨_, rfl⟩) h
  refine ⟨s1, ?_⟩
  have hvs' : vs = List.range' 1 k := by
    rw [hvs, ← hsg]; rfl
  rw [hdrive]
  congr 2
  -- generations in the trace are within 1..k
  have hgens : GensUpTo k tr := by
    have h0 : PolicyInv (generationInterval interval) interval first (fun m => some m.generation) 1 s := by
      refine ⟨le_rfl, ?_, [], rfl, ?_, ?_, ?_⟩
      · intro e he m hm
        rw [g6] at he; simp at he
        rcases he with rfl | rfl | rfl <;> simp at hm
      · rw [g6]; simp
      · rw [g6]; rfl
      · rw [g6]
        simp [callbacks, Ev.isCallback, policyDriven, hp.start, hp.initial, hp.newBest, keep, PolicyState.new,
          thresholdAfter, List.filter_cons]
    obtain ⟨k', -, -, hgens, vs', hlen', hvs'', hsg', -⟩ := loop_inv T ops p
      (policyInv_step T ops p hp (fun m d _ => ⟨_, rfl⟩)) _ _ _ _ _ _ h0 hl
    have hk : k' = k := by
      have : startGenerations tr = startGenerations s'.trace := by
        rw [htr]; simp [startGenerations, List.filterMap_append]
      rw [this, hsg'] at hsg
      have := congrArg List.length hsg
      simpa using this
    rw [show 1 + k' - 1 = k by omega] at hgens
    intro e he m hm
    rw [htr] at he
    rcases List.mem_append.1 he with he | he
    · exact hgens e he m hm
    · simp at he; subst he; simp at hm
  refine List.filter_congr fun e he => ?_
  have hmem := List.mem_of_mem_filter he
  have aux : ∀ m : Metrics, 1 ≤ m.generation ∧ m.generation ≤ k →
      (loggedIterations interval first vs).getD (m.generation - 1) false =
        decide (GenerationLogged interval first m.generation) := by
    intro m hm
    rw [hvs', logged_range interval first k 1 first (le_refl 1) ?_]
    · simp only [List.getD_eq_getElem?_getD, List.getElem?_map]
      rw [List.getElem?_range' (by omega)]
      simp only [Option.map_some, Option.getD_some]
      rw [show 1 + 1 * (m.generation - 1) = m.generation by omega]
    · rcases Nat.eq_zero_or_pos interval with h | h
      · exact .inl ⟨h, rfl⟩
      · rcases Nat.eq_zero_or_pos first with h' | h'
        · subst h'
          rcases Nat.lt_or_ge 1 interval with h2 | h2
          · exact .inr (.inr (.inl ⟨rfl, rfl, rfl, h2⟩))
          · exact .inr (.inl ⟨by omega, rfl, rfl⟩)
        · exact .inr (.inr (.inr ⟨h, h', le_refl _, by simp, .inl rfl, by omega⟩))
  have hge := hgens e hmem
  cases e with
  | onIterationStart m => exact aux m (hge m (.inl rfl))
  | onNewGeneration m q => exact aux m (hge m (.inr (.inl ⟨q, rfl⟩)))
  | onBestFit m i => exact aux m (hge m (.inr (.inr (.inl ⟨i, rfl⟩))))
  | onIterationEnd m => exact aux m (hge m (.inr (.inr (.inr rfl))))
  | _ => rfl

/-! ### C71 -/

/-- **C71.** In every returning run the ElapsedTime policy never panics, and the wrapped probe receives exactly
`on_start`, `on_initial_population_created`, every `on_new_best`, `on_end` and the iteration callbacks of those
generations whose start time has reached `first + interval * (number of generations logged before)`. -/
theorem C71_elapsed_time {m0 : Metrics} {best : I} {tr : List (Ev I)} {w w' : W}
    (h : run T ops p m0 w = .ok ((best, tr), w')) (interval first : Nat) :
    ∃ s, policyDriven (elapsedTime interval) (PolicyState.new first) (callbacks tr) =
      .ok ((callbacks tr).filter (keep (loggedIterations interval first (startTimes tr))), s) := by
  obtain ⟨k, vs, s1, hlen, hsg, hvs, hdrive⟩ := policy_run T ops p (t := first)
    (elapsedTime_isInterval (I := I) interval) (fun m d h => ⟨d, h⟩) h
  exact ⟨s1, by rw [hdrive, hvs]; rfl⟩

end run

/-- **C71, average rate.** If the last of the listed generations started at time `D` or before (all times `≤ D`)
and `c ≥ 1` of them were logged, then `first + (c - 1) * interval ≤ D`: on average at most one log per
interval. -/
theorem C71_rate_bound (interval : Nat) : ∀ (times : List Nat) (first D : Nat), (∀ d ∈ times, d ≤ D) →
    ∀ c, (loggedIterations interval first times).count true = c + 1 → first + c * interval ≤ D
  | [], _, _, _, _, h => by simp [loggedIterations] at h
  | d :: ds, first, D, hD, c, h => by
    unfold loggedIterations at h
    have hd := hD d (by simp)
    split at h
    · rename_i hle
      simp only [List.count_cons_self, Nat.add_right_cancel_iff] at h
      cases c with
      | zero => simp; omega
      | succ c =>
        have := C71_rate_bound interval ds (first + interval) D (fun x hx => hD x (by simp [hx])) c h
        rw [Nat.add_mul]; omega
    · simp only [List.count_cons, reduceCtorEq, beq_iff_eq, if_false, Nat.add_zero] at h
      exact C71_rate_bound interval ds first D (fun x hx => hD x (by simp [hx])) c (by simpa using h)

/-- **C71, violation of "interval = time between logging iterations".** After one slow generation the policy
lags behind: with any interval `n > 0` and a first generation starting at `3n`, the next generations are logged
back to back although no time passes between them. -/
theorem C71_elapsed_time_bursts (n : Nat) :
    loggedIterations n 0 [3 * n, 3 * n, 3 * n, 3 * n] = [true, true, true, true] := by
  have h1 : 0 + n ≤ 3 * n := by omega
  have h2 : 0 + n + n ≤ 3 * n := by omega
  have h3 : 0 + n + n + n ≤ 3 * n := by omega
  simp only [loggedIterations]
  rw [if_pos (Nat.zero_le _), if_pos h1, if_pos h2, if_pos h3]

end policy

/-! ## Non-vacuity -/

/-- Interval 2 starting at generation 1 on a three-generation run of the real-valued preset: 3 + 4 + (1) callbacks
of the iterations 1 and 3 and one of the skipped iteration 2 … are delivered. -/
example : okWith (run (Individual.trait (List ℚ) ℚ) (rvcOps counterRng sharedSlots (.num (-100))
    (fun c => .num c.sum) 2 4 tickClock) ⟨4, 3, 1000⟩ ⟨0, 4, none⟩ 0)
    (fun r => match policyDriven (generationInterval 2) (PolicyState.new 1) (callbacks r.2) with
      | .ok (out, _) => startGenerations out == [1, 3] && startGenerations r.2 == [1, 2, 3]
      | .error _ => false) = true := by decide +kernel

example : GenerationLogged 5 3 13 ∧ ¬ GenerationLogged 5 3 12 ∧ GenerationLogged 5 0 1 := by decide

section instances
example := C44_registration_order (I := Nat) [7, 3] [.onStart ⟨0, 2, none⟩, .onBestFit ⟨1, 2, none⟩ 5] []
example := C44_each_probe_sees_everything (I := Nat) [7, 3] (by decide) [.onStart ⟨0, 2, none⟩, .onBestFit ⟨1, 2, none⟩ 5]
example := C44_nested (I := Nat) [recorder 1] [recorder 2, recorder 3] (.onStart ⟨0, 2, none⟩)
example {best tr w'} (h : run (Individual.trait (List ℚ) ℚ) (rvcOps counterRng sharedSlots (.num (-100))
    (fun c => .num c.sum) 2 4 tickClock) ⟨4, 3, 1000⟩ ⟨0, 4, none⟩ 0 = .ok ((best, tr), w')) :=
  And.intro (C43_generation_interval _ _ _ h 2 1) (C71_elapsed_time _ _ _ h 2 1)
example := C71_rate_bound 5 [1, 7, 8, 14] 0 14 (by decide) 2 (by decide)
end instances

end Ecrs.Ga
