import Verif.Aco.Aco
import Verif.Props.AcoBest

set_option linter.unusedSectionVars false

/-!
# Ant colony runs: C61, C91 (end to end TSP runs), C92 (builder), C93 (probes)
-/

namespace Ecrs.Aco
open Ecrs

section general
variable {X K : Type} [LinearOrder K] {A : AcoOps X K} {Ph C G U : Type}

/-! ## C61: the loop -/

/-- Specification: the probe calls of one complete iteration that reports the best `b.1` and the pheromone `b.2`. -/
def block (b : Sol X × Ph) : List (Event X Ph) :=
  [.iterationStart, .currentBest b.1, .pheromoneUpdate b.2, .iterationEnd]

/-- Specification: the termination condition says no at the next `m` checks and yes at the one after them, whatever the
pheromone. -/
def StopsAt {T : Type} (check : T → Ph → T × Bool) : Nat → T → Prop
  | 0, t => ∀ ph, (check t ph).2 = true
  | m + 1, t => ∃ t', (∀ ph, check t ph = (t', false)) ∧ StopsAt check m t'

/-- Specification: what a run over `m` iterations shows: all of them completely, then the end; or fewer than `m` and the
beginning of the iteration that panicked. -/
def Shows (m : Nat) (r : List (Event X Ph) × Outcome) : Prop :=
  ∃ recs : List (Sol X × Ph),
    (r.2 = .done ∧ recs.length = m ∧ r.1 = recs.flatMap block ++ [.finish]) ∨
    (∃ e, r.2 = .panicked e ∧ recs.length < m ∧
      (r.1 = recs.flatMap block ++ [.iterationStart] ∨ ∃ b, r.1 = recs.flatMap block ++ [.iterationStart, .currentBest b]))

theorem iterate_cases (al : Algo X Ph C G U) (s : RunState Ph C G U) :
    (∃ e, iterate A al s = ([], .error e)) ∨ (∃ b e, iterate A al s = ([.currentBest b], .error e)) ∨
    ∃ s1 sols b u ph, buildGrade A al s = .ok (s1, sols, b) ∧ al.update s1.upd sols s1.ph = .ok (u, ph) ∧
      iterate A al s = ([.currentBest b, .pheromoneUpdate ph], .ok { s1 with upd := u, ph := ph }) := by
  unfold iterate
  cases h1 : buildGrade A al s with
  | error e => exact .inl ⟨e, rfl⟩
  | ok r =>
    obtain ⟨s1, sols, b⟩ := r
    simp only
    cases h2 : al.update s1.upd sols s1.ph with
    | error e => exact .inr (.inl ⟨b, e, rfl⟩)
    | ok q => exact .inr (.inr ⟨s1, sols, b, q.1, q.2, rfl, h2, rfl⟩)

theorem runLoop_shows {T : Type} (al : Algo X Ph C G U) (check : T → Ph → T × Bool) : ∀ (m fuel : Nat) (t : T)
    (s : RunState Ph C G U), m < fuel → StopsAt check m t → Shows m (runLoop A al check fuel t s) := by
  intro m
  induction m with
  | zero =>
    intro fuel t s hf hs
    obtain ⟨f, rfl⟩ : ∃ f, fuel = f + 1 := ⟨fuel - 1, by omega⟩
    rw [runLoop, if_pos (hs s.ph)]
    exact ⟨[], .inl ⟨rfl, rfl, rfl⟩⟩
  | succ m ih =>
    intro fuel t s hf hs
    obtain ⟨f, rfl⟩ : ∃ f, fuel = f + 1 := ⟨fuel - 1, by omega⟩
    obtain ⟨t', ht, hs'⟩ := hs
    rw [runLoop, ht]
    rw [if_neg (by simp)]
    rcases iterate_cases (A := A) al s with ⟨e, h⟩ | ⟨b, e, h⟩ | ⟨s1, sols, b, u, ph, -, -, h⟩
    · rw [h]
      exact ⟨[], .inr ⟨e, rfl, by simp, .inl rfl⟩⟩
    · rw [h]
      exact ⟨[], .inr ⟨e, rfl, by simp, .inr ⟨b, rfl⟩⟩⟩
    · rw [h]
      simp only
      obtain ⟨recs, hr⟩ := ih f t' { s1 with upd := u, ph := ph } (by omega) hs'
      refine ⟨(b, ph) :: recs, ?_⟩
      rcases hr with ⟨h1, h2, h3⟩ | ⟨e, h1, h2, h3⟩
      · refine .inl ⟨h1, by simp [h2], ?_⟩
        rw [h3]
        simp [block]
      · refine .inr ⟨e, h1, by simp; omega, ?_⟩
        rcases h3 with h3 | ⟨b', h3⟩
        · left; rw [h3]; simp [block]
        · right; exact ⟨b', by rw [h3]; simp [block]⟩

theorem stopsAt_iteration (c limit : Nat) : ∀ m, c + m = limit →
    StopsAt (Ph := Ph) IterationCond.check m ⟨c, limit⟩ := by
  intro m
  induction m generalizing c with
  | zero => intro h ph; show decide _ = true; simp; omega
  | succ m ih =>
    intro h
    refine ⟨⟨c + 1, limit⟩, fun ph => ?_, ih (c + 1) (by omega)⟩
    unfold IterationCond.check
    simp; omega

/-- **C61, number and order.** For every colony, grader, update, starting state and limit: a run with `IterationCond`
terminates (any bound above the limit suffices); either it performs exactly `limit` iterations, each calling the probe in
the order start, best, pheromone, end, and then the end callback, once; or an iteration panics, after fewer complete
ones. -/
theorem C61_run_iterations (al : Algo X Ph C G U) (limit curr fuel : Nat) (hf : limit < fuel) (s : RunState Ph C G U) :
    Shows limit (runIterations A al fuel ⟨curr, limit⟩ s) :=
  runLoop_shows al _ limit fuel _ s hf (stopsAt_iteration 0 limit limit (by omega))

/-- **C61, time limit.** With `TimeCond` the run ends at the first check more than `duration` after the start of the run:
if that is the check after `m` iterations, it performs exactly `m` (or panics before). -/
theorem C61_run_time (al : Algo X Ph C G U) (clock : Nat → Nat) (duration m fuel : Nat) (hf : m < fuel)
    (s : RunState Ph C G U) (hb : ∀ k, k < m → clock (k + 1) - clock 0 ≤ duration)
    (hm : duration < clock (m + 1) - clock 0) : Shows m (runTime A al fuel clock duration s) := by
  refine runLoop_shows al _ m fuel 0 s hf ?_
  have key : ∀ j t, t + j = m → StopsAt (Ph := Ph) (timeCheck (fun k => clock (k + 1)) (clock 0) duration) j t := by
    intro j
    induction j with
    | zero =>
      intro t ht ph
      show decide _ = true
      have : t = m := by omega
      subst this
      simp only [decide_eq_true_eq]; omega
    | succ j ih =>
      intro t ht
      refine ⟨t + 1, fun ph => ?_, ih (t + 1) (by omega)⟩
      have := hb t (by omega)
      unfold timeCheck
      simp; omega
  exact key m 0 (by omega)

/-- **C61, the best of the iteration.** In a complete iteration the solution shown to the probe is one of the graded
solutions of that iteration, and (no fitness being NaN) none of them is fitter; the pheromone shown is the updated one. -/
theorem C61_iteration_reports_best (al : Algo X Ph C G U) (s s' : RunState Ph C G U) (es : List (Event X Ph))
    (h : iterate A al s = (es, .ok s')) :
    ∃ colony paths ph0 sols0 g sols b, al.build s.colony s.ph = .ok (colony, paths, ph0) ∧
      fromPaths A paths = .ok sols0 ∧ al.grade s.grader sols0 = .ok (g, sols) ∧
      al.update s.upd sols ph0 = .ok (s'.upd, s'.ph) ∧ es = [.currentBest b, .pheromoneUpdate s'.ph] ∧ b ∈ sols ∧
      ((∀ t ∈ sols, Numeric A t) → ∀ t ∈ sols, NotFitter A t b) := by
  rcases iterate_cases (A := A) al s with ⟨e, h1⟩ | ⟨b, e, h1⟩ | ⟨s1, sols, b, u, ph, h1, h2, h3⟩
  · rw [h1] at h; cases h
  · rw [h1] at h; cases h
  · rw [h3] at h
    cases h
    unfold buildGrade at h1
    obtain ⟨⟨c, paths, ph0⟩, e1, h1⟩ := Exc.bind_ok.1 h1
    obtain ⟨sols0, e2, h1⟩ := Exc.bind_ok.1 h1
    obtain ⟨⟨g, gs⟩, e3, h1⟩ := Exc.bind_ok.1 h1
    obtain ⟨b', e4, h1⟩ := Exc.bind_ok.1 h1
    rw [Exc.pure_ok] at h1
    cases h1
    have e4 : findBest A gs = .ok b := e4
    refine ⟨c, paths, ph0, sols0, g, gs, b, e1, e2, e3, h2, rfl, ?_, fun hn t ht => ?_⟩
    · cases gs with
      | nil => cases e4
      | cons x xs => cases e4; exact better_mem xs x
    · obtain ⟨b2, q1, -, q3⟩ := C61_find_best_max hn (by rintro rfl; simp at ht)
      rw [q1] at e4; cases e4
      exact q3 t ht

/-- Invariants over a run: iterations do not panic, and everything shown satisfies `P` and `R`. -/
theorem runLoop_inv {T : Type} (al : Algo X Ph C G U) (check : T → Ph → T × Bool) (Inv : RunState Ph C G U → Prop)
    (P : Sol X → Prop) (R : Ph → Prop)
    (hstep : ∀ s, Inv s → ∃ b s', iterate A al s = ([.currentBest b, .pheromoneUpdate s'.ph], .ok s') ∧ Inv s' ∧ P b ∧ R s'.ph) :
    ∀ (m fuel : Nat) (t : T) (s : RunState Ph C G U), m < fuel → StopsAt check m t → Inv s →
      ∃ recs : List (Sol X × Ph), recs.length = m ∧
        runLoop A al check fuel t s = (recs.flatMap block ++ [.finish], .done) ∧ ∀ r ∈ recs, P r.1 ∧ R r.2 := by
  intro m
  induction m with
  | zero =>
    intro fuel t s hf hs _
    obtain ⟨f, rfl⟩ : ∃ f, fuel = f + 1 := ⟨fuel - 1, by omega⟩
    refine ⟨[], rfl, ?_, by simp⟩
    rw [runLoop, if_pos (hs s.ph)]; rfl
  | succ m ih =>
    intro fuel t s hf hs hi
    obtain ⟨f, rfl⟩ : ∃ f, fuel = f + 1 := ⟨fuel - 1, by omega⟩
    obtain ⟨t', ht, hs'⟩ := hs
    obtain ⟨b, s', h1, h2, h3, h4⟩ := hstep s hi
    obtain ⟨recs, g1, g2, g3⟩ := ih f t' s' (by omega) hs' h2
    refine ⟨(b, s'.ph) :: recs, by simp [g1], ?_, ?_⟩
    · rw [runLoop, ht, if_neg (by simp), h1]
      simp only
      rw [g2]
      simp [block]
    · intro r hr
      rcases List.mem_cons.1 hr with rfl | hr
      · exact ⟨h3, h4⟩
      · exact g3 r hr

end general

/-! ## C91: end to end -/

section exact
variable {F : Type} [Field F] [LinearOrder F] [IsStrictOrderedRing F]
variable (sqrt : Ext F → Ext F) (pow : Ext F → Ext F → Ext F) (maxv : F) (floor : F → Nat)

/-- Specification: a TSP instance on `n ≥ 2` cities with positive finite distances `f` (and any finite diagonal). -/
structure Instance (n : Nat) (w : Mat (Ext F)) (f : Nat → Nat → F) : Prop where
  two : 2 ≤ n
  fin : FinMat n w f
  pos : ∀ i j, i < n → j < n → i ≠ j → 0 < f i j

theorem tour_edges_ne {n : Nat} {p : List Nat} (hp : IsTour n p) (hn : 2 ≤ n) : ∀ e ∈ windows p, e.1 ≠ e.2 := by
  intro e he
  have hnd : p.Nodup := hp.nodup_iff.2 List.nodup_range
  have hlen : p.length = n := by rw [hp.length_eq, List.length_range]
  obtain ⟨k, hk⟩ := List.mem_iff_getElem?.1 he
  have hk' : k < p.length := by
    have := (List.getElem?_eq_some_iff.1 hk).1; rwa [windows_length] at this
  rw [windows_getElem p k hk'] at hk
  cases hk
  intro h
  have e1 : k = (k + 1) % p.length := (List.Nodup.getElem_inj_iff hnd).1 h
  rw [hlen] at e1 hk'
  by_cases h1 : k + 1 < n
  · rw [Nat.mod_eq_of_lt h1] at e1; omega
  · rw [show k + 1 = n by omega, Nat.mod_self] at e1; omega

theorem tourLength_pos {n : Nat} {w : Mat (Ext F)} {f : Nat → Nat → F} (hi : Instance n w f) {p : List Nat}
    (hp : IsTour n p) : 0 < tourLength f p := by
  have hlt : ∀ v ∈ p, v < n := fun v hv => List.mem_range.1 (hp.mem_iff.1 hv)
  have hpos : ∀ e ∈ windows p, 0 < f e.1 e.2 := fun e he =>
    hi.pos _ _ (hlt _ (windows_mem he).1) (hlt _ (windows_mem he).2) (tour_edges_ne hp hi.two e he)
  have hne : windows p ≠ [] := by
    intro h
    have := windows_length p
    rw [h, hp.length_eq, List.length_range] at this
    have := hi.two
    simp at *; omega
  have key : ∀ es : List (Nat × Nat), (∀ e ∈ es, 0 < f e.1 e.2) →
      0 ≤ (es.map fun e => f e.1 e.2).sum ∧ (es ≠ [] → 0 < (es.map fun e => f e.1 e.2).sum) := by
    intro es
    induction es with
    | nil => intro _; exact ⟨le_refl _, fun h => absurd rfl h⟩
    | cons e es ih =>
      intro h
      have h1 := (ih fun x hx => h x (by simp [hx])).1
      have h2 := h e (by simp)
      rw [List.map_cons, List.sum_cons]
      exact ⟨by linarith, fun _ => by linarith⟩
  exact (key _ hpos).2 hne

/-- Specification: a tour of all `n` cities graded with the inverse of its length. -/
def GradedTour (n : Nat) (f : Nat → Nat → F) (s : Sol (Ext F)) : Prop :=
  IsTour n s.path ∧ s.fitness = .fin (1 / tourLength f s.path) ∧ 0 < tourLength f s.path

theorem fromPaths_tours {n : Nat} : ∀ (ps : List (List Nat)), (∀ p ∈ ps, IsTour n p) →
    fromPaths (exactOps sqrt pow maxv floor) ps = .ok (ps.map fun p => ⟨p, .fin 0⟩)
  | [], _ => rfl
  | p :: ps, h => by
    have hp := h p (by simp)
    have hlen : p.length = n := by rw [hp.length_eq, List.length_range]
    have e1 : Sol.fromPath (exactOps sqrt pow maxv floor) p = .ok ⟨p, .fin 0⟩ := by
      unfold Sol.fromPath
      rw [if_pos]
      · rfl
      · rw [List.all_eq_true]
        intro e he
        have h1 := List.mem_range.1 (hp.mem_iff.1 (windows_mem he).1)
        have h2 := List.mem_range.1 (hp.mem_iff.1 (windows_mem he).2)
        simp [hlen, h1, h2]
    rw [fromPaths, Exc.bind_of_ok e1, Exc.bind_of_ok (fromPaths_tours ps fun q hq => h q (by simp [hq]))]
    rfl

theorem gradeAll_tours {n : Nat} {w : Mat (Ext F)} {f : Nat → Nat → F} (hi : Instance n w f) : ∀ (ps : List (List Nat)),
    (∀ p ∈ ps, IsTour n p) → ∃ gs, gradeAll (exactOps sqrt pow maxv floor) w (ps.map fun p => ⟨p, .fin 0⟩) = .ok gs ∧
      gs.length = ps.length ∧ gs.map (·.path) = ps ∧ ∀ g ∈ gs, GradedTour n f g
  | [], _ => ⟨[], rfl, rfl, rfl, by simp⟩
  | p :: ps, h => by
    have hp := h p (by simp)
    have hl := tourLength_pos hi hp
    obtain ⟨gs, h1, h2, h3, h4⟩ := gradeAll_tours hi ps fun q hq => h q (by simp [hq])
    have e1 := C62_fitness_is_inverse_length sqrt pow maxv floor hi.fin (s := ⟨p, .fin 0⟩)
      (fun v hv => List.mem_range.1 (hp.mem_iff.1 hv))
    rw [if_neg hl.ne'] at e1
    refine ⟨⟨p, .fin (1 / tourLength f p)⟩ :: gs, ?_, by simp [h2], by simp [h3], ?_⟩
    · rw [List.map_cons, gradeAll, Exc.bind_of_ok e1, Exc.bind_of_ok h1]
      rfl
    · intro g hg
      rcases List.mem_cons.1 hg with rfl | hg
      · exact ⟨hp, rfl, hl⟩
      · exact h4 g hg

theorem graded_good {n : Nat} {f : Nat → Nat → F} {s : Sol (Ext F)} (h : GradedTour n f s) : GoodSol n s :=
  ⟨fun _ hv => List.mem_range.1 (h.1.mem_iff.1 hv), _, h.2.1, (one_div_pos.2 h.2.2).le⟩

theorem graded_numeric {n : Nat} {f : Nat → Nat → F} {s : Sol (Ext F)} (h : GradedTour n f s) :
    Numeric (exactOps sqrt pow maxv floor) s := by
  unfold Numeric
  rw [h.2.1]; trivial

/-- Building and grading when the colony returns tours. -/
theorem buildGrade_tours {n : Nat} {w : Mat (Ext F)} {f : Nat → Nat → F} (hi : Instance n w f) {C U : Type}
    (al : Algo (Ext F) (Mat (Ext F)) C Unit U) (hg : al.grade = tspGrader (exactOps sqrt pow maxv floor) w)
    (s : RunState (Mat (Ext F)) C Unit U) {c : C} {paths : List (List Nat)} {ph : Mat (Ext F)}
    (hb : al.build s.colony s.ph = .ok (c, paths, ph)) (hne : paths ≠ []) (ht : ∀ p ∈ paths, IsTour n p) :
    ∃ sols b, buildGrade (exactOps sqrt pow maxv floor) al s = .ok (⟨c, (), s.upd, ph⟩, sols, b) ∧
      (∀ g ∈ sols, GradedTour n f g) ∧ b ∈ sols ∧ sols.map (·.path) = paths ∧
      ∀ t ∈ sols, tourLength f b.path ≤ tourLength f t.path := by
  obtain ⟨gs, h1, h2, h3, h4⟩ := gradeAll_tours sqrt pow maxv floor hi paths ht
  have hgne : gs ≠ [] := by
    rintro rfl
    exact hne (List.length_eq_zero_iff.1 h2.symm)
  obtain ⟨b, e1, e2, e3⟩ := C61_find_best_max (A := exactOps sqrt pow maxv floor)
    (fun t ht => graded_numeric sqrt pow maxv floor (h4 t ht)) hgne
  refine ⟨gs, b, ?_, h4, e2, h3, fun t ht => ?_⟩
  · unfold buildGrade
    have hgr : al.grade s.grader (paths.map fun p => ⟨p, .fin 0⟩) = .ok ((), gs) := by
      rw [hg]; unfold tspGrader; rw [Exc.bind_of_ok h1]; rfl
    rw [Exc.bind_of_ok hb]
    simp only
    rw [Exc.bind_of_ok (fromPaths_tours sqrt pow maxv floor paths ht), Exc.bind_of_ok hgr]
    simp only
    rw [Exc.bind_of_ok e1]
    rfl
  · have hle := e3 t ht
    obtain ⟨-, b1, b2⟩ := h4 b e2
    obtain ⟨-, t1, t2⟩ := h4 t ht
    by_contra hc
    have hlt : 1 / tourLength f b.path < 1 / tourLength f t.path := one_div_lt_one_div_of_lt t2 (not_le.1 hc)
    unfold NotFitter at hle
    rw [b1, t1] at hle
    have h5 := Fl.lt_iff.1 ((ex_lt sqrt pow maxv floor).2 hlt)
    exact (Fl.not_lt hle.isNum_right hle.isNum_left).2 hle h5

theorem allPos_posMat {n : Nat} {m : Mat (Ext F)} (h : AllPos n m) : PosMat n m := by
  obtain ⟨f, h1, h2⟩ := h
  exact ⟨h1.1, h1.2.1, fun i j hi hj _ => ⟨f i j, h1.2.2 i j hi hj, h2 i j hi hj⟩⟩

/-- What is known of the state of an Ant System run between iterations. -/
def AsInv (n : Nat) (k : Nat) (s : RunState (Mat (Ext F)) (Nat × List (Ant (Ext F))) Unit (Sol (Ext F))) : Prop :=
  s.colony.2.length = k ∧ (∀ a ∈ s.colony.2, Ready n a) ∧ AllPos n s.ph ∧ Sym n s.ph

/-- **C91, Ant System.** Ant System for TSP on `n ≥ 2` cities with positive distances, a positive symmetric pheromone, a
goodness that is positive for positive pheromone, evaporation rate below 1 and at least one ant, for all draws in their
ranges and all hash set orders, with exact arithmetic: the run performs exactly `limit` iterations without a panic; every
best it reports is a tour of all cities with fitness `1 / length`; every pheromone it reports is positive and symmetric. -/
theorem C91_ant_system_run (hmax : 0 ≤ maxv) {n : Nat} {w : Mat (Ext F)} {f : Nat → Nat → F} (hi : Instance n w f)
    {goodness : Mat (Ext F) → Except Panic (Mat (Ext F))} (hgo : ∀ m, PosMat n m → ∃ g, goodness m = .ok g ∧ PosMat n g)
    {d : Draws (Ext F)} (hd : ∀ i k t, RangeOk ((d i).step k t)) {rho : F} (h1 : rho < 1)
    (ants : List (Ant (Ext F))) (hants : ants ≠ []) (hr : ∀ a ∈ ants, Ready n a) (ph : Mat (Ext F)) (hph : AllPos n ph)
    (hsym : Sym n ph) (best0 : Sol (Ext F)) (limit fuel : Nat) (hf : limit < fuel) :
    ∃ recs : List (Sol (Ext F) × Mat (Ext F)), recs.length = limit ∧
      runIterations (exactOps sqrt pow maxv floor) (tspAntSystem (exactOps sqrt pow maxv floor) goodness d w (.fin rho)) fuel
        ⟨0, limit⟩ ⟨(0, ants), (), best0, ph⟩ = (recs.flatMap block ++ [.finish], .done) ∧
      ∀ r ∈ recs, GradedTour n f r.1 ∧ (AllPos n r.2 ∧ Sym n r.2) := by
  refine runLoop_inv _ _ (AsInv n ants.length) (GradedTour n f) (fun m => AllPos n m ∧ Sym n m) ?_ limit fuel _ _ hf
    (stopsAt_iteration 0 limit limit (by omega)) ⟨rfl, hr, hph, hsym⟩
  rintro ⟨⟨i, as⟩, gs, u, m⟩ ⟨hk, hr', hp, hsy⟩
  simp only at hk hr' hp hsy
  have hrows : m.rows = n := hsy.1
  obtain ⟨g, hg1, hg2⟩ := hgo m (allPos_posMat hp)
  obtain ⟨as', paths, e1, e2, e3⟩ := C56_ant_system_complete sqrt pow maxv floor hmax (d := d i) (ants := as) (ph := m)
    (goodness := goodness) (g := g) (by have := hi.two; omega) (by rw [hrows]; exact hr') hg1 (by rw [hrows]; exact hg2) (hd i)
  obtain ⟨-, -, -, q4, q5⟩ := C55_ant_system_tours (by rw [hrows]; exact hr') e1
  rw [hrows] at e3 q5
  have hne : paths ≠ [] := by
    rintro rfl
    exact hants (List.length_eq_zero_iff.1 (by rw [← hk, ← e2]; rfl))
  have hbuild : (tspAntSystem (exactOps sqrt pow maxv floor) goodness d w (.fin rho)).build (i, as) m
      = .ok ((i + 1, as'), paths, m) := by
    show asColony _ goodness d (i, as) m = _
    unfold asColony
    rw [Exc.bind_of_ok e1]; rfl
  obtain ⟨sols, b, b1, b2, b3, -, -⟩ := buildGrade_tours sqrt pow maxv floor hi
    (tspAntSystem (exactOps sqrt pow maxv floor) goodness d w (.fin rho)) rfl ⟨(i, as), gs, u, m⟩ hbuild hne e3
  obtain ⟨ph', c1, c2⟩ := (C58_ant_system_nonneg sqrt pow maxv floor h1.le (sols := sols)
    fun s hs => graded_good (b2 s hs)).2 hp h1
  obtain ⟨ph2, c3, c4⟩ := C57_ant_system_symmetric (A := exactOps sqrt pow maxv floor) (rate := .fin rho) hsy
    (fun s hs => (graded_good (b2 s hs)).1)
  rw [c1] at c3
  cases c3
  refine ⟨b, ⟨(i + 1, as'), (), u, ph'⟩, ?_, ⟨by simp [q4, hk], q5, c2, c4⟩, b2 b b3, c2, c4⟩
  unfold iterate
  rw [b1]
  simp only
  have hup : (tspAntSystem (exactOps sqrt pow maxv floor) goodness d w (.fin rho)).update u sols m = .ok (u, ph') := by
    show asUpdate _ _ u sols m = _
    unfold asUpdate
    rw [Exc.bind_of_ok c1]; rfl
  rw [hup]

/-- What is known of the state of an Ant Colony System run between iterations. -/
def AcsInv (n : Nat) (k : Nat) (s : RunState (Mat (Ext F)) (Nat × List (Ant (Ext F))) Unit (Sol (Ext F))) : Prop :=
  s.colony.2.length = k ∧ (∀ a ∈ s.colony.2, Ready n a) ∧ AllPos n s.ph ∧ GoodSol n s.upd

theorem acsPU_pos {n : Nat} {rho : F} (h0 : 0 ≤ rho) (h1 : rho < 1) {best : Sol (Ext F)} {sols : List (Sol (Ext F))}
    {ph : Mat (Ext F)} {policy : Sol (Ext F) → List (Sol (Ext F)) → Sol (Ext F)} (hpol : Picks policy)
    (hb : GoodSol n best) (hs : ∀ s ∈ sols, GoodSol n s) (hp : AllPos n ph) :
    ∃ ph', acsPU (exactOps sqrt pow maxv floor) (.fin rho) policy best sols ph = .ok (ph', policy best sols) ∧ AllPos n ph' := by
  obtain ⟨f, hf, hf0⟩ := hp
  have hbg := picks_good hpol hb hs
  obtain ⟨x, hx, hx0⟩ := hbg.2
  have hb2 : policy best sols = ⟨(policy best sols).path, .fin x⟩ := by rw [← hx]
  obtain ⟨ph', e1, e2⟩ := C90_acs_formula sqrt pow maxv floor (rho := rho) (best := best) (policy := policy) (sols := sols)
    (bp := (policy best sols).path) (bf := x) hb2 hbg.1 hf
  refine ⟨ph', by rw [e1, ← hb2], _, e2, fun i j hi hj => ?_⟩
  have := mul_pos (hf0 i j hi hj) (by linarith : (0 : F) < 1 - rho)
  have := mul_nonneg (mul_nonneg hx0 h0) (Nat.cast_nonneg (α := F) (uses (policy best sols).path i j))
  linarith

/-- **C91, Ant Colony System.** Likewise with a positivity preserving local rule, any best policy and a rate in `[0, 1)`;
the pheromone stays positive (it need not stay symmetric, C57). -/
theorem C91_acs_run (hmax : 0 ≤ maxv) {n : Nat} {w : Mat (Ext F)} {f : Nat → Nat → F} (hi : Instance n w f)
    {goodness : Mat (Ext F) → Except Panic (Mat (Ext F))} (hgo : ∀ m, PosMat n m → ∃ g, goodness m = .ok g ∧ PosMat n g)
    {l : LocalRule (Ext F)} (hl : l.Positive) {policy : Sol (Ext F) → List (Sol (Ext F)) → Sol (Ext F)} (hpol : Picks policy)
    {d : Draws (Ext F)} (hd : ∀ i k t, RangeOk ((d i).step k t)) {rho : F} (h0 : 0 ≤ rho) (h1 : rho < 1)
    (ants : List (Ant (Ext F))) (hants : ants ≠ []) (hr : ∀ a ∈ ants, Ready n a) (ph : Mat (Ext F)) (hph : AllPos n ph)
    (limit fuel : Nat) (hf : limit < fuel) :
    ∃ recs : List (Sol (Ext F) × Mat (Ext F)), recs.length = limit ∧
      runIterations (exactOps sqrt pow maxv floor) (tspAcs (exactOps sqrt pow maxv floor) goodness l d w (.fin rho) policy) fuel
        ⟨0, limit⟩ ⟨(0, ants), (), Sol.default (exactOps sqrt pow maxv floor), ph⟩
        = (recs.flatMap block ++ [.finish], .done) ∧
      ∀ r ∈ recs, GradedTour n f r.1 ∧ AllPos n r.2 := by
  refine runLoop_inv _ _ (AcsInv n ants.length) (GradedTour n f) (fun m => AllPos n m) ?_ limit fuel _ _ hf
    (stopsAt_iteration 0 limit limit (by omega))
    ⟨rfl, hr, hph, fun v hv => by simp [Sol.default] at hv, 0, rfl, le_refl _⟩
  rintro ⟨⟨i, as⟩, gs, u, m⟩ ⟨hk, hr', hp, hu⟩
  simp only at hk hr' hp hu
  obtain ⟨as', paths, m', e1, e2, e3, e4, e5⟩ := C89_acs_complete sqrt pow maxv floor hmax (d := d i) (ants := as) (ph := m)
    (goodness := goodness) hi.two (allPos_posMat hp) hr' hgo hl (hd i)
  have hrows : m.rows = n := (allPos_posMat hp).1
  obtain ⟨-, q4, q5, -⟩ := C89_acs_paths (by rw [hrows]; exact hr') e1
  rw [hrows] at q5
  have hpm : AllPos n m' := by
    obtain ⟨f0, k1, k2⟩ := hp
    refine ⟨fun i j => match m'.get i j with | .fin x => x | _ => 0, ⟨e4.1, e4.2.1, fun i j hi hj => ?_⟩, fun i j hi hj => ?_⟩
    · by_cases hij : i = j
      · subst hij
        simp only
        rw [e5 i, k1.2.2 i i hi hi]
      · obtain ⟨x, hx, -⟩ := e4.2.2 i j hi hj hij
        simp only
        rw [hx]
    · by_cases hij : i = j
      · subst hij
        simp only
        rw [e5 i, k1.2.2 i i hi hi]
        exact k2 i i hi hi
      · obtain ⟨x, hx, hx0⟩ := e4.2.2 i j hi hj hij
        simp only
        rw [hx]; exact hx0
  have hne : paths ≠ [] := by
    rintro rfl
    exact hants (List.length_eq_zero_iff.1 (by rw [← hk, ← e2]; rfl))
  have hbuild : (tspAcs (exactOps sqrt pow maxv floor) goodness l d w (.fin rho) policy).build (i, as) m
      = .ok ((i + 1, as'), paths, m') := by
    show acsColony _ goodness l d (i, as) m = _
    unfold acsColony
    rw [Exc.bind_of_ok e1]; rfl
  obtain ⟨sols, b, b1, b2, b3, -, -⟩ := buildGrade_tours sqrt pow maxv floor hi
    (tspAcs (exactOps sqrt pow maxv floor) goodness l d w (.fin rho) policy) rfl ⟨(i, as), gs, u, m⟩ hbuild hne e3
  have hgood : ∀ s ∈ sols, GoodSol n s := fun s hs => graded_good (b2 s hs)
  obtain ⟨ph', c1, c2⟩ := acsPU_pos sqrt pow maxv floor h0 h1 hpol hu hgood hpm
  refine ⟨b, ⟨(i + 1, as'), (), policy u sols, ph'⟩, ?_, ⟨by simp [q4, hk], q5, c2, picks_good hpol hu hgood⟩, b2 b b3, c2⟩
  unfold iterate
  rw [b1]
  simp only
  have hup : (tspAcs (exactOps sqrt pow maxv floor) goodness l d w (.fin rho) policy).update u sols m'
      = .ok (policy u sols, ph') := by
    show acsUpdate _ _ policy u sols m' = _
    unfold acsUpdate
    rw [Exc.bind_of_ok c1]; rfl
  rw [hup]

/-- **C91, one city.** On a single city an Ant Colony System run of at least one iteration panics in its first iteration
(no path is returned, so there is no best), whatever the colony, weights and rates. -/
theorem C91_acs_one_city_panics {X K : Type} [LinearOrder K] {A : AcoOps X K} {goodness : Mat X → Except Panic (Mat X)}
    {l : LocalRule X} {d : Draws X} {w : Mat X} {rate : X} {policy : Sol X → List (Sol X) → Sol X}
    {ants : List (Ant X)} {ph : Mat X} (h1 : ph.rows = 1) (hr : ∀ a ∈ ants, Ready 1 a) (best : Sol X) (limit fuel : Nat)
    (hl : 1 ≤ limit) (hf : 1 ≤ fuel) :
    runIterations A (tspAcs A goodness l d w rate policy) fuel ⟨0, limit⟩ ⟨(0, ants), (), best, ph⟩
      = ([.iterationStart], .panicked .unwrapNone) := by
  obtain ⟨fu, rfl⟩ : ∃ f, fuel = f + 1 := ⟨fuel - 1, by omega⟩
  unfold runIterations IterationCond.init
  rw [runLoop]
  have hchk : (IterationCond.check (⟨0, limit⟩ : IterationCond) ph).2 = false := by
    unfold IterationCond.check; simp; omega
  rw [if_neg (by rw [hchk]; simp)]
  have hstart : ∃ as, startAll (d 0) 0 ants = .ok as := by
    have key : ∀ (ants : List (Ant X)) (k : Nat), (∀ a ∈ ants, Ready 1 a) → ∃ as, startAll (d 0) k ants = .ok as := by
      intro ants
      induction ants with
      | nil => intro k _; exact ⟨_, rfl⟩
      | cons a ants ih =>
        intro k hr
        obtain ⟨as, has⟩ := ih (k + 1) fun x hx => hr x (by simp [hx])
        have hb : ∃ b, a.clear.start ((d 0).start k) = .ok b := by
          unfold Ant.start
          rw [if_neg (by have := (clear_unvisited (hr a (by simp))).2.1; omega)]
          exact ⟨_, rfl⟩
        obtain ⟨b, hb⟩ := hb
        refine ⟨b :: as, ?_⟩
        rw [startAll, Exc.bind_of_ok hb, Exc.bind_of_ok has]
        rfl
    exact key ants 0 hr
  obtain ⟨as, has⟩ := hstart
  have hb : antColonySystem A goodness l (d 0) ants ph = .ok (as, [], ph) := by
    unfold antColonySystem
    rw [Exc.bind_of_ok has, h1]
    rfl
  have hbg : buildGrade A (tspAcs A goodness l d w rate policy) ⟨(0, ants), (), best, ph⟩ = .error .unwrapNone := by
    unfold buildGrade
    have : (tspAcs A goodness l d w rate policy).build (0, ants) ph = .ok ((1, as), [], ph) := by
      show acsColony A goodness l d (0, ants) ph = _
      unfold acsColony
      rw [Exc.bind_of_ok hb]; rfl
    rw [Exc.bind_of_ok this]
    rfl
  unfold iterate
  rw [hbg]

end exact

/-- C91 on a concrete instance: five cities on a line, three ants, four iterations. -/
example : ∃ recs : List (Sol (Ext ℚ) × Mat (Ext ℚ)), recs.length = 4 ∧
    runIterations Q (tspAntSystem Q (canonicalGoodness Q (.fin 1) (.fin 1) (constMat 5 1)) (fun _ => exIter 0)
      ⟨5, 5, fun i j => .fin (lineF i j)⟩ (.fin (1/2))) 100 ⟨0, 4⟩
      ⟨(0, [Ant.canonical 5, Ant.canonical 5, ⟨[], [], 5, false, some (.fin (1/2))⟩]), (), Sol.default Q, constMat 5 1⟩
      = (recs.flatMap block ++ [.finish], .done) ∧
    ∀ r ∈ recs, GradedTour 5 lineF r.1 ∧ (AllPos 5 r.2 ∧ Sym 5 r.2) := by
  have hi : Instance 5 (⟨5, 5, fun i j => .fin (lineF i j)⟩ : Mat (Ext ℚ)) lineF := by
    refine ⟨by decide, ⟨rfl, rfl, fun _ _ _ _ => rfl⟩, fun i j _ _ hij => ?_⟩
    unfold lineF
    rw [abs_pos, sub_ne_zero]
    exact_mod_cast hij
  have hr : ∀ a ∈ ([Ant.canonical 5, Ant.canonical 5, ⟨[], [], 5, false, some (.fin (1/2))⟩] : List (Ant (Ext ℚ))), Ready 5 a := by
    intro a ha
    simp at ha
    rcases ha with rfl | rfl
    · exact ready_canonical 5
    · exact ⟨rfl, by simp, by simp⟩
  have hp : AllPos 5 (constMat 5 1) := ⟨fun _ _ => 1, ⟨rfl, rfl, fun _ _ _ _ => rfl⟩, fun _ _ _ _ => one_pos⟩
  exact C91_ant_system_run (fun x => x) (fun x _ => x) 1000 (fun _ => 0) (by norm_num) hi (fun m hm => exGood m hm)
    (fun _ _ _ => exDraw_ok 0) (by norm_num) _ (List.cons_ne_nil _ _) hr _ hp ⟨rfl, rfl, fun _ _ _ _ => rfl⟩ _ 4 100 (by decide)

/-! ## Every theorem on a concrete case -/

section instances

/-- Five cities on a line. -/
def lineMat : Mat (Ext ℚ) := ⟨5, 5, fun i j => .fin (lineF i j)⟩

theorem lineMat_instance : Instance 5 lineMat lineF := by
  refine ⟨by decide, ⟨rfl, rfl, fun _ _ _ _ => rfl⟩, fun i j _ _ hij => ?_⟩
  unfold lineF
  rw [abs_pos, sub_ne_zero]
  exact_mod_cast hij

theorem onesMat_pos : AllPos 5 (constMat 5 1) := ⟨fun _ _ => 1, ⟨rfl, rfl, fun _ _ _ _ => rfl⟩, fun _ _ _ _ => one_pos⟩

theorem oneCanonical (n : Nat) : ∀ a ∈ [Ant.canonical (X := Ext ℚ) n], Ready n a := by
  intro a ha; simp at ha; rw [ha]; exact ready_canonical n

/-- The ant system on those cities, run by the clock: three iterations fit into a budget of 3 ticks, the fourth does not. -/
example := C61_run_time (A := Q) (tspAntSystem Q (canonicalGoodness Q (.fin 1) (.fin 1) (constMat 5 1)) (fun _ => exIter 0) lineMat
  (.fin (1/2))) (fun k => k) 3 3 10 (by decide) ⟨(0, [Ant.canonical 5]), (), Sol.default Q, constMat 5 1⟩ (by intro k hk; omega) (by decide)

example {s' : RunState (Mat (Ext ℚ)) (Nat × List (Ant (Ext ℚ))) Unit (Sol (Ext ℚ))} {es : List (Event (Ext ℚ) (Mat (Ext ℚ)))}
    (h : iterate Q (tspAcs Q (canonicalGoodness Q (.fin 1) (.fin 1) (constMat 5 1)) (.decay (.fin (1/2))) (fun _ => exIter 0) lineMat
      (.fin (1/2)) (overallBest Q)) ⟨(0, [Ant.canonical 5]), (), Sol.default Q, constMat 5 1⟩ = (es, .ok s')) :=
  C61_iteration_reports_best _ _ _ _ h

example := C91_acs_run (fun x => x) (fun x _ => x) 1000 (fun _ => 0) (by norm_num) lineMat_instance (fun m hm => exGood m hm)
  (l := .decayTo (.fin (1/2)) (.fin 1)) ⟨1/2, 1, rfl, rfl, by norm_num, by norm_num, by norm_num, .inl (by norm_num)⟩
  (policy := fun b ss => ss.headD b) (fun b ss => by cases ss <;> simp) (d := fun _ => exIter 0) (fun _ _ _ => exDraw_ok 0)
  (rho := 1/2) (by norm_num) (by norm_num) _ (List.cons_ne_nil _ _) (oneCanonical 5) _ onesMat_pos 4 100 (by decide)

example := C91_acs_one_city_panics (A := Q) (goodness := canonicalGoodness Q (.fin 1) (.fin 1) (constMat 1 1)) (l := .decay (.fin (1/2)))
  (d := fun _ => exIter 0) (w := constMat 1 0) (rate := .fin (1/2)) (policy := overallBest Q) (ph := constMat 1 1) rfl (oneCanonical 1)
  (Sol.default Q) 5 10 (by decide) (by decide)

end instances

end Ecrs.Aco
