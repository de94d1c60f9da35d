import Verif.Props.AcoRun
import Verif.Props.ProbAco

set_option linter.unusedSectionVars false
set_option linter.unusedVariables false

/-!
# Missing roads as infinite distances: C163

A user who wants to forbid a direct connection between two cities gives it the distance `f64::INFINITY`.
-/

namespace Ecrs.Aco
open Ecrs

section exact
variable {F : Type} [Field F] [LinearOrder F] [IsStrictOrderedRing F]
variable (sqrt : Ext F → Ext F) (pow : Ext F → Ext F → Ext F) (maxv : F) (floor : F → Nat)

/-! ## Specification -/

/-- Specification: the distances between `n ≥ 2` cities joined by the roads `E` of finite positive lengths `f`; two
different cities without a road have the distance infinity.  The diagonal is arbitrary. -/
structure Roads (n : Nat) (w : Mat (Ext F)) (E : Nat → Nat → Prop) (f : Nat → Nat → F) : Prop where
  two : 2 ≤ n
  rows : w.rows = n
  cols : w.cols = n
  road : ∀ i j, i < n → j < n → i ≠ j → E i j → w.get i j = .fin (f i j) ∧ 0 < f i j
  missing : ∀ i j, i < n → j < n → i ≠ j → ¬ E i j → w.get i j = .pinf

/-- Specification: the closed tour only uses roads. -/
def OnRoads (E : Nat → Nat → Prop) (p : List Nat) : Prop := ∀ e ∈ windows p, E e.1 e.2

/-- Specification: a tour of all cities; the inverse of its length if it only uses roads, and 0 otherwise. -/
def RoadGraded (n : Nat) (E : Nat → Nat → Prop) (f : Nat → Nat → F) (s : Sol (Ext F)) : Prop :=
  IsTour n s.path ∧ (OnRoads E s.path → s.fitness = .fin (1 / tourLength f s.path) ∧ 0 < tourLength f s.path) ∧
    (¬ OnRoads E s.path → s.fitness = .fin 0)

/-- Specification: an `n × n` matrix, finite and non-negative off the diagonal. -/
structure NonnegOff (n : Nat) (g : Mat (Ext F)) (f : Nat → Nat → F) : Prop where
  rows : g.rows = n
  cols : g.cols = n
  fin : ∀ i j, i < n → j < n → i ≠ j → g.get i j = .fin (f i j) ∧ 0 ≤ f i j

/-! ## Grading -/

theorem cost_pinf {n : Nat} {w : Mat (Ext F)} {E : Nat → Nat → Prop} {f : Nat → Nat → F} (hw : Roads n w E f) :
    ∀ (es : List (Nat × Nat)) (acc : Ext F), (∀ e ∈ es, e.1 < n ∧ e.2 < n ∧ e.1 ≠ e.2) →
    (acc = .pinf ∨ (∃ a, acc = .fin a) ∧ ∃ e ∈ es, ¬ E e.1 e.2) →
    cost (exactOps sqrt pow maxv floor) w es acc = .ok .pinf
  | [], acc, _, h => by
    rcases h with rfl | ⟨-, e, he, -⟩
    · rfl
    · cases he
  | e :: es, acc, he, h => by
    obtain ⟨h1, h2, h3⟩ := he e (by simp)
    have c1 : w.at' e.1 e.2 = .ok (w.get e.1 e.2) := by
      unfold Mat.at'; rw [if_pos ⟨by rw [hw.rows]; exact h1, by rw [hw.cols]; exact h2⟩]
    rw [cost, Exc.bind_of_ok c1]
    refine cost_pinf hw es _ (fun x hx => he x (by simp [hx])) ?_
    by_cases hE : E e.1 e.2
    · rw [(hw.road _ _ h1 h2 h3 hE).1]
      rcases h with rfl | ⟨⟨a, rfl⟩, x, hx, hxE⟩
      · exact .inl rfl
      · refine .inr ⟨⟨a + f e.1 e.2, rfl⟩, x, ?_, hxE⟩
        rcases List.mem_cons.1 hx with rfl | hx
        · exact absurd hE hxE
        · exact hx
    · rw [hw.missing _ _ h1 h2 h3 hE]
      rcases h with rfl | ⟨⟨a, rfl⟩, -⟩
      · exact .inl rfl
      · exact .inl rfl

theorem cost_roads {n : Nat} {w : Mat (Ext F)} {E : Nat → Nat → Prop} {f : Nat → Nat → F} (hw : Roads n w E f) :
    ∀ (es : List (Nat × Nat)) (acc : F), (∀ e ∈ es, e.1 < n ∧ e.2 < n ∧ e.1 ≠ e.2 ∧ E e.1 e.2) →
    cost (exactOps sqrt pow maxv floor) w es (.fin acc) = .ok (.fin (acc + (es.map fun e => f e.1 e.2).sum)) ∧
      0 ≤ (es.map fun e => f e.1 e.2).sum ∧ (es ≠ [] → 0 < (es.map fun e => f e.1 e.2).sum)
  | [], acc, _ => ⟨by simp [cost], by simp, fun h => absurd rfl h⟩
  | e :: es, acc, he => by
    obtain ⟨h1, h2, h3, h4⟩ := he e (by simp)
    obtain ⟨r1, r2⟩ := hw.road _ _ h1 h2 h3 h4
    have c1 : w.at' e.1 e.2 = .ok (.fin (f e.1 e.2)) := by
      unfold Mat.at'; rw [if_pos ⟨by rw [hw.rows]; exact h1, by rw [hw.cols]; exact h2⟩, r1]
    obtain ⟨i1, i2, -⟩ := cost_roads hw es (acc + f e.1 e.2) fun x hx => he x (by simp [hx])
    rw [cost, Exc.bind_of_ok c1, List.map_cons, List.sum_cons]
    refine ⟨?_, by linarith, fun _ => by linarith⟩
    show cost _ w es (.fin (acc + f e.1 e.2)) = _
    rw [i1, add_assoc]

theorem tour_edges {n : Nat} {p : List Nat} (hp : IsTour n p) (hn : 2 ≤ n) :
    ∀ e ∈ windows p, e.1 < n ∧ e.2 < n ∧ e.1 ≠ e.2 := fun e he =>
  ⟨List.mem_range.1 (hp.mem_iff.1 (windows_mem he).1), List.mem_range.1 (hp.mem_iff.1 (windows_mem he).2),
    tour_edges_ne hp hn e he⟩

/-- **C163, fitness.** `PathLengthInverse` grades a tour that only uses roads with the inverse of its length, and every
other tour with 0: it neither panics nor produces NaN. -/
theorem C163_fitness {n : Nat} {w : Mat (Ext F)} {E : Nat → Nat → Prop} {f : Nat → Nat → F} (hw : Roads n w E f)
    {s : Sol (Ext F)} (hp : IsTour n s.path) :
    (OnRoads E s.path → 0 < tourLength f s.path ∧
      gradeOne (exactOps sqrt pow maxv floor) w s = .ok ⟨s.path, .fin (1 / tourLength f s.path)⟩) ∧
    (¬ OnRoads E s.path → gradeOne (exactOps sqrt pow maxv floor) w s = .ok ⟨s.path, .fin 0⟩) := by
  have hed := tour_edges hp hw.two
  constructor
  · intro hE
    obtain ⟨h1, -, h3⟩ := cost_roads sqrt pow maxv floor hw (windows s.path) 0
      fun e he => ⟨(hed e he).1, (hed e he).2.1, (hed e he).2.2, hE e he⟩
    have hpos : 0 < tourLength f s.path := h3 (by
      intro h
      have := windows_length s.path
      rw [h, hp.length_eq, List.length_range] at this
      have := hw.two
      simp at *; omega)
    refine ⟨hpos, ?_⟩
    unfold gradeOne
    have h2 : cost (exactOps sqrt pow maxv floor) w (windows s.path) (exactOps sqrt pow maxv floor).zero =
      .ok (.fin (tourLength f s.path)) := by rw [zero_add] at h1; exact h1
    rw [Exc.bind_of_ok h2]
    show Except.ok _ = Except.ok _
    congr 2
    show (if tourLength f s.path = 0 then (if (1 : F) = 0 then Ext.nan else Ext.signed 1)
      else .fin (1 / tourLength f s.path)) = _
    rw [if_neg hpos.ne']
  · intro hE
    have hE : ∃ e ∈ windows s.path, ¬ E e.1 e.2 := by
      by_contra hc
      exact hE fun e he => by_contra fun h => hc ⟨e, he, h⟩
    have h2 : cost (exactOps sqrt pow maxv floor) w (windows s.path) (exactOps sqrt pow maxv floor).zero = .ok .pinf :=
      cost_pinf sqrt pow maxv floor hw _ _ hed (.inr ⟨⟨0, rfl⟩, hE⟩)
    unfold gradeOne
    rw [Exc.bind_of_ok h2]
    rfl

theorem gradeAll_roads {n : Nat} {w : Mat (Ext F)} {E : Nat → Nat → Prop} {f : Nat → Nat → F} (hw : Roads n w E f) :
    ∀ (ps : List (List Nat)), (∀ p ∈ ps, IsTour n p) →
    ∃ gs, gradeAll (exactOps sqrt pow maxv floor) w (ps.map fun p => ⟨p, .fin 0⟩) = .ok gs ∧
      gs.map (·.path) = ps ∧ ∀ g ∈ gs, RoadGraded n E f g
  | [], _ => ⟨[], rfl, rfl, by simp⟩
  | p :: ps, h => by
    obtain ⟨gs, h1, h3, h4⟩ := gradeAll_roads hw ps fun q hq => h q (by simp [hq])
    have key : ∃ g, gradeOne (exactOps sqrt pow maxv floor) w ⟨p, .fin 0⟩ = .ok g ∧ g.path = p ∧ RoadGraded n E f g := by
      obtain ⟨k1, k2⟩ := C163_fitness sqrt pow maxv floor hw (s := ⟨p, .fin 0⟩) (h p (by simp))
      by_cases hE : OnRoads E p
      · exact ⟨_, (k1 hE).2, rfl, h p (by simp), fun _ => ⟨rfl, (k1 hE).1⟩, fun hn => absurd hE hn⟩
      · exact ⟨_, k2 hE, rfl, h p (by simp), fun hn => absurd hn hE, fun _ => rfl⟩
    obtain ⟨g, g1, g2, g3⟩ := key
    refine ⟨g :: gs, ?_, by simp [h3, g2], ?_⟩
    · rw [List.map_cons, gradeAll, Exc.bind_of_ok g1, Exc.bind_of_ok h1]; rfl
    · intro x hx
      rcases List.mem_cons.1 hx with rfl | hx
      · exact g3
      · exact h4 x hx

theorem roadGraded_good {n : Nat} {E : Nat → Nat → Prop} {f : Nat → Nat → F} {s : Sol (Ext F)} (h : RoadGraded n E f s) :
    GoodSol n s := by
  refine ⟨fun _ hv => List.mem_range.1 (h.1.mem_iff.1 hv), ?_⟩
  by_cases hE : OnRoads E s.path
  · exact ⟨_, (h.2.1 hE).1, (one_div_pos.2 (h.2.1 hE).2).le⟩
  · exact ⟨0, h.2.2 hE, le_refl _⟩

/-- **C163, ranking.** Of the graded tours of an iteration the one reported as best only uses roads as soon as one of them
does, and then it is a shortest of those; otherwise - there is no tour over roads among them - it is still one of them,
crosses a missing road and is reported with fitness 0. -/
theorem C163_best {n : Nat} {E : Nat → Nat → Prop} {f : Nat → Nat → F} {sols : List (Sol (Ext F))} {b : Sol (Ext F)}
    (hs : ∀ s ∈ sols, RoadGraded n E f s) (h : findBest (exactOps sqrt pow maxv floor) sols = .ok b) :
    b ∈ sols ∧ ((∃ s ∈ sols, OnRoads E s.path) → OnRoads E b.path ∧
        ∀ s ∈ sols, OnRoads E s.path → tourLength f b.path ≤ tourLength f s.path) ∧
      ((∀ s ∈ sols, ¬ OnRoads E s.path) → ¬ OnRoads E b.path ∧ b.fitness = .fin 0) := by
  have hnum : ∀ s ∈ sols, Numeric (exactOps sqrt pow maxv floor) s := fun s hs' => by
    obtain ⟨-, x, hx, -⟩ := roadGraded_good (hs s hs')
    unfold Numeric; rw [hx]; trivial
  have hne : sols ≠ [] := by rintro rfl; cases h
  obtain ⟨b', e1, e2, e3⟩ := C61_find_best_max hnum hne
  rw [e1] at h; cases h
  have hle : ∀ s ∈ sols, ∀ x y, s.fitness = .fin x → b.fitness = .fin y → x ≤ y := by
    intro s hs' x y hx hy
    by_contra hc
    have h5 := Fl.lt_iff.1 ((ex_lt sqrt pow maxv floor).2 (not_le.1 hc))
    have := e3 s hs'
    unfold NotFitter at this
    rw [hx, hy] at this
    exact (Fl.not_lt this.isNum_right this.isNum_left).2 this h5
  refine ⟨e2, fun ⟨s, hs1, hs2⟩ => ?_, fun hn => ⟨hn b e2, (hs b e2).2.2 (hn b e2)⟩⟩
  have hbE : OnRoads E b.path := by
    by_contra hc
    obtain ⟨s1, s2⟩ := (hs s hs1).2.1 hs2
    exact absurd (hle s hs1 _ _ s1 ((hs b e2).2.2 hc)) (not_le.2 (one_div_pos.2 s2))
  refine ⟨hbE, fun t ht htE => ?_⟩
  obtain ⟨t1, t2⟩ := (hs t ht).2.1 htE
  obtain ⟨b1, b2⟩ := (hs b e2).2.1 hbE
  exact (one_div_le_one_div t2 b2).1 (hle t ht _ _ t1 b1)

/-! ## Heuristic and goodness -/

theorem ex_eq_pinf : (exactOps sqrt pow maxv floor).eq .pinf (exactOps sqrt pow maxv floor).zero = false := by
  show (Fl.partialCmp (Ext.view .pinf) (Ext.view (.fin (0 : F))) == some .eq) = false
  refine beq_eq_false_iff_ne.2 ?_
  unfold Ext.view Fl.partialCmp
  simp only
  intro h
  have := compare_eq_iff_eq.1 (Option.some.inj h)
  exact absurd (WithBot.coe_inj.1 this) (by intro h0; cases h0)

/-- **C163, heuristic.** `create_heuristic_from_weights` turns a road into its inverse length and a missing road into 0. -/
theorem C163_heuristic {n : Nat} {w : Mat (Ext F)} {E : Nat → Nat → Prop} {f : Nat → Nat → F} (hw : Roads n w E f)
    {i j : Nat} (hi : i < n) (hj : j < n) (hij : i ≠ j) :
    (E i j → (heuristic (exactOps sqrt pow maxv floor) w).get i j = .fin (1 / f i j)) ∧
    (¬ E i j → (heuristic (exactOps sqrt pow maxv floor) w).get i j = .fin 0) := by
  constructor
  · intro hE
    obtain ⟨r1, r2⟩ := hw.road i j hi hj hij hE
    rw [(C94_heuristic w i j).2.2.2 (by rw [r1]; exact ex_eq_zero sqrt pow maxv floor r2.ne'), r1]
    show (if f i j = 0 then (if (1 : F) = 0 then Ext.nan else Ext.signed 1) else .fin (1 / f i j)) = _
    rw [if_neg r2.ne']
  · intro hE
    have r1 := hw.missing i j hi hj hij hE
    rw [(C94_heuristic w i j).2.2.2 (by rw [r1]; exact ex_eq_pinf sqrt pow maxv floor), r1]
    rfl

/-- **C163, goodness.** With the heuristic made from the distances, positive pheromone and exponents for which powers of
positive numbers are positive and `0 ^ beta = 0`, the canonical goodness is positive on roads and 0 on missing roads. -/
theorem C163_goodness {alpha beta : Ext F} (ha : PowPos pow alpha) (hb : PowPos pow beta)
    (hb0 : pow (.fin 0) beta = .fin 0) {n : Nat} {w ph : Mat (Ext F)} {E : Nat → Nat → Prop} {f : Nat → Nat → F}
    (hw : Roads n w E f) (hp : PosMat n ph) :
    ∃ g q, canonicalGoodness (exactOps sqrt pow maxv floor) alpha beta (heuristic (exactOps sqrt pow maxv floor) w) ph = .ok g ∧
      NonnegOff n g q ∧ ∀ i j, i < n → j < n → i ≠ j → (E i j ↔ 0 < q i j) := by
  classical
  obtain ⟨g, h1, h2, h3, h4⟩ := C88_goodness_entries (A := exactOps sqrt pow maxv floor) (alpha := alpha) (beta := beta)
    (h := heuristic (exactOps sqrt pow maxv floor) w) hp.1 hp.2.1 hw.rows hw.cols
  have key : ∀ i j, i < n → j < n → i ≠ j → ∃ x, g.get i j = .fin x ∧ 0 ≤ x ∧ (E i j ↔ 0 < x) := by
    intro i j hi hj hij
    obtain ⟨x, hx, hx0⟩ := hp.2.2 i j hi hj hij
    obtain ⟨u, hu, hu0⟩ := ha x hx0
    obtain ⟨k1, k2⟩ := C163_heuristic sqrt pow maxv floor hw hi hj hij
    by_cases hE : E i j
    · obtain ⟨-, r2⟩ := hw.road i j hi hj hij hE
      obtain ⟨v, hv, hv0⟩ := hb _ (one_div_pos.2 r2)
      refine ⟨u * v, ?_, (mul_pos hu0 hv0).le, ⟨fun _ => mul_pos hu0 hv0, fun _ => hE⟩⟩
      rw [h4 i j hi hj, hx, k1 hE]
      show Ext.mul (pow _ _) (pow _ _) = _
      rw [hu, hv]; rfl
    · refine ⟨u * 0, ?_, by simp, ⟨fun h => absurd h hE, fun h => by simp at h⟩⟩
      rw [h4 i j hi hj, hx, k2 hE]
      show Ext.mul (pow _ _) (pow _ _) = _
      rw [hu, hb0]; rfl
  refine ⟨g, fun i j => if h : i < n ∧ j < n ∧ i ≠ j then (key i j h.1 h.2.1 h.2.2).choose else 0, h1,
    ⟨h2, h3, fun i j hi hj hij => ?_⟩, fun i j hi hj hij => ?_⟩
  · simp only [dif_pos (show i < n ∧ j < n ∧ i ≠ j from ⟨hi, hj, hij⟩)]
    exact ⟨(key i j hi hj hij).choose_spec.1, (key i j hi hj hij).choose_spec.2.1⟩
  · simp only [dif_pos (show i < n ∧ j < n ∧ i ≠ j from ⟨hi, hj, hij⟩)]
    exact (key i j hi hj hij).choose_spec.2.2

/-! ## Steps of ants -/

theorem nonnegOff_at {n : Nat} {g : Mat (Ext F)} {q : Nat → Nat → F} (h : NonnegOff n g q) {i j : Nat} (hi : i < n) (hj : j < n)
    (hij : i ≠ j) : g.at' i j = .ok (.fin (q i j)) := by
  unfold Mat.at'
  rw [if_pos ⟨by rw [h.rows]; exact hi, by rw [h.cols]; exact hj⟩, (h.fin i j hi hj hij).1]

/-- The roulette over non-negative goodness. -/
theorem roulette_nonneg {n : Nat} {g : Mat (Ext F)} {q : Nat → Nat → F} (hg : NonnegOff n g q) {last : Nat} (hl : last < n) :
    ∀ (vs : List Nat), (∀ v ∈ vs, v < n ∧ last ≠ v) →
      (∀ acc, rowSum (exactOps sqrt pow maxv floor) g last vs (.fin acc) = .ok (.fin (acc + (vs.map (q last)).sum))) ∧
      0 ≤ (vs.map (q last)).sum ∧
      (vs ≠ [] → ∀ r, r ≤ (vs.map (q last)).sum →
        ∃ v, roulette (exactOps sqrt pow maxv floor) g last vs (.fin r) = .ok (some v) ∧
          (0 < r → 0 < q last v) ∧ (r ≤ 0 → vs.head? = some v)) := by
  intro vs
  induction vs with
  | nil => intro _; exact ⟨fun acc => by simp [rowSum], by simp, fun h => absurd rfl h⟩
  | cons v vs ih =>
    intro hv
    obtain ⟨h1, h0, h2⟩ := ih fun u hu => hv u (by simp [hu])
    obtain ⟨hvn, hvl⟩ := hv v (by simp)
    have hx := nonnegOff_at hg hl hvn hvl
    have hp := (hg.fin last v hl hvn hvl).2
    rw [List.map_cons, List.sum_cons]
    refine ⟨fun acc => ?_, by linarith, fun _ r hr => ?_⟩
    · rw [rowSum, Exc.bind_of_ok hx]
      have : (exactOps sqrt pow maxv floor).add (.fin acc) (.fin (q last v)) = .fin (acc + q last v) := rfl
      rw [this, h1, add_assoc]
    · rw [roulette, Exc.bind_of_ok hx]
      have hsub : (exactOps sqrt pow maxv floor).sub (.fin r) (.fin (q last v)) = .fin (r - q last v) := by
        show Ext.fin (r + -q last v) = _
        rw [sub_eq_add_neg]
      rw [hsub]
      by_cases hle : r - q last v ≤ 0
      · have : (exactOps sqrt pow maxv floor).notLe (.fin (r - q last v)) (exactOps sqrt pow maxv floor).zero = false := by
          cases hc : (exactOps sqrt pow maxv floor).notLe (.fin (r - q last v)) (exactOps sqrt pow maxv floor).zero with
          | false => rfl
          | true => exact absurd ((ex_notLe sqrt pow maxv floor).1 hc) (not_lt.2 hle)
        rw [this]
        exact ⟨v, rfl, fun h => by linarith, fun _ => rfl⟩
      · have hgt : (exactOps sqrt pow maxv floor).notLe (.fin (r - q last v)) (exactOps sqrt pow maxv floor).zero = true :=
          (ex_notLe sqrt pow maxv floor).2 (not_le.1 hle)
        rw [hgt]
        have hne : vs ≠ [] := by
          rintro rfl
          simp at hr
          exact hle (by linarith)
        obtain ⟨u, hu, hu1, -⟩ := h2 hne (r - q last v) (by linarith)
        exact ⟨u, by simpa using hu, fun _ => hu1 (not_le.1 hle), fun h => absurd (by linarith) hle⟩

theorem bestVertex_nonneg {n : Nat} {g : Mat (Ext F)} {q : Nat → Nat → F} (hg : NonnegOff n g q) {last : Nat} (hl : last < n) :
    ∀ (vs : List Nat) (next : Option Nat) (value : F), (∀ v ∈ vs, v < n ∧ last ≠ v) →
      ((∃ u, next = some u ∧ value = q last u) ∨ (next = none ∧ vs ≠ [] ∧ value < 0)) →
      ∃ v, bestVertex (exactOps sqrt pow maxv floor) g last vs next (.fin value) = .ok (some v) ∧ value ≤ q last v ∧
        ∀ u ∈ vs, q last u ≤ q last v := by
  intro vs
  induction vs with
  | nil =>
    intro next value _ h
    rcases h with ⟨u, rfl, rfl⟩ | ⟨-, h, -⟩
    · exact ⟨u, rfl, le_refl _, by simp⟩
    · exact absurd rfl h
  | cons v vs ih =>
    intro next value hv h
    obtain ⟨hvn, hvl⟩ := hv v (by simp)
    have hx := nonnegOff_at hg hl hvn hvl
    have hp := (hg.fin last v hl hvn hvl).2
    rw [bestVertex, Exc.bind_of_ok hx]
    by_cases hlt : value < q last v
    · rw [if_pos ((ex_lt sqrt pow maxv floor).2 hlt)]
      obtain ⟨y, y1, y2, y3⟩ := ih (some v) (q last v) (fun u hu => hv u (by simp [hu])) (.inl ⟨v, rfl, rfl⟩)
      refine ⟨y, y1, by linarith, fun u hu => ?_⟩
      rcases List.mem_cons.1 hu with rfl | hu
      · exact y2
      · exact y3 u hu
    · rw [if_neg (fun h => hlt ((ex_lt sqrt pow maxv floor).1 h))]
      rcases h with ⟨u, rfl, rfl⟩ | ⟨-, -, h⟩
      · obtain ⟨y, y1, y2, y3⟩ := ih (some u) _ (fun u hu => hv u (by simp [hu])) (.inl ⟨u, rfl, rfl⟩)
        refine ⟨y, y1, y2, fun x hx' => ?_⟩
        rcases List.mem_cons.1 hx' with rfl | hx'
        · exact le_trans (not_lt.1 hlt) y2
        · exact y3 x hx'
      · exact absurd (lt_of_lt_of_le h hp) hlt

/-- **C163, one step.** An ant that still has unvisited cities moves to one of them and never gets stuck or panics, also
when no road leads to any of them.  It moves without a road (goodness 0) only if no road leads to any unvisited city, or if
its random number is exactly 0; at such a dead end it crosses a missing road. -/
theorem C163_step (hmax : 0 < maxv) {n : Nat} {g : Mat (Ext F)} {q : Nat → Nat → F} (hg : NonnegOff n g q) {a : Ant (Ext F)}
    (ha : Building n a) (hs : a.stuck = false) (hu : a.unvisited ≠ []) {d : StepDraw (Ext F)} (hd : RangeOk d) :
    ∃ b last v, a.goNext (exactOps sqrt pow maxv floor) g d = .ok (b, (last, v)) ∧ b.stuck = false ∧
      a.path.getLast? = some last ∧ v ∈ a.unvisited ∧ b.path = a.path ++ [v] ∧
      (0 < q last v ∨ (∀ u ∈ a.unvisited, q last u = 0) ∨
        d.range (.fin (a.unvisited.map (q last)).sum) = .fin 0) := by
  obtain ⟨last, hl⟩ : ∃ last, a.path.getLast? = some last := by
    cases h : a.path.getLast? with
    | none => exact absurd (List.getLast?_eq_none_iff.1 h) ha.2.1
    | some l => exact ⟨l, rfl⟩
  have hlm : last ∈ a.path := List.mem_of_getLast? hl
  have hln := ha.2.2.2 last hlm
  have hnd := (ha.2.2.1 hs).nodup_iff.2 List.nodup_range
  have hdisj : ∀ v ∈ d.ord a.unvisited, v < n ∧ last ≠ v := by
    intro v hv
    have hv := (d.perm _).mem_iff.1 hv
    exact ⟨ha.1.2.2 v hv, (List.nodup_append.1 hnd).2.2 last hlm v hv⟩
  have hne : d.ord a.unvisited ≠ [] := by
    intro h
    have := (d.perm a.unvisited).length_eq
    rw [h] at this
    exact hu (List.length_eq_zero_iff.1 this.symm)
  have hsum : ((d.ord a.unvisited).map (q last)).sum = (a.unvisited.map (q last)).sum :=
    ((d.perm a.unvisited).map _).sum_eq
  have hroul : ∃ v, byRoulette (exactOps sqrt pow maxv floor) g last (d.ord a.unvisited) d = .ok (some v) ∧
      (0 < q last v ∨ d.range (.fin (a.unvisited.map (q last)).sum) = .fin 0) := by
    obtain ⟨h1, h0, h2⟩ := roulette_nonneg sqrt pow maxv floor hg hln _ hdisj
    rw [hsum] at h1 h0 h2
    obtain ⟨r, hr, hr0, hrs⟩ := hd _ h0
    obtain ⟨v, hv, hv2, -⟩ := h2 hne r hrs
    refine ⟨v, ?_, ?_⟩
    · unfold byRoulette
      have e1 := h1 0
      rw [zero_add] at e1
      have e1 : rowSum (exactOps sqrt pow maxv floor) g last (d.ord a.unvisited) (exactOps sqrt pow maxv floor).zero =
        .ok (.fin (a.unvisited.map (q last)).sum) := e1
      rw [Exc.bind_of_ok e1]
      have e2 : genRange (exactOps sqrt pow maxv floor) d (.fin (a.unvisited.map (q last)).sum) = .ok (.fin r) := by
        unfold genRange
        have a1 : (exactOps sqrt pow maxv floor).notLe (exactOps sqrt pow maxv floor).zero (.fin (a.unvisited.map (q last)).sum) = false := by
          cases hc : (exactOps sqrt pow maxv floor).notLe (exactOps sqrt pow maxv floor).zero (.fin (a.unvisited.map (q last)).sum) with
          | false => rfl
          | true => exact absurd ((ex_notLe sqrt pow maxv floor).1 hc) (not_lt.2 h0)
        have a2 : (exactOps sqrt pow maxv floor).lt (.fin (a.unvisited.map (q last)).sum) (exactOps sqrt pow maxv floor).infinity = true :=
          ex_lt_pinf sqrt pow maxv floor
        rw [a1, a2]
        show Except.ok (d.range _) = _
        rw [hr]
      rw [Exc.bind_of_ok e2]
      exact hv
    · rcases hr0.lt_or_eq with hr0 | hr0
      · exact .inl (hv2 hr0)
      · exact .inr (by rw [hr, ← hr0])
  have hch : ∃ v, choose (exactOps sqrt pow maxv floor) g last (d.ord a.unvisited) a.exploit d = .ok (some v) ∧
      (0 < q last v ∨ (∀ u ∈ a.unvisited, q last u = 0) ∨ d.range (.fin (a.unvisited.map (q last)).sum) = .fin 0) := by
    unfold choose
    cases a.exploit with
    | none =>
      obtain ⟨v, h1, h2⟩ := hroul
      exact ⟨v, h1, h2.imp id .inr⟩
    | some rate =>
      simp only
      split
      · obtain ⟨v, h1, -, h3⟩ := bestVertex_nonneg sqrt pow maxv floor hg hln _ none (-maxv) hdisj
          (.inr ⟨rfl, hne, by linarith⟩)
        refine ⟨v, h1, ?_⟩
        have hvm : v ∈ d.ord a.unvisited := by
          rcases bestVertex_mem h1 with h | h
          · cases h
          · exact h
        rcases (hg.fin last v hln (hdisj v hvm).1 (hdisj v hvm).2).2.lt_or_eq with h | h
        · exact .inl h
        · refine .inr (.inl fun u hu' => ?_)
          have hu'' := (d.perm _).mem_iff.2 hu'
          have := h3 u hu''
          rw [← h] at this
          exact le_antisymm this (hg.fin last u hln (hdisj u hu'').1 (hdisj u hu'').2).2
      · obtain ⟨v, h1, h2⟩ := hroul
        exact ⟨v, h1, h2.imp id .inr⟩
  obtain ⟨v, hv, hprop⟩ := hch
  have hvm := choose_mem hv
  refine ⟨{ a with stuck := v == last, unvisited := a.unvisited.filter (· ≠ v), path := a.path ++ [v] }, last, v, ?_, ?_, hl,
    (d.perm _).mem_iff.1 hvm, rfl, hprop⟩
  · unfold Ant.goNext
    rw [hl]
    simp only
    rw [if_neg (by rw [hs]; simp), if_neg hu, Exc.bind_of_ok hv]
    rfl
  · simp only [beq_eq_false_iff_ne]
    exact fun h => (hdisj v hvm).2 h.symm

theorem walk_nonneg (hmax : 0 < maxv) {n : Nat} {g : Mat (Ext F)} {q : Nat → Nat → F} (hg : NonnegOff n g q)
    {d : Nat → StepDraw (Ext F)} (hd : ∀ t, RangeOk (d t)) : ∀ (m k : Nat) (a : Ant (Ext F)), Building n a → a.stuck = false →
      a.path.length + m ≤ n → ∃ b, Ant.walk (exactOps sqrt pow maxv floor) g d k m a = .ok b ∧ b.stuck = false := by
  intro m
  induction m with
  | zero => intro k a _ hs _; exact ⟨a, rfl, hs⟩
  | succ m ih =>
    intro k a ha hs hlen
    have hu : a.unvisited ≠ [] := by
      intro h
      have := (ha.2.2.1 hs).length_eq
      rw [h, List.append_nil, List.length_range] at this
      omega
    obtain ⟨b, l, v, h1, h2, -⟩ := C163_step sqrt pow maxv floor hmax hg ha hs hu (hd k)
    obtain ⟨c1, -, c3⟩ := goNext_building ha h1
    obtain ⟨-, c4, -⟩ := c3 h2
    obtain ⟨c, hc, hcs⟩ := ih (k + 1) b c1 h2 (by omega)
    refine ⟨c, ?_, hcs⟩
    rw [Ant.walk, Exc.bind_of_ok h1]
    exact hc

/-- **C163, tours.** Whatever roads are missing, an iteration of Ant System returns one tour of all cities per ant: no ant
gets stuck and none panics. -/
theorem C163_tours (hmax : 0 < maxv) {goodness : Mat (Ext F) → Except Panic (Mat (Ext F))} {g : Mat (Ext F)}
    {q : Nat → Nat → F} {d : IterDraws (Ext F)} {ants : List (Ant (Ext F))} {ph : Mat (Ext F)} (hn : 0 < ph.rows)
    (hr : ∀ a ∈ ants, Ready ph.rows a) (hgo : goodness ph = .ok g) (hg : NonnegOff ph.rows g q)
    (hd : ∀ k t, RangeOk (d.step k t)) :
    ∃ ants' paths, antSystem (exactOps sqrt pow maxv floor) goodness d ants ph = .ok (ants', paths, ph) ∧
      paths.length = ants.length ∧ ∀ p ∈ paths, IsTour ph.rows p := by
  have key : ∀ (ants : List (Ant (Ext F))) (k : Nat), (∀ a ∈ ants, Ready ph.rows a) →
      ∃ as ps, asLoop (exactOps sqrt pow maxv floor) g ph.rows d k ants = .ok (as, ps) ∧ ps.length = ants.length := by
    intro ants
    induction ants with
    | nil => intro k _; exact ⟨_, _, rfl, rfl⟩
    | cons a ants ih =>
      intro k hr
      obtain ⟨b, hb⟩ := start_exact (s := d.start k) hn (hr a (by simp))
      obtain ⟨b1, b2, b3, -⟩ := start_ok (hr a (by simp)) hb
      obtain ⟨c, hc, hcs⟩ := walk_nonneg sqrt pow maxv floor hmax hg (hd k) (ph.rows - 1) 0 b b1 b2 (by omega)
      have h1 : oneAnt (exactOps sqrt pow maxv floor) g ph.rows d k a = .ok c := by
        unfold oneAnt; rw [Exc.bind_of_ok hb]; exact hc
      obtain ⟨as, ps, h2, h3⟩ := ih (k + 1) fun x hx => hr x (by simp [hx])
      refine ⟨c :: as, c.path :: ps, ?_, by simp [h3]⟩
      rw [asLoop, Exc.bind_of_ok h1, if_neg (by rw [hcs]; simp), Exc.bind_of_ok h2]
      rfl
  obtain ⟨as, ps, h1, h2⟩ := key ants 0 hr
  have hrun : antSystem (exactOps sqrt pow maxv floor) goodness d ants ph = .ok (as, ps, ph) := by
    unfold antSystem
    rw [Exc.bind_of_ok hgo, Exc.bind_of_ok h1]
    rfl
  exact ⟨as, ps, hrun, h2, (C55_ant_system_tours hr hrun).1⟩

/-! ## Pheromone -/

open Classical in
theorem deposit_roads {n : Nat} {E : Nat → Nat → Prop} {f : Nat → Nat → F} : ∀ (sols : List (Sol (Ext F))),
    (∀ s ∈ sols, RoadGraded n E f s) → ∃ ps qs : List (List Nat × F), sols = ofPairs ps ∧
      sols.filter (fun s => decide (OnRoads E s.path)) = ofPairs qs ∧ (∀ s ∈ ps, ∀ v ∈ s.1, v < n) ∧
      (∀ s ∈ qs, ∀ v ∈ s.1, v < n) ∧ ∀ a b, deposit ps a b = deposit qs a b
  | [], _ => ⟨[], [], rfl, rfl, by simp, by simp, fun _ _ => rfl⟩
  | s :: ss, h => by
    obtain ⟨ps, qs, h1, h2, h3, h4, h5⟩ := deposit_roads ss fun t ht => h t (by simp [ht])
    have hs := h s (by simp)
    obtain ⟨hir, x, hx, -⟩ := roadGraded_good hs
    have hcons : ∀ l : List (List Nat × F), (∀ t ∈ l, ∀ v ∈ t.1, v < n) → ∀ t ∈ (s.path, x) :: l, ∀ v ∈ t.1, v < n := by
      intro l hl t ht
      rcases List.mem_cons.1 ht with rfl | ht
      · exact hir
      · exact hl t ht
    by_cases hE : OnRoads E s.path
    · refine ⟨(s.path, x) :: ps, (s.path, x) :: qs, ?_, ?_, hcons ps h3, hcons qs h4, fun a b => ?_⟩
      · show s :: ss = ⟨s.path, .fin x⟩ :: ofPairs ps
        rw [h1, ← hx]
      · rw [List.filter_cons_of_pos (by simpa using hE), h2]
        show s :: ofPairs qs = ⟨s.path, .fin x⟩ :: ofPairs qs
        rw [← hx]
      · show _ + deposit ps a b = _ + deposit qs a b
        rw [h5]
    · have hx0 : x = 0 := by
        have := hs.2.2 hE
        rw [hx] at this
        exact Ext.fin.inj this
      refine ⟨(s.path, x) :: ps, qs, ?_, ?_, hcons ps h3, h4, fun a b => ?_⟩
      · show s :: ss = ⟨s.path, .fin x⟩ :: ofPairs ps
        rw [h1, ← hx]
      · rw [List.filter_cons_of_neg (by simpa using hE), h2]
      · show x * _ + deposit ps a b = _
        rw [hx0, zero_mul, zero_add, h5]

open Classical in
/-- **C163, pheromone.** Tours that cross a missing road leave nothing: after an Ant System update the pheromone is what it
would be had only the tours over roads been found. -/
theorem C163_no_trail {n : Nat} {E : Nat → Nat → Prop} {f : Nat → Nat → F} {sols : List (Sol (Ext F))}
    (hs : ∀ s ∈ sols, RoadGraded n E f s) {rho : F} {ph : Mat (Ext F)} {τ : Nat → Nat → F} (hp : FinMat n ph τ) :
    ∃ ph1 ph2 τ', antSystemPU (exactOps sqrt pow maxv floor) (.fin rho) sols ph = .ok ph1 ∧
      antSystemPU (exactOps sqrt pow maxv floor) (.fin rho) (sols.filter fun s => decide (OnRoads E s.path)) ph = .ok ph2 ∧
      FinMat n ph1 τ' ∧ FinMat n ph2 τ' := by
  obtain ⟨ps, qs, h1, h2, h3, h4, h5⟩ := deposit_roads sols hs
  obtain ⟨m1, a1, a2⟩ := C90_ant_system_formula sqrt pow maxv floor (rho := rho) hp h3
  obtain ⟨m2, b1, b2⟩ := C90_ant_system_formula sqrt pow maxv floor (rho := rho) hp h4
  refine ⟨m1, m2, _, by rw [h1]; exact a1, by rw [h2]; exact b1, a2, ?_⟩
  refine ⟨b2.1, b2.2.1, fun i j hi hj => ?_⟩
  rw [b2.2.2 i j hi hj]
  show Ext.fin (τ i j * (1 - rho) + deposit qs i j) = Ext.fin (τ i j * (1 - rho) + deposit ps i j)
  rw [h5]

/-! ## Whole runs -/

theorem buildGrade_roads {n : Nat} {w : Mat (Ext F)} {E : Nat → Nat → Prop} {f : Nat → Nat → F} (hi : Roads n w E f) {C U : Type}
    (al : Algo (Ext F) (Mat (Ext F)) C Unit U) (hg : al.grade = tspGrader (exactOps sqrt pow maxv floor) w)
    (s : RunState (Mat (Ext F)) C Unit U) {c : C} {paths : List (List Nat)} {ph : Mat (Ext F)}
    (hb : al.build s.colony s.ph = .ok (c, paths, ph)) (hne : paths ≠ []) (ht : ∀ p ∈ paths, IsTour n p) :
    ∃ sols b, buildGrade (exactOps sqrt pow maxv floor) al s = .ok (⟨c, (), s.upd, ph⟩, sols, b) ∧
      (∀ g ∈ sols, RoadGraded n E f g) ∧ b ∈ sols := by
  obtain ⟨gs, h1, h3, h4⟩ := gradeAll_roads sqrt pow maxv floor hi paths ht
  have hgne : gs ≠ [] := by
    rintro rfl
    exact hne h3.symm
  obtain ⟨b, e1, e2, -⟩ := C61_find_best_max (A := exactOps sqrt pow maxv floor)
    (fun t ht => by
      obtain ⟨-, x, hx, -⟩ := roadGraded_good (h4 t ht)
      unfold Numeric; rw [hx]; trivial) hgne
  refine ⟨gs, b, ?_, h4, e2⟩
  unfold buildGrade
  have hgr : al.grade s.grader (paths.map fun p => ⟨p, .fin 0⟩) = .ok ((), gs) := by
    rw [hg]; unfold tspGrader; rw [Exc.bind_of_ok h1]; rfl
  rw [Exc.bind_of_ok hb]
  simp only
  rw [Exc.bind_of_ok (fromPaths_tours sqrt pow maxv floor paths ht), Exc.bind_of_ok hgr]
  simp only
  rw [Exc.bind_of_ok e1]
  rfl

/-- **C163, runs.** Ant System with the canonical goodness made from the distances, on cities whose roads are any graph
(also one without a tour, or without any road): for every positive symmetric initial pheromone, evaporation rate below 1,
colony of at least one ant, draws and hash set orders the run performs its `limit` iterations without a panic.  Every best
it reports is a tour of all cities; if it only uses roads its fitness is the inverse of its length, otherwise 0.  So on a
graph without a tour the run reports in every iteration a "tour" that does not exist, told apart by its fitness 0. -/
theorem C163_run (hmax : 0 < maxv) {n : Nat} {w : Mat (Ext F)} {E : Nat → Nat → Prop} {f : Nat → Nat → F} (hw : Roads n w E f)
    {alpha beta : Ext F} (ha : PowPos pow alpha) (hb : PowPos pow beta) (hb0 : pow (.fin 0) beta = .fin 0)
    {d : Draws (Ext F)} (hd : ∀ i k t, RangeOk ((d i).step k t)) {rho : F} (h1 : rho < 1)
    (ants : List (Ant (Ext F))) (hants : ants ≠ []) (hr : ∀ a ∈ ants, Ready n a) (ph : Mat (Ext F)) (hph : AllPos n ph)
    (hsym : Sym n ph) (best0 : Sol (Ext F)) (limit fuel : Nat) (hf : limit < fuel) :
    ∃ recs : List (Sol (Ext F) × Mat (Ext F)), recs.length = limit ∧
      runIterations (exactOps sqrt pow maxv floor) (tspAntSystem (exactOps sqrt pow maxv floor)
          (canonicalGoodness (exactOps sqrt pow maxv floor) alpha beta (heuristic (exactOps sqrt pow maxv floor) w)) d w
          (.fin rho)) fuel ⟨0, limit⟩ ⟨(0, ants), (), best0, ph⟩ = (recs.flatMap block ++ [.finish], .done) ∧
      (∀ r ∈ recs, RoadGraded n E f r.1 ∧ (AllPos n r.2 ∧ Sym n r.2)) ∧
      ((∀ p, IsTour n p → ¬ OnRoads E p) → ∀ r ∈ recs, r.1.fitness = .fin 0) := by
  set goodness := canonicalGoodness (exactOps sqrt pow maxv floor) alpha beta (heuristic (exactOps sqrt pow maxv floor) w) with hgd
  obtain ⟨recs, c1, c2, c3⟩ : ∃ recs : List (Sol (Ext F) × Mat (Ext F)), recs.length = limit ∧
      runIterations (exactOps sqrt pow maxv floor) (tspAntSystem (exactOps sqrt pow maxv floor) goodness d w (.fin rho)) fuel
        ⟨0, limit⟩ ⟨(0, ants), (), best0, ph⟩ = (recs.flatMap block ++ [.finish], .done) ∧
      ∀ r ∈ recs, RoadGraded n E f r.1 ∧ (AllPos n r.2 ∧ Sym n r.2) := by
    refine runLoop_inv _ _ (AsInv n ants.length) (RoadGraded n E f) (fun m => AllPos n m ∧ Sym n m) ?_ limit fuel _ _ hf
      (stopsAt_iteration 0 limit limit (by omega)) ⟨rfl, hr, hph, hsym⟩
    rintro ⟨⟨i, as⟩, gs, u, m⟩ ⟨hk, hr', hp, hsy⟩
    simp only at hk hr' hp hsy
    have hrows : m.rows = n := hsy.1
    obtain ⟨g, q, hg1, hg2, -⟩ := C163_goodness sqrt pow maxv floor ha hb hb0 hw (allPos_posMat hp)
    obtain ⟨as', paths, e1, e2, e3⟩ := C163_tours sqrt pow maxv floor hmax (d := d i) (ants := as) (ph := m)
      (goodness := goodness) (g := g) (q := q) (by have := hw.two; omega) (by rw [hrows]; exact hr') hg1
      (by rw [hrows]; exact hg2) (hd i)
    obtain ⟨-, -, -, q4, q5⟩ := C55_ant_system_tours (by rw [hrows]; exact hr') e1
    rw [hrows] at e3 q5
    have hne : paths ≠ [] := by
      rintro rfl
      exact hants (List.length_eq_zero_iff.1 (by rw [← hk, ← e2]; rfl))
    have hbuild : (tspAntSystem (exactOps sqrt pow maxv floor) goodness d w (.fin rho)).build (i, as) m
        = .ok ((i + 1, as'), paths, m) := by
      show asColony _ goodness d (i, as) m = _
      unfold asColony
      rw [Exc.bind_of_ok e1]; rfl
    obtain ⟨sols, b, b1, b2, b3⟩ := buildGrade_roads sqrt pow maxv floor hw
      (tspAntSystem (exactOps sqrt pow maxv floor) goodness d w (.fin rho)) rfl ⟨(i, as), gs, u, m⟩ hbuild hne e3
    obtain ⟨ph', c1, c2⟩ := (C58_ant_system_nonneg sqrt pow maxv floor h1.le (sols := sols)
      fun s hs => roadGraded_good (b2 s hs)).2 hp h1
    obtain ⟨ph2, c3, c4⟩ := C57_ant_system_symmetric (A := exactOps sqrt pow maxv floor) (rate := .fin rho) hsy
      (fun s hs => (roadGraded_good (b2 s hs)).1)
    rw [c1] at c3
    cases c3
    refine ⟨b, ⟨(i + 1, as'), (), u, ph'⟩, ?_, ⟨by simp [q4, hk], q5, c2, c4⟩, b2 b b3, c2, c4⟩
    unfold iterate
    rw [b1]
    simp only
    have hup : (tspAntSystem (exactOps sqrt pow maxv floor) goodness d w (.fin rho)).update u sols m = .ok (u, ph') := by
      show asUpdate _ _ u sols m = _
      unfold asUpdate
      rw [Exc.bind_of_ok c1]; rfl
    rw [hup]
  exact ⟨recs, c1, c2, c3, fun hno r hr => (c3 r hr).1.2.2 (hno _ (c3 r hr).1.1)⟩

end exact

/-! ## The probability of leaving the roads -/

section prob
open MeasureTheory
open scoped ENNReal
variable {G : Type} [MeasurableSpace G] {R : Rng G ℝ} {μ : Measure G}
variable (sqrt : Ext ℝ → Ext ℝ) (pow : Ext ℝ → Ext ℝ → Ext ℝ) (maxv : ℝ) (floor : ℝ → Nat)

/-- **C163, probability.** With an ideal source of randomness the probability that a canonical ant leaves the roads
(goodness 0) in a step in which a road leads to an unvisited city is 0. -/
theorem C163_step_chance (hR : Ideal R μ) {n : Nat} {g : Mat (Ext ℝ)} {q : Nat → Nat → ℝ} (hg : FinMat n g q)
    {a : Ant (Ext ℝ)} (hex : a.exploit = none) (ha : Building n a) (hs : a.stuck = false) {last : Nat}
    (hl : a.path.getLast? = some last) (hq : ∀ u ∈ a.unvisited, 0 ≤ q last u) {r : Nat} (hr : r ∈ a.unvisited)
    (hr0 : 0 < q last r) {o : List Nat → List Nat} (ho : ∀ l, (o l).Perm l) :
    chance μ (a.goNextM R (exactOps sqrt pow maxv floor) g o ho)
      (fun b => ∃ v ∈ a.unvisited, q last v = 0 ∧ b.1.path = a.path ++ [v]) = 0 := by
  have hsum : 0 < (a.unvisited.map (q last)).sum := by
    have key : ∀ l : List Nat, (∀ u ∈ l, 0 ≤ q last u) → 0 ≤ (l.map (q last)).sum ∧ (r ∈ l → 0 < (l.map (q last)).sum) := by
      intro l
      induction l with
      | nil => intro _; exact ⟨by simp, fun h => by cases h⟩
      | cons x l ih =>
        intro h
        obtain ⟨i1, i2⟩ := ih fun u hu => h u (by simp [hu])
        have hx := h x (by simp)
        rw [List.map_cons, List.sum_cons]
        refine ⟨by linarith, fun hm => ?_⟩
        rcases List.mem_cons.1 hm with rfl | hm
        · linarith
        · have := i2 hm; linarith
    exact (key _ hq).2 hr
  have hsub : {w | ∃ b w', a.goNextM R (exactOps sqrt pow maxv floor) g o ho w = .ok (b, w') ∧
      ∃ v ∈ a.unvisited, q last v = 0 ∧ b.1.path = a.path ++ [v]} ⊆
      ⋃ v ∈ {v | v ∈ a.unvisited ∧ q last v = 0}, {w | ∃ b w', a.goNextM R (exactOps sqrt pow maxv floor) g o ho w = .ok (b, w') ∧
        b.1.path = a.path ++ [v]} := by
    rintro w ⟨b, w', h1, v, hv, hv0, h2⟩
    exact Set.mem_biUnion (x := v) ⟨hv, hv0⟩ ⟨b, w', h1, h2⟩
  refine measure_mono_null hsub ((measure_biUnion_null_iff (Set.to_countable _)).2 fun v hv => ?_)
  have := C136_next_vertex sqrt pow maxv floor hR hg hex ha hs hl hq hsum ho hv.1
  rw [hv.2, zero_div, ENNReal.ofReal_zero] at this
  exact this

end prob

/-! ## Every theorem on a concrete case -/

section instances

/-- Four cities; roads only between city 0 and each of the others: there is no tour over roads. -/
def starE (i j : Nat) : Prop := i = 0 ∨ j = 0
instance : DecidableRel starE := fun _ _ => inferInstanceAs (Decidable (_ ∨ _))
def starW : Mat (Ext ℚ) := ⟨4, 4, fun i j => if starE i j then .fin 2 else .pinf⟩
theorem starRoads : Roads 4 starW starE fun _ _ => 2 :=
  ⟨by decide, rfl, rfl, fun i j _ _ _ h => ⟨if_pos h, by norm_num⟩, fun i j _ _ _ h => if_neg h⟩

/-- Four cities on a ring. -/
def ringE (i j : Nat) : Prop := (i + 1) % 4 = j ∨ (j + 1) % 4 = i
instance : DecidableRel ringE := fun _ _ => inferInstanceAs (Decidable (_ ∨ _))
def ringW : Mat (Ext ℚ) := ⟨4, 4, fun i j => if ringE i j then .fin (i + j) else .pinf⟩
theorem ringRoads : Roads 4 ringW ringE fun i j => (i + j : ℚ) :=
  ⟨by decide, rfl, rfl, fun i j _ _ hij h => ⟨if_pos h, by
    have : 0 < i + j := by omega
    exact_mod_cast this⟩, fun i j _ _ _ h => if_neg h⟩

example := C163_fitness (fun x => x) (fun x _ => x) 1000 (fun _ => 0) ringRoads (s := ⟨[0, 1, 2, 3], .fin 0⟩)
  (by unfold IsTour; decide)
example : gradeOne Q ringW ⟨[0, 1, 2, 3], .fin 0⟩ = .ok ⟨[0, 1, 2, 3], .fin (1/12)⟩ ∧
    gradeOne Q ringW ⟨[0, 2, 1, 3], .fin 0⟩ = .ok ⟨[0, 2, 1, 3], .fin 0⟩ := by
  refine ⟨?_, (C163_fitness (fun x => x) (fun x _ => x) 1000 (fun _ => 0) ringRoads (s := ⟨[0, 2, 1, 3], .fin 0⟩)
    (by unfold IsTour; decide)).2 (by unfold OnRoads; decide)⟩
  have := ((C163_fitness (fun x => x) (fun x _ => x) 1000 (fun _ => 0) ringRoads (s := ⟨[0, 1, 2, 3], .fin 0⟩)
    (by unfold IsTour; decide)).1 (by unfold OnRoads; decide)).2
  rw [this]
  congr 3
  decide +kernel

theorem ringSols : ∀ s ∈ [(⟨[0, 2, 1, 3], .fin 0⟩ : Sol (Ext ℚ)), ⟨[0, 1, 2, 3], .fin (1/12)⟩],
    RoadGraded 4 ringE (fun i j => (i + j : ℚ)) s := by
  intro s hs
  simp only [List.mem_cons, List.not_mem_nil, or_false] at hs
  rcases hs with rfl | rfl
  · exact ⟨by unfold IsTour; decide, fun h => absurd h (by unfold OnRoads; decide), fun _ => rfl⟩
  · refine ⟨by unfold IsTour; decide, fun _ => ⟨?_, by decide +kernel⟩, fun h => absurd (by unfold OnRoads; decide) h⟩
    decide +kernel

example := C163_best (fun x => x) (fun x _ => x) 1000 (fun _ => 0) ringSols (b := ⟨[0, 1, 2, 3], .fin (1/12)⟩) (by decide +kernel)
example := C163_no_trail (fun x => x) (fun x _ => x) 1000 (fun _ => 0) ringSols (rho := 1/2) (ph := constMat 4 1) (τ := fun _ _ => 1)
  ⟨rfl, rfl, fun _ _ _ _ => rfl⟩
example := C163_heuristic (fun x => x) (fun x _ => x) 1000 (fun _ => 0) starRoads (i := 1) (j := 2) (by decide) (by decide) (by decide)

theorem starGood : ∃ g q, canonicalGoodness Q (.fin 1) (.fin 1) (heuristic Q starW) (constMat 4 1) = .ok g ∧
    NonnegOff 4 g q ∧ ∀ i j, i < 4 → j < 4 → i ≠ j → (starE i j ↔ 0 < q i j) :=
  C163_goodness (fun x => x) (fun x _ => x) 1000 (fun _ => 0) (fun x hx => ⟨x, rfl, hx⟩) (fun x hx => ⟨x, rfl, hx⟩) rfl starRoads
    (constMat_pos 4 one_pos)

/-- An ant at city 1 of the star that has already been at city 0: a dead end. -/
theorem deadEnd_building : Building 4 (⟨[2, 3], [0, 1], 4, false, none⟩ : Ant (Ext ℚ)) :=
  ⟨⟨rfl, by simp, by simp⟩, by simp, fun _ => by show ([0, 1, 2, 3] : List Nat).Perm (List.range 4); decide, by simp⟩
example {g : Mat (Ext ℚ)} {q : Nat → Nat → ℚ} (hg : NonnegOff 4 g q) := C163_step (fun x => x) (fun x _ => x) 1000 (fun _ => 0) (by norm_num) hg deadEnd_building rfl
  (by simp) (exDraw_ok 0)
example {g : Mat (Ext ℚ)} {q : Nat → Nat → ℚ} (hg : NonnegOff 4 g q) (h : canonicalGoodness Q (.fin 1) (.fin 1) (heuristic Q starW) (constMat 4 1) = .ok g) :=
  C163_tours (fun x => x) (fun x _ => x) 1000 (fun _ => 0) (by norm_num) (ph := constMat 4 1) (by decide) (oneCanonical 4) h hg
    (d := exIter 0) (fun _ _ => exDraw_ok 0)

theorem star_no_tour (p : List Nat) (hp : IsTour 4 p) : ¬ OnRoads starE p := by
  have hlen : p.length = 4 := by rw [hp.length_eq, List.length_range]
  match p, hlen with
  | [a, b, c, e], _ =>
    have hlt : ∀ v ∈ [a, b, c, e], v < 4 := fun v hv => List.mem_range.1 (hp.mem_iff.1 hv)
    have hnd : [a, b, c, e].Nodup := hp.nodup_iff.2 List.nodup_range
    simp only [List.mem_cons, List.not_mem_nil, or_false, forall_eq_or_imp, forall_eq] at hlt
    simp only [List.nodup_cons, List.mem_cons, List.not_mem_nil, or_false, not_or] at hnd
    intro h
    have h1 : starE a b := h (a, b) (by simp [windows])
    have h2 : starE b c := h (b, c) (by simp [windows])
    have h3 : starE c e := h (c, e) (by simp [windows])
    have h4 : starE e a := h (e, a) (by simp [windows])
    unfold starE at h1 h2 h3 h4
    omega

/-- Five iterations of an ant on the star: five reports of a "tour" with fitness 0. -/
example : ∃ recs : List (Sol (Ext ℚ) × Mat (Ext ℚ)), recs.length = 5 ∧ ∀ r ∈ recs, IsTour 4 r.1.path ∧ r.1.fitness = .fin 0 := by
  obtain ⟨recs, h1, -, h3, h4⟩ := C163_run (fun x => x) (fun x _ => x) 1000 (fun _ => 0) (by norm_num) starRoads
    (alpha := .fin 1) (beta := .fin 1) (fun x hx => ⟨x, rfl, hx⟩) (fun x hx => ⟨x, rfl, hx⟩) rfl (d := fun _ => exIter 0)
    (fun _ _ _ => exDraw_ok 0) (rho := 1/2) (by norm_num) [Ant.canonical 4] (List.cons_ne_nil _ _) (oneCanonical 4)
    (constMat 4 1) ⟨fun _ _ => 1, ⟨rfl, rfl, fun _ _ _ _ => rfl⟩, fun _ _ _ _ => one_pos⟩ ⟨rfl, rfl, fun _ _ _ _ => rfl⟩
    (Sol.default Q) 5 10 (by decide)
  exact ⟨recs, h1, fun r hr => ⟨(h3 r hr).1.1, h4 star_no_tour r hr⟩⟩

def gapG : Mat (Ext ℝ) := ⟨3, 3, fun i j => .fin (if i + j = 1 then 0 else 1)⟩
example := C163_step_chance (fun x => x) (fun x _ => x) 1000 (fun _ => 0) tapeRng_ideal (n := 3) (g := gapG)
  (q := fun i j => if i + j = 1 then 0 else 1) ⟨rfl, rfl, fun _ _ _ _ => rfl⟩ (a := ⟨[2, 1], [0], 3, false, none⟩) rfl
  (exAnt_building _) rfl (last := 0) rfl (fun u _ => by split <;> norm_num) (r := 2) (by simp) (by norm_num) (o := List.reverse)
  (fun l => List.reverse_perm l)

end instances

end Ecrs.Aco
