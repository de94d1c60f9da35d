import Verif.Props.AcoAcs
import Mathlib.Data.List.Rotate
import Mathlib.Data.List.Count
import Mathlib.Tactic.Ring
import Mathlib.Tactic.NormNum

set_option linter.unusedSectionVars false

/-!
# Pheromone updates: C57, C58, C59, C90
-/

namespace Ecrs.Aco
open Ecrs

/-! ## Specification -/

section general
variable {X K : Type} [LinearOrder K] {A : AcoOps X K}

/-- Specification: an `n × n` symmetric matrix. -/
def Sym (n : Nat) (m : Mat X) : Prop := m.rows = n ∧ m.cols = n ∧ ∀ i j, i < n → j < n → m.get i j = m.get j i

/-- Specification: the path stays in `0..n`. -/
def InRange (n : Nat) (s : Sol X) : Prop := ∀ v ∈ s.path, v < n

theorem windows_mem {p : List Nat} {e : Nat × Nat} (h : e ∈ windows p) : e.1 ∈ p ∧ e.2 ∈ p := by
  obtain ⟨a, b⟩ := e
  have h1 := List.of_mem_zip h
  refine ⟨h1.1, ?_⟩
  rcases List.mem_append.1 h1.2 with h2 | h2
  · exact List.mem_of_mem_tail h2
  · exact List.mem_of_mem_take h2

theorem addBoth_sym {n i j : Nat} {x : X} {m : Mat X} (hm : Sym n m) (hi : i < n) (hj : j < n) :
    ∃ m', addBoth A m i j x = .ok m' ∧ Sym n m' := by
  obtain ⟨h1, h2, h3⟩ := hm
  unfold addBoth Mat.at' Mat.set
  simp only [h1, h2, hi, hj, and_self, if_true, bind, Except.bind]
  refine ⟨_, rfl, rfl, rfl, fun a b ha hb => ?_⟩
  have := h3 a b ha hb
  have := h3 i j hi hj
  grind

theorem leaveEdges_sym {n : Nat} {x : X} : ∀ (es : List (Nat × Nat)) (m : Mat X), Sym n m →
    (∀ e ∈ es, e.1 < n ∧ e.2 < n) → ∃ m', leaveEdges A x es m = .ok m' ∧ Sym n m'
  | [], m, hm, _ => ⟨m, rfl, hm⟩
  | e :: es, m, hm, he => by
    obtain ⟨m1, h1, h2⟩ := addBoth_sym (A := A) (x := x) hm (he e (by simp)).1 (he e (by simp)).2
    obtain ⟨m2, h3, h4⟩ := leaveEdges_sym es m1 h2 fun e h => he e (by simp [h])
    exact ⟨m2, by rw [leaveEdges, Exc.bind_of_ok h1]; exact h3, h4⟩

theorem windows_lt {n : Nat} {s : Sol X} (h : InRange n s) : ∀ e ∈ windows s.path, e.1 < n ∧ e.2 < n :=
  fun _ he => ⟨h _ (windows_mem he).1, h _ (windows_mem he).2⟩

theorem leaveTrails_sym {n : Nat} : ∀ (ss : List (Sol X)) (m : Mat X), Sym n m → (∀ s ∈ ss, InRange n s) →
    ∃ m', leaveTrails A ss m = .ok m' ∧ Sym n m'
  | [], m, hm, _ => ⟨m, rfl, hm⟩
  | s :: ss, m, hm, hs => by
    obtain ⟨m1, h1, h2⟩ := leaveEdges_sym (A := A) (x := s.fitness) (windows s.path) m hm (windows_lt (hs s (by simp)))
    obtain ⟨m2, h3, h4⟩ := leaveTrails_sym ss m1 h2 fun e h => hs e (by simp [h])
    exact ⟨m2, by rw [leaveTrails, leaveTrail, Exc.bind_of_ok h1]; exact h3, h4⟩

theorem evaporate_sym {n : Nat} {rate : X} {m : Mat X} (hm : Sym n m) : Sym n (evaporate A rate m) :=
  ⟨hm.1, hm.2.1, fun i j hi hj => by
    show A.mul (m.get i j) _ = A.mul (m.get j i) _
    rw [hm.2.2 i j hi hj]⟩

theorem mmEdges_sym {n : Nat} {x lo hi : X} : ∀ (es : List (Nat × Nat)) (m : Mat X), Sym n m →
    (∀ e ∈ es, e.1 < n ∧ e.2 < n) → ∃ m', mmEdges A x lo hi es m = .ok m' ∧ Sym n m'
  | [], m, hm, _ => ⟨m, rfl, hm⟩
  | e :: es, m, hm, he => by
    obtain ⟨i, j⟩ := e
    obtain ⟨hi', hj'⟩ := he (i, j) (by simp)
    obtain ⟨h1, h2, h3⟩ := hm
    have : ∃ m1, (do
        let a ← m.at' i j
        let ph1 ← m.set i j (clampVal A (A.add a x) lo hi)
        let b ← ph1.at' i j
        ph1.set j i b) = .ok m1 ∧ Sym n m1 := by
      unfold Mat.at' Mat.set
      simp only at hi' hj'
      simp only [h1, h2, hi', hj', and_self, if_true, bind, Except.bind]
      refine ⟨_, rfl, rfl, rfl, fun a b ha hb => ?_⟩
      have := h3 a b ha hb
      grind
    obtain ⟨m1, h4, h5⟩ := this
    obtain ⟨m2, h6, h7⟩ := mmEdges_sym es m1 h5 fun e h => he e (by simp [h])
    refine ⟨m2, ?_, h7⟩
    rw [mmEdges]
    obtain ⟨a, ha, h4⟩ := Exc.bind_ok.1 h4
    obtain ⟨p1, hp1, h4⟩ := Exc.bind_ok.1 h4
    obtain ⟨b, hb, h4⟩ := Exc.bind_ok.1 h4
    rw [Exc.bind_of_ok ha, Exc.bind_of_ok hp1, Exc.bind_of_ok hb, Exc.bind_of_ok h4]
    exact h6

/-! ## C57: symmetry -/

/-- **C57, Ant System.** For any arithmetic (with rounding): on a symmetric `n × n` pheromone and solutions with paths in
`0..n` the update does not panic and its result is symmetric. -/
theorem C57_ant_system_symmetric {n : Nat} {rate : X} {sols : List (Sol X)} {ph : Mat X} (hp : Sym n ph)
    (hs : ∀ s ∈ sols, InRange n s) : ∃ ph', antSystemPU A rate sols ph = .ok ph' ∧ Sym n ph' :=
  leaveTrails_sym sols _ (evaporate_sym hp) hs

theorem better_mem (ss : List (Sol X)) (s : Sol X) : ss.foldl (better A) s ∈ s :: ss := by
  induction ss generalizing s with
  | nil => simp
  | cons t ss ih =>
    rw [List.foldl_cons]
    have := ih (better A s t)
    unfold better at this ⊢
    split
    · rename_i h
      rw [if_pos h] at this
      rcases List.mem_cons.1 this with h | h
      · rw [h]; simp
      · simp [h]
    · rename_i h
      rw [if_neg h] at this
      exact List.mem_cons_of_mem _ this

theorem overallBest_mem (best : Sol X) (ss : List (Sol X)) : overallBest A best ss = best ∨ overallBest A best ss ∈ ss := by
  cases ss with
  | nil => exact .inl rfl
  | cons s ss =>
    rw [overallBest]
    split
    · exact .inr (better_mem ss s)
    · exact .inl rfl

theorem iterationBest_mem (best : Sol X) (ss : List (Sol X)) :
    iterationBest A best ss = best ∨ iterationBest A best ss ∈ ss := by
  cases ss with
  | nil => exact .inl rfl
  | cons s ss => exact .inr (better_mem ss s)

/-- Specification: a best policy returns its previous best or one of the solutions shown to it. -/
def Picks {X : Type} (policy : Sol X → List (Sol X) → Sol X) : Prop := ∀ b ss, policy b ss = b ∨ policy b ss ∈ ss

theorem picks_range {X : Type} {policy : Sol X → List (Sol X) → Sol X} (h : Picks policy) {n : Nat} {b : Sol X} {ss : List (Sol X)}
    (hb : InRange n b) (hs : ∀ s ∈ ss, InRange n s) : InRange n (policy b ss) := by
  rcases h b ss with h | h
  · rw [h]; exact hb
  · exact hs _ h

/-- **C57, Elitist Ant System.** -/
theorem C57_elitist_symmetric {n : Nat} {rate : X} {best : Sol X} {sols : List (Sol X)} {ph : Mat X} (hp : Sym n ph)
    (hb : InRange n best) (hs : ∀ s ∈ sols, InRange n s) :
    ∃ ph' b', elitistPU A rate best sols ph = .ok (ph', b') ∧ Sym n ph' ∧ InRange n b' := by
  obtain ⟨m1, h1, h2⟩ := leaveTrails_sym (A := A) sols _ (evaporate_sym (A := A) (rate := rate) hp) hs
  have hbr := picks_range (overallBest_mem (A := A)) hb hs
  obtain ⟨m2, h3, h4⟩ := leaveEdges_sym (A := A) (x := (overallBest A best sols).fitness) _ m1 h2 (windows_lt hbr)
  refine ⟨m2, overallBest A best sols, ?_, h4, hbr⟩
  unfold elitistPU leaveTrail
  simp only
  rw [Exc.bind_of_ok h1, Exc.bind_of_ok h3]
  rfl

/-- **C57, Max-Min Ant System.** -/
theorem C57_max_min_symmetric {n : Nat} {rate lo hi : X} {policy : Sol X → List (Sol X) → Sol X} (hpol : Picks policy)
    {best : Sol X} {sols : List (Sol X)} {ph : Mat X} (hp : Sym n ph)
    (hb : InRange n best) (hs : ∀ s ∈ sols, InRange n s) :
    ∃ ph' b', mmPU A rate lo hi policy best sols ph = .ok (ph', b') ∧ Sym n ph' ∧ InRange n b' := by
  have hbr := picks_range hpol hb hs
  obtain ⟨m2, h3, h4⟩ := mmEdges_sym (A := A) (x := (policy best sols).fitness) (lo := lo) (hi := hi) _ _
    (evaporate_sym (A := A) (rate := rate) hp) (windows_lt hbr)
  refine ⟨m2, policy best sols, ?_, h4, hbr⟩
  unfold mmPU
  simp only
  rw [Exc.bind_of_ok h3]
  rfl

/-- **C57, Ant Colony System (global rule).** -/
theorem C57_acs_symmetric {n : Nat} {rate : X} {policy : Sol X → List (Sol X) → Sol X} (hpol : Picks policy)
    {best : Sol X} {sols : List (Sol X)} {ph : Mat X} (hp : Sym n ph)
    (hb : InRange n best) (hs : ∀ s ∈ sols, InRange n s) :
    ∃ ph' b', acsPU A rate policy best sols ph = .ok (ph', b') ∧ Sym n ph' ∧ InRange n b' := by
  have hbr := picks_range hpol hb hs
  obtain ⟨m2, h3, h4⟩ := leaveEdges_sym (A := A) (x := A.mul (policy best sols).fitness rate) _ _
    (evaporate_sym (A := A) (rate := rate) hp) (windows_lt hbr)
  refine ⟨m2, policy best sols, ?_, h4, hbr⟩
  unfold acsPU
  simp only
  rw [Exc.bind_of_ok h3]
  rfl

/-- **C57, over a run.** Any number of Ant System updates, with any batches of solutions in range, keeps the pheromone
symmetric and never panics. -/
theorem C57_ant_system_history {n : Nat} {rate : X} : ∀ (batches : List (List (Sol X))) (ph : Mat X), Sym n ph →
    (∀ sols ∈ batches, ∀ s ∈ sols, InRange n s) →
    ∃ ph', batches.foldlM (fun ph sols => antSystemPU A rate sols ph) ph = .ok ph' ∧ Sym n ph'
  | [], ph, hp, _ => ⟨ph, rfl, hp⟩
  | b :: bs, ph, hp, hb => by
    obtain ⟨ph1, h1, h2⟩ := C57_ant_system_symmetric (A := A) (rate := rate) hp (hb b (by simp))
    obtain ⟨ph2, h3, h4⟩ := C57_ant_system_history bs ph1 h2 fun s hs => hb s (by simp [hs])
    exact ⟨ph2, by rw [List.foldlM_cons, Exc.bind_of_ok h1]; exact h3, h4⟩

end general

example : ∃ ph', antSystemPU Q (.fin (1/2)) [⟨[0, 2, 1], .fin 3⟩, ⟨[2, 1, 0], .fin 1⟩] (constMat 3 2) = .ok ph' ∧ Sym 3 ph' :=
  C57_ant_system_symmetric ⟨rfl, rfl, fun _ _ _ _ => rfl⟩ (by
    intro s hs; simp at hs; rcases hs with rfl | rfl <;> (intro v hv; simp at hv; omega))

example : ∃ ph' b', elitistPU Q (.fin (1/2)) (Sol.default Q) [⟨[0, 2, 1], .fin 3⟩] (constMat 3 2) = .ok (ph', b') ∧
    Sym 3 ph' ∧ InRange 3 b' :=
  C57_elitist_symmetric ⟨rfl, rfl, fun _ _ _ _ => rfl⟩ (by intro v hv; simp [Sol.default] at hv) (by
    intro s hs; simp at hs; subst hs; intro v hv; simp at hv; omega)

/-- **C57 is false of the local update rules:** both touch only one direction of the traveled edge, so one ant moving
makes a symmetric pheromone asymmetric. -/
theorem C57_local_update_breaks_symmetry :
    (∃ ph', LocalRule.apply Q (.decay (.fin (1/2))) [[0, 1]] (constMat 2 1) = .ok ph' ∧ Sym 2 (constMat 2 1) ∧ ¬ Sym 2 ph') ∧
    (∃ ph', LocalRule.apply Q (.decayTo (.fin (1/2)) (.fin 3)) [[0, 1]] (constMat 2 1) = .ok ph' ∧ ¬ Sym 2 ph') := by
  refine ⟨⟨_, rfl, ⟨rfl, rfl, fun _ _ _ _ => rfl⟩, fun h => ?_⟩, ⟨_, rfl, fun h => ?_⟩⟩
  · have := h.2.2 0 1 (by decide) (by decide)
    revert this; decide +kernel
  · have := h.2.2 0 1 (by decide) (by decide)
    revert this; decide +kernel

/-! ## Exact arithmetic: the deposited amounts -/

section exact
variable {F : Type} [Field F] [LinearOrder F] [IsStrictOrderedRing F]
variable (sqrt : Ext F → Ext F) (pow : Ext F → Ext F → Ext F) (maxv : F) (floor : F → Nat)

/-- Specification: the `n × n` matrix with the finite entries `f i j`. -/
def FinMat (n : Nat) (m : Mat (Ext F)) (f : Nat → Nat → F) : Prop :=
  m.rows = n ∧ m.cols = n ∧ ∀ i j, i < n → j < n → m.get i j = .fin (f i j)

/-- Specification: how often the path uses the edge between `a` and `b`, in either direction. -/
def uses (p : List Nat) (a b : Nat) : Nat := (windows p).count (a, b) + (windows p).count (b, a)

theorem addBoth_fin {n i j : Nat} {x : F} {m : Mat (Ext F)} {f : Nat → Nat → F} (hm : FinMat n m f) (hi : i < n)
    (hj : j < n) : ∃ m', addBoth (exactOps sqrt pow maxv floor) m i j (.fin x) = .ok m' ∧
      FinMat n m' fun a b => f a b + ((if (i, j) = (a, b) then x else 0) + (if (i, j) = (b, a) then x else 0)) := by
  obtain ⟨h1, h2, h3⟩ := hm
  unfold addBoth Mat.at' Mat.set
  simp only [h1, h2, hi, hj, and_self, if_true, bind, Except.bind]
  refine ⟨_, rfl, rfl, rfl, fun a b ha hb => ?_⟩
  have q1 := h3 a b ha hb
  have q2 := h3 i j hi hj
  have q3 := h3 j i hj hi
  have hadd : ∀ u v : F, (exactOps sqrt pow maxv floor).add (.fin u) (.fin v) = .fin (u + v) := fun _ _ => rfl
  simp only [Prod.mk.injEq]
  grind

theorem leaveEdges_fin {n : Nat} {x : F} : ∀ (es : List (Nat × Nat)) (m : Mat (Ext F)) (f : Nat → Nat → F), FinMat n m f →
    (∀ e ∈ es, e.1 < n ∧ e.2 < n) → ∃ m', leaveEdges (exactOps sqrt pow maxv floor) (.fin x) es m = .ok m' ∧
      FinMat n m' fun a b => f a b + x * ((es.count (a, b) + es.count (b, a) : Nat) : F)
  | [], m, f, hm, _ => ⟨m, rfl, by simpa using hm⟩
  | e :: es, m, f, hm, he => by
    obtain ⟨i, j⟩ := e
    obtain ⟨m1, h1, h2⟩ := addBoth_fin sqrt pow maxv floor (x := x) hm (he (i, j) (by simp)).1 (he (i, j) (by simp)).2
    obtain ⟨m2, h3, h4⟩ := leaveEdges_fin es m1 _ h2 fun e h => he e (by simp [h])
    refine ⟨m2, by rw [leaveEdges, Exc.bind_of_ok h1]; exact h3, h4.1, h4.2.1, fun a b ha hb => ?_⟩
    rw [h4.2.2 a b ha hb]
    congr 1
    show f a b + ((if (i, j) = (a, b) then x else 0) + if (i, j) = (b, a) then x else 0) +
      x * ((es.count (a, b) + es.count (b, a) : Nat) : F) =
      f a b + x * ((((i, j) :: es).count (a, b) + ((i, j) :: es).count (b, a) : Nat) : F)
    rw [List.count_cons, List.count_cons]
    simp only [beq_iff_eq]
    split_ifs <;> push_cast <;> ring

/-- Specification: solutions with finite fitness `fit s` and paths in range. -/
def Graded (n : Nat) (s : Sol (Ext F)) (fit : F) : Prop := InRange n s ∧ s.fitness = .fin fit

/-- Specification: the amount all solutions together leave on the edge between `a` and `b`. -/
def deposit : List (List Nat × F) → Nat → Nat → F
  | [], _, _ => 0
  | s :: ss, a, b => s.2 * (uses s.1 a b : F) + deposit ss a b

/-- The solutions with the given paths and finite fitness. -/
def ofPairs (ps : List (List Nat × F)) : List (Sol (Ext F)) := ps.map fun s => ⟨s.1, .fin s.2⟩

theorem leaveTrails_fin {n : Nat} : ∀ (ps : List (List Nat × F)) (m : Mat (Ext F)) (f : Nat → Nat → F), FinMat n m f →
    (∀ s ∈ ps, ∀ v ∈ s.1, v < n) → ∃ m', leaveTrails (exactOps sqrt pow maxv floor) (ofPairs ps) m = .ok m' ∧
      FinMat n m' fun a b => f a b + deposit ps a b
  | [], m, f, hm, _ => ⟨m, rfl, by simpa [deposit] using hm⟩
  | s :: ss, m, f, hm, hs => by
    obtain ⟨m1, h1, h2⟩ := leaveEdges_fin sqrt pow maxv floor (x := s.2) (windows s.1) m f hm fun e he =>
      ⟨hs s (by simp) _ (windows_mem he).1, hs s (by simp) _ (windows_mem he).2⟩
    obtain ⟨m2, h3, h4⟩ := leaveTrails_fin ss m1 _ h2 fun e h => hs e (by simp [h])
    refine ⟨m2, ?_, h4.1, h4.2.1, fun a b ha hb => ?_⟩
    · show leaveTrails _ (⟨s.1, .fin s.2⟩ :: ofPairs ss) m = _
      rw [leaveTrails, leaveTrail, Exc.bind_of_ok h1]; exact h3
    · rw [h4.2.2 a b ha hb]
      congr 1
      show f a b + s.2 * (uses s.1 a b : F) + deposit ss a b = f a b + (s.2 * (uses s.1 a b : F) + deposit ss a b)
      ring

theorem evaporate_fin {n : Nat} {rho : F} {m : Mat (Ext F)} {f : Nat → Nat → F} (hm : FinMat n m f) :
    FinMat n (evaporate (exactOps sqrt pow maxv floor) (.fin rho) m) fun a b => f a b * (1 - rho) :=
  ⟨hm.1, hm.2.1, fun i j hi hj => by
    show Ext.mul (m.get i j) (Ext.sub (.fin 1) (.fin rho)) = _
    rw [hm.2.2 i j hi hj, sub_eq_add_neg]; rfl⟩

/-- **C90, the Ant System rule.** With exact arithmetic, after the update the pheromone between `a` and `b` is
`(1 - ρ) · old + Σ over the solutions of fitness · (number of times the path uses the edge)`. -/
theorem C90_ant_system_formula {n : Nat} {rho : F} {ps : List (List Nat × F)} {ph : Mat (Ext F)} {f : Nat → Nat → F}
    (hp : FinMat n ph f) (hs : ∀ s ∈ ps, ∀ v ∈ s.1, v < n) :
    ∃ ph', antSystemPU (exactOps sqrt pow maxv floor) (.fin rho) (ofPairs ps) ph = .ok ph' ∧
      FinMat n ph' fun a b => f a b * (1 - rho) + deposit ps a b :=
  leaveTrails_fin sqrt pow maxv floor ps _ _ (evaporate_fin sqrt pow maxv floor hp) hs

/-- **C90, the Elitist rule.** The best solution found so far deposits once more. -/
theorem C90_elitist_formula {n : Nat} {rho : F} {ps : List (List Nat × F)} {best : Sol (Ext F)} {bp : List Nat} {bf : F}
    (hb : overallBest (exactOps sqrt pow maxv floor) best (ofPairs ps) = ⟨bp, .fin bf⟩) (hbr : ∀ v ∈ bp, v < n)
    {ph : Mat (Ext F)} {f : Nat → Nat → F} (hp : FinMat n ph f) (hs : ∀ s ∈ ps, ∀ v ∈ s.1, v < n) :
    ∃ ph', elitistPU (exactOps sqrt pow maxv floor) (.fin rho) best (ofPairs ps) ph = .ok (ph', ⟨bp, .fin bf⟩) ∧
      FinMat n ph' fun a b => f a b * (1 - rho) + deposit ps a b + bf * (uses bp a b : F) := by
  obtain ⟨m1, h1, h2⟩ := C90_ant_system_formula sqrt pow maxv floor (rho := rho) hp hs
  obtain ⟨m2, h3, h4⟩ := leaveEdges_fin sqrt pow maxv floor (x := bf) (windows bp) m1 _ h2 fun e he =>
      ⟨hbr _ (windows_mem he).1, hbr _ (windows_mem he).2⟩
  refine ⟨m2, ?_, h4⟩
  unfold elitistPU
  simp only
  unfold antSystemPU at h1
  rw [hb, Exc.bind_of_ok h1, leaveTrail, Exc.bind_of_ok h3]
  rfl

/-- **C90, the Ant Colony System rule.** Everywhere `(1 - ρ) · old`, plus `ρ · fitness` of the best per use of the edge. -/
theorem C90_acs_formula {n : Nat} {rho : F} {sols : List (Sol (Ext F))} {best : Sol (Ext F)} {bp : List Nat} {bf : F}
    {policy : Sol (Ext F) → List (Sol (Ext F)) → Sol (Ext F)}
    (hb : policy best sols = ⟨bp, .fin bf⟩) (hbr : ∀ v ∈ bp, v < n) {ph : Mat (Ext F)} {f : Nat → Nat → F}
    (hp : FinMat n ph f) :
    ∃ ph', acsPU (exactOps sqrt pow maxv floor) (.fin rho) policy best sols ph = .ok (ph', ⟨bp, .fin bf⟩) ∧
      FinMat n ph' fun a b => f a b * (1 - rho) + bf * rho * (uses bp a b : F) := by
  obtain ⟨m2, h3, h4⟩ := leaveEdges_fin sqrt pow maxv floor (x := bf * rho) (windows bp) _ _
    (evaporate_fin sqrt pow maxv floor (rho := rho) hp) fun e he =>
      ⟨hbr _ (windows_mem he).1, hbr _ (windows_mem he).2⟩
  refine ⟨m2, ?_, h4⟩
  unfold acsPU
  simp only
  have e : (exactOps sqrt pow maxv floor).mul (.fin bf) (.fin rho) = .fin (bf * rho) := rfl
  rw [hb]
  simp only
  rw [e, Exc.bind_of_ok h3]
  rfl

/-! ## Every edge of a tour gets the deposit once -/

theorem windows_eq (p : List Nat) : windows p = p.zip (p.rotate 1) := by
  unfold windows
  cases p with
  | nil => rfl
  | cons a p => simp

theorem windows_length (p : List Nat) : (windows p).length = p.length := by simp [windows_eq]

theorem windows_getElem (p : List Nat) (k : Nat) (hk : k < p.length) :
    (windows p)[k]? = some (p[k], p[(k + 1) % p.length]'(Nat.mod_lt _ (by omega))) := by
  rw [windows_eq, List.getElem?_eq_getElem (by simp [hk])]
  simp [List.getElem_rotate]

theorem windows_nodup {p : List Nat} (h : p.Nodup) : (windows p).Nodup := by
  rw [windows_eq]
  refine List.Nodup.of_map Prod.fst ?_
  rw [List.map_fst_zip (by simp)]
  exact h

/-- **C90, tours.** A tour of at least three vertices uses every edge at most once (so the Ant System rule adds its
fitness exactly once to both directions of each of its edges, and nothing elsewhere). -/
theorem C90_tour_uses_once {n : Nat} {p : List Nat} (hp : IsTour n p) (hn : 3 ≤ n) (a b : Nat) :
    uses p a b = if (a, b) ∈ windows p ∨ (b, a) ∈ windows p then 1 else 0 := by
  have hnd : p.Nodup := hp.nodup_iff.2 List.nodup_range
  have hlen : p.length = n := by rw [hp.length_eq, List.length_range]
  have hw := windows_nodup hnd
  have hc : ∀ e, (windows p).count e = if e ∈ windows p then 1 else 0 := by
    intro e
    split
    · rename_i h; exact List.count_eq_one_of_mem hw h
    · rename_i h; exact List.count_eq_zero.2 h
  have hno : ¬ ((a, b) ∈ windows p ∧ (b, a) ∈ windows p) := by
    rintro ⟨h1, h2⟩
    obtain ⟨k, hk⟩ := List.mem_iff_getElem?.1 h1
    obtain ⟨l, hl⟩ := List.mem_iff_getElem?.1 h2
    have hk' : k < p.length := by
      have := (List.getElem?_eq_some_iff.1 hk).1; rwa [windows_length] at this
    have hl' : l < p.length := by
      have := (List.getElem?_eq_some_iff.1 hl).1; rwa [windows_length] at this
    rw [windows_getElem p k hk'] at hk
    rw [windows_getElem p l hl'] at hl
    simp only [Option.some.injEq, Prod.mk.injEq] at hk hl
    have e1 : l = (k + 1) % p.length := (List.Nodup.getElem_inj_iff hnd).1 (hl.1.trans hk.2.symm)
    have e2 : k = (l + 1) % p.length := (List.Nodup.getElem_inj_iff hnd).1 (hk.1.trans hl.2.symm)
    rw [hlen] at e1 e2 hk' hl'
    by_cases hk1 : k + 1 < n
    · rw [Nat.mod_eq_of_lt hk1] at e1
      by_cases hl1 : l + 1 < n
      · rw [Nat.mod_eq_of_lt hl1] at e2; omega
      · have : l + 1 = n := by omega
        rw [this, Nat.mod_self] at e2; omega
    · have : k + 1 = n := by omega
      rw [this, Nat.mod_self] at e1
      rw [e1, Nat.mod_eq_of_lt (by omega)] at e2
      omega
  unfold uses
  rw [hc, hc]
  by_cases h1 : (a, b) ∈ windows p <;> by_cases h2 : (b, a) ∈ windows p <;> simp_all

/-! ## C58: non-negativity -/

/-- Specification: finite non-negative entries. -/
def NonnegMat (n : Nat) (m : Mat (Ext F)) : Prop := ∃ f, FinMat n m f ∧ ∀ i j, i < n → j < n → 0 ≤ f i j

/-- Specification: finite positive entries. -/
def AllPos (n : Nat) (m : Mat (Ext F)) : Prop := ∃ f, FinMat n m f ∧ ∀ i j, i < n → j < n → 0 < f i j

/-- Specification: in range, with finite non-negative fitness. -/
def GoodSol (n : Nat) (s : Sol (Ext F)) : Prop := InRange n s ∧ ∃ x, s.fitness = .fin x ∧ 0 ≤ x

theorem goodSols_pairs {n : Nat} : ∀ {sols : List (Sol (Ext F))}, (∀ s ∈ sols, GoodSol n s) →
    ∃ ps : List (List Nat × F), sols = ofPairs ps ∧ (∀ s ∈ ps, ∀ v ∈ s.1, v < n) ∧ ∀ s ∈ ps, 0 ≤ s.2
  | [], _ => ⟨[], rfl, by simp, by simp⟩
  | s :: ss, h => by
    obtain ⟨ps, h1, h2, h3⟩ := goodSols_pairs fun t ht => h t (List.mem_cons_of_mem _ ht)
    obtain ⟨g1, x, g2, g3⟩ := h s (by simp)
    refine ⟨(s.path, x) :: ps, ?_, ?_, ?_⟩
    · show s :: ss = ⟨s.path, .fin x⟩ :: ofPairs ps
      rw [h1, ← g2]
    · intro t ht
      rcases List.mem_cons.1 ht with rfl | ht
      · exact g1
      · exact h2 t ht
    · intro t ht
      rcases List.mem_cons.1 ht with rfl | ht
      · exact g3
      · exact h3 t ht

theorem deposit_nonneg : ∀ {ps : List (List Nat × F)} (a b : Nat), (∀ s ∈ ps, 0 ≤ s.2) → 0 ≤ deposit ps a b
  | [], _, _, _ => le_refl _
  | s :: ss, a, b, h => by
    rw [deposit]
    have h1 := deposit_nonneg (ps := ss) a b fun t ht => h t (List.mem_cons_of_mem _ ht)
    have h2 := mul_nonneg (h s (by simp)) (Nat.cast_nonneg (α := F) (uses s.1 a b))
    linarith

/-- **C58, Ant System.** For an evaporation rate of at most 1, a non-negative pheromone and solutions of non-negative
fitness, the result is non-negative; for a rate below 1 a positive pheromone stays positive. -/
theorem C58_ant_system_nonneg {n : Nat} {rho : F} (h1 : rho ≤ 1) {sols : List (Sol (Ext F))}
    {ph : Mat (Ext F)} (hs : ∀ s ∈ sols, GoodSol n s) :
    (NonnegMat n ph → ∃ ph', antSystemPU (exactOps sqrt pow maxv floor) (.fin rho) sols ph = .ok ph' ∧ NonnegMat n ph') ∧
    (AllPos n ph → rho < 1 → ∃ ph', antSystemPU (exactOps sqrt pow maxv floor) (.fin rho) sols ph = .ok ph' ∧
      AllPos n ph') := by
  obtain ⟨ps, rfl, hr, hnn⟩ := goodSols_pairs hs
  constructor
  · rintro ⟨f, hf, hf0⟩
    obtain ⟨ph', e1, e2⟩ := C90_ant_system_formula sqrt pow maxv floor (rho := rho) hf hr
    refine ⟨ph', e1, _, e2, fun i j hi hj => ?_⟩
    have := mul_nonneg (hf0 i j hi hj) (by linarith : (0 : F) ≤ 1 - rho)
    have := deposit_nonneg i j hnn
    linarith
  · rintro ⟨f, hf, hf0⟩ hlt
    obtain ⟨ph', e1, e2⟩ := C90_ant_system_formula sqrt pow maxv floor (rho := rho) hf hr
    refine ⟨ph', e1, _, e2, fun i j hi hj => ?_⟩
    have := mul_pos (hf0 i j hi hj) (by linarith : (0 : F) < 1 - rho)
    have := deposit_nonneg i j hnn
    linarith

theorem picks_good {policy : Sol (Ext F) → List (Sol (Ext F)) → Sol (Ext F)} (h : Picks policy) {n : Nat}
    {b : Sol (Ext F)} {ss : List (Sol (Ext F))} (hb : GoodSol n b) (hs : ∀ s ∈ ss, GoodSol n s) :
    GoodSol n (policy b ss) := by
  rcases h b ss with h | h
  · rw [h]; exact hb
  · exact hs _ h

/-- **C58, Elitist and Ant Colony System rules.** -/
theorem C58_elitist_acs_nonneg {n : Nat} {rho : F} (h0 : 0 ≤ rho) (h1 : rho ≤ 1) {best : Sol (Ext F)}
    {sols : List (Sol (Ext F))} {ph : Mat (Ext F)} (hb : GoodSol n best) (hs : ∀ s ∈ sols, GoodSol n s)
    (hp : NonnegMat n ph) :
    (∃ ph' b', elitistPU (exactOps sqrt pow maxv floor) (.fin rho) best sols ph = .ok (ph', b') ∧ NonnegMat n ph' ∧
      GoodSol n b') ∧
    ∀ policy, Picks policy → ∃ ph' b', acsPU (exactOps sqrt pow maxv floor) (.fin rho) policy best sols ph = .ok (ph', b') ∧
      NonnegMat n ph' ∧ GoodSol n b' := by
  obtain ⟨f, hf, hf0⟩ := hp
  constructor
  · have hbg := picks_good (overallBest_mem (A := exactOps sqrt pow maxv floor)) hb hs
    obtain ⟨ps, rfl, hr, hnn⟩ := goodSols_pairs hs
    obtain ⟨x, hx, hx0⟩ := hbg.2
    obtain ⟨ph', e1, e2⟩ := C90_elitist_formula sqrt pow maxv floor (rho := rho) (best := best)
      (bp := (overallBest (exactOps sqrt pow maxv floor) best (ofPairs ps)).path) (bf := x) (by rw [← hx]) hbg.1 hf hr
    refine ⟨ph', _, e1, ⟨_, e2, fun i j hi hj => ?_⟩, ⟨hbg.1, x, rfl, hx0⟩⟩
    have := mul_nonneg (hf0 i j hi hj) (by linarith : (0 : F) ≤ 1 - rho)
    have := deposit_nonneg i j hnn
    have := mul_nonneg hx0 (Nat.cast_nonneg (α := F)
      (uses (overallBest (exactOps sqrt pow maxv floor) best (ofPairs ps)).path i j))
    linarith
  · intro policy hpol
    have hbg := picks_good hpol hb hs
    obtain ⟨x, hx, hx0⟩ := hbg.2
    obtain ⟨ph', e1, e2⟩ := C90_acs_formula sqrt pow maxv floor (rho := rho) (best := best) (policy := policy) (sols := sols)
      (bp := (policy best sols).path) (bf := x) (by rw [← hx]) hbg.1 hf
    refine ⟨ph', _, e1, ⟨_, e2, fun i j hi hj => ?_⟩, ⟨hbg.1, x, rfl, hx0⟩⟩
    have := mul_nonneg (hf0 i j hi hj) (by linarith : (0 : F) ≤ 1 - rho)
    have := mul_nonneg (mul_nonneg hx0 h0) (Nat.cast_nonneg (α := F) (uses (policy best sols).path i j))
    linarith

/-- **C58, over a run of the Ant System** with a rate below 1: positive pheromone stays positive for ever. -/
theorem C58_ant_system_history {n : Nat} {rho : F} (h1 : rho < 1) :
    ∀ (batches : List (List (Sol (Ext F)))) (ph : Mat (Ext F)), AllPos n ph →
    (∀ sols ∈ batches, ∀ s ∈ sols, GoodSol n s) →
    ∃ ph', batches.foldlM (fun ph sols => antSystemPU (exactOps sqrt pow maxv floor) (.fin rho) sols ph) ph = .ok ph' ∧
      AllPos n ph'
  | [], ph, hp, _ => ⟨ph, rfl, hp⟩
  | b :: bs, ph, hp, hb => by
    obtain ⟨ph1, e1, e2⟩ := (C58_ant_system_nonneg sqrt pow maxv floor h1.le (hb b (by simp))).2 hp h1
    obtain ⟨ph2, e3, e4⟩ := C58_ant_system_history h1 bs ph1 e2 fun s hs => hb s (by simp [hs])
    exact ⟨ph2, by rw [List.foldlM_cons, Exc.bind_of_ok e1]; exact e3, e4⟩

/-! ## C59: Max-Min bounds -/

theorem clamp_fin {lo hi v : F} (h : lo < hi) :
    ∃ y, clampVal (exactOps sqrt pow maxv floor) (.fin v) (.fin lo) (.fin hi) = .fin y ∧ lo ≤ y ∧ y ≤ hi := by
  unfold clampVal
  by_cases h1 : lo < v
  · rw [if_pos ((ex_lt sqrt pow maxv floor).2 h1)]
    by_cases h2 : v < hi
    · rw [if_pos ((ex_lt sqrt pow maxv floor).2 h2)]; exact ⟨v, rfl, h1.le, h2.le⟩
    · rw [if_neg (fun h => h2 ((ex_lt sqrt pow maxv floor).1 h))]; exact ⟨hi, rfl, h.le, le_refl _⟩
  · rw [if_neg (fun h => h1 ((ex_lt sqrt pow maxv floor).1 h))]; exact ⟨lo, rfl, le_refl _, h.le⟩

/-- What the loop of the Max-Min rule does: entries on an edge of the list end up within the bounds, the others are
unchanged. -/
theorem mmEdges_fin {n : Nat} {x lo hi : F} (hlh : lo < hi) : ∀ (es : List (Nat × Nat)) (m : Mat (Ext F)) (f : Nat → Nat → F),
    FinMat n m f → (∀ e ∈ es, e.1 < n ∧ e.2 < n) →
    ∃ m' f', mmEdges (exactOps sqrt pow maxv floor) (.fin x) (.fin lo) (.fin hi) es m = .ok m' ∧ FinMat n m' f' ∧
      ∀ a b, ((a, b) ∈ es ∨ (b, a) ∈ es → lo ≤ f' a b ∧ f' a b ≤ hi) ∧
        (¬ ((a, b) ∈ es ∨ (b, a) ∈ es) → f' a b = f a b)
  | [], m, f, hm, _ => ⟨m, f, rfl, hm, fun a b => ⟨fun h => by simp at h, fun _ => rfl⟩⟩
  | e :: es, m, f, hm, he => by
    obtain ⟨i, j⟩ := e
    obtain ⟨hi', hj'⟩ := he (i, j) (by simp)
    simp only at hi' hj'
    obtain ⟨h1, h2, h3⟩ := hm
    obtain ⟨y, hy, hy1, hy2⟩ := clamp_fin sqrt pow maxv floor (v := f i j + x) hlh
    have hadd : (exactOps sqrt pow maxv floor).add (.fin (f i j)) (.fin x) = .fin (f i j + x) := rfl
    let m1 : Mat (Ext F) := { m with get := fun a b => if a = i ∧ b = j then .fin y else m.get a b }
    let m2 : Mat (Ext F) := { m1 with get := fun a b => if a = j ∧ b = i then .fin y else m1.get a b }
    have hf2 : FinMat n m2 fun a b => if (a = i ∧ b = j) ∨ (a = j ∧ b = i) then y else f a b := by
      refine ⟨h1, h2, fun a b ha hb => ?_⟩
      have := h3 a b ha hb
      show (if a = j ∧ b = i then Ext.fin y else if a = i ∧ b = j then .fin y else m.get a b) = _
      by_cases e1 : a = i ∧ b = j <;> by_cases e2 : a = j ∧ b = i <;> simp [e1, e2, this]
    obtain ⟨m', f', g1, g2, g3⟩ := mmEdges_fin hlh es m2 _ hf2 fun e h => he e (by simp [h])
    refine ⟨m', f', ?_, g2, fun a b => ?_⟩
    · have c1 : m.at' i j = .ok (.fin (f i j)) := by
        unfold Mat.at'; rw [if_pos ⟨by omega, by omega⟩, h3 i j hi' hj']
      have c2 : m.set i j (.fin y) = .ok m1 := by unfold Mat.set; rw [if_pos ⟨by omega, by omega⟩]
      have c3 : m1.at' i j = .ok (.fin y) := by
        unfold Mat.at'; rw [if_pos (show i < m.rows ∧ j < m.cols from ⟨by omega, by omega⟩)]
        show Except.ok (if i = i ∧ j = j then Ext.fin y else m.get i j) = _
        simp
      have c4 : m1.set j i (.fin y) = .ok m2 := by
        unfold Mat.set; rw [if_pos (show j < m.rows ∧ i < m.cols from ⟨by omega, by omega⟩)]
      rw [mmEdges]
      simp only
      rw [Exc.bind_of_ok c1, hadd, hy, Exc.bind_of_ok c2, Exc.bind_of_ok c3, Exc.bind_of_ok c4]
      exact g1
    · obtain ⟨k1, k2⟩ := g3 a b
      by_cases hes : (a, b) ∈ es ∨ (b, a) ∈ es
      · refine ⟨fun _ => k1 hes, fun h => ?_⟩
        exact absurd (hes.imp (List.mem_cons_of_mem _) (List.mem_cons_of_mem _)) h
      · have := k2 hes
        constructor
        · intro h
          have : (a = i ∧ b = j) ∨ (a = j ∧ b = i) := by
            rcases h with h | h
            · rcases List.mem_cons.1 h with h | h
              · cases h; exact .inl ⟨rfl, rfl⟩
              · exact absurd (.inl h) hes
            · rcases List.mem_cons.1 h with h | h
              · cases h; exact .inr ⟨rfl, rfl⟩
              · exact absurd (.inr h) hes
          rw [k2 hes, if_pos this]
          exact ⟨hy1, hy2⟩
        · intro h
          rw [this, if_neg]
          rintro (⟨rfl, rfl⟩ | ⟨rfl, rfl⟩)
          · exact h (.inl (by simp))
          · exact h (.inr (by simp))

/-- **C59, the exact effect.** After a Max-Min update the pheromone of every edge of the
best path is in `[lo, hi]`, in both directions; every other entry is `(1 - ρ) · old`. -/
theorem C59_max_min_update {n : Nat} {rho lo hi : F} (hlh : lo < hi) {sols : List (Sol (Ext F))}
    {best : Sol (Ext F)} {bp : List Nat} {bf : F} {policy : Sol (Ext F) → List (Sol (Ext F)) → Sol (Ext F)}
    (hb : policy best sols = ⟨bp, .fin bf⟩) (hbr : ∀ v ∈ bp, v < n) {ph : Mat (Ext F)} {f : Nat → Nat → F}
    (hp : FinMat n ph f) :
    ∃ ph' f', mmPU (exactOps sqrt pow maxv floor) (.fin rho) (.fin lo) (.fin hi) policy best sols ph
        = .ok (ph', ⟨bp, .fin bf⟩) ∧ FinMat n ph' f' ∧
      ∀ a b, ((a, b) ∈ windows bp ∨ (b, a) ∈ windows bp → lo ≤ f' a b ∧ f' a b ≤ hi) ∧
        (¬ ((a, b) ∈ windows bp ∨ (b, a) ∈ windows bp) → f' a b = f a b * (1 - rho)) := by
  obtain ⟨m', f', h1, h2, h3⟩ := mmEdges_fin sqrt pow maxv floor (x := bf) hlh (windows bp) _ _
    (evaporate_fin sqrt pow maxv floor (rho := rho) hp) fun e he =>
      ⟨hbr _ (windows_mem he).1, hbr _ (windows_mem he).2⟩
  refine ⟨m', f', ?_, h2, h3⟩
  unfold mmPU
  simp only
  rw [hb]
  simp only
  rw [Exc.bind_of_ok h1]
  rfl

/-- **C59, the upper bound** (and non-negativity, C58 for this rule): entries in `[0, hi]` stay in `[0, hi]`, for rates in
`[0, 1]` and bounds the constructor accepts. -/
theorem C59_max_min_upper {n : Nat} {rho lo hi : F} (h0 : 0 ≤ rho) (h1 : rho ≤ 1) (hlo : 0 ≤ lo) (hlh : lo < hi)
    {sols : List (Sol (Ext F))} {best : Sol (Ext F)} {bp : List Nat} {bf : F}
    {policy : Sol (Ext F) → List (Sol (Ext F)) → Sol (Ext F)}
    (hb : policy best sols = ⟨bp, .fin bf⟩) (hbr : ∀ v ∈ bp, v < n) {ph : Mat (Ext F)} {f : Nat → Nat → F}
    (hp : FinMat n ph f) (hf : ∀ i j, i < n → j < n → 0 ≤ f i j ∧ f i j ≤ hi) :
    ∃ ph' f', mmPU (exactOps sqrt pow maxv floor) (.fin rho) (.fin lo) (.fin hi) policy best sols ph
        = .ok (ph', ⟨bp, .fin bf⟩) ∧ FinMat n ph' f' ∧ ∀ i j, i < n → j < n → 0 ≤ f' i j ∧ f' i j ≤ hi := by
  obtain ⟨ph', f', e1, e2, e3⟩ := C59_max_min_update sqrt pow maxv floor (rho := rho) hlh hb hbr hp
  refine ⟨ph', f', e1, e2, fun i j hi' hj' => ?_⟩
  obtain ⟨k1, k2⟩ := e3 i j
  obtain ⟨q1, q2⟩ := hf i j hi' hj'
  by_cases h : (i, j) ∈ windows bp ∨ (j, i) ∈ windows bp
  · obtain ⟨l1, l2⟩ := k1 h
    exact ⟨hlo.trans l1, l2⟩
  · rw [k2 h]
    exact ⟨mul_nonneg q1 (by linarith), (mul_le_of_le_one_right q1 (by linarith)).trans q2⟩

end exact

/-- **C59 is false of the code:** starting from pheromone 1 within the bounds `[1, 2]`, one Max-Min update with
evaporation 1/2 and best path `0-1-2-3` leaves 1/2 on the edge `0-2`, below the lower bound. -/
theorem C59_lower_bound_violated :
    ∃ ph' b, mmBoundsOk Q (.fin 1) (.fin 2) = true ∧
      mmPU Q (.fin (1/2)) (.fin 1) (.fin 2) (overallBest Q) (Sol.default Q) [⟨[0, 1, 2, 3], .fin 1⟩] (constMat 4 1)
        = .ok (ph', b) ∧ ph'.get 0 2 = .fin (1/2) := by
  have hb : overallBest Q (Sol.default Q) [⟨[0, 1, 2, 3], .fin 1⟩] = ⟨[0, 1, 2, 3], .fin 1⟩ := by decide +kernel
  obtain ⟨ph', f', h1, h2, h3⟩ := C59_max_min_update (fun x => x) (fun x _ => x) 1000 (fun _ => 0) (n := 4)
    (rho := (1 : ℚ)/2) (lo := 1) (hi := 2) (by norm_num) hb (by decide) (ph := constMat 4 1) (f := fun _ _ => 1)
    ⟨rfl, rfl, fun _ _ _ _ => rfl⟩
  refine ⟨ph', _, by decide +kernel, h1, ?_⟩
  rw [h2.2.2 0 2 (by decide) (by decide), (h3 0 2).2 (by decide)]
  norm_num

/-- C90 on a concrete case: rate 1/2, pheromone 2, two tours of four vertices; the edge `0-1` is used by both. -/
example : ∃ ph', antSystemPU Q (.fin (1/2)) (ofPairs [([0, 1, 2, 3], 3), ([1, 0, 2, 3], 5)]) (constMat 4 2) = .ok ph' ∧
    ph'.get 0 1 = .fin 9 ∧ ph'.get 1 0 = .fin 9 ∧ ph'.get 0 3 = .fin 4 := by
  obtain ⟨ph', h1, h2⟩ := C90_ant_system_formula (fun x => x) (fun x _ => x) 1000 (fun _ => 0) (n := 4)
    (rho := (1 : ℚ)/2) (ps := [([0, 1, 2, 3], 3), ([1, 0, 2, 3], 5)]) (ph := constMat 4 2) (f := fun _ _ => 2)
    ⟨rfl, rfl, fun _ _ _ _ => rfl⟩ (by decide)
  refine ⟨ph', h1, ?_, ?_, ?_⟩
  · rw [h2.2.2 0 1 (by decide) (by decide)]; decide +kernel
  · rw [h2.2.2 1 0 (by decide) (by decide)]; decide +kernel
  · rw [h2.2.2 0 3 (by decide) (by decide)]; decide +kernel

example : IsTour 4 [2, 0, 3, 1] ∧ uses [2, 0, 3, 1] 0 2 = 1 ∧ uses [2, 0, 3, 1] 0 1 = 0 := by unfold IsTour; decide

/-- **C90, two vertices.** With two vertices the only edge is used twice, so its pheromone grows by twice the fitness. -/
theorem C90_two_vertices_double : uses [0, 1] 0 1 = 2 := by decide

example : ∀ s ∈ ([⟨[0, 1, 2], .fin 1⟩, ⟨[2, 1, 0], .fin (1/2)⟩] : List (Sol (Ext ℚ))), GoodSol 3 s := by
  intro s hs; simp at hs
  rcases hs with rfl | rfl
  · exact ⟨fun v hv => by simp at hv; omega, 1, rfl, by norm_num⟩
  · exact ⟨fun v hv => by simp at hv; omega, 1/2, by norm_num, by norm_num⟩

/-! ## Every theorem on a concrete case -/

section instances

theorem constMat_sym (n : Nat) (x : ℚ) : Sym n (constMat n x) := ⟨rfl, rfl, fun _ _ _ _ => rfl⟩

theorem picks_first : Picks (X := Ext ℚ) (fun b ss => ss.headD b) := fun b ss => by cases ss <;> simp

theorem tour_inRange (f : Ext ℚ) : InRange 3 (⟨[0, 2, 1], f⟩ : Sol (Ext ℚ)) := by intro v hv; simp at hv; omega

theorem tours_inRange : ∀ s ∈ ([⟨[0, 2, 1], .fin 3⟩, ⟨[0, 2, 1], .fin 1⟩] : List (Sol (Ext ℚ))), InRange 3 s := by
  intro s hs; simp at hs; rcases hs with rfl | rfl <;> exact tour_inRange _

example := C57_max_min_symmetric (A := Q) (rate := .fin (1/2)) (lo := .fin 1) (hi := .fin 9) picks_first (constMat_sym 3 2)
  (tour_inRange (.fin 5)) tours_inRange
example := C57_acs_symmetric (A := Q) (rate := .fin (1/2)) picks_first (constMat_sym 3 2) (tour_inRange (.fin 5)) tours_inRange
example := C57_ant_system_history (A := Q) (rate := .fin (1/2)) [[⟨[0, 2, 1], .fin 3⟩, ⟨[0, 2, 1], .fin 1⟩], [],
  [⟨[0, 2, 1], .fin 3⟩, ⟨[0, 2, 1], .fin 1⟩]] (constMat 3 2) (constMat_sym 3 2) (by
    intro sols hs; simp only [List.mem_cons, List.not_mem_nil, or_false] at hs
    rcases hs with rfl | rfl | rfl
    · exact tours_inRange
    · intro s h; cases h
    · exact tours_inRange)

end instances

end Ecrs.Aco
