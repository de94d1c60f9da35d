import Verif.Ga.Replacement
import Verif.Ga.Selection
import Verif.Ga.SolverLemmas
import Verif.Props.Selection
import Verif.CounterRng
import Mathlib.Data.List.Induction

/-!
# Properties C35, C36 (replacement) and C08 (selection pressure against the direction of the solver)
-/

set_option linter.unusedSectionVars false

namespace Ecrs.Ga
open Ecrs

section
variable {W I C K : Type} [LinearOrder K] (T : IndTrait I C K)

/-- `x` and `y` are the two members of largest fitness of the family `a, b, c, d`, larger first: `u` and `v`
are the other two. -/
def TwoLargest (a b c d x y : I) : Prop :=
  ∃ u v, [x, y, u, v].Perm [a, b, c, d] ∧ Fl.Le (T.fitness y) (T.fitness x) ∧
    Fl.Le (T.fitness u) (T.fitness y) ∧ Fl.Le (T.fitness v) (T.fitness y)

theorem indLt_false {a b : I} (ha : (T.fitness a).IsNum) (hb : (T.fitness b).IsNum)
    (h : indLt T a b = false) : Fl.Le (T.fitness b) (T.fitness a) := by
  refine (Fl.not_lt ha hb).1 fun hlt => ?_
  rw [indLt, Fl.lt_iff.2 hlt] at h
  cases h

theorem indLt_true {a b : I} (h : indLt T a b = true) : Fl.Lt (T.fitness a) (T.fitness b) :=
  Fl.lt_iff.1 h

theorem largerFirst_spec {a b : I} (ha : (T.fitness a).IsNum) (hb : (T.fitness b).IsNum) :
    [(largerFirst T a b).1, (largerFirst T a b).2].Perm [a, b] ∧
      Fl.Le (T.fitness (largerFirst T a b).2) (T.fitness (largerFirst T a b).1) := by
  unfold largerFirst
  cases h : indLt T a b with
  | true => exact ⟨List.Perm.swap _ _ _, (indLt_true T h).le⟩
  | false => exact ⟨List.Perm.refl _, indLt_false T ha hb h⟩

theorem weakMerge_spec {p1 p2 c1 c2 : I} (hp : Fl.Le (T.fitness p2) (T.fitness p1))
    (hc : Fl.Le (T.fitness c2) (T.fitness c1)) :
    TwoLargest T p1 p2 c1 c2 (weakMerge T p1 p2 c1 c2).1 (weakMerge T p1 p2 c1 c2).2 := by
  have np1 := hp.isNum_right
  have np2 := hp.isNum_left
  have nc1 := hc.isNum_right
  have nc2 := hc.isNum_left
  unfold weakMerge
  cases h1 : indLt T p1 c1 with
  | true =>
    cases h2 : indLt T p1 c2 with
    | true =>
      refine ⟨p1, p2, ?_, hc, (indLt_true T h2).le, hp.trans (indLt_true T h2).le⟩
      exact (List.perm_append_comm (l₁ := [c1, c2]) (l₂ := [p1, p2]))
    | false =>
      refine ⟨p2, c2, ?_, (indLt_true T h1).le, hp, indLt_false T np1 nc2 h2⟩
      show [c1, p1, p2, c2].Perm [p1, p2, c1, c2]
      exact (List.perm_middle (a := c1) (l₁ := [p1, p2]) (l₂ := [c2])).symm
  | false =>
    have h1' := indLt_false T np1 nc1 h1
    cases h2 : indLt T p2 c1 with
    | true =>
      refine ⟨p2, c2, ?_, h1', (indLt_true T h2).le, hc⟩
      exact (List.Perm.swap p2 c1 [c2]).cons p1
    | false =>
      have h2' := indLt_false T np2 nc1 h2
      exact ⟨c1, c2, List.Perm.refl _, hp, h2', hc.trans h2'⟩

theorem weakFamily_spec {a b c d : I} (ha : (T.fitness a).IsNum) (hb : (T.fitness b).IsNum)
    (hc : (T.fitness c).IsNum) (hd : (T.fitness d).IsNum) :
    TwoLargest T a b c d (weakFamily T a b c d).1 (weakFamily T a b c d).2 := by
  obtain ⟨p1, p2⟩ := largerFirst_spec T ha hb
  obtain ⟨c1, c2⟩ := largerFirst_spec T hc hd
  obtain ⟨u, v, h1, h2, h3, h4⟩ := weakMerge_spec T p2 c2
  refine ⟨u, v, h1.trans ?_, h2, h3, h4⟩
  exact List.Perm.append p1 c1

/-- Consecutive families of two parents and two children against the two survivors. -/
theorem weakGo_spec : ∀ (pop children : List I), pop.length = children.length →
    pop.length % 2 = 0 → (∀ i ∈ pop, (T.fitness i).IsNum) → (∀ i ∈ children, (T.fitness i).IsNum) →
    Returns (weakGo T pop children : M W _) fun out => out.length = pop.length ∧
      ∀ k (h : 2 * k + 1 < pop.length) (h' : 2 * k + 1 < children.length) (h'' : 2 * k + 1 < out.length),
        TwoLargest T pop[2 * k] pop[2 * k + 1] children[2 * k] children[2 * k + 1]
          out[2 * k] out[2 * k + 1]
  | [], [], _, _, _, _ => Returns.pure ⟨rfl, by intro k h; simp at h⟩
  | [], _ :: _, h, _, _, _ => by simp at h
  | [_], _, _, h, _, _ => by simp at h
  | a :: b :: ps, [], h, _, _, _ => by simp at h
  | a :: b :: ps, [_], h, _, _, _ => by simp at h
  | a :: b :: ps, c :: d :: cs, hl, he, hp, hc => by
    simp only [List.length_cons] at hl he
    unfold weakGo
    refine Returns.bind (weakGo_spec ps cs (by omega) (by omega) (fun i hi => hp i (by simp [hi]))
      fun i hi => hc i (by simp [hi])) fun rest hrest => Returns.pure ?_
    refine ⟨by simp [hrest.1], ?_⟩
    intro k h h' h''
    cases k with
    | zero =>
      exact weakFamily_spec T (hp a (by simp)) (hp b (by simp)) (hc c (by simp)) (hc d (by simp))
    | succ k =>
      simp only [List.length_cons] at h h' h''
      exact hrest.2 k (by omega) (by omega) (by omega)

/-- **C35.** On populations and children of the same even, non-zero size without NaN fitness, WeakParent
never panics (in debug or release builds) and returns a population of the same size whose positions
`2k`, `2k+1` hold the two individuals of largest fitness among parents `2k`, `2k+1` and children
`2k`, `2k+1`, the larger first. -/
theorem C35_weak_parent {debug : Bool} {pop children : List I} (hl : pop.length = children.length)
    (he : pop.length % 2 = 0) (h0 : 0 < pop.length) (hp : ∀ i ∈ pop, (T.fitness i).IsNum)
    (hc : ∀ i ∈ children, (T.fitness i).IsNum) :
    Returns (weakParent T debug pop children : M W _) fun out => out.length = pop.length ∧
      ∀ k (h : 2 * k + 1 < pop.length) (h' : 2 * k + 1 < children.length) (h'' : 2 * k + 1 < out.length),
        TwoLargest T pop[2 * k] pop[2 * k + 1] children[2 * k] children[2 * k + 1]
          out[2 * k] out[2 * k + 1] := by
  unfold weakParent
  refine Returns.bind (Returns.assert (by simp [hl])) fun _ _ => ?_
  refine Returns.bind (Returns.assert (by simp [he])) fun _ _ => ?_
  refine Returns.bind (Returns.assert (by simpa using h0)) fun _ _ => ?_
  exact weakGo_spec T pop children hl he hp hc

/-- **C35, consequences for every input.** Whenever WeakParent returns, its result has the size of the
population and consists of members of the population and of the children (also with NaN fitness, odd
sizes in release builds, or surplus children). -/
theorem C35_weak_parent_members {debug : Bool} {pop children : List I} :
    IfReturns (weakParent T debug pop children : M W _) fun out =>
      out.length = pop.length ∧ ∀ x ∈ out, x ∈ pop ∨ x ∈ children := by
  unfold weakParent
  refine IfReturns.bind IfReturns.trivial fun _ _ => ?_
  refine IfReturns.bind IfReturns.trivial fun _ _ => ?_
  refine IfReturns.bind IfReturns.trivial fun _ _ => ?_
  have fam : ∀ a b c d : I, ∀ x, (x = (weakFamily T a b c d).1 ∨ x = (weakFamily T a b c d).2) →
      x = a ∨ x = b ∨ x = c ∨ x = d := by
    intro a b c d x hx
    unfold weakFamily weakMerge largerFirst at hx
    rcases hx with rfl | rfl <;>
    · repeat' split
      all_goals simp
  have key : ∀ (ps cs : List I), IfReturns (weakGo T ps cs : M W _) fun out =>
      out.length = ps.length ∧ ∀ x ∈ out, x ∈ ps ∨ x ∈ cs := by
    intro ps
    induction ps using List.twoStepInduction with
    | nil => intro cs; unfold weakGo; exact IfReturns.pure ⟨rfl, by simp⟩
    | singleton a =>
      intro cs; unfold weakGo; exact IfReturns.pure ⟨rfl, fun x hx => .inl hx⟩
    | cons_cons a b ps ih _ =>
      intro cs
      rcases cs with _ | ⟨c, _ | ⟨d, cs⟩⟩
      · unfold weakGo; exact IfReturns.fail
      · unfold weakGo; exact IfReturns.fail
      · unfold weakGo
        refine IfReturns.bind (ih cs) fun rest hr => IfReturns.pure ⟨by simp [hr.1], ?_⟩
        intro x hx
        simp only [List.mem_cons] at hx ⊢
        rcases hx with hx | hx | hx
        · rcases fam a b c d x (.inl hx) with h | h | h | h <;> simp [h]
        · rcases fam a b c d x (.inr hx) with h | h | h | h <;> simp [h]
        · rcases hr.2 x hx with h | h <;> simp [h]
  exact key pop children

/-- **C35, panics.** An empty population always panics; in debug builds so do unequal or odd sizes; in
release builds see `C35_weak_parent_release_panics`. -/
theorem C35_weak_parent_panics (pop children : List I) :
    (pop = [] → ∀ debug, Panics (weakParent T debug pop children : M W _)) ∧
    (pop.length ≠ children.length → Panics (weakParent T true pop children : M W _)) ∧
    (pop.length % 2 = 1 → Panics (weakParent T true pop children : M W _)) := by
  refine ⟨?_, ?_, ?_⟩
  · rintro rfl debug
    refine Panics.bind_right IfReturns.trivial fun _ _ => ?_
    refine Panics.bind_right IfReturns.trivial fun _ _ => ?_
    exact Panics.bind_left (Panics.assert (by simp))
  · intro h
    exact Panics.bind_left (Panics.assert (by simpa using h))
  · intro h
    refine Panics.bind_right IfReturns.trivial fun _ _ => ?_
    exact Panics.bind_left (Panics.assert (by simp [h]))

/-- **C36.** BothParents returns exactly the children and Noop exactly the population, without panicking,
and neither asks for the children to be evaluated; WeakParent does. -/
theorem C36_both_parents_and_noop (debug : Bool) (pop children : List I) :
    Returns (Replacement.apply T debug .bothParents pop children : M W _) (fun out => out = children) ∧
    Returns (Replacement.apply T debug .noop pop children : M W _) (fun out => out = pop) ∧
    Replacement.requiresChildrenFitness .bothParents = false ∧
    Replacement.requiresChildrenFitness .noop = false ∧
    Replacement.requiresChildrenFitness .weakParent = true :=
  ⟨Returns.pure rfl, Returns.pure rfl, rfl, rfl, rfl⟩

/-- Every shipped replacement returns only members of the population and the children. -/
theorem replacement_members (op : Replacement) (debug : Bool) (pop children : List I) :
    IfReturns (op.apply T debug pop children : M W _) fun out => ∀ x ∈ out, x ∈ pop ∨ x ∈ children := by
  cases op
  · exact IfReturns.pure fun x hx => .inr hx
  · exact IfReturns.pure fun x hx => .inl hx
  · exact (C35_weak_parent_members T).mono fun _ h => h.2

/-! ## C08 -/

/-- **C08, violation, replacement.** The solver minimises, but WeakParent discards a parent of strictly
smallest fitness whenever the other three members of its family have larger fitness: if `a` is strictly
below the other three then it is not a survivor. -/
theorem C08_weak_parent_drops_minimum {debug : Bool} {a b c d : I} (hb : Fl.Lt (T.fitness a) (T.fitness b))
    (hc : Fl.Lt (T.fitness a) (T.fitness c)) (hd : Fl.Lt (T.fitness a) (T.fitness d)) :
    Returns (weakParent T debug [a, b] [c, d] : M W _) fun out =>
      ∀ x ∈ out, ¬ Fl.Le (T.fitness x) (T.fitness a) := by
  have na := hb.le.isNum_left
  have nb := hb.le.isNum_right
  have nc := hc.le.isNum_right
  have nd := hd.le.isNum_right
  refine (C35_weak_parent T (debug := debug) (pop := [a, b]) (children := [c, d]) rfl (by simp) (by simp)
    (by simp [na, nb]) (by simp [nc, nd])).mono ?_
  rintro out ⟨hl, hk⟩ x hx hle
  rcases out with _ | ⟨x0, _ | ⟨y0, _ | ⟨_, _⟩⟩⟩ <;> simp at hl
  obtain ⟨u, v, hperm, h1, h2, h3⟩ := hk 0 (by simp) (by simp) (by simp)
  simp only [Nat.mul_zero, List.getElem_cons_zero, Nat.zero_add, List.getElem_cons_succ] at hperm h1 h2 h3
  -- y0 is at most as fit as a, so all of a, b, c, d but one are squeezed below it
  have hy : Fl.Le (T.fitness y0) (T.fitness a) := by
    simp only [List.mem_cons, List.not_mem_nil, or_false] at hx
    rcases hx with rfl | rfl
    · exact h1.trans hle
    · exact hle
  have hu := h2.trans hy
  have hv := h3.trans hy
  have nlt : ∀ {z : I}, Fl.Lt (T.fitness a) (T.fitness z) → Fl.Le (T.fitness z) (T.fitness a) → False := by
    intro z h h'
    exact (Fl.not_lt na h.le.isNum_right).2 h' h
  -- a count of the members that are ≤ a: at least three on the left, at most one on the right
  have hcount := hperm.countP_eq (fun z => decide (¬ Fl.lt (T.fitness a) (T.fitness z) = true))
  have lift : ∀ {z : I}, Fl.Le (T.fitness z) (T.fitness a) → Fl.lt (T.fitness a) (T.fitness z) = false := by
    intro z hz
    cases h : Fl.lt (T.fitness a) (T.fitness z) with
    | false => rfl
    | true => exact (nlt (Fl.lt_iff.1 h) hz).elim
  have haa : Fl.lt (T.fitness a) (T.fitness a) = false := lift (Fl.le_refl na)
  simp only [List.countP_cons, List.countP_nil, lift hy, lift hu, lift hv, haa, Fl.lt_iff.2 hb,
    Fl.lt_iff.2 hc, Fl.lt_iff.2 hd] at hcount
  simp at hcount
  omega

end

section selection
variable {G K I C : Type} [Field K] [LinearOrder K] [IsStrictOrderedRing K] [FloorSemiring K]
variable {F : Type} [LinearOrder F] (R : Rng G K) (T : IndTrait I C F)

/-- **C08, violation, Tournament selection.** The solver minimises, but a full tournament never selects an
individual that is strictly better (smaller) than some other member of the population: only individuals of
*largest* fitness are selected. -/
theorem C08_tournament_selects_worst {count : Nat} {pop : List I} (h0 : 0 < pop.length)
    (hnum : ∀ x ∈ pop, (T.fitness x).IsNum) :
    Returns (selTournament R T (1 : K) count pop) fun sel =>
      sel.length = count ∧ ∀ w ∈ sel, ∀ x ∈ pop, ¬ Fl.Lt (T.fitness w) (T.fitness x) := by
  intro g
  obtain ⟨sel, g', h1, h2⟩ := C28_tournament R T (factor := (1 : K)) (count := count) le_rfl h0 hnum g
  refine ⟨sel, g', h1, h2.1, ?_⟩
  have h3 := (C32_full_tournament R T (count := count) h0 hnum).ifReturns g sel g' h1
  intro w hw x hx
  exact (Fl.not_lt (hnum w (h2.2 w hw)) (hnum x hx)).2 (h3 w hw x hx)

/-- **C08, violation, Rank selection.** Of the two individuals drawn, Rank never keeps one that is strictly
better (smaller) than the other. -/
theorem C08_rank_selects_worst {count : Nat} {pop : List I} (h : 0 < pop.length)
    (hnum : ∀ x ∈ pop, (T.fitness x).IsNum) :
    Returns (selRank R T count pop) fun sel => ∀ x ∈ sel, ∃ p ∈ pop, ∃ q ∈ pop, (x = p ∨ x = q) ∧
      ¬ Fl.Lt (T.fitness x) (T.fitness p) ∧ ¬ Fl.Lt (T.fitness x) (T.fitness q) := by
  refine (C28_rank R T h).mono ?_
  rintro sel ⟨-, h2⟩ x hx
  obtain ⟨hm, p, hp, q, hq, h3, h4⟩ := h2 x hx
  obtain ⟨h5, h6⟩ := h4 (hnum p hp) (hnum q hq)
  exact ⟨p, hp, q, hq, h3, (Fl.not_lt (hnum x hm) (hnum p hp)).2 h5, (Fl.not_lt (hnum x hm) (hnum q hq)).2 h6⟩

end selection

/-! ## Non-vacuity -/

/-- A concrete WeakParent step: two families, one kept, one mixed. -/
example : (weakParent (Individual.trait Nat Int) true
    [⟨1, .num 60⟩, ⟨2, .num 40⟩, ⟨3, .num 5⟩, ⟨4, .num 9⟩]
    [⟨5, .num 10⟩, ⟨6, .num 12⟩, ⟨7, .num 7⟩, ⟨8, .num 1⟩] : M Unit _) () =
    .ok ([⟨1, .num 60⟩, ⟨2, .num 40⟩, ⟨4, .num 9⟩, ⟨7, .num 7⟩], ()) := by decide +kernel

/-- The minimiser's best individual (fitness 1) is evicted. -/
example : (weakParent (Individual.trait Nat Int) true [⟨1, .num 1⟩, ⟨2, .num 2⟩]
    [⟨3, .num 3⟩, ⟨4, .num 4⟩] : M Unit _) () =
    .ok ([⟨4, .num 4⟩, ⟨3, .num 3⟩], ()) := by decide +kernel

/-! ## Every theorem on a concrete case -/

section instances

example := C35_weak_parent (W := Unit) (T := Individual.trait Nat Int) (debug := true)
  (pop := [⟨1, .num 60⟩, ⟨2, .num 40⟩, ⟨3, .num 5⟩, ⟨4, .num 9⟩]) (children := [⟨5, .num 10⟩, ⟨6, .num 12⟩, ⟨7, .num 7⟩, ⟨8, .num 1⟩])
  rfl rfl (by decide) (by simp [Individual.trait, Fl.IsNum]) (by simp [Individual.trait, Fl.IsNum])
example := (C35_weak_parent_panics (W := Unit) (Individual.trait Nat Int) [⟨1, .num 60⟩, ⟨2, .num 40⟩] [⟨1, .num 60⟩]).2.1 (by decide)
example := C08_weak_parent_drops_minimum (W := Unit) (T := Individual.trait Nat Int) (debug := false) (a := ⟨1, .num 1⟩) (b := ⟨2, .num 2⟩)
  (c := ⟨3, .num 3⟩) (d := ⟨4, .num 4⟩) (by simp [Individual.trait, Fl.Lt]) (by simp [Individual.trait, Fl.Lt]) (by simp [Individual.trait, Fl.Lt])
example := C08_tournament_selects_worst (T := Individual.trait Nat ℚ) counterRng (count := 2) (pop := [⟨1, .num 60⟩, ⟨2, .num 40⟩, ⟨3, .num 5⟩])
  (by decide) (by simp [Individual.trait, Fl.IsNum])
example := C08_rank_selects_worst (T := Individual.trait Nat ℚ) counterRng (count := 2) (pop := [⟨1, .num 60⟩, ⟨2, .num 40⟩, ⟨3, .num 5⟩])
  (by decide) (by simp [Individual.trait, Fl.IsNum])

end instances

end Ecrs.Ga
