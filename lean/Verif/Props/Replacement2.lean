import Verif.Props.Replacement

/-!
# C35 continued: WeakParent in release builds, where the sizes are not checked
-/

set_option linter.unusedSectionVars false

namespace Ecrs.Ga
open Ecrs

section
variable {W I C K : Type} [LinearOrder K] (T : IndTrait I C K)

private theorem weakGo_release : ∀ (pop children : List I), pop.length - pop.length % 2 ≤ children.length →
    (∀ i ∈ pop, (T.fitness i).IsNum) → (∀ i ∈ children, (T.fitness i).IsNum) →
    Returns (weakGo T pop children : M W _) fun out => out.length = pop.length ∧
      (∀ k (h : 2 * k + 1 < pop.length) (h' : 2 * k + 1 < children.length) (h'' : 2 * k + 1 < out.length),
        TwoLargest T pop[2 * k] pop[2 * k + 1] children[2 * k] children[2 * k + 1] out[2 * k] out[2 * k + 1]) ∧
      (pop.length % 2 = 1 → out.getLast? = pop.getLast?)
  | [], _, _, _, _ => by
    unfold weakGo
    exact Returns.pure ⟨rfl, by intro k h; simp at h, fun _ => rfl⟩
  | [a], _, _, _, _ => by
    unfold weakGo
    exact Returns.pure ⟨rfl, by intro k h; simp at h, fun _ => rfl⟩
  | a :: b :: ps, [], h, _, _ => by simp only [List.length_cons, List.length_nil] at h; omega
  | a :: b :: ps, [_], h, _, _ => by simp only [List.length_cons, List.length_nil] at h; omega
  | a :: b :: ps, c :: d :: cs, hl, hp, hc => by
    simp only [List.length_cons] at hl
    unfold weakGo
    refine Returns.bind (weakGo_release ps cs (by omega) (fun i hi => hp i (by simp [hi]))
      fun i hi => hc i (by simp [hi])) fun rest hrest => Returns.pure ?_
    refine ⟨by simp [hrest.1], ?_, ?_⟩
    · intro k h h' h''
      cases k with
      | zero =>
        exact weakFamily_spec T (hp a (by simp)) (hp b (by simp)) (hc c (by simp)) (hc d (by simp))
      | succ k =>
        simp only [List.length_cons] at h h' h''
        exact hrest.2.1 k (by omega) (by omega) (by omega)
    · intro h
      simp only [List.length_cons] at h
      have h1 := hrest.2.2 (by omega)
      have hne : ps ≠ [] := by rintro rfl; simp at h
      have hne' : rest ≠ [] := by
        intro hc
        have := hrest.1
        rw [hc] at this
        exact hne (List.eq_nil_of_length_eq_zero this.symm)
      obtain ⟨p, ps, rfl⟩ := List.exists_cons_of_ne_nil hne
      obtain ⟨r, rest, rfl⟩ := List.exists_cons_of_ne_nil hne'
      rw [List.getLast?_cons_cons, List.getLast?_cons_cons, List.getLast?_cons_cons, List.getLast?_cons_cons]
      exact h1

private theorem weakGo_short : ∀ (pop children : List I), children.length < pop.length - pop.length % 2 →
    Panics (weakGo T pop children : M W _)
  | [], _, h => by simp at h
  | [a], _, h => by simp at h
  | a :: b :: ps, [], _ => by unfold weakGo; exact Panics.fail
  | a :: b :: ps, [_], _ => by unfold weakGo; exact Panics.fail
  | a :: b :: ps, c :: d :: cs, h => by
    unfold weakGo
    refine Panics.bind_left (weakGo_short ps cs ?_)
    simp only [List.length_cons] at h
    omega

/-- **C35, release builds.** Without the debug assertions a non-empty population of any size and any number of children, at
least as many as there are parents in complete pairs, is accepted: every complete family keeps its two largest members, the
last individual of an odd population survives unchanged and surplus children are ignored. -/
theorem C35_weak_parent_release {pop children : List I} (h0 : 0 < pop.length)
    (hl : pop.length - pop.length % 2 ≤ children.length) (hp : ∀ i ∈ pop, (T.fitness i).IsNum)
    (hc : ∀ i ∈ children, (T.fitness i).IsNum) :
    Returns (weakParent T false pop children : M W _) fun out => out.length = pop.length ∧
      (∀ k (h : 2 * k + 1 < pop.length) (h' : 2 * k + 1 < children.length) (h'' : 2 * k + 1 < out.length),
        TwoLargest T pop[2 * k] pop[2 * k + 1] children[2 * k] children[2 * k + 1] out[2 * k] out[2 * k + 1]) ∧
      (pop.length % 2 = 1 → out.getLast? = pop.getLast?) := by
  unfold weakParent
  refine Returns.bind (Returns.assert rfl) fun _ _ => ?_
  refine Returns.bind (Returns.assert rfl) fun _ _ => ?_
  refine Returns.bind (Returns.assert (by simpa using h0)) fun _ _ => ?_
  exact weakGo_release T pop children hl hp hc

/-- **C35, release builds.** Fewer children panic. -/
theorem C35_weak_parent_release_panics {pop children : List I} (hl : children.length < pop.length - pop.length % 2) :
    Panics (weakParent T false pop children : M W _) := by
  unfold weakParent
  refine Panics.bind_right IfReturns.trivial fun _ _ => ?_
  refine Panics.bind_right IfReturns.trivial fun _ _ => ?_
  refine Panics.bind_right IfReturns.trivial fun _ _ => weakGo_short T pop children hl

end

/-- Three parents, two children: the third parent stays. -/
example : (weakParent (W := Unit) (Individual.trait Nat Int) false [⟨1, .num 1⟩, ⟨2, .num 2⟩, ⟨3, .num 3⟩] [⟨4, .num 9⟩, ⟨5, .num 0⟩] ()).map (·.1) =
    .ok [⟨4, .num 9⟩, ⟨2, .num 2⟩, ⟨3, .num 3⟩] := by decide

example := C35_weak_parent_release (W := Unit) (Individual.trait Nat Int) (pop := [⟨1, .num 1⟩, ⟨2, .num 2⟩, ⟨3, .num 3⟩])
  (children := [⟨4, .num 9⟩, ⟨5, .num 0⟩]) (by decide) (by decide) (by simp [Individual.trait, Fl.IsNum]) (by simp [Individual.trait, Fl.IsNum])
example := C35_weak_parent_release_panics (W := Unit) (Individual.trait Nat Int) (pop := [⟨1, .num 1⟩, ⟨2, .num 2⟩, ⟨3, .num 3⟩])
  (children := [⟨4, .num 9⟩]) (by decide)

end Ecrs.Ga
