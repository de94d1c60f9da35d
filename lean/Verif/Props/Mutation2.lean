import Verif.CounterRng
import Verif.Props.Mutation

/-!
# C25 continued: what Interchange does, position by position
-/

set_option linter.unusedSectionVars false

namespace Ecrs.Ga
open Ecrs

/-- `c` with the genes at positions `i` and `j` exchanged: position `i` holds the old `c[j]`, position `j` the old `c[i]`. -/
def Exchanged {A : Type} (c out : List A) (i j : Nat) : Prop :=
  out.length = c.length ∧ out[i]? = c[j]? ∧ out[j]? = c[i]? ∧ ∀ x, x ≠ i → x ≠ j → out[x]? = c[x]?

/-- The positions `is` are visited in order; at each the chromosome is left alone or the position is exchanged with another
(or the same) position.  `picked` lists the positions that were exchanged. -/
inductive Interchanges {A : Type} : List Nat → List Nat → List A → List A → Prop
  | done (c : List A) : Interchanges [] [] c c
  | skip {i : Nat} {is picked : List Nat} {c out : List A} : Interchanges is picked c out → Interchanges (i :: is) picked c out
  | swap {i j : Nat} {is picked : List Nat} {c c' out : List A} : j < c.length → Exchanged c c' i j →
      Interchanges is picked c' out → Interchanges (i :: is) (i :: picked) c out

section
variable {G U A : Type} [LinearOrder U] [Zero U] [One U] (R : Rng G U)

private theorem swapped_exchanged {l : List A} {i j : Nat} (hi : i < l.length) (hj : j < l.length) :
    Exchanged l (swapped l i j hi hj) i j := by
  refine ⟨swapped_length hi hj, ?_, ?_, ?_⟩
  · rw [swapped_getElem?]; simp
  · rw [swapped_getElem?]
    by_cases h : j = i
    · subst h; simp
    · simp [h]
  · intro x h1 h2
    rw [swapped_getElem?]; simp [h1, h2]

private theorem interchange_aux {rate : U} : ∀ (is : List Nat) (c : List A), (∀ i ∈ is, i < c.length) →
    Returns (M.fold (interchangeStep R rate) c is) fun out => ∃ picked, Interchanges is picked c out ∧
      (1 ≤ rate → picked = is) ∧ (rate ≤ 0 → picked = [])
  | [], c, _ => Returns.pure ⟨[], .done c, fun _ => rfl, fun _ => rfl⟩
  | i :: is, c, h => by
    unfold M.fold
    have hi : i < c.length := h i List.mem_cons_self
    refine Returns.bind (P := fun c' => c'.length = c.length ∧ ((∃ j, j < c.length ∧ Exchanged c c' i j ∧ ¬ rate ≤ 0) ∨
      (c' = c ∧ ¬ 1 ≤ rate))) ?_ ?_
    · unfold interchangeStep
      refine Returns.bind R.genUnit_returns fun d hd => ?_
      by_cases hdr : d < rate
      · rw [if_pos hdr]
        refine Returns.bind (R.threadRange_returns (show 0 < c.length by omega)) fun j hj => ?_
        rw [swapIdx_eq hi hj.2]
        exact Returns.pure ⟨swapped_length hi hj.2, .inl ⟨j, hj.2, swapped_exchanged hi hj.2,
          not_le.2 (lt_of_le_of_lt hd.1 hdr)⟩⟩
      · rw [if_neg hdr]
        exact Returns.pure ⟨rfl, .inr ⟨rfl, fun h1 => hdr (lt_of_lt_of_le hd.2 h1)⟩⟩
    · rintro c' ⟨hl, hc⟩
      refine (interchange_aux is c' (fun x hx => by rw [hl]; exact h x (List.mem_cons_of_mem _ hx))).mono ?_
      rintro out ⟨picked, hp, h1, h0⟩
      rcases hc with ⟨j, hj, hex, hr⟩ | ⟨rfl, hr⟩
      · exact ⟨i :: picked, .swap hj hex hp, fun hr1 => by rw [h1 hr1], fun hr0 => absurd hr0 hr⟩
      · exact ⟨picked, .skip hp, fun hr1 => absurd hr1 hr, h0⟩

/-- **C25, Interchange.** On a non-empty chromosome Interchange visits every position once, from the first to the last, and
at each either does nothing or exchanges it with some position of the chromosome; with rate `≥ 1` every position is
exchanged, with rate `≤ 0` none. -/
theorem C25_interchange_exchanges {rate : U} {c : List A} (h : 0 < c.length) :
    Returns (interchange R rate c) fun out => ∃ picked, Interchanges (List.range c.length) picked c out ∧
      (1 ≤ rate → picked = List.range c.length) ∧ (rate ≤ 0 → picked = []) := by
  unfold interchange
  refine Returns.bind (Returns.assert (by simpa using h)) fun _ _ => ?_
  exact interchange_aux R _ c (by simp)

end

/-- A concrete chain of exchanges. -/
example : Interchanges [0, 1] [1] [10, 20] [20, 10] :=
  .skip (.swap (j := 0) (c' := [20, 10]) (by decide) ⟨rfl, rfl, rfl, fun x h1 h0 => by
    match x with
    | 0 => exact absurd rfl h0
    | 1 => exact absurd rfl h1
    | x + 2 => rfl⟩ (.done _))
example := C25_interchange_exchanges counterRng (rate := 1 / 2) (c := [10, 20, 30]) (by decide)

end Ecrs.Ga
