import Verif.Props.JsspRun
import Verif.Props.Linkage

/-!
# C104: the crossovers of the job shop example — probabilities, and the crossover that does nothing
-/

set_option linter.unusedSectionVars false

namespace Ecrs.Jssp
open Ecrs Ecrs.Props Ecrs.Ga MeasureTheory
open scoped ENNReal

section noop
variable {G X : Type} [Field X] [LinearOrder X]

/-- **C104, NoopCrossover.** On an even number of parents it returns exactly the parents, in their order, evaluated or not, and draws nothing;
on an odd number it panics. -/
theorem C104_noop (pool : List (Indiv X)) :
    (pool.length % 2 = 0 → ∀ g : G, noopCross pool g = .ok (pool, g)) ∧
    (pool.length % 2 = 1 → Panics (noopCross pool : M G (List (Indiv X)))) := by
  refine ⟨fun h => ?_, Ga.applyPairs_odd_panics⟩
  have key : ∀ (n : Nat) (l : List (Indiv X)), l.length = 2 * n →
      (Ga.chunks2 (fun a b => pure (a, b)) l : M G (List (Indiv X))) = pure l := by
    intro n
    induction n with
    | zero => intro l hl; obtain rfl := List.length_eq_zero_iff.1 (show l.length = 0 by omega); rfl
    | succ n ih =>
      intro l hl
      match l, hl with
      | a :: b :: rest, hl =>
        unfold Ga.chunks2
        rw [pure_bind]
        show (Ga.chunks2 _ rest >>= fun out => pure (a :: b :: out)) = _
        rw [ih rest (by simp at hl; omega), pure_bind]
  intro g
  unfold noopCross Ga.applyPairs
  rw [M.bind_of_ok (a := ()) (w' := g) (by simp [h, M.assert]), key (pool.length / 2) pool (by omega)]
  rfl

end noop

section prob
variable {G : Type} [MeasurableSpace G] {R : Rng G ℝ} {μ : Measure G}

/-- Specification: the chromosomes of two children. -/
def chromosomes (kids : Indiv ℝ × Indiv ℝ) : List ℝ × List ℝ := (kids.1.ind.chromosome, kids.2.ind.chromosome)

theorem crossSingle_eq (hR : Ideal R μ) (keep : ℝ) {a b : Indiv ℝ} (hl : a.ind.chromosome.length = b.ind.chromosome.length) :
    crossSingle R keep a b = Ga.uniformParameterized R keep a.ind.chromosome b.ind.chromosome >>= fun c =>
      pure (a.child c.1, b.child c.2) := by
  unfold Ga.uniformParameterized crossSingle
  rw [assert_pure (by simp [hl]), pure_bind, hR.onClone_eq]
  simp only [bind_assoc, pure_bind]

/-- **C104, how likely each pair of children is**: at every position, independently, the first child has the gene of the first parent with
probability `keep` (0.6 in the example program) and otherwise that of the second; the second child has the other one. -/
theorem C104_probability (hR : Ideal R μ) {keep : ℝ} (h0 : 0 ≤ keep) (h1 : keep ≤ 1) {a b : Indiv ℝ}
    (hl : a.ind.chromosome.length = b.ind.chromosome.length) (Q : List ℝ × List ℝ → Prop) [DecidablePred Q] :
    chance μ (crossSingle R keep a b) (fun kids => Q (chromosomes kids)) =
      ∑ mask ∈ masks a.ind.chromosome.length with
        Q (mix mask a.ind.chromosome b.ind.chromosome, mix mask b.ind.chromosome a.ind.chromosome),
        ENNReal.ofReal (keep ^ mask.count true * (1 - keep) ^ mask.count false) := by
  rw [crossSingle_eq hR keep hl, chance_map, ← C134_uniform_parameterized hR h0 h1 hl Q]
  rfl

/-- **C104, one gene.** With the example's 0.6, each gene in which the parents differ is exchanged with probability 2/5, wherever it is. -/
theorem C104_gene_exchanged (hR : Ideal R μ) {a b : Indiv ℝ}
    (hl : a.ind.chromosome.length = b.ind.chromosome.length) {i : Nat} (hi : DifferAt a.ind.chromosome b.ind.chromosome i) :
    chance μ (crossSingle R (0.6 : ℝ) a b) (fun kids => kids.1.ind.chromosome[i]? = b.ind.chromosome[i]?) = 2 / 5 := by
  have h := C154_uniform_parameterized_position hR (bias := 0.6) (by norm_num) (by norm_num) hl hi
  rw [crossSingle_eq hR _ hl, chance_map]
  refine Eq.trans h ?_
  rw [show (1 - 0.6 : ℝ) = 2 / 5 by norm_num, ENNReal.ofReal_div_of_pos (by norm_num)]
  norm_num

end prob

/-! ## Instances -/

/-- Two parents with two genes each, of an instance of one operation. -/
noncomputable def parentA : Indiv ℝ := ⟨freshIndividual [] 1 100 [0.25, 0.5], .num 100⟩
noncomputable def parentB : Indiv ℝ := ⟨freshIndividual [] 1 100 [0.75, 0.5], .num 100⟩

example := (C104_noop (G := Nat) [parentA, parentB]).1 rfl
example := (C104_noop (G := Nat) [parentA]).2 rfl
open Classical in
example := C104_probability tapeRng_ideal (keep := 0.6) (by norm_num) (by norm_num) (a := parentA) (b := parentB) rfl
  (fun c => c.1 = [0.25, 0.5])
example := C104_gene_exchanged tapeRng_ideal (a := parentA) (b := parentB) rfl (i := 0) (by
  refine ⟨by simp [parentA, freshIndividual, Individual.new], ?_⟩
  simp [parentA, parentB, freshIndividual, Individual.new]
  norm_num)
end Ecrs.Jssp
