import Verif.Ga.Examples
import Verif.Props.ProbBoltzmann
import Verif.Props.ProbConverge
import Verif.Props.RealGa
import Verif.Props.Builder
import Verif.Props.TestFunctions

/-!
# Property C139: what the example programs of the genetic algorithm find
-/

set_option linter.unusedSectionVars false

namespace Ecrs.Ga
open Ecrs MeasureTheory

/-! ## A run returns an individual of least fitness -/

section general
variable {W C : Type}

/-- A terminating GA on shipped individuals whose fitness operator computes `f` returns an individual for which `f` is least among all
individuals of all populations shown. -/
theorem run_minimises {ops : Ops W (Individual C ℝ) ℝ} {P : Individual C ℝ → Prop} {n : Nat} {p : GAParams}
    (ht : TotalOps (Individual.trait C ℝ) ops P n) (hn : 0 < n) (hp : p.populationSize = n) (m0 : Metrics) {f : C → Fl ℝ}
    (hf : ∀ i, IfReturns (ops.fitnessFn i) fun r => r.2 = f r.1.chromosome) {v : C → ℝ} (hv : ∀ i, P i → f i.chromosome = .num (v i.chromosome)) :
    Returns (run (Individual.trait C ℝ) ops p m0) fun r => P r.1 ∧ (∀ e ∈ r.2, EvAll P e) ∧
      ∀ pop ∈ shownPops r.2, ∀ i ∈ pop, v r.1.chromosome ≤ v i.chromosome := by
  intro w
  obtain ⟨⟨best, tr⟩, w', h, h1, h2⟩ := ht.all hn hp m0 w
  refine ⟨(best, tr), w', h, h1, h2, fun pop hpop i hi => ?_⟩
  obtain ⟨f1, f2⟩ := C06_fitness_is_fresh _ _ p (C06_contract_of_individual ops f hf) h
  have hmem : ∃ e ∈ tr, (∃ m, e = Ev.onInitialPopulation m pop) ∨ ∃ m, e = Ev.onNewGeneration m pop := by
    unfold shownPops at hpop
    obtain ⟨e, he, hx⟩ := List.mem_filterMap.1 hpop
    refine ⟨e, he, ?_⟩
    cases e <;> simp at hx
    · exact .inl ⟨_, by rw [hx]⟩
    · exact .inr ⟨_, by rw [hx]⟩
  have hfi : i.fitness = f i.chromosome ∧ P i := by
    obtain ⟨e, he, ⟨m, rfl⟩ | ⟨m, rfl⟩⟩ := hmem
    · exact ⟨f2 _ he i hi, h2 _ he i hi⟩
    · exact ⟨f2 _ he i hi, h2 _ he i hi⟩
  have hlt := (C01_result_is_best _ _ p h).2 pop hpop i hi
  have e1 : best.fitness = .num (v best.chromosome) := by rw [← hv best h1]; exact f1
  have e2 : i.fitness = .num (v i.chromosome) := by rw [← hv i hfi.2]; exact hfi.1
  have : ¬ Fl.Lt i.fitness best.fitness := hlt
  rw [e1, e2] at this
  exact not_lt.1 this

end general

section
variable {W G : Type} (R : Rng G ℝ) (S : Slots W G) (worst : Fl ℝ)

/-! ## examples/ga_bsc.rs -/

/-- The calls that bound the run of examples/ga_bsc.rs, with the parameters they lead to. -/
inductive Bounds : PresetCall (List Bool → Fl ℝ) → GAParams → Prop
  | time (d : Nat) : Bounds (.setMaxDuration d) ⟨6, usizeMax, d⟩
  | generations (k : Nat) : 1 ≤ k → Bounds (.setMaxGenerationCount k) ⟨6, k, durationMax⟩

theorem gaBscMain_eq {limit : PresetCall (List Bool → Fl ℝ)} {p : GAParams} (hb : Bounds limit p) (elapsed : M W Nat) :
    gaBscMain R S worst elapsed limit =
      run (Individual.trait (List Bool) ℝ) (bscOps R S worst wordmaxFitness 10 6 elapsed) p (initialMetrics p) := by
  cases hb with
  | time d => rfl
  | generations k hk =>
    have : (presetBuild true [PresetCall.setMaxGenerationCount k, .setFitness wordmaxFitness, .dim 10, .setPopulationSize 6]) =
        .ok (⟨⟨6, k, durationMax⟩, 10, wordmaxFitness⟩ : PresetConfig (List Bool → Fl ℝ)) := by
      unfold presetBuild PresetOpt.calls PresetOpt.call
      simp only [forall_const, hk, if_true]
      rfl
    unfold gaBscMain
    rw [this]

/-- **C139, examples/ga_bsc.rs.** The program that prints "Bitstring with most ones" never panics, and what it prints has ten bits and no
more ones than any individual it ever saw: it looks for the bit string with the fewest ones. -/
theorem C139_bsc {limit : PresetCall (List Bool → Fl ℝ)} {p : GAParams} (hb : Bounds limit p) {elapsed : M W Nat}
    (hel : Returns elapsed fun _ => True) :
    Returns (gaBscMain R S worst elapsed limit) fun r => r.1.chromosome.length = 10 ∧
      ∀ pop ∈ shownPops r.2, ∀ i ∈ pop, r.1.chromosome.count true ≤ i.chromosome.count true := by
  rw [gaBscMain_eq R S worst hb]
  have hp : p.populationSize = 6 := by cases hb <;> rfl
  refine (run_minimises (f := wordmaxFitness) (v := fun c => (c.filter (· = true)).length)
    (bscOps_total R S worst (f := wordmaxFitness) (fun _ => trivial) (by decide) (by decide) (by decide) hel) (by decide) hp _
    (fun i => IfReturns.pure rfl) (fun i _ => rfl)).mono ?_
  rintro r ⟨h1, -, h3⟩
  refine ⟨h1, fun pop hpop i hi => ?_⟩
  have := h3 pop hpop i hi
  rw [List.count_eq_length_filter, List.count_eq_length_filter]
  have e : ∀ c : List Bool, c.filter (· == true) = c.filter (· = true) := fun c => List.filter_congr (by simp)
  rw [e, e]
  exact_mod_cast this

end

section limit
variable {G : Type} [MeasurableSpace G] {R : Rng G ℝ} {μ : Measure G}

/-- Events may be compared on what the program can return. -/
theorem chance_mono_returned {α : Type} {m : M G α} {P Q V : α → Prop} (hV : IfReturns m V) (h : ∀ a, V a → P a → Q a) :
    chance μ m P ≤ chance μ m Q :=
  measure_mono fun g ⟨a, g', h1, h2⟩ => ⟨a, g', h1, h a (hV g a g' h1) h2⟩

/-- **C139, examples/ga_bsc.rs in the long run.** With an ideal source of randomness, bounded by a number of generations instead of a time,
the program prints the bit string without ones with probability tending to one, and the one with most ones with
probability tending to zero. -/
theorem C139_bsc_limit (hR : Ideal R μ) (worst : Fl ℝ) {elapsed : M G Nat} (hlaw : HasLaw μ elapsed)
    (hel : Returns elapsed fun t => t < durationMax) :
    Filter.Tendsto (fun k => chance μ (gaBscMain R (oneGenerator G) worst elapsed (.setMaxGenerationCount k))
      fun r => r.1.chromosome = List.replicate 10 false) Filter.atTop (nhds 1) ∧
    Filter.Tendsto (fun k => chance μ (gaBscMain R (oneGenerator G) worst elapsed (.setMaxGenerationCount k))
      fun r => r.1.chromosome = List.replicate 10 true) Filter.atTop (nhds 0) := by
  have := hR.isProbability
  have hnum : ∀ c, (wordmaxFitness c).IsNum := fun _ => trivial
  have htot := bscOps_total R (oneGenerator G) worst (f := wordmaxFitness) (dim := 10) (n := 6) hnum (by decide) (by decide) (by decide)
    (hel.mono fun _ _ => trivial)
  let m : Nat → M G (BitInd × List (Ev BitInd)) := fun k => run (Individual.trait (List Bool) ℝ)
    (bscOps R (oneGenerator G) worst wordmaxFitness 10 6 elapsed) ⟨6, k, durationMax⟩ ⟨0, 6, none⟩
  have hm : ∀ k, 1 ≤ k → gaBscMain R (oneGenerator G) worst elapsed (.setMaxGenerationCount k) = m k :=
    fun k hk => gaBscMain_eq R _ worst (.generations k hk) elapsed
  have hconv := C135_bit_string_converges hR worst (f := wordmaxFitness) (dim := 10) (n := 6) hnum (by decide) (by decide) (by decide) hlaw
    (p := ⟨6, 0, durationMax⟩) rfl hel ⟨0, 6, none⟩
  have hV : ∀ k, Returns (m k) fun r => r.1.chromosome.length = 10 ∧ r.1.fitness = wordmaxFitness r.1.chromosome := by
    intro k g
    obtain ⟨⟨best, tr⟩, w', h, h1, h2⟩ := htot.all (p := ⟨6, k, durationMax⟩) (by decide) rfl ⟨0, 6, none⟩ g
    exact ⟨_, _, h, h1, (C06_fitness_is_fresh _ _ ⟨6, k, durationMax⟩ (C06_contract_of_individual _ wordmaxFitness
      fun i => IfReturns.pure (Q := fun r : BitInd × Fl ℝ => r.2 = wordmaxFitness r.1.chromosome) rfl) h).1⟩
  have hle : ∀ k, chance μ (m k) (fun r => ∀ c : List Bool, c.length = 10 → Fl.Le r.1.fitness (wordmaxFitness c)) ≤
      chance μ (m k) (fun r => r.1.chromosome = List.replicate 10 false) := by
    intro k
    refine chance_mono_returned (hV k).ifReturns ?_
    rintro r ⟨h1, h2⟩ h3
    have h4 := h3 (List.replicate 10 false) (by simp)
    rw [h2] at h4
    have h5 : ((r.1.chromosome.filter (· = true)).length : ℝ) ≤ (((List.replicate 10 false).filter (· = true)).length : ℕ) := h4
    have h6 : (r.1.chromosome.filter (· = true)).length = 0 := by
      have : (r.1.chromosome.filter (· = true)).length ≤ ((List.replicate 10 false).filter (· = true)).length := by exact_mod_cast h5
      simpa using this
    rw [List.eq_replicate_iff]
    refine ⟨h1, fun b hb => ?_⟩
    have := List.filter_eq_nil_iff.1 (List.length_eq_zero_iff.1 h6) b hb
    simpa using this
  have t1 : Filter.Tendsto (fun k => chance μ (m k) fun r => r.1.chromosome = List.replicate 10 false) Filter.atTop (nhds 1) :=
    tendsto_of_tendsto_of_tendsto_of_le_of_le hconv tendsto_const_nhds hle fun k => chance_le_one
  have hev : ∀ᶠ k in Filter.atTop, m k = gaBscMain R (oneGenerator G) worst elapsed (.setMaxGenerationCount k) :=
    (Filter.eventually_ge_atTop 1).mono fun k hk => (hm k hk).symm
  refine ⟨t1.congr' (hev.mono fun k hk => by rw [hk]), ?_⟩
  have hbound : ∀ k, chance μ (m k) (fun r => r.1.chromosome = List.replicate 10 true) ≤
      1 - chance μ (m k) fun r => r.1.chromosome = List.replicate 10 false := by
    intro k
    have hl : HasLaw μ (m k) := (bscOps_lawOps hR worst wordmaxFitness 10 6 hlaw).run _
    have e := hl.chance_not ((hV k).mono fun _ _ => trivial) fun r => r.1.chromosome = List.replicate 10 false
    have h1 : chance μ (m k) (fun r => r.1.chromosome = List.replicate 10 true) ≤
        chance μ (m k) (fun r => ¬ r.1.chromosome = List.replicate 10 false) := chance_mono fun r h1 h2 => by
      rw [h1] at h2
      exact absurd h2 (by decide)
    refine h1.trans ?_
    rw [← e, ENNReal.add_sub_cancel_left]
    exact ne_top_of_le_ne_top ENNReal.one_ne_top chance_le_one
  have t2 : Filter.Tendsto (fun k => 1 - chance μ (m k) fun r => r.1.chromosome = List.replicate 10 false) Filter.atTop (nhds 0) := by
    have := ENNReal.Tendsto.sub (tendsto_const_nhds (x := (1 : ENNReal))) t1 (.inl ENNReal.one_ne_top)
    simpa using this
  have t3 := tendsto_of_tendsto_of_tendsto_of_le_of_le tendsto_const_nhds t2 (fun _ => zero_le) hbound
  exact t3.congr' (hev.mono fun k hk => by rw [hk])

end limit

/-! ## examples/ga_rvc.rs and examples/ga_ackley_test_function.rs -/

section
variable {W G : Type} (R : Rng G ℝ) (S : Slots W G) (worst : Fl ℝ)

/-- **C139, examples/ga_rvc.rs.** The program that prints a "5D Rastrigin function zero approximation" never panics, and what it prints is a
point of the unit cube at which the Rastrigin function is at least as *large* as at any individual it ever saw. -/
theorem C139_rvc {elapsed : M W Nat} (hel : Returns elapsed fun _ => True) (debug : Bool) :
    Returns (gaRvcMain R S worst elapsed debug) fun r => InUnitCube 5 r.1.chromosome ∧
      ∀ pop ∈ shownPops r.2, ∀ i ∈ pop, localRastrigin i.chromosome ≤ localRastrigin r.1.chromosome := by
  have e : gaRvcMain R S worst elapsed debug = run (Individual.trait (List ℝ) ℝ)
      (rvcOps R S worst (fun c => Fl.num (1000 * Real.exp (-localRastrigin c))) 5 100 elapsed) ⟨100, usizeMax, 10 * 10 ^ 9⟩
      ⟨0, 100, none⟩ := rfl
  rw [e]
  refine (run_minimises (f := fun c => Fl.num (1000 * Real.exp (-localRastrigin c))) (v := fun c => 1000 * Real.exp (-localRastrigin c))
    (rvcOps_total R S worst (f := fun c => Fl.num (1000 * Real.exp (-localRastrigin c))) (fun _ => trivial) (by decide) (by decide) (by decide) hel) (by decide) rfl _
    (fun i => IfReturns.pure rfl) (fun i _ => rfl)).mono ?_
  rintro r ⟨h1, -, h3⟩
  refine ⟨h1, fun pop hpop i hi => ?_⟩
  have := h3 pop hpop i hi
  have := Real.exp_le_exp.1 (le_of_mul_le_mul_left this (by norm_num))
  linarith

/-- The local Rastrigin function is the library's. -/
theorem localRastrigin_eq {c : List ℝ} (hc : c ≠ []) : TF.rastrigin c = .ok (localRastrigin c) := by
  unfold TF.rastrigin localRastrigin TF.require
  rw [if_pos (by simpa using hc)]
  show Except.ok _ = Except.ok _
  congr 1
  rw [add_comm]
  congr 1
  congr 1
  funext a b
  ring

theorem ackley_ok {c : List ℝ} (hc : c ≠ []) : ∃ v, TF.ackley c = .ok v := by
  unfold TF.ackley TF.require
  rw [if_pos (by simpa using hc)]
  exact ⟨_, rfl⟩

/-- The value a panicking function has when it has one. -/
noncomputable def valueOf (f : List ℝ → TF.R) (c : List ℝ) : ℝ :=
  match f c with
  | .ok v => v
  | .error _ => 0

theorem valueOf_ok {f : List ℝ → TF.R} {c : List ℝ} {v : ℝ} (h : f c = .ok v) : valueOf f c = v := by
  unfold valueOf
  rw [h]

/-- The fitness a panicking function leaves behind when it returns. -/
noncomputable def flOf (f : List ℝ → TF.R) (c : List ℝ) : Fl ℝ :=
  match f c with
  | .ok v => .num v
  | .error _ => .nan

theorem trapFitness_value (f : List ℝ → TF.R) (i : RealInd) :
    IfReturns (trapFitness f i : M W _) fun r => r.2 = flOf f r.1.chromosome ∧ r.1 = i := by
  unfold trapFitness flOf
  cases h : f i.chromosome with
  | ok v => exact IfReturns.pure ⟨by simp only [h], rfl⟩
  | error e =>
    intro w r w' h'
    cases h'

theorem trapFitness_returns {f : List ℝ → TF.R} {i : RealInd} {v : ℝ} (h : f i.chromosome = .ok v) :
    Returns (trapFitness f i : M W _) fun r => r = (i, .num v) := by
  unfold trapFitness
  rw [h]
  exact Returns.pure rfl

theorem TotalOps.withFitness {I C : Type} {T : IndTrait I C ℝ} {ops : Ops W I ℝ} {P : I → Prop} {n : Nat} (h : TotalOps T ops P n)
    {fn : I → M W (I × Fl ℝ)} (hfn : ∀ i, P i → Returns (fn i) fun r => P r.1 ∧ r.2.IsNum) :
    TotalOps T { ops with fitnessFn := fn } P n :=
  { eval := h.eval
    set := h.set
    gen := h.gen
    fit := hfn
    sel := h.sel
    cross := h.cross
    mutate := h.mutate
    replace := h.replace
    elapsed := h.elapsed }

/-- **C139, examples/ga_ackley_test_function.rs.** The program that prints a "4D ackley function zero approximation" never panics, and what
it prints is a point of the unit cube at which the Ackley function is at least as *large* as at any individual it ever saw. -/
theorem C139_ackley {elapsed : M W Nat} (hel : Returns elapsed fun _ => True) (debug : Bool) :
    Returns (gaAckleyMain R S worst elapsed debug) fun r => InUnitCube 4 r.1.chromosome ∧
      ∃ v, TF.ackley r.1.chromosome = .ok v ∧
      ∀ pop ∈ shownPops r.2, ∀ i ∈ pop, ∃ u, TF.ackley i.chromosome = .ok u ∧ u ≤ v := by
  have e : gaAckleyMain R S worst elapsed debug = run (Individual.trait (List ℝ) ℝ)
      { rvcOps R S worst (fun _ => Fl.num 0) 4 100 elapsed with fitnessFn := trapFitness fun c => (TF.ackley c).map fun v => -v }
      ⟨100, usizeMax, 5 * 10 ^ 9⟩ ⟨0, 100, none⟩ := rfl
  rw [e]
  have hne : ∀ c : List ℝ, InUnitCube 4 c → c ≠ [] := by
    rintro c ⟨h, -⟩ rfl
    cases h
  have hval : ∀ c : List ℝ, InUnitCube 4 c → (TF.ackley c).map (fun v => -v) = .ok (-valueOf TF.ackley c) := by
    intro c hc
    obtain ⟨v, hv⟩ := ackley_ok (hne c hc)
    rw [hv, valueOf_ok hv]
    rfl
  have h0 := rvcOps_total R S worst (f := fun _ => Fl.num 0) (dim := 4) (n := 100) (fun _ => trivial) (by decide) (by decide) (by decide) hel
  have ht : TotalOps (Individual.trait (List ℝ) ℝ)
      { rvcOps R S worst (fun _ => Fl.num 0) 4 100 elapsed with fitnessFn := trapFitness fun c => (TF.ackley c).map fun v => -v }
      (fun i => InUnitCube 4 i.chromosome) 100 :=
    h0.withFitness fun i hi => (trapFitness_returns (hval _ hi)).mono fun r hr => by
      rw [hr]
      exact ⟨hi, trivial⟩
  refine (run_minimises (f := flOf fun c => (TF.ackley c).map fun v => -v) (v := fun c => -valueOf TF.ackley c) ht (by decide) rfl _
    (fun i => (trapFitness_value (fun c => (TF.ackley c).map fun v => -v) i).mono fun r hr => hr.1) (fun i hi => ?_)).mono ?_
  · unfold flOf
    simp only [hval _ hi]
  · rintro r ⟨h1, h2, h3⟩
    obtain ⟨v, hv⟩ := ackley_ok (hne _ h1)
    refine ⟨h1, v, hv, fun pop hpop i hi => ?_⟩
    have hin : InUnitCube 4 i.chromosome := by
      unfold shownPops at hpop
      obtain ⟨e, he, hx⟩ := List.mem_filterMap.1 hpop
      have := h2 e he
      cases e <;> simp at hx
      all_goals
        subst hx
        exact this i hi
    obtain ⟨u, hu⟩ := ackley_ok (hne _ hin)
    refine ⟨u, hu, ?_⟩
    have := h3 pop hpop i hi
    rw [valueOf_ok hu, valueOf_ok hv] at this
    linarith

end

/-! ## Runs without new gene values -/

section loci
variable {W I C A F : Type} [LinearOrder F] {T : IndTrait I C F} {X : ChromOps I A}

/-- An invariant may depend on the initial population. -/
theorem run_from_initial (hset : ∀ i x, X.ch (T.setFitness i x) = X.ch i) {ops : Ops W I F}
    (hfit : ∀ i, IfReturns (ops.fitnessFn i) fun r => X.ch r.1 = X.ch i) {p : GAParams} {m0 : Metrics} {best : I} {tr : List (Ev I)}
    {w w' : W} (h : run T ops p m0 w = .ok ((best, tr), w')) {Q : List I → I → Prop}
    (hQ : ∀ pop0 wc pop, ops.generate p.populationSize w = .ok (pop0, wc) → List.Forall₂ (fun a b => X.ch b = X.ch a) pop0 pop →
      Closed T { ops with generate := fun _ _ => .ok (pop0, wc) } (Q pop)) :
    ∃ m pop0 wc pop, ops.generate p.populationSize w = .ok (pop0, wc) ∧ List.Forall₂ (fun a b => X.ch b = X.ch a) pop0 pop ∧
      Ev.onInitialPopulation m pop ∈ tr ∧ Q pop best ∧ ∀ e ∈ tr, EvAll (Q pop) e := by
  obtain ⟨s, wa, s', wb, d, h1, hl, -, hb, htr⟩ := run_ok _ _ p h
  obtain ⟨pop0, wc, wd, d0, g1, g2, g3, g4, g5, g6⟩ := prologue_ok _ _ p h1
  have hev : List.Forall₂ (fun a b : I => X.ch b = X.ch a) pop0 s.pop := by
    refine IfReturns.forEach pop0 (fun i _ => ?_) _ _ _ g2
    unfold evalOne
    split
    · exact IfReturns.bind (hfit i) fun r hr => IfReturns.pure (by rw [hset, hr])
    · exact IfReturns.pure rfl
  have hrun := run_generate_const T ops m0 g1
  rw [h] at hrun
  obtain ⟨r1, r2⟩ := (hQ pop0 wc s.pop g1 hev).run p hrun
  refine ⟨{ m0 with populationSize := pop0.length }, pop0, wc, s.pop, g1, hev, ?_, r1, r2⟩
  rw [htr]
  refine List.mem_append_left _ ?_
  have key := loop_inv T ops p
    (Inv := fun _ t => Ev.onInitialPopulation { m0 with populationSize := pop0.length } s.pop ∈ t.trace)
    (by
      intro g t w s' stop w' hi hit
      obtain ⟨d, wa, m, pop, wb, pool, wc, crossed, wd, mutated, we, children, wf, replaced, wg, m', wh, b,
        d', wi, -, -, -, -, -, -, -, -, -, -, -, -, -, -, -, -, htr⟩ := iteration_ok _ _ p hit
      rw [htr]
      simp [hi]) _ _ _ _ _ _ (by rw [g6]; simp) hl
  obtain ⟨k, -, hk⟩ := key
  exact hk

/-- Every gene of `i` occurs at the same locus in `pop`. -/
def FromLoci (X : ChromOps I A) (dim : Nat) (pop : List I) (i : I) : Prop :=
  (X.ch i).length = dim ∧ ∀ (k : Nat) (x : A), (X.ch i)[k]? = some x → ∃ j ∈ pop, (X.ch j)[k]? = some x

theorem fromLoci_locusWise {dim : Nat} {pop : List I} {a b c d : I} (ha : FromLoci X dim pop a) (hb : FromLoci X dim pop b)
    (h : LocusWise X a b c d) : FromLoci X dim pop c ∧ FromLoci X dim pop d := by
  obtain ⟨la, va⟩ := ha
  obtain ⟨lb, vb⟩ := hb
  obtain ⟨lc, ld, hg⟩ := h
  refine ⟨⟨by rw [lc, la], fun k x hx => ?_⟩, ⟨by rw [ld, la], fun k x hx => ?_⟩⟩
  · rcases hg k with ⟨e, -⟩ | ⟨e, -⟩
    · exact va k x (by rw [← e]; exact hx)
    · exact vb k x (by rw [← e]; exact hx)
  · rcases hg k with ⟨-, e⟩ | ⟨-, e⟩
    · exact vb k x (by rw [← e]; exact hx)
    · exact va k x (by rw [← e]; exact hx)

theorem getElem?_of_forall₂ {pop0 pop : List I} (h : List.Forall₂ (fun a b => X.ch b = X.ch a) pop0 pop) :
    ∀ i ∈ pop0, ∃ j ∈ pop, X.ch j = X.ch i := by
  induction h with
  | nil => simp
  | cons h1 _ ih =>
    intro i hi
    rcases List.mem_cons.1 hi with rfl | hi
    · exact ⟨_, by simp, h1⟩
    · obtain ⟨j, hj, e⟩ := ih i hi
      exact ⟨j, by simp [hj], e⟩

/-- A GA whose crossover exchanges genes locus by locus and whose mutation changes nothing searches only the grid spanned by the initial
population. -/
theorem run_loci (hset : ∀ i x, X.ch (T.setFitness i x) = X.ch i) {ops : Ops W I F} {dim : Nat}
    (hgen : ∀ n, IfReturns (ops.generate n) fun pop => ∀ i ∈ pop, (X.ch i).length = dim)
    (hfit : ∀ i, IfReturns (ops.fitnessFn i) fun r => r.1 = i)
    (hsel : ∀ m pop, IfReturns (ops.select m pop) fun pool => ∀ i ∈ pool, i ∈ pop)
    (hcross : ∀ m pool, (∀ i ∈ pool, (X.ch i).length = dim) → IfReturns (ops.cross m pool) (PairsRel (LocusWise X) pool))
    (hmut : ∀ m i, IfReturns (ops.mutate m i) fun j => X.ch j = X.ch i)
    (hrep : ∀ m pop children, IfReturns (ops.replace m pop children) fun out => ∀ i ∈ out, i ∈ pop ∨ i ∈ children)
    {p : GAParams} {m0 : Metrics} {best : I} {tr : List (Ev I)} {w w' : W} (h : run T ops p m0 w = .ok ((best, tr), w')) :
    ∃ m pop, Ev.onInitialPopulation m pop ∈ tr ∧ FromLoci X dim pop best ∧ ∀ e ∈ tr, EvAll (FromLoci X dim pop) e := by
  obtain ⟨m, pop0, wc, pop, -, -, h1, h2, h3⟩ := run_from_initial (X := X) hset (fun i => (hfit i).mono fun r hr => by rw [hr]) h
    (Q := FromLoci X dim) (fun pop0 wc pop hg hev =>
      { set := fun i x hi => by
          unfold FromLoci at hi ⊢
          rw [hset]
          exact hi
        gen := fun _ v a v' hv => by
          cases hv
          intro i hi
          refine ⟨hgen _ _ _ _ hg i hi, fun k x hx => ?_⟩
          obtain ⟨j, hj, e⟩ := getElem?_of_forall₂ hev i hi
          exact ⟨j, hj, by rw [e]; exact hx⟩
        fit := fun i hi => (hfit i).mono fun r hr => by rw [hr]; exact hi
        sel := fun m q hq => (hsel m q).mono fun pool hp i hi => hq i (hp i hi)
        cross := fun m pool hp => (hcross m pool fun i hi => (hp i hi).1).mono fun out ho =>
          pairsRel_all ho hp fun a b c d ha hb hq => fromLoci_locusWise ha hb hq
        mutate := fun m i hi => (hmut m i).mono fun j hj => by
          unfold FromLoci at hi ⊢
          rw [hj]
          exact hi
        replace := fun m q ch hq hc => (hrep m q ch).mono fun out ho i hi => (ho i hi).elim (hq i) (hc i) })
  exact ⟨m, pop, h1, h2, h3⟩

end loci

/-! ## examples/ga.rs -/

section
variable {W G : Type} (R : Rng G ℝ) (S : Slots W G) (worst : Fl ℝ)

theorem boltzmannApply_members {I : Type} (H : HeapOrder) (alpha temp0 : ℝ) (maxGen count : Nat) (fitness : I → Ext ℝ) (m : Metrics) (pop : List I) :
    IfReturns (boltzmannApply R H alpha temp0 maxGen count fitness m pop) fun sel => ∀ x ∈ sel, x ∈ pop :=
  IfReturns.bind IfReturns.trivial fun _ _ => forEach_idx_ifReturns.mono fun _ hs => hs.mem

/-- A GA on real vectors with `Boltzmann` selection of the whole population. -/
theorem boltzmannOps_total {elapsed : M W Nat} (hel : Returns elapsed fun _ => True) (H : HeapOrder) {alpha temp0 : ℝ}
    (hok : BoltzmannOk alpha temp0) (ha : alpha < 1) {maxGen : Nat} (hm : 0 < maxGen) {n dim : Nat} (hn : 0 < n) (heven : n % 2 = 0)
    {f : List ℝ → TF.R} (hf : ∀ c : List ℝ, c.length = dim → ∃ v, f c = .ok v) {cs : List (ℝ × ℝ)} {rp : RandomPoints ℝ} {g0 g1 : G}
    (hnew : RandomPoints.withConstraints dim cs g0 = .ok (rp, g1)) {cr : Crossover ℝ} (hcr : cr.isLocus = true) (hfits : cr.fits dim)
    {mu : Mutation ℝ} (hs : BoxSafe cs mu) (re : Replacement) (debug : Bool) :
    TotalOps (Individual.trait (List ℝ) ℝ) (boltzmannOps R S worst elapsed H alpha temp0 maxGen n f rp cr mu re debug)
      (InBox (Individual.chromOps ℝ worst) cs) n := by
  have hd := (C37_random_points_new dim cs g0).1 ⟨_, hnew⟩
  have hlen : ∀ i : RealInd, InBox (Individual.chromOps ℝ worst) cs i → i.chromosome.length = dim := fun i hi => by
    rw [hd.2]
    exact hi.length_eq.symm
  exact
    { eval := fun _ => rfl
      set := fun i x h => h
      gen := S.gen.run_returns ((C37_random_points R (Individual.chromOps ℝ worst) hnew).mono fun _ h => ⟨h.1, fun i hi => (h.2 i hi).2⟩)
      fit := fun i h => by
        obtain ⟨v, hv⟩ := hf _ (hlen i h)
        exact (trapFitness_returns hv).mono fun r hr => by rw [hr]; exact ⟨h, trivial⟩
      sel := fun m pop hl hP hnum => S.sel.run_returns fun g => by
        obtain ⟨sel, g', e1, e2, -⟩ := (C138_panics (R := R) (H := H) hok maxGen n (fun i : RealInd => Fl.ext i.fitness) m pop).2 (by
          rintro ⟨-, h | ⟨i, hi, h⟩ | ⟨h, -⟩ | ⟨⟨-, h⟩ | ⟨h, -⟩, -⟩⟩
          · omega
          · have := hnum i hi
            have h' : Fl.ext i.fitness = .nan := h
            cases e : i.fitness with
            | num v => rw [e] at h'; cases h'
            | nan =>
              have e' : (Individual.trait (List ℝ) ℝ).fitness i = .nan := e
              rw [e'] at this
              exact this
          · omega
          · linarith
          · omega) g
        exact ⟨sel, g', e1, e2, fun i hi => hP i (boltzmannApply_members R H _ _ _ _ _ m pop g sel g' e1 i hi)⟩
      cross := fun m pool hl hP => S.cross.run_returns
        ((locusCross_returns R (Individual.chromOps ℝ worst) hcr hd.1 hfits (fun i hi => hlen i (hP i hi)) (by omega)).mono fun out h =>
          ⟨by rw [h.length, hl], pairsRel_all h hP fun a b c d ha hb hq => inBox_locusWise ha hb hq⟩)
      mutate := fun m i h => S.mutate.run_returns fun g => by
        obtain ⟨j, g', e1, -⟩ := C25_reordering_mutations_return R (Individual.chromOps ℝ worst) mu i
          (by rw [show ((Individual.chromOps ℝ worst).ch i).length = dim from hlen i h]; exact hd.1) g
        exact ⟨j, g', e1, mutate_inBox hs h g j g' e1⟩
      replace := fun m pop children hl1 hl2 hp1 hp2 hn1 hn2 => by
        cases re with
        | bothParents => exact Returns.pure ⟨hl2, hp2⟩
        | noop => exact Returns.pure ⟨hl1, hp1⟩
        | weakParent =>
          intro w
          obtain ⟨out, w', h1, h2⟩ := C35_weak_parent (W := W) (Individual.trait (List ℝ) ℝ) (debug := debug) (pop := pop)
            (children := children) (by omega) (by omega) (by omega) hn1 (hn2 rfl) w
          refine ⟨out, w', h1, by rw [h2.1, hl1], ?_⟩
          intro i hi
          rcases (C35_weak_parent_members _ w out w' h1).2 i hi with h | h
          · exact hp1 i h
          · exact hp2 i h
      elapsed := hel }

/-- **C139, Boltzmann GAs.** A GA on real vectors made of RandomPoints, `Boltzmann` selecting as many individuals as the (even, positive)
population has with `alpha < 1` and `max_gen_count > 0`, a fitting locus-wise crossover, Identity and any replacement never
panics, however many generations it runs – also beyond `max_gen_count`. -/
theorem C139_boltzmann_returns {elapsed : M W Nat} (hel : Returns elapsed fun _ => True) (H : HeapOrder) {alpha temp0 : ℝ}
    (hok : BoltzmannOk alpha temp0) (ha : alpha < 1) {maxGen : Nat} (hm : 0 < maxGen) {n dim : Nat} (hn : 0 < n) (heven : n % 2 = 0)
    {f : List ℝ → TF.R} (hf : ∀ c : List ℝ, c.length = dim → ∃ v, f c = .ok v) {cs : List (ℝ × ℝ)} {rp : RandomPoints ℝ} {g0 g1 : G}
    (hnew : RandomPoints.withConstraints dim cs g0 = .ok (rp, g1)) {cr : Crossover ℝ} (hcr : cr.isLocus = true) (hfits : cr.fits dim)
    (re : Replacement) (debug : Bool) {p : GAParams} (hp : p.populationSize = n) (m0 : Metrics) :
    Returns (run (Individual.trait (List ℝ) ℝ) (boltzmannOps R S worst elapsed H alpha temp0 maxGen n f rp cr .identity re debug) p m0)
      fun r => (∃ v, f r.1.chromosome = .ok v ∧ ∀ pop ∈ shownPops r.2, ∀ i ∈ pop, ∃ u, f i.chromosome = .ok u ∧ v ≤ u) ∧
        InBox (Individual.chromOps ℝ worst) cs r.1 ∧
        ∃ m pop, Ev.onInitialPopulation m pop ∈ r.2 ∧ FromLoci (Individual.chromOps ℝ worst) dim pop r.1 ∧
          ∀ e ∈ r.2, EvAll (FromLoci (Individual.chromOps ℝ worst) dim pop) e := by
  have hd := (C37_random_points_new dim cs g0).1 ⟨_, hnew⟩
  have hlen : ∀ i : RealInd, InBox (Individual.chromOps ℝ worst) cs i → i.chromosome.length = dim := fun i hi => by
    rw [hd.2]
    exact hi.length_eq.symm
  have ht := boltzmannOps_total R S worst hel H hok ha hm hn heven hf hnew hcr hfits (.inl rfl) re debug
  have hval : ∀ i : RealInd, InBox (Individual.chromOps ℝ worst) cs i → f i.chromosome = .ok (valueOf f i.chromosome) := fun i hi => by
    obtain ⟨v, hv⟩ := hf _ (hlen i hi)
    rw [valueOf_ok hv, hv]
  have hmut : ∀ i : RealInd, IfReturns (applyMutation (Individual.chromOps ℝ worst) (Mutation.identity.run R) i)
      fun j => (Individual.chromOps ℝ worst).ch j = (Individual.chromOps ℝ worst).ch i := by
    intro i
    unfold applyMutation
    show IfReturns (identityMut ((Individual.chromOps ℝ worst).ch i) >>= fun c => pure ((Individual.chromOps ℝ worst).setCh i c)) _
    unfold identityMut
    rw [pure_bind]
    exact IfReturns.pure ((Individual.chromOps ℝ worst).ch_setCh _ _)
  intro w
  obtain ⟨r, w', h, h1, h2, h3⟩ := run_minimises (f := flOf f) (v := valueOf f) ht hn hp m0
    (fun i => (trapFitness_value f i).mono fun r hr => hr.1) (fun i hi => by unfold flOf; rw [hval i hi]) w
  refine ⟨r, w', h, ⟨_, hval _ h1, fun pop hpop i hi => ⟨valueOf f i.chromosome, hval i ?_, h3 pop hpop i hi⟩⟩, h1, ?_⟩
  · unfold shownPops at hpop
    obtain ⟨e, he, hx⟩ := List.mem_filterMap.1 hpop
    have := h2 e he
    cases e <;> simp at hx
    all_goals
      subst hx
      exact this i hi
  · refine run_loci (X := Individual.chromOps ℝ worst) (fun _ _ => rfl)
      (fun k => S.gen.run_ifReturns ((C37_random_points R (Individual.chromOps ℝ worst) hnew).ifReturns.mono fun _ h i hi => (h.2 i hi).1))
      (fun i => (trapFitness_value f i).mono fun r hr => hr.2)
      (fun m pop => S.sel.run_ifReturns (boltzmannApply_members R H _ _ _ _ _ m pop))
      (fun m pool hp => S.cross.run_ifReturns (locusCross_ifReturns R (Individual.chromOps ℝ worst) hcr hd.1 hp))
      (fun m i => S.mutate.run_ifReturns (hmut i))
      (fun m pop children => replacement_members _ re debug pop children) h

/-- **C139, examples/ga.rs.** The program never panics, though it runs a hundred times as many generations as it tells `Boltzmann`. What it
prints is a point of the box at which the Rastrigin function is at least as *large* as at any individual it ever saw, and each
coordinate of every individual it ever saw is that coordinate of a member of the initial population. -/
theorem C139_ga {elapsed : M W Nat} (hel : Returns elapsed fun _ => True) (H : HeapOrder) (debug : Bool) :
    Returns (gaMain R S worst elapsed H debug) fun r =>
      (∀ x ∈ r.1.chromosome, -5.12 ≤ x ∧ x < 5.12) ∧ r.1.chromosome.length = 3 ∧
      (∃ v, TF.rastrigin r.1.chromosome = .ok v ∧ ∀ pop ∈ shownPops r.2, ∀ i ∈ pop, ∃ u, TF.rastrigin i.chromosome = .ok u ∧ u ≤ v) ∧
      ∃ m pop, Ev.onInitialPopulation m pop ∈ r.2 ∧ ∀ e ∈ r.2, EvAll (FromLoci (Individual.chromOps ℝ worst) 3 pop) e := by
  unfold gaMain
  intro w
  have e1 : S.gen.run (RandomPoints.withConstraints 3 [((-5.12 : ℝ), (5.12 : ℝ)), (-5.12, 5.12), (-5.12, 5.12)]) w =
      .ok (⟨3, [(-5.12, 5.12), (-5.12, 5.12), (-5.12, 5.12)]⟩, S.gen.put (S.gen.get w) w) := rfl
  have e2 : ∀ w, S.sel.run (boltzmannNew (5 : ℝ) 100 0.05 80) w = .ok ((0.05, 80), S.sel.put (S.sel.get w) w) := by
    intro w
    unfold Slot.run boltzmannNew
    have h1 : (decide ((0 : ℝ) ≤ 0.05) && decide ((0.05 : ℝ) ≤ 1)) = true := by norm_num
    have h2 : (decide ((5 : ℝ) ≤ 80) && decide ((80 : ℝ) ≤ 100)) = true := by norm_num
    rw [h1, h2]
    rfl
  rw [M.bind_of_ok e1, M.bind_of_ok (e2 _)]
  obtain ⟨r, w', h, ⟨v, hv, hmin⟩, hbox, m, pop, h1, -, h3⟩ := C139_boltzmann_returns R S worst hel H (alpha := 0.05) (temp0 := 80)
    ⟨by norm_num, by norm_num, by norm_num, by norm_num⟩ (by norm_num) (maxGen := 500) (by norm_num) (n := 100) (dim := 3) (by norm_num)
    (by norm_num) (f := fun c => (TF.rastrigin c).map fun v => 1000 * Real.exp (-v)) (fun c hc => by
      rw [localRastrigin_eq (by rintro rfl; cases hc)]
      exact ⟨_, rfl⟩)
    (cs := [(-5.12, 5.12), (-5.12, 5.12), (-5.12, 5.12)]) (rp := ⟨3, [(-5.12, 5.12), (-5.12, 5.12), (-5.12, 5.12)]⟩) (g0 := S.gen.get w)
    (g1 := S.gen.get w) rfl (cr := .singlePoint) rfl trivial .weakParent debug (p := ⟨100, 50000, durationMax⟩) rfl ⟨0, 100, none⟩
    (S.sel.put (S.sel.get (S.gen.put (S.gen.get w) w)) (S.gen.put (S.gen.get w) w))
  refine ⟨r, w', h, ?_, hbox.length_eq.symm, ?_, m, pop, h1, h3⟩
  · have key : ∀ (cs : List (ℝ × ℝ)) (c : List ℝ), (∀ x ∈ cs, x = ((-5.12 : ℝ), (5.12 : ℝ))) → List.Forall₂ Within cs c →
        ∀ x ∈ c, -5.12 ≤ x ∧ x < 5.12 := by
      intro cs c hcs h
      induction h with
      | nil => simp
      | @cons a b l1 l2 h1 _ ih =>
        intro x hx
        rcases List.mem_cons.1 hx with rfl | hx
        · rw [hcs a (by simp)] at h1
          exact ⟨(h1.1 (by norm_num)).1, h1.2 (by norm_num)⟩
        · exact ih (fun y hy => hcs y (by simp [hy])) x hx
    exact key _ _ (by simp) hbox
  · have hval : ∀ (c : List ℝ) (v : ℝ), (TF.rastrigin c).map (fun v => 1000 * Real.exp (-v)) = .ok v →
        ∃ u, TF.rastrigin c = .ok u ∧ v = 1000 * Real.exp (-u) := by
      intro c v h
      cases e : TF.rastrigin c with
      | ok u =>
        rw [e] at h
        exact ⟨u, rfl, (Except.ok.inj h).symm⟩
      | error _ =>
        rw [e] at h
        cases h
    obtain ⟨v', hv', ev⟩ := hval _ _ hv
    refine ⟨v', hv', fun pop hpop i hi => ?_⟩
    obtain ⟨u, hu, hle⟩ := hmin pop hpop i hi
    obtain ⟨u', hu', eu⟩ := hval _ _ hu
    refine ⟨u', hu', ?_⟩
    rw [ev, eu] at hle
    have := Real.exp_le_exp.1 (le_of_mul_le_mul_left hle (by norm_num))
    linarith

end

/-! ## Concrete cases -/

/-- examples/ga_bsc.rs with the tape generator, ten seconds and a clock that stands still. -/
example : Returns (gaBscMain tapeRng (oneGenerator _) (.num 0) (pure 0) (.setMaxDuration (10 * 10 ^ 9))) fun r => r.1.chromosome.length = 10 :=
  (C139_bsc tapeRng _ _ (.time _) (Returns.pure trivial)).mono fun _ h => h.1

/-- The same bounded by generations. -/
example : Filter.Tendsto (fun k => chance tapeLaw (gaBscMain tapeRng (oneGenerator _) (.num 0) (pure 0) (.setMaxGenerationCount k))
    fun r => r.1.chromosome = List.replicate 10 false) Filter.atTop (nhds 1) :=
  (C139_bsc_limit tapeRng_ideal (.num 0) (.pure 0) (Returns.pure (by decide))).1

/-- examples/ga.rs with the tape generator. -/
example : Returns (gaMain tapeRng (oneGenerator _) (.num 0) (pure 0) sortOrder true) fun r => r.1.chromosome.length = 3 :=
  (C139_ga tapeRng _ _ (Returns.pure trivial) sortOrder true).mono fun _ h => h.2.1

/-! ## Every theorem on a concrete case -/

section instances
example := C139_rvc tapeRng (oneGenerator _) (.num 0) (elapsed := pure 0) (Returns.pure trivial) true
example := C139_ackley tapeRng (oneGenerator _) (.num 0) (elapsed := pure 0) (Returns.pure trivial) true
end instances

end Ecrs.Ga
