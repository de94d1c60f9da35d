import Verif.Props.ProbConverge
import Verif.Props.JsspConverge
import Mathlib.MeasureTheory.Integral.Lebesgue.Countable
import Mathlib.Data.Real.ENatENNReal

/-!
# C175: how long one has to wait for the optimum

`waiting m Q g` is the least number of generations `k` after which the program `m k`, started from the state `g`, returns a result
satisfying `Q` (infinite if there is none).  Its average over the ideal draws is bounded.
-/

set_option linter.unusedSectionVars false

namespace Ecrs
open MeasureTheory
open scoped ENNReal

section
variable {G α : Type} [MeasurableSpace G] {μ : Measure G}

/-- Specification: the least `k` for which `m k` returns a result with `Q` from the state `g`. -/
noncomputable def waiting (m : Nat → M G α) (Q : α → Prop) (g : G) : ℕ∞ :=
  ⨅ k ∈ {k : Nat | ∃ a g', m k g = .ok (a, g') ∧ Q a}, (k : ℕ∞)

theorem waiting_le {m : Nat → M G α} {Q : α → Prop} {g : G} {k : Nat} {a : α} {g' : G} (h : m k g = .ok (a, g')) (hq : Q a) :
    waiting m Q g ≤ k := iInf₂_le k ⟨a, g', h, hq⟩

/-- If the programs have laws, the waiting time is a random variable. -/
theorem C175_measurable [IsProbabilityMeasure μ] {m : Nat → M G α} (hl : ∀ k, HasLaw μ (m k)) (Q : α → Prop) :
    Measurable fun g => (waiting m Q g : ℝ≥0∞) := by
  classical
  have e : (fun g => (waiting m Q g : ℝ≥0∞)) =
      fun g => ⨅ k : Nat, if g ∈ {g | ∃ a g', m k g = .ok (a, g') ∧ Q a} then (k : ℝ≥0∞) else ⊤ := by
    funext g
    refine le_antisymm (le_iInf fun k => ?_) ?_
    · split
      · next h =>
        obtain ⟨a, g', h1, h2⟩ := h
        exact_mod_cast ENat.toENNReal_mono (waiting_le h1 h2)
      · exact le_top
    · rcases e : waiting m Q g with _ | n
      · exact le_top
      · have hmem : ∃ k : Nat, k ≤ n ∧ ∃ a g', m k g = .ok (a, g') ∧ Q a := by
          by_contra hn
          push Not at hn
          have : ((n + 1 : Nat) : ℕ∞) ≤ waiting m Q g := le_iInf₂ fun k ⟨a, g', h1, h2⟩ => by
            have : n < k := by
              by_contra hk
              exact hn k (not_lt.1 hk) a g' h1 h2
            exact_mod_cast this
          rw [e] at this
          have : n + 1 ≤ n := ENat.natCast_le_natCast.1 this
          omega
        obtain ⟨k, hk, h⟩ := hmem
        refine (iInf_le _ k).trans ?_
        rw [if_pos (show g ∈ {g | ∃ a g', m k g = .ok (a, g') ∧ Q a} from h)]
        show (k : ℝ≥0∞) ≤ n
        exact_mod_cast hk
  rw [e]
  exact .iInf fun k => Measurable.ite ((hl k).measurable Q) measurable_const measurable_const

/-- The average waiting time is at most the sum of the probabilities of not having succeeded after `k` generations. -/
theorem average_waiting_le [IsProbabilityMeasure μ] {m : Nat → M G α} {Q : α → Prop}
    (hr : ∀ k, Returns (m k) fun _ => True) :
    ∫⁻ g, (waiting m Q g : ℝ≥0∞) ∂μ ≤ ∑' k, chance μ (m k) fun a => ¬ Q a := by
  set E : Nat → Set G := fun k => toMeasurable μ {g | ∃ a g', m k g = .ok (a, g') ∧ ¬ Q a} with hE
  have hm : ∀ k, MeasurableSet (E k) := fun k => measurableSet_toMeasurable _ _
  have hc : ∀ k, chance μ (m k) (fun a => ¬ Q a) = ∫⁻ g, (E k).indicator (fun _ => (1 : ℝ≥0∞)) g ∂μ := fun k =>
    ((lintegral_indicator_one (hm k)).trans (measure_toMeasurable _)).symm
  simp only [hc]
  rw [← lintegral_tsum fun k => (measurable_const.indicator (hm k)).aemeasurable]
  refine lintegral_mono fun g => ?_
  have key : ∀ n : Nat, (n : ℕ∞) ≤ waiting m Q g → (n : ℝ≥0∞) ≤ ∑' k, (E k).indicator (fun _ => (1 : ℝ≥0∞)) g := by
    intro n hn
    refine le_trans ?_ (ENNReal.sum_le_tsum (Finset.range n))
    have : ∀ k ∈ Finset.range n, (1 : ℝ≥0∞) ≤ (E k).indicator (fun _ => (1 : ℝ≥0∞)) g := by
      intro k hk
      obtain ⟨a, g', ha, -⟩ := hr k g
      by_cases hq : Q a
      · have := hn.trans (waiting_le ha hq)
        have hk' := Finset.mem_range.1 hk
        have : n ≤ k := by exact_mod_cast this
        omega
      · rw [Set.indicator_of_mem (subset_toMeasurable μ _ (show g ∈ {g | ∃ a g', m k g = .ok (a, g') ∧ ¬ Q a} from ⟨a, g', ha, hq⟩))]
    calc (n : ℝ≥0∞) = ∑ k ∈ Finset.range n, (1 : ℝ≥0∞) := by simp
      _ ≤ _ := Finset.sum_le_sum this
  show ((waiting m Q g : ℕ∞) : ℝ≥0∞) ≤ _
  rcases e : waiting m Q g with _ | n
  · have hall : ∀ n : Nat, (n : ℝ≥0∞) ≤ ∑' k, (E k).indicator (fun _ => (1 : ℝ≥0∞)) g := fun n => key n (by rw [e]; exact le_top)
    have : ∑' k, (E k).indicator (fun _ => (1 : ℝ≥0∞)) g = ⊤ := by
      by_contra hne
      obtain ⟨n, hn⟩ := ENNReal.exists_nat_gt hne
      exact absurd (hall n) (not_le.2 hn)
    rw [this]; exact le_top
  · exact key n e.ge

/-- A finite average: almost every sequence of draws succeeds after finitely many generations. -/
theorem almost_surely_found [IsProbabilityMeasure μ] {m : Nat → M G α} {Q : α → Prop}
    (hr : ∀ k, Returns (m k) fun _ => True) (hf : ∑' k, chance μ (m k) (fun a => ¬ Q a) ≠ ⊤) :
    ∀ᵐ g ∂μ, ∃ k a g', m k g = .ok (a, g') ∧ Q a := by
  have h0 : μ (Set.iInter fun k => {g | ∃ a g', m k g = .ok (a, g') ∧ ¬ Q a}) = 0 := by
    have ht := ENNReal.tendsto_atTop_zero_of_tsum_ne_top hf
    refine le_antisymm (ge_of_tendsto' ht fun k => ?_) zero_le
    exact measure_mono (Set.iInter_subset _ k)
  filter_upwards [compl_mem_ae_iff.2 h0] with g hg
  by_contra hn
  refine hg (Set.mem_iInter.2 fun k => ?_)
  obtain ⟨a, g', ha, -⟩ := hr k g
  exact ⟨a, g', ha, fun hq => hn ⟨k, a, g', ha, hq⟩⟩

/-- The average of a waiting time whose failures decay like `(1 - q) ^ (n k)`. -/
theorem geometric_le {q : ℝ} (h0 : 0 < q) (h1 : q ≤ 1) {n : Nat} (hn : 0 < n) :
    ∑' k : Nat, (1 - ENNReal.ofReal q) ^ (n * k) ≤ 1 + ENNReal.ofReal (q⁻¹ / n) := by
  have e : (1 : ℝ≥0∞) - ENNReal.ofReal q = ENNReal.ofReal (1 - q) := by
    rw [ENNReal.ofReal_sub _ h0.le, ENNReal.ofReal_one]
  have hn' : (0 : ℝ) < n := by exact_mod_cast hn
  have hp0 : 0 ≤ (1 - q) ^ n := pow_nonneg (by linarith) n
  have hb : (1 - q) ^ n * (1 + n * q) ≤ 1 := by
    have hbern : 1 + n * q ≤ (1 + q) ^ n := by
      have := one_add_mul_le_pow (a := q) (by linarith) n
      linarith
    calc (1 - q) ^ n * (1 + n * q) ≤ (1 - q) ^ n * (1 + q) ^ n := by gcongr
      _ = (1 - q ^ 2) ^ n := by rw [← mul_pow]; ring_nf
      _ ≤ 1 := pow_le_one₀ (by nlinarith) (by nlinarith)
  have hnq : 0 < n * q := mul_pos hn' h0
  have hlt : (1 - q) ^ n < 1 := by nlinarith
  simp only [pow_mul, ENNReal.tsum_geometric]
  rw [e, ← ENNReal.ofReal_pow (by linarith), ← ENNReal.ofReal_one, ← ENNReal.ofReal_sub _ hp0,
    ← ENNReal.ofReal_inv_of_pos (by linarith), ← ENNReal.ofReal_add zero_le_one (by positivity)]
  refine ENNReal.ofReal_le_ofReal ?_
  rw [inv_le_comm₀ (by linarith) (by positivity)]
  have : (1 + q⁻¹ / n : ℝ)⁻¹ = n * q / (1 + n * q) := by field_simp; ring
  rw [this, div_le_iff₀ (by positivity)]
  nlinarith

end

end Ecrs

namespace Ecrs.Ga
open Ecrs Ecrs.Props MeasureTheory
open scoped ENNReal

section
variable {G F : Type} [MeasurableSpace G] [LinearOrder F] {R : Rng G ℝ} {μ : Measure G}

/-- **C175, bit strings.** The bit-string preset waits for a global minimum, on average over the draws, at most `1 + 20 ^ dim / n`
generations (`n` individuals), whatever the objective function; and with probability one it does find it. -/
theorem C175_bit_strings (hR : Ideal R μ) (worst : Fl F) {f : List Bool → Fl F} (hf : ∀ c, (f c).IsNum) {dim n : Nat}
    (hd : 0 < dim) (hn : 0 < n) (he : n % 2 = 0) {elapsed : M G Nat} (hlaw : HasLaw μ elapsed) {p : GAParams}
    (hp : p.populationSize = n) (hel : Returns elapsed fun t => t < p.maxDuration) (m0 : Metrics) :
    ∫⁻ g, (waiting (fun generations => run (Individual.trait (List Bool) F) (bscOps R (oneGenerator G) worst f dim n elapsed)
        { p with generationLimit := generations } m0) (fun r => ∀ c : List Bool, c.length = dim → Fl.Le r.1.fitness (f c)) g : ℝ≥0∞) ∂μ
      ≤ 1 + ENNReal.ofReal (20 ^ dim / n) ∧
    ∀ᵐ g ∂μ, ∃ generations r g', run (Individual.trait (List Bool) F) (bscOps R (oneGenerator G) worst f dim n elapsed)
        { p with generationLimit := generations } m0 g = .ok (r, g') ∧ ∀ c : List Bool, c.length = dim → Fl.Le r.1.fitness (f c) := by
  have := hR.isProbability
  obtain ⟨c, hc, hmin⟩ : ∃ c : List Bool, c.length = dim ∧ ∀ d : List Bool, d.length = dim → Fl.Le (f c) (f d) := by
    have hnum : ∀ c, ∃ v, f c = .num v := fun c => by
      have := hf c
      cases e : f c with
      | num v => exact ⟨v, rfl⟩
      | nan => rw [e] at this; exact this.elim
    choose v hv using hnum
    have hne : (List.finite_length_eq Bool dim).toFinset.Nonempty := ⟨List.replicate dim true, by simp⟩
    obtain ⟨c, hc, hmin⟩ := Finset.exists_min_image _ v hne
    refine ⟨c, by simpa using hc, fun d hd => ?_⟩
    rw [hv, hv]
    exact hmin d (by simpa using hd)
  have hr := fun k => ((bscOps_total R (oneGenerator G) worst hf hd hn he (hel.mono fun _ _ => trivial)).run
    { p with generationLimit := k } hn hp m0).mono fun _ _ => trivial
  have hs : ∑' k, chance μ (run (Individual.trait (List Bool) F) (bscOps R (oneGenerator G) worst f dim n elapsed)
      { p with generationLimit := k } m0) (fun r => ¬ ∀ c : List Bool, c.length = dim → Fl.Le r.1.fitness (f c)) ≤
      1 + ENNReal.ofReal (20 ^ dim / n) := by
    refine (ENNReal.tsum_le_tsum fun k => ?_).trans ((geometric_le (q := (1 / 20) ^ dim) (by positivity)
      (pow_le_one₀ (by norm_num) (by norm_num)) hn).trans (le_of_eq ?_))
    · refine (chance_mono fun r hr' => ?_).trans (C135_bit_string_rate hR worst hf hd hn he hlaw
        (p := { p with generationLimit := k }) hp hel m0 hc)
      exact fun hle => hr' fun d hd => hle.trans (hmin d hd)
    · congr 3
      rw [one_div, inv_pow, inv_inv]
  exact ⟨(average_waiting_le hr).trans hs, almost_surely_found hr (ne_top_of_le_ne_top (by simp) hs)⟩

end

section
variable {G A F : Type} [MeasurableSpace G] [DecidableEq A] [LinearOrder F] {R : FRng G ℝ} {μ : Measure G}

/-- **C175, permutations.** The permutation GAs of C135 with a positive mutation rate wait for a global minimum, on average over the draws,
at most `1 + (len / rate) ^ len / n` generations; and with probability one they do find it. -/
theorem C175_permutations (hR : Ideal R.toRng μ) (worst : Fl F) {f : List A → Fl F} (hf : ∀ c, (f c).IsNum)
    (fit : Individual (List A) F → ℝ) (half : ℝ) {fuel n : Nat} {genes : List A}
    {sel : Selection ℝ (Individual (List A) F)} (hsel : PlainSelection fit sel)
    {cr : Crossover ℝ} (hcr : cr = .ordered ∨ cr = .pmx ∨ cr = .ppx) {rate : ℝ} (hr0 : 0 < rate) (hr1 : rate ≤ 1)
    (debug : Bool) {elapsed : M G Nat} (hlaw : HasLaw μ elapsed) {p : GAParams} (hp : p.populationSize = n)
    (hel : Returns elapsed fun t => t < p.maxDuration) (hg : genes.Nodup) (h0 : 0 < genes.length)
    (hfuel : genes.length ≤ fuel) (hpos : 0 < n) (heven : n % 2 = 0) (m0 : Metrics) :
    ∫⁻ g, (waiting (fun generations => run (Individual.trait (List A) F) (permOps R (Individual.trait (List A) F)
        (Individual.chromOps A worst) (oneGenerator G) f fit half fuel n genes sel cr (.interchange rate) .bothParents debug elapsed)
        { p with generationLimit := generations } m0) (fun r => ∀ c : List A, c.Perm genes → Fl.Le r.1.fitness (f c)) g : ℝ≥0∞) ∂μ
      ≤ 1 + ENNReal.ofReal ((genes.length / rate) ^ genes.length / n) ∧
    ∀ᵐ g ∂μ, ∃ generations r g', run (Individual.trait (List A) F) (permOps R (Individual.trait (List A) F)
        (Individual.chromOps A worst) (oneGenerator G) f fit half fuel n genes sel cr (.interchange rate) .bothParents debug elapsed)
        { p with generationLimit := generations } m0 g = .ok (r, g') ∧ ∀ c : List A, c.Perm genes → Fl.Le r.1.fitness (f c) := by
  have := hR.isProbability
  obtain ⟨c, hc, hmin⟩ : ∃ c : List A, c.Perm genes ∧ ∀ d : List A, d.Perm genes → Fl.Le (f c) (f d) := by
    have hnum : ∀ c, ∃ v, f c = .num v := fun c => by
      have := hf c
      cases e : f c with
      | num v => exact ⟨v, rfl⟩
      | nan => rw [e] at this; exact this.elim
    choose v hv using hnum
    have hne : genes.permutations.toFinset.Nonempty := ⟨genes, by simp⟩
    obtain ⟨c, hc, hmin⟩ := Finset.exists_min_image _ v hne
    refine ⟨c, by simpa using hc, fun d hd => ?_⟩
    rw [hv, hv]
    exact hmin d (by simpa using hd)
  have hr := fun k => ((permOps_total (R := R) worst hf fit half hsel hcr rate debug (hel.mono fun _ _ => trivial) hg h0 hfuel
    hpos heven (oneGenerator G)).run { p with generationLimit := k } hpos hp m0).mono fun _ _ => trivial
  have hL : (0 : ℝ) < genes.length := by exact_mod_cast h0
  have hL1 : (1 : ℝ) ≤ genes.length := by exact_mod_cast h0
  have hs : ∑' k, chance μ (run (Individual.trait (List A) F) (permOps R (Individual.trait (List A) F)
      (Individual.chromOps A worst) (oneGenerator G) f fit half fuel n genes sel cr (.interchange rate) .bothParents debug elapsed)
      { p with generationLimit := k } m0) (fun r => ¬ ∀ c : List A, c.Perm genes → Fl.Le r.1.fitness (f c)) ≤
      1 + ENNReal.ofReal ((genes.length / rate) ^ genes.length / n) := by
    refine (ENNReal.tsum_le_tsum fun k => ?_).trans ((geometric_le (q := (rate / genes.length) ^ genes.length) (by positivity)
      (pow_le_one₀ (by positivity) (by rw [div_le_one hL]; linarith)) hpos).trans (le_of_eq ?_))
    · have h2 := (chance_mono (μ := μ) fun r (hr' : ¬ ∀ c : List A, c.Perm genes → Fl.Le r.1.fitness (f c)) =>
        fun hle => hr' fun d hd => Fl.Le.trans hle (hmin d hd)).trans (C135_permutation_rate hR worst hf fit half hsel hcr hr0.le hr1
          debug hlaw (p := { p with generationLimit := k }) hp hel hg h0 hfuel hpos heven m0 hc)
      refine h2.trans (le_of_eq ?_)
      rw [ENNReal.ofReal_pow (by positivity), ENNReal.ofReal_div_of_pos hL, ENNReal.ofReal_natCast]
    · congr 3
      rw [← inv_pow, inv_div]
  exact ⟨(average_waiting_le hr).trans hs, almost_surely_found hr (ne_top_of_le_ne_top (by simp) hs)⟩

end

end Ecrs.Ga

namespace Ecrs.Jssp
open Ecrs MeasureTheory
open Ecrs.Ga (GAParams Metrics)
open scoped ENNReal

section
variable {G : Type} [MeasurableSpace G] {μ : Measure G} {R : Rng G ℝ} {jobs : Jobs} {nM worst : Nat} {ops : List Operation}

/-- A run that misses a describable value with geometrically decaying probability waits finitely long for the best one. -/
theorem waiting_least (hμ : IsProbabilityMeasure μ) (h : jobs.Proper nM) (hA : jobs.Alternates) (hD : jobs.Positive)
    (ho : load (jobs.file nM) = .ok (ops, nM)) {m : Nat → M G (Indiv ℝ × List (Ga.Ev (Indiv ℝ)))}
    (hret : ∀ k, Returns (m k) fun r => Shown realEval jobs ops nM worst r.1)
    (hrate : ∀ v, Describable jobs ops nM worst v → ∃ δ : ℝ≥0∞, δ < 1 ∧ ∀ k, chance μ (m k) (fun r => ¬ Fl.Le r.1.fit (.num v)) ≤ δ ^ k) :
    ∫⁻ g, (waiting m (fun r => IsLeast {v | Describable jobs ops nM worst v} r.1.ind.fitness) g : ℝ≥0∞) ∂μ < ⊤ ∧
    ∀ᵐ g ∂μ, ∃ k r g', m k g = .ok (r, g') ∧ IsLeast {v | Describable jobs ops nM worst v} r.1.ind.fitness := by
  classical
  obtain ⟨v, hv, hmin⟩ : ∃ v, Describable jobs ops nM worst v ∧ ∀ u, Describable jobs ops nM worst u → v ≤ u := by
    have hex := some_describable (worst := worst) h hA hD ho
    exact ⟨Nat.find hex, Nat.find_spec hex, fun u hu => Nat.find_min' hex hu⟩
  obtain ⟨δ, hδ, hk⟩ := hrate v hv
  have hs : ∑' k, chance μ (m k) (fun r => ¬ IsLeast {v | Describable jobs ops nM worst v} r.1.ind.fitness) < ⊤ := by
    refine lt_of_le_of_lt (ENNReal.tsum_le_tsum fun k => le_trans (measure_mono ?_) (hk k)) ?_
    · rintro g ⟨r, g', h1, h2⟩
      refine ⟨r, g', h1, fun hle => h2 ?_⟩
      obtain ⟨r', g'', h3, h4⟩ := hret k g
      rw [h1] at h3
      obtain ⟨rfl, -⟩ := Prod.mk.inj (Except.ok.inj h3)
      refine ⟨known_describable h hA hD ho h4, fun u hu => ?_⟩
      rw [h4.fit] at hle
      exact le_trans hle (hmin u hu)
    · rw [ENNReal.tsum_geometric]
      exact ENNReal.inv_lt_top.2 (tsub_pos_of_lt hδ)
  have hr := fun k => (hret k).mono fun _ _ => trivial
  exact ⟨lt_of_le_of_lt (average_waiting_le hr) hs, almost_surely_found hr hs.ne⟩

/-- **C175, the job shop solver.** The average number of generations until the solver shows the least describable makespan is finite,
and with probability one it does show it. -/
theorem C175_job_shop_solver (hR : Ideal R μ) (h : jobs.Proper nM) (hA : jobs.Alternates) (hD : jobs.Positive)
    (ho : load (jobs.file nM) = .ok (ops, nM)) (keep : ℝ) {elite sample : Nat → Nat} {elapsed : M G Nat} {p : Ga.GAParams}
    (hlaw : HasLaw μ elapsed) (hel : Returns elapsed fun t => t < p.maxDuration)
    (hn : 0 < p.populationSize) (heven : p.populationSize % 2 = 0) (h1 : elite p.populationSize + sample p.populationSize ≤ p.populationSize)
    (h2 : 0 < sample p.populationSize) (m0 : Ga.Metrics) :
    ∫⁻ g, (waiting (fun generations => Ga.run (Indiv.trait ℝ)
        (solverOps R realEval keep ops nM worst p.populationSize elite sample elapsed) { p with generationLimit := generations } m0)
        (fun r => IsLeast {v | Describable jobs ops nM worst v} r.1.ind.fitness) g : ℝ≥0∞) ∂μ < ⊤ ∧
    ∀ᵐ g ∂μ, ∃ generations r g', Ga.run (Indiv.trait ℝ)
      (solverOps R realEval keep ops nM worst p.populationSize elite sample elapsed) { p with generationLimit := generations } m0 g =
        .ok (r, g') ∧ IsLeast {v | Describable jobs ops nM worst v} r.1.ind.fitness := by
  refine waiting_least hR.isProbability h hA hD ho (fun k => ?_) fun v hv => C173_solver_rate hR h hA hD ho keep hlaw hel hn heven h1 h2 hv m0
  refine (solves_of_staged (p := { p with generationLimit := k }) (solver_staged h hA hD ho realEval_sane keep (hel.mono fun _ _ => trivial)
    hn heven h1 (by omega)) hn rfl m0).mono ?_
  rintro r ⟨q1, q2⟩
  obtain ⟨pop, hp1, hp2⟩ := q1.member
  exact q2 pop hp1 _ hp2

/-- **C175, the job shop random search.** -/
theorem C175_job_shop_random_search (hR : Ideal R μ) (h : jobs.Proper nM) (hA : jobs.Alternates) (hD : jobs.Positive)
    (ho : load (jobs.file nM) = .ok (ops, nM)) {elapsed : M G Nat} {p : Ga.GAParams}
    (hlaw : HasLaw μ elapsed) (hel : Returns elapsed fun t => t < p.maxDuration) (hn : 0 < p.populationSize) (m0 : Ga.Metrics) :
    ∫⁻ g, (waiting (fun generations => Ga.run (Indiv.trait ℝ) (randomSearchOps R realEval ops nM worst elapsed)
        { p with generationLimit := generations } m0) (fun r => IsLeast {v | Describable jobs ops nM worst v} r.1.ind.fitness) g : ℝ≥0∞) ∂μ < ⊤ ∧
    ∀ᵐ g ∂μ, ∃ generations r g', Ga.run (Indiv.trait ℝ) (randomSearchOps R realEval ops nM worst elapsed)
        { p with generationLimit := generations } m0 g = .ok (r, g') ∧ IsLeast {v | Describable jobs ops nM worst v} r.1.ind.fitness := by
  refine waiting_least hR.isProbability h hA hD ho (fun k => ?_) fun v hv => C173_random_search_rate hR h hA hD ho hlaw hel hn hv m0
  refine (solves_of_staged (p := { p with generationLimit := k }) (randomSearch_staged h hA hD ho realEval_sane (hel.mono fun _ _ => trivial))
    hn rfl m0).mono ?_
  rintro r ⟨q1, q2⟩
  obtain ⟨pop, hp1, hp2⟩ := q1.member
  exact q2 pop hp1 _ hp2

end

/-- Two jobs on two machines, ten individuals, the generator on the tape. -/
example : ∃ ops, load (twoJobs.file 2) = .ok (ops, 2) ∧
    ∫⁻ g, (waiting (fun generations => Ga.run (Indiv.trait ℝ)
      (solverOps tapeRng realEval (3 / 5) ops 2 1000 10 (· / 10) (· / 5) (pure 0)) ⟨10, generations, 1000⟩ ⟨0, 10, none⟩)
      (fun r => IsLeast {v | Describable twoJobs ops 2 1000 v} r.1.ind.fitness) g : ℝ≥0∞) ∂tapeLaw < ⊤ := by
  obtain ⟨ops, h1, -⟩ := C100_loading twoJobs_proper
  have := (C175_job_shop_solver (R := tapeRng) (worst := 1000) (p := ⟨10, 0, 1000⟩) tapeRng_ideal twoJobs_proper twoJobs_alternates
    twoJobs_positive h1 (3 / 5) (elite := (· / 10)) (sample := (· / 5)) (elapsed := pure 0) (HasLaw.pure 0) (Returns.pure (by decide))
    (by decide) (by decide) (by decide) (by decide) ⟨0, 10, none⟩).1
  exact ⟨ops, h1, this⟩

end Ecrs.Jssp

namespace Ecrs.Ga
open Ecrs MeasureTheory

/-- Bit strings of three bits, two individuals: at most 4001 generations on average. -/
example := C175_bit_strings tapeRng_ideal (.num 0) (f := fun c => .num (c.count true)) (fun _ => trivial) (dim := 3) (n := 2) (by decide)
    (by decide) (by decide) (.pure 0) (p := ⟨2, 0, 5⟩) rfl (Returns.pure (by decide)) ⟨0, 2, none⟩

example := C175_permutations (R := tapeFRng) tapeRng_ideal (.num 0) (f := fun c : List Nat => .num (c.headD 0)) (fun _ => trivial)
    (fun _ => 0) (1 / 2) (fuel := 3) (n := 4) (genes := [0, 1, 2]) (sel := .tournament (1 / 5)) (.tournament (by norm_num))
    (.inr (.inl rfl)) (rate := 1 / 10) (by norm_num) (by norm_num) true (.pure 0) (p := ⟨4, 0, 5⟩) rfl (Returns.pure (by decide))
    (by decide) (by decide) (by decide) (by decide) (by decide) ⟨0, 4, none⟩

/-- The definition on a small case: with `k` entries `true` in the list, one has to wait for `k = 1`. -/
example : waiting (fun k => M.replicate k (pure true : M Unit Bool)) (fun l => true ∈ l) () = 1 := by
  refine le_antisymm (waiting_le (k := 1) (a := [true]) (g' := ()) rfl (by simp)) (le_iInf₂ fun k ⟨a, g', h1, h2⟩ => ?_)
  match k, h1 with
  | 0, h1 =>
    obtain ⟨rfl, -⟩ := Prod.mk.inj (M.pure_ok_iff.1 h1)
    cases h2
  | k + 1, _ => exact_mod_cast Nat.le_add_left 1 k

end Ecrs.Ga
