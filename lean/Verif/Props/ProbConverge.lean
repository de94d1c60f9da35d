import Verif.Ga.ProbSolver
import Verif.Props.ProbSelection
import Verif.Props.ProbVariation
import Verif.Props.ProbVariation4
import Verif.Props.Presets
import Verif.Props.PermGa
import Verif.Props.Possible4
import Verif.ProbTape
import Mathlib.Analysis.SpecificLimits.Basic

/-!
# C135: runs of the genetic solver reach the optimum with probability one in the limit

All operators share one ideal generator (the `ThreadRng` of the presets).  The clock is any program that does not depend
on the randomness left and never reaches the time limit.
-/

set_option linter.unusedSectionVars false

namespace Ecrs.Ga
open Ecrs Ecrs.Props MeasureTheory
open scoped ENNReal

section laws
variable {G I A C : Type} [MeasurableSpace G] {R : Rng G ℝ} {μ : Measure G}

/-! ## Every operator has a law -/

theorem hasLaw_idx (l : List A) (i : Nat) : HasLaw μ (idx l i : M G A) := by
  unfold idx
  split
  · exact .pure _
  · exact .fail _

theorem hasLaw_setIdx (l : List A) (i : Nat) (v : A) : HasLaw μ (setIdx l i v : M G (List A)) := by
  unfold setIdx; exact .ite (.pure _) (.fail _)

theorem hasLaw_swapIdx [IsProbabilityMeasure μ] (l : List A) (i j : Nat) : HasLaw μ (swapIdx l i j : M G (List A)) := by
  unfold swapIdx
  exact (hasLaw_idx _ _).bind fun a => (hasLaw_idx _ _).bind fun b => (hasLaw_setIdx _ _ _).bind fun c => hasLaw_setIdx _ _ _

theorem hasLaw_unit (hR : Ideal R μ) {B : Type} [Countable B] (h : ℝ → B) (hm : ∀ b, MeasurableSet {u | h u = b}) :
    HasLaw μ (R.genUnit >>= fun u => pure (h u)) := (hR.unit_map h (Set.to_countable _) hm).has

theorem measurable_decide_lt (r : ℝ) : ∀ b, MeasurableSet {u : ℝ | decide (u < r) = b} := by
  intro b
  cases b
  · have : {u : ℝ | decide (u < r) = false} = Set.Ici r := by ext u; simp
    rw [this]; exact measurableSet_Ici
  · have : {u : ℝ | decide (u < r) = true} = Set.Iio r := by ext u; simp
    rw [this]; exact measurableSet_Iio

/-- A draw compared with a threshold. -/
theorem hasLaw_compare (hR : Ideal R μ) {h : ℝ → Bool} (hm : ∀ b, MeasurableSet {u | h u = b}) {B : Type} {k : Bool → M G B}
    (hk : ∀ b, HasLaw μ (k b)) : HasLaw μ (R.genUnit >>= fun u => k (h u)) := by
  have := hR.isProbability
  refine ((hasLaw_unit hR h hm).bind hk).of_eq ?_
  simp only [bind_assoc, pure_bind]

/-! ### Mutation -/

theorem hasLaw_flipBit (hR : Ideal R μ) (rate : ℝ) (c : List Bool) : HasLaw μ (flipBit R rate c) := by
  have := hR.isProbability
  have h : ∀ n i c, HasLaw μ (flipBitGo R rate i n c) := by
    intro n
    induction n with
    | zero => exact fun i c => .pure c
    | succ n ih =>
      intro i c
      unfold flipBitGo flipAt
      refine (hasLaw_compare hR (measurable_decide_lt rate) (k := fun b => (if b then (do
          let x ← idx c i
          setIdx c i (!x)) else pure c) >>= fun c' => flipBitGo R rate (i + 1) n c') fun b => ?_).of_eq ?_
      · exact HasLaw.bind (.ite ((hasLaw_idx _ _).bind fun x => hasLaw_setIdx _ _ _) (.pure _)) fun c' => ih _ _
      · simp only [decide_eq_true_eq]
  exact h _ _ _

theorem hasLaw_interchange (hR : Ideal R μ) (rate : ℝ) (c : List A) : HasLaw μ (interchange R rate c) := by
  have := hR.isProbability
  unfold interchange
  refine (HasLaw.assert _ _).bind fun _ => HasLaw.fold (fun s i => ?_) _ _
  unfold interchangeStep
  refine (hasLaw_compare hR (measurable_decide_lt rate) (k := fun b => if b then (do
      let j ← R.threadRange 0 s.length
      swapIdx s i j) else pure s) fun b => ?_).of_eq ?_
  · exact .ite ((hR.hasLaw_thread _ _).bind fun j => hasLaw_swapIdx _ _ _) (.pure _)
  · simp only [decide_eq_true_eq]

theorem hasLaw_applyMutation [IsProbabilityMeasure μ] (X : ChromOps I A) {op : List A → M G (List A)} (h : ∀ c, HasLaw μ (op c)) (i : I) :
    HasLaw μ (applyMutation X op i) := by
  unfold applyMutation; exact (h _).bind fun c => .pure _

/-! ### Crossover -/

theorem hasLaw_applyPairs [IsProbabilityMeasure μ] {single : I → I → M G (I × I)} (h : ∀ a b, HasLaw μ (single a b)) (l : List I) :
    HasLaw μ (applyPairs single l) := by
  have hc : ∀ l : List I, HasLaw μ (chunks2 single l) := by
    intro l
    induction l using chunks2.induct with
    | case1 => exact .pure _
    | case2 => exact .fail _
    | case3 a b rest ih =>
      unfold chunks2
      exact (h a b).bind fun r => ih.bind fun out => .pure _
  unfold applyPairs
  exact (HasLaw.assert _ _).bind fun _ => hc l

theorem hasLaw_liftSingle [IsProbabilityMeasure μ] (X : ChromOps I A) {single : List A → List A → M G (List A × List A)}
    (h : ∀ a b, HasLaw μ (single a b)) (a b : I) : HasLaw μ (liftSingle X single a b) := by
  unfold liftSingle; exact (h _ _).bind fun r => .pure _

theorem hasLaw_pushLoci [IsProbabilityMeasure μ] (s1 s2 : List A) (lo hi : Nat) : HasLaw μ (pushLoci s1 s2 lo hi : M G (List (A × A))) := by
  unfold pushLoci
  exact HasLaw.forEach (fun i => (hasLaw_idx _ _).bind fun a => (hasLaw_idx _ _).bind fun b => .pure _) _

theorem hasLaw_singlePoint (hR : Ideal R μ) (p1 p2 : List A) : HasLaw μ (singlePoint R p1 p2) := by
  have := hR.isProbability
  unfold singlePoint
  exact (hR.hasLaw_below _ _).bind fun cut => (hasLaw_pushLoci _ _ _ _).bind fun s1 => (hasLaw_pushLoci _ _ _ _).bind fun s2 => .pure _

theorem hasLaw_orderedFill [IsProbabilityMeasure μ] [DecidableEq A] (sub : List A) : ∀ (rest : List A) (need : Nat),
    HasLaw μ (orderedFill sub need rest : M G (List A × List A))
  | rest, 0 => by unfold orderedFill; exact .pure _
  | [], need + 1 => .fail _
  | g :: rest, need + 1 => by
    unfold orderedFill
    exact .ite (hasLaw_orderedFill sub rest _) ((hasLaw_orderedFill sub rest _).bind fun r => .pure _)

theorem hasLaw_readRange [IsProbabilityMeasure μ] (p : List A) (lo hi : Nat) : HasLaw μ (readRange p lo hi : M G (List A)) := by
  unfold readRange; exact HasLaw.forEach (fun i => hasLaw_idx _ _) _

theorem hasLaw_ordered [DecidableEq A] (hR : Ideal R μ) (p1 p2 : List A) : HasLaw μ (ordered R p1 p2) := by
  have := hR.isProbability
  have hc : ∀ (p1 p2 : List A) b e, HasLaw μ (orderedChild p1 p2 b e : M G (List A)) := by
    intro p1 p2 b e
    unfold orderedChild
    exact (hasLaw_readRange _ _ _).bind fun sub => (hasLaw_orderedFill _ _ _).bind fun r => .pure _
  unfold ordered
  exact (HasLaw.assert _ _).bind fun _ => (hR.hasLaw_below _ _).bind fun b => (hR.hasLaw_upto _ _).bind fun e =>
    (hc _ _ _ _).bind fun c1 => (hc _ _ _ _).bind fun c2 => .pure _

theorem hasLaw_pmx [DecidableEq A] (hR : Ideal R μ) (fuel : Nat) (p1 p2 : List A) : HasLaw μ (pmx R fuel p1 p2) := by
  have := hR.isProbability
  have hlast : ∀ (p : List A) v, HasLaw μ (lastIndexOf p v : M G Nat) := by
    intro p v
    unfold lastIndexOf
    split
    · exact .pure _
    · exact .fail _
  have hexit : ∀ (p1 p2 : List A) b e fuel j, HasLaw μ (pmxExit p1 p2 b e fuel j : M G Nat) := by
    intro p1 p2 b e fuel
    induction fuel with
    | zero => exact fun j => .fail _
    | succ fuel ih =>
      intro j
      unfold pmxExit
      exact (hasLaw_idx _ _).bind fun v => (hlast _ _).bind fun c => .ite (ih c) (.pure _)
  have hfin : ∀ (p2 : List A) (os : List (Option A)) i, HasLaw μ (pmxFinish p2 i os : M G (List A)) := by
    intro p2 os
    induction os with
    | nil => exact fun i => .pure _
    | cons o os ih =>
      intro i
      unfold pmxFinish
      refine HasLaw.bind ?_ fun g => (ih _).bind fun rest => .pure _
      cases o with
      | none => exact hasLaw_idx _ _
      | some g => exact .pure _
  have hc : ∀ (p1 p2 : List A) b e, HasLaw μ (pmxChild fuel p1 p2 b e : M G (List A)) := by
    intro p1 p2 b e
    unfold pmxChild pmxPlace
    exact (hasLaw_readRange _ _ _).bind fun sub =>
      (HasLaw.fold (fun ch i => (hasLaw_idx _ _).bind fun g => hasLaw_setIdx _ _ _) _ _).bind fun ch0 =>
      (HasLaw.fold (fun ch i => (hasLaw_idx _ _).bind fun g => .ite (.pure _)
        ((hexit _ _ _ _ _ _).bind fun c => hasLaw_setIdx _ _ _)) _ _).bind fun ch1 => hfin _ _ _
  unfold pmx
  exact (HasLaw.assert _ _).bind fun _ => (hR.hasLaw_below _ _).bind fun b => (hR.hasLaw_upto _ _).bind fun e =>
    (hc _ _ _ _).bind fun c1 => (hc _ _ _ _).bind fun c2 => .pure _

theorem hasLaw_ppx [DecidableEq A] (hR : Ideal R μ) (p1 p2 : List A) : HasLaw μ (ppx R p1 p2) := by
  have := hR.isProbability
  have hnext : ∀ (taken rem : List A), HasLaw μ (ppxNext taken rem : M G (A × List A)) := by
    intro taken rem
    induction rem with
    | nil => exact .fail _
    | cons g rem ih => unfold ppxNext; exact .ite ih (.pure _)
  have hgo : ∀ (mask : List Bool) (taken r1 r2 : List A), HasLaw μ (ppxGo mask taken r1 r2 : M G (List A)) := by
    intro mask
    induction mask with
    | nil => exact fun _ _ _ => .pure _
    | cons b mask ih =>
      intro taken r1 r2
      cases b with
      | true => unfold ppxGo; exact (hnext _ _).bind fun r => ih _ _ _
      | false => unfold ppxGo; exact (hnext _ _).bind fun r => ih _ _ _
  unfold ppx ppxChild
  exact (HasLaw.assert _ _).bind fun _ => (HasLaw.replicate hR.hasLaw_coin _).bind fun mask =>
    (hgo _ _ _ _).bind fun c1 => (hgo _ _ _ _).bind fun c2 => .pure _

/-! ### Selection -/

theorem hasLaw_selTournament {F : Type} [LinearOrder F] (hR : Ideal R μ) (T : IndTrait I C F) (factor : ℝ) (count : Nat)
    (pop : List I) : HasLaw μ (selTournament R T factor count pop) := by
  have := hR.isProbability
  unfold selTournament tournamentOne
  exact HasLaw.replicate ((hR.hasLaw_sample _ _).bind fun is => (HasLaw.forEach (fun i => hasLaw_idx _ _) _).bind fun cs =>
    HasLaw.ofExcept _) _

theorem hasLaw_selRandom (hR : Ideal R μ) (count : Nat) (pop : List I) : HasLaw μ (selRandom R count pop) := by
  have := hR.isProbability
  unfold selRandom
  rw [hR.onClone_eq]
  exact (HasLaw.assert _ _).bind fun _ => (HasLaw.replicate (hR.hasLaw_below _ _) _).bind fun is =>
    HasLaw.forEach (fun i => hasLaw_idx _ _) _

theorem hasLaw_selUniqueRandom (hR : Ideal R μ) (count : Nat) (pop : List I) : HasLaw μ (selUniqueRandom R count pop) := by
  have := hR.isProbability
  unfold selUniqueRandom
  exact (hR.hasLaw_sample _ _).bind fun is => HasLaw.forEach (fun i => hasLaw_idx _ _) _

theorem hasLaw_selRank {F : Type} [LinearOrder F] (hR : Ideal R μ) (T : IndTrait I C F) (count : Nat) (pop : List I) :
    HasLaw μ (selRank R T count pop) := by
  have := hR.isProbability
  unfold selRank rankOne
  exact HasLaw.replicate ((hR.hasLaw_below _ _).bind fun i => (hasLaw_idx _ _).bind fun p1 =>
    (hR.hasLaw_below _ _).bind fun j => (hasLaw_idx _ _).bind fun p2 => .pure _) _

theorem hasLaw_selRankR (hR : Ideal R μ) (r : ℝ) (count : Nat) (pop : List I) : HasLaw μ (selRankR R r count pop) := by
  have := hR.isProbability
  unfold selRankR rankROne
  refine (HasLaw.assert _ _).bind fun _ => HasLaw.replicate ((hR.hasLaw_below _ _).bind fun i => (hasLaw_idx _ _).bind fun p1 =>
    (hR.hasLaw_below _ _).bind fun j => (hasLaw_idx _ _).bind fun p2 => ?_) _
  refine (hasLaw_compare hR (measurable_decide_lt r) (k := fun b => pure (if b then p1 else p2)) fun b => .pure _).of_eq ?_
  simp only [decide_eq_true_eq]

theorem hasLaw_selRoulette (hR : Ideal R μ) (fit : I → ℝ) (count : Nat) (pop : List I) :
    HasLaw μ (selRoulette R fit count pop) := by
  have := hR.isProbability
  set h : ℝ → Option I := fun u => roulettePick fit ((pop.map fit).sum * u) 0 pop with hh
  have hc : (Set.range h).Countable := by
    refine ((pop.finite_toSet.image some).insert none).countable.mono ?_
    rintro _ ⟨u, rfl⟩
    cases e : h u with
    | none => simp
    | some x => exact .inr ⟨x, roulettePick_mem fit e, rfl⟩
  have hm : ∀ b, MeasurableSet {u | h u = b} := fun b =>
    (measurable_const_mul (pop.map fit).sum) (roulette_measurable fit b pop 0)
  refine HasLaw.of_eq ((HasLaw.replicate (hR.unit_map h hc hm).has count).bind fun os => .pure (os.filterMap id)) ?_
  unfold selRoulette
  rw [← replicate_map]
  simp only [bind_assoc, pure_bind, List.filterMap_map, Function.id_comp]
  rfl

/-! ### Initial populations -/

theorem hasLaw_bitStringsGenerate (hR : Ideal R μ) (X : ChromOps I Bool) (dim count : Nat) :
    HasLaw μ (bitStringsGenerate R X dim count) := by
  have := hR.isProbability
  unfold bitStringsGenerate
  exact HasLaw.replicate ((HasLaw.replicate hR.hasLaw_coin _).bind fun bits => .pure _) _

theorem hasLaw_permutationsGenerate (hR : Ideal R μ) (X : ChromOps I A) (genes : List A) (count : Nat) :
    HasLaw μ (permutationsGenerate R X genes count) := by
  have := hR.isProbability
  unfold permutationsGenerate shuffled
  exact HasLaw.replicate (((hR.hasLaw_shuffle _).bind fun order => HasLaw.forEach (fun i => hasLaw_idx _ _) _).bind
    fun genome => .pure _) _

end laws

/-! ## From a bound on failure to convergence -/

section limit
variable {G : Type} [MeasurableSpace G] {μ : Measure G} [IsProbabilityMeasure μ]

/-- If failing within `k` generations has probability at most `δ ^ (n · k)` for some `δ < 1`, succeeding tends to one. -/
theorem tendsto_of_failure {α : Type} {m : Nat → M G α} (hl : ∀ k, HasLaw μ (m k)) (hr : ∀ k, Returns (m k) fun _ => True)
    {Q : α → Prop} {δ : ℝ≥0∞} (hδ : δ < 1) {n : Nat} (hn : 0 < n)
    (h : ∀ k, chance μ (m k) (fun a => ¬ Q a) ≤ δ ^ (n * k)) :
    Filter.Tendsto (fun k => chance μ (m k) Q) Filter.atTop (nhds 1) := by
  have hlow : ∀ k, 1 - δ ^ (n * k) ≤ chance μ (m k) Q := by
    intro k
    have e := (hl k).chance_not (hr k) Q
    rw [tsub_le_iff_right]
    calc (1 : ℝ≥0∞) = _ := e.symm
      _ ≤ _ := by gcongr; exact h k
  have hpow : Filter.Tendsto (fun k : Nat => (1 : ℝ≥0∞) - δ ^ (n * k)) Filter.atTop (nhds 1) := by
    have h1 : Filter.Tendsto (fun k : Nat => (δ ^ n) ^ k) Filter.atTop (nhds 0) :=
      ENNReal.tendsto_pow_atTop_nhds_zero_of_lt_one (pow_lt_one₀ (by simp) hδ (by omega))
    have h2 := ENNReal.Tendsto.sub (tendsto_const_nhds (x := (1 : ℝ≥0∞)) (f := Filter.atTop (α := Nat))) h1 (by simp)
    simpa only [pow_mul, tsub_zero] using h2
  exact tendsto_of_tendsto_of_tendsto_of_le_of_le hpow tendsto_const_nhds hlow fun k => chance_le_one

end limit

/-! ## The bit-string preset -/

section bits
variable {G F : Type} [LinearOrder F] [MeasurableSpace G] {R : Rng G ℝ} {μ : Measure G}

/-- The four random operators draw from one shared generator. -/
def oneGenerator (G : Type) : Slots G G := ⟨wholeSlot G, wholeSlot G, wholeSlot G, wholeSlot G⟩

theorem wholeSlot_run {α : Type} (m : M G α) : (wholeSlot G).run m = m := by
  funext g
  unfold Slot.run wholeSlot
  simp only [id_eq]
  cases m g with
  | error e => rfl
  | ok r => rfl

theorem bscOps_lawOps (hR : Ideal R μ) (worst : Fl F) (f : List Bool → Fl F) (dim n : Nat) {elapsed : M G Nat}
    (hel : HasLaw μ elapsed) : LawOps μ (bscOps R (oneGenerator G) worst f dim n elapsed) := by
  have := hR.isProbability
  refine ⟨fun k => ?_, fun i => .pure _, fun m pop => ?_, fun m pool => ?_, fun m i => ?_, fun m pop ch => .pure _, hel⟩
  · exact (hasLaw_bitStringsGenerate hR _ _ _).of_eq (wholeSlot_run _)
  · exact (hasLaw_selTournament hR _ _ _ _).of_eq (wholeSlot_run _)
  · exact (hasLaw_applyPairs (hasLaw_liftSingle _ (hasLaw_singlePoint hR)) _).of_eq (wholeSlot_run _)
  · exact (hasLaw_applyMutation _ (hasLaw_flipBit hR _) _).of_eq (wholeSlot_run _)

/-- FlipBit reaches every bit string of the same length with probability at least `20 ^ (-dim)`. -/
theorem flip_reaches (hR : Ideal R μ) {c d : List Bool} (hd : d.length = c.length) :
    ENNReal.ofReal ((1 / 20) ^ c.length) ≤ chance μ (flipBit R (1 / 20) c) (· = d) := by
  rw [C134_flip_bit hR (by norm_num) (by norm_num) hd]
  refine ENNReal.ofReal_le_ofReal ?_
  have e : (c.zip d).countP (fun p => p.1 ≠ p.2) + (c.zip d).countP (fun p => p.1 = p.2) = c.length := by
    have := List.length_eq_countP_add_countP (fun p : Bool × Bool => decide (p.1 = p.2)) (l := c.zip d)
    rw [List.length_zip, hd, min_self] at this
    rw [this, Nat.add_comm]
    congr 1
    refine List.countP_congr fun p _ => ?_
    simp
  conv_lhs => rw [← e, pow_add]
  exact mul_le_mul_of_nonneg_left (pow_le_pow_left₀ (by norm_num) (by norm_num) _) (by positivity)

/-- **C135, bit strings, rate.** Run the bit-string preset with a NaN-free fitness function, an even positive population
size and a clock that does not reach the limit.  For every bit string `c` of the problem's length, the probability that
the returned individual is worse than `c` is at most `(1 - 20⁻ᵈⁱᵐ)` to the power of the number of children produced. -/
theorem C135_bit_string_rate (hR : Ideal R μ) (worst : Fl F) {f : List Bool → Fl F} (hf : ∀ c, (f c).IsNum) {dim n : Nat}
    (hd : 0 < dim) (hn : 0 < n) (he : n % 2 = 0) {elapsed : M G Nat} (hlaw : HasLaw μ elapsed) {p : GAParams}
    (hp : p.populationSize = n) (hel : Returns elapsed fun t => t < p.maxDuration) (m0 : Metrics) {c : List Bool}
    (hc : c.length = dim) :
    chance μ (run (Individual.trait (List Bool) F) (bscOps R (oneGenerator G) worst f dim n elapsed) p m0)
        (fun r => ¬ Fl.Le r.1.fitness (f c)) ≤
      (1 - ENNReal.ofReal ((1 / 20) ^ dim)) ^ (n * p.generationLimit) := by
  have := hR.isProbability
  refine run_failure_le (T := Individual.trait (List Bool) F) (Hit := fun i => i.chromosome = c) (v := f c)
    (bscOps_lawOps hR worst f dim n hlaw)
    (bscOps_total R (oneGenerator G) worst hf hd hn he (hel.mono fun _ _ => trivial)) hn hp hel (fun _ _ _ => rfl) rfl ?_ ?_ m0
  · intro i _ hi
    refine Returns.pure ?_
    show Fl.Le (f i.chromosome) (f c)
    rw [hi]; exact Fl.le_refl (hf c)
  · intro m i hi
    have h1 := flip_reaches hR (c := i.chromosome) (d := c) (by rw [hc, hi])
    rw [show i.chromosome.length = dim from hi] at h1
    refine h1.trans ?_
    show _ ≤ chance μ ((wholeSlot G).run (applyMutation (Individual.chromOps Bool worst) (flipBit R (1 / 20)) i)) _
    rw [wholeSlot_run]
    exact chance_bind_of_returns fun d hd => Returns.pure hd

/-- **C135, bit strings.** With more and more generations the probability that the preset returns a global optimum –
an individual at least as fit as every bit string of the problem's length – tends to one. -/
theorem C135_bit_string_converges (hR : Ideal R μ) (worst : Fl F) {f : List Bool → Fl F} (hf : ∀ c, (f c).IsNum) {dim n : Nat}
    (hd : 0 < dim) (hn : 0 < n) (he : n % 2 = 0) {elapsed : M G Nat} (hlaw : HasLaw μ elapsed) {p : GAParams}
    (hp : p.populationSize = n) (hel : Returns elapsed fun t => t < p.maxDuration) (m0 : Metrics) :
    Filter.Tendsto (fun generations => chance μ
      (run (Individual.trait (List Bool) F) (bscOps R (oneGenerator G) worst f dim n elapsed)
        { p with generationLimit := generations } m0)
      (fun r => ∀ c : List Bool, c.length = dim → Fl.Le r.1.fitness (f c))) Filter.atTop (nhds 1) := by
  have := hR.isProbability
  have ht := bscOps_total R (oneGenerator G) worst hf hd hn he (hel.mono fun _ _ => trivial)
  obtain ⟨c, hc, hmin⟩ : ∃ c : List Bool, c.length = dim ∧ ∀ d : List Bool, d.length = dim → Fl.Le (f c) (f d) := by
    have hnum : ∀ c, ∃ v, f c = .num v := fun c => by
      have := hf c
      cases e : f c with
      | num v => exact ⟨v, rfl⟩
      | nan => rw [e] at this; exact this.elim
    choose v hv using hnum
    have hne : (List.finite_length_eq Bool dim).toFinset.Nonempty := ⟨List.replicate dim true, by simp⟩
    obtain ⟨c, hc, hmin⟩ := Finset.exists_min_image _ v hne
    refine ⟨c, by simpa using hc, fun d hd => ?_⟩
    rw [hv, hv]
    exact hmin d (by simpa using hd)
  have hlaws : ∀ k, HasLaw μ (run (Individual.trait (List Bool) F) (bscOps R (oneGenerator G) worst f dim n elapsed)
      { p with generationLimit := k } m0) := fun k => (bscOps_lawOps hR worst f dim n hlaw).run m0
  have hret : ∀ k, Returns (run (Individual.trait (List Bool) F) (bscOps R (oneGenerator G) worst f dim n elapsed)
      { p with generationLimit := k } m0) fun _ => True := fun k => ht.run { p with generationLimit := k } hn hp m0
  refine tendsto_of_failure hlaws hret (δ := 1 - ENNReal.ofReal ((1 / 20) ^ dim)) ?_ hn fun k => ?_
  · exact ENNReal.sub_lt_self (by simp) (by simp) (by rw [ne_eq, ENNReal.ofReal_eq_zero, not_le]; positivity)
  · refine le_trans (chance_mono fun r hr => ?_) (C135_bit_string_rate hR worst hf hd hn he hlaw
      (p := { p with generationLimit := k }) hp hel m0 hc)
    intro hle
    exact hr fun d hd => hle.trans (hmin d hd)

end bits

/-! ## Permutation problems -/

section perms
variable {G A F : Type} [DecidableEq A] [LinearOrder F] [MeasurableSpace G] {R : FRng G ℝ} {μ : Measure G}

/-- The selections considered: all shipped ones but StochasticUniversalSampling and Boltzmann, whose draws are not part
of `Ideal`; RouletteWheel needs weights that are not negative. -/
inductive PlainSelection (fit : Individual (List A) F → ℝ) : Selection ℝ (Individual (List A) F) → Prop
  | random : PlainSelection fit .random
  | uniqueRandom : PlainSelection fit .uniqueRandom
  | rank : PlainSelection fit .rank
  | rankR (r : ℝ) : PlainSelection fit (.rankR r)
  | tournament {factor : ℝ} (h : factor ≤ 1) : PlainSelection fit (.tournament factor)
  | roulette (h : ∀ i, 0 ≤ fit i) : PlainSelection fit .roulette

theorem permOps_lawOps (hR : Ideal R.toRng μ) (worst : Fl F) (f : List A → Fl F) (fit : Individual (List A) F → ℝ) (half : ℝ)
    (fuel n : Nat) (genes : List A) {sel : Selection ℝ (Individual (List A) F)} (hsel : PlainSelection fit sel) {cr : Crossover ℝ}
    (hcr : cr = .ordered ∨ cr = .pmx ∨ cr = .ppx) (rate : ℝ) (debug : Bool) {elapsed : M G Nat} (hel : HasLaw μ elapsed) :
    LawOps μ (permOps R (Individual.trait (List A) F) (Individual.chromOps A worst) (oneGenerator G) f fit half fuel n genes
      sel cr (.interchange rate) .bothParents debug elapsed) := by
  have := hR.isProbability
  refine ⟨fun k => ?_, fun i => .pure _, fun m pop => ?_, fun m pool => ?_, fun m i => ?_, fun m pop ch => .pure _, hel⟩
  · exact (hasLaw_permutationsGenerate hR _ _ _).of_eq (wholeSlot_run _)
  · refine HasLaw.of_eq ?_ (wholeSlot_run _)
    cases hsel with
    | random => exact hasLaw_selRandom hR _ _
    | uniqueRandom => exact hasLaw_selUniqueRandom hR _ _
    | rank => exact hasLaw_selRank hR _ _ _
    | rankR r => exact hasLaw_selRankR hR _ _ _
    | tournament h => exact hasLaw_selTournament hR _ _ _ _
    | roulette h => exact hasLaw_selRoulette hR _ _ _
  · refine HasLaw.of_eq ?_ (wholeSlot_run _)
    rcases hcr with rfl | rfl | rfl
    · exact hasLaw_applyPairs (hasLaw_liftSingle _ (hasLaw_ordered hR)) _
    · exact hasLaw_applyPairs (hasLaw_liftSingle _ (hasLaw_pmx hR fuel)) _
    · exact hasLaw_applyPairs (hasLaw_liftSingle _ (hasLaw_ppx hR)) _
  · exact (hasLaw_applyMutation _ (hasLaw_interchange hR _) _).of_eq (wholeSlot_run _)

/-- The permutation GA never panics with any of these selections. -/
theorem permOps_total {R : FRng G ℝ} (worst : Fl F) {f : List A → Fl F} (hf : ∀ c, (f c).IsNum)
    (fit : Individual (List A) F → ℝ) (half : ℝ)
    {fuel n : Nat} {genes : List A} {sel : Selection ℝ (Individual (List A) F)} (hsel : PlainSelection fit sel)
    {cr : Crossover ℝ} (hcr : cr = .ordered ∨ cr = .pmx ∨ cr = .ppx) (rate : ℝ) (debug : Bool) {elapsed : M G Nat}
    (hel : Returns elapsed fun _ => True) (hg : genes.Nodup) (h0 : 0 < genes.length) (hfuel : genes.length ≤ fuel)
    (hpos : 0 < n) (heven : n % 2 = 0) (S : Slots G G) :
    TotalOps (Individual.trait (List A) F) (permOps R (Individual.trait (List A) F) (Individual.chromOps A worst) S f fit half
      fuel n genes sel cr (.interchange rate) .bothParents debug elapsed) (fun i => i.chromosome.Perm genes) n where
  eval _ := rfl
  set _ _ h := h
  gen := S.gen.run_returns (C38_random_permutations R.toRng (Individual.chromOps A worst) genes n)
  fit i h := Returns.pure ⟨h, hf _⟩
  sel m pop hl hP hnum := by
    refine S.sel.run_returns (Returns.mono (P := fun out => out.length = n ∧ ∀ x ∈ out, x ∈ pop) ?_
      fun out h => ⟨h.1, fun i hi => hP i (h.2 i hi)⟩)
    have hl0 : 0 < pop.length := by omega
    cases hsel with
    | random => exact C28_random R.toRng hl0
    | uniqueRandom =>
      refine Returns.bind (R.toRng.indexSample_returns (by omega)) fun is his => ?_
      exact (forEach_idx_returns fun i hi => his.2.2 i hi).mono fun out ho =>
        ⟨by rw [← ho.length_eq, his.1], forall₂_right ho fun _ _ h => List.mem_of_getElem? h⟩
    | rank => exact (C28_rank R.toRng _ hl0).mono fun out h => ⟨h.1, fun x hx => (h.2 x hx).1⟩
    | rankR r => exact C28_rank_r R.toRng hl0
    | tournament h => exact C28_tournament R.toRng _ h hl0 hnum
    | roulette h =>
      intro g
      have hne : pop ≠ [] := by rintro rfl; simp at hl0
      obtain ⟨out, g', e, h1⟩ := C29_roulette_exact_count R.toRng fit (count := n) hne
        (List.sum_nonneg (by simpa using fun i _ => h i)) g
      obtain ⟨out', g'', e', -, h2⟩ := C29_roulette R.toRng fit (count := n) (pop := pop) g
      rw [e] at e'
      cases e'
      exact ⟨out, g', e, h1, fun x hx => (h2 x hx).1⟩
  cross m pool hl hP := S.cross.run_returns
    ((permCross_closed R.toRng (Individual.chromOps A worst) hg h0 hfuel (by rcases hcr with rfl | rfl | rfl <;> rfl) hP
      (by omega)).mono fun out h => ⟨by rw [h.1, hl], h.2⟩)
  mutate m i h := S.mutate.run_returns
    ((C25_reordering_mutations_return R.toRng (Individual.chromOps A worst) (.interchange rate) i
      (by rw [show ((Individual.chromOps A worst).ch i).length = _ from h.length_eq]; exact h0)).mono
      fun i' hi' => hi'.trans h)
  replace m pop children _ h2 _ h4 _ _ := Returns.pure ⟨h2, h4⟩
  elapsed := hel

/-- **C135, permutations, rate.** A permutation GA made of shipped operators (any of the six selections, ordered, PMX or
PPX crossover, Interchange with a rate in `[0, 1]`, BothParents) on pairwise different genes: for every ordering `c` of
the genes, the probability that the returned individual is worse than `c` is at most `(1 - (rate/len)ˡᵉⁿ)` to the power
of the number of children produced. -/
theorem C135_permutation_rate (hR : Ideal R.toRng μ) (worst : Fl F) {f : List A → Fl F} (hf : ∀ c, (f c).IsNum)
    (fit : Individual (List A) F → ℝ) (half : ℝ) {fuel n : Nat} {genes : List A}
    {sel : Selection ℝ (Individual (List A) F)} (hsel : PlainSelection fit sel)
    {cr : Crossover ℝ} (hcr : cr = .ordered ∨ cr = .pmx ∨ cr = .ppx) {rate : ℝ} (hr0 : 0 ≤ rate) (hr1 : rate ≤ 1)
    (debug : Bool) {elapsed : M G Nat} (hlaw : HasLaw μ elapsed) {p : GAParams} (hp : p.populationSize = n)
    (hel : Returns elapsed fun t => t < p.maxDuration) (hg : genes.Nodup) (h0 : 0 < genes.length)
    (hfuel : genes.length ≤ fuel) (hpos : 0 < n) (heven : n % 2 = 0) (m0 : Metrics) {c : List A} (hc : c.Perm genes) :
    chance μ (run (Individual.trait (List A) F) (permOps R (Individual.trait (List A) F) (Individual.chromOps A worst)
        (oneGenerator G) f fit half fuel n genes sel cr (.interchange rate) .bothParents debug elapsed) p m0)
        (fun r => ¬ Fl.Le r.1.fitness (f c)) ≤
      (1 - (ENNReal.ofReal rate / genes.length) ^ genes.length) ^ (n * p.generationLimit) := by
  have := hR.isProbability
  refine run_failure_le (T := Individual.trait (List A) F) (Hit := fun i => i.chromosome = c) (v := f c)
    (permOps_lawOps hR worst f fit half fuel n genes hsel hcr rate debug hlaw)
    (permOps_total worst hf fit half hsel hcr rate debug (hel.mono fun _ _ => trivial) hg h0 hfuel hpos heven _)
    hpos hp hel (fun _ _ _ => rfl) rfl ?_ ?_ m0
  · intro i _ hi
    refine Returns.pure ?_
    show Fl.Le (f i.chromosome) (f c)
    rw [hi]; exact Fl.le_refl (hf c)
  · intro m i hi
    have hlen : i.chromosome.length = genes.length := hi.length_eq
    have h1 := C134_interchange hR hr0 hr1 (c := i.chromosome) (target := c)
      (by rintro e; rw [e] at hlen; simp at hlen; omega) (hc.trans hi.symm)
    rw [hlen] at h1
    refine h1.trans ?_
    show _ ≤ chance μ ((wholeSlot G).run (applyMutation (Individual.chromOps A worst) (interchange R.toRng rate) i)) _
    rw [wholeSlot_run]
    exact chance_bind_of_returns fun d hd => Returns.pure hd

/-- **C135, permutations.** If the mutation rate is positive, the probability that such a GA returns a global optimum –
an individual at least as fit as every ordering of the genes – tends to one with more and more generations. -/
theorem C135_permutation_converges (hR : Ideal R.toRng μ) (worst : Fl F) {f : List A → Fl F} (hf : ∀ c, (f c).IsNum)
    (fit : Individual (List A) F → ℝ) (half : ℝ) {fuel n : Nat} {genes : List A}
    {sel : Selection ℝ (Individual (List A) F)} (hsel : PlainSelection fit sel)
    {cr : Crossover ℝ} (hcr : cr = .ordered ∨ cr = .pmx ∨ cr = .ppx) {rate : ℝ} (hr0 : 0 < rate) (hr1 : rate ≤ 1)
    (debug : Bool) {elapsed : M G Nat} (hlaw : HasLaw μ elapsed) {p : GAParams} (hp : p.populationSize = n)
    (hel : Returns elapsed fun t => t < p.maxDuration) (hg : genes.Nodup) (h0 : 0 < genes.length)
    (hfuel : genes.length ≤ fuel) (hpos : 0 < n) (heven : n % 2 = 0) (m0 : Metrics) :
    Filter.Tendsto (fun generations => chance μ
      (run (Individual.trait (List A) F) (permOps R (Individual.trait (List A) F) (Individual.chromOps A worst)
        (oneGenerator G) f fit half fuel n genes sel cr (.interchange rate) .bothParents debug elapsed)
        { p with generationLimit := generations } m0)
      (fun r => ∀ c : List A, c.Perm genes → Fl.Le r.1.fitness (f c))) Filter.atTop (nhds 1) := by
  have := hR.isProbability
  obtain ⟨c, hc, hmin⟩ : ∃ c : List A, c.Perm genes ∧ ∀ d : List A, d.Perm genes → Fl.Le (f c) (f d) := by
    have hnum : ∀ c, ∃ v, f c = .num v := fun c => by
      have := hf c
      cases e : f c with
      | num v => exact ⟨v, rfl⟩
      | nan => rw [e] at this; exact this.elim
    choose v hv using hnum
    have hne : genes.permutations.toFinset.Nonempty := ⟨genes, by simp⟩
    obtain ⟨c, hc, hmin⟩ := Finset.exists_min_image _ v hne
    refine ⟨c, by simpa using hc, fun d hd => ?_⟩
    rw [hv, hv]
    exact hmin d (by simpa using hd)
  have hlaws := fun k => (permOps_lawOps hR worst f fit half fuel n genes hsel hcr rate debug hlaw).run
    (T := Individual.trait (List A) F) (p := { p with generationLimit := k }) m0
  have hret := fun k => (permOps_total (R := R) worst hf fit half hsel hcr rate debug (hel.mono fun _ _ => trivial) hg h0 hfuel
    hpos heven (oneGenerator G)).run { p with generationLimit := k } hpos hp m0
  refine tendsto_of_failure hlaws hret (δ := 1 - (ENNReal.ofReal rate / genes.length) ^ genes.length) ?_ hpos fun k => ?_
  · refine ENNReal.sub_lt_self (by simp) (by simp) (pow_ne_zero _ ?_)
    rw [ne_eq, ENNReal.div_eq_zero_iff, not_or]
    exact ⟨by rw [ENNReal.ofReal_eq_zero, not_le]; exact hr0, ENNReal.natCast_ne_top _⟩
  · refine le_trans (chance_mono fun r hr => ?_) (C135_permutation_rate hR worst hf fit half hsel hcr hr0.le hr1 debug hlaw
      (p := { p with generationLimit := k }) hp hel hg h0 hfuel hpos heven m0 hc)
    intro hle
    exact hr fun d hd => hle.trans (hmin d hd)

end perms

/-! ## Non-vacuity -/

/-- Two individuals of three bits counting ones, on the tape generator, with a clock that stands still. -/
example : Filter.Tendsto (fun generations => chance tapeLaw
      (run (Individual.trait (List Bool) Nat) (bscOps tapeRng (oneGenerator _) (.num 0) (fun c => .num (c.count true)) 3 2
        (pure 0)) ⟨2, generations, 5⟩ ⟨0, 2, none⟩)
      (fun r => ∀ c : List Bool, c.length = 3 → Fl.Le r.1.fitness (.num (c.count true)))) Filter.atTop (nhds 1) :=
  C135_bit_string_converges tapeRng_ideal (.num 0) (f := fun c => .num (c.count true)) (fun _ => trivial) (by decide)
    (by decide) (by decide) (.pure 0) (p := ⟨2, 0, 5⟩) rfl (Returns.pure (by decide)) _

/-- The tape generator with (unused) draws from intervals. -/
noncomputable def tapeFRng : FRng Tape ℝ :=
  { tapeRng with
    between := fun g lo _ => (lo, g)
    between_spec := fun _ _ _ h => ⟨le_rfl, h⟩
    halfOpen := fun g lo _ => (lo, g)
    halfOpen_spec := fun _ _ _ h => ⟨le_rfl, h⟩
    weighted := fun g _ _ => (none, g)
    weighted_spec := fun _ _ _ _ h => by cases h }

/-- Four orderings of three cities, PMX, tournament, one mutation in ten: the chance of returning an optimum tends to
one. -/
example : Filter.Tendsto (fun generations => chance tapeLaw
      (run (Individual.trait (List Nat) Nat) (permOps tapeFRng (Individual.trait (List Nat) Nat)
        (Individual.chromOps Nat (.num 0)) (oneGenerator _) (fun c => .num (c.headD 0)) (fun _ => 0) (1 / 2) 3 4 [0, 1, 2]
        (.tournament (1 / 5)) .pmx (.interchange (1 / 10)) .bothParents true (pure 0)) ⟨4, generations, 5⟩ ⟨0, 4, none⟩)
      (fun r => ∀ c : List Nat, c.Perm [0, 1, 2] → Fl.Le r.1.fitness (.num (c.headD 0)))) Filter.atTop (nhds 1) :=
  C135_permutation_converges (R := tapeFRng) tapeRng_ideal (.num 0) (f := fun c => .num (c.headD 0)) (fun _ => trivial) _ _
    (.tournament (by norm_num)) (.inr (.inl rfl)) (by norm_num) (by norm_num) true (.pure 0) (p := ⟨4, 0, 5⟩) rfl
    (Returns.pure (by decide)) (by decide) (by decide) (by decide) (by decide) (by decide) _

example := C135_bit_string_rate tapeRng_ideal (.num 0) (f := fun c => .num (c.count true)) (fun _ => trivial) (dim := 3) (n := 2)
  (by decide) (by decide) (by decide) (.pure 0) (p := ⟨2, 100, 5⟩) rfl (Returns.pure (by decide)) ⟨0, 2, none⟩
  (c := [false, false, false]) rfl
example := C135_permutation_rate (R := tapeFRng) tapeRng_ideal (.num 0) (f := fun c : List Nat => .num (c.headD 0))
  (fun _ => trivial) (fun _ => 0) (1 / 2) (fuel := 3) (n := 4) (genes := [0, 1, 2])
  (sel := .tournament (1 / 5)) (.tournament (by norm_num)) (.inr (.inl rfl)) (rate := 1 / 10) (by norm_num) (by norm_num) true
  (.pure 0) (p := ⟨4, 100, 5⟩) rfl (Returns.pure (by decide)) (by decide) (by decide) (by decide) (by decide) (by decide)
  ⟨0, 4, none⟩ (c := [0, 2, 1]) (by decide)

end Ecrs.Ga
