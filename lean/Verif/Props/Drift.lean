import Verif.ProbCount
import Verif.Props.RealGa
import Verif.Props.ProbConverge
import Verif.Props.Schema

/-!
# C162: genetic drift

Random selection and RankR do not look at the fitness (C133).  What a GA without mutation does to the genes of its population is
then pure sampling: Wright and Fisher's model of genetic drift.
-/

set_option linter.unusedSectionVars false
set_option linter.unusedVariables false

namespace Ecrs.Props
open Ecrs Ecrs.Ga MeasureTheory
open scoped ENNReal

section laws
variable {G I A : Type} [MeasurableSpace G] {R : Rng G ℝ} {μ : Measure G}

/-! ## Every shipped crossover has a law -/

theorem hasLaw_twoPoint (hR : Ideal R μ) (p1 p2 : List A) : HasLaw μ (twoPoint R p1 p2) := by
  have := hR.isProbability
  unfold twoPoint
  exact (HasLaw.assert _ _).bind fun _ => (hR.hasLaw_below _ _).bind fun x => (hR.hasLaw_below _ _).bind fun y =>
    (hasLaw_pushLoci _ _ _ _).bind fun s1 => (hasLaw_pushLoci _ _ _ _).bind fun s2 => (hasLaw_pushLoci _ _ _ _).bind fun s3 => .pure _

theorem hasLaw_multiPoint (hR : Ideal R μ) (k : Nat) (p1 p2 : List A) : HasLaw μ (multiPoint R k p1 p2) := by
  have := hR.isProbability
  have h1 : ∀ (is : List Nat) (p1 p2 : List A), HasLaw μ (multiFirst p1 p2 is : M G _) := by
    intro is
    induction is with
    | nil => exact fun _ _ => .pure _
    | cons i is ih => exact fun p1 p2 => (hasLaw_idx _ _).bind fun a => (hasLaw_idx _ _).bind fun b => (ih p1 p2).bind fun r => .pure _
  have h2 : ∀ (cs : List Nat) (c1 c2 : List A) (len : Nat), HasLaw μ (multiRest c1 c2 len cs : M G _) := by
    intro cs
    induction cs with
    | nil => exact fun _ _ _ => .fail _
    | cons c cs ih =>
      intro c1 c2 len
      cases cs with
      | nil => exact hasLaw_pushLoci _ _ _ _
      | cons c' cs => exact (hasLaw_pushLoci _ _ _ _).bind fun s => (ih c2 c1 len).bind fun r => .pure _
  unfold multiPoint multiPointCuts
  exact (HasLaw.assert _ _).bind fun _ => (HasLaw.assert _ _).bind fun _ => (HasLaw.assert _ _).bind fun _ =>
    (hR.hasLaw_sample _ _).bind fun cuts => (hasLaw_idx _ _).bind fun c0 => (h1 _ _ _).bind fun r => (h2 _ _ _ _).bind fun s => .pure _

theorem hasLaw_maskLoci [IsProbabilityMeasure μ] (p1 p2 : List A) : ∀ (ms : List Bool) (i : Nat), HasLaw μ (maskLoci p1 p2 i ms : M G _)
  | [], _ => .pure _
  | m :: ms, i => (hasLaw_idx _ _).bind fun a => (hasLaw_idx _ _).bind fun b => (hasLaw_maskLoci p1 p2 ms (i + 1)).bind fun r => .pure _

theorem hasLaw_fixedPoint [IsProbabilityMeasure μ] (X : ChromOps I A) (cut : Nat) (a b : I) : HasLaw μ (fixedPoint X cut a b : M G _) := by
  unfold fixedPoint fixedPointCh
  exact (HasLaw.fold (fun c i => (hasLaw_idx _ _).bind fun b => (hasLaw_setIdx _ _ _).bind fun c1 => (hasLaw_idx _ _).bind fun a =>
    (hasLaw_setIdx _ _ _).bind fun c2 => .pure _) _ _).bind fun r => .pure _

theorem replicate_unit_map (h : ℝ → Bool) : ∀ n, (M.replicate n R.genUnit >>= fun vals => pure (vals.map h)) =
    M.replicate n (R.genUnit >>= fun u => pure (h u))
  | 0 => by rw [M.replicate, M.replicate, pure_bind]; rfl
  | n + 1 => by
    rw [M.replicate, M.replicate, ← replicate_unit_map h n]
    simp only [bind_assoc, pure_bind, List.map_cons]

theorem measurable_decide_ge (r : ℝ) : ∀ b, MeasurableSet {u : ℝ | decide (r ≤ u) = b} := by
  intro b
  cases b
  · have : {u : ℝ | decide (r ≤ u) = false} = Set.Iio r := by ext u; simp
    rw [this]; exact measurableSet_Iio
  · have : {u : ℝ | decide (r ≤ u) = true} = Set.Ici r := by ext u; simp
    rw [this]; exact measurableSet_Ici

theorem measurable_decide_le (r : ℝ) : ∀ b, MeasurableSet {u : ℝ | decide (u ≤ r) = b} := by
  intro b
  cases b
  · have : {u : ℝ | decide (u ≤ r) = false} = Set.Ioi r := by ext u; simp
    rw [this]; exact measurableSet_Ioi
  · have : {u : ℝ | decide (u ≤ r) = true} = Set.Iic r := by ext u; simp
    rw [this]; exact measurableSet_Iic

theorem hasLaw_mask (hR : Ideal R μ) {h : ℝ → Bool} (hm : ∀ b, MeasurableSet {u | h u = b}) (p1 p2 : List A) :
    HasLaw μ (do
      M.assert (p1.length == p2.length)
      let vals ← R.onClone (M.replicate p1.length R.genUnit)
      let s ← maskLoci p1 p2 0 (vals.map h)
      pure (s.map Prod.fst, s.map Prod.snd)) := by
  have := hR.isProbability
  refine (HasLaw.assert _ _).bind fun _ => ?_
  rw [hR.onClone_eq]
  refine (((hasLaw_unit hR h hm).replicate p1.length).bind (f := fun ms => maskLoci p1 p2 0 ms >>= fun s =>
    Pure.pure (s.map Prod.fst, s.map Prod.snd)) fun ms => (hasLaw_maskLoci _ _ _ _).bind fun s => .pure _).of_eq ?_
  rw [← replicate_unit_map]
  simp only [bind_assoc, pure_bind]

theorem hasLaw_crossover [DecidableEq A] (hR : Ideal R μ) (X : ChromOps I A) (half : ℝ) (fuel : Nat) (cr : Crossover ℝ) (pool : List I) :
    HasLaw μ (cr.apply R X half fuel pool) := by
  have := hR.isProbability
  cases cr with
  | singlePoint => exact hasLaw_applyPairs (hasLaw_liftSingle X (hasLaw_singlePoint hR)) _
  | twoPoint => exact hasLaw_applyPairs (hasLaw_liftSingle X (hasLaw_twoPoint hR)) _
  | multiPoint k => exact hasLaw_applyPairs (hasLaw_liftSingle X (hasLaw_multiPoint hR k)) _
  | fixedPoint cut => exact hasLaw_applyPairs (hasLaw_fixedPoint X cut) _
  | uniform => exact hasLaw_applyPairs (hasLaw_liftSingle X fun a b => hasLaw_mask hR (measurable_decide_ge half) a b) _
  | uniformParameterized bias => exact hasLaw_applyPairs (hasLaw_liftSingle X fun a b => hasLaw_mask hR (measurable_decide_le bias) a b) _
  | shuffle =>
    refine hasLaw_applyPairs (hasLaw_liftSingle X fun a b => ?_) _
    unfold shuffle
    exact (hR.hasLaw_below _ _).bind fun cut => (hR.hasLaw_shuffle _).bind fun s => (hasLaw_maskLoci _ _ _ _).bind fun s => .pure _
  | ordered => exact hasLaw_applyPairs (hasLaw_liftSingle X (hasLaw_ordered hR)) _
  | pmx => exact hasLaw_applyPairs (hasLaw_liftSingle X (hasLaw_pmx hR fuel)) _
  | ppx => exact hasLaw_applyPairs (hasLaw_liftSingle X (hasLaw_ppx hR)) _

/-! ## Selection without looking -/

/-- The two shipped selection operators that do not look at the fitness. -/
inductive BlindSelection
  | random
  | rankR (r : ℝ)

/-- `SelectionOperator::apply` of the two. -/
noncomputable def BlindSelection.apply (R : Rng G ℝ) (count : Nat) : BlindSelection → List I → M G (List I)
  | .random, pop => selRandom R count pop
  | .rankR r, pop => selRankR R r count pop

/-- The parameter of RankR is a probability. -/
def BlindSelection.Valid : BlindSelection → Prop
  | .random => True
  | .rankR r => 0 ≤ r ∧ r ≤ 1

open Classical in
theorem rankROne_law (hR : Ideal R μ) {r : ℝ} (h0 : 0 ≤ r) (h1 : r ≤ 1) {pop : List I} (hp : pop ≠ []) :
    Law μ (rankROne R r pop) fun x => (pop.count x : ℝ≥0∞) / pop.length := by
  have := hR.isProbability
  have hpos : 0 < pop.length := List.length_pos_iff.2 hp
  have hl := member_law hR hp
  have hu := hR.unit_lt h0 h1
  have h1 := hl.bind (f := fun p1 => (R.genRange 0 pop.length >>= idx pop) >>= fun p2 =>
      (R.genUnit >>= fun u => Pure.pure (decide (u < r))) >>= fun b => Pure.pure (if b then p1 else p2)) fun a _ =>
        hl.bind fun b _ => hu.map fun c => if c then a else b
  refine (h1.congr fun x => ?_).of_eq ?_
  · have hr : ENNReal.ofReal r + ENNReal.ofReal (1 - r) = 1 := by
      rw [← ENNReal.ofReal_add h0 (by linarith)]; simp
    have inner : ∀ a b : I, (∑' c : Bool, if (if c then a else b) = x then ENNReal.ofReal (if c then r else 1 - r) else 0) =
        (if a = x then ENNReal.ofReal r else 0) + (if b = x then ENNReal.ofReal (1 - r) else 0) := by
      intro a b
      rw [tsum_bool, add_comm]
      simp
    simp only [inner]
    simp only [tsum_member, List.sum_map_add, sum_map_ite, List.map_const', List.sum_replicate, nsmul_eq_mul, sum_map_div, mul_ite, mul_zero]
    have hn0 : (pop.length : ℝ≥0∞) ≠ 0 := by exact_mod_cast hpos.ne'
    have hs : (pop.count x : ℝ≥0∞) * (pop.length * ENNReal.ofReal r) + pop.length * (pop.count x * ENNReal.ofReal (1 - r)) =
        pop.count x * pop.length := by
      calc _ = (pop.count x : ℝ≥0∞) * pop.length * (ENNReal.ofReal r + ENNReal.ofReal (1 - r)) := by ring
        _ = _ := by rw [hr, mul_one]
    rw [hs, ENNReal.mul_div_cancel_right hn0 (ENNReal.natCast_ne_top _)]
  · unfold rankROne
    simp only [bind_assoc, pure_bind, decide_eq_true_eq]

open Classical in
theorem chance_of_member_law [IsProbabilityMeasure μ] {m : M G I} {pop : List I}
    (h : Law μ m fun x => (pop.count x : ℝ≥0∞) / pop.length) (Q : I → Prop) :
    chance μ m Q = number Q pop / pop.length := by
  rw [h.chance]
  have e : ∀ a, (if Q a then (pop.count a : ℝ≥0∞) / pop.length else 0) = (pop.count a : ℝ≥0∞) / pop.length * if Q a then 1 else 0 := by
    intro a; split <;> simp
  simp only [e]
  rw [tsum_member]
  congr 1
  clear h e
  induction pop with
  | nil => simp [number]
  | cons a pop ih =>
    rw [List.map_cons, List.sum_cons, ih, number_cons]
    push_cast
    split <;> simp

/-- Blind selection is `count` independent draws of a member. -/
theorem blind_eq (hR : Ideal R μ) {sel : BlindSelection} (hsel : sel.Valid) {pop : List I} (hp : pop ≠ []) (count : Nat) :
    ∃ one : M G I, HasLaw μ one ∧ Returns one (· ∈ pop) ∧ sel.apply R count pop = M.replicate count one ∧
      ∀ Q : I → Prop, chance μ one Q = number Q pop / pop.length := by
  have := hR.isProbability
  have h0 : 0 < pop.length := List.length_pos_iff.2 hp
  have hidx : ∀ i, i < pop.length → Returns (idx pop i : M G I) (· ∈ pop) := by
    intro i hi
    unfold idx
    rw [List.getElem?_eq_getElem hi]
    exact Returns.pure (List.getElem_mem hi)
  have hone : Returns (R.genRange 0 pop.length >>= idx pop) (· ∈ pop) := Returns.bind (R.genRange_returns h0) fun i hi => hidx i hi.2
  have ha : (M.assert (decide (0 < pop.length)) .emptyRange : M G Unit) = pure () := by
    unfold M.assert; rw [if_pos (by simpa using h0)]
  cases sel with
  | random =>
    refine ⟨_, (member_law hR hp).has, hone, ?_, chance_of_member_law (member_law hR hp)⟩
    show selRandom R count pop = _
    unfold selRandom
    rw [hR.onClone_eq, ha, pure_bind]
    induction count with
    | zero => rfl
    | succ n ih =>
      rw [M.replicate, M.replicate, ← ih]
      simp only [bind_assoc, pure_bind, M.forEach]
      funext g
      obtain ⟨i, g1, h1, -, hi⟩ := R.genRange_returns h0 g
      have h2 : (idx pop i : M G I) = pure pop[i] := by unfold idx; rw [List.getElem?_eq_getElem hi]
      rw [M.bind_of_ok h1, M.bind_of_ok h1, h2]
      simp only [pure_bind]
  | rankR r =>
    have hl := rankROne_law hR hsel.1 hsel.2 hp
    refine ⟨_, hl.has, ?_, ?_, chance_of_member_law hl⟩
    · unfold rankROne
      refine Returns.bind (R.genRange_returns h0) fun i hi => Returns.bind (hidx i hi.2) fun p1 hp1 =>
        Returns.bind (R.genRange_returns h0) fun j hj => Returns.bind (hidx j hj.2) fun p2 hp2 =>
          Returns.bind R.genUnit_returns fun u _ => Returns.pure ?_
      split
      · exact hp1
      · exact hp2
    · show selRankR R r count pop = _
      unfold selRankR
      rw [ha, pure_bind]

end laws

/-! ## Crossover -/

section crossover
variable {G U I A : Type} [LinearOrder U] [Zero U] [One U] [DecidableEq A]

/-- The individual has at locus `j` a gene with the property `P` (for example: the gene is `a`, or it lies in some interval). -/
def CarriesAt (X : ChromOps I A) (j : Nat) (P : A → Prop) (i : I) : Prop := ∃ a, (X.ch i)[j]? = some a ∧ P a

theorem number_pairs (X : ChromOps I A) (j : Nat) (P : A → Prop) {pool out : List I} (h : PairsRel (LocusWise X) pool out) :
    number (CarriesAt X j P) out = number (CarriesAt X j P) pool := by
  classical
  induction h with
  | nil => rfl
  | @cons a b c d sel out hq _ ih =>
    rw [number_cons, number_cons, number_cons, number_cons, ih]
    have e : ∀ i i', (X.ch i)[j]? = (X.ch i')[j]? → (CarriesAt X j P i ↔ CarriesAt X j P i') := by
      intro i i' h
      unfold CarriesAt
      rw [h]
    rcases hq.2.2 j with ⟨h1, h2⟩ | ⟨h1, h2⟩
    · rw [if_congr (e c a h1) rfl rfl, if_congr (e d b h2) rfl rfl]
    · rw [if_congr (e c b h1) rfl rfl, if_congr (e d a h2) rfl rfl]
      omega

/-- **C162, crossover.** The seven locus-wise crossovers neither create nor destroy genes: if one returns, the pool of children has at
every locus as many genes of every kind as the pool of parents. -/
theorem C162_crossover (R : Rng G U) (X : ChromOps I A) {half : U} {fuel d : Nat} {cr : Crossover U} (hcr : cr.isLocus = true) (hd : 0 < d)
    {pool : List I} (hp : ∀ i ∈ pool, (X.ch i).length = d) (j : Nat) (P : A → Prop) :
    IfReturns (cr.apply R X half fuel pool) fun out => number (CarriesAt X j P) out = number (CarriesAt X j P) pool :=
  (locusCross_ifReturns R X hcr hd hp).mono fun _ h => number_pairs X j P h

end crossover

/-! ## Generations -/

section ga
variable {G A F : Type} [MeasurableSpace G] [DecidableEq A] [LinearOrder F] {R : Rng G ℝ} {μ : Measure G}

/-- A GA as assembled with the generic builder (src/ga/builder/generic.rs:72-193): any population generator, Random or RankR selecting
`n` individuals, any shipped crossover, Identity mutation, BothParents, any fitness function without NaN; all operators draw from the
same generator. -/
noncomputable def driftOps (R : Rng G ℝ) (worst : Fl F) (fitness : List A → F) (gen : Nat → M G (List (Individual (List A) F)))
    (sel : BlindSelection) (cr : Crossover ℝ) (half : ℝ) (fuel n : Nat) (elapsed : M G Nat) : Ops G (Individual (List A) F) F where
  generate := gen
  fitnessFn := fnFitness (Individual.trait (List A) F) fun c => .num (fitness c)
  select _ pop := sel.apply R n pop
  cross _ pool := cr.apply R (Individual.chromOps A worst) half fuel pool
  mutate _ i := applyMutation (Individual.chromOps A worst) identityMut i
  replace _ pop children := bothParents pop children
  requiresChildrenFitness := false
  elapsed := elapsed

/-- Evaluation writes the fitness into the individuals. -/
def evaluated (fitness : List A → F) (i : Individual (List A) F) : Individual (List A) F := ⟨i.chromosome, .num (fitness i.chromosome)⟩

/-- The number of members with a gene with property `P` at locus `j`. -/
noncomputable def carriers (j : Nat) (P : A → Prop) (pop : List (Individual (List A) F)) : Nat :=
  number (fun i => ∃ a, i.chromosome[j]? = some a ∧ P a) pop

theorem carriers_eq (worst : Fl F) (j : Nat) (P : A → Prop) (pop : List (Individual (List A) F)) :
    carriers j P pop = number (CarriesAt (Individual.chromOps A worst) j P) pop := rfl

theorem carriers_evaluated (fitness : List A → F) (j : Nat) (P : A → Prop) (pop : List (Individual (List A) F)) :
    carriers j P (pop.map (evaluated fitness)) = carriers j P pop := by
  unfold carriers number
  rw [List.countP_map]
  rfl

variable {worst : Fl F} {fitness : List A → F} {gen : Nat → M G (List (Individual (List A) F))} {sel : BlindSelection} {cr : Crossover ℝ}
  {half : ℝ} {fuel n d : Nat} {elapsed : M G Nat} {p : GAParams}

theorem drift_evalPop : ∀ pop, evalPop (Individual.trait (List A) F) (driftOps R worst fitness gen sel cr half fuel n elapsed) pop =
      pure (pop.map (evaluated fitness))
  | [] => rfl
  | i :: pop => by
    have ih := drift_evalPop pop
    unfold evalPop at ih ⊢
    rw [M.forEach, ih]
    rfl

theorem driftOps_lawOps (hR : Ideal R μ) (hgen : ∀ k, HasLaw μ (gen k)) (hel : HasLaw μ elapsed) :
    LawOps μ (driftOps R worst fitness gen sel cr half fuel n elapsed) := by
  have := hR.isProbability
  refine ⟨hgen, fun i => .pure _, fun m pop => ?_, fun m pool => hasLaw_crossover hR _ _ _ _ _,
    fun m i => hasLaw_applyMutation _ (fun c => .pure _) _, fun m pop ch => .pure _, hel⟩
  cases sel with
  | random => exact hasLaw_selRandom hR _ _
  | rankR r => exact hasLaw_selRankR hR _ _ _

/-- The populations of the runs considered: `n` individuals with chromosomes of length `d`. -/
def Shaped (n d : Nat) (pop : List (Individual (List A) F)) : Prop := pop.length = n ∧ ∀ i ∈ pop, i.chromosome.length = d

/-- What follows selection returns for certain and changes no count. -/
theorem drift_after (hcr : cr.isLocus = true) (hd : 0 < d) (hfit : cr.fits d) (hn : 0 < n) (he : n % 2 = 0) (hp : p.populationSize = n)
    (hel : Returns elapsed fun t => t < p.maxDuration) (s : St (Individual (List A) F)) (m : Metrics)
    (pop : List (Individual (List A) F)) {pool : List (Individual (List A) F)} (hpool : Shaped n d pool) :
    Returns (do
      let crossed ← (driftOps R worst fitness gen sel cr half fuel n elapsed).cross m pool
      let mutated ← M.forEach ((driftOps R worst fitness gen sel cr half fuel n elapsed).mutate m) crossed
      let children ← evalChildren (Individual.trait (List A) F) (driftOps R worst fitness gen sel cr half fuel n elapsed) mutated
      let replaced ← (driftOps R worst fitness gen sel cr half fuel n elapsed).replace m pop children
      let m' : Metrics := { m with populationSize := replaced.length }
      M.assert (replaced.length == p.populationSize)
      let b ← M.ofExcept (findBest (Individual.trait (List A) F) (replaced.map (evaluated fitness)))
      let improved := Fl.lt ((Individual.trait (List A) F).fitness b) ((Individual.trait (List A) F).fitness s.best)
      let best' := if improved then b else s.best
      let d' ← (driftOps R worst fitness gen sel cr half fuel n elapsed).elapsed
      let trace := s.trace ++ [.onIterationStart m, .selectCall pop, .replaceCall pop children,
          .onNewGeneration m' (replaced.map (evaluated fitness)), .onBestFit m' b] ++
          (if improved then [.onNewBest m' b] else []) ++ [.onIterationEnd m', .clockCheck d']
      pure (({ pop := replaced.map (evaluated fitness), best := best', metrics := m', trace := trace } : St (Individual (List A) F)),
        decide (p.maxDuration ≤ d'))) fun r => Shaped n d r.1.pop ∧ r.2 = false ∧
          ∀ j (P : A → Prop), carriers j P r.1.pop = carriers j P pool := by
  refine Returns.bind (locusCross_returns R (Individual.chromOps A worst) hcr hd hfit hpool.2 (by rw [hpool.1]; exact he)) fun crossed hc => ?_
  have hmut : M.forEach ((driftOps R worst fitness gen sel cr half fuel n elapsed).mutate m) crossed = pure crossed := by
    clear hc
    induction crossed with
    | nil => rfl
    | cons i crossed ih => rw [M.forEach, ih]; rfl
  rw [hmut, pure_bind]
  show Returns (pure crossed >>= fun children => _) _
  rw [pure_bind]
  show Returns (pure crossed >>= fun replaced => _) _
  have hlen : crossed.length = n := by rw [hc.length, hpool.1]
  rw [pure_bind, assert_pure (by rw [hlen, hp]; simp), pure_bind]
  obtain ⟨b, hb⟩ := findBest_ok (Individual.trait (List A) F) (l := crossed.map (evaluated fitness))
    (by intro h; rw [List.map_eq_nil_iff] at h; rw [h] at hlen; simp at hlen; omega) (by
      intro i hi
      obtain ⟨j, -, rfl⟩ := List.mem_map.1 hi
      exact trivial)
  refine Returns.bind (Returns.ofExcept hb trivial) fun b' (_ : True) => Returns.bind hel fun d' hd' => Returns.pure ⟨⟨?_, ?_⟩, ?_, ?_⟩
  · simpa using hlen
  · intro i hi
    obtain ⟨i', hi', rfl⟩ := List.mem_map.1 hi
    have := pairsRel_all (P := fun i : Individual (List A) F => i.chromosome.length = d) hc hpool.2
      fun x y c' d' hx hy hq => ⟨hq.1.trans hx, hq.2.1.trans hx⟩
    exact this i' hi'
  · simpa using hd'
  · intro j P
    show carriers j P (crossed.map (evaluated fitness)) = _
    rw [carriers_evaluated, carriers_eq worst, carriers_eq worst, number_pairs _ j P hc]

theorem drift_iteration_eq (g : Nat) (s : St (Individual (List A) F)) :
    iteration (Individual.trait (List A) F) (driftOps R worst fitness gen sel cr half fuel n elapsed) p g s = (do
      let d ← elapsed
      let pool ← sel.apply R n (s.pop.map (evaluated fitness))
      let crossed ← (driftOps R worst fitness gen sel cr half fuel n elapsed).cross { s.metrics with generation := g, totalDur := some d } pool
      let mutated ← M.forEach ((driftOps R worst fitness gen sel cr half fuel n elapsed).mutate { s.metrics with generation := g, totalDur := some d }) crossed
      let children ← evalChildren (Individual.trait (List A) F) (driftOps R worst fitness gen sel cr half fuel n elapsed) mutated
      let replaced ← (driftOps R worst fitness gen sel cr half fuel n elapsed).replace { s.metrics with generation := g, totalDur := some d } (s.pop.map (evaluated fitness)) children
      let m' : Metrics := { { s.metrics with generation := g, totalDur := some d } with populationSize := replaced.length }
      M.assert (replaced.length == p.populationSize)
      let b ← M.ofExcept (findBest (Individual.trait (List A) F) (replaced.map (evaluated fitness)))
      let improved := Fl.lt ((Individual.trait (List A) F).fitness b) ((Individual.trait (List A) F).fitness s.best)
      let best' := if improved then b else s.best
      let d' ← (driftOps R worst fitness gen sel cr half fuel n elapsed).elapsed
      let trace := s.trace ++ [.onIterationStart { s.metrics with generation := g, totalDur := some d }, .selectCall (s.pop.map (evaluated fitness)), .replaceCall (s.pop.map (evaluated fitness)) children,
          .onNewGeneration m' (replaced.map (evaluated fitness)), .onBestFit m' b] ++
          (if improved then [.onNewBest m' b] else []) ++ [.onIterationEnd m', .clockCheck d']
      pure (({ pop := replaced.map (evaluated fitness), best := best', metrics := m', trace := trace } : St (Individual (List A) F)),
        decide (p.maxDuration ≤ d'))) := by
  unfold iteration
  simp only [drift_evalPop, pure_bind]
  rfl


/-- The setting of the following theorems: an ideal generator, Random or RankR selecting as many individuals as the population has
(an even number), one of the seven locus-wise crossovers with parameters that fit chromosomes of `d` genes, and a clock that
does not run out. -/
structure Neutral (R : Rng G ℝ) (μ : Measure G) (sel : BlindSelection) (cr : Crossover ℝ) (n d : Nat) (elapsed : M G Nat) (maxDuration : Nat) :
    Prop where
  ideal : Ideal R μ
  valid : sel.Valid
  locus : cr.isLocus = true
  fits : cr.fits d
  genes : 0 < d
  members : 0 < n
  even : n % 2 = 0
  clockLaw : HasLaw μ elapsed
  clock : Returns elapsed fun t => t < maxDuration

theorem shaped_evaluated {pop : List (Individual (List A) F)} (h : Shaped n d pop) : Shaped n d (pop.map (evaluated fitness)) := by
  refine ⟨by simpa using h.1, fun i hi => ?_⟩
  obtain ⟨i', hi', rfl⟩ := List.mem_map.1 hi
  exact h.2 i' hi'

theorem shaped_ne_nil (hn : 0 < n) {pop : List (Individual (List A) F)} (h : Shaped n d pop) : pop ≠ [] := by
  rintro rfl
  have := h.1
  simp at this
  omega

/-- The selected pool has the same shape. -/
theorem blind_shaped (hR : Ideal R μ) (hsel : sel.Valid) (hn : 0 < n) {pop : List (Individual (List A) F)} (h : Shaped n d pop) :
    Returns (sel.apply R n pop) (Shaped n d) := by
  obtain ⟨one, -, hret, e, -⟩ := blind_eq hR hsel (shaped_ne_nil hn h) n
  rw [e]
  refine (Returns.replicate hret n).mono fun xs hx => ⟨hx.1, fun i hi => h.2 i (hx.2 i hi)⟩

theorem drift_returns (h : Neutral R μ sel cr n d elapsed p.maxDuration) (hp : p.populationSize = n) (g : Nat)
    {s : St (Individual (List A) F)} (hs : Shaped n d s.pop) :
    Returns (iteration (Individual.trait (List A) F) (driftOps R worst fitness gen sel cr half fuel n elapsed) p g s)
      fun r => Shaped n d r.1.pop ∧ r.2 = false := by
  rw [drift_iteration_eq]
  refine Returns.bind h.clock fun t _ => Returns.bind (blind_shaped h.ideal h.valid h.members (shaped_evaluated hs)) fun pool hpool => ?_
  exact (drift_after h.locus h.genes h.fits h.members h.even hp h.clock s _ _ hpool).mono fun r hr => ⟨hr.1, hr.2.1⟩

/-- The number of carriers after a generation is as random as in the selected pool. -/
theorem drift_step (h : Neutral R μ sel cr n d elapsed p.maxDuration) (hp : p.populationSize = n) (hgen : ∀ k, HasLaw μ (gen k)) (g : Nat)
    {s : St (Individual (List A) F)} (hs : Shaped n d s.pop) (j : Nat) (P : A → Prop) (B : Nat → Prop) :
    chance μ (iteration (Individual.trait (List A) F) (driftOps R worst fitness gen sel cr half fuel n elapsed) p g s)
        (fun r => B (carriers j P r.1.pop)) =
      chance μ (sel.apply R n (s.pop.map (evaluated fitness))) fun pool => B (carriers j P pool) := by
  have := h.ideal.isProbability
  have hl := driftOps_lawOps (worst := worst) (fitness := fitness) (gen := gen) (sel := sel) (cr := cr) (half := half) (fuel := fuel) (n := n)
    h.ideal hgen h.clockLaw
  rw [drift_iteration_eq]
  refine h.clockLaw.chance_bind_const h.clock (fun t _ => ?_) fun t _ => ?_
  · exact (hl.sel ⟨0, 0, none⟩ _).bind fun pool => (hl.cross _ _).bind fun cr => (HasLaw.forEach (hl.mutate _) _).bind fun mu =>
      (hl.evalChildren _).bind fun ch => (hl.replace _ _ _).bind fun re => (HasLaw.assert _ _).bind fun _ =>
      (HasLaw.ofExcept _).bind fun b => hl.elapsed.bind fun d' => .pure _
  · refine chance_bind_same (blind_shaped h.ideal h.valid h.members (shaped_evaluated hs)).ifReturns fun pool hpool => ?_
    refine (drift_after h.locus h.genes h.fits h.members h.even hp h.clock s _ _ hpool).mono fun r hr => ?_
    rw [hr.2.2 j P]

theorem carriers_le (j : Nat) (P : A → Prop) (pop : List (Individual (List A) F)) : carriers j P pop ≤ pop.length := List.countP_le_length

/-- **C162, one generation.** If `x` of the `n` members carry a gene at locus `j`, the number of carriers in the next generation has the
binomial distribution with parameters `n` and `x / n`. -/
theorem C162_binomial (h : Neutral R μ sel cr n d elapsed p.maxDuration) (hp : p.populationSize = n) (hgen : ∀ k, HasLaw μ (gen k)) (g : Nat)
    {s : St (Individual (List A) F)} (hs : Shaped n d s.pop) (j : Nat) (P : A → Prop) (k : Nat) :
    chance μ (iteration (Individual.trait (List A) F) (driftOps R worst fitness gen sel cr half fuel n elapsed) p g s)
        (fun r => carriers j P r.1.pop = k) =
      n.choose k * ((carriers j P s.pop : ℝ≥0∞) / n) ^ k * (((n - carriers j P s.pop : ℕ) : ℝ≥0∞) / n) ^ (n - k) := by
  have := h.ideal.isProbability
  rw [drift_step h hp hgen g hs j P (· = k)]
  obtain ⟨one, hlaw, hret, e, hc⟩ := blind_eq h.ideal h.valid (shaped_ne_nil h.members (shaped_evaluated (fitness := fitness) hs)) n
  rw [e]
  have := hlaw.binomial (fun i : Individual (List A) F => ∃ a, i.chromosome[j]? = some a ∧ P a) n k
  rw [hc, hc] at this
  have hlen : (s.pop.map (evaluated fitness)).length = n := (shaped_evaluated hs).1
  have h1 : number (fun i : Individual (List A) F => ∃ a, i.chromosome[j]? = some a ∧ P a) (s.pop.map (evaluated fitness)) = carriers j P s.pop :=
    carriers_evaluated fitness j P s.pop
  have h2 := number_add_number_not (fun i : Individual (List A) F => ∃ a, i.chromosome[j]? = some a ∧ P a) (s.pop.map (evaluated fitness))
  rw [h1, hlen] at h2
  rw [h1, hlen, show number (fun x : Individual (List A) F => ¬ ∃ a, x.chromosome[j]? = some a ∧ P a) (s.pop.map (evaluated fitness)) =
    n - carriers j P s.pop by omega] at this
  exact this

theorem drift_mean_step (h : Neutral R μ sel cr n d elapsed p.maxDuration) (hp : p.populationSize = n) (hgen : ∀ k, HasLaw μ (gen k)) (g : Nat)
    {s : St (Individual (List A) F)} (hs : Shaped n d s.pop) (j : Nat) (P : A → Prop) :
    expected μ (iteration (Individual.trait (List A) F) (driftOps R worst fitness gen sel cr half fuel n elapsed) p g s)
        (fun r => carriers j P r.1.pop) = carriers j P s.pop := by
  have := h.ideal.isProbability
  obtain ⟨one, hlaw, hret, e, hc⟩ := blind_eq h.ideal h.valid (shaped_ne_nil h.members (shaped_evaluated (fitness := fitness) hs)) n
  rw [expected_congr (m' := sel.apply R n (s.pop.map (evaluated fitness))) (f' := carriers j P) fun k => drift_step h hp hgen g hs j P (· = k), e]
  have := hlaw.expected_replicate (hret.mono fun _ _ => trivial) (fun i : Individual (List A) F => ∃ a, i.chromosome[j]? = some a ∧ P a) n
  rw [hc, (shaped_evaluated (fitness := fitness) hs).1, show number (fun i : Individual (List A) F => ∃ a, i.chromosome[j]? = some a ∧ P a)
    (s.pop.map (evaluated fitness)) = carriers j P s.pop from carriers_evaluated fitness j P s.pop] at this
  refine this.trans ?_
  have hn0 : (n : ℝ≥0∞) ≠ 0 := by exact_mod_cast h.members.ne'
  rw [ENNReal.mul_div_cancel hn0 (ENNReal.natCast_ne_top _)]

theorem drift_diversity_step (h : Neutral R μ sel cr n d elapsed p.maxDuration) (hp : p.populationSize = n) (hgen : ∀ k, HasLaw μ (gen k))
    (g : Nat) {s : St (Individual (List A) F)} (hs : Shaped n d s.pop) (j : Nat) (P : A → Prop) :
    n * expected μ (iteration (Individual.trait (List A) F) (driftOps R worst fitness gen sel cr half fuel n elapsed) p g s)
        (fun r => carriers j P r.1.pop * (n - carriers j P r.1.pop)) =
      (n - 1 : ℕ) * ((carriers j P s.pop * (n - carriers j P s.pop) : ℕ) : ℝ≥0∞) := by
  have := h.ideal.isProbability
  obtain ⟨one, hlaw, hret, e, hc⟩ := blind_eq h.ideal h.valid (shaped_ne_nil h.members (shaped_evaluated (fitness := fitness) hs)) n
  set Q : Individual (List A) F → Prop := fun i => ∃ a, i.chromosome[j]? = some a ∧ P a with hQ
  have hlen : (s.pop.map (evaluated fitness)).length = n := (shaped_evaluated hs).1
  have h1 : number Q (s.pop.map (evaluated fitness)) = carriers j P s.pop := carriers_evaluated fitness j P s.pop
  have h2 := number_add_number_not Q (s.pop.map (evaluated fitness))
  rw [h1, hlen] at h2
  have h3 : number (fun x => ¬ Q x) (s.pop.map (evaluated fitness)) = n - carriers j P s.pop := by omega
  have hdiv := hlaw.expected_diversity (hret.mono fun _ _ => trivial) Q n
  rw [hc, hc, h1, hlen, h3] at hdiv
  rw [expected_congr (m' := M.replicate n one) (f' := fun xs => number Q xs * number (fun x => ¬ Q x) xs), hdiv]
  · have hn0 : (n : ℝ≥0∞) ≠ 0 := by exact_mod_cast h.members.ne'
    have hn1 := ENNReal.natCast_ne_top n
    push_cast
    calc _ = ((n - 1 : ℕ) : ℝ≥0∞) * (n * (carriers j P s.pop / n)) * (n * ((n - carriers j P s.pop : ℕ) / n)) := by push_cast; ring
      _ = _ := by rw [ENNReal.mul_div_cancel hn0 hn1, ENNReal.mul_div_cancel hn0 hn1]; push_cast; ring
  · intro k
    rw [drift_step h hp hgen g hs j P (fun x => x * (n - x) = k), e]
    unfold chance
    congr 1
    ext w
    refine exists_congr fun xs => exists_congr fun w' => and_congr_right fun hx => ?_
    have hl := (Returns.replicate hret n).ifReturns _ _ _ hx
    have h4 := number_add_number_not Q xs
    show carriers j P xs * (n - carriers j P xs) = k ↔ number Q xs * number (fun x => ¬ Q x) xs = k
    have h5 : carriers j P xs = number Q xs := rfl
    rw [h5, show n - number Q xs = number (fun x => ¬ Q x) xs by rw [hl.1] at h4; omega]

theorem drift_loop (h : Neutral R μ sel cr n d elapsed p.maxDuration) (hp : p.populationSize = n) :
    ∀ (k g : Nat) {s : St (Individual (List A) F)}, Shaped n d s.pop →
      Returns (loop (Individual.trait (List A) F) (driftOps R worst fitness gen sel cr half fuel n elapsed) p k g s) fun r => Shaped n d r.pop
  | 0, g, s, hs => Returns.pure hs
  | k + 1, g, s, hs => by
    unfold loop
    refine Returns.bind (drift_returns h hp g hs) fun r hr => ?_
    obtain ⟨s', stop⟩ := r
    obtain ⟨h1, h2⟩ := hr
    simp only at h2
    subst h2
    exact drift_loop h hp k (g + 1) h1

theorem drift_mean (h : Neutral R μ sel cr n d elapsed p.maxDuration) (hp : p.populationSize = n) (hgen : ∀ k, HasLaw μ (gen k))
    (j : Nat) (P : A → Prop) : ∀ (k g : Nat) {s : St (Individual (List A) F)}, Shaped n d s.pop →
    expected μ (loop (Individual.trait (List A) F) (driftOps R worst fitness gen sel cr half fuel n elapsed) p k g s)
      (fun r => carriers j P r.pop) = carriers j P s.pop
  | 0, g, s, hs => by
    have := h.ideal.isProbability
    exact expected_pure s _
  | k + 1, g, s, hs => by
    have := h.ideal.isProbability
    have hl := driftOps_lawOps (worst := worst) (fitness := fitness) (gen := gen) (sel := sel) (cr := cr) (half := half) (fuel := fuel)
      (n := n) h.ideal hgen h.clockLaw
    unfold loop
    have := (hl.iteration (T := Individual.trait (List A) F) (p := p) g s).expected_bind_mul (drift_returns h hp g hs).ifReturns
      (g := fun r => if r.2 then pure r.1 else loop (Individual.trait (List A) F) (driftOps R worst fitness gen sel cr half fuel n elapsed) p k (g + 1) r.1)
      (k := fun r => carriers j P r.1.pop) (f := fun r => carriers j P r.pop) (c := 1) (d := 1)
      (fun r _ => .ite (.pure _) (hl.loop _ _ _)) (by
        rintro ⟨s', stop⟩ ⟨h1, h2⟩
        simp only at h2
        subst h2
        rw [one_mul, one_mul]
        exact drift_mean h hp hgen j P k (g + 1) h1)
    rw [one_mul, one_mul, drift_mean_step h hp hgen g hs j P] at this
    exact this

theorem drift_diversity (h : Neutral R μ sel cr n d elapsed p.maxDuration) (hp : p.populationSize = n) (hgen : ∀ k, HasLaw μ (gen k))
    (j : Nat) (P : A → Prop) : ∀ (k g : Nat) {s : St (Individual (List A) F)}, Shaped n d s.pop →
    (n : ℝ≥0∞) ^ k * expected μ (loop (Individual.trait (List A) F) (driftOps R worst fitness gen sel cr half fuel n elapsed) p k g s)
      (fun r => carriers j P r.pop * (n - carriers j P r.pop)) =
    ((n - 1 : ℕ) : ℝ≥0∞) ^ k * ((carriers j P s.pop * (n - carriers j P s.pop) : ℕ) : ℝ≥0∞)
  | 0, g, s, hs => by
    have := h.ideal.isProbability
    rw [pow_zero, pow_zero, one_mul, one_mul]
    exact expected_pure s _
  | k + 1, g, s, hs => by
    have := h.ideal.isProbability
    have hl := driftOps_lawOps (worst := worst) (fitness := fitness) (gen := gen) (sel := sel) (cr := cr) (half := half) (fuel := fuel)
      (n := n) h.ideal hgen h.clockLaw
    unfold loop
    have := (hl.iteration (T := Individual.trait (List A) F) (p := p) g s).expected_bind_mul (drift_returns h hp g hs).ifReturns
      (g := fun r => if r.2 then pure r.1 else loop (Individual.trait (List A) F) (driftOps R worst fitness gen sel cr half fuel n elapsed) p k (g + 1) r.1)
      (k := fun r => carriers j P r.1.pop * (n - carriers j P r.1.pop)) (f := fun r => carriers j P r.pop * (n - carriers j P r.pop))
      (c := ((n - 1 : ℕ) : ℝ≥0∞) ^ k) (d := (n : ℝ≥0∞) ^ k)
      (fun r _ => .ite (.pure _) (hl.loop _ _ _)) (by
        rintro ⟨s', stop⟩ ⟨h1, h2⟩
        simp only at h2
        subst h2
        exact drift_diversity h hp hgen j P k (g + 1) h1)
    rw [pow_succ', mul_assoc]
    refine (congrArg _ this).trans ?_
    rw [mul_left_comm, drift_diversity_step h hp hgen g hs j P, pow_succ, mul_assoc]


/-! ## Whole runs -/

/-- The population shown to `Probe::on_end`, the last event of a run. -/
def finalPopulation {I : Type} (r : I × List (Ev I)) : List I :=
  match r.2.getLast? with
  | some (.onEnd _ pop _) => pop
  | _ => []

theorem drift_run_eq (m0 : Metrics) :
    run (Individual.trait (List A) F) (driftOps R worst fitness gen sel cr half fuel n elapsed) p m0 = (do
      let s ← prologue (Individual.trait (List A) F) (driftOps R worst fitness gen sel cr half fuel n elapsed) p m0
      let s' ← loop (Individual.trait (List A) F) (driftOps R worst fitness gen sel cr half fuel n elapsed) p p.generationLimit 1 s
      let d ← elapsed
      let m : Metrics := { s'.metrics with totalDur := some d }
      pure (s'.best, s'.trace ++ [.onEnd m s'.pop s'.best])) := rfl

/-- The prologue keeps the generated chromosomes. -/
theorem drift_prologue (hn : 0 < n) (hp : p.populationSize = n) (hsh : Returns (gen n) (Shaped n d)) {maxDuration : Nat}
    (hel : Returns elapsed fun t => t < maxDuration) (m0 : Metrics) :
    Returns (prologue (Individual.trait (List A) F) (driftOps R worst fitness gen sel cr half fuel n elapsed) p m0) (fun s => Shaped n d s.pop) ∧
    ∀ (j : Nat) (P : A → Prop) (B : Nat → Prop),
      chance μ (prologue (Individual.trait (List A) F) (driftOps R worst fitness gen sel cr half fuel n elapsed) p m0)
        (fun s => B (carriers j P s.pop)) = chance μ (gen n) fun pop => B (carriers j P pop) := by
  have key : ∀ pop0, Shaped n d pop0 → Returns (do
      let m1 : Metrics := { m0 with populationSize := pop0.length }
      let pop ← evalPop (Individual.trait (List A) F) (driftOps R worst fitness gen sel cr half fuel n elapsed) pop0
      let b ← M.ofExcept (findBest (Individual.trait (List A) F) pop)
      let d ← (driftOps R worst fitness gen sel cr half fuel n elapsed).elapsed
      let m2 : Metrics := { m1 with totalDur := some d }
      pure ({ pop := pop, best := b, metrics := m2, trace := [.onStart m0, .onInitialPopulation m1 pop, .onNewBest m2 b] } : St (Individual (List A) F)))
      fun s => Shaped n d s.pop ∧ ∀ (j : Nat) (P : A → Prop), carriers j P s.pop = carriers j P pop0 := by
    intro pop0 h0
    simp only [drift_evalPop, pure_bind]
    obtain ⟨b, hb⟩ := findBest_ok (Individual.trait (List A) F) (l := pop0.map (evaluated fitness))
      (shaped_ne_nil hn (shaped_evaluated h0)) (by
        intro i hi
        obtain ⟨j, -, rfl⟩ := List.mem_map.1 hi
        exact trivial)
    exact Returns.bind (Returns.ofExcept hb trivial) fun b' (_ : True) => Returns.bind hel fun d' _ =>
      Returns.pure ⟨shaped_evaluated h0, fun j P => carriers_evaluated fitness j P pop0⟩
  unfold prologue
  rw [hp]
  refine ⟨Returns.bind hsh fun pop0 h0 => (key pop0 h0).mono fun s hs => hs.1, fun j P B => ?_⟩
  refine chance_bind_same hsh.ifReturns fun pop0 h0 => (key pop0 h0).mono fun s hs => ?_
  rw [hs.2 j P]

/-- The run returns for certain, with a final population of the same shape. -/
theorem drift_run_returns (h : Neutral R μ sel cr n d elapsed p.maxDuration) (hp : p.populationSize = n) (hsh : Returns (gen n) (Shaped n d))
    (m0 : Metrics) :
    Returns (run (Individual.trait (List A) F) (driftOps R worst fitness gen sel cr half fuel n elapsed) p m0)
      fun r => Shaped n d (finalPopulation r) := by
  rw [drift_run_eq]
  refine Returns.bind (drift_prologue (μ := μ) h.members hp hsh h.clock m0).1 fun s hs => Returns.bind (drift_loop h hp _ _ hs) fun s' hs' =>
    Returns.bind h.clock fun t _ => Returns.pure ?_
  unfold finalPopulation
  simpa using hs'

/-- Expectations of counts of the final population. -/
theorem drift_run_expected (h : Neutral R μ sel cr n d elapsed p.maxDuration) (hp : p.populationSize = n) (hgen : ∀ k, HasLaw μ (gen k))
    (hsh : Returns (gen n) (Shaped n d)) (m0 : Metrics) (j : Nat) (P : A → Prop) {f : Nat → Nat} {c e : ℝ≥0∞}
    (hf : ∀ {s : St (Individual (List A) F)}, Shaped n d s.pop → e * expected μ (loop (Individual.trait (List A) F)
      (driftOps R worst fitness gen sel cr half fuel n elapsed) p p.generationLimit 1 s) (fun r => f (carriers j P r.pop)) = c * f (carriers j P s.pop)) :
    e * expected μ (run (Individual.trait (List A) F) (driftOps R worst fitness gen sel cr half fuel n elapsed) p m0)
      (fun r => f (carriers j P (finalPopulation r))) = c * expected μ (gen n) fun pop => f (carriers j P pop) := by
  have := h.ideal.isProbability
  have hl := driftOps_lawOps (worst := worst) (fitness := fitness) (gen := gen) (sel := sel) (cr := cr) (half := half) (fuel := fuel)
    (n := n) h.ideal hgen h.clockLaw
  obtain ⟨h1, h2⟩ := drift_prologue (μ := μ) (R := R) (worst := worst) (fitness := fitness) (sel := sel) (cr := cr) (half := half) (fuel := fuel)
    h.members hp hsh h.clock m0
  rw [drift_run_eq, ← expected_congr (μ := μ) (m := prologue (Individual.trait (List A) F) (driftOps R worst fitness gen sel cr half fuel n elapsed) p m0)
    (f := fun s => f (carriers j P s.pop)) (m' := gen n) (f' := fun pop => f (carriers j P pop)) fun k => h2 j P fun x => f x = k]
  have hpro : HasLaw μ (prologue (Individual.trait (List A) F) (driftOps R worst fitness gen sel cr half fuel n elapsed) p m0) := by
    unfold prologue
    exact (hl.gen _).bind fun pop0 => (hl.evalPop _).bind fun pop => (HasLaw.ofExcept _).bind fun b => hl.elapsed.bind fun d => .pure _
  refine hpro.expected_bind_mul h1.ifReturns (fun s _ => (hl.loop _ _ _).bind fun s' => h.clockLaw.bind fun d => .pure _) fun s hs => ?_
  rw [← hf hs]
  congr 1
  refine expected_congr fun k => chance_bind_same (A := fun _ => True) IfReturns.trivial fun s' _ => ?_
  refine Returns.bind h.clock fun t _ => Returns.pure ?_
  unfold finalPopulation
  simp

/-- **C162, the mean.** However many generations a run has: the expected number of carriers of a gene in the final population is the
expected number in the initial one. The fitness plays no role. -/
theorem C162_mean (h : Neutral R μ sel cr n d elapsed p.maxDuration) (hp : p.populationSize = n) (hgen : ∀ k, HasLaw μ (gen k))
    (hsh : Returns (gen n) (Shaped n d)) (m0 : Metrics) (j : Nat) (P : A → Prop) :
    expected μ (run (Individual.trait (List A) F) (driftOps R worst fitness gen sel cr half fuel n elapsed) p m0)
      (fun r => carriers j P (finalPopulation r)) = expected μ (gen n) (carriers j P) := by
  have := drift_run_expected h hp hgen hsh m0 j P (f := id) (c := 1) (e := 1) (worst := worst) (fitness := fitness) (half := half) (fuel := fuel)
    fun hs => by
      rw [one_mul, one_mul]
      exact drift_mean h hp hgen j P _ _ hs
  rw [one_mul, one_mul] at this
  exact this

/-- **C162, the loss of diversity.** The expected number of pairs of a carrier and a non-carrier shrinks by the factor `(n - 1) / n` per
generation. -/
theorem C162_diversity (h : Neutral R μ sel cr n d elapsed p.maxDuration) (hp : p.populationSize = n) (hgen : ∀ k, HasLaw μ (gen k))
    (hsh : Returns (gen n) (Shaped n d)) (m0 : Metrics) (j : Nat) (P : A → Prop) :
    (n : ℝ≥0∞) ^ p.generationLimit * expected μ (run (Individual.trait (List A) F) (driftOps R worst fitness gen sel cr half fuel n elapsed) p m0)
      (fun r => carriers j P (finalPopulation r) * (n - carriers j P (finalPopulation r))) =
    ((n - 1 : ℕ) : ℝ≥0∞) ^ p.generationLimit * expected μ (gen n) fun pop => carriers j P pop * (n - carriers j P pop) :=
  drift_run_expected h hp hgen hsh m0 j P (f := fun x => x * (n - x)) fun hs => drift_diversity h hp hgen j P _ _ hs

/-- **C162, how long both kinds survive.** The probability that after `k` generations a locus still has carriers and non-carriers is at most
`E₀ / (n - 1) · ((n - 1) / n) ^ k`, where `E₀` is the expected number of pairs of a carrier and a non-carrier at the start. -/
theorem C162_not_fixed (h : Neutral R μ sel cr n d elapsed p.maxDuration) (hp : p.populationSize = n) (hgen : ∀ k, HasLaw μ (gen k))
    (hsh : Returns (gen n) (Shaped n d)) (m0 : Metrics) (j : Nat) (P : A → Prop) :
    chance μ (run (Individual.trait (List A) F) (driftOps R worst fitness gen sel cr half fuel n elapsed) p m0)
      (fun r => 0 < carriers j P (finalPopulation r) ∧ carriers j P (finalPopulation r) < n) ≤
    (expected μ (gen n) fun pop => carriers j P pop * (n - carriers j P pop)) / (n - 1 : ℕ) *
      (((n - 1 : ℕ) : ℝ≥0∞) / n) ^ p.generationLimit := by
  have := h.ideal.isProbability
  have hn2 : 2 ≤ n := by have := h.members; have := h.even; omega
  have hl := driftOps_lawOps (worst := worst) (fitness := fitness) (gen := gen) (sel := sel) (cr := cr) (half := half) (fuel := fuel)
    (n := n) h.ideal hgen h.clockLaw
  have hm := (hl.run (T := Individual.trait (List A) F) (p := p) m0).markov
    (fun r => carriers j P (finalPopulation r) * (n - carriers j P (finalPopulation r))) (n - 1)
  have hd := C162_diversity (worst := worst) (fitness := fitness) (half := half) (fuel := fuel) h hp hgen hsh m0 j P
  set E0 := expected μ (gen n) fun pop => carriers j P pop * (n - carriers j P pop) with hE0
  have hmono : chance μ (run (Individual.trait (List A) F) (driftOps R worst fitness gen sel cr half fuel n elapsed) p m0)
      (fun r => 0 < carriers j P (finalPopulation r) ∧ carriers j P (finalPopulation r) < n) ≤
    chance μ (run (Individual.trait (List A) F) (driftOps R worst fitness gen sel cr half fuel n elapsed) p m0)
      (fun r => n - 1 ≤ carriers j P (finalPopulation r) * (n - carriers j P (finalPopulation r))) := by
    refine chance_mono fun r hr => ?_
    obtain ⟨x, hx⟩ : ∃ x, carriers j P (finalPopulation r) = x + 1 := ⟨_, (Nat.sub_add_cancel hr.1).symm⟩
    obtain ⟨y, hy⟩ : ∃ y, n = x + 1 + (y + 1) := ⟨n - (x + 1) - 1, by have := hr.2; omega⟩
    rw [hx, hy, Nat.add_sub_cancel_left]
    have : (x + 1) * (y + 1) = x * y + x + y + 1 := by ring
    omega
  refine hmono.trans ?_
  have hn0 : (n : ℝ≥0∞) ≠ 0 := by exact_mod_cast (show n ≠ 0 by omega)
  have hn1 : ((n - 1 : ℕ) : ℝ≥0∞) ≠ 0 := by exact_mod_cast (show n - 1 ≠ 0 by omega)
  have hp0 : (n : ℝ≥0∞) ^ p.generationLimit ≠ 0 := pow_ne_zero _ hn0
  have hpt : (n : ℝ≥0∞) ^ p.generationLimit ≠ ∞ := ENNReal.pow_ne_top (ENNReal.natCast_ne_top _)
  have e1 : expected μ (run (Individual.trait (List A) F) (driftOps R worst fitness gen sel cr half fuel n elapsed) p m0)
      (fun r => carriers j P (finalPopulation r) * (n - carriers j P (finalPopulation r))) =
      E0 * (((n - 1 : ℕ) : ℝ≥0∞) / n) ^ p.generationLimit := by
    rw [ENNReal.div_eq_inv_mul, mul_pow, ← ENNReal.inv_pow, mul_comm, mul_assoc, ← hd, ← mul_assoc, ENNReal.inv_mul_cancel hp0 hpt, one_mul]
  rw [e1] at hm
  rw [ENNReal.div_eq_inv_mul, mul_assoc, ← ENNReal.div_eq_inv_mul, ENNReal.le_div_iff_mul_le (.inl hn1) (.inl (ENNReal.natCast_ne_top _)), mul_comm]
  exact hm

theorem expected_indicator_dec {I : Type} [IsProbabilityMeasure μ] {m : M G I} (hl : HasLaw μ m) (Q : I → Prop) [DecidablePred Q] :
    expected μ m (fun a => if Q a then 1 else 0) = chance μ m Q := by
  rw [← hl.expected_indicator Q]
  congr 1
  funext a
  by_cases hq : Q a <;> simp [hq]

/-- A count bounded by `n` has an expectation bounded by `n`. -/
theorem expected_le_const {I : Type} [IsProbabilityMeasure μ] {m : M G I} (hl : HasLaw μ m) {f : I → Nat} {c : Nat} (hf : Returns m fun a => f a ≤ c) :
    expected μ m f ≤ c := by
  rw [← expected_const (μ := μ) (hf.mono fun _ _ => trivial) c]
  exact hl.expected_mono hf.ifReturns

open Classical in
/-- **C162, fixation.** With more and more generations the probability that all members end up with the gene converges to the expected
share of its carriers in the initial population, whatever the fitness function (applied to the complement of `P` this gives the
probability that the gene gets lost). -/
theorem C162_fixation {maxDuration : Nat} (h : Neutral R μ sel cr n d elapsed maxDuration) (hgen : ∀ k, HasLaw μ (gen k))
    (hsh : Returns (gen n) (Shaped n d)) (m0 : Metrics) (j : Nat) (P : A → Prop) :
    Filter.Tendsto (fun k => chance μ (run (Individual.trait (List A) F) (driftOps R worst fitness gen sel cr half fuel n elapsed) ⟨n, k, maxDuration⟩ m0)
      fun r => ∀ i ∈ finalPopulation r, ∃ a, i.chromosome[j]? = some a ∧ P a) Filter.atTop (nhds (expected μ (gen n) (carriers j P) / n)) := by
  have := h.ideal.isProbability
  have hn2 : 2 ≤ n := by have := h.members; have := h.even; omega
  have hn0 : (n : ℝ≥0∞) ≠ 0 := by exact_mod_cast (show n ≠ 0 by omega)
  have hnt : (n : ℝ≥0∞) ≠ ∞ := ENNReal.natCast_ne_top _
  have hn1 : ((n - 1 : ℕ) : ℝ≥0∞) ≠ 0 := by exact_mod_cast (show n - 1 ≠ 0 by omega)
  have hl := driftOps_lawOps (worst := worst) (fitness := fitness) (gen := gen) (sel := sel) (cr := cr) (half := half) (fuel := fuel)
    (n := n) h.ideal hgen h.clockLaw
  set E0 := expected μ (gen n) fun pop => carriers j P pop * (n - carriers j P pop) with hE0
  set M0 := expected μ (gen n) (carriers j P) with hM0
  have hE0t : E0 ≠ ∞ := by
    refine ((expected_le_const (c := n * n) (hgen n) (hsh.mono fun pop hpop => ?_)).trans_lt (ENNReal.natCast_lt_top _)).ne
    exact Nat.mul_le_mul ((carriers_le j P pop).trans hpop.1.le) (Nat.sub_le _ _)
  set u : Nat → ℝ≥0∞ := fun k => E0 / (n - 1 : ℕ) * (((n - 1 : ℕ) : ℝ≥0∞) / n) ^ k with hu
  have hu0 : Filter.Tendsto u Filter.atTop (nhds 0) := by
    have h1 : Filter.Tendsto (fun k : Nat => (((n - 1 : ℕ) : ℝ≥0∞) / n) ^ k) Filter.atTop (nhds 0) := by
      refine ENNReal.tendsto_pow_atTop_nhds_zero_of_lt_one ?_
      rw [ENNReal.div_lt_iff (.inl hn0) (.inl hnt), one_mul]
      exact_mod_cast (show n - 1 < n by omega)
    have := ENNReal.Tendsto.const_mul h1 (a := E0 / (n - 1 : ℕ)) (.inr (ENNReal.div_ne_top hE0t hn1))
    rwa [mul_zero] at this
  set rn : Nat → M G (Individual (List A) F × List (Ev (Individual (List A) F))) := fun k =>
    run (Individual.trait (List A) F) (driftOps R worst fitness gen sel cr half fuel n elapsed) ⟨n, k, maxDuration⟩ m0 with hrn
  have hret : ∀ k, Returns (rn k) fun r => Shaped n d (finalPopulation r) := fun k =>
    drift_run_returns (p := ⟨n, k, maxDuration⟩) h rfl hsh m0
  have hlaw : ∀ k, HasLaw μ (rn k) := fun k => hl.run m0
  have hall : ∀ k, chance μ (rn k) (fun r => ∀ i ∈ finalPopulation r, ∃ a, i.chromosome[j]? = some a ∧ P a) =
      chance μ (rn k) fun r => n ≤ carriers j P (finalPopulation r) := by
    intro k
    unfold chance
    congr 1
    ext w
    refine exists_congr fun r => exists_congr fun w' => and_congr_right fun hx => ?_
    have hs := (hret k).ifReturns _ _ _ hx
    show _ ↔ n ≤ List.countP _ (finalPopulation r)
    constructor
    · intro hh
      rw [List.countP_eq_length.2 (by simpa using hh), hs.1]
    · intro hh
      have := List.countP_eq_length.1 (le_antisymm List.countP_le_length (hs.1.le.trans hh))
      simpa using this
  have hupper : ∀ k, chance μ (rn k) (fun r => n ≤ carriers j P (finalPopulation r)) ≤ M0 / n := by
    intro k
    rw [ENNReal.le_div_iff_mul_le (.inl hn0) (.inl hnt), mul_comm, hM0,
      ← C162_mean (p := ⟨n, k, maxDuration⟩) (worst := worst) (fitness := fitness) (half := half) (fuel := fuel) h rfl hgen hsh m0 j P]
    exact (hlaw k).markov _ _
  have hlower : ∀ k, M0 / n ≤ chance μ (rn k) (fun r => n ≤ carriers j P (finalPopulation r)) + u k := by
    intro k
    rw [ENNReal.div_le_iff hn0 hnt, hM0,
      ← C162_mean (p := ⟨n, k, maxDuration⟩) (worst := worst) (fitness := fitness) (half := half) (fuel := fuel) h rfl hgen hsh m0 j P]
    have h1 := (hlaw k).expected_mono (f := fun r => carriers j P (finalPopulation r))
      (g := fun r => n * (if n ≤ carriers j P (finalPopulation r) then 1 else 0) +
        n * (if 0 < carriers j P (finalPopulation r) ∧ carriers j P (finalPopulation r) < n then 1 else 0)) ((hret k).mono fun r hr => by
        have := (carriers_le j P (finalPopulation r)).trans hr.1.le
        by_cases c1 : n ≤ carriers j P (finalPopulation r)
        · simp only [c1, if_true]; omega
        · by_cases c2 : 0 < carriers j P (finalPopulation r)
          · rw [if_neg c1, if_pos ⟨c2, by omega⟩]; omega
          · omega).ifReturns
    refine h1.trans ?_
    rw [(hlaw k).expected_add, (hlaw k).expected_mul, (hlaw k).expected_mul, expected_indicator_dec (hlaw k), expected_indicator_dec (hlaw k),
      ← mul_add, mul_comm]
    refine mul_le_mul_left (add_le_add_right ?_ _) _
    exact C162_not_fixed (p := ⟨n, k, maxDuration⟩) (worst := worst) (fitness := fitness) (half := half) (fuel := fuel) h rfl hgen hsh m0 j P
  refine Filter.Tendsto.congr (fun k => (hall k).symm) ?_
  have hMt : M0 / n ≠ ∞ := by
    refine ENNReal.div_ne_top ?_ hn0
    exact ((expected_le_const (c := n) (hgen n) (hsh.mono fun pop hpop => (carriers_le j P pop).trans hpop.1.le)).trans_lt
      (ENNReal.natCast_lt_top _)).ne
  have hsub : Filter.Tendsto (fun k => M0 / n - u k) Filter.atTop (nhds (M0 / n)) := by
    have := ENNReal.Tendsto.sub (tendsto_const_nhds (x := M0 / n)) hu0 (.inl hMt)
    rwa [tsub_zero] at this
  exact tendsto_of_tendsto_of_tendsto_of_le_of_le hsub tendsto_const_nhds (fun k => tsub_le_iff_right.2 (hlower k)) hupper

end ga

/-! ## Non-vacuity -/

/-- A population of four bit strings, two of which begin with a one. -/
def fourStrings : List (Individual (List Bool) ℚ) := [⟨[true, true], .num 0⟩, ⟨[true, false], .num 0⟩, ⟨[false, true], .num 0⟩, ⟨[false, false], .num 0⟩]

theorem fourStrings_shaped : Shaped 4 2 fourStrings := by unfold Shaped fourStrings; simp

theorem neutral_example : Neutral tapeRng tapeLaw (.rankR (3 / 4)) .uniform 4 2 (pure 0) 100 :=
  ⟨tapeRng_ideal, ⟨by norm_num, by norm_num⟩, rfl, trivial, by decide, by decide, by decide, .pure 0, Returns.pure (by decide)⟩

example := C162_crossover tapeRng (Individual.chromOps Bool (.num (0 : ℚ))) (half := 1 / 2) (fuel := 0) (d := 2) (cr := .uniform) rfl (by decide)
  (pool := fourStrings) fourStrings_shaped.2 0 (· = true)
/-- RankR with r = 3/4 and Uniform; the fitness counts the ones. -/
example := C162_binomial (worst := .num 0) (fitness := fun c : List Bool => (c.count true : ℚ)) (gen := fun _ => pure fourStrings) (half := 1 / 2)
  (fuel := 0) (p := ⟨4, 50, 100⟩) neutral_example rfl (fun _ => .pure _) 1 (s := ⟨fourStrings, ⟨[], .num 0⟩, ⟨0, 4, none⟩, []⟩) fourStrings_shaped
  0 (· = true) 3
example := C162_mean (worst := .num 0) (fitness := fun c : List Bool => (c.count true : ℚ)) (gen := fun _ => pure fourStrings) (half := 1 / 2)
  (fuel := 0) (p := ⟨4, 50, 100⟩) neutral_example rfl (fun _ => .pure _) (Returns.pure fourStrings_shaped) ⟨0, 4, none⟩ 0 (· = true)
example := C162_diversity (worst := .num 0) (fitness := fun c : List Bool => (c.count true : ℚ)) (gen := fun _ => pure fourStrings) (half := 1 / 2)
  (fuel := 0) (p := ⟨4, 50, 100⟩) neutral_example rfl (fun _ => .pure _) (Returns.pure fourStrings_shaped) ⟨0, 4, none⟩ 0 (· = true)
example := C162_not_fixed (worst := .num 0) (fitness := fun c : List Bool => (c.count true : ℚ)) (gen := fun _ => pure fourStrings) (half := 1 / 2)
  (fuel := 0) (p := ⟨4, 50, 100⟩) neutral_example rfl (fun _ => .pure _) (Returns.pure fourStrings_shaped) ⟨0, 4, none⟩ 0 (· = true)
/-- The one wins with probability one half, although the solver looks for zeros. -/
example := C162_fixation (worst := .num 0) (fitness := fun c : List Bool => (c.count true : ℚ)) (gen := fun _ => pure fourStrings) (half := 1 / 2)
  (fuel := 0) neutral_example (fun _ => .pure _) (Returns.pure fourStrings_shaped) ⟨0, 4, none⟩ 0 (· = true)

end Ecrs.Props
