import Verif.Props.Linkage
import Verif.Props.ProbConverge
import Verif.Props.Presets
import Verif.ProbExpect

/-!
# C155: the schema theorem

How the number of individuals that carry a given pattern of bits changes from one generation to the next, for the textbook
configuration: RouletteWheel, SinglePoint, FlipBit, BothParents.
-/

set_option linter.unusedSectionVars false

namespace Ecrs.Props
open Ecrs Ecrs.Ga MeasureTheory
open scoped ENNReal

section
variable {G I : Type} [MeasurableSpace G] {R : Rng G ℝ} {μ : Measure G}

/-- The chromosome carries the schema: at each position of `H` it has the bit prescribed by `v`. -/
def Matches (H : Finset Nat) (v : Nat → Bool) (c : List Bool) : Prop := ∀ i ∈ H, c[i]? = some (v i)

/-! ## Selection -/

theorem sum_filter_eq (Q : I → Prop) [DecidablePred Q] [DecidableEq I] (fit : I → ℝ) : ∀ (pop : List I) (_ : ∀ y ∈ pop, 0 ≤ fit y) (s : Finset I),
    (∀ y ∈ pop, y ∈ s) → ∑ x ∈ s.filter Q, ENNReal.ofReal (pop.count x * fit x) = ENNReal.ofReal ((pop.filter Q).map fit).sum
  | [], _, s, _ => by simp
  | a :: pop, hf, s, h => by
    have ha := hf a (by simp)
    have ih := sum_filter_eq Q fit pop (fun y hy => hf y (by simp [hy])) s fun y hy => h y (by simp [hy])
    have e : ∀ x, ENNReal.ofReal ((a :: pop).count x * fit x) = ENNReal.ofReal (pop.count x * fit x) + if x = a then ENNReal.ofReal (fit a) else 0 := by
      intro x
      by_cases hx : x = a
      · subst hx
        rw [List.count_cons_self, if_pos rfl, ← ENNReal.ofReal_add (mul_nonneg (Nat.cast_nonneg _) ha) ha]
        congr 1; push_cast; ring
      · rw [List.count_cons_of_ne (Ne.symm hx), if_neg hx, add_zero]
    simp only [e]
    rw [Finset.sum_add_distrib, ih, Finset.sum_ite_eq' (s.filter Q) a]
    have hn : 0 ≤ ((pop.filter Q).map fit).sum := List.sum_nonneg (by intro x hx; obtain ⟨y, hy, rfl⟩ := List.mem_map.1 hx; exact hf y (by simp [List.mem_of_mem_filter hy]))
    by_cases hq : Q a
    · rw [if_pos (by simp [hq, h a]), List.filter_cons_of_pos (by simpa using hq), List.map_cons, List.sum_cons, add_comm,
        ENNReal.ofReal_add ha hn]
    · rw [if_neg (by simp [hq]), List.filter_cons_of_neg (by simpa using hq), add_zero]

open Classical in
/-- **C155, selection.** RouletteWheel, asked for `count` individuals, selects on average `count` times the share the members with
property `Q` have in the total fitness of the population. -/
theorem C155_selection (hR : Ideal R μ) (fit : I → ℝ) {pop : List I} (hf : ∀ y ∈ pop, 0 ≤ fit y) (hs : 0 < (pop.map fit).sum)
    (Q : I → Prop) (count : Nat) :
    expected μ (selRoulette R fit count pop) (number Q) =
      count * ENNReal.ofReal (((pop.filter fun i => decide (Q i)).map fit).sum / (pop.map fit).sum) := by
  have := hR.isProbability
  have hp : pop ≠ [] := by rintro rfl; simp at hs
  set h : ℝ → Option I := fun u => roulettePick fit ((pop.map fit).sum * u) 0 pop with hh
  have hc : (Set.range h).Countable := by
    refine ((pop.finite_toSet.image some).insert none).countable.mono ?_
    rintro _ ⟨u, rfl⟩
    cases e : h u with
    | none => simp
    | some x => exact .inr ⟨x, roulettePick_mem fit e, rfl⟩
  have hm : ∀ b, MeasurableSet {u | h u = b} := by
    intro b
    exact (measurable_const_mul (pop.map fit).sum) (roulette_measurable fit b pop 0)
  have hl := hR.unit_map h hc hm
  have e : selRoulette R fit count pop =
      M.replicate count (R.genUnit >>= fun u => pure (h u)) >>= fun os => pure (os.filterMap id) := by
    unfold selRoulette
    rw [← replicate_map]
    simp only [bind_assoc, pure_bind, List.filterMap_map, Function.id_comp]
    rfl
  have e2 : (fun os : List (Option I) => number Q (os.filterMap id)) =
      number fun o => ∃ x, o = some x ∧ Q x := by
    funext os
    unfold number
    rw [List.countP_filterMap]
    refine List.countP_congr fun o _ => ?_
    cases o <;> simp
  rw [e, expected_map, e2, hl.has.expected_replicate (Returns.bind R.genUnit_returns fun u _ => Returns.pure trivial), hl.chance]
  congr 1
  rw [tsum_eq_sum (s := (pop.toFinset.filter Q).image some)]
  · rw [Finset.sum_image (fun a _ b _ h => Option.some.inj h), ENNReal.ofReal_div_of_pos hs,
      ← sum_filter_eq Q fit pop hf pop.toFinset (fun y hy => by simpa using hy), ENNReal.div_eq_inv_mul, Finset.mul_sum]
    refine Finset.sum_congr rfl fun x hx => ?_
    rw [if_pos ⟨x, rfl, (Finset.mem_filter.1 hx).2⟩, roulette_slot fit x pop hf hs, ENNReal.ofReal_div_of_pos hs, ENNReal.div_eq_inv_mul]
  · intro o ho
    split
    · next hq =>
      obtain ⟨x, rfl, hq⟩ := hq
      rw [roulette_slot fit x pop hf hs]
      have : x ∉ pop := fun hx => ho (Finset.mem_image.2 ⟨x, by simp [hx, hq], rfl⟩)
      rw [List.count_eq_zero_of_not_mem this]; simp
    · rfl

open Classical in
/-- **C155, which patterns spread.** Selecting as many individuals as there are, RouletteWheel is expected to increase the number of
members with property `Q` exactly if their average fitness value exceeds the average of the population – although the solver looks
for the lowest value. -/
theorem C155_growth (hR : Ideal R μ) (fit : I → ℝ) {pop : List I} (hf : ∀ y ∈ pop, 0 ≤ fit y) (hs : 0 < (pop.map fit).sum)
    (Q : I → Prop) :
    (number Q pop : ℝ≥0∞) < expected μ (selRoulette R fit pop.length pop) (number Q) ↔
      (pop.map fit).sum / pop.length * number Q pop < ((pop.filter fun i => decide (Q i)).map fit).sum := by
  have hl : (0 : ℝ) < pop.length := by
    rw [Nat.cast_pos, List.length_pos_iff]
    rintro rfl; simp at hs
  rw [C155_selection hR fit hf hs, ← ENNReal.ofReal_natCast, ← ENNReal.ofReal_natCast, ← ENNReal.ofReal_mul hl.le,
    ENNReal.ofReal_lt_ofReal_iff_of_nonneg (Nat.cast_nonneg _), ← mul_div_assoc, lt_div_iff₀ hs, div_mul_eq_mul_div, div_lt_iff₀ hl,
    mul_comm (number Q pop : ℝ), mul_comm (pop.length : ℝ)]

/-! ## Mutation -/

/-- The total weight of the masks that are off at the positions of `H`. -/
theorem sum_masks_off {r : ℝ} (h0 : 0 ≤ r) (h1 : r ≤ 1) : ∀ (n : Nat) (H : Finset Nat), (∀ i ∈ H, i < n) →
    (∑ m ∈ masks n, if ∀ i ∈ H, m[i]? = some false then ENNReal.ofReal (r ^ m.count true * (1 - r) ^ m.count false) else 0) =
      ENNReal.ofReal ((1 - r) ^ H.card)
  | 0, H, h => by
    have : masks 0 = {[]} := by ext m; rw [mem_masks, Finset.mem_singleton, List.length_eq_zero_iff]
    have hH : H = ∅ := by
      rw [Finset.eq_empty_iff_forall_notMem]
      intro i hi; exact absurd (h i hi) (by omega)
    simp [this, hH]
  | n + 1, H, h => by
    have hr : 0 ≤ 1 - r := by linarith
    have ih := sum_masks_off h0 h1 n (H.erase n) fun i hi => by
      have := h i (Finset.mem_of_mem_erase hi)
      have := Finset.ne_of_mem_erase hi
      omega
    rw [sum_masks_at (le_refl n)]
    have key : ∀ m ∈ masks n, ∀ b, (∀ i ∈ H, (m.insertIdx n b)[i]? = some false) ↔
        (∀ i ∈ H.erase n, m[i]? = some false) ∧ (n ∈ H → b = false) := by
      intro m hm b
      rw [mem_masks] at hm
      have e1 : ∀ i, i < n → (m.insertIdx n b)[i]? = m[i]? := fun i hi => List.getElem?_insertIdx_of_lt hi
      have e2 : (m.insertIdx n b)[n]? = some b := by rw [List.getElem?_insertIdx_self, if_pos (by omega)]
      constructor
      · intro hh
        refine ⟨fun i hi => ?_, fun hn => ?_⟩
        · have h1 := h i (Finset.mem_of_mem_erase hi)
          have h2 := Finset.ne_of_mem_erase hi
          rw [← e1 i (by omega)]; exact hh i (Finset.mem_of_mem_erase hi)
        · have := hh n hn
          rw [e2] at this; exact Option.some.inj this
      · rintro ⟨h1, h2⟩ i hi
        by_cases hin : i = n
        · subst hin; rw [e2, h2 hi]
        · rw [e1 i (by have := h i hi; omega)]
          exact h1 i (Finset.mem_erase.2 ⟨hin, hi⟩)
    have cnt : ∀ m ∈ masks n, ∀ b, m.insertIdx n b = m ++ [b] := by
      intro m hm b
      rw [mem_masks] at hm
      rw [← hm, List.insertIdx_length_self]
    by_cases hn : n ∈ H
    · have hcard : H.card = (H.erase n).card + 1 := (Finset.card_erase_add_one hn).symm
      rw [hcard, pow_succ, ENNReal.ofReal_mul (pow_nonneg hr _), ← ih, Finset.sum_mul]
      refine Finset.sum_congr rfl fun m hm => ?_
      simp only [key m hm, hn, true_implies, Bool.true_eq_false, and_false, if_false, zero_add, and_true]
      simp only [cnt m hm]
      split
      · rw [← ENNReal.ofReal_mul (by positivity)]
        congr 1
        simp
        ring
      · simp
    · rw [Finset.erase_eq_of_notMem hn] at ih key
      rw [← ih]
      refine Finset.sum_congr rfl fun m hm => ?_
      simp only [key m hm, hn, false_implies, and_true]
      simp only [cnt m hm]
      split
      · rw [← ENNReal.ofReal_add (by positivity) (by positivity)]
        congr 1
        simp
        ring
      · simp

/-- **C155, mutation.** A chromosome that carries a schema still does after FlipBit with probability exactly `(1 - rate)` to the number
of fixed positions. -/
theorem C155_mutation (hR : Ideal R μ) {rate : ℝ} (h0 : 0 ≤ rate) (h1 : rate ≤ 1) {H : Finset Nat} {v : Nat → Bool} {c : List Bool}
    (hc : Matches H v c) :
    chance μ (flipBit R rate c) (Matches H v) = ENNReal.ofReal ((1 - rate) ^ H.card) := by
  classical
  have := hR.isProbability
  have hlt : ∀ i ∈ H, i < c.length := by
    intro i hi
    have := hc i hi
    by_contra hge
    rw [List.getElem?_eq_none (by omega)] at this
    cases this
  unfold flipBit
  rw [flipBitGo_eq _ _ _ (by omega), bits_chance (bits_law h0 h1 (hR.unit_lt h0 h1) c.length) (fun g bs g' => replicate_length g bs g')
    (fun _ _ => rfl), Finset.sum_filter, ← sum_masks_off h0 h1 c.length H hlt]
  refine Finset.sum_congr rfl fun m hm => ?_
  rw [mem_masks] at hm
  congr 1
  simp only [List.take_zero, List.drop_zero, List.nil_append, eq_iff_iff]
  refine forall₂_congr fun i hi => ?_
  have hi' := hlt i hi
  have hci := hc i hi
  rw [List.getElem?_zipWith, hci]
  have hmi : m[i]? = some m[i] := List.getElem?_eq_getElem (by omega)
  rw [hmi]
  cases m[i] <;> simp

/-! ## Crossover -/

open Classical in
/-- One if the chromosome carries the schema. -/
noncomputable def carries (H : Finset Nat) (v : Nat → Bool) (c : List Bool) : Nat := if Matches H v c then 1 else 0

theorem matches_cut {H : Finset Nat} {v : Nat → Bool} {lo hi : Nat} (hH : ∀ i ∈ H, lo ≤ i ∧ i ≤ hi) {p1 p2 : List Bool}
    (hl : p1.length = p2.length) (hhi : hi < p1.length) {cut : Nat} :
    (cut ≤ lo → (Matches H v (p1.take cut ++ p2.drop cut) ↔ Matches H v p2)) ∧
    (hi < cut → (Matches H v (p1.take cut ++ p2.drop cut) ↔ Matches H v p1)) := by
  constructor
  · intro hc
    refine forall₂_congr fun i hi => ?_
    have := hH i hi
    rw [getElem?_cut hl (by omega), if_neg (by omega)]
  · intro hc
    refine forall₂_congr fun i hi => ?_
    have := hH i hi
    rw [getElem?_cut hl (by omega), if_pos (by omega)]

/-- **C155, crossover of two parents.** The children of SinglePoint carry on average at least `1 - (hi - lo) / dim` times as many copies
of a schema whose fixed positions lie between `lo` and `hi` as the parents. -/
theorem C155_crossover_pair (hR : Ideal R μ) {H : Finset Nat} {v : Nat → Bool} {lo hi dim : Nat} (hH : ∀ i ∈ H, lo ≤ i ∧ i ≤ hi)
    (hlo : lo ≤ hi) (hhi : hi < dim) {p1 p2 : List Bool} (h1 : p1.length = dim) (h2 : p2.length = dim) :
    ((dim - (hi - lo) : ℕ) : ℝ≥0∞) / dim * ((carries H v p1 + carries H v p2 : ℕ) : ℝ≥0∞) ≤
      expected μ (singlePoint R p1 p2) fun kids => carries H v kids.1 + carries H v kids.2 := by
  classical
  have := hR.isProbability
  refine le_trans ?_ ((hasLaw_singlePoint hR p1 p2).markov _ (carries H v p1 + carries H v p2))
  rw [mul_comm, C134_single_point hR (by omega) (by omega), h1]
  refine mul_le_mul_right (ENNReal.div_le_div_right ?_ _) _
  have hsub : (Finset.range dim \ Finset.Ioc lo hi) ⊆ (Finset.range dim).filter fun cut => carries H v p1 + carries H v p2 ≤
      carries H v (p1.take cut ++ p2.drop cut) + carries H v (p2.take cut ++ p1.drop cut) := by
    intro cut hcut
    rw [Finset.mem_sdiff, Finset.mem_Ioc, Finset.mem_range] at hcut
    obtain ⟨a1, a2⟩ := matches_cut (v := v) hH (show p1.length = p2.length by omega) (by omega) (cut := cut)
    obtain ⟨b1, b2⟩ := matches_cut (v := v) hH (show p2.length = p1.length by omega) (by omega) (cut := cut)
    rw [Finset.mem_filter, Finset.mem_range]
    refine ⟨hcut.1, ?_⟩
    unfold carries
    by_cases hc : cut ≤ lo
    · simp only [a1 hc, b1 hc]; omega
    · have hc' : hi < cut := by omega
      simp only [a2 hc', b2 hc']; omega
  have := Finset.card_le_card hsub
  rw [Finset.card_sdiff_of_subset (by intro x hx; rw [Finset.mem_Ioc] at hx; rw [Finset.mem_range]; omega), Finset.card_range, Nat.card_Ioc] at this
  exact_mod_cast this



/-- The individual carries the schema. -/
def Carrier (H : Finset Nat) (v : Nat → Bool) (i : Individual (List Bool) ℝ) : Prop := Matches H v i.chromosome

/-- **C155, crossover.** The same for a whole mating pool. -/
theorem C155_crossover (hR : Ideal R μ) {H : Finset Nat} {v : Nat → Bool} {lo hi dim : Nat} (hH : ∀ i ∈ H, lo ≤ i ∧ i ≤ hi)
    (hlo : lo ≤ hi) (hhi : hi < dim) (worst : Fl ℝ) {pool : List (Individual (List Bool) ℝ)} (he : pool.length % 2 = 0)
    (hp : ∀ i ∈ pool, i.chromosome.length = dim) :
    ((dim - (hi - lo) : ℕ) : ℝ≥0∞) / dim * number (Carrier H v) pool ≤
      expected μ (applyPairs (liftSingle (Individual.chromOps Bool worst) (singlePoint R)) pool) (number (Carrier H v)) := by
  classical
  have := hR.isProbability
  unfold applyPairs
  rw [assert_pure (by simpa using he), pure_bind]
  induction pool using List.twoStepInduction with
  | nil => simp [number]
  | singleton a => simp at he
  | cons_cons a b rest ih _ =>
    have he' : rest.length % 2 = 0 := by rw [List.length_cons, List.length_cons] at he; omega
    have ih := ih he' fun i hi => hp i (by simp [hi])
    have hlen : ∀ i ∈ rest, i.chromosome.length = dim := fun i hi => hp i (by simp [hi])
    have ha := hp a (by simp)
    have hb := hp b (by simp)
    have hL : HasLaw μ (chunks2 (liftSingle (Individual.chromOps Bool worst) (singlePoint R)) rest) := by
      have h := hasLaw_applyPairs (hasLaw_liftSingle (Individual.chromOps Bool worst) (hasLaw_singlePoint hR)) rest
      unfold applyPairs at h
      rwa [assert_pure (by simpa using he'), pure_bind] at h
    have hRet : Returns (chunks2 (liftSingle (Individual.chromOps Bool worst) (singlePoint R)) rest) fun _ => True := by
      have h := singlePoint_dim R (Individual.chromOps Bool worst) (Q := fun _ => True) (dim := dim) (by omega) (pool := rest) (by simpa using he')
        fun i hi => ⟨hlen i hi, fun _ _ => trivial⟩
      unfold applyPairs at h
      rw [assert_pure (by simpa using he'), pure_bind] at h
      exact h.mono fun _ _ => trivial
    have hR1 : Returns (singlePoint R a.chromosome b.chromosome) fun _ => True := by
      intro g
      obtain ⟨cut, g', e, hc⟩ := R.genRange_returns (lo := 0) (hi := a.chromosome.length) (by omega) g
      unfold singlePoint
      rw [M.bind_of_ok e, singlePoint_at (by omega) (by omega)]
      exact ⟨_, g', rfl, trivial⟩
    have hpair := C155_crossover_pair hR (v := v) hH hlo hhi ha hb
    rw [chunks2]
    unfold liftSingle
    simp only [bind_assoc, pure_bind]
    show _ ≤ expected μ (singlePoint R a.chromosome b.chromosome >>= fun kids =>
      chunks2 (liftSingle (Individual.chromOps Bool worst) (singlePoint R)) rest >>= fun out =>
        pure ((⟨kids.1, worst⟩ : Individual (List Bool) ℝ) :: ⟨kids.2, worst⟩ :: out)) _
    rw [(hasLaw_singlePoint hR _ _).expected_seq hR1 hL hRet
      (fun kids out => (⟨kids.1, worst⟩ : Individual (List Bool) ℝ) :: ⟨kids.2, worst⟩ :: out)
      (k := fun kids => carries H v kids.1 + carries H v kids.2) (k' := number (Carrier H v))]
    · refine le_trans ?_ (add_le_add hpair ih)
      rw [← mul_add, number_cons, number_cons, ← add_assoc, ← Nat.cast_add]
      exact le_rfl
    · intro kids out
      rw [number_cons, number_cons, ← add_assoc]
      rfl

/-! ## A generation -/

/-- The fitness of an individual as a number. -/
def fitnessNumber (i : Individual (List Bool) ℝ) : ℝ :=
  match i.fitness with
  | .num x => x
  | .nan => 0

/-- The textbook configuration, as assembled with the generic builder (src/ga/builder/generic.rs:72-193): BitStrings of length `dim`,
RouletteWheel selecting `n` individuals, SinglePoint, FlipBit with the given rate, BothParents, a fitness function without NaN; all
operators draw from the same generator. -/
noncomputable def classicOps (R : Rng G ℝ) (worst : Fl ℝ) (fitness : List Bool → ℝ) (rate : ℝ) (dim n : Nat) (elapsed : M G Nat) :
    Ops G (Individual (List Bool) ℝ) ℝ where
  generate k := bitStringsGenerate R (Individual.chromOps Bool worst) dim k
  fitnessFn := fnFitness (Individual.trait (List Bool) ℝ) fun c => .num (fitness c)
  select _ pop := selRoulette R fitnessNumber n pop
  cross _ pool := applyPairs (liftSingle (Individual.chromOps Bool worst) (singlePoint R)) pool
  mutate _ i := applyMutation (Individual.chromOps Bool worst) (flipBit R rate) i
  replace _ pop children := bothParents pop children
  requiresChildrenFitness := false
  elapsed := elapsed

theorem classicOps_lawOps (hR : Ideal R μ) (worst : Fl ℝ) (fitness : List Bool → ℝ) (rate : ℝ) (dim n : Nat) {elapsed : M G Nat}
    (hel : HasLaw μ elapsed) : LawOps μ (classicOps R worst fitness rate dim n elapsed) := by
  have := hR.isProbability
  exact ⟨fun k => hasLaw_bitStringsGenerate hR _ _ _, fun i => .pure _, fun m pop => hasLaw_selRoulette hR _ _ _,
    fun m pool => hasLaw_applyPairs (hasLaw_liftSingle _ (hasLaw_singlePoint hR)) _,
    fun m i => hasLaw_applyMutation _ (hasLaw_flipBit hR _) _, fun m pop ch => .pure _, hel⟩

theorem classic_evalPop (worst : Fl ℝ) (fitness : List Bool → ℝ) (rate : ℝ) (dim n : Nat) (elapsed : M G Nat) :
    ∀ pop, evalPop (Individual.trait (List Bool) ℝ) (classicOps R worst fitness rate dim n elapsed) pop =
      pure (pop.map fun i => ⟨i.chromosome, .num (fitness i.chromosome)⟩)
  | [] => rfl
  | i :: pop => by
    have ih := classic_evalPop worst fitness rate dim n elapsed pop
    unfold evalPop at ih ⊢
    rw [M.forEach, ih]
    rfl

open Classical in
/-- **C155.** From any population of `n` individuals (`n` even) with fitness values that are not negative and not all zero, the
expected number of individuals of the next generation that carry a schema is at least `n` times the share its carriers have in the
total fitness, times `1 - (hi - lo) / dim` (it is not cut), times `(1 - rate)` to the number of fixed positions (it is not mutated).
The schema fixes the positions `H`, which lie between `lo` and `hi`. -/
theorem C155_generation (hR : Ideal R μ) (worst : Fl ℝ) (fitness : List Bool → ℝ) {rate : ℝ} (h0 : 0 ≤ rate) (h1 : rate ≤ 1)
    {dim n : Nat} (he : n % 2 = 0) {elapsed : M G Nat} (hlaw : HasLaw μ elapsed) (hel : Returns elapsed fun _ => True)
    {p : GAParams} (hp : p.populationSize = n) {H : Finset Nat} {v : Nat → Bool} {lo hi : Nat}
    (hH : ∀ i ∈ H, lo ≤ i ∧ i ≤ hi) (hlo : lo ≤ hi) (hhi : hi < dim) (g : Nat) {s : St (Individual (List Bool) ℝ)}
    (hn : s.pop.length = n) (hd : ∀ i ∈ s.pop, i.chromosome.length = dim) (hf : ∀ i ∈ s.pop, 0 ≤ fitness i.chromosome)
    (hs : 0 < (s.pop.map fun i => fitness i.chromosome).sum) :
    n * ENNReal.ofReal (((s.pop.filter fun i => decide (Carrier H v i)).map fun i => fitness i.chromosome).sum /
        (s.pop.map fun i => fitness i.chromosome).sum) *
      (((dim - (hi - lo) : ℕ) : ℝ≥0∞) / dim) * ENNReal.ofReal ((1 - rate) ^ H.card) ≤
    expected μ (iteration (Individual.trait (List Bool) ℝ) (classicOps R worst fitness rate dim n elapsed) p g s)
      fun r => number (Carrier H v) r.1.pop := by
  have := hR.isProbability
  have hl := classicOps_lawOps hR worst fitness rate dim n hlaw
  set ops := classicOps R worst fitness rate dim n elapsed with hops
  set ev : Individual (List Bool) ℝ → Individual (List Bool) ℝ := fun i => ⟨i.chromosome, .num (fitness i.chromosome)⟩ with hev
  have hcar : ∀ pop : List (Individual (List Bool) ℝ), number (Carrier H v) (pop.map ev) = number (Carrier H v) pop := by
    intro pop
    unfold number
    rw [List.countP_map]
    rfl
  have hfit : ∀ i, fitnessNumber (ev i) = fitness i.chromosome := fun i => rfl
  have hnpos : 0 < n := by
    rw [← hn, List.length_pos_iff]
    intro h
    rw [h] at hs
    simp at hs
  unfold iteration
  simp only [hops, classic_evalPop]
  rw [← hops]
  simp only [pure_bind]
  have hsum : ((s.pop.map ev).map fitnessNumber).sum = (s.pop.map fun i => fitness i.chromosome).sum := by
    rw [List.map_map]; rfl
  have hsel := C155_selection hR fitnessNumber (pop := s.pop.map ev) (by
    intro y hy
    obtain ⟨i, hi, rfl⟩ := List.mem_map.1 hy
    exact hf i hi) (by rw [hsum]; exact hs) (Carrier H v) n
  rw [hsum, List.filter_map, List.map_map, show fitnessNumber ∘ ev = fun i => fitness i.chromosome from rfl,
    show (fun i => decide (Carrier H v i)) ∘ ev = fun i => decide (Carrier H v i) from rfl] at hsel
  have hrest : ∀ (m : Metrics) (mutated : List (Individual (List Bool) ℝ)), HasLaw μ (do
      let children ← evalChildren (Individual.trait (List Bool) ℝ) ops mutated
      let replaced ← ops.replace m (s.pop.map ev) children
      let m' : Metrics := { m with populationSize := replaced.length }
      M.assert (replaced.length == p.populationSize)
      let b ← M.ofExcept (findBest (Individual.trait (List Bool) ℝ) (replaced.map ev))
      let improved := Fl.lt ((Individual.trait (List Bool) ℝ).fitness b) ((Individual.trait (List Bool) ℝ).fitness s.best)
      let best' := if improved then b else s.best
      let d' ← ops.elapsed
      let trace := s.trace ++ [.onIterationStart m, .selectCall (s.pop.map ev), .replaceCall (s.pop.map ev) children,
          .onNewGeneration m' (replaced.map ev), .onBestFit m' b] ++
          (if improved then [.onNewBest m' b] else []) ++ [.onIterationEnd m', .clockCheck d']
      pure (({ pop := replaced.map ev, best := best', metrics := m', trace := trace } : St (Individual (List Bool) ℝ)),
        decide (p.maxDuration ≤ d'))) := by
    intro m mu
    exact (hl.evalChildren _).bind fun ch => (hl.replace _ _ _).bind fun re =>
      (HasLaw.assert _ _).bind fun _ => (HasLaw.ofExcept _).bind fun b => hl.elapsed.bind fun d' => .pure _
  refine hl.elapsed.le_expected_bind_sure hel (fun d _ => ?_) fun d _ => ?_
  · exact (hl.sel _ _).bind fun pool => (hl.cross _ _).bind fun cr => (HasLaw.forEach (hl.mutate _) _).bind fun mu => hrest _ _
  rw [← hsel, mul_assoc, mul_comm]
  refine (hl.sel _ _).le_expected_bind (A := fun pool => pool.length = n ∧ ∀ i ∈ pool, i.chromosome.length = dim) ?_ (fun pool _ => ?_)
    fun pool hpool => ?_
  · intro w pool w' e
    refine ⟨(C29_roulette_exact_count R fitnessNumber (by intro h; rw [List.map_eq_nil_iff] at h; rw [h] at hs; simp at hs)
      (by rw [hsum]; exact hs.le)).ifReturns _ _ _ e, fun i hi => ?_⟩
    obtain ⟨j, hj, rfl⟩ := List.mem_map.1 (((C29_roulette R fitnessNumber).ifReturns _ _ _ e).2 i hi).1
    exact hd j hj
  · exact (hl.cross _ _).bind fun cr => (HasLaw.forEach (hl.mutate _) _).bind fun mu => hrest _ _
  rw [mul_comm (_ / _), mul_assoc]
  refine (mul_le_mul_right (C155_crossover hR hH hlo hhi worst (by rw [hpool.1]; exact he) hpool.2) _).trans ?_
  refine (hl.cross _ _).le_expected_bind (A := fun cr => cr.length = n ∧ ∀ i ∈ cr, i.chromosome.length = dim) ?_ (fun cr _ => ?_)
    fun cr hcr => ?_
  · intro w cr w' e
    have h := (singlePoint_dim R (Individual.chromOps Bool worst) (Q := fun _ => True) (dim := dim) (by omega) (pool := pool)
      (by rw [hpool.1]; exact he) fun i hi => ⟨hpool.2 i hi, fun _ _ => trivial⟩).ifReturns _ _ _ e
    exact ⟨by rw [h.1, hpool.1], fun i hi => (h.2 i hi).1⟩
  · exact (HasLaw.forEach (hl.mutate _) _).bind fun mu => hrest _ _
  have hmut : ∀ (m : Metrics) (i : Individual (List Bool) ℝ), Returns (ops.mutate m i) fun _ => True := fun m i =>
    (C24_length_preserved_flip_bit R (Individual.chromOps Bool worst) rate i).mono fun _ _ => trivial
  have hm1 : ∀ m : Metrics, ENNReal.ofReal ((1 - rate) ^ H.card) * number (Carrier H v) cr ≤
      expected μ (M.forEach (ops.mutate m) cr) (number (Carrier H v)) := by
    intro m
    refine le_expected_forEach (hl.mutate m) (A := fun _ => True) (fun i _ => hmut m i) (fun i _ hi => ?_) cr fun _ _ => trivial
    show _ ≤ chance μ (applyMutation (Individual.chromOps Bool worst) (flipBit R rate) i) _
    rw [← C155_mutation hR h0 h1 hi]
    exact chance_bind_of_returns fun d hd => Returns.pure hd
  refine (hm1 _).trans ((HasLaw.forEach (hl.mutate _) cr).expected_bind_same (A := fun mu => mu.length = n) ?_
    (fun mu _ => hrest _ _) fun mu hmu => ?_)
  · intro w mu w' e
    have h := (Returns.forEach (f := ops.mutate _) (R := fun _ _ => True) cr fun i _ => hmut _ i).ifReturns _ _ _ e
    rw [← h.length_eq, hcr.1]
  · show Returns (pure mu >>= fun children => _) _
    rw [pure_bind]
    show Returns (pure mu >>= fun replaced => _) _
    rw [pure_bind, assert_pure (by rw [hmu, hp]; simp), pure_bind]
    obtain ⟨b, hb⟩ := findBest_ok (Individual.trait (List Bool) ℝ) (l := mu.map ev)
      (by intro h; rw [List.map_eq_nil_iff] at h; rw [h] at hmu; simp at hmu; omega) (by
        intro i hi
        obtain ⟨j, -, rfl⟩ := List.mem_map.1 hi
        exact trivial)
    refine Returns.bind (Returns.ofExcept hb trivial) fun b' (_ : True) => Returns.bind hel fun d' _ => Returns.pure ?_
    exact hcar mu

end

/-! ## Non-vacuity -/

theorem schema_sum : 0 < (([⟨[true, false, true], .num 0⟩, ⟨[false, false, false], .num 0⟩] : List (Individual (List Bool) ℝ)).map
    fun i => (i.chromosome.count true : ℝ)).sum := by
  simp

/-- Two individuals of three bits; the schema asks for a one in front and at the end; mutation rate 1/20. -/
example := C155_generation tapeRng_ideal (.num 0) (fun c => (c.count true : ℝ)) (rate := 1 / 20) (by norm_num) (by norm_num)
  (dim := 3) (n := 2) (by decide) (.pure 0) (Returns.pure trivial) (p := ⟨2, 100, 5⟩) rfl (H := {0, 2}) (v := fun _ => true)
  (lo := 0) (hi := 2) (by decide) (by decide) (by decide) 1
  (s := ⟨[⟨[true, false, true], .num 0⟩, ⟨[false, false, false], .num 0⟩], ⟨[], .num 0⟩, ⟨0, 2, none⟩, []⟩)
  rfl (by simp) (fun i _ => Nat.cast_nonneg _) schema_sum
example := C155_selection tapeRng_ideal (fun x : Nat => (x : ℝ)) (pop := [1, 2, 3]) (fun _ _ => Nat.cast_nonneg _)
  (by norm_num) (· = 3) 4
example := C155_growth tapeRng_ideal (fun x : Nat => (x : ℝ)) (pop := [1, 2, 3]) (fun _ _ => Nat.cast_nonneg _)
  (by norm_num) (· = 3)
example := C155_mutation tapeRng_ideal (rate := 1 / 20) (by norm_num) (by norm_num) (H := {0, 2}) (v := fun _ => true)
  (c := [true, false, true]) (by unfold Matches; decide)
example := C155_crossover_pair tapeRng_ideal (H := {1, 2}) (v := fun _ => true) (lo := 1) (hi := 2) (dim := 4) (by decide) (by decide)
  (by decide) (p1 := [true, true, true, false]) (p2 := [false, false, true, false]) rfl rfl
example := C155_crossover tapeRng_ideal (H := {1, 2}) (v := fun _ => true) (lo := 1) (hi := 2) (dim := 4) (by decide) (by decide)
  (by decide) (.num 0) (pool := [⟨[true, true, true, false], .num 0⟩, ⟨[false, false, true, false], .num 0⟩]) rfl (by simp)

end Ecrs.Props
