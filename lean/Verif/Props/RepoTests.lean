import Verif.RepoTests
import Verif.Props.Selection
import Verif.Props.Selection3
import Verif.Props.Population
import Verif.Props.PointGenerator
import Verif.Props.Mutation
import Verif.Props.RealGa
import Verif.Props.CrossoverLocus
import Verif.Props.CrossoverPerm
import Verif.Props.Relabel
import Verif.Props.ProbBoltzmann
import Verif.Props.Overflow
import Verif.Props.Individual
import Verif.Scripted

/-!
# Property C160: the repository's own tests, for every generator
-/

set_option linter.unusedSectionVars false

namespace Ecrs.RepoTests
open Ecrs Ecrs.Ga

section tools
variable {W α β : Type}

private theorem each {f : α → M W Unit} {xs : List α} (h : ∀ x ∈ xs, Returns (f x) fun _ => True) :
    Returns (M.fold (fun _ x => f x) () xs) fun _ => True :=
  Returns.fold (I := fun _ => True) xs () trivial fun _ x hx _ => h x hx

private theorem assertT {c : Bool} (h : c = true) : Returns (M.assert c : M W Unit) fun _ => True :=
  (Returns.assert h).mono fun _ _ => trivial

private theorem idxBind {xs : List α} {i : Nat} {a : α} (h : xs[i]? = some a) {f : α → M W β} {Q : β → Prop} (hq : Returns (f a) Q) :
    Returns ((idx xs i : M W α) >>= f) Q := by
  have e : (idx xs i : M W α) = pure a := by unfold idx; rw [h]
  rw [e, pure_bind]; exact hq

end tools

section
variable {G K : Type} [Field K] [LinearOrder K] [IsStrictOrderedRing K] (R : FRng G K) (lowest : K)

/-- The bit-string populations of the tests: 42 individuals with fitness `lowest`. -/
private theorem bits_made (dim count : Nat) : Returns (bitStringsGenerate R.toRng (X lowest Bool) dim count) fun pop => pop.length = count ∧
    ∀ i ∈ pop, i.fitness = .num lowest := by
  unfold bitStringsGenerate
  refine (Returns.replicate (Q := fun i : Ind Bool K => i.fitness = .num lowest) ?_ count)
  exact Returns.bind (Returns.replicate R.toRng.genCoin_returns dim) fun bits _ => Returns.pure rfl

private theorem points_made (R : Rng G K) {dim count : Nat} {cs : List (K × K)} (h : dim = cs.length) :
    Returns ((⟨dim, cs⟩ : RandomPoints K).generate R (X lowest K) count) fun pop => pop.length = count ∧
      (∀ i ∈ pop, i.fitness = .num lowest) ∧ ∀ i ∈ pop, i.chromosome.length = dim ∧ List.Forall₂ Within cs i.chromosome := by
  unfold RandomPoints.generate
  refine Returns.bind (R.onClone_returns (generateWithConstraints_returns R h)) fun pts hp => Returns.pure ⟨by simp [hp.1], ?_, ?_⟩
  · intro i hi
    obtain ⟨p, _, rfl⟩ := List.mem_map.1 hi
    rfl
  · intro i hi
    obtain ⟨p, hp', rfl⟩ := List.mem_map.1 hi
    exact hp.2 p hp'

private theorem selectionSize_returns {prepare : Ind Bool K → Ind Bool K} {select : List (Ind Bool K) → M G (List (Ind Bool K))}
    (h : ∀ made : List (Ind Bool K), made.length = 42 → (∀ i ∈ made, i.fitness = .num lowest) →
      Returns (select (made.map prepare)) fun sel => sel.length = 21) :
    Returns (selectionSize R lowest prepare select) fun _ => True := by
  unfold selectionSize
  refine Returns.bind ((C38_bit_strings R.toRng (X lowest Bool) 21 42).2.1 (by norm_num)) fun dim hd => ?_
  subst hd
  refine Returns.bind (bits_made R lowest 21 42) fun made hm => ?_
  refine Returns.bind (assertT (by simp [hm.1])) fun _ _ => ?_
  exact Returns.bind (h made hm.1 hm.2) fun sel hs => assertT (by simp [hs])

/-- **C160, selections.** The size tests of `Random`, `Rank`, `RankR` and `Tournament` pass whatever the generator draws. -/
theorem C160_selection_tests [FloorSemiring K] :
    Returns (randomSize R lowest) (fun _ => True) ∧ Returns (rankSize R lowest) (fun _ => True) ∧
    Returns (rankRSize R lowest) (fun _ => True) ∧ Returns (tournamentTest R lowest) (fun _ => True) := by
  refine ⟨selectionSize_returns R lowest fun made hl _ => ?_, selectionSize_returns R lowest fun made hl _ => ?_,
    selectionSize_returns R lowest fun made hl _ => ?_, selectionSize_returns R lowest fun made hl hf => ?_⟩
  · exact (C28_random R.toRng (by simp [hl])).mono fun _ h => h.1
  · exact (C28_rank R.toRng _ (by simp [hl])).mono fun _ h => h.1
  · refine Returns.bind ((C28_rank_r_new (1 / 2 : K)).1 ⟨by positivity, by norm_num⟩) fun r _ => ?_
    exact (C28_rank_r R.toRng (by simp [hl])).mono fun _ h => h.1
  · intro g
    obtain ⟨⟨f, g1⟩, hr⟩ := (C32_tournament_new (1 / 5 : K) g).2 ⟨by positivity, by norm_num⟩
    have hf1 : f = 1 / 5 := by
      unfold tournamentNew at hr
      obtain ⟨_, _, _, h2⟩ := M.bind_ok_iff.1 hr
      exact (Prod.ext_iff.1 (M.pure_ok_iff.1 h2)).1
    subst hf1
    obtain ⟨sel, g2, h2, h3, _⟩ := C28_tournament R.toRng (Individual.trait (List Bool) K) (factor := (1 / 5 : K)) (count := 21)
      (pop := made.map id) (by norm_num) (by simp [hl]) (fun x hx => by
        have : x.fitness = .num lowest := hf x (by simpa using hx)
        simp only [Individual.trait, this]; trivial) g1
    exact ⟨sel, g2, by rw [M.bind_of_ok hr]; exact h2, h3⟩

/-- **C160, point crossovers.** The tests of `SinglePoint`, `TwoPoint`, `Uniform` and `MultiPoint` pass whatever the generator draws. -/
theorem C160_crossover_tests :
    (∀ op ∈ [Crossover.singlePoint, .twoPoint, .uniform], Returns (crossoverTest R lowest op) fun _ => True) ∧
    Returns (multiPointTest R lowest) fun _ => True := by
  have key : ∀ op : Crossover K, op.isLocus = true → op.fits 30 → Returns (crossoverTest R lowest op) fun _ => True := by
    intro op hop hfit
    unfold crossoverTest takesFromParents RandomPoints.new
    refine Returns.bind (P := fun rp => rp = (⟨30, List.replicate 30 (0, 1)⟩ : RandomPoints K))
      (Returns.bind (assertT (by norm_num)) fun _ _ => Returns.pure rfl) fun rp hrp => ?_
    subst hrp
    refine Returns.bind (points_made lowest R.toRng (by simp)) fun ps hp => ?_
    obtain ⟨hl, _, hp⟩ := hp
    obtain ⟨a, b, rfl⟩ := List.length_eq_two.1 hl
    refine Returns.bind (assertT (by simp)) fun _ _ => ?_
    refine idxBind (a := a) rfl ?_
    refine idxBind (a := b) rfl ?_
    refine Returns.bind (locusCross_returns R.toRng (X lowest K) (d := 30) hop (by norm_num) hfit (fun i hi => (hp i hi).1) (by simp)) fun ch hc => ?_
    cases hc with
    | cons h1 h2 =>
      cases h2
      rename_i c d
      refine idxBind (a := c) rfl ?_
      refine idxBind (a := d) rfl ?_
      obtain ⟨hlc, hld, hloc⟩ := h1
      refine each fun p hp' => ?_
      obtain ⟨⟨x, y⟩, i⟩ := p
      have hz := List.mem_zipIdx_iff_getElem?.1 hp'
      have hz : (c.chromosome.zip d.chromosome)[i]? = some (x, y) := by simpa using hz
      rw [List.getElem?_zip_eq_some] at hz
      have ha : a.chromosome.length = 30 := (hp a (by simp)).1
      have hb : b.chromosome.length = 30 := (hp b (by simp)).1
      have hi : i < 30 := by
        have := (List.getElem?_eq_some_iff.1 hz.1).1
        have e : c.chromosome.length = a.chromosome.length := hlc
        omega
      obtain ⟨u, hu⟩ : ∃ u, a.chromosome[i]? = some u := ⟨_, List.getElem?_eq_getElem (by omega)⟩
      obtain ⟨v, hv⟩ : ∃ v, b.chromosome[i]? = some v := ⟨_, List.getElem?_eq_getElem (by omega)⟩
      have hx : (c.chromosome[i]? = a.chromosome[i]? ∧ d.chromosome[i]? = b.chromosome[i]?) ∨
        (c.chromosome[i]? = b.chromosome[i]? ∧ d.chromosome[i]? = a.chromosome[i]?) := hloc i
      rw [hz.1, hz.2, hu, hv] at hx
      refine idxBind hu ?_
      refine idxBind hv ?_
      simp only [Option.some.injEq] at hx
      refine Returns.bind (assertT ?_) fun _ _ => assertT ?_
      · rcases hx with h | h <;> simp [h.1]
      · rcases hx with h | h <;> simp [h.2]
  refine ⟨fun op hop => ?_, ?_⟩
  · simp only [List.mem_cons, List.not_mem_nil, or_false] at hop
    rcases hop with rfl | rfl | rfl <;> exact key _ rfl trivial
  · unfold multiPointTest
    refine each fun n hn => ?_
    have hn' : 1 ≤ n ∧ n ≤ 30 := by
      simp only [List.mem_cons, List.not_mem_nil, or_false] at hn; omega
    unfold multiPointNew
    refine Returns.bind (P := fun k => k = n) (Returns.bind (assertT (by simpa using hn'.1)) fun _ _ => Returns.pure rfl) fun k hk => ?_
    subst hk
    exact key _ rfl hn'


/-! ### Permutation and shuffle crossover -/

/-- `x ↦ 9 - x` on `0..=9`, the identity elsewhere. -/
private def mirror (x : Nat) : Nat := if x ≤ 9 then 9 - x else x

private theorem mirror_inj : Function.Injective mirror := by
  intro x y h
  unfold mirror at h
  split at h <;> split at h <;> omega

/-- **C160, PPX and Shuffle.** `ppx_test` and the two tests of `Shuffle` pass whatever the generator draws. -/
theorem C160_permutation_crossover_tests :
    Returns (ppxTest R lowest) (fun _ => True) ∧ Returns (shuffleLen R lowest) (fun _ => True) ∧
    Returns (shuffleConditions R lowest) fun _ => True := by
  refine ⟨?_, ?_, ?_⟩
  · unfold ppxTest
    set p : Ind Nat K := ⟨List.range 10, .num lowest⟩
    set q : Ind Nat K := ⟨(List.range 10).reverse, .num lowest⟩
    have hs : Returns (Crossover.apply R.toRng (X lowest Nat) (1 / 2 : K) 0 .ppx [p, q])
        (PairsRel (fun _ _ c d => d.chromosome = c.chromosome.map mirror ∧ c.chromosome ⊆ List.range 10) [p, q]) := by
      have h1 : Returns (Ga.ppx R.toRng p.chromosome q.chromosome) fun c => c.2 = c.1.map mirror ∧ c.1 ⊆ List.range 10 := by
        unfold Ga.ppx
        refine Returns.bind (assertT (by simp [p, q])) fun _ _ => ?_
        refine Returns.bind (Returns.replicate R.toRng.genCoin_returns _) fun mask hm => ?_
        have e1 : p.chromosome.map mirror = q.chromosome := show (List.range 10).map mirror = (List.range 10).reverse by decide +kernel
        have e2 : q.chromosome.map mirror = p.chromosome := show (List.range 10).reverse.map mirror = List.range 10 by decide +kernel
        obtain ⟨o, ho, hperm, _⟩ := ppxChild_eq (G := G) (p1 := p.chromosome) (p2 := q.chromosome) List.nodup_range
          (List.reverse_perm _).symm hm.1
        have hr := Props.Relabel.ppxGo_rel (G := G) mirror mirror_inj mask [] p.chromosome q.chromosome
        rw [e1, e2, List.map_nil] at hr
        intro g
        rw [ho, pure_bind]
        have ho' : ppxGo mask [] p.chromosome q.chromosome g = .ok (o, g) := by
          have := congrFun ho g; simpa [ppxChild] using this
        rcases hr g with ⟨e, h, _⟩ | ⟨a, b, g', h, h', hab⟩
        · rw [ho'] at h; cases h
        · rw [ho'] at h; cases h
          refine ⟨(o, b), g, ?_, hab, fun x hx => hperm.mem_iff.1 hx⟩
          show ((ppxGo mask [] q.chromosome p.chromosome : M G _) >>= _) g = _
          rw [M.bind_of_ok h']; rfl
      exact apply_of_single (X lowest Nat) (P := fun a b => a = p ∧ b = q) (Q := fun _ _ c d => d = c.map mirror ∧ c ⊆ List.range 10)
        (fun a b h => by rw [h.1, h.2]; exact h1) (.cons ⟨rfl, rfl⟩ .nil)
    refine Returns.bind hs fun ch hc => ?_
    cases hc with
    | cons h1 h2 =>
      cases h2
      rename_i c d
      refine idxBind (a := c) rfl (idxBind (a := d) rfl (each fun z hz => assertT ?_))
      rw [h1.1, List.zip_map_right] at hz
      obtain ⟨⟨x, y⟩, hxy, rfl⟩ := List.mem_map.1 hz
      have hx : x ∈ c.chromosome := (List.of_mem_zip hxy).1
      have hxy' : x = y := by
        rw [List.zip_eq_zipWith, List.zipWith_self] at hxy
        obtain ⟨_, _, h⟩ := List.mem_map.1 hxy
        cases h; rfl
      subst hxy'
      have := List.mem_range.1 (h1.2 hx)
      simp only [Prod.map, id, mirror, if_pos (show x ≤ 9 by omega)]
      simp; omega
  · unfold shuffleLen
    refine Returns.bind (C16_shuffle R.toRng (X lowest Nat) (.cons ⟨rfl, by norm_num [Individual.chromOps]⟩ .nil)) fun ch hc => ?_
    cases hc with
    | cons h1 h2 =>
      cases h2
      rename_i c d
      obtain ⟨mask, hm, _, e1, e2⟩ := h1
      refine idxBind (a := c) rfl (idxBind (a := d) rfl ?_)
      have l1 : c.chromosome.length = 10 := by
        have : c.chromosome = _ := e1
        rw [this, mix_length _ _ _ (by rw [hm]; try rfl) (by rfl)]; rfl
      have l2 : d.chromosome.length = 10 := by
        have : d.chromosome = _ := e2
        rw [this, mix_length _ _ _ (by rw [hm]; try rfl) (by rfl)]; rfl
      exact Returns.bind (assertT (by simp [l1])) fun _ _ => assertT (by simp [l2])
  · unfold shuffleConditions
    refine Returns.bind (C16_shuffle R.toRng (X lowest Nat) (.cons ⟨rfl, by norm_num [Individual.chromOps]⟩ .nil)) fun ch hc => ?_
    cases hc with
    | cons h1 h2 =>
      cases h2
      rename_i c d
      obtain ⟨mask, hm, _, e1, e2⟩ := h1
      refine idxBind (a := c) rfl (idxBind (a := d) rfl (each fun z hz => ?_))
      have key : ∀ (ms : List Bool) (p q : List Nat), (∀ x ∈ p.zip q, x = (0, 1) ∨ x = (1, 0)) →
          ∀ z ∈ (mix ms p q).zip (mix ms q p), z = (0, 1) ∨ z = (1, 0) := by
        intro ms
        induction ms with
        | nil => intro p q _ z hz; simp [mix] at hz
        | cons m ms ih =>
          intro p q h z hz
          cases p with
          | nil => simp [mix] at hz
          | cons x p =>
            cases q with
            | nil => simp [mix] at hz
            | cons y q =>
              simp only [mix, List.zip_cons_cons, List.mem_cons] at hz
              rcases hz with rfl | hz
              · rcases h (x, y) (by simp) with h | h <;> cases h <;> cases m <;> simp
              · exact ih p q (fun w hw => h w (by simp [hw])) z hz
      have hz' := key mask [1, 0, 0, 1, 0, 1, 0, 1, 0, 0] [0, 1, 1, 0, 1, 0, 1, 0, 1, 1] (by decide) z (by
        have a1 : c.chromosome = _ := e1
        have a2 : d.chromosome = _ := e2
        rw [a1, a2] at hz; exact hz)
      refine Returns.bind (assertT ?_) fun _ _ => assertT ?_ <;> rcases hz' with rfl | rfl <;> rfl

/-! ### Mutation -/

private theorem sampled_returns (n : Nat) : Returns (sampled R n) fun c => c.length = n :=
  (Returns.replicate (R.genHalfOpen_returns (by norm_num)) n).mono fun _ h => h.1

private theorem sampledBits_returns (n : Nat) : Returns (sampledBits R n) fun c => c.length = n :=
  Returns.bind (sampled_returns R n) fun c h => Returns.pure (by simp [h])

private theorem zip_self_mem {α : Type} {c : List α} {p : α × α} (h : p ∈ c.zip c) : p.1 = p.2 := by
  rw [List.zip_eq_zipWith, List.zipWith_self] at h
  obtain ⟨_, _, h⟩ := List.mem_map.1 h
  cases h; rfl

/-- **C160, mutations.** The tests of `Identity`, `FlipBit` (rates 1 and 0), `Interchange` at rate 0 and `Reversing` at rate 1 pass whatever
the generator draws. -/
theorem C160_mutation_tests :
    Returns (identityTest R lowest) (fun _ => True) ∧ Returns (flipBitNegates R lowest) (fun _ => True) ∧
    Returns (flipBitZero R lowest) (fun _ => True) ∧ Returns (interchangeZero R lowest) (fun _ => True) ∧
    Returns (reversingTest R lowest) fun _ => True := by
  refine ⟨?_, ?_, ?_, ?_, ?_⟩
  · unfold identityTest
    refine Returns.bind (sampled_returns R 30) fun c _ => ?_
    refine Returns.bind (P := fun i : Ind K K => i.chromosome = c) ?_ fun i hi => assertT (by simp [hi])
    exact Returns.bind (Returns.pure (a := c) (Q := (· = c)) rfl) fun x hx => Returns.pure hx
  · unfold flipBitNegates
    refine Returns.bind (sampledBits_returns R 30) fun c _ => ?_
    refine Returns.bind ((C26_extreme_rates R.toRng (X lowest Bool) 1 ⟨c, .num 0⟩).2 le_rfl) fun i hi => each fun p hp => assertT ?_
    have hi : i.chromosome = c.map not := hi
    rw [hi, List.zip_map_right] at hp
    obtain ⟨⟨x, y⟩, hxy, rfl⟩ := List.mem_map.1 hp
    have : x = y := zip_self_mem hxy
    subst this
    simp
  · unfold flipBitZero
    refine Returns.bind (sampledBits_returns R 30) fun c _ => ?_
    refine Returns.bind ((C26_extreme_rates R.toRng (X lowest Bool) 0 ⟨c, .num 0⟩).1 le_rfl) fun i hi => each fun p hp => assertT ?_
    have hi : i.chromosome = c := hi
    rw [hi] at hp
    simpa using zip_self_mem hp
  · unfold interchangeZero
    refine Returns.bind (sampledBits_returns R 30) fun c hc => ?_
    refine Returns.bind (P := fun i : Ind Bool K => i.chromosome = c) ?_ fun i hi => each fun p hp => assertT ?_
    · exact Returns.bind ((C25_zero_rate R.toRng le_rfl c).1 (by omega)) fun x hx => Returns.pure hx
    · rw [hi] at hp
      simpa using zip_self_mem hp
  · unfold reversingTest
    refine Returns.bind (sampled_returns R 40) fun c hc => ?_
    obtain ⟨x, xs, rfl⟩ : ∃ x xs, c = x :: xs := by
      cases c with
      | nil => simp at hc
      | cons x xs => exact ⟨x, xs, rfl⟩
    refine idxBind (a := x) rfl ?_
    refine Returns.bind (P := fun i : Ind K K => i.chromosome = xs ++ [x]) ?_ fun i hi => ?_
    · exact Returns.bind (C25_reversing_full_rate R.toRng le_rfl x xs) fun y hy => Returns.pure hy
    · rw [hi]
      exact idxBind (a := x) (by simp) (assertT (by simp))

/-- **C160, a flaky test.** `interchange_introduces_changes` fails, whatever the generator draws, when the 30 sampled bits are all equal:
exchanging equal genes is no change. -/
theorem C160_interchange_flaky (n : Nat) (b : Bool) :
    Panics (interchangeChanges R lowest (List.replicate (n + 1) b)) := by
  unfold interchangeChanges
  have h := C25_reordering_mutations_return R.toRng (X lowest Bool) (.interchange 1) (⟨List.replicate (n + 1) b, .num 0⟩ : Ind Bool K)
    (by simp [Individual.chromOps])
  refine Panics.bind_right h.ifReturns fun i hi => ?_
  have hi : i.chromosome.Perm (List.replicate (n + 1) b) := hi
  have e : i.chromosome = List.replicate (n + 1) b := List.perm_replicate.1 hi
  rw [e]
  exact Panics.assert (by simp)


/-! ### Population generators -/

private theorem within_contains {c : K × K} (hc : c.1 < c.2) {x : K} (h : Within c x) : contains c x = true := by
  unfold contains
  simp [(h.1 hc.le).1, h.2 hc]

private theorem zip_within {cs : List (K × K)} {xs : List K} (h : List.Forall₂ Within cs xs) (hc : ∀ c ∈ cs, c.1 < c.2) :
    ∀ q ∈ xs.zip cs, contains q.2 q.1 = true := by
  induction h with
  | nil => simp
  | cons h1 _ ih =>
    intro q hq
    simp only [List.zip_cons_cons, List.mem_cons] at hq
    rcases hq with rfl | hq
    · exact within_contains (hc _ (by simp)) h1
    · exact ih (fun c hc' => hc c (by simp [hc'])) q hq

private theorem four_ok : ∀ c ∈ (fourConstraints : List (K × K)), c.1 < c.2 := by
  intro c hc
  simp only [fourConstraints, List.mem_cons, List.not_mem_nil, or_false] at hc
  rcases hc with rfl | rfl | rfl | rfl <;> norm_num

/-- **C160, generators.** The tests of `PointGenerator`, `RandomPoints`, `BitStrings` and `RandomPermutations` pass whatever the generator
draws. -/
theorem C160_population_tests :
    Returns (pointTools R) (fun _ => True) ∧ Returns (pointTests R lowest) (fun _ => True) ∧ Returns (discreteTests R lowest) fun _ => True := by
  have unit : ∀ d n, Returns (generatePoints R.toRng d n) fun pts => pts.length = n ∧ ∀ p ∈ pts, p.length = d ∧ ∀ x ∈ p, 0 ≤ x ∧ x < 1 :=
    fun d n => (C37_point_generator R.toRng d n 0 1).1
  refine ⟨?_, ?_, ?_⟩
  · unfold pointTools
    refine Returns.bind (unit 40 100) fun a ha => Returns.bind (each fun p hp => assertT (by simp [(ha.2 p hp).1])) fun _ _ => ?_
    refine Returns.bind (unit 20 100) fun b hb => Returns.bind (each fun p hp => each fun x hx => assertT ?_) fun _ _ => ?_
    · simp [contains, ((hb.2 p hp).2 x hx).1, ((hb.2 p hp).2 x hx).2]
    refine Returns.bind (C37_point_generator R.toRng 20 100 (-5) 15).2 fun c hc =>
      Returns.bind (each fun p hp => each fun x hx => assertT ?_) fun _ _ => ?_
    · have := (hc.2 p hp).2.1 (by norm_num) x hx
      simp [contains, this.1, this.2]
    refine Returns.bind (generateWithConstraints_returns R.toRng (n := 100) (by simp)) fun _ _ => ?_
    refine Returns.bind (unit 20 100) fun e he => Returns.bind (assertT (by simp [he.1])) fun _ _ => ?_
    refine Returns.bind (generateWithConstraints_returns R.toRng (n := 100) (by simp)) fun f hf => Returns.bind (assertT (by simp [hf.1])) fun _ _ => ?_
    exact Returns.bind (C37_point_generator R.toRng 20 100 (-2) 2).2 fun h hh => assertT (by simp [hh.1])
  · have four : Returns (RandomPoints.withConstraints 4 fourConstraints : M G (RandomPoints K)) fun rp => rp = ⟨4, fourConstraints⟩ := by
      unfold RandomPoints.withConstraints
      exact Returns.bind (assertT (by norm_num)) fun _ _ => Returns.bind (assertT (by simp [fourConstraints])) fun _ _ => Returns.pure rfl
    unfold pointTests
    refine Returns.bind four fun rp hrp => ?_
    subst hrp
    refine Returns.bind (points_made lowest R.toRng (by simp [fourConstraints])) fun a ha => Returns.bind (each fun p hp => assertT ?_) fun _ _ => ?_
    · simp [(ha.2.2 p hp).1]
    refine Returns.bind four fun rp hrp => ?_
    subst hrp
    refine Returns.bind (points_made lowest R.toRng (by simp [fourConstraints])) fun a ha => Returns.bind (each fun p hp => each fun q hq => assertT ?_) fun _ _ => ?_
    · exact zip_within (ha.2.2 p hp).2 four_ok q hq
    unfold RandomPoints.new
    refine Returns.bind (P := fun rp => rp = (⟨30, List.replicate 30 (0, 1)⟩ : RandomPoints K))
      (Returns.bind (assertT (by norm_num)) fun _ _ => Returns.pure rfl) fun rp hrp => ?_
    subst hrp
    refine Returns.bind (points_made lowest R.toRng (by simp)) fun c hc => each fun p hp => each fun x hx => assertT ?_
    exact within_contains (by simp) (within_replicate (hc.2.2 p hp).2 x hx)
  · unfold discreteTests
    refine Returns.bind ((C38_bit_strings R.toRng (X lowest Bool) 30 30).2.1 (by norm_num)) fun dim hd => ?_
    subst hd
    refine Returns.bind (C38_bit_strings R.toRng (X lowest Bool) 30 30).1 fun a ha => Returns.bind (each fun p hp => assertT ?_) fun _ _ => ?_
    · have : p.chromosome.length = 30 := ha.2 p hp
      simp [this]
    refine Returns.bind (C38_random_permutations R.toRng (X lowest Nat) (List.range 30) 30) fun b hb => Returns.bind (each fun p hp => assertT ?_) fun _ _ => ?_
    · have : p.chromosome.length = (List.range 30).length := List.Perm.length_eq (hb.2 p hp)
      simp [this]
    refine Returns.bind (C38_random_permutations R.toRng (X lowest Nat) (List.range' 1 30) 10) fun c hc => each fun p hp => assertT ?_
    have : p.chromosome.sum = (List.range' 1 30).sum := List.Perm.sum_eq (hc.2 p hp)
    rw [this]
    decide

/-! ### Tests that cannot fail -/

private theorem eq_fresh {a b : Ind K K} (ha : a.fitness = .num lowest) (hb : b.fitness = .num lowest) : a.eq b = true := by
  unfold Individual.eq
  rw [ha, hb]; simp [eqFl]

private theorem eqAll_fresh : ∀ {as bs : List (Ind K K)}, as.length = bs.length → (∀ a ∈ as, a.fitness = .num lowest) →
    (∀ b ∈ bs, b.fitness = .num lowest) → Individual.eqAll as bs = true
  | [], [], _, _, _ => rfl
  | a :: as, b :: bs, hl, ha, hb => by
    rw [Individual.eqAll, eq_fresh lowest (ha a (by simp)) (hb b (by simp)),
      eqAll_fresh (by simpa using hl) (fun x hx => ha x (by simp [hx])) (fun x hx => hb x (by simp [hx]))]
    rfl

/-- **C160, tests that compare nothing.** `noop_does_nothing` and `both_parents_returns_children` pass whichever of the two populations is
written as the expected one: `assert_eq!` compares individuals by fitness, and all of them have the fitness of a new individual. So these tests
would accept `Noop` and `BothParents` exchanged. -/
theorem C160_replacement_tests_vacuous (op : Replacement) (hop : op = .noop ∨ op = .bothParents) (wantParents : Bool) :
    Returns (replacementTest R lowest op fun pop children => if wantParents then pop else children) fun _ => True := by
  unfold replacementTest RandomPoints.new
  refine Returns.bind (P := fun rp => rp = (⟨4, List.replicate 4 (0, 1)⟩ : RandomPoints K))
    (Returns.bind (assertT (by norm_num)) fun _ _ => Returns.pure rfl) fun rp hrp => ?_
  subst hrp
  refine Returns.bind (points_made lowest R.toRng (by simp)) fun pop hp => Returns.bind (points_made lowest R.toRng (by simp)) fun ch hc => ?_
  refine Returns.bind (P := fun r => r = pop ∨ r = ch) ?_ fun r hr => assertT ?_
  · rcases hop with rfl | rfl
    · exact Returns.pure (.inl rfl)
    · exact Returns.pure (.inr rfl)
  · refine eqAll_fresh lowest ?_ ?_ ?_
    · rcases hr with rfl | rfl <;> cases wantParents <;> simp [hp.1, hc.1]
    · rcases hr with rfl | rfl
      · exact hp.2.1
      · exact hc.2.1
    · cases wantParents
      · exact hc.2.1
      · exact hp.2.1

/-- **C160, `random_returns_whole_population_in_order`.** This test passes for every mock generator of the operator, whatever indices it
produces, in order or not. -/
theorem C160_random_order_vacuous {H : Type} (mock : Rng H K) (seed : H) : Returns (randomInOrder R lowest mock seed) fun _ => True := by
  unfold randomInOrder RandomPoints.new
  refine Returns.bind (P := fun rp => rp = (⟨21, List.replicate 21 (0, 1)⟩ : RandomPoints K))
    (Returns.bind (assertT (by norm_num)) fun _ _ => Returns.pure rfl) fun rp hrp => ?_
  subst hrp
  refine Returns.bind (points_made lowest R.toRng (by simp)) fun pop hp => ?_
  obtain ⟨sel, s', hs, _, hmem⟩ := C28_random mock (count := 42) (pop := pop) (by omega) seed
  rw [hs]
  refine assertT (List.all_eq_true.2 fun p hp' => ?_)
  have h := List.of_mem_zip hp'
  exact eq_fresh lowest (hp.2.1 _ h.1) (hp.2.1 _ (hmem _ h.2))

/-! ### Tests that depend on the draws -/

private theorem selectionSize_split {prepare : Ind Bool K → Ind Bool K} {select : List (Ind Bool K) → M G (List (Ind Bool K))} (g : G) :
    ∃ made g1, bitStringsGenerate R.toRng (X lowest Bool) 21 42 g = .ok (made, g1) ∧ made.length = 42 ∧ (∀ i ∈ made, i.fitness = .num lowest) ∧
      ((∃ r, selectionSize R lowest prepare select g = .ok r) ↔ ∃ sel g2, select (made.map prepare) g1 = .ok (sel, g2) ∧ sel.length = 21) := by
  obtain ⟨made, g1, h1, hl, hf⟩ := bits_made R lowest 21 42 g
  refine ⟨made, g1, h1, hl, hf, ?_⟩
  have e : selectionSize R lowest prepare select g = (select (made.map prepare) >>= fun sel => M.assert (sel.length == 21)) g1 := by
    unfold selectionSize bitStringsNew
    rw [M.bind_of_ok (a := 21) (w' := g) rfl, M.bind_of_ok h1]
    rw [M.bind_of_ok (a := ()) (w' := g1) (by simp [hl, M.assert])]
  rw [e]
  constructor
  · rintro ⟨r, hr⟩
    obtain ⟨sel, g2, h2, h3⟩ := M.bind_ok_iff.1 hr
    exact ⟨sel, g2, h2, by simpa using (M.assert_ok_iff.1 h3).1⟩
  · rintro ⟨sel, g2, h2, h3⟩
    exact ⟨((), g2), by rw [M.bind_of_ok h2]; simp [h3, M.assert]⟩

/-- **C160, RouletteWheel.** `roulette_whell_returns_demanded_size` passes exactly if none of its 21 draws is zero: the individuals were never
evaluated, their total fitness overflows to minus infinity, and every draw but zero picks the first individual. -/
theorem C160_roulette_test (A : Rounding K) (hneg : lowest < 0) (hrnd : A.rnd (lowest + lowest) < lowest) (hm : A.rnd lowest = lowest) (g : G) :
    ∃ made g1 us g2, bitStringsGenerate R.toRng (X lowest Bool) 21 42 g = .ok (made, g1) ∧ M.replicate 21 R.toRng.genUnit g1 = .ok (us, g2) ∧
      ((∃ r, rouletteSize R lowest A g = .ok r) ↔ ∀ u ∈ us, u ≠ 0) := by
  obtain ⟨made, g1, h1, hl, hf, hiff⟩ := selectionSize_split R lowest (prepare := id) (select := selRouletteF A (-lowest) R.toRng fitF 21) g
  obtain ⟨x, y, l, rfl⟩ : ∃ x y l, made = x :: y :: l := by
    rcases made with _ | ⟨x, _ | ⟨y, l⟩⟩
    · simp at hl
    · simp at hl
    · exact ⟨x, y, l, rfl⟩
  obtain ⟨us, g2, h2, h3⟩ := C157_fresh (A := A) (maxv := -lowest) (fit := fitF) (by linarith) (by simpa using hrnd) (by simpa using hm)
    R.toRng 21 (x := x) (y := y) (l := l) (fun z hz => by simp [fitF, hf z hz]) g1
  refine ⟨_, g1, us, g2, h1, h2, hiff.trans ?_⟩
  have hlen : us.length = 21 := by
    obtain ⟨us', g', e, hl', _⟩ := Returns.replicate (W := G) R.toRng.genUnit_returns 21 g1
    rw [h2] at e; cases e; exact hl'
  rw [List.map_id, h3]
  constructor
  · rintro ⟨sel, g', e, hs⟩
    cases e
    rw [List.length_replicate, ← hlen] at hs
    have := List.countP_eq_length.1 hs
    simpa using this
  · intro h
    refine ⟨_, _, rfl, ?_⟩
    rw [List.length_replicate, ← hlen]
    exact List.countP_eq_length.2 (by simpa using h)

/-- **C160, StochasticUniversalSampling.** `sus_returns_demanded_size_when_fitness_positive` passes exactly if the start pointer drawn from
`0..=2` is not zero (exact arithmetic; `fuel` bounds the model's loop). -/
theorem C160_sus_test {fuel : Nat} (hfuel : 23 < fuel) (g : G) :
    ∃ made g1, bitStringsGenerate R.toRng (X lowest Bool) 21 42 g = .ok (made, g1) ∧
      ((∃ r, susSize R lowest fuel g = .ok r) ↔ (R.between g1 0 2).1 ≠ 0) := by
  obtain ⟨made, g1, h1, hl, hf, hiff⟩ := selectionSize_split R lowest (prepare := fun i : Ind Bool K => { i with fitness := .num 1 })
    (select := selSus R fitN fuel 21) g
  have hone : (made.map fun i : Ind Bool K => ({ i with fitness := .num 1 } : Ind Bool K)).map fitN = List.replicate 42 (1 : K) := by
    rw [List.map_map, ← hl]
    exact List.map_eq_replicate_iff.2 fun _ _ => rfl
  have hsum : ((made.map fun i : Ind Bool K => ({ i with fitness := .num 1 } : Ind Bool K)).map fitN).sum = (42 : K) := by
    rw [hone, List.sum_replicate]; norm_num
  refine ⟨made, g1, h1, hiff.trans ?_⟩
  have h := C34_sus_returns_iff R fitN (count := 21) (fuel := fuel) (pop := made.map fun i : Ind Bool K => ({ i with fitness := .num 1 } : Ind Bool K))
    (fun y hy => by
      obtain ⟨i, _, rfl⟩ := List.mem_map.1 hy
      exact zero_le_one) (by rw [hsum]; norm_num) (by norm_num) (by omega) g1
  rw [hsum, show (42 : K) / ((21 : Nat) : K) = 2 by norm_num] at h
  exact h

end

/-- **C160, Boltzmann.** `boltzmann_returns_demanded_size` passes whatever the generator draws and however the heap orders equal keys. -/
theorem C160_boltzmann_test {G : Type} (R : Rng G ℝ) (H : HeapOrder) (lowest : ℝ) : Returns (boltzmannSize R H lowest) fun _ => True := by
  unfold boltzmannSize RandomPoints.withConstraints boltzmannNew
  refine Returns.bind (P := fun rp => rp = (⟨21, List.replicate 21 (-1, 1)⟩ : RandomPoints ℝ))
    (Returns.bind (assertT (by norm_num)) fun _ _ => Returns.bind (assertT (by simp)) fun _ _ => Returns.pure rfl) fun rp hrp => ?_
  subst hrp
  refine Returns.bind (points_made lowest R (by simp)) fun pop hp => Returns.bind (assertT (by simp [hp.1])) fun _ _ => ?_
  refine Returns.bind (P := fun r => r = (1 / 5, 6)) ?_ fun r hr => ?_
  · exact Returns.bind (assertT (by norm_num)) fun _ _ => Returns.bind (assertT (by norm_num)) fun _ _ => Returns.pure rfl
  subst hr
  have hb : BoltzmannOk (1 / 5) 6 := ⟨by norm_num, by norm_num, by norm_num, by norm_num⟩
  intro g
  obtain ⟨sel, g', h, hl, _⟩ := (C138_panics (R := R) (H := H) hb 300 21 fitF ⟨40, 42, none⟩ pop).2 (by
    rintro ⟨-, h | ⟨x, hx, h⟩ | ⟨h, -⟩ | ⟨⟨-, h⟩ | ⟨h, -⟩, -⟩⟩
    · omega
    · simp [fitF, hp.2.1 x hx] at h
    · omega
    · norm_num at h
    · omega) g
  refine ⟨(), g', ?_, trivial⟩
  show (boltzmannApply R H (1 / 5) 6 300 21 fitF ⟨40, 42, none⟩ pop >>= fun selected => M.assert (selected.length == 21)) g = _
  rw [M.bind_of_ok h]
  simp [hl, M.assert]

/-! ### Concrete cases -/

/-- A rounding and a lowest number as `C160_roulette_test` needs them: three numbers `-1, 0, 1` cannot hold `-2`, which is rounded away
from zero to `-3`. -/
def coarse : Rounding ℚ where
  rnd a := if a < -1 then -3 else if a < 0 then -1 else if a < 1 then 0 else 1
  mono {a b} h := by split_ifs <;> linarith
  idem a := by split_ifs <;> norm_num at *
  zero := by norm_num
  one := by norm_num

example := C160_roulette_test counterFRng (-1 : ℚ) coarse (by norm_num) (by norm_num [coarse]) (by norm_num [coarse]) 0
example := C160_sus_test counterFRng (-1 : ℚ) (fuel := 24) (by norm_num) 0
example : Panics (interchangeChanges counterFRng (-1 : ℚ) [true, true, true]) := C160_interchange_flaky counterFRng (-1) 2 true
/-- On a chromosome with two different bits the same test can pass, and it can also fail. -/
example : (interchangeChanges counterFRng (-1 : ℚ) [true, false] 0).toOption.isSome = true ∧
    (interchangeChanges counterFRng (-1 : ℚ) [true, false, false] 0).toOption.isSome = false := by decide +kernel

end Ecrs.RepoTests
