import Verif.FRng
import Mathlib.MeasureTheory.Measure.Lebesgue.Basic
import Mathlib.MeasureTheory.Constructions.BorelSpace.Order

/-!
# Probabilities

The operators are modelled for an arbitrary generator.  Here the initial state of the generator is random, with
law `μ`; `chance μ m Q` is then the probability that `m` returns a result satisfying `Q`.  `Ideal R μ` says that
the draws of the generator are uniform and independent: whatever is drawn, the state left behind has law `μ`
again and does not depend on the answer.  (`Verif/ProbTape.lean` constructs such a generator.)
-/

set_option linter.unusedSectionVars false

namespace Ecrs
open MeasureTheory
open scoped ENNReal

section
variable {G α β γ : Type} [MeasurableSpace G]

/-- The probability that `m` returns (does not panic) and its result satisfies `Q`, when the state has law `μ`. -/
noncomputable def chance (μ : Measure G) (m : M G α) (Q : α → Prop) : ℝ≥0∞ :=
  μ {g | ∃ a g', m g = .ok (a, g') ∧ Q a}

/-- The states from which `m` returns `a` and leaves a state of `E`. -/
def hits (m : M G α) (a : α) (E : Set G) : Set G := {g | ∃ g', m g = .ok (a, g') ∧ g' ∈ E}

/-- `m` returns `a` with probability `p a`, and the state it leaves has law `μ`, independently of `a`.  (`few`: only
countably many results are possible at all.) -/
structure Law (μ : Measure G) (m : M G α) (p : α → ℝ≥0∞) : Prop where
  meas : ∀ a E, MeasurableSet E → MeasurableSet (hits m a E)
  prob : ∀ a E, MeasurableSet E → μ (hits m a E) = p a * μ E
  few : ∃ S : Set α, S.Countable ∧ ∀ g a g', m g = .ok (a, g') → a ∈ S

open Classical in
/-- `m` returns an element of the finite set `S`, each with the same probability, independently of the state it
leaves. -/
def Uniform (μ : Measure G) (m : M G α) (S : Set α) : Prop :=
  Law μ m fun a => if a ∈ S then (S.ncard : ℝ≥0∞)⁻¹ else 0

/-- The draws of the generator are uniform and independent (see the head of the file), and `rng.clone()` draws from
the same source as `rng`, as clones of `ThreadRng` do. -/
structure Ideal (R : Rng G ℝ) (μ : Measure G) : Prop where
  total : μ Set.univ = 1
  below : ∀ lo hi, lo < hi → Uniform μ (R.genRange lo hi) (Set.Ico lo hi)
  upto : ∀ lo hi, lo ≤ hi → Uniform μ (R.genRangeIncl lo hi) (Set.Icc lo hi)
  unit : ∀ (A : Set ℝ) (E : Set G), MeasurableSet A → MeasurableSet E →
    MeasurableSet {g | (R.unit g).1 ∈ A ∧ (R.unit g).2 ∈ E} ∧
    μ {g | (R.unit g).1 ∈ A ∧ (R.unit g).2 ∈ E} = volume (A ∩ Set.Ico 0 1) * μ E
  coin : Uniform μ R.genCoin Set.univ
  sample : ∀ n k, k ≤ n → Uniform μ (R.indexSample n k) {l | l.length = k ∧ l.Nodup ∧ ∀ i ∈ l, i < n}
  shuffle : ∀ n, Uniform μ (R.genShuffle n) {l | l.Perm (List.range n)}
  threadBelow : ∀ lo hi, lo < hi → Uniform μ (R.threadRange lo hi) (Set.Ico lo hi)
  clones : R.clonesShareState = true

/-! ## The calculus of laws -/

variable {μ : Measure G} {m : M G α} {p : α → ℝ≥0∞}

theorem hits_bind {f : α → M G β} (b : β) (E : Set G) :
    hits (m >>= f) b E = ⋃ a, hits m a (hits (f a) b E) := by
  ext g
  simp only [hits, Set.mem_ofPred_eq, Set.mem_iUnion]
  constructor
  · rintro ⟨g', h, hE⟩
    obtain ⟨a, g1, h1, h2⟩ := M.bind_ok_iff.1 h
    exact ⟨a, g1, h1, g', h2, hE⟩
  · rintro ⟨a, g1, h1, g', h2, hE⟩
    exact ⟨g', M.bind_ok_iff.2 ⟨a, g1, h1, h2⟩, hE⟩

theorem hits_pure (a b : α) (E : Set G) [Decidable (b = a)] :
    hits (pure a : M G α) b E = if b = a then E else ∅ := by
  ext g
  simp only [hits, Set.mem_ofPred_eq]
  constructor
  · rintro ⟨g', h, hE⟩
    rw [M.pure_run] at h
    cases h
    simpa using hE
  · intro h
    split at h
    · next e => subst e; exact ⟨g, rfl, h⟩
    · cases h

open Classical in
theorem Law.pure (a : α) : Law μ (Pure.pure a : M G α) fun b => if b = a then 1 else 0 where
  meas b E hE := by rw [hits_pure]; split; exacts [hE, .empty]
  prob b E hE := by rw [hits_pure]; split <;> simp
  few := ⟨{a}, Set.countable_singleton a, fun g b g' h => by rw [M.pure_run] at h; cases h; rfl⟩

theorem Law.congr {q : α → ℝ≥0∞} (h : Law μ m p) (hpq : ∀ a, p a = q a) : Law μ m q := by
  rw [← funext hpq]; exact h

theorem Law.of_eq {m' : M G α} (h : Law μ m p) (e : m' = m) : Law μ m' p := by rw [e]; exact h

/-- Sequencing. -/
theorem Law.bind [IsProbabilityMeasure μ] (h : Law μ m p) {f : α → M G β} {q : α → β → ℝ≥0∞}
    (hf : ∀ a, (∃ g g', m g = .ok (a, g')) → Law μ (f a) (q a)) :
    Law μ (m >>= f) fun b => ∑' a, p a * q a b := by
  obtain ⟨S, hS, hm⟩ := h.few
  set T := S ∩ {a | ∃ g g', m g = .ok (a, g')} with hT
  have hTc : T.Countable := hS.mono Set.inter_subset_left
  have hout : ∀ a, a ∉ T → ∀ E, hits m a E = ∅ := by
    intro a ha E
    by_contra hne
    obtain ⟨g, g', h1, _⟩ := Set.nonempty_iff_ne_empty.2 hne
    exact ha ⟨hm g a g' h1, g, g', h1⟩
  have hp0 : ∀ a, a ∉ T → p a = 0 := by
    intro a ha
    have := h.prob a Set.univ .univ
    rw [hout a ha, measure_empty, measure_univ, mul_one] at this
    exact this.symm
  have hU : ∀ b E, hits (m >>= f) b E = ⋃ a ∈ T, hits m a (hits (f a) b E) := by
    intro b E
    rw [hits_bind]
    ext g
    simp only [Set.mem_iUnion, exists_prop]
    constructor
    · rintro ⟨a, ha⟩
      refine ⟨a, ?_, ha⟩
      by_contra hc
      rw [hout a hc] at ha
      exact ha
    · rintro ⟨a, _, ha⟩; exact ⟨a, ha⟩
  refine ⟨?_, ?_, ?_⟩
  · intro b E hE
    rw [hU]
    exact .biUnion hTc fun a ha => h.meas a _ ((hf a ha.2).meas b E hE)
  · intro b E hE
    rw [hU, measure_biUnion hTc ?_ fun a ha => h.meas a _ ((hf a ha.2).meas b E hE)]
    · have : ∀ a : T, μ (hits m a (hits (f a) b E)) = (fun a => p a * q a b * μ E) a := by
        rintro ⟨a, ha⟩
        simp only [h.prob a _ ((hf a ha.2).meas b E hE), (hf a ha.2).prob b E hE, mul_assoc]
      simp only [this]
      rw [tsum_subtype_eq_of_support_subset (f := fun a => p a * q a b * μ E), ENNReal.tsum_mul_right]
      intro a ha
      by_contra hc
      exact ha (by simp [hp0 a hc])
    · intro a _ a' _ hne
      refine Set.disjoint_left.2 ?_
      rintro g ⟨g1, h1, _⟩ ⟨g2, h2, _⟩
      rw [h1] at h2
      cases h2
      exact hne rfl
  · choose! Sf hSf hmf using fun a (ha : ∃ g g', m g = .ok (a, g')) => (hf a ha).few
    refine ⟨⋃ a ∈ T, Sf a, hTc.biUnion fun a ha => hSf a ha.2, ?_⟩
    intro g b g' hg
    obtain ⟨a, g1, h1, h2⟩ := M.bind_ok_iff.1 hg
    have ha : ∃ g g', m g = .ok (a, g') := ⟨g, g1, h1⟩
    simp only [Set.mem_iUnion, exists_prop]
    exact ⟨a, ⟨hm g a g1 h1, ha⟩, hmf a ha g1 b g' h2⟩

open Classical in
/-- Applying a function to the result. -/
theorem Law.map [IsProbabilityMeasure μ] (h : Law μ m p) (f : α → β) :
    Law μ (m >>= fun a => Pure.pure (f a)) fun b => ∑' a, if f a = b then p a else 0 := by
  refine (h.bind fun a _ => Law.pure (f a)).congr fun b => tsum_congr fun a => ?_
  by_cases e : f a = b
  · simp [e]
  · simp [e, Ne.symm e]

open Classical in
/-- Independent repetitions. -/
theorem Law.replicate [IsProbabilityMeasure μ] (h : Law μ m p) (n : Nat) :
    Law μ (M.replicate n m) fun xs => if xs.length = n then (xs.map p).prod else 0 := by
  induction n with
  | zero =>
    refine (Law.pure []).congr fun xs => ?_
    cases xs <;> simp
  | succ n ih =>
    have := h.bind (f := fun y => M.replicate n m >>= fun ys => Pure.pure (y :: ys)) fun a _ => ih.map (a :: ·)
    refine Law.of_eq (this.congr ?_) rfl
    intro xs
    cases xs with
    | nil => simp
    | cons y ys =>
      rw [tsum_eq_single y, tsum_eq_single ys]
      · simp only [if_true, List.length_cons, Nat.add_right_cancel_iff, List.map_cons, List.prod_cons]
        split <;> simp
      · intro zs hz
        rw [if_neg (by rintro e; exact hz (List.cons.inj e).2)]
      · intro b hb
        simp [hb]

open Classical in
/-- A loop over a list. -/
theorem Law.forEach [IsProbabilityMeasure μ] {f : α → M G β} {q : α → β → ℝ≥0∞} :
    ∀ {xs : List α}, (∀ x ∈ xs, Law μ (f x) (q x)) →
      Law μ (M.forEach f xs) fun ys => if ys.length = xs.length then (List.zipWith q xs ys).prod else 0
  | [], _ => by
    refine (Law.pure []).congr fun ys => ?_
    cases ys <;> simp
  | x :: xs, h => by
    have ih := Law.forEach (xs := xs) fun x' hx' => h x' (by simp [hx'])
    have := (h x (by simp)).bind (f := fun y => M.forEach f xs >>= fun ys => Pure.pure (y :: ys)) fun a _ => ih.map (a :: ·)
    refine Law.of_eq (this.congr ?_) rfl
    intro ys
    cases ys with
    | nil => simp
    | cons y ys =>
      rw [tsum_eq_single y, tsum_eq_single ys]
      · simp only [if_true, List.length_cons, Nat.add_right_cancel_iff, List.zipWith_cons_cons, List.prod_cons]
        split <;> simp
      · intro zs hz
        rw [if_neg (by rintro e; exact hz (List.cons.inj e).2)]
      · intro b hb
        simp [hb]

/-! ## From laws to probabilities -/

open Classical in
theorem Law.chance [IsProbabilityMeasure μ] (h : Law μ m p) (Q : α → Prop) :
    Ecrs.chance μ m Q = ∑' a, if Q a then p a else 0 := by
  obtain ⟨S, hS, hm⟩ := h.few
  have e : {g | ∃ a g', m g = .ok (a, g') ∧ Q a} = ⋃ a ∈ S ∩ {a | Q a}, hits m a Set.univ := by
    ext g
    simp only [Set.mem_ofPred_eq, Set.mem_iUnion, exists_prop, hits, Set.mem_inter_iff, Set.mem_univ, and_true]
    constructor
    · rintro ⟨a, g', h1, h2⟩; exact ⟨a, ⟨hm _ _ _ h1, h2⟩, g', h1⟩
    · rintro ⟨a, ⟨_, h2⟩, g', h1⟩; exact ⟨a, g', h1, h2⟩
  have hSc : (S ∩ {a | Q a}).Countable := hS.mono Set.inter_subset_left
  unfold Ecrs.chance
  rw [e, measure_biUnion hSc ?_ fun a _ => h.meas a _ .univ]
  · have : ∀ a : ↥(S ∩ {a | Q a}), μ (hits m a Set.univ) = (fun a => if Q a then p a else 0) a := by
      rintro ⟨a, ha⟩
      simp only [h.prob a _ .univ, measure_univ, mul_one]
      rw [if_pos (show Q a from ha.2)]
    simp only [this]
    rw [tsum_subtype_eq_of_support_subset (f := fun a => if Q a then p a else 0)]
    intro a ha
    by_contra hc
    refine ha ?_
    by_cases hq : Q a
    · have hS' : a ∉ S := fun hs => hc ⟨hs, hq⟩
      have h0 : hits m a Set.univ = ∅ := by
        by_contra hne
        obtain ⟨g, g', h1, _⟩ := Set.nonempty_iff_ne_empty.2 hne
        exact hS' (hm g a g' h1)
      have := h.prob a Set.univ .univ
      rw [h0, measure_empty, measure_univ, mul_one] at this
      simp [← this]
    · simp [hq]
  · intro a _ a' _ hne
    refine Set.disjoint_left.2 ?_
    rintro g ⟨g1, h1, _⟩ ⟨g2, h2, _⟩
    rw [h1] at h2
    cases h2
    exact hne rfl

theorem Law.chance_eq [IsProbabilityMeasure μ] (h : Law μ m p) (a : α) : Ecrs.chance μ m (· = a) = p a := by
  classical
  rw [h.chance, tsum_eq_single a]
  · simp
  · intro b hb; simp [hb]

/-- A function of the result. -/
theorem chance_map (m : M G α) (f : α → β) (Q : β → Prop) :
    Ecrs.chance μ (m >>= fun a => Pure.pure (f a)) Q = Ecrs.chance μ m fun a => Q (f a) := by
  unfold Ecrs.chance
  congr 1
  ext g
  simp only [Set.mem_ofPred_eq]
  constructor
  · rintro ⟨b, g', h, hQ⟩
    obtain ⟨a, g1, h1, h2⟩ := M.bind_ok_iff.1 h
    rw [M.pure_run] at h2
    obtain ⟨rfl, rfl⟩ := Prod.mk.inj (Except.ok.inj h2)
    exact ⟨a, g1, h1, hQ⟩
  · rintro ⟨a, g', h, hQ⟩
    exact ⟨f a, g', M.bind_ok_iff.2 ⟨a, g', h, rfl⟩, hQ⟩

/-- The first step decides with which probability the rest succeeds. -/
theorem Law.chance_bind [IsProbabilityMeasure μ] (h : Law μ m p) {f : α → M G β} {q : α → β → ℝ≥0∞}
    (hf : ∀ a, Law μ (f a) (q a)) (Q : β → Prop) :
    Ecrs.chance μ (m >>= f) Q = ∑' a, p a * Ecrs.chance μ (f a) Q := by
  classical
  rw [(h.bind fun a _ => hf a).chance]
  have : ∀ b, (if Q b then ∑' a, p a * q a b else 0) = ∑' a, if Q b then p a * q a b else 0 := by
    intro b; split <;> simp
  simp only [this]
  rw [ENNReal.tsum_comm]
  refine tsum_congr fun a => ?_
  rw [(hf a).chance, ← ENNReal.tsum_mul_left]
  exact tsum_congr fun b => by split <;> simp

/-- Independent repetitions all succeed. -/
theorem Law.chance_replicate_all [IsProbabilityMeasure μ] (h : Law μ m p) (Q : α → Prop) : ∀ n : Nat,
    Ecrs.chance μ (M.replicate n m) (fun xs => ∀ x ∈ xs, Q x) = Ecrs.chance μ m Q ^ n
  | 0 => by
    classical
    have := (Law.pure (μ := μ) ([] : List α)).chance fun xs => ∀ x ∈ xs, Q x
    rw [tsum_eq_single []] at this
    · rw [pow_zero]
      refine Eq.trans ?_ (this.trans (by simp))
      rfl
    · intro b hb; simp [hb]
  | n + 1 => by
    classical
    rw [M.replicate, h.chance_bind (fun a => (h.replicate n).map (a :: ·))]
    have : ∀ a, Ecrs.chance μ (M.replicate n m >>= fun ys => Pure.pure (a :: ys)) (fun xs => ∀ x ∈ xs, Q x) =
        if Q a then Ecrs.chance μ m Q ^ n else 0 := by
      intro a
      rw [chance_map]
      by_cases hq : Q a
      · rw [if_pos hq, ← Law.chance_replicate_all h Q n]
        simp [hq]
      · simp [hq, Ecrs.chance]
    simp only [this]
    rw [pow_succ, h.chance Q, mul_comm, ← ENNReal.tsum_mul_right]
    refine tsum_congr fun a => ?_
    split <;> simp

/-! ## Draws -/

theorem Uniform.ncard_ne_zero [IsProbabilityMeasure μ] {S : Set α} (_ : Uniform μ m S) (hS : S.Finite) (hne : S.Nonempty) :
    (S.ncard : ℝ≥0∞) ≠ 0 := by
  have := (Set.ncard_pos hS).2 hne
  exact_mod_cast this.ne'

open Classical in
/-- A uniform draw, then a program. -/
theorem Uniform.bind [IsProbabilityMeasure μ] {S : Set α} (h : Uniform μ m S) (hS : S.Finite) {f : α → M G β}
    {q : α → β → ℝ≥0∞} (hm : ∀ g a g', m g = .ok (a, g') → a ∈ S) (hf : ∀ a ∈ S, Law μ (f a) (q a)) :
    Law μ (m >>= f) fun b => (∑ a ∈ hS.toFinset, q a b) / S.ncard := by
  refine (Law.bind h fun a ⟨g, g', hg⟩ => hf a (hm g a g' hg)).congr fun b => ?_
  rw [tsum_eq_sum (s := hS.toFinset), ENNReal.div_eq_inv_mul, Finset.mul_sum]
  · refine Finset.sum_congr rfl fun a ha => ?_
    rw [if_pos (hS.mem_toFinset.1 ha)]
  · intro a ha
    rw [if_neg (by simpa using ha), zero_mul]

open Classical in
/-- A uniform draw, then a function of it: the number of draws with that result over the number of draws. -/
theorem Uniform.map [IsProbabilityMeasure μ] {S : Set α} (h : Uniform μ m S) (hS : S.Finite) (f : α → β) :
    Law μ (m >>= fun a => Pure.pure (f a)) fun b => ((S ∩ {a | f a = b}).ncard : ℝ≥0∞) / S.ncard := by
  refine (Law.map h f).congr fun b => ?_
  rw [tsum_eq_sum (s := hS.toFinset), ENNReal.div_eq_inv_mul]
  · have : (S ∩ {a | f a = b}).ncard = (hS.toFinset.filter fun a => f a = b).card := by
      rw [← Set.ncard_coe_finset]
      congr 1
      ext a
      simp
    rw [this, Finset.card_filter]
    push_cast
    rw [Finset.mul_sum]
    refine Finset.sum_congr rfl fun a ha => ?_
    rw [if_pos (hS.mem_toFinset.1 ha)]
    split <;> simp
  · intro a ha
    have : a ∉ S := by simpa using ha
    simp [this]

/-- A uniform draw, then a deterministic computation that does not panic on the drawn values. -/
theorem Uniform.chance_of [IsProbabilityMeasure μ] {S : Set α} (h : Uniform μ m S) (hS : S.Finite)
    (hm : ∀ g a g', m g = .ok (a, g') → a ∈ S) {f : α → M G β} {k : α → β} (hf : ∀ a ∈ S, f a = Pure.pure (k a)) (Q : β → Prop) :
    Ecrs.chance μ (m >>= f) Q = ((S ∩ {a | Q (k a)}).ncard : ℝ≥0∞) / S.ncard := by
  classical
  have e : m >>= f = m >>= fun a => Pure.pure (k a) := by
    funext g
    cases hg : m g with
    | error x => rw [M.bind_of_error hg, M.bind_of_error hg]
    | ok r =>
      obtain ⟨a, g'⟩ := r
      rw [M.bind_of_ok hg, M.bind_of_ok hg, hf a (hm g a g' hg)]
  rw [e, chance_map, Law.chance h, tsum_eq_sum (s := hS.toFinset), ENNReal.div_eq_inv_mul]
  · have : (S ∩ {a | Q (k a)}).ncard = (hS.toFinset.filter fun a => Q (k a)).card := by
      rw [← Set.ncard_coe_finset]
      congr 1
      ext a
      simp
    rw [this, Finset.card_filter]
    push_cast
    rw [Finset.mul_sum]
    refine Finset.sum_congr rfl fun a ha => ?_
    rw [if_pos (hS.mem_toFinset.1 ha)]
    split <;> simp
  · intro a ha
    have : a ∉ S := by simpa using ha
    simp [this]

end

namespace Ideal
variable {G β : Type} [MeasurableSpace G] {R : Rng G ℝ} {μ : Measure G}

theorem isProbability (hR : Ideal R μ) : IsProbabilityMeasure μ := ⟨hR.total⟩

/-- A function with countably many values of a draw from the unit interval. -/
theorem unit_map (hR : Ideal R μ) (h : ℝ → β) (hc : (Set.range h).Countable) (hm : ∀ b, MeasurableSet {u | h u = b}) :
    Law μ (R.genUnit >>= fun u => pure (h u)) fun b => volume ({u | h u = b} ∩ Set.Ico 0 1) := by
  have e : ∀ b E, hits (R.genUnit >>= fun u => pure (h u)) b E =
      {g | (R.unit g).1 ∈ {u | h u = b} ∧ (R.unit g).2 ∈ E} := by
    intro b E
    ext g
    simp only [hits, Set.mem_ofPred_eq]
    constructor
    · rintro ⟨g', hg, hE⟩
      obtain ⟨u, g1, h1, h2⟩ := M.bind_ok_iff.1 hg
      unfold Rng.genUnit at h1
      rw [M.lift_run] at h1
      rw [M.pure_run] at h2
      have h1' := Except.ok.inj h1
      have h2' := Prod.mk.inj (Except.ok.inj h2)
      rw [h1']
      exact ⟨h2'.1, h2'.2 ▸ hE⟩
    · rintro ⟨h1, h2⟩
      refine ⟨(R.unit g).2, M.bind_ok_iff.2 ⟨(R.unit g).1, (R.unit g).2, rfl, ?_⟩, h2⟩
      rw [h1]; rfl
  refine ⟨?_, ?_, ⟨Set.range h, hc, ?_⟩⟩
  rotate_left 2
  · intro g b g' hg
    obtain ⟨u, g1, h1, h2⟩ := M.bind_ok_iff.1 hg
    rw [M.pure_run] at h2
    exact ⟨u, (Prod.mk.inj (Except.ok.inj h2)).1⟩
  · intro b E hE; rw [e]; exact (hR.unit _ E (hm b) hE).1
  · intro b E hE; rw [e]; exact (hR.unit _ E (hm b) hE).2

/-- A comparison with a draw from the unit interval. -/
theorem unit_lt (hR : Ideal R μ) {r : ℝ} (h0 : 0 ≤ r) (h1 : r ≤ 1) :
    Law μ (R.genUnit >>= fun u => pure (decide (u < r))) fun b => ENNReal.ofReal (if b then r else 1 - r) := by
  refine (hR.unit_map (fun u => decide (u < r)) (Set.to_countable _) ?_).congr ?_
  · intro b
    cases b
    · have : {u : ℝ | decide (u < r) = false} = Set.Ici r := by ext u; simp
      rw [this]; exact measurableSet_Ici
    · have : {u : ℝ | decide (u < r) = true} = Set.Iio r := by ext u; simp
      rw [this]; exact measurableSet_Iio
  · intro b
    cases b
    · have : ({u : ℝ | decide (u < r) = false} ∩ Set.Ico 0 1) = Set.Ico r 1 := by
        ext u; simp only [decide_eq_false_iff_not, not_lt, Set.mem_inter_iff, Set.mem_ofPred_eq, Set.mem_Ico]
        constructor
        · rintro ⟨h, -, h'⟩; exact ⟨h, h'⟩
        · rintro ⟨h, h'⟩; exact ⟨h, h0.trans h, h'⟩
      rw [this, Real.volume_Ico]; simp
    · have : ({u : ℝ | decide (u < r) = true} ∩ Set.Ico 0 1) = Set.Ico 0 r := by
        ext u; simp only [decide_eq_true_eq, Set.mem_inter_iff, Set.mem_ofPred_eq, Set.mem_Ico]
        constructor
        · rintro ⟨h, h', -⟩; exact ⟨h', h⟩
        · rintro ⟨h, h'⟩; exact ⟨h', h, h'.trans_le h1⟩
      rw [this, Real.volume_Ico]; simp

/-- Operators drawing from a clone of the generator. -/
theorem onClone_eq (hR : Ideal R μ) (m : M G β) : R.onClone m = m := by
  funext g
  unfold Rng.onClone
  rw [hR.clones]
  cases m g with
  | error e => rfl
  | ok x => rfl

end Ideal

section lists
variable {I : Type}

open Classical in
theorem sum_map_ite (x : I) (c : ℝ≥0∞) : ∀ pop : List I, (pop.map fun a => if a = x then c else 0).sum = pop.count x * c
  | [] => by simp
  | a :: pop => by
    rw [List.map_cons, List.sum_cons, sum_map_ite x c pop, List.count_cons]
    by_cases h : a = x <;> simp [h, add_mul, add_comm]

theorem sum_map_countP (P : I → Prop) [DecidablePred P] (c : ℝ≥0∞) :
    ∀ pop : List I, (pop.map fun a => if P a then c else 0).sum = (pop.countP fun a => decide (P a)) * c
  | [] => by simp
  | a :: pop => by
    rw [List.map_cons, List.sum_cons, sum_map_countP P c pop, List.countP_cons]
    by_cases h : P a <;> simp [h, add_mul, add_comm]

open Classical in
/-- Sums over the values of a list, weighted by their number of occurrences. -/
theorem tsum_count (F : I → ℝ≥0∞) : ∀ pop : List I, ∑' a, (pop.count a : ℝ≥0∞) * F a = (pop.map F).sum
  | [] => by simp
  | a :: pop => by
    rw [List.map_cons, List.sum_cons, ← tsum_count F pop]
    have : ∀ b, ((a :: pop).count b : ℝ≥0∞) * F b = (if b = a then F b else 0) + pop.count b * F b := by
      intro b
      rw [List.count_cons]
      by_cases h : b = a
      · subst h; simp [add_mul, add_comm]
      · simp [h, Ne.symm h]
    simp only [this]
    rw [ENNReal.tsum_add, tsum_eq_single a]
    · simp
    · intro b hb; simp [hb]

end lists
end Ecrs
