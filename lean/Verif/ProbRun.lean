import Verif.Prob

/-!
# Lower bounds on probabilities

`HasLaw μ m` – the result of `m` has a law and is independent of the state `m` leaves.  It is closed under everything
the programs are made of, so that probabilities of long runs can be bounded step by step.
-/

set_option linter.unusedSectionVars false

namespace Ecrs
open MeasureTheory
open scoped ENNReal

section
variable {G α β γ : Type} [MeasurableSpace G] {μ : Measure G}

/-- The result of `m` has some law, and is independent of the state left. -/
def HasLaw (μ : Measure G) (m : M G α) : Prop := ∃ p, Law μ m p

theorem Law.has {m : M G α} {p : α → ℝ≥0∞} (h : Law μ m p) : HasLaw μ m := ⟨p, h⟩

namespace HasLaw

theorem pure (a : α) : HasLaw μ (Pure.pure a : M G α) := by classical exact ⟨_, Law.pure a⟩

theorem fail (e : Panic) : HasLaw μ (M.fail e : M G α) := by
  have h0 : ∀ a E, hits (M.fail e : M G α) a E = ∅ := by
    intro a E
    ext g
    simp only [hits, Set.mem_ofPred_eq, Set.mem_empty_iff_false, iff_false]
    rintro ⟨g', h, -⟩
    cases h
  refine ⟨fun _ => 0, fun a E _ => ?_, fun a E _ => ?_, ∅, Set.countable_empty, fun g a g' h => by cases h⟩
  · rw [h0]; exact .empty
  · rw [h0]; simp

theorem bind [IsProbabilityMeasure μ] {m : M G α} (h : HasLaw μ m) {f : α → M G β} (hf : ∀ a, HasLaw μ (f a)) :
    HasLaw μ (m >>= f) := by
  obtain ⟨p, hp⟩ := h
  choose q hq using hf
  exact ⟨_, hp.bind fun a _ => hq a⟩

theorem bind_reach [IsProbabilityMeasure μ] {m : M G α} (h : HasLaw μ m) {f : α → M G β}
    (hf : ∀ a, (∃ g g', m g = .ok (a, g')) → HasLaw μ (f a)) : HasLaw μ (m >>= f) := by
  obtain ⟨p, hp⟩ := h
  choose! q hq using hf
  exact ⟨_, hp.bind fun a ha => hq a ha⟩

theorem of_eq {m m' : M G α} (h : HasLaw μ m) (e : m' = m) : HasLaw μ m' := by rw [e]; exact h

theorem ite {c : Prop} [Decidable c] {m m' : M G α} (h : HasLaw μ m) (h' : HasLaw μ m') :
    HasLaw μ (if c then m else m') := by split; exacts [h, h']

theorem forEach [IsProbabilityMeasure μ] {f : α → M G β} (h : ∀ a, HasLaw μ (f a)) : ∀ xs, HasLaw μ (M.forEach f xs)
  | [] => pure []
  | x :: xs => (h x).bind fun y => (forEach h xs).bind fun ys => pure (y :: ys)

theorem replicate [IsProbabilityMeasure μ] {m : M G α} (h : HasLaw μ m) : ∀ n, HasLaw μ (M.replicate n m)
  | 0 => pure []
  | n + 1 => h.bind fun y => (replicate h n).bind fun ys => pure (y :: ys)

theorem fold [IsProbabilityMeasure μ] {f : β → α → M G β} (h : ∀ b a, HasLaw μ (f b a)) : ∀ xs b, HasLaw μ (M.fold f b xs)
  | [], b => pure b
  | x :: xs, b => (h b x).bind fun b' => fold h xs b'

theorem ofExcept (x : Except Panic α) : HasLaw μ (M.ofExcept x : M G α) := by
  cases x with
  | ok a => exact (pure a).of_eq (by funext g; rfl)
  | error e => exact (fail e).of_eq (by funext g; rfl)

theorem assert (c : Bool) (e : Panic) : HasLaw μ (M.assert c e : M G Unit) := by
  unfold M.assert; exact .ite (pure ()) (fail e)

end HasLaw

/-- If the first step satisfies `P` with probability `δ`, and from there the rest succeeds with probability at least
`ε`, then the whole succeeds with probability at least `δ·ε`. -/
theorem HasLaw.le_chance_bind [IsProbabilityMeasure μ] {m : M G α} (h : HasLaw μ m) {f : α → M G β} (hf : ∀ a, HasLaw μ (f a))
    (P : α → Prop) {Q : β → Prop} {ε : ℝ≥0∞} (hε : ∀ a, P a → ε ≤ chance μ (f a) Q) :
    chance μ m P * ε ≤ chance μ (m >>= f) Q := by
  classical
  obtain ⟨p, hp⟩ := h
  choose q hq using hf
  rw [hp.chance_bind hq, hp.chance, ← ENNReal.tsum_mul_right]
  refine ENNReal.tsum_le_tsum fun a => ?_
  split
  · next ha => exact mul_le_mul_right (hε a ha) _
  · simp

/-- The first step decides with which probability the rest succeeds. -/
theorem Law.chance_bind_reach [IsProbabilityMeasure μ] {m : M G α} {p : α → ℝ≥0∞} (h : Law μ m p) {f : α → M G β}
    (hf : ∀ a, (∃ g g', m g = .ok (a, g')) → HasLaw μ (f a)) (Q : β → Prop) :
    Ecrs.chance μ (m >>= f) Q = ∑' a, p a * Ecrs.chance μ (f a) Q := by
  classical
  set f' : α → M G β := fun a => if ∃ g g', m g = .ok (a, g') then f a else M.fail .indexOob with hf'
  have e : m >>= f = m >>= f' := by
    funext g
    cases hg : m g with
    | error x => rw [M.bind_of_error hg, M.bind_of_error hg]
    | ok r =>
      obtain ⟨a, g'⟩ := r
      rw [M.bind_of_ok hg, M.bind_of_ok hg, hf']
      simp only
      rw [if_pos ⟨g, g', hg⟩]
  have hl : ∀ a, HasLaw μ (f' a) := by
    intro a
    simp only [hf']
    split
    · next ha => exact hf a ha
    · exact .fail _
  choose q hq using hl
  rw [e, h.chance_bind hq]
  refine tsum_congr fun a => ?_
  by_cases ha : ∃ g g', m g = .ok (a, g')
  · simp only [hf', if_pos ha]
  · have h0 : hits m a Set.univ = ∅ := by
      by_contra hne
      obtain ⟨g, g', h1, _⟩ := Set.nonempty_iff_ne_empty.2 hne
      exact ha ⟨g, g', h1⟩
    have := h.prob a Set.univ .univ
    rw [h0, measure_empty, measure_univ, mul_one] at this
    rw [← this, zero_mul, zero_mul]

/-- What certainly happens has probability one. -/
theorem chance_of_returns [IsProbabilityMeasure μ] {m : M G α} {P : α → Prop} (h : Returns m P) : chance μ m P = 1 := by
  unfold chance
  have : {g | ∃ a g', m g = .ok (a, g') ∧ P a} = Set.univ := by
    rw [Set.eq_univ_iff_forall]
    intro g
    obtain ⟨a, g', h1, h2⟩ := h g
    exact ⟨a, g', h1, h2⟩
  rw [this, measure_univ]

theorem chance_mono {m : M G α} {P Q : α → Prop} (h : ∀ a, P a → Q a) : chance μ m P ≤ chance μ m Q :=
  measure_mono fun _ ⟨a, g', h1, h2⟩ => ⟨a, g', h1, h a h2⟩

theorem chance_le_one [IsProbabilityMeasure μ] {m : M G α} {P : α → Prop} : chance μ m P ≤ 1 := prob_le_one

/-- A step that certainly satisfies `P`. -/
theorem HasLaw.le_chance_bind_sure [IsProbabilityMeasure μ] {m : M G α} (h : HasLaw μ m) {f : α → M G β} (hf : ∀ a, HasLaw μ (f a))
    {P : α → Prop} (hP : Returns m P) {Q : β → Prop} {ε : ℝ≥0∞} (hε : ∀ a, P a → ε ≤ chance μ (f a) Q) :
    ε ≤ chance μ (m >>= f) Q := by
  have := h.le_chance_bind hf P hε
  rwa [chance_of_returns hP, one_mul] at this

/-- A rest that certainly succeeds. -/
theorem chance_bind_of_returns {m : M G α} {f : α → M G β} {P : α → Prop} {Q : β → Prop} (hf : ∀ a, P a → Returns (f a) Q) :
    chance μ m P ≤ chance μ (m >>= f) Q := by
  refine measure_mono ?_
  rintro g ⟨a, g', h1, h2⟩
  obtain ⟨b, g'', h3, h4⟩ := hf a h2 g'
  exact ⟨b, g'', M.bind_ok_iff.2 ⟨a, g', h1, h3⟩, h4⟩

theorem HasLaw.measurable [IsProbabilityMeasure μ] {m : M G α} (h : HasLaw μ m) (P : α → Prop) :
    MeasurableSet {g | ∃ a g', m g = .ok (a, g') ∧ P a} := by
  obtain ⟨p, hp⟩ := h
  obtain ⟨S, hS, hm⟩ := hp.few
  have e : {g | ∃ a g', m g = .ok (a, g') ∧ P a} = ⋃ a ∈ S ∩ {a | P a}, hits m a Set.univ := by
    ext g
    simp only [Set.mem_ofPred_eq, Set.mem_iUnion, exists_prop, hits, Set.mem_inter_iff, Set.mem_univ, and_true]
    constructor
    · rintro ⟨a, g', h1, h2⟩; exact ⟨a, ⟨hm _ _ _ h1, h2⟩, g', h1⟩
    · rintro ⟨a, ⟨_, h2⟩, g', h1⟩; exact ⟨a, g', h1, h2⟩
  rw [e]
  exact .biUnion (hS.mono Set.inter_subset_left) fun a _ => hp.meas a _ .univ

/-- The probability of failing and of succeeding add up to one, for a program that certainly returns. -/
theorem HasLaw.chance_not [IsProbabilityMeasure μ] {m : M G α} (h : HasLaw μ m) (hr : Returns m fun _ => True) (P : α → Prop) :
    chance μ m P + chance μ m (fun a => ¬ P a) = 1 := by
  unfold chance
  rw [← measure_union ?_ (h.measurable _), ← measure_univ (μ := μ)]
  · congr 1
    rw [Set.eq_univ_iff_forall]
    intro g
    obtain ⟨a, g', h1, -⟩ := hr g
    by_cases hp : P a
    · exact .inl ⟨a, g', h1, hp⟩
    · exact .inr ⟨a, g', h1, hp⟩
  · rw [Set.disjoint_left]
    rintro g ⟨a, g', h1, h2⟩ ⟨b, g'', h3, h4⟩
    rw [h1] at h3
    cases h3
    exact h4 h2

end

namespace Ideal
variable {G β : Type} [MeasurableSpace G] {R : Rng G ℝ} {μ : Measure G}

/-- `u ≤ r` for a draw `u` from the unit interval. -/
theorem unit_le (hR : Ideal R μ) {r : ℝ} (h0 : 0 ≤ r) (h1 : r ≤ 1) :
    Law μ (R.genUnit >>= fun u => pure (decide (u ≤ r))) fun b => ENNReal.ofReal (if b then r else 1 - r) := by
  refine (hR.unit_map (fun u => decide (u ≤ r)) (Set.to_countable _) ?_).congr ?_
  · intro b
    cases b
    · have : {u : ℝ | decide (u ≤ r) = false} = Set.Ioi r := by ext u; simp
      rw [this]; exact measurableSet_Ioi
    · have : {u : ℝ | decide (u ≤ r) = true} = Set.Iic r := by ext u; simp
      rw [this]; exact measurableSet_Iic
  · intro b
    cases b
    · have : ({u : ℝ | decide (u ≤ r) = false} ∩ Set.Ico 0 1) = Set.Ioo r 1 := by
        ext u; simp only [decide_eq_false_iff_not, not_le, Set.mem_inter_iff, Set.mem_ofPred_eq, Set.mem_Ico, Set.mem_Ioo]
        constructor
        · rintro ⟨h, -, h'⟩; exact ⟨h, h'⟩
        · rintro ⟨h, h'⟩; exact ⟨h, h0.trans h.le, h'⟩
      rw [this, Real.volume_Ioo]; simp
    · have e : ({u : ℝ | decide (u ≤ r) = true} ∩ Set.Ico 0 1 : Set ℝ) =ᵐ[volume] (Set.Iic r ∩ Set.Icc 0 1 : Set ℝ) := by
        have : {u : ℝ | decide (u ≤ r) = true} = Set.Iic r := by ext u; simp
        rw [this]
        exact Filter.EventuallyEq.rfl.inter MeasureTheory.Ico_ae_eq_Icc
      have : (Set.Iic r ∩ Set.Icc 0 1 : Set ℝ) = Set.Icc 0 r := by
        ext u; simp only [Set.mem_Iic, Set.mem_inter_iff, Set.mem_Icc]
        constructor
        · rintro ⟨h, h', -⟩; exact ⟨h', h⟩
        · rintro ⟨h, h'⟩; exact ⟨h', h, h'.trans h1⟩
      rw [measure_congr e, this, Real.volume_Icc]; simp

/-- A program whose continuation depends on the comparison of a draw only. -/
theorem hasLaw_unit_lt (hR : Ideal R μ) {r : ℝ} (h0 : 0 ≤ r) (h1 : r ≤ 1) {m m' : M G β} (h : HasLaw μ m) (h' : HasLaw μ m') :
    HasLaw μ (R.genUnit >>= fun u => if u < r then m else m') := by
  have := hR.isProbability
  refine (HasLaw.bind (hR.unit_lt h0 h1).has (f := fun b => if b then m else m') fun b => h.ite h').of_eq ?_
  simp only [bind_assoc, pure_bind, decide_eq_true_eq]

theorem hasLaw_below (hR : Ideal R μ) (lo hi : Nat) : HasLaw μ (R.genRange lo hi) := by
  by_cases h : lo < hi
  · exact (hR.below lo hi h).has
  · refine (HasLaw.fail .emptyRange).of_eq ?_
    unfold Rng.genRange
    rw [if_neg h]

theorem hasLaw_upto (hR : Ideal R μ) (lo hi : Nat) : HasLaw μ (R.genRangeIncl lo hi) := by
  by_cases h : lo ≤ hi
  · exact (hR.upto lo hi h).has
  · refine (HasLaw.fail .emptyRange).of_eq ?_
    unfold Rng.genRangeIncl
    rw [if_neg h]

theorem hasLaw_thread (hR : Ideal R μ) (lo hi : Nat) : HasLaw μ (R.threadRange lo hi) := by
  by_cases h : lo < hi
  · exact (hR.threadBelow lo hi h).has
  · refine (HasLaw.fail .emptyRange).of_eq ?_
    unfold Rng.threadRange
    rw [if_neg h]

theorem hasLaw_sample (hR : Ideal R μ) (n k : Nat) : HasLaw μ (R.indexSample n k) := by
  by_cases h : k ≤ n
  · exact (hR.sample n k h).has
  · refine (HasLaw.fail .sampleTooMany).of_eq ?_
    unfold Rng.indexSample
    rw [if_neg h]

theorem hasLaw_shuffle (hR : Ideal R μ) (n : Nat) : HasLaw μ (R.genShuffle n) := (hR.shuffle n).has

theorem hasLaw_coin (hR : Ideal R μ) : HasLaw μ R.genCoin := hR.coin.has

end Ideal
end Ecrs
