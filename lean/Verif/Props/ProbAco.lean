import Verif.Aco.Sampled
import Verif.Ga.ProbSolver
import Verif.ProbTape
import Verif.Props.ProbSelection
import Verif.Props.AcoPossible

set_option linter.unusedSectionVars false

/-!
# C136: the probabilities of the tours of ants

With uniform and independent draws (`Ideal`), exact arithmetic and *given* iteration orders of the hash sets, an ant
follows the random proportional rule of the literature; the probabilities of whole tours and colonies follow.
-/

namespace Ecrs
open MeasureTheory
open scoped ENNReal

section
variable {G α β : Type} [MeasurableSpace G] {μ : Measure G}

/-- `Q` can only happen through `P`, and from there with probability `c`. -/
theorem HasLaw.chance_bind_eq [IsProbabilityMeasure μ] {m : M G α} (h : HasLaw μ m) {f : α → M G β}
    {A P : α → Prop} (hA : IfReturns m A) (hf : ∀ a, A a → HasLaw μ (f a)) {Q : β → Prop} {c : ℝ≥0∞}
    (hc : ∀ a, A a → P a → chance μ (f a) Q = c) (h0 : ∀ a, A a → ¬ P a → chance μ (f a) Q = 0) :
    chance μ (m >>= f) Q = chance μ m P * c := by
  classical
  obtain ⟨p, hp⟩ := h
  rw [hp.chance_bind_reach (fun a ⟨g, g', e⟩ => hf a (hA g a g' e)), hp.chance, ← ENNReal.tsum_mul_right]
  refine tsum_congr fun a => ?_
  by_cases hr : ∃ g g', m g = .ok (a, g')
  · obtain ⟨g, g', e⟩ := hr
    have ha := hA g a g' e
    split
    · next hPa => rw [hc a ha hPa]
    · next hPa => rw [h0 a ha hPa]; simp
  · have h0 : hits m a Set.univ = ∅ := by
      by_contra hne
      obtain ⟨g, g', h1, _⟩ := Set.nonempty_iff_ne_empty.2 hne
      exact hr ⟨g, g', h1⟩
    have := hp.prob a Set.univ .univ
    rw [h0, measure_empty, measure_univ, mul_one] at this
    rw [← this]
    simp

theorem HasLaw.of_panics {m : M G α} (h : Panics m) : HasLaw μ m := by
  have hn : ∀ a E, hits m a E = ∅ := by
    intro a E
    ext g
    simp only [hits, Set.mem_ofPred_eq, Set.mem_empty_iff_false, iff_false]
    rintro ⟨g', h1, -⟩
    obtain ⟨e, he⟩ := h g
    rw [he] at h1
    cases h1
  refine ⟨fun _ => 0, fun a E _ => ?_, fun a E _ => ?_, ∅, Set.countable_empty, fun g a g' h1 => ?_⟩
  · rw [hn]; exact .empty
  · rw [hn]; simp
  · obtain ⟨e, he⟩ := h g
    rw [he] at h1
    cases h1

instance : Countable Panic := by
  refine Function.Injective.countable (f := fun p : Panic => (match p with
    | .assertion => 0 | .unwrapNone => 1 | .indexOob => 2 | .emptyRange => 3 | .sampleTooMany => 4 | .nanCompare => 5
    | .underflow => 6 | .divByZero => 7 | .libError => 8 | .outOfFuel => 9 : Nat)) ?_
  intro a b h
  cases a <;> cases b <;> first | rfl | (simp at h)

instance {α : Type} [Countable α] : Countable (Except Panic α) := by
  refine Function.Injective.countable (f := fun x : Except Panic α => (match x with
    | .ok a => Sum.inl a | .error e => Sum.inr e : α ⊕ Panic)) ?_
  intro a b h
  cases a <;> cases b <;> simp_all

end
end Ecrs

namespace Ecrs.Aco
open Ecrs MeasureTheory
open scoped ENNReal

section
variable {G : Type} [MeasurableSpace G] {R : Rng G ℝ} {μ : Measure G}
variable (sqrt : Ext ℝ → Ext ℝ) (pow : Ext ℝ → Ext ℝ → Ext ℝ) (maxv : ℝ) (floor : ℝ → Nat)

local notation "A0" => exactOps sqrt pow maxv floor

/-! ## Everything has a law -/

theorem roulette_meas (g : Mat (Ext ℝ)) (last : Nat) (y : Except Panic (Option Nat)) : ∀ (vs : List Nat),
    MeasurableSet {r : ℝ | roulette A0 g last vs (.fin r) = y}
  | [] => by simp [roulette]
  | v :: vs => by
    have ih := roulette_meas g last y vs
    cases hx : g.at' last v with
    | error e =>
      have : {r : ℝ | roulette A0 g last (v :: vs) (.fin r) = y} = {_r : ℝ | .error e = y} := by
        ext r
        simp only [Set.mem_ofPred_eq]
        rw [roulette, hx]
        exact Iff.rfl
      rw [this]
      exact .const _
    | ok w =>
      have step : ∀ r : ℝ, roulette A0 g last (v :: vs) (.fin r) = if !(A0).notLe ((A0).sub (.fin r) w) (A0).zero
          then .ok (some v) else roulette A0 g last vs ((A0).sub (.fin r) w) := by
        intro r
        rw [roulette, Exc.bind_of_ok hx]
      cases w with
      | fin x =>
        have hsub : ∀ r : ℝ, (A0).sub (.fin r) (.fin x) = .fin (r - x) := by
          intro r
          show Ext.fin (r + -x) = _
          rw [sub_eq_add_neg]
        have : {r : ℝ | roulette A0 g last (v :: vs) (.fin r) = y} =
            (Set.Iic x ∩ {_r : ℝ | .ok (some v) = y}) ∪
              (Set.Ioi x ∩ (fun r => r - x) ⁻¹' {r : ℝ | roulette A0 g last vs (.fin r) = y}) := by
          ext r
          simp only [Set.mem_ofPred_eq, Set.mem_union, Set.mem_inter_iff, Set.mem_Iic, Set.mem_Ioi, Set.mem_preimage]
          rw [step, hsub]
          by_cases hr : r ≤ x
          · have : (A0).notLe (.fin (r - x)) (A0).zero = false := by
              cases hc : (A0).notLe (.fin (r - x)) (A0).zero with
              | false => rfl
              | true =>
                have h0 : 0 < r - x := (ex_notLe sqrt pow maxv floor).1 hc
                exfalso
                linarith
            rw [this]
            simp [hr, not_lt.2 hr]
          · have : (A0).notLe (.fin (r - x)) (A0).zero = true :=
              (ex_notLe sqrt pow maxv floor).2 (by have := not_le.1 hr; linarith)
            rw [this]
            simp [hr, not_le.1 hr]
        rw [this]
        exact (measurableSet_Iic.inter (.const _)).union (measurableSet_Ioi.inter
          ((measurable_id.sub_const x) ih))
      | pinf =>
        have : {r : ℝ | roulette A0 g last (v :: vs) (.fin r) = y} =
            {_r : ℝ | roulette A0 g last (v :: vs) (.fin 0) = y} := by
          ext r
          simp only [Set.mem_ofPred_eq]
          rw [step, step]
          exact Iff.rfl
        rw [this]
        exact .const _
      | ninf =>
        have : {r : ℝ | roulette A0 g last (v :: vs) (.fin r) = y} =
            {_r : ℝ | roulette A0 g last (v :: vs) (.fin 0) = y} := by
          ext r
          simp only [Set.mem_ofPred_eq]
          rw [step, step]
          exact Iff.rfl
        rw [this]
        exact .const _
      | nan =>
        have : {r : ℝ | roulette A0 g last (v :: vs) (.fin r) = y} =
            {_r : ℝ | roulette A0 g last (v :: vs) (.fin 0) = y} := by
          ext r
          simp only [Set.mem_ofPred_eq]
          rw [step, step]
          exact Iff.rfl
        rw [this]
        exact .const _

theorem byRoulette_meas (g : Mat (Ext ℝ)) (last : Nat) (vs : List Nat) {o : List Nat → List Nat} (ho : ∀ l, (o l).Perm l)
    (u : ℝ) (y : Except Panic (Option Nat)) :
    MeasurableSet {w : ℝ | byRoulette A0 g last vs (stepDraw o ho u w) = y} := by
  cases hs : rowSum A0 g last vs (A0).zero with
  | error e =>
    have : {w : ℝ | byRoulette A0 g last vs (stepDraw o ho u w) = y} = {_w : ℝ | .error e = y} := by
      ext w
      simp only [Set.mem_ofPred_eq, byRoulette, hs]
      exact Iff.rfl
    rw [this]; exact .const _
  | ok s =>
    by_cases hc : (!(A0).notLe (A0).zero s && (A0).lt s (A0).infinity) = true
    · have : {w : ℝ | byRoulette A0 g last vs (stepDraw o ho u w) = y} =
          {w : ℝ | roulette A0 g last vs (scaled w s) = y} := by
        ext w
        simp only [Set.mem_ofPred_eq, byRoulette, hs]
        have : genRange A0 (stepDraw o ho u w) s = .ok (scaled w s) := by
          unfold genRange; rw [if_pos hc]; rfl
        rw [Exc.bind_of_ok rfl, Exc.bind_of_ok this]
      rw [this]
      cases s with
      | fin x => exact (measurable_const_mul x) (roulette_meas sqrt pow maxv floor g last y vs)
      | pinf => exact (MeasurableSet.const (roulette A0 g last vs .nan = y) :)
      | ninf => exact (MeasurableSet.const (roulette A0 g last vs .nan = y) :)
      | nan => exact (MeasurableSet.const (roulette A0 g last vs .nan = y) :)
    · have : {w : ℝ | byRoulette A0 g last vs (stepDraw o ho u w) = y} = {_w : ℝ | .error .emptyRange = y} := by
        ext w
        simp only [Set.mem_ofPred_eq, byRoulette, hs]
        have : genRange A0 (stepDraw o ho u w) s = .error .emptyRange := by
          unfold genRange; rw [if_neg hc]
        rw [Exc.bind_of_ok rfl, Exc.bind_of_error this]
      rw [this]; exact .const _

/-- What an ant does with the choice of the next vertex. -/
def after (a : Ant (Ext ℝ)) (last : Nat) (c : Except Panic (Option Nat)) : Except Panic (Ant (Ext ℝ) × (Nat × Nat)) := do
  let c ← c
  let next := c.getD last
  pure ({ a with
    stuck := next == last
    unvisited := a.unvisited.filter (· ≠ next)
    path := a.path ++ [next] }, (last, next))

theorem goNext_after {a : Ant (Ext ℝ)} {last : Nat} (hl : a.path.getLast? = some last) (hs : a.stuck = false)
    (hu : a.unvisited ≠ []) (g : Mat (Ext ℝ)) (d : StepDraw (Ext ℝ)) :
    a.goNext A0 g d = after a last (choose A0 g last (d.ord a.unvisited) a.exploit d) := by
  unfold Ant.goNext after
  rw [hl]
  simp only
  rw [if_neg (by rw [hs]; simp), if_neg hu]

/-- A roulette step has a law. -/
theorem hasLaw_roulette (hR : Ideal R μ) (a : Ant (Ext ℝ)) (g : Mat (Ext ℝ)) {o : List Nat → List Nat}
    (ho : ∀ l, (o l).Perm l) (last : Nat) (vs : List Nat) (u : ℝ) :
    HasLaw μ (R.genUnit >>= fun w => (M.ofExcept (after a last (byRoulette A0 g last vs (stepDraw o ho u w))) : M G _)) := by
  have := hR.isProbability
  have h1 := hR.unit_map (fun w => byRoulette A0 g last vs (stepDraw o ho u w)) (Set.to_countable _)
    (byRoulette_meas sqrt pow maxv floor g last vs ho u)
  refine (h1.has.bind (f := fun c => M.ofExcept (after a last c)) fun c => .ofExcept _).of_eq ?_
  simp only [bind_assoc, pure_bind]

theorem hasLaw_goNextM (hR : Ideal R μ) (g : Mat (Ext ℝ)) {o : List Nat → List Nat} (ho : ∀ l, (o l).Perm l)
    (a : Ant (Ext ℝ)) : HasLaw μ (a.goNextM R A0 g o ho) := by
  have := hR.isProbability
  by_cases hs : a.stuck = true
  · refine (HasLaw.ofExcept (a.goNext A0 g (stepDraw o ho 0 0))).of_eq ?_
    unfold Ant.goNextM
    rw [if_pos hs]
  · have hs' : a.stuck = false := by simpa using hs
    by_cases hg : ∃ last, a.path.getLast? = some last ∧ a.unvisited ≠ []
    · obtain ⟨last, hl, hu⟩ := hg
      cases hex : a.exploit with
      | none =>
        refine (hasLaw_roulette sqrt pow maxv floor hR a g ho last (o a.unvisited) 0).of_eq ?_
        unfold Ant.goNextM
        rw [if_neg hs, hex]
        simp only [goNext_after sqrt pow maxv floor hl hs' hu, hex, choose]
        rfl
      | some rate =>
        have key : a.goNextM R A0 g o ho = (R.genUnit >>= fun u => pure ((A0).lt (.fin u) rate)) >>= fun b =>
            if b then M.ofExcept (after a last (bestVertex A0 g last (o a.unvisited) none (A0).minv))
            else R.genUnit >>= fun w => M.ofExcept (after a last (byRoulette A0 g last (o a.unvisited) (stepDraw o ho 0 w))) := by
          unfold Ant.goNextM
          rw [if_neg hs, hex]
          simp only [goNext_after sqrt pow maxv floor hl hs' hu, hex, choose, bind_assoc, pure_bind]
          congr 1
          funext u
          by_cases hb : (A0).lt (.fin u) rate = true
          · rw [if_pos hb, if_pos hb]
            have : (A0).lt (stepDraw o ho u 0).unit rate = true := hb
            rw [if_pos this]; rfl
          · rw [if_neg hb, if_neg hb]
            congr 1
            funext w
            have : ¬ (A0).lt (stepDraw o ho u w).unit rate = true := hb
            rw [if_neg this]; rfl
        rw [key]
        refine HasLaw.bind ?_ fun b => HasLaw.ite (.ofExcept _) (hasLaw_roulette sqrt pow maxv floor hR a g ho last _ 0)
        refine (hR.unit_map _ (Set.to_countable _) fun b => ?_).has
        have hm : MeasurableSet {u : ℝ | (A0).lt (.fin u) rate = true} := by
          cases rate with
          | fin q =>
            have : {u : ℝ | (A0).lt (.fin u) (.fin q) = true} = Set.Iio q := by
              ext u; simp only [Set.mem_ofPred_eq, Set.mem_Iio]; exact ex_lt sqrt pow maxv floor
            rw [this]; exact measurableSet_Iio
          | pinf => exact (MeasurableSet.const ((A0).lt (.fin 0) .pinf = true) :)
          | ninf => exact (MeasurableSet.const ((A0).lt (.fin 0) .ninf = true) :)
          | nan => exact (MeasurableSet.const ((A0).lt (.fin 0) .nan = true) :)
        cases b with
        | true => exact hm
        | false =>
          have : {u : ℝ | (A0).lt (.fin u) rate = false} = {u : ℝ | (A0).lt (.fin u) rate = true}ᶜ := by
            ext u; simp
          rw [this]; exact hm.compl
    · have herr : ∃ e, ∀ d, a.goNext A0 g d = .error e := by
        unfold Ant.goNext
        cases hl : a.path.getLast? with
        | none => exact ⟨_, fun _ => rfl⟩
        | some last =>
          have hu : a.unvisited = [] := by
            by_contra hu
            exact hg ⟨last, hl, hu⟩
          refine ⟨.assertion, fun d => ?_⟩
          simp only
          rw [if_neg hs, if_pos hu]
      obtain ⟨e, he⟩ := herr
      refine HasLaw.of_panics ?_
      unfold Ant.goNextM
      rw [if_neg hs]
      simp only [he]
      have hf : ∀ (m : M G ℝ), Panics (m >>= fun _ => (M.ofExcept (.error e) : M G (Ant (Ext ℝ) × (Nat × Nat)))) := by
        intro m w
        cases hm : m w with
        | error e' => exact ⟨e', M.bind_of_error hm⟩
        | ok r => exact ⟨e, (M.bind_of_ok hm).trans rfl⟩
      cases a.exploit with
      | none => exact hf _
      | some rate =>
        intro w
        simp only
        cases hm : R.genUnit w with
        | error e' => exact ⟨e', M.bind_of_error hm⟩
        | ok r =>
          simp only [M.bind_of_ok hm]
          split
          · exact ⟨e, rfl⟩
          · exact hf _ _

theorem hasLaw_walkM (hR : Ideal R μ) (g : Mat (Ext ℝ)) {o : Nat → List Nat → List Nat} (ho : ∀ t l, (o t l).Perm l) :
    ∀ (m t : Nat) (a : Ant (Ext ℝ)), HasLaw μ (Ant.walkM R A0 g o ho t m a)
  | 0, _, a => by unfold Ant.walkM; exact .pure a
  | m + 1, t, a => by
    have := hR.isProbability
    unfold Ant.walkM
    exact (hasLaw_goNextM sqrt pow maxv floor hR g (ho t) a).bind fun r => hasLaw_walkM hR g ho m (t + 1) r.1

theorem hasLaw_startM (hR : Ideal R μ) (a : Ant (Ext ℝ)) : HasLaw μ (startM R a) := by
  have := hR.isProbability
  unfold startM
  exact (hR.hasLaw_below _ _).bind fun s => .ofExcept _

theorem hasLaw_oneAntM (hR : Ideal R μ) (g : Mat (Ext ℝ)) (n : Nat) {o : Nat → List Nat → List Nat}
    (ho : ∀ t l, (o t l).Perm l) (a : Ant (Ext ℝ)) : HasLaw μ (oneAntM R A0 g n o ho a) := by
  have := hR.isProbability
  unfold oneAntM
  exact (hasLaw_startM hR a).bind fun b => hasLaw_walkM sqrt pow maxv floor hR g ho _ _ b

theorem hasLaw_asLoopM (hR : Ideal R μ) (g : Mat (Ext ℝ)) (n : Nat) {o : Nat → Nat → List Nat → List Nat}
    (ho : ∀ k t l, (o k t l).Perm l) : ∀ (ants : List (Ant (Ext ℝ))) (k : Nat), HasLaw μ (asLoopM R A0 g n o ho k ants)
  | [], _ => by unfold asLoopM; exact .pure _
  | a :: as, k => by
    have := hR.isProbability
    unfold asLoopM
    refine (hasLaw_oneAntM sqrt pow maxv floor hR g n (ho k) a).bind fun b => ?_
    exact .ite (.pure _) ((hasLaw_asLoopM hR g n ho as (k + 1)).bind fun r => .pure _)

theorem hasLaw_startAllM (hR : Ideal R μ) : ∀ ants : List (Ant (Ext ℝ)), HasLaw μ (startAllM R ants)
  | [] => .pure _
  | a :: as => by
    have := hR.isProbability
    unfold startAllM
    exact (hasLaw_startM hR a).bind fun b => (hasLaw_startAllM hR as).bind fun bs => .pure _

theorem hasLaw_acsStepM (hR : Ideal R μ) (g : Mat (Ext ℝ)) {o : Nat → List Nat → List Nat}
    (ho : ∀ k l, (o k l).Perm l) : ∀ (ants : List (Ant (Ext ℝ))) (k : Nat), HasLaw μ (acsStepM R A0 g o ho k ants)
  | [], _ => by unfold acsStepM; exact .pure _
  | a :: as, k => by
    have := hR.isProbability
    unfold acsStepM
    refine .ite ((hasLaw_acsStepM hR g ho as (k + 1)).bind fun r => .pure _) ?_
    exact (hasLaw_goNextM sqrt pow maxv floor hR g (ho k) a).bind fun b =>
      (hasLaw_acsStepM hR g ho as (k + 1)).bind fun r => .pure _

/-! ## Specification -/

/-- Specification: the ant exploits with probability `q` (a canonical ant never does). -/
def RateOf (a : Ant (Ext ℝ)) (q : ℝ) : Prop := (a.exploit = none ∧ q = 0) ∨ (a.exploit = some (.fin q) ∧ 0 ≤ q ∧ q < 1)

open Classical in
/-- Specification, the random proportional rule: with probability `q` the best of the candidates, and otherwise `v` with a
probability proportional to its goodness. -/
noncomputable def ruleStep (q : ℝ) (f : Nat → Nat → ℝ) (last : Nat) (candidates : List Nat) (v : Nat) : ℝ :=
  q * (if ∀ u ∈ candidates, f last u ≤ f last v then 1 else 0) + (1 - q) * (f last v / (candidates.map (f last)).sum)

/-- Specification: the product of the probabilities of the steps along the rest `vs` of a tour; at each step the
candidates are the vertices still to come. -/
noncomputable def tourProb (q : ℝ) (f : Nat → Nat → ℝ) : Nat → List Nat → ℝ
  | _, [] => 1
  | last, v :: vs => ruleStep q f last (v :: vs) v * tourProb q f v vs

/-- Specification: the probability of a tour - the first vertex is uniform. -/
noncomputable def tourChance (n : Nat) (q : ℝ) (f : Nat → Nat → ℝ) : List Nat → ℝ≥0∞
  | [] => 0
  | s :: vs => (n : ℝ≥0∞)⁻¹ * ENNReal.ofReal (tourProb q f s vs)

/-- Specification: no ties of goodness in any row. -/
def NoTies (n : Nat) (f : Nat → Nat → ℝ) : Prop :=
  ∀ i j k, i < n → j < n → k < n → i ≠ j → i ≠ k → j ≠ k → f i j ≠ f i k

/-! ## One step -/

theorem roulette_fin {n : Nat} {g : Mat (Ext ℝ)} {f : Nat → Nat → ℝ} (hg : FinMat n g f) {last : Nat} (hl : last < n)
    (t : ℝ) : ∀ (vs : List Nat) (s : ℝ), (∀ u ∈ vs, u < n) →
    roulette A0 g last vs (.fin (t - s)) = .ok (Ga.roulettePick (f last) t s vs)
  | [], s, _ => rfl
  | v :: vs, s, hv => by
    have hx : g.at' last v = .ok (.fin (f last v)) := by
      unfold Mat.at'
      rw [if_pos ⟨by rw [hg.1]; exact hl, by rw [hg.2.1]; exact hv v (by simp)⟩, hg.2.2 last v hl (hv v (by simp))]
    have hsub : (A0).sub (.fin (t - s)) (.fin (f last v)) = .fin (t - (s + f last v)) := by
      show Ext.fin (t - s + -f last v) = _
      congr 1; ring
    rw [roulette, Exc.bind_of_ok hx, hsub, Ga.roulettePick]
    by_cases hr : t ≤ s + f last v
    · have : (A0).notLe (.fin (t - (s + f last v))) (A0).zero = false := by
        cases hc : (A0).notLe (.fin (t - (s + f last v))) (A0).zero with
        | false => rfl
        | true =>
          have h0 : 0 < t - (s + f last v) := (ex_notLe sqrt pow maxv floor).1 hc
          exfalso
          linarith
      rw [this, if_pos hr]; rfl
    · have : (A0).notLe (.fin (t - (s + f last v))) (A0).zero = true :=
        (ex_notLe sqrt pow maxv floor).2 (by have := not_le.1 hr; linarith)
      rw [this, if_neg hr]
      exact roulette_fin hg hl t vs _ fun u hu => hv u (by simp [hu])

theorem rowSum_fin {n : Nat} {g : Mat (Ext ℝ)} {f : Nat → Nat → ℝ} (hg : FinMat n g f) {last : Nat} (hl : last < n) :
    ∀ (vs : List Nat) (acc : ℝ), (∀ u ∈ vs, u < n) →
    rowSum A0 g last vs (.fin acc) = .ok (.fin (acc + (vs.map (f last)).sum))
  | [], acc, _ => by simp [rowSum]
  | v :: vs, acc, hv => by
    have hx : g.at' last v = .ok (.fin (f last v)) := by
      unfold Mat.at'
      rw [if_pos ⟨by rw [hg.1]; exact hl, by rw [hg.2.1]; exact hv v (by simp)⟩, hg.2.2 last v hl (hv v (by simp))]
    rw [rowSum, Exc.bind_of_ok hx]
    have : (A0).add (.fin acc) (.fin (f last v)) = .fin (acc + f last v) := rfl
    rw [this, rowSum_fin hg hl vs _ fun u hu => hv u (by simp [hu]), List.map_cons, List.sum_cons, add_assoc]

theorem byRoulette_fin {n : Nat} {g : Mat (Ext ℝ)} {f : Nat → Nat → ℝ} (hg : FinMat n g f) {last : Nat} (hl : last < n)
    {vs : List Nat} (hv : ∀ u ∈ vs, u < n) (h0 : 0 ≤ (vs.map (f last)).sum) {o : List Nat → List Nat}
    (ho : ∀ l, (o l).Perm l) (u w : ℝ) :
    byRoulette A0 g last vs (stepDraw o ho u w) = .ok (Ga.roulettePick (f last) ((vs.map (f last)).sum * w) 0 vs) := by
  unfold byRoulette
  have e1 := rowSum_fin sqrt pow maxv floor hg hl vs 0 hv
  rw [zero_add] at e1
  have e1 : rowSum A0 g last vs (A0).zero = .ok (.fin (vs.map (f last)).sum) := e1
  rw [Exc.bind_of_ok e1]
  have e2 : genRange A0 (stepDraw o ho u w) (.fin (vs.map (f last)).sum) = .ok (.fin ((vs.map (f last)).sum * w)) := by
    unfold genRange
    have a1 : (A0).notLe (A0).zero (.fin (vs.map (f last)).sum) = false := by
      cases hc : (A0).notLe (A0).zero (.fin (vs.map (f last)).sum) with
      | false => rfl
      | true => exact absurd ((ex_notLe sqrt pow maxv floor).1 hc) (not_lt.2 h0)
    have a2 : (A0).lt (.fin (vs.map (f last)).sum) (A0).infinity = true := ex_lt_pinf sqrt pow maxv floor
    rw [a1, a2]
    rfl
  rw [Exc.bind_of_ok e2]
  have := roulette_fin sqrt pow maxv floor hg hl ((vs.map (f last)).sum * w) vs 0 hv
  rwa [sub_zero] at this

/-- What is known about an ant that is about to move. -/
theorem moving {n : Nat} {a : Ant (Ext ℝ)} (ha : Building n a) (hs : a.stuck = false) {last : Nat}
    (hl : a.path.getLast? = some last) : last < n ∧ (∀ u ∈ a.unvisited, u < n ∧ last ≠ u) ∧ a.unvisited.Nodup := by
  have hlm : last ∈ a.path := List.mem_of_getLast? hl
  have hnd := (ha.2.2.1 hs).nodup_iff.2 List.nodup_range
  exact ⟨ha.2.2.2 last hlm, fun u hu => ⟨ha.1.2.2 u hu, (List.nodup_append.1 hnd).2.2 last hlm u hu⟩, ha.1.2.1⟩

/-- A step by roulette. -/
theorem roulette_chance (hR : Ideal R μ) {n : Nat} {g : Mat (Ext ℝ)} {f : Nat → Nat → ℝ} (hg : FinMat n g f)
    {a : Ant (Ext ℝ)} (ha : Building n a) (hs : a.stuck = false) {last : Nat} (hl : a.path.getLast? = some last)
    (hf : ∀ u ∈ a.unvisited, 0 ≤ f last u) (hsum : 0 < (a.unvisited.map (f last)).sum) {o : List Nat → List Nat}
    (ho : ∀ l, (o l).Perm l) (u : ℝ) {v : Nat} (hv : v ∈ a.unvisited) :
    chance μ (R.genUnit >>= fun w =>
        (M.ofExcept (after a last (byRoulette A0 g last (o a.unvisited) (stepDraw o ho u w))) : M G _))
      (fun r => r.1.path = a.path ++ [v]) = ENNReal.ofReal (f last v / (a.unvisited.map (f last)).sum) := by
  have := hR.isProbability
  obtain ⟨h1, h2, h3⟩ := moving ha hs hl
  set vs := o a.unvisited with hvs
  have hmem : ∀ u, u ∈ vs ↔ u ∈ a.unvisited := fun u => (ho _).mem_iff
  have hse : (vs.map (f last)).sum = (a.unvisited.map (f last)).sum := ((ho _).map _).sum_eq
  have hnd : vs.Nodup := (ho _).nodup_iff.2 h3
  set h : ℝ → Option Nat := fun w => Ga.roulettePick (f last) ((vs.map (f last)).sum * w) 0 vs with hh
  have hc : (Set.range h).Countable := Set.to_countable _
  have hm : ∀ b, MeasurableSet {u | h u = b} := by
    intro b
    exact (measurable_const_mul (vs.map (f last)).sum) (Props.roulette_measurable (f last) b vs 0)
  have hlaw := hR.unit_map h hc hm
  have e : (R.genUnit >>= fun w =>
        (M.ofExcept (after a last (byRoulette A0 g last vs (stepDraw o ho u w))) : M G _)) =
      (R.genUnit >>= fun w => pure (h w)) >>= fun c => pure
        (({ a with stuck := c.getD last == last, unvisited := a.unvisited.filter (· ≠ c.getD last),
                   path := a.path ++ [c.getD last] } : Ant (Ext ℝ)), (last, c.getD last)) := by
    simp only [bind_assoc, pure_bind]
    congr 1
    funext w
    rw [byRoulette_fin sqrt pow maxv floor hg h1 (fun u hu => (h2 u ((hmem u).1 hu)).1) (by rw [hse]; exact hsum.le)]
    rfl
  rw [e, chance_map]
  have e2 : (fun c : Option Nat => a.path ++ [c.getD last] = a.path ++ [v]) = (· = some v) := by
    funext c
    cases c with
    | none => simpa using (h2 v hv).2
    | some x => simp
  show chance μ _ (fun c : Option Nat => a.path ++ [c.getD last] = a.path ++ [v]) = _
  rw [e2, hlaw.chance_eq]
  have := Props.roulette_slot (f last) v vs (fun y hy => hf y ((hmem y).1 hy)) (by rw [hse]; exact hsum)
  have hct : ∀ (b : BEq Nat) (_ : LawfulBEq Nat), @List.count Nat b v vs = 1 :=
    fun b _ => List.count_eq_one_of_mem hnd ((hmem v).2 hv)
  rw [hct, Nat.cast_one, one_mul, hse] at this
  · rw [← this, ← hse]
  · infer_instance

/-- **C136, the random proportional rule.** Whatever the order of its hash set: a canonical ant moves from its last vertex
to the unvisited vertex `v` with a probability proportional to the goodness of the edge (goodness not negative, not all
zero). -/
theorem C136_next_vertex (hR : Ideal R μ) {n : Nat} {g : Mat (Ext ℝ)} {f : Nat → Nat → ℝ} (hg : FinMat n g f)
    {a : Ant (Ext ℝ)} (hex : a.exploit = none) (ha : Building n a) (hs : a.stuck = false) {last : Nat}
    (hl : a.path.getLast? = some last) (hf : ∀ u ∈ a.unvisited, 0 ≤ f last u)
    (hsum : 0 < (a.unvisited.map (f last)).sum) {o : List Nat → List Nat} (ho : ∀ l, (o l).Perm l) {v : Nat}
    (hv : v ∈ a.unvisited) :
    chance μ (a.goNextM R A0 g o ho) (fun r => r.1.path = a.path ++ [v]) =
      ENNReal.ofReal (f last v / (a.unvisited.map (f last)).sum) := by
  have hu : a.unvisited ≠ [] := by rintro h; rw [h] at hv; cases hv
  rw [← roulette_chance sqrt pow maxv floor hR hg ha hs hl hf hsum ho 0 hv]
  congr 1
  unfold Ant.goNextM
  rw [if_neg (by rw [hs]; simp), hex]
  simp only [goNext_after sqrt pow maxv floor hl hs hu, hex, choose]
  rfl

theorem bestVertex_fin {n : Nat} {g : Mat (Ext ℝ)} {f : Nat → Nat → ℝ} (hg : FinMat n g f) {last : Nat} (hl : last < n)
    (v : Nat) : ∀ (vs : List Nat) (next : Option Nat) (value : ℝ), (∀ u ∈ vs, u < n) →
    (∀ u ∈ vs, u ≠ v → f last u < f last v) → (v ∈ vs ∧ value < f last v ∨ next = some v ∧ value = f last v) →
    bestVertex A0 g last vs next (.fin value) = .ok (some v)
  | [], next, value, _, _, h => by
    rcases h with ⟨h, -⟩ | ⟨h, -⟩
    · cases h
    · rw [h]; rfl
  | u :: vs, next, value, hv, hb, h => by
    have hx : g.at' last u = .ok (.fin (f last u)) := by
      unfold Mat.at'
      rw [if_pos ⟨by rw [hg.1]; exact hl, by rw [hg.2.1]; exact hv u (by simp)⟩, hg.2.2 last u hl (hv u (by simp))]
    have hv' : ∀ w ∈ vs, w < n := fun w hw => hv w (by simp [hw])
    have hb' : ∀ w ∈ vs, w ≠ v → f last w < f last v := fun w hw => hb w (by simp [hw])
    rw [bestVertex, Exc.bind_of_ok hx]
    by_cases hlt : value < f last u
    · rw [if_pos ((ex_lt sqrt pow maxv floor).2 hlt)]
      refine bestVertex_fin hg hl v vs _ _ hv' hb' ?_
      by_cases huv : u = v
      · exact .inr ⟨by rw [huv], by rw [huv]⟩
      · have := hb u (by simp) huv
        rcases h with ⟨h1, h2⟩ | ⟨h1, h2⟩
        · rcases List.mem_cons.1 h1 with rfl | h1
          · exact absurd rfl huv
          · exact .inl ⟨h1, this⟩
        · exfalso; linarith
    · rw [if_neg fun hc => hlt ((ex_lt sqrt pow maxv floor).1 hc)]
      refine bestVertex_fin hg hl v vs _ _ hv' hb' ?_
      rcases h with ⟨h1, h2⟩ | h
      · rcases List.mem_cons.1 h1 with rfl | h1
        · exact absurd h2 hlt
        · exact .inl ⟨h1, h2⟩
      · exact .inr h

/-- A finite list without ties has a strict maximum. -/
theorem exists_strict_max (f : Nat → ℝ) : ∀ vs : List Nat, vs ≠ [] → (∀ u ∈ vs, ∀ w ∈ vs, u ≠ w → f u ≠ f w) →
    ∃ m ∈ vs, ∀ u ∈ vs, u ≠ m → f u < f m
  | [], h, _ => absurd rfl h
  | [a], _, _ => ⟨a, by simp, by simp⟩
  | a :: b :: vs, _, hd => by
    obtain ⟨m, h1, h2⟩ := exists_strict_max f (b :: vs) (by simp) fun u hu w hw => hd u (by simp [hu]) w (by simp [hw])
    by_cases ham : a = m
    · exact ⟨m, by simp [ham], fun u hu hne => by
        rcases List.mem_cons.1 hu with rfl | hu
        · exact absurd ham hne
        · exact h2 u hu hne⟩
    · rcases lt_or_gt_of_ne (hd a (by simp) m (by simp [h1]) ham) with h | h
      · refine ⟨m, by simp [h1], fun u hu hne => ?_⟩
        rcases List.mem_cons.1 hu with rfl | hu
        · exact h
        · exact h2 u hu hne
      · refine ⟨a, by simp, fun u hu hne => ?_⟩
        rcases List.mem_cons.1 hu with rfl | hu
        · exact absurd rfl hne
        · by_cases hum : u = m
          · rw [hum]; exact h
          · exact (h2 u hu hum).trans h

/-- **C136, the pseudo-random proportional rule.** An exploiting ant with rate `q` moves to the best unvisited vertex with
probability `q`, and otherwise follows the random proportional rule (goodness positive, without ties if `q > 0`).
For `q = 0` this is also the rule of the canonical ant. -/
theorem C136_next_vertex_exploiting (hR : Ideal R μ) (hmax : 0 ≤ maxv) {n : Nat} {g : Mat (Ext ℝ)} {f : Nat → Nat → ℝ}
    (hg : FinMat n g f) {a : Ant (Ext ℝ)} {q : ℝ} (hq : RateOf a q) (ha : Building n a) (hs : a.stuck = false) {last : Nat}
    (hl : a.path.getLast? = some last) (hf : ∀ u ∈ a.unvisited, 0 < f last u)
    (hties : q ≠ 0 → ∀ u ∈ a.unvisited, ∀ w ∈ a.unvisited, u ≠ w → f last u ≠ f last w)
    {o : List Nat → List Nat} (ho : ∀ l, (o l).Perm l) {v : Nat} (hv : v ∈ a.unvisited) :
    chance μ (a.goNextM R A0 g o ho) (fun r => r.1.path = a.path ++ [v]) =
      ENNReal.ofReal (ruleStep q f last a.unvisited v) := by
  have := hR.isProbability
  have hsum : 0 < (a.unvisited.map (f last)).sum := by
    refine List.sum_pos _ ?_ ?_
    · intro x hx
      obtain ⟨u, hu, rfl⟩ := List.mem_map.1 hx
      exact hf u hu
    · intro h
      rw [List.map_eq_nil_iff.1 h] at hv
      cases hv
  rcases hq with ⟨hex, rfl⟩ | ⟨hex, hq0, hq1⟩
  · rw [C136_next_vertex sqrt pow maxv floor hR hg hex ha hs hl (fun u hu => (hf u hu).le) hsum ho hv]
    unfold ruleStep
    rw [zero_mul, zero_add, sub_zero, one_mul]
  · have hu : a.unvisited ≠ [] := by rintro h; rw [h] at hv; cases hv
    have key : a.goNextM R A0 g o ho = (R.genUnit >>= fun u => pure (decide (u < q))) >>= fun b =>
        if b then M.ofExcept (after a last (bestVertex A0 g last (o a.unvisited) none (A0).minv))
        else R.genUnit >>= fun w => M.ofExcept (after a last (byRoulette A0 g last (o a.unvisited) (stepDraw o ho 0 w))) := by
      unfold Ant.goNextM
      rw [if_neg (by rw [hs]; simp), hex]
      simp only [goNext_after sqrt pow maxv floor hl hs hu, hex, choose, bind_assoc, pure_bind]
      congr 1
      funext u
      by_cases hb : u < q
      · have h1 : (A0).lt (.fin u) (.fin q) = true := (ex_lt sqrt pow maxv floor).2 hb
        have h2 : (A0).lt (stepDraw o ho u 0).unit (.fin q) = true := h1
        rw [if_pos h1, if_pos h2, if_pos (by simpa using hb)]; rfl
      · have h1 : ¬ (A0).lt (.fin u) (.fin q) = true := fun h => hb ((ex_lt sqrt pow maxv floor).1 h)
        rw [if_neg h1, if_neg (by simpa using hb)]
        congr 1
        funext w
        have h2 : ¬ (A0).lt (stepDraw o ho u w).unit (.fin q) = true := h1
        rw [if_neg h2]; rfl
    have hlaws : ∀ b : Bool, HasLaw μ (if b then
        (M.ofExcept (after a last (bestVertex A0 g last (o a.unvisited) none (A0).minv)) : M G _)
        else R.genUnit >>= fun w => M.ofExcept (after a last (byRoulette A0 g last (o a.unvisited) (stepDraw o ho 0 w)))) :=
      fun b => .ite (.ofExcept _) (hasLaw_roulette sqrt pow maxv floor hR a g ho last _ 0)
    choose ps hps using hlaws
    rw [key, (hR.unit_lt hq0 hq1.le).chance_bind hps, tsum_bool]
    simp only [Bool.false_eq_true, if_false, if_true]
    rw [roulette_chance sqrt pow maxv floor hR hg ha hs hl (fun u hu => (hf u hu).le) hsum ho 0 hv]
    have hbest : ENNReal.ofReal q * chance μ
          (M.ofExcept (after a last (bestVertex A0 g last (o a.unvisited) none (A0).minv)) : M G _)
          (fun r => r.1.path = a.path ++ [v]) =
        ENNReal.ofReal (q * (open Classical in if ∀ u ∈ a.unvisited, f last u ≤ f last v then 1 else 0)) := by
      rcases hq0.eq_or_lt with h0 | h0
      · rw [← h0]; simp
      obtain ⟨h1, h2, h3⟩ := moving ha hs hl
      have hmem : ∀ u, u ∈ o a.unvisited ↔ u ∈ a.unvisited := fun u => (ho _).mem_iff
      obtain ⟨m, hm1, hm2⟩ := exists_strict_max (f last) a.unvisited hu (hties h0.ne')
      have hbv : bestVertex A0 g last (o a.unvisited) none (A0).minv = .ok (some m) := by
        refine bestVertex_fin sqrt pow maxv floor hg h1 m (o a.unvisited) none (-maxv)
          (fun u hu => (h2 u ((hmem u).1 hu)).1) (fun u hu => hm2 u ((hmem u).1 hu)) (.inl ⟨(hmem m).2 hm1, ?_⟩)
        have := hf m hm1
        linarith
      rw [hbv]
      have hres : ∀ P : Ant (Ext ℝ) × (Nat × Nat) → Prop, ∀ [Decidable (P (({ a with
            stuck := m == last, unvisited := a.unvisited.filter (· ≠ m), path := a.path ++ [m] } : Ant (Ext ℝ)), (last, m)))],
          chance μ (M.ofExcept (after a last (.ok (some m))) : M G _) P = if P (({ a with
            stuck := m == last, unvisited := a.unvisited.filter (· ≠ m), path := a.path ++ [m] } : Ant (Ext ℝ)), (last, m))
            then 1 else 0 := by
        intro P _
        split
        · next hP => exact chance_of_returns fun w => ⟨_, w, rfl, hP⟩
        · next hP => exact chance_zero fun w r w' h => by cases h; exact hP
      classical
      rw [hres]
      by_cases hvm : v = m
      · rw [if_pos (by rw [hvm]), if_pos, mul_one, mul_one]
        intro u hu
        by_cases hum : u = m
        · rw [hum, hvm]
        · rw [hvm]; exact (hm2 u hu hum).le
      · rw [if_neg (by simpa using fun h => hvm h.symm), if_neg, mul_zero, mul_zero, ENNReal.ofReal_zero]
        intro h
        exact absurd (h m hm1) (not_le.2 (hm2 v hv hvm))
    rw [hbest, ← ENNReal.ofReal_mul (by linarith), add_comm, ← ENNReal.ofReal_add]
    · rfl
    · split <;> linarith
    · exact mul_nonneg (by linarith) (div_nonneg (hf v hv).le hsum.le)

/-! ## Every outcome is one of the model with given draws -/

theorem stepDraw_legal {o : List Nat → List Nat} (ho : ∀ l, (o l).Perm l) {u w : ℝ} (hu : 0 ≤ u ∧ u < 1)
    (hw : 0 ≤ w ∧ w < 1) : LegalStep o (stepDraw o ho u w) :=
  ⟨rfl, fun s hs => ⟨s * w, rfl, mul_nonneg hs hw.1, by nlinarith [hw.2]⟩, u, rfl, hu.1, hu.2⟩

theorem genUnit_ok {w w' : G} {u : ℝ} (h : R.genUnit w = .ok (u, w')) : 0 ≤ u ∧ u < 1 := by
  unfold Rng.genUnit at h
  rw [M.lift_run] at h
  have := R.unit_spec w
  rw [Except.ok.inj h] at this
  exact this

theorem ofExcept_ok {α : Type} {x : Except Panic α} {w w' : G} {r : α} (h : (M.ofExcept x : M G α) w = .ok (r, w')) :
    x = .ok r := by
  cases x with
  | error e => cases h
  | ok y => cases h; rfl

theorem goNextM_refines {g : Mat (Ext ℝ)} {o : List Nat → List Nat} {ho : ∀ l, (o l).Perm l} {a : Ant (Ext ℝ)}
    {r : Ant (Ext ℝ) × (Nat × Nat)} {w w' : G} (h : a.goNextM R A0 g o ho w = .ok (r, w')) :
    ∃ d, LegalStep o d ∧ a.goNext A0 g d = .ok r := by
  have h0 : (0 : ℝ) ≤ 0 ∧ (0 : ℝ) < 1 := ⟨le_refl _, zero_lt_one⟩
  unfold Ant.goNextM at h
  by_cases hs : a.stuck = true
  · rw [if_pos hs] at h
    exact ⟨_, stepDraw_legal ho h0 h0, ofExcept_ok h⟩
  · rw [if_neg hs] at h
    cases hex : a.exploit with
    | none =>
      rw [hex] at h
      obtain ⟨u, w1, h1, h2⟩ := M.bind_ok_iff.1 h
      exact ⟨_, stepDraw_legal ho h0 (genUnit_ok h1), ofExcept_ok h2⟩
    | some rate =>
      rw [hex] at h
      obtain ⟨u, w1, h1, h2⟩ := M.bind_ok_iff.1 h
      split at h2
      · exact ⟨_, stepDraw_legal ho (genUnit_ok h1) h0, ofExcept_ok h2⟩
      · obtain ⟨u', w2, h3, h4⟩ := M.bind_ok_iff.1 h2
        exact ⟨_, stepDraw_legal ho (genUnit_ok h1) (genUnit_ok h3), ofExcept_ok h4⟩

theorem walkM_refines {g : Mat (Ext ℝ)} {o : Nat → List Nat → List Nat} {ho : ∀ t l, (o t l).Perm l} :
    ∀ (m t : Nat) (a b : Ant (Ext ℝ)) (w w' : G), Ant.walkM R A0 g o ho t m a w = .ok (b, w') →
    ∃ D : Nat → StepDraw (Ext ℝ), (∀ i, LegalStep (o i) (D i)) ∧
      ∀ D', (∀ i, t ≤ i → D' i = D i) → Ant.walk A0 g D' t m a = .ok b
  | 0, t, a, b, w, w', h => by
    unfold Ant.walkM at h
    rw [M.pure_run] at h
    cases h
    exact ⟨fun i => (legalStep_exists (ho i)).choose, fun i => (legalStep_exists (ho i)).choose_spec, fun D' _ => rfl⟩
  | m + 1, t, a, b, w, w', h => by
    unfold Ant.walkM at h
    obtain ⟨r, w1, h1, h2⟩ := M.bind_ok_iff.1 h
    obtain ⟨d, hd, hgo⟩ := goNextM_refines sqrt pow maxv floor h1
    obtain ⟨D, hD, hw⟩ := walkM_refines m (t + 1) r.1 b w1 w' h2
    refine ⟨fun i => if i = t then d else D i, fun i => ?_, fun D' hD' => ?_⟩
    · simp only
      split
      · next hi => rw [hi]; exact hd
      · exact hD i
    · have ht := hD' t (le_refl _)
      beta_reduce at ht; rw [if_pos rfl] at ht
      rw [Ant.walk, ht, Exc.bind_of_ok hgo]
      exact hw D' fun i hi => by
        have := hD' i (by omega)
        beta_reduce at this; rwa [if_neg (by omega)] at this

theorem startM_refines {n : Nat} {a b : Ant (Ext ℝ)} (hn : a.size = n) {w w' : G} (h : startM R a w = .ok (b, w')) :
    ∃ s, s < n ∧ a.clear.start s = .ok b := by
  unfold startM at h
  obtain ⟨s, w1, h1, h2⟩ := M.bind_ok_iff.1 h
  exact ⟨s, by rw [← hn]; exact (R.genRange_ifReturns w s w1 h1).2, ofExcept_ok h2⟩

theorem asLoopM_refines {n : Nat} (hn : 0 < n) {g : Mat (Ext ℝ)} {o : Nat → Nat → List Nat → List Nat}
    {ho : ∀ k t l, (o k t l).Perm l} :
    ∀ (ants : List (Ant (Ext ℝ))) (k : Nat) (r : List (Ant (Ext ℝ)) × List (List Nat)) (w w' : G),
    (∀ a ∈ ants, a.size = n) → asLoopM R A0 g n o ho k ants w = .ok (r, w') →
    ∃ d0 : IterDraws (Ext ℝ), LegalDraws n o d0 ∧
      ∀ d : IterDraws (Ext ℝ), (∀ j, k ≤ j → d.start j = d0.start j ∧ d.step j = d0.step j) →
        asLoop A0 g n d k ants = .ok r
  | [], k, r, w, w', _, h => by
    unfold asLoopM at h
    rw [M.pure_run] at h
    cases h
    obtain ⟨d0, hd0⟩ := legalDraws_exists (F := ℝ) hn ho
    exact ⟨d0, hd0, fun d _ => rfl⟩
  | a :: as, k, r, w, w', hsz, h => by
    unfold asLoopM at h
    obtain ⟨b, w1, h1, h2⟩ := M.bind_ok_iff.1 h
    unfold oneAntM at h1
    obtain ⟨a1, w2, h3, h4⟩ := M.bind_ok_iff.1 h1
    obtain ⟨s, hs, hst⟩ := startM_refines (hsz a (by simp)) h3
    obtain ⟨D, hD, hwalk⟩ := walkM_refines sqrt pow maxv floor (n - 1) 0 a1 b w2 w1 h4
    have hone : ∀ d : IterDraws (Ext ℝ), d.start k = s → d.step k = D → oneAnt A0 g n d k a = .ok b := by
      intro d e1 e2
      unfold oneAnt
      rw [e1, Exc.bind_of_ok hst, e2]
      exact hwalk D fun _ _ => rfl
    split at h2
    · next hb =>
      rw [M.pure_run] at h2
      cases h2
      obtain ⟨d0, hd0⟩ := legalDraws_exists (F := ℝ) hn ho
      refine ⟨⟨fun j => if j = k then s else d0.start j, fun j => if j = k then D else d0.step j⟩, fun j => ?_, fun d hd => ?_⟩
      · simp only
        by_cases hj : j = k
        · rw [if_pos hj, if_pos hj, hj]; exact ⟨hs, hD⟩
        · rw [if_neg hj, if_neg hj]; exact hd0 j
      · obtain ⟨e1, e2⟩ := hd k (le_refl _)
        simp only [if_true] at e1 e2
        rw [asLoop, Exc.bind_of_ok (hone d e1 e2), if_pos hb]
    · next hb =>
      obtain ⟨r', w3, h5, h6⟩ := M.bind_ok_iff.1 h2
      rw [M.pure_run] at h6
      cases h6
      obtain ⟨d0, hd0, hrest⟩ := asLoopM_refines hn as (k + 1) r' w1 _ (fun x hx => hsz x (by simp [hx])) h5
      refine ⟨⟨fun j => if j = k then s else d0.start j, fun j => if j = k then D else d0.step j⟩, fun j => ?_, fun d hd => ?_⟩
      · simp only
        by_cases hj : j = k
        · rw [if_pos hj, if_pos hj, hj]; exact ⟨hs, hD⟩
        · rw [if_neg hj, if_neg hj]; exact hd0 j
      · obtain ⟨e1, e2⟩ := hd k (le_refl _)
        simp only [if_true] at e1 e2
        have hr := hrest d fun j hj => by
          have := hd j (by omega)
          simp only [if_neg (show j ≠ k by omega)] at this
          exact this
        rw [asLoop, Exc.bind_of_ok (hone d e1 e2), if_neg hb, Exc.bind_of_ok hr]
        rfl

/-- **C136, refinement.** Whatever `AntSystemAB` does with a generator is one of the outcomes of the model in which the
draws are given: everything proved there for all legal draws (C55, C56, C131, …) holds with a generator. -/
theorem C136_ant_system_refines {goodness : Mat (Ext ℝ) → Except Panic (Mat (Ext ℝ))} {ph : Mat (Ext ℝ)}
    (hn : 0 < ph.rows) {o : Nat → Nat → List Nat → List Nat}
    {ho : ∀ k t l, (o k t l).Perm l} {ants : List (Ant (Ext ℝ))}
    (hsz : ∀ a ∈ ants, a.size = ph.rows) {r : List (Ant (Ext ℝ)) × List (List Nat) × Mat (Ext ℝ)} {w w' : G}
    (h : antSystemM R A0 goodness o ho ants ph w = .ok (r, w')) :
    ∃ d, LegalDraws ph.rows o d ∧ antSystem A0 goodness d ants ph = .ok r := by
  unfold antSystemM at h
  obtain ⟨g, w1, h1, h2⟩ := M.bind_ok_iff.1 h
  obtain ⟨r', w2, h3, h4⟩ := M.bind_ok_iff.1 h2
  rw [M.pure_run] at h4
  cases h4
  obtain ⟨d, hd, hr⟩ := asLoopM_refines sqrt pow maxv floor hn ants 0 r' w1 w' hsz h3
  refine ⟨d, hd, ?_⟩
  unfold antSystem
  rw [Exc.bind_of_ok (ofExcept_ok h1), Exc.bind_of_ok (hr d fun _ _ => ⟨rfl, rfl⟩)]
  rfl

/-! ## Tours -/

theorem ruleStep_perm {q : ℝ} {f : Nat → Nat → ℝ} {last v : Nat} {us vs : List Nat} (h : us.Perm vs) :
    ruleStep q f last us v = ruleStep q f last vs v := by
  unfold ruleStep
  have e1 : (us.map (f last)).sum = (vs.map (f last)).sum := (h.map _).sum_eq
  have e2 : (∀ u ∈ us, f last u ≤ f last v) ↔ (∀ u ∈ vs, f last u ≤ f last v) :=
    ⟨fun hu u hm => hu u (h.mem_iff.2 hm), fun hu u hm => hu u (h.mem_iff.1 hm)⟩
  rw [e1]
  simp only [e2]

theorem ruleStep_nonneg {q : ℝ} (h0 : 0 ≤ q) (h1 : q ≤ 1) {f : Nat → Nat → ℝ} {last v : Nat} {vs : List Nat}
    (hf : ∀ u ∈ vs, 0 ≤ f last u) (hv : v ∈ vs) : 0 ≤ ruleStep q f last vs v := by
  unfold ruleStep
  have : 0 ≤ (vs.map (f last)).sum := List.sum_nonneg (by simpa using hf)
  have h2 := div_nonneg (hf v hv) this
  split <;> nlinarith

theorem tourProb_nonneg {q : ℝ} (h0 : 0 ≤ q) (h1 : q ≤ 1) {n : Nat} {f : Nat → Nat → ℝ}
    (hf : ∀ i j, i < n → j < n → i ≠ j → 0 < f i j) : ∀ (vs : List Nat) (last : Nat), (last :: vs).Nodup →
    (∀ v ∈ last :: vs, v < n) → 0 ≤ tourProb q f last vs
  | [], _, _, _ => zero_le_one
  | v :: vs, last, hnd, hlt => by
    unfold tourProb
    have h2 : last ∉ v :: vs := (List.nodup_cons.1 hnd).1
    refine mul_nonneg (ruleStep_nonneg h0 h1 (fun u hu => (hf last u (hlt _ (by simp)) (hlt u (by simp [hu])) ?_).le) (by simp))
      (tourProb_nonneg h0 h1 hf vs v (List.nodup_cons.1 hnd).2 fun u hu => hlt u (by simp [hu]))
    rintro rfl
    exact h2 hu

/-- The state of an ant on its way: if it got stuck, it repeated a vertex. -/
def Walking (n : Nat) (q : ℝ) (a : Ant (Ext ℝ)) : Prop :=
  Building n a ∧ RateOf a q ∧ (a.stuck = true → ¬ a.path.Nodup)

theorem goNextM_walking {n : Nat} {q : ℝ} {g : Mat (Ext ℝ)} {o : List Nat → List Nat} {ho : ∀ l, (o l).Perm l}
    {a : Ant (Ext ℝ)} (ha : Walking n q a) :
    IfReturns (a.goNextM R A0 g o ho) fun r => Walking n q r.1 ∧ a.path <+: r.1.path ∧
      (a.stuck = false → ∃ v, r.1.path = a.path ++ [v]) := by
  intro w r w' h
  obtain ⟨d, -, hd⟩ := goNextM_refines sqrt pow maxv floor h
  obtain ⟨b, e⟩ := r
  obtain ⟨h1, h2, -⟩ := goNext_building ha.1 hd
  obtain ⟨last, hl, hc⟩ := goNext_cases hd
  have hlm : last ∈ a.path := List.mem_of_getLast? hl
  have hrate : RateOf b q := by
    unfold RateOf
    rw [h2]; exact ha.2.1
  rcases hc with ⟨hs, hb⟩ | ⟨hs, hu, next, hnext, -, hb, -⟩
  · subst hb
    exact ⟨⟨h1, hrate, ha.2.2⟩, List.prefix_refl _, fun h => by rw [hs] at h; cases h⟩
  · refine ⟨⟨h1, hrate, fun hst => ?_⟩, ?_, fun _ => ⟨next, by rw [hb]⟩⟩
    · rw [hb] at hst ⊢
      have hn : next = last := by simpa using hst
      intro hnd
      exact (List.nodup_append.1 hnd).2.2 last hlm next (by simp) hn.symm
    · rw [hb]; exact List.prefix_append _ _

theorem walkM_walking {n : Nat} {q : ℝ} {g : Mat (Ext ℝ)} {o : Nat → List Nat → List Nat} {ho : ∀ t l, (o t l).Perm l} :
    ∀ (m t : Nat) (a : Ant (Ext ℝ)), Walking n q a →
    IfReturns (Ant.walkM R A0 g o ho t m a) fun b => Walking n q b ∧ a.path <+: b.path
  | 0, t, a, ha => IfReturns.pure ⟨ha, List.prefix_refl _⟩
  | m + 1, t, a, ha => by
    unfold Ant.walkM
    refine IfReturns.bind (goNextM_walking sqrt pow maxv floor ha) fun r hr => ?_
    exact (walkM_walking m (t + 1) r.1 hr.1).mono fun b hb => ⟨hb.1, hr.2.1.trans hb.2⟩

/-- The walk along the rest of a tour. -/
theorem walkM_chance (hR : Ideal R μ) (hmax : 0 ≤ maxv) {n : Nat} {g : Mat (Ext ℝ)} {f : Nat → Nat → ℝ} (hg : FinMat n g f)
    (hf : ∀ i j, i < n → j < n → i ≠ j → 0 < f i j) {q : ℝ} (hties : q ≠ 0 → NoTies n f) {o : Nat → List Nat → List Nat}
    (ho : ∀ t l, (o t l).Perm l) : ∀ (vs : List Nat) (t : Nat) (a : Ant (Ext ℝ)) (last : Nat), Walking n q a →
    a.stuck = false → a.path.getLast? = some last → IsTour n (a.path ++ vs) →
    chance μ (Ant.walkM R A0 g o ho t vs.length a) (fun b => b.path = a.path ++ vs) = ENNReal.ofReal (tourProb q f last vs)
  | [], t, a, last, ha, _, _, _ => by
    have := hR.isProbability
    rw [tourProb, ENNReal.ofReal_one]
    exact chance_of_returns (Returns.pure (by simp))
  | v :: vs, t, a, last, ha, hs, hl, htour => by
    have := hR.isProbability
    obtain ⟨m1, m2, m3⟩ := moving ha.1 hs hl
    have hperm : a.unvisited.Perm (v :: vs) := by
      have h1 := (ha.1.2.2.1 hs).trans htour.symm
      exact (List.perm_append_left_iff a.path).1 h1
    have hv : v ∈ a.unvisited := hperm.mem_iff.2 (by simp)
    have hq : 0 ≤ q ∧ q ≤ 1 := by
      rcases ha.2.1 with ⟨-, rfl⟩ | ⟨-, h0, h1⟩
      · exact ⟨le_refl _, zero_le_one⟩
      · exact ⟨h0, h1.le⟩
    have hstep := C136_next_vertex_exploiting sqrt pow maxv floor hR hmax hg ha.2.1 ha.1 hs hl
      (fun u hu => hf last u m1 (m2 u hu).1 (m2 u hu).2)
      (fun h u hu w hw => hties h last u w m1 (m2 u hu).1 (m2 w hw).1 (m2 u hu).2 (m2 w hw).2) (ho t) hv
    rw [ruleStep_perm hperm] at hstep
    have hnn : 0 ≤ ruleStep q f last (v :: vs) v := ruleStep_nonneg hq.1 hq.2 (fun u hu => by
      have hu' := hperm.mem_iff.2 hu
      exact (hf last u m1 (m2 u hu').1 (m2 u hu').2).le) (by simp)
    rw [List.length_cons, Ant.walkM, (hasLaw_goNextM sqrt pow maxv floor hR g (ho t) a).chance_bind_eq
      (P := fun r => r.1.path = a.path ++ [v]) (c := ENNReal.ofReal (tourProb q f v vs))
      (goNextM_walking sqrt pow maxv floor ha) (fun r _ => hasLaw_walkM sqrt pow maxv floor hR g ho _ _ r.1), hstep, tourProb,
      ENNReal.ofReal_mul hnn]
    · intro r hr hp
      have hnd : (a.path ++ v :: vs).Nodup := htour.nodup_iff.2 List.nodup_range
      have hst : r.1.stuck = false := by
        by_contra h
        refine hr.1.2.2 (by simpa using h) ?_
        rw [hp]
        refine hnd.sublist ?_
        exact (List.sublist_append_left (a.path ++ [v]) vs).trans (by simp)
      have e := walkM_chance hR hmax hg hf hties ho vs (t + 1) r.1 v hr.1 hst (by rw [hp]; simp) (by rw [hp]; simpa using htour)
      rw [← e]
      congr 1
      funext b
      rw [hp]
      simp
    · intro r hr hp
      refine chance_zero ((walkM_walking sqrt pow maxv floor vs.length (t + 1) r.1 hr.1).mono fun b hb => ?_)
      intro hbp
      obtain ⟨x, hx⟩ := hr.2.2 hs
      obtain ⟨y, hy⟩ := hb.2
      rw [hx, hbp, List.append_assoc, List.append_cancel_left_eq] at hy
      refine hp ?_
      rw [hx]
      simp only [List.cons_append, List.nil_append, List.cons.injEq] at hy
      rw [hy.1]

theorem startM_walking {n : Nat} {q : ℝ} {a : Ant (Ext ℝ)} (ha : Ready n a) (hq : RateOf a q) :
    IfReturns (startM R a) fun b => Walking n q b ∧ b.stuck = false ∧ ∃ s, s < n ∧ b.path = [s] := by
  intro w b w' h
  obtain ⟨s, hs, hb⟩ := startM_refines ha.1 h
  obtain ⟨b1, b2, b3, b4⟩ := start_ok ha hb
  refine ⟨⟨b1, ?_, fun h => by rw [b2] at h; cases h⟩, b2, s, hs, ?_⟩
  · unfold RateOf; rw [b4]; exact hq
  · unfold Ant.start at hb
    obtain ⟨-, c2, c3, -⟩ := clear_unvisited ha
    rw [c2, if_neg (by omega)] at hb
    cases hb
    show a.clear.path ++ [s % n] = [s]
    rw [c3, Nat.mod_eq_of_lt hs]; rfl

open Classical in
/-- **C136, the first vertex** is uniform. -/
theorem C136_first_vertex (hR : Ideal R μ) {n : Nat} {a : Ant (Ext ℝ)} (ha : Ready n a) {s : Nat} (hs : s < n) :
    chance μ (startM R a) (fun b => b.path = [s]) = (n : ℝ≥0∞)⁻¹ := by
  have := hR.isProbability
  have hn : 0 < n := by omega
  have hb := hR.below 0 n hn
  obtain ⟨-, c2, c3, -⟩ := clear_unvisited ha
  have e : startM R a = R.genRange 0 n >>= fun s => pure
      ({ a.clear with unvisited := a.clear.unvisited.filter (· ≠ s % a.clear.size),
                       path := a.clear.path ++ [s % a.clear.size] } : Ant (Ext ℝ)) := by
    unfold startM
    rw [ha.1]
    congr 1
    funext s
    unfold Ant.start
    rw [if_neg (by omega)]
    rfl
  rw [e, chance_map]
  show chance μ _ (fun x => a.clear.path ++ [x % a.clear.size] = [s]) = _
  rw [c3, c2]
  have e2 : chance μ (R.genRange 0 n) (fun x => [] ++ [x % n] = [s]) = chance μ (R.genRange 0 n) (· = s) := by
    unfold chance
    congr 1
    ext w
    simp only [Set.mem_ofPred_eq]
    constructor
    · rintro ⟨x, w', h, hx⟩
      have := (R.genRange_ifReturns w x w' h).2
      rw [Nat.mod_eq_of_lt this] at hx
      exact ⟨x, w', h, by simpa using hx⟩
    · rintro ⟨x, w', h, hx⟩
      rw [hx] at h
      exact ⟨s, w', h, by simp [Nat.mod_eq_of_lt hs]⟩
  rw [e2, (show Law μ _ _ from hb).chance_eq, if_pos (by simp [hs])]
  simp [Set.ncard_eq_toFinset_card']

/-- **C136, one tour.** The probability that an ant of Ant System builds the tour `s, v₁, v₂, …` is `1/n` times the
product of the probabilities of its steps: all goodness positive off the diagonal, no ties if the ant exploits, any hash
set orders. -/
theorem C136_tour (hR : Ideal R μ) (hmax : 0 ≤ maxv) {n : Nat} {g : Mat (Ext ℝ)} {f : Nat → Nat → ℝ} (hg : FinMat n g f)
    (hf : ∀ i j, i < n → j < n → i ≠ j → 0 < f i j) {a : Ant (Ext ℝ)} (ha : Ready n a) {q : ℝ} (hq : RateOf a q)
    (hties : q ≠ 0 → NoTies n f) {o : Nat → List Nat → List Nat} (ho : ∀ t l, (o t l).Perm l) (hn : 0 < n)
    {tour : List Nat} (ht : IsTour n tour) :
    chance μ (oneAntM R A0 g n o ho a) (fun b => b.path = tour) = tourChance n q f tour := by
  have := hR.isProbability
  cases tour with
  | nil =>
    have := ht.length_eq
    simp at this; omega
  | cons s vs =>
    have hs : s < n := List.mem_range.1 (ht.mem_iff.1 (by simp))
    have hlen : vs.length = n - 1 := by
      have := ht.length_eq
      rw [List.length_range, List.length_cons] at this; omega
    rw [oneAntM, tourChance, (hasLaw_startM hR a).chance_bind_eq (P := fun b => b.path = [s])
      (c := ENNReal.ofReal (tourProb q f s vs)) (startM_walking ha hq)
      (fun b _ => hasLaw_walkM sqrt pow maxv floor hR g ho _ _ b), C136_first_vertex hR ha hs]
    · intro b hb hp
      have e := walkM_chance sqrt pow maxv floor hR hmax hg hf hties ho vs 0 b s hb.1 hb.2.1 (by rw [hp]; rfl)
        (by rw [hp]; exact ht)
      rw [hp] at e
      rw [← hlen, ← e]
      rfl
    · intro b hb hp
      obtain ⟨h1, -, x, hx, hbx⟩ := hb
      refine chance_zero ((walkM_walking sqrt pow maxv floor (n - 1) 0 b h1).mono fun c hc => ?_)
      intro hcp
      obtain ⟨y, hy⟩ := hc.2
      rw [hbx, hcp] at hy
      simp only [List.cons_append, List.nil_append, List.cons.injEq] at hy
      exact hp (by rw [hbx, hy.1])

theorem oneAntM_walking {n : Nat} {q : ℝ} {g : Mat (Ext ℝ)} {o : Nat → List Nat → List Nat} {ho : ∀ t l, (o t l).Perm l}
    {a : Ant (Ext ℝ)} (ha : Ready n a) (hq : RateOf a q) : IfReturns (oneAntM R A0 g n o ho a) (Walking n q) := by
  unfold oneAntM
  refine IfReturns.bind (startM_walking ha hq) fun b hb => ?_
  exact (walkM_walking sqrt pow maxv floor _ _ b hb.1).mono fun c hc => hc.1

/-- Specification: a colony of ants for `n` vertices with exploitation rates `qs` (0 for canonical ants). -/
def Colony (n : Nat) (ants : List (Ant (Ext ℝ))) (qs : List ℝ) : Prop :=
  List.Forall₂ (fun a q => Ready n a ∧ RateOf a q) ants qs

theorem asLoopM_chance (hR : Ideal R μ) (hmax : 0 ≤ maxv) {n : Nat} {g : Mat (Ext ℝ)} {f : Nat → Nat → ℝ} (hg : FinMat n g f)
    (hf : ∀ i j, i < n → j < n → i ≠ j → 0 < f i j) (hn : 0 < n) {o : Nat → Nat → List Nat → List Nat}
    (ho : ∀ k t l, (o k t l).Perm l) :
    ∀ (ants : List (Ant (Ext ℝ))) (qs : List ℝ) (tours : List (List Nat)) (k : Nat), Colony n ants qs →
    ((∃ q ∈ qs, q ≠ 0) → NoTies n f) → tours.length = ants.length → (∀ t ∈ tours, IsTour n t) →
    chance μ (asLoopM R A0 g n o ho k ants) (fun r => r.2 = tours) =
      (List.zipWith (fun q t => tourChance n q f t) qs tours).prod
  | [], qs, tours, k, hc, _, hl, _ => by
    have := hR.isProbability
    cases hc
    rw [List.length_eq_zero_iff.1 hl]
    simp only [List.zipWith_nil_left, List.prod_nil]
    exact chance_of_returns (Returns.pure rfl)
  | a :: as, qs, tours, k, hc, hties, hl, ht => by
    have := hR.isProbability
    cases hc with
    | @cons _ q _ qs hq hqs =>
      cases tours with
      | nil => simp at hl
      | cons t ts =>
        have ih := asLoopM_chance hR hmax hg hf hn ho as qs ts (k + 1) hqs
          (fun ⟨x, hx, h⟩ => hties ⟨x, by simp [hx], h⟩) (by simpa using hl) (fun x hx => ht x (by simp [hx]))
        rw [List.zipWith_cons_cons, List.prod_cons, ← C136_tour sqrt pow maxv floor hR hmax hg hf hq.1 hq.2
          (fun h => hties ⟨q, by simp, h⟩) (ho k) hn (ht t (by simp)), ← ih, asLoopM]
        refine (hasLaw_oneAntM sqrt pow maxv floor hR g n (ho k) a).chance_bind_eq
          (oneAntM_walking sqrt pow maxv floor hq.1 hq.2)
          (fun b _ => .ite (.pure _) ((hasLaw_asLoopM sqrt pow maxv floor hR g n ho as (k + 1)).bind fun r => .pure _)) ?_ ?_
        · intro b hb hp
          have hst : ¬ b.stuck = true := by
            intro h
            refine hb.2.2 h ?_
            rw [hp]
            exact (ht t (by simp)).nodup_iff.2 List.nodup_range
          rw [if_neg hst, chance_map]
          congr 1
          funext r
          simp [hp]
        · intro b hb hp
          by_cases hst : b.stuck = true
          · rw [if_pos hst]
            exact chance_zero (IfReturns.pure (by simp))
          · rw [if_neg hst, chance_map]
            exact chance_zero fun w r w' _ h => by
              simp only [List.cons.injEq] at h
              exact hp h.1

/-- **C136, the tours of a colony.** `AntSystemAB` returns given tours, one per ant, with the product of their
probabilities: the ants are independent. -/
theorem C136_ant_system (hR : Ideal R μ) (hmax : 0 ≤ maxv) {goodness : Mat (Ext ℝ) → Except Panic (Mat (Ext ℝ))}
    {ph g : Mat (Ext ℝ)} {n : Nat} {f : Nat → Nat → ℝ} (hrows : ph.rows = n) (hgo : goodness ph = .ok g) (hg : FinMat n g f)
    (hf : ∀ i j, i < n → j < n → i ≠ j → 0 < f i j) (hn : 0 < n) {o : Nat → Nat → List Nat → List Nat}
    (ho : ∀ k t l, (o k t l).Perm l)
    {ants : List (Ant (Ext ℝ))} {qs : List ℝ} (hc : Colony n ants qs) (hties : (∃ q ∈ qs, q ≠ 0) → NoTies n f)
    {tours : List (List Nat)} (hl : tours.length = ants.length) (ht : ∀ t ∈ tours, IsTour n t) :
    chance μ (antSystemM R A0 goodness o ho ants ph) (fun r => r.2.1 = tours) =
      (List.zipWith (fun q t => tourChance n q f t) qs tours).prod := by
  rw [← asLoopM_chance sqrt pow maxv floor hR hmax hg hf hn ho ants qs tours 0 hc hties hl ht]
  have : antSystemM R A0 goodness o ho ants ph = asLoopM R A0 g n o ho 0 ants >>= fun r => pure (r.1, r.2, ph) := by
    unfold antSystemM
    rw [hgo, hrows]
    rfl
  rw [this, chance_map]

/-! ## Tours that no ant builds -/

theorem goNextM_returns (hmax : 0 ≤ maxv) {n : Nat} {g : Mat (Ext ℝ)} (hg : PosMat n g) {a : Ant (Ext ℝ)}
    (ha : Building n a) (hs : a.stuck = false) (hu : a.unvisited ≠ []) {o : List Nat → List Nat} {ho : ∀ l, (o l).Perm l} :
    Returns (a.goNextM R A0 g o ho) fun r => r.1.stuck = false := by
  have h0 : (0 : ℝ) ≤ 0 ∧ (0 : ℝ) < 1 := ⟨le_refl _, zero_lt_one⟩
  have key : ∀ {u w : ℝ}, (0 ≤ u ∧ u < 1) → (0 ≤ w ∧ w < 1) →
      Returns (M.ofExcept (a.goNext A0 g (stepDraw o ho u w)) : M G _) fun r => r.1.stuck = false := by
    intro u w hu' hw s
    obtain ⟨b, e, h1, h2⟩ := goNext_exact sqrt pow maxv floor hmax hg ha hs hu (stepDraw_legal ho hu' hw).2.1
    exact ⟨(b, e), s, by rw [h1]; rfl, h2⟩
  have hunit : Returns R.genUnit fun u => 0 ≤ u ∧ u < 1 := fun w => ⟨_, _, rfl, R.unit_spec w⟩
  unfold Ant.goNextM
  rw [if_neg (by rw [hs]; simp)]
  cases hex : a.exploit with
  | none => exact hunit.bind fun w hw => key h0 hw
  | some rate =>
    refine hunit.bind fun u hu' => ?_
    split
    · exact key hu' h0
    · exact hunit.bind fun w hw => key hu' hw

theorem walkM_returns (hmax : 0 ≤ maxv) {n : Nat} {g : Mat (Ext ℝ)} (hg : PosMat n g) {q : ℝ} {o : Nat → List Nat → List Nat}
    {ho : ∀ t l, (o t l).Perm l} : ∀ (m t : Nat) (a : Ant (Ext ℝ)), Walking n q a → a.stuck = false →
    a.path.length + m ≤ n → Returns (Ant.walkM R A0 g o ho t m a) fun b => b.stuck = false
  | 0, t, a, _, hs, _ => Returns.pure hs
  | m + 1, t, a, ha, hs, hlen => by
    unfold Ant.walkM
    have hu : a.unvisited ≠ [] := by
      intro h
      have := (ha.1.2.2.1 hs).length_eq
      rw [h, List.append_nil, List.length_range] at this
      omega
    have h1 := goNextM_returns (R := R) sqrt pow maxv floor hmax hg ha.1 hs hu (o := o t) (ho := ho t)
    intro w
    obtain ⟨r, w', e, hr⟩ := h1 w
    obtain ⟨h2, -, h3⟩ := goNextM_walking sqrt pow maxv floor ha w r w' e
    obtain ⟨v, hv⟩ := h3 hs
    obtain ⟨b, w'', e', hb⟩ := walkM_returns hmax hg m (t + 1) r.1 h2 hr (by rw [hv]; simp; omega) w'
    exact ⟨b, w'', (M.bind_of_ok e).trans e', hb⟩

theorem posMat_of_fin {n : Nat} {g : Mat (Ext ℝ)} {f : Nat → Nat → ℝ} (hg : FinMat n g f)
    (hf : ∀ i j, i < n → j < n → i ≠ j → 0 < f i j) : PosMat n g :=
  ⟨hg.1, hg.2.1, fun i j hi hj hij => ⟨f i j, hg.2.2 i j hi hj, hf i j hi hj hij⟩⟩

theorem oneAntM_returns (hmax : 0 ≤ maxv) {n : Nat} (hn : 0 < n) {g : Mat (Ext ℝ)} (hg : PosMat n g) {q : ℝ}
    {o : Nat → List Nat → List Nat} {ho : ∀ t l, (o t l).Perm l} {a : Ant (Ext ℝ)} (ha : Ready n a) (hq : RateOf a q) :
    Returns (oneAntM R A0 g n o ho a) fun b => b.stuck = false := by
  intro w
  have hst : Returns (startM R a) fun _ => True := by
    unfold startM
    refine (R.genRange_returns (by rw [ha.1]; exact hn)).bind fun s _ => ?_
    obtain ⟨b, hb⟩ := start_exact (s := s) hn ha
    intro w
    exact ⟨b, w, by rw [hb]; rfl, trivial⟩
  obtain ⟨b, w', e, -⟩ := hst w
  obtain ⟨h1, h2, s, hs, h3⟩ := startM_walking ha hq w b w' e
  obtain ⟨c, w'', e', hc⟩ := walkM_returns (R := R) sqrt pow maxv floor hmax hg (o := o) (ho := ho) (n - 1) 0 b h1 h2
    (by rw [h3]; simp; omega) w'
  refine ⟨c, w'', ?_, hc⟩
  unfold oneAntM
  exact (M.bind_of_ok e).trans e'

theorem asLoopM_missed (hR : Ideal R μ) (hmax : 0 ≤ maxv) {n : Nat} {g : Mat (Ext ℝ)} {f : Nat → Nat → ℝ} (hg : FinMat n g f)
    (hf : ∀ i j, i < n → j < n → i ≠ j → 0 < f i j) (hn : 0 < n) {o : Nat → Nat → List Nat → List Nat}
    (ho : ∀ k t l, (o k t l).Perm l) {tour : List Nat} (ht : IsTour n tour) :
    ∀ (ants : List (Ant (Ext ℝ))) (qs : List ℝ) (k : Nat), Colony n ants qs → ((∃ q ∈ qs, q ≠ 0) → NoTies n f) →
    chance μ (asLoopM R A0 g n o ho k ants) (fun r => tour ∉ r.2) = (qs.map fun q => 1 - tourChance n q f tour).prod
  | [], qs, k, hc, _ => by
    have := hR.isProbability
    cases hc
    exact chance_of_returns (Returns.pure (by simp))
  | a :: as, qs, k, hc, hties => by
    have := hR.isProbability
    cases hc with
    | @cons _ q _ qs hq hqs =>
      have ih := asLoopM_missed hR hmax hg hf hn ho ht as qs (k + 1) hqs (fun ⟨x, hx, h⟩ => hties ⟨x, by simp [hx], h⟩)
      have hone := C136_tour sqrt pow maxv floor hR hmax hg hf hq.1 hq.2 (fun h => hties ⟨q, by simp, h⟩) (ho k) hn ht
      have hlaw := hasLaw_oneAntM sqrt pow maxv floor hR g n (ho k) a
      have hret := oneAntM_returns (R := R) sqrt pow maxv floor hmax hn (posMat_of_fin hg hf) (ho := ho k) hq.1 hq.2
      have hnot : chance μ (oneAntM R A0 g n (o k) (ho k) a) (fun b => ¬ b.path = tour) = 1 - tourChance n q f tour := by
        have := hlaw.chance_not (hret.mono fun _ _ => trivial) fun b => b.path = tour
        rw [hone] at this
        refine ENNReal.eq_sub_of_add_eq ?_ (by rw [add_comm]; exact this)
        intro h
        rw [h, top_add] at this
        exact ENNReal.one_ne_top this.symm
      rw [List.map_cons, List.prod_cons, ← hnot, ← ih, asLoopM]
      refine hlaw.chance_bind_eq (A := fun b => b.stuck = false) (hret.ifReturns)
        (fun b _ => .ite (.pure _) ((hasLaw_asLoopM sqrt pow maxv floor hR g n ho as (k + 1)).bind fun r => .pure _)) ?_ ?_
      · intro b hb hp
        rw [if_neg (by rw [hb]; simp), chance_map]
        congr 1
        funext r
        simp only [List.mem_cons, not_or, eq_iff_iff]
        exact ⟨fun h => h.2, fun h => ⟨fun e => hp e.symm, h⟩⟩
      · intro b hb hp
        rw [not_not] at hp
        rw [if_neg (by rw [hb]; simp), chance_map]
        exact chance_zero fun w r w' _ h => h (by simp [hp])

/-- **C136, missing a tour.** The probability that `AntSystemAB` builds a given tour - say, a shortest one - with none of its
ants is the product over the ants of one minus the probability of the tour. -/
theorem C136_missed (hR : Ideal R μ) (hmax : 0 ≤ maxv) {goodness : Mat (Ext ℝ) → Except Panic (Mat (Ext ℝ))}
    {ph g : Mat (Ext ℝ)} {n : Nat} {f : Nat → Nat → ℝ} (hrows : ph.rows = n) (hgo : goodness ph = .ok g) (hg : FinMat n g f)
    (hf : ∀ i j, i < n → j < n → i ≠ j → 0 < f i j) (hn : 0 < n) {o : Nat → Nat → List Nat → List Nat}
    (ho : ∀ k t l, (o k t l).Perm l) {ants : List (Ant (Ext ℝ))} {qs : List ℝ} (hc : Colony n ants qs)
    (hties : (∃ q ∈ qs, q ≠ 0) → NoTies n f) {tour : List Nat} (ht : IsTour n tour) :
    chance μ (antSystemM R A0 goodness o ho ants ph) (fun r => tour ∉ r.2.1) =
      (qs.map fun q => 1 - tourChance n q f tour).prod := by
  rw [← asLoopM_missed sqrt pow maxv floor hR hmax hg hf hn ho ht ants qs 0 hc hties]
  have : antSystemM R A0 goodness o ho ants ph = asLoopM R A0 g n o ho 0 ants >>= fun r => pure (r.1, r.2, ph) := by
    unfold antSystemM
    rw [hgo, hrows]
    rfl
  rw [this, chance_map]

/-- **C136, every tour has a chance**: at least `(1 - q)ⁿ⁻¹ · lⁿ⁻¹ / (n · (n·u)ⁿ⁻¹)` when all goodness is between `l > 0`
and `u`. -/
theorem C136_tour_bound {n : Nat} (hn : 0 < n) {q l u : ℝ} (hq0 : 0 ≤ q) (hq1 : q ≤ 1) (hl : 0 < l)
    {f : Nat → Nat → ℝ} (hf : ∀ i j, i < n → j < n → i ≠ j → l ≤ f i j ∧ f i j ≤ u) {tour : List Nat} (ht : IsTour n tour) :
    (n : ℝ≥0∞)⁻¹ * ENNReal.ofReal (((1 - q) * (l / (n * u))) ^ (n - 1)) ≤ tourChance n q f tour := by
  have hstep : ∀ (vs : List Nat) (last : Nat), (last :: vs).Nodup → (∀ v ∈ last :: vs, v < n) → vs.length ≤ n →
      ((1 - q) * (l / (n * u))) ^ vs.length ≤ tourProb q f last vs := by
    intro vs
    induction vs with
    | nil => intro last _ _ _; simp [tourProb]
    | cons v vs ih =>
      intro last hnd hlt hlen
      have hlast : last < n := hlt last (by simp)
      have hne : ∀ w ∈ v :: vs, last ≠ w := by
        rintro w hw rfl
        exact (List.nodup_cons.1 hnd).1 hw
      have hb : ∀ w ∈ v :: vs, l ≤ f last w ∧ f last w ≤ u :=
        fun w hw => hf last w hlast (hlt w (by simp [hw])) (hne w hw)
      have hu : 0 < u := hl.trans_le ((hb v (by simp)).1.trans (hb v (by simp)).2)
      have hn' : (0 : ℝ) < n := by exact_mod_cast hn
      have hsum : ((v :: vs).map (f last)).sum ≤ n * u := by
        have h1 := List.sum_le_card_nsmul ((v :: vs).map (f last)) u (by
          intro x hx
          obtain ⟨w, hw, rfl⟩ := List.mem_map.1 hx
          exact (hb w hw).2)
        rw [List.length_map, nsmul_eq_mul] at h1
        refine h1.trans (mul_le_mul_of_nonneg_right ?_ hu.le)
        exact_mod_cast hlen
      have hpos : 0 < ((v :: vs).map (f last)).sum := by
        refine List.sum_pos _ ?_ (by simp)
        intro x hx
        obtain ⟨w, hw, rfl⟩ := List.mem_map.1 hx
        exact hl.trans_le (hb w hw).1
      have h1 : (1 - q) * (l / (n * u)) ≤ ruleStep q f last (v :: vs) v := by
        unfold ruleStep
        have h2 : l / (n * u) ≤ f last v / ((v :: vs).map (f last)).sum :=
          div_le_div₀ (hl.le.trans (hb v (by simp)).1) (hb v (by simp)).1 hpos hsum
        have h3 := mul_le_mul_of_nonneg_left h2 (by linarith : 0 ≤ 1 - q)
        split <;> nlinarith
      have h2 := ih v (List.nodup_cons.1 hnd).2 (fun w hw => hlt w (by simp [hw])) (by simp at hlen; omega)
      have h0 : 0 ≤ (1 - q) * (l / (n * u)) := mul_nonneg (by linarith) (by positivity)
      rw [List.length_cons, pow_succ', tourProb]
      exact mul_le_mul h1 h2 (pow_nonneg h0 _) (h0.trans h1)
  cases tour with
  | nil =>
    have := ht.length_eq
    simp at this; omega
  | cons s vs =>
    have hlen : vs.length = n - 1 := by
      have := ht.length_eq
      rw [List.length_range, List.length_cons] at this; omega
    rw [tourChance]
    refine mul_le_mul_right (ENNReal.ofReal_le_ofReal ?_) _
    rw [← hlen]
    exact hstep vs s (ht.nodup_iff.2 List.nodup_range) (fun v hv => List.mem_range.1 (ht.mem_iff.1 hv)) (by omega)

/-! ## Ant Colony System -/

/-- **C136, one step of Ant Colony System.** In one step of `AntColonySystemAB` all ants move at once, with the goodness of
the beginning of the step: given next vertices, one per ant, are chosen with the product of their probabilities. -/
theorem C136_acs_step (hR : Ideal R μ) (hmax : 0 ≤ maxv) {n : Nat} {g : Mat (Ext ℝ)} {f : Nat → Nat → ℝ} (hg : FinMat n g f)
    (hf : ∀ i j, i < n → j < n → i ≠ j → 0 < f i j) {o : Nat → List Nat → List Nat} (ho : ∀ k l, (o k l).Perm l) :
    ∀ (moves : List (Ant (Ext ℝ) × ℝ × Nat × Nat)) (k : Nat),
    (∀ m ∈ moves, Walking n m.2.1 m.1 ∧ m.1.stuck = false ∧ m.1.path.getLast? = some m.2.2.1 ∧ m.2.2.2 ∈ m.1.unvisited) →
    ((∃ m ∈ moves, m.2.1 ≠ 0) → NoTies n f) →
    chance μ (acsStepM R A0 g o ho k (moves.map (·.1))) (fun r => r.2 = moves.map fun m => m.1.path ++ [m.2.2.2]) =
      (moves.map fun m => ENNReal.ofReal (ruleStep m.2.1 f m.2.2.1 m.1.unvisited m.2.2.2)).prod
  | [], k, _, _ => by
    have := hR.isProbability
    exact chance_of_returns (Returns.pure rfl)
  | (a, q, last, v) :: moves, k, hm, hties => by
    have := hR.isProbability
    obtain ⟨ha, hs, hl, hv⟩ := hm (a, q, last, v) (by simp)
    simp only at ha hs hl hv
    obtain ⟨m1, m2, m3⟩ := moving ha.1 hs hl
    have ih := C136_acs_step hR hmax hg hf ho moves (k + 1) (fun m h => hm m (by simp [h]))
      (fun ⟨m, h, hq⟩ => hties ⟨m, by simp [h], hq⟩)
    have hstep := C136_next_vertex_exploiting sqrt pow maxv floor hR hmax hg ha.2.1 ha.1 hs hl
      (fun u hu => hf last u m1 (m2 u hu).1 (m2 u hu).2)
      (fun h u hu w hw => hties ⟨_, List.mem_cons_self, h⟩ last u w m1 (m2 u hu).1 (m2 w hw).1 (m2 u hu).2 (m2 w hw).2)
      (ho k) hv
    rw [List.map_cons, List.map_cons, List.map_cons, List.prod_cons]
    simp only
    rw [← hstep, ← ih, acsStepM, if_neg (by rw [hs]; simp)]
    refine (hasLaw_goNextM sqrt pow maxv floor hR g (ho k) a).chance_bind_eq (A := fun _ => True) IfReturns.trivial
      (fun b _ => (hasLaw_acsStepM sqrt pow maxv floor hR g ho _ (k + 1)).bind fun r => .pure _) ?_ ?_
    · intro b _ hp
      rw [chance_map]
      congr 1
      funext r
      simp [hp]
    · intro b _ hp
      rw [chance_map]
      exact chance_zero fun w r w' _ h => by
        simp only [List.cons.injEq] at h
        exact hp h.1

theorem acsStepM_refines {n t : Nat} {g : Mat (Ext ℝ)} {o : Nat → List Nat → List Nat} {ho : ∀ k l, (o k l).Perm l} :
    ∀ (ants : List (Ant (Ext ℝ))) (k : Nat) (r : List (Ant (Ext ℝ)) × List (List Nat)) (w w' : G),
    acsStepM R A0 g o ho k ants w = .ok (r, w') → ∃ S : Nat → StepDraw (Ext ℝ), (∀ j, LegalStep (o j) (S j)) ∧
      ∀ d : IterDraws (Ext ℝ), (∀ j, k ≤ j → d.step j t = S j) → acsStep A0 g d t k ants = .ok r
  | [], k, r, w, w', h => by
    unfold acsStepM at h
    rw [M.pure_run] at h
    cases h
    exact ⟨fun j => (legalStep_exists (ho j)).choose, fun j => (legalStep_exists (ho j)).choose_spec, fun d _ => rfl⟩
  | a :: as, k, r, w, w', h => by
    unfold acsStepM at h
    by_cases hs : a.stuck = true
    · rw [if_pos hs] at h
      obtain ⟨r', w1, h1, h2⟩ := M.bind_ok_iff.1 h
      rw [M.pure_run] at h2
      cases h2
      obtain ⟨S, hS, hr⟩ := acsStepM_refines (n := n) as (k + 1) r' w _ h1
      refine ⟨S, hS, fun d hd => ?_⟩
      rw [acsStep, if_pos hs, Exc.bind_of_ok (hr d fun j hj => hd j (by omega))]
      rfl
    · rw [if_neg hs] at h
      obtain ⟨b, w1, h1, h2⟩ := M.bind_ok_iff.1 h
      obtain ⟨r', w2, h3, h4⟩ := M.bind_ok_iff.1 h2
      rw [M.pure_run] at h4
      cases h4
      obtain ⟨x, hx, hgo⟩ := goNextM_refines sqrt pow maxv floor h1
      obtain ⟨S, hS, hr⟩ := acsStepM_refines (n := n) as (k + 1) r' w1 _ h3
      refine ⟨fun j => if j = k then x else S j, fun j => ?_, fun d hd => ?_⟩
      · simp only
        split
        · next hj => rw [hj]; exact hx
        · exact hS j
      · have hk := hd k (le_refl _)
        beta_reduce at hk; rw [if_pos rfl] at hk
        have := hr d fun j hj => by
          have := hd j (by omega)
          beta_reduce at this; rwa [if_neg (by omega)] at this
        rw [acsStep, if_neg hs, hk, Exc.bind_of_ok hgo, Exc.bind_of_ok this]
        rfl

theorem acsLoopM_refines {goodness : Mat (Ext ℝ) → Except Panic (Mat (Ext ℝ))} {l : LocalRule (Ext ℝ)}
    {o : Nat → Nat → List Nat → List Nat} {ho : ∀ k t l, (o k t l).Perm l} :
    ∀ (m t : Nat) (ants : List (Ant (Ext ℝ))) (paths : List (List Nat)) (ph : Mat (Ext ℝ))
      (r : List (Ant (Ext ℝ)) × List (List Nat) × Mat (Ext ℝ)) (w w' : G),
    acsLoopM R A0 goodness l o ho t m ants paths ph w = .ok (r, w') →
    ∃ S : Nat → Nat → StepDraw (Ext ℝ), (∀ k i, LegalStep (o k i) (S k i)) ∧
      ∀ d : IterDraws (Ext ℝ), (∀ k i, t ≤ i → d.step k i = S k i) → acsLoop A0 goodness l d t m ants paths ph = .ok r
  | 0, t, ants, paths, ph, r, w, w', h => by
    unfold acsLoopM at h
    rw [M.pure_run] at h
    cases h
    exact ⟨fun k i => (legalStep_exists (ho k i)).choose, fun k i => (legalStep_exists (ho k i)).choose_spec, fun d _ => rfl⟩
  | m + 1, t, ants, paths, ph, r, w, w', h => by
    unfold acsLoopM at h
    obtain ⟨g, w1, h1, h2⟩ := M.bind_ok_iff.1 h
    obtain ⟨r', w2, h3, h4⟩ := M.bind_ok_iff.1 h2
    obtain ⟨ph', w3, h5, h6⟩ := M.bind_ok_iff.1 h4
    obtain ⟨S0, hS0, hstep⟩ := acsStepM_refines sqrt pow maxv floor (n := 0) (t := t) ants 0 r' w1 w2 h3
    obtain ⟨S, hS, hrest⟩ := acsLoopM_refines m (t + 1) r'.1 r'.2 ph' r w3 w' h6
    refine ⟨fun k i => if i = t then S0 k else S k i, fun k i => ?_, fun d hd => ?_⟩
    · simp only
      split
      · next hi => rw [hi]; exact hS0 k
      · exact hS k i
    · have e1 := hstep d fun j _ => by
        have := hd j t (le_refl _)
        beta_reduce at this; rwa [if_pos rfl] at this
      have e2 := hrest d fun k i hi => by
        have := hd k i (by omega)
        beta_reduce at this; rwa [if_neg (by omega)] at this
      rw [acsLoop, Exc.bind_of_ok (ofExcept_ok h1), Exc.bind_of_ok e1]
      rw [Exc.bind_of_ok (ofExcept_ok h5)]
      exact e2

theorem startAllM_refines {n : Nat} (hn : 0 < n) : ∀ (ants as : List (Ant (Ext ℝ))) (k : Nat) (w w' : G),
    (∀ a ∈ ants, a.size = n) → startAllM R ants w = .ok (as, w') → ∃ st : Nat → Nat, (∀ j, st j < n) ∧
      ∀ d : IterDraws (Ext ℝ), (∀ j, k ≤ j → d.start j = st j) → startAll d k ants = .ok as
  | [], as, k, w, w', _, h => by
    unfold startAllM at h
    rw [M.pure_run] at h
    cases h
    exact ⟨fun _ => 0, fun _ => hn, fun _ _ => rfl⟩
  | a :: ants, as, k, w, w', hsz, h => by
    unfold startAllM at h
    obtain ⟨b, w1, h1, h2⟩ := M.bind_ok_iff.1 h
    obtain ⟨bs, w2, h3, h4⟩ := M.bind_ok_iff.1 h2
    rw [M.pure_run] at h4
    cases h4
    obtain ⟨s, hs, hb⟩ := startM_refines (hsz a (by simp)) h1
    obtain ⟨st, hst, hr⟩ := startAllM_refines hn ants bs (k + 1) w1 _ (fun x hx => hsz x (by simp [hx])) h3
    refine ⟨fun j => if j = k then s else st j, fun j => ?_, fun d hd => ?_⟩
    · simp only
      split
      · exact hs
      · exact hst j
    · have hk := hd k (le_refl _)
      beta_reduce at hk; rw [if_pos rfl] at hk
      have := hr d fun j hj => by
        have := hd j (by omega)
        beta_reduce at this; rwa [if_neg (by omega)] at this
      rw [startAll, hk, Exc.bind_of_ok hb, Exc.bind_of_ok this]
      rfl

/-- **C136, refinement of Ant Colony System**, likewise. -/
theorem C136_acs_refines {goodness : Mat (Ext ℝ) → Except Panic (Mat (Ext ℝ))} {l : LocalRule (Ext ℝ)} {ph : Mat (Ext ℝ)}
    (hn : 0 < ph.rows) {o : Nat → Nat → List Nat → List Nat} {ho : ∀ k t l, (o k t l).Perm l} {ants : List (Ant (Ext ℝ))}
    (hsz : ∀ a ∈ ants, a.size = ph.rows) {r : List (Ant (Ext ℝ)) × List (List Nat) × Mat (Ext ℝ)} {w w' : G}
    (h : antColonySystemM R A0 goodness l o ho ants ph w = .ok (r, w')) :
    ∃ d, LegalDraws ph.rows o d ∧ antColonySystem A0 goodness l d ants ph = .ok r := by
  unfold antColonySystemM at h
  obtain ⟨as, w1, h1, h2⟩ := M.bind_ok_iff.1 h
  obtain ⟨st, hst, hs⟩ := startAllM_refines hn ants as 0 w w1 hsz h1
  obtain ⟨S, hS, hl⟩ := acsLoopM_refines sqrt pow maxv floor _ 0 as [] ph r w1 w' h2
  refine ⟨⟨st, S⟩, fun k => ⟨hst k, hS k⟩, ?_⟩
  unfold antColonySystem
  rw [Exc.bind_of_ok (hs ⟨st, S⟩ fun _ _ => rfl)]
  exact hl ⟨st, S⟩ fun _ _ _ => rfl

end
/-- C136 on three vertices with goodness `i + j` of the edge `i, j`: a canonical ant builds `0, 2, 1` with probability
`1/3 · 2/3` and, independently, an ant that exploits every other time builds `1, 0, 2` - the worse first step - with
probability `1/3 · 1/8`. -/
example : chance tapeLaw (antSystemM tapeRng (exactOps (fun x => x) (fun x _ => x) 1000 fun _ => 0)
      (fun ph => .ok ph) (fun _ _ => List.reverse) (fun _ _ l => List.reverse_perm l)
      [Ant.canonical 3, ⟨[], [], 3, false, some (.fin (1 / 2))⟩] ⟨3, 3, fun i j => .fin ((i + j : Nat) : ℝ)⟩)
      (fun r => r.2.1 = [[0, 2, 1], [1, 0, 2]]) =
    (3⁻¹ * ENNReal.ofReal (2 / 3)) * (3⁻¹ * ENNReal.ofReal (1 / 8)) := by
  have hg : FinMat 3 (⟨3, 3, fun i j => .fin ((i + j : Nat) : ℝ)⟩ : Mat (Ext ℝ)) (fun i j => ((i + j : Nat) : ℝ)) :=
    ⟨rfl, rfl, fun _ _ _ _ => rfl⟩
  refine (C136_ant_system (fun x => x) (fun x _ => x) 1000 (fun _ => 0) tapeRng_ideal (by norm_num) (n := 3) rfl rfl hg ?_
    (by norm_num) (fun _ _ l => List.reverse_perm l) (qs := [0, 1 / 2]) ?_ ?_ (tours := [[0, 2, 1], [1, 0, 2]]) rfl ?_).trans ?_
  · intro i j _ _ hij
    have : 0 < i + j := by omega
    exact_mod_cast this
  · refine .cons ⟨ready_canonical 3, .inl ⟨rfl, rfl⟩⟩ (.cons ⟨⟨rfl, by simp, by simp⟩, .inr ⟨rfl, by norm_num, by norm_num⟩⟩ .nil)
  · intro _ i j k _ _ _ _ _ hjk h
    have : i + j = i + k := by beta_reduce at h; exact_mod_cast h
    omega
  · intro t ht
    simp at ht
    rcases ht with rfl | rfl <;> (unfold IsTour; decide)
  · simp only [List.zipWith_cons_cons, List.zipWith_nil_left, List.prod_cons, List.prod_nil, mul_one, tourChance, tourProb,
      ruleStep]
    norm_num

section instances
def exG : Mat (Ext ℝ) := ⟨3, 3, fun i j => .fin ((i + j : Nat) : ℝ)⟩
theorem exG_fin : FinMat 3 exG (fun i j => ((i + j : Nat) : ℝ)) := ⟨rfl, rfl, fun _ _ _ _ => rfl⟩
theorem exG_pos (i j : Nat) (_ : i < 3) (_ : j < 3) (hij : i ≠ j) : 0 < ((i + j : Nat) : ℝ) := by
  have : 0 < i + j := by omega
  exact_mod_cast this
theorem exG_ties : NoTies 3 fun i j => ((i + j : Nat) : ℝ) := by
  intro i j k _ _ _ _ _ hjk h
  have : i + j = i + k := by beta_reduce at h; exact_mod_cast h
  omega
theorem exAnt_building (e : Option (Ext ℝ)) : Building 3 (⟨[2, 1], [0], 3, false, e⟩ : Ant (Ext ℝ)) :=
  ⟨⟨rfl, by simp, by simp⟩, by simp, fun _ => by show ([0, 2, 1] : List Nat).Perm (List.range 3); decide, by simp⟩
example := C136_next_vertex (fun x => x) (fun x _ => x) 1000 (fun _ => 0) tapeRng_ideal exG_fin
  (a := ⟨[2, 1], [0], 3, false, none⟩) rfl (exAnt_building _) rfl (last := 0) rfl (by intro u _; positivity) (by norm_num)
  (o := id) (fun _ => .refl _) (v := 2) (by simp)
example := C136_next_vertex_exploiting (fun x => x) (fun x _ => x) 1000 (fun _ => 0) tapeRng_ideal (by norm_num) exG_fin
  (a := ⟨[2, 1], [0], 3, false, some (.fin (1 / 2))⟩) (q := 1 / 2) (.inr ⟨rfl, by norm_num, by norm_num⟩) (exAnt_building _) rfl
  (last := 0) rfl (by intro u hu; have : u ≠ 0 := by rintro rfl; simp at hu
                      exact exG_pos 0 u (by omega) (by simp at hu; omega) (Ne.symm this))
  (fun _ u hu w hw huw => exG_ties 0 u w (by omega) (by simp at hu; omega) (by simp at hw; omega)
    (by rintro rfl; simp at hu) (by rintro rfl; simp at hw) huw)
  (o := List.reverse) (fun l => List.reverse_perm l) (v := 2) (by simp)
example {r w w'} (h : antSystemM tapeRng (exactOps (fun x => x) (fun x _ => x) 1000 fun _ => 0) (fun ph => .ok ph)
    (fun _ _ => List.reverse) (fun _ _ l => List.reverse_perm l) [Ant.canonical 3] exG w = .ok (r, w')) :=
  C136_ant_system_refines _ _ _ _ (ph := exG) (by norm_num [exG]) (by simp [Ant.canonical, exG]) h
example := C136_first_vertex (n := 3) tapeRng_ideal (ready_canonical 3) (s := 2) (by decide)
example := C136_tour (fun x => x) (fun x _ => x) 1000 (fun _ => 0) tapeRng_ideal (by norm_num) exG_fin exG_pos
  (a := ⟨[], [], 3, false, some (.fin (1 / 2))⟩) ⟨rfl, by simp, by simp⟩ (.inr ⟨rfl, by norm_num, by norm_num⟩) (fun _ => exG_ties)
  (o := fun _ => List.reverse) (fun _ l => List.reverse_perm l) (by norm_num) (tour := [2, 0, 1]) (by unfold IsTour; decide)
example := C136_missed (fun x => x) (fun x _ => x) 1000 (fun _ => 0) tapeRng_ideal (by norm_num) (goodness := fun ph => .ok ph)
  (n := 3) (ph := exG) rfl rfl exG_fin exG_pos (by decide : 0 < 3) (o := fun _ _ => List.reverse) (fun _ _ l => List.reverse_perm l)
  (ants := [Ant.canonical 3, Ant.canonical 3]) (qs := [0, 0])
  (.cons ⟨ready_canonical 3, .inl ⟨rfl, rfl⟩⟩ (.cons ⟨ready_canonical 3, .inl ⟨rfl, rfl⟩⟩ .nil)) (fun _ => exG_ties)
  (tour := [2, 0, 1]) (by unfold IsTour; decide)
example := C136_tour_bound (n := 3) (by norm_num) (q := 1 / 2) (l := 1) (u := 3) (by norm_num) (by norm_num) (by norm_num)
  (f := fun i j => ((i + j : Nat) : ℝ)) (fun i j hi hj hij => by
    have h1 : 1 ≤ i + j := by omega
    have h2 : i + j ≤ 3 := by omega
    exact ⟨by exact_mod_cast h1, by exact_mod_cast h2⟩) (tour := [2, 0, 1]) (by unfold IsTour; decide)
example := C136_acs_step (fun x => x) (fun x _ => x) 1000 (fun _ => 0) tapeRng_ideal (by norm_num) exG_fin exG_pos
  (o := fun _ => List.reverse) (fun _ l => List.reverse_perm l)
  [(⟨[2, 1], [0], 3, false, none⟩, 0, 0, 2), (⟨[2, 1], [0], 3, false, some (.fin (1 / 2))⟩, 1 / 2, 0, 1)] 0
  (by
    intro m hm
    simp only [List.mem_cons, List.not_mem_nil, or_false] at hm
    rcases hm with rfl | rfl
    · exact ⟨⟨exAnt_building _, .inl ⟨rfl, rfl⟩, by simp⟩, rfl, rfl, by simp⟩
    · exact ⟨⟨exAnt_building _, .inr ⟨rfl, by norm_num, by norm_num⟩, by simp⟩, rfl, rfl, by simp⟩)
  (fun _ => exG_ties)
example {l r w w'} (h : antColonySystemM tapeRng (exactOps (fun x => x) (fun x _ => x) 1000 fun _ => 0) (fun ph => .ok ph) l
    (fun _ _ => List.reverse) (fun _ _ l => List.reverse_perm l) [Ant.canonical 3] exG w = .ok (r, w')) :=
  C136_acs_refines _ _ _ _ (ph := exG) (by norm_num [exG]) (by simp [Ant.canonical, exG]) h
end instances

end Ecrs.Aco
