import Verif.Props.AcoParts

set_option linter.unusedSectionVars false

/-!
# C151: which parameters the constructors of the ant colony module accept
-/

namespace Ecrs.Aco
open Ecrs

section
variable {F : Type} [Field F] [LinearOrder F] [IsStrictOrderedRing F] {sqrt : Ext F → Ext F} {pow : Ext F → Ext F → Ext F}
  {maxv : F} {floor : F → Nat}

/-- Specification: a rate in `[0, 1)`. -/
def ProperRate (q : Ext F) : Prop := ∃ r : F, q = .fin r ∧ 0 ≤ r ∧ r < 1

/-- Specification: bounds `0 ≤ lo < hi`; `lo` is a number, `hi` a number or `+∞`. -/
def ProperBounds (lo hi : Ext F) : Prop := ∃ a : F, lo = .fin a ∧ 0 ≤ a ∧ (hi = .pinf ∨ ∃ b : F, hi = .fin b ∧ a < b)

theorem within_iff {A : AcoOps (Ext F) (WithBot (WithTop F))} {a b c d : Ext F} :
    (!A.notLe a b && A.lt c d) = true ↔ Fl.Le (A.view a) (A.view b) ∧ Fl.Lt (A.view c) (A.view d) := by
  rw [Bool.and_eq_true, Bool.not_eq_true']
  refine and_congr ⟨Ff.notLe_false, fun h => ?_⟩ Fl.lt_iff
  rw [← Bool.not_eq_true, Ff.notLe_iff]
  cases ha : A.view a <;> cases hb : A.view b <;> rw [ha, hb] at h <;> simp_all [Fl.Le, Fl.Lt]

theorem rateOk_iff (q : Ext F) : rateOk (exactOps sqrt pow maxv floor) q = true ↔ ProperRate q := by
  unfold rateOk ProperRate
  rw [within_iff]
  cases q with
  | fin r =>
    refine ⟨fun h => ⟨r, rfl, ?_, ?_⟩, ?_⟩
    · simpa [exactOps, Ext.ops, Ext.view, Fl.Le] using h.1
    · have := h.2
      exact (ex_lt sqrt pow maxv floor).1 (Fl.lt_iff.2 this)
    · rintro ⟨r', h, h3, h4⟩
      cases h
      exact ⟨by simpa [exactOps, Ext.ops, Ext.view, Fl.Le] using h3, Fl.lt_iff.1 ((ex_lt sqrt pow maxv floor).2 h4)⟩
  | nan => exact ⟨fun h => h.1.elim, by rintro ⟨r, h, -⟩; cases h⟩
  | ninf =>
    refine ⟨fun h => ?_, by rintro ⟨r, h, -⟩; cases h⟩
    have := h.1
    simp [exactOps, Ext.ops, Ext.view, Fl.Le] at this
  | pinf =>
    refine ⟨fun h => ?_, by rintro ⟨r, h, -⟩; cases h⟩
    have := h.2
    simp [exactOps, Ext.ops, Ext.view, Fl.Lt] at this

theorem boundsOk_iff (lo hi : Ext F) : mmBoundsOk (exactOps sqrt pow maxv floor) lo hi = true ↔ ProperBounds lo hi := by
  unfold mmBoundsOk ProperBounds
  rw [within_iff]
  cases lo with
  | fin a =>
    have h0 : Fl.Le ((exactOps sqrt pow maxv floor).view (exactOps sqrt pow maxv floor).zero)
        ((exactOps sqrt pow maxv floor).view (.fin a)) ↔ 0 ≤ a := by
      simp [exactOps, Ext.ops, Ext.view, Fl.Le]
    rw [h0]
    cases hi with
    | fin b =>
      constructor
      · rintro ⟨h1, h2⟩
        exact ⟨a, rfl, h1, .inr ⟨b, rfl, (ex_lt sqrt pow maxv floor).1 (Fl.lt_iff.2 h2)⟩⟩
      · rintro ⟨a', h, h1, h2 | ⟨b', h2, h3⟩⟩
        · cases h2
        · cases h; cases h2
          exact ⟨h1, Fl.lt_iff.1 ((ex_lt sqrt pow maxv floor).2 h3)⟩
    | pinf =>
      constructor
      · rintro ⟨h1, -⟩
        exact ⟨a, rfl, h1, .inl rfl⟩
      · rintro ⟨a', h, h1, -⟩
        cases h
        exact ⟨h1, Fl.lt_iff.1 (ex_lt_pinf sqrt pow maxv floor)⟩
    | ninf =>
      constructor
      · rintro ⟨-, h2⟩
        simp [exactOps, Ext.ops, Ext.view, Fl.Lt] at h2
      · rintro ⟨a', h, h1, h2 | ⟨b', h2, h3⟩⟩ <;> cases h2
    | nan =>
      constructor
      · rintro ⟨-, h2⟩
        exact h2.elim
      · rintro ⟨a', h, h1, h2 | ⟨b', h2, h3⟩⟩ <;> cases h2
  | nan => exact ⟨fun h => h.1.elim, by rintro ⟨r, h, -⟩; cases h⟩
  | ninf =>
    refine ⟨fun h => ?_, by rintro ⟨r, h, -⟩; cases h⟩
    have := h.1
    simp [exactOps, Ext.ops, Ext.view, Fl.Le] at this
  | pinf =>
    refine ⟨fun h => ?_, by rintro ⟨r, h, -⟩; cases h⟩
    have := h.2
    cases hi <;> simp [exactOps, Ext.ops, Ext.view, Fl.Lt] at this

/-- **C151, rates.** `ExploitingAnt::with_rng` returns an ant, which has visited nothing and uses the given rate, exactly
for the exploitation rates in `[0, 1)`; `Decay::new` and `DecayTo::new` return exactly for the decay rates in `[0, 1)`, the
latter whatever the stable constant.  For every other number, for the infinities and for NaN they panic. -/
theorem C151_rates (n : Nat) (q stable : Ext F) :
    (ProperRate q →
      (∃ a, Ant.exploiting (exactOps sqrt pow maxv floor) n q = .ok a ∧ a.path = [] ∧ a.unvisited = [] ∧ a.size = n ∧
        a.stuck = false ∧ a.exploit = some q) ∧
      LocalRule.newDecay (exactOps sqrt pow maxv floor) q = .ok (.decay q) ∧
      LocalRule.newDecayTo (exactOps sqrt pow maxv floor) q stable = .ok (.decayTo q stable)) ∧
    (¬ ProperRate q →
      Ant.exploiting (exactOps sqrt pow maxv floor) n q = .error .assertion ∧
      LocalRule.newDecay (exactOps sqrt pow maxv floor) q = .error .assertion ∧
      LocalRule.newDecayTo (exactOps sqrt pow maxv floor) q stable = .error .assertion) := by
  have h := rateOk_iff (sqrt := sqrt) (pow := pow) (maxv := maxv) (floor := floor) q
  have he : Ant.exploiting (exactOps sqrt pow maxv floor) n q =
      if rateOk (exactOps sqrt pow maxv floor) q then .ok ⟨[], [], n, false, some q⟩ else .error .assertion := rfl
  refine ⟨fun hq => ?_, fun hq => ?_⟩
  · rw [he, LocalRule.newDecay, LocalRule.newDecayTo, if_pos (h.2 hq), if_pos (h.2 hq), if_pos (h.2 hq)]
    exact ⟨⟨_, rfl, rfl, rfl, rfl, rfl, rfl⟩, rfl, rfl⟩
  · have hq' := mt h.1 hq
    rw [he, LocalRule.newDecay, LocalRule.newDecayTo, if_neg hq', if_neg hq', if_neg hq']
    exact ⟨rfl, rfl, rfl⟩

/-- **C151, bounds.** `MMAntSystemPU::with_best_policy` returns exactly when `0 ≤ lower < upper`; the upper bound may be
`+∞` and the evaporation rate is not looked at. -/
theorem C151_bounds (rate lo hi : Ext F) :
    (ProperBounds lo hi → newMM (exactOps sqrt pow maxv floor) rate lo hi = .ok (rate, lo, hi)) ∧
    (¬ ProperBounds lo hi → newMM (exactOps sqrt pow maxv floor) rate lo hi = .error .assertion) := by
  have h := boundsOk_iff (sqrt := sqrt) (pow := pow) (maxv := maxv) (floor := floor) lo hi
  exact ⟨fun hb => if_pos (h.2 hb), fun hb => if_neg (mt h.1 hb)⟩

end

example : ProperRate (.fin (9 / 10) : Ext ℚ) ∧ ¬ ProperRate (.fin 1 : Ext ℚ) ∧ ¬ ProperRate (.nan : Ext ℚ) := by
  refine ⟨⟨9 / 10, rfl, by norm_num, by norm_num⟩, ?_, ?_⟩
  · rintro ⟨r, h, -, h1⟩; cases h; exact lt_irrefl _ h1
  · rintro ⟨r, h, -⟩; cases h

example : ProperBounds (.fin 0 : Ext ℚ) .pinf ∧ ¬ ProperBounds (.fin 2 : Ext ℚ) (.fin 2) := by
  refine ⟨⟨0, rfl, le_refl _, .inl rfl⟩, ?_⟩
  rintro ⟨a, h, -, h1 | ⟨b, h1, h2⟩⟩
  · cases h1
  · cases h; cases h1; exact lt_irrefl _ h2

/-! ## Every theorem on a concrete case -/

section instances

example := (C151_rates (sqrt := fun x => x) (pow := fun x _ => x) (maxv := 1000) (floor := fun _ => 0) 4 (.fin (9 / 10) : Ext ℚ) (.fin 2)).1
  ⟨9 / 10, rfl, by norm_num, by norm_num⟩
example := (C151_rates (sqrt := fun x => x) (pow := fun x _ => x) (maxv := 1000) (floor := fun _ => 0) 4 (.fin 1 : Ext ℚ) (.fin 2)).2
  (by rintro ⟨r, h, -, h1⟩; cases h; exact lt_irrefl _ h1)
example := (C151_bounds (sqrt := fun x => x) (pow := fun x _ => x) (maxv := 1000) (floor := fun _ => 0) (.fin (1 / 2) : Ext ℚ) (.fin 0) .pinf).1
  ⟨0, rfl, le_refl _, .inl rfl⟩

end instances

end Ecrs.Aco
