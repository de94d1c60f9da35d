import Verif.Props.AcoPheromone

set_option linter.unusedSectionVars false

/-!
# Histories of pheromone updates: C57, C58, C59

The one-step theorems of `AcoPheromone`, carried over any number of iterations for the updates which remember a best
solution (Elitist Ant System, Max-Min, Ant Colony System).
-/

namespace Ecrs.Aco
open Ecrs

/-- A step that always answers and keeps an invariant can be repeated over any list of acceptable inputs. -/
theorem history {S B : Type} (step : S → B → Except Panic S) (Inv : S → Prop) (Good : B → Prop)
    (h : ∀ s b, Inv s → Good b → ∃ s', step s b = .ok s' ∧ Inv s') :
    ∀ (bs : List B) (s : S), Inv s → (∀ b ∈ bs, Good b) → ∃ s', bs.foldlM step s = .ok s' ∧ Inv s'
  | [], s, hs, _ => ⟨s, rfl, hs⟩
  | b :: bs, s, hs, hb => by
    obtain ⟨s1, e1, i1⟩ := h s b hs (hb b (by simp))
    obtain ⟨s2, e2, i2⟩ := history step Inv Good h bs s1 i1 fun c hc => hb c (by simp [hc])
    exact ⟨s2, by rw [List.foldlM_cons, Exc.bind_of_ok e1]; exact e2, i2⟩

section general
variable {X K : Type} [LinearOrder K] {A : AcoOps X K}

/-- **C57, over a run of the Elitist Ant System**: the pheromone and the remembered best solution are passed on from
iteration to iteration; nothing panics and the pheromone stays symmetric. -/
theorem C57_elitist_history {n : Nat} {rate : X} (batches : List (List (Sol X))) (ph : Mat X) (best : Sol X)
    (hp : Sym n ph) (hb : InRange n best) (hs : ∀ sols ∈ batches, ∀ s ∈ sols, InRange n s) :
    ∃ ph' best', batches.foldlM (fun (s : Mat X × Sol X) sols => elitistPU A rate s.2 sols s.1) (ph, best) = .ok (ph', best') ∧
      Sym n ph' ∧ InRange n best' := by
  obtain ⟨⟨ph', b'⟩, e, i⟩ := history (fun (s : Mat X × Sol X) sols => elitistPU A rate s.2 sols s.1)
    (fun s => Sym n s.1 ∧ InRange n s.2) (fun sols => ∀ s ∈ sols, InRange n s) (fun s sols hi hg => by
      obtain ⟨p, b, e, h⟩ := C57_elitist_symmetric (A := A) (rate := rate) hi.1 hi.2 hg
      exact ⟨(p, b), e, h⟩) batches (ph, best) ⟨hp, hb⟩ hs
  exact ⟨ph', b', e, i⟩

/-- **C57, over a run of Max-Min**, with any policy that picks the remembered or a fresh solution. -/
theorem C57_max_min_history {n : Nat} {rate lo hi : X} {policy : Sol X → List (Sol X) → Sol X} (hpol : Picks policy)
    (batches : List (List (Sol X))) (ph : Mat X) (best : Sol X)
    (hp : Sym n ph) (hb : InRange n best) (hs : ∀ sols ∈ batches, ∀ s ∈ sols, InRange n s) :
    ∃ ph' best', batches.foldlM (fun (s : Mat X × Sol X) sols => mmPU A rate lo hi policy s.2 sols s.1) (ph, best)
        = .ok (ph', best') ∧ Sym n ph' ∧ InRange n best' := by
  obtain ⟨⟨ph', b'⟩, e, i⟩ := history (fun (s : Mat X × Sol X) sols => mmPU A rate lo hi policy s.2 sols s.1)
    (fun s => Sym n s.1 ∧ InRange n s.2) (fun sols => ∀ s ∈ sols, InRange n s) (fun s sols hi' hg => by
      obtain ⟨p, b, e, h⟩ := C57_max_min_symmetric (A := A) (rate := rate) (lo := lo) (hi := hi) hpol hi'.1 hi'.2 hg
      exact ⟨(p, b), e, h⟩) batches (ph, best) ⟨hp, hb⟩ hs
  exact ⟨ph', b', e, i⟩

/-- **C57, over a run of the Ant Colony System's global rule.** -/
theorem C57_acs_history {n : Nat} {rate : X} {policy : Sol X → List (Sol X) → Sol X} (hpol : Picks policy)
    (batches : List (List (Sol X))) (ph : Mat X) (best : Sol X)
    (hp : Sym n ph) (hb : InRange n best) (hs : ∀ sols ∈ batches, ∀ s ∈ sols, InRange n s) :
    ∃ ph' best', batches.foldlM (fun (s : Mat X × Sol X) sols => acsPU A rate policy s.2 sols s.1) (ph, best)
        = .ok (ph', best') ∧ Sym n ph' ∧ InRange n best' := by
  obtain ⟨⟨ph', b'⟩, e, i⟩ := history (fun (s : Mat X × Sol X) sols => acsPU A rate policy s.2 sols s.1)
    (fun s => Sym n s.1 ∧ InRange n s.2) (fun sols => ∀ s ∈ sols, InRange n s) (fun s sols hi' hg => by
      obtain ⟨p, b, e, h⟩ := C57_acs_symmetric (A := A) (rate := rate) hpol hi'.1 hi'.2 hg
      exact ⟨(p, b), e, h⟩) batches (ph, best) ⟨hp, hb⟩ hs
  exact ⟨ph', b', e, i⟩

end general

section exact
variable {F : Type} [Field F] [LinearOrder F] [IsStrictOrderedRing F]
variable (sqrt : Ext F → Ext F) (pow : Ext F → Ext F → Ext F) (maxv : F) (floor : F → Nat)

/-- **C58, over a run of the Elitist Ant System.** -/
theorem C58_elitist_history {n : Nat} {rho : F} (h0 : 0 ≤ rho) (h1 : rho ≤ 1) (batches : List (List (Sol (Ext F))))
    (ph : Mat (Ext F)) (best : Sol (Ext F)) (hp : NonnegMat n ph) (hb : GoodSol n best)
    (hs : ∀ sols ∈ batches, ∀ s ∈ sols, GoodSol n s) :
    ∃ ph' best', batches.foldlM (fun (s : Mat (Ext F) × Sol (Ext F)) sols =>
        elitistPU (exactOps sqrt pow maxv floor) (.fin rho) s.2 sols s.1) (ph, best) = .ok (ph', best') ∧
      NonnegMat n ph' ∧ GoodSol n best' := by
  obtain ⟨⟨ph', b'⟩, e, i⟩ := history (fun (s : Mat (Ext F) × Sol (Ext F)) sols =>
      elitistPU (exactOps sqrt pow maxv floor) (.fin rho) s.2 sols s.1)
    (fun s => NonnegMat n s.1 ∧ GoodSol n s.2) (fun sols => ∀ s ∈ sols, GoodSol n s) (fun s sols hi' hg => by
      obtain ⟨p, b, e, h⟩ := (C58_elitist_acs_nonneg sqrt pow maxv floor h0 h1 hi'.2 hg hi'.1).1
      exact ⟨(p, b), e, h⟩) batches (ph, best) ⟨hp, hb⟩ hs
  exact ⟨ph', b', e, i⟩

/-- **C58, over a run of the Ant Colony System's global rule.** -/
theorem C58_acs_history {n : Nat} {rho : F} (h0 : 0 ≤ rho) (h1 : rho ≤ 1)
    {policy : Sol (Ext F) → List (Sol (Ext F)) → Sol (Ext F)} (hpol : Picks policy) (batches : List (List (Sol (Ext F))))
    (ph : Mat (Ext F)) (best : Sol (Ext F)) (hp : NonnegMat n ph) (hb : GoodSol n best)
    (hs : ∀ sols ∈ batches, ∀ s ∈ sols, GoodSol n s) :
    ∃ ph' best', batches.foldlM (fun (s : Mat (Ext F) × Sol (Ext F)) sols =>
        acsPU (exactOps sqrt pow maxv floor) (.fin rho) policy s.2 sols s.1) (ph, best) = .ok (ph', best') ∧
      NonnegMat n ph' ∧ GoodSol n best' := by
  obtain ⟨⟨ph', b'⟩, e, i⟩ := history (fun (s : Mat (Ext F) × Sol (Ext F)) sols =>
      acsPU (exactOps sqrt pow maxv floor) (.fin rho) policy s.2 sols s.1)
    (fun s => NonnegMat n s.1 ∧ GoodSol n s.2) (fun sols => ∀ s ∈ sols, GoodSol n s) (fun s sols hi' hg => by
      obtain ⟨p, b, e, h⟩ := (C58_elitist_acs_nonneg sqrt pow maxv floor h0 h1 hi'.2 hg hi'.1).2 policy hpol
      exact ⟨(p, b), e, h⟩) batches (ph, best) ⟨hp, hb⟩ hs
  exact ⟨ph', b', e, i⟩

/-- **C58, Max-Min**: with bounds `0 ≤ lower < upper` and a rate of at most 1, a non-negative matrix stays non-negative,
whatever it held before. -/
theorem C58_max_min_nonneg {n : Nat} {rho lo hi : F} (h1 : rho ≤ 1) (hlo : 0 ≤ lo) (hlh : lo < hi)
    {policy : Sol (Ext F) → List (Sol (Ext F)) → Sol (Ext F)} (hpol : Picks policy) {best : Sol (Ext F)}
    {sols : List (Sol (Ext F))} {ph : Mat (Ext F)} (hb : GoodSol n best) (hs : ∀ s ∈ sols, GoodSol n s)
    (hp : NonnegMat n ph) :
    ∃ ph' b', mmPU (exactOps sqrt pow maxv floor) (.fin rho) (.fin lo) (.fin hi) policy best sols ph = .ok (ph', b') ∧
      NonnegMat n ph' ∧ GoodSol n b' := by
  have hbg := picks_good hpol hb hs
  obtain ⟨x, hx, hx0⟩ := hbg.2
  obtain ⟨f, hf, hf0⟩ := hp
  obtain ⟨ph', f', e1, e2, e3⟩ := C59_max_min_update sqrt pow maxv floor (rho := rho) hlh (sols := sols) (best := best)
    (policy := policy) (bp := (policy best sols).path) (bf := x) (by rw [← hx]) hbg.1 hf
  refine ⟨ph', _, e1, ⟨f', e2, fun i j hi' hj' => ?_⟩, ⟨hbg.1, x, rfl, hx0⟩⟩
  by_cases h : (i, j) ∈ windows (policy best sols).path ∨ (j, i) ∈ windows (policy best sols).path
  · exact hlo.trans ((e3 i j).1 h).1
  · rw [(e3 i j).2 h]
    exact mul_nonneg (hf0 i j hi' hj') (by linarith)

/-- **C58, over a run of Max-Min.** -/
theorem C58_max_min_history {n : Nat} {rho lo hi : F} (h1 : rho ≤ 1) (hlo : 0 ≤ lo) (hlh : lo < hi)
    {policy : Sol (Ext F) → List (Sol (Ext F)) → Sol (Ext F)} (hpol : Picks policy) (batches : List (List (Sol (Ext F))))
    (ph : Mat (Ext F)) (best : Sol (Ext F)) (hp : NonnegMat n ph) (hb : GoodSol n best)
    (hs : ∀ sols ∈ batches, ∀ s ∈ sols, GoodSol n s) :
    ∃ ph' best', batches.foldlM (fun (s : Mat (Ext F) × Sol (Ext F)) sols =>
        mmPU (exactOps sqrt pow maxv floor) (.fin rho) (.fin lo) (.fin hi) policy s.2 sols s.1) (ph, best) = .ok (ph', best') ∧
      NonnegMat n ph' ∧ GoodSol n best' := by
  obtain ⟨⟨ph', b'⟩, e, i⟩ := history (fun (s : Mat (Ext F) × Sol (Ext F)) sols =>
      mmPU (exactOps sqrt pow maxv floor) (.fin rho) (.fin lo) (.fin hi) policy s.2 sols s.1)
    (fun s => NonnegMat n s.1 ∧ GoodSol n s.2) (fun sols => ∀ s ∈ sols, GoodSol n s) (fun s sols hi' hg => by
      obtain ⟨p, b, e, h⟩ := C58_max_min_nonneg sqrt pow maxv floor h1 hlo hlh hpol hi'.2 hg hi'.1
      exact ⟨(p, b), e, h⟩) batches (ph, best) ⟨hp, hb⟩ hs
  exact ⟨ph', b', e, i⟩

/-- Specification: finite entries, all in `[0, top]`. -/
def Capped (n : Nat) (top : F) (m : Mat (Ext F)) : Prop :=
  ∃ f, FinMat n m f ∧ ∀ i j, i < n → j < n → 0 ≤ f i j ∧ f i j ≤ top

/-- **C59, over a run of Max-Min**: entries that start in `[0, upper]` stay there for ever. -/
theorem C59_max_min_history {n : Nat} {rho lo hi : F} (h0 : 0 ≤ rho) (h1 : rho ≤ 1) (hlo : 0 ≤ lo) (hlh : lo < hi)
    {policy : Sol (Ext F) → List (Sol (Ext F)) → Sol (Ext F)} (hpol : Picks policy) (batches : List (List (Sol (Ext F))))
    (ph : Mat (Ext F)) (best : Sol (Ext F)) (hp : Capped n hi ph) (hb : GoodSol n best)
    (hs : ∀ sols ∈ batches, ∀ s ∈ sols, GoodSol n s) :
    ∃ ph' best', batches.foldlM (fun (s : Mat (Ext F) × Sol (Ext F)) sols =>
        mmPU (exactOps sqrt pow maxv floor) (.fin rho) (.fin lo) (.fin hi) policy s.2 sols s.1) (ph, best) = .ok (ph', best') ∧
      Capped n hi ph' ∧ GoodSol n best' := by
  obtain ⟨⟨ph', b'⟩, e, i⟩ := history (fun (s : Mat (Ext F) × Sol (Ext F)) sols =>
      mmPU (exactOps sqrt pow maxv floor) (.fin rho) (.fin lo) (.fin hi) policy s.2 sols s.1)
    (fun s => Capped n hi s.1 ∧ GoodSol n s.2) (fun sols => ∀ s ∈ sols, GoodSol n s) (fun s sols hi' hg => by
      obtain ⟨⟨f, hf, hfb⟩, hbest⟩ := hi'
      have hbg := picks_good hpol hbest hg
      obtain ⟨x, hx, hx0⟩ := hbg.2
      obtain ⟨p, f', e, q1, q2⟩ := C59_max_min_upper sqrt pow maxv floor h0 h1 hlo hlh (sols := sols) (best := s.2)
        (policy := policy) (bp := (policy s.2 sols).path) (bf := x) (by rw [← hx]) hbg.1 hf hfb
      exact ⟨(p, _), e, ⟨f', q1, q2⟩, ⟨hbg.1, x, rfl, hx0⟩⟩) batches (ph, best) ⟨hp, hb⟩ hs
  exact ⟨ph', b', e, i⟩

end exact

/-! ## Instances: three iterations over the tours of three cities, starting from the empty best solution -/

section instances

theorem default_inRange : InRange 3 (Sol.default Q) := by intro v hv; cases hv

theorem threeBatches_inRange : ∀ sols ∈ ([[⟨[0, 2, 1], .fin 3⟩, ⟨[0, 2, 1], .fin 1⟩], [],
    [⟨[0, 2, 1], .fin 3⟩, ⟨[0, 2, 1], .fin 1⟩]] : List (List (Sol (Ext ℚ)))), ∀ s ∈ sols, InRange 3 s := by
  intro sols hs; simp only [List.mem_cons, List.not_mem_nil, or_false] at hs
  rcases hs with rfl | rfl | rfl
  · exact tours_inRange
  · intro s h; cases h
  · exact tours_inRange

theorem default_good : GoodSol 3 (Sol.default Q) := ⟨default_inRange, 0, rfl, le_refl _⟩

theorem threeBatches_good : ∀ sols ∈ ([[⟨[0, 2, 1], .fin 3⟩, ⟨[0, 2, 1], .fin 1⟩], [],
    [⟨[0, 2, 1], .fin 3⟩, ⟨[0, 2, 1], .fin 1⟩]] : List (List (Sol (Ext ℚ)))), ∀ s ∈ sols, GoodSol 3 s := by
  intro sols hs s hss
  refine ⟨threeBatches_inRange sols hs s hss, ?_⟩
  simp only [List.mem_cons, List.not_mem_nil, or_false] at hs
  rcases hs with rfl | rfl | rfl <;> simp only [List.mem_cons, List.not_mem_nil, or_false] at hss
  · rcases hss with rfl | rfl
    · exact ⟨3, rfl, by norm_num⟩
    · exact ⟨1, rfl, by norm_num⟩
  · rcases hss with rfl | rfl
    · exact ⟨3, rfl, by norm_num⟩
    · exact ⟨1, rfl, by norm_num⟩

theorem constMat_capped : Capped 3 (9 : ℚ) (constMat 3 2) :=
  ⟨fun _ _ => 2, ⟨rfl, rfl, fun _ _ _ _ => rfl⟩, fun _ _ _ _ => by norm_num⟩

theorem constMat_nonneg : NonnegMat 3 (constMat 3 2) :=
  ⟨fun _ _ => 2, ⟨rfl, rfl, fun _ _ _ _ => rfl⟩, fun _ _ _ _ => by norm_num⟩

example := C57_elitist_history (A := Q) (rate := .fin (1/2)) _ _ _ (constMat_sym 3 2) default_inRange threeBatches_inRange
example := C57_max_min_history (A := Q) (rate := .fin (1/2)) (lo := .fin 1) (hi := .fin 9) picks_first _ _ _
  (constMat_sym 3 2) default_inRange threeBatches_inRange
example := C57_acs_history (A := Q) (rate := .fin (1/2)) picks_first _ _ _ (constMat_sym 3 2) default_inRange
  threeBatches_inRange
example := C58_elitist_history (fun x => x) (fun x _ => x) 1000 (fun _ => 0) (rho := (1/2 : ℚ)) (by norm_num) (by norm_num)
  _ _ _ constMat_nonneg default_good threeBatches_good
example := C58_acs_history (fun x => x) (fun x _ => x) 1000 (fun _ => 0) (rho := (1/2 : ℚ)) (by norm_num) (by norm_num)
  picks_first _ _ _ constMat_nonneg default_good threeBatches_good
example := C58_max_min_nonneg (fun x => x) (fun x _ => x) 1000 (fun _ => 0) (rho := (1/2 : ℚ)) (lo := 1) (hi := 9)
  (by norm_num) (by norm_num) (by norm_num) picks_first default_good
  (threeBatches_good _ List.mem_cons_self) constMat_nonneg
example := C58_max_min_history (fun x => x) (fun x _ => x) 1000 (fun _ => 0) (rho := (1/2 : ℚ)) (lo := 1) (hi := 9)
  (by norm_num) (by norm_num) (by norm_num) picks_first _ _ _ constMat_nonneg default_good threeBatches_good
example := C59_max_min_history (fun x => x) (fun x _ => x) 1000 (fun _ => 0) (rho := (1/2 : ℚ)) (lo := 1) (hi := 9)
  (by norm_num) (by norm_num) (by norm_num) (by norm_num) picks_first _ _ _ constMat_capped default_good threeBatches_good

end instances

end Ecrs.Aco
