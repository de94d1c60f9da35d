import Verif.Ga.Solver

/-! # Helper lemmas about the GA driver -/

namespace Ecrs.Ga
open Ecrs

section findBest
variable {I C K : Type} [LinearOrder K] (T : IndTrait I C K)

theorem cmpInd_ok {a b : I} {o : Ordering} (h : cmpInd T a b = .ok o) :
    ∃ x y, T.fitness a = .num x ∧ T.fitness b = .num y ∧ o = compare x y := by
  unfold cmpInd at h
  cases ha : T.fitness a with
  | nan => rw [ha] at h; simp [Fl.partialCmp] at h
  | num x =>
    cases hb : T.fitness b with
    | nan => rw [ha, hb] at h; simp [Fl.partialCmp] at h
    | num y =>
      rw [ha, hb] at h; simp [Fl.partialCmp] at h
      exact ⟨x, y, rfl, rfl, h.symm⟩

theorem minFrom_spec : ∀ (xs : List I) (b r : I), minFrom T b xs = .ok r →
    (r = b ∨ r ∈ xs) ∧
    (xs ≠ [] → (T.fitness b).IsNum) ∧
    ((T.fitness b).IsNum → Fl.Le (T.fitness r) (T.fitness b)) ∧
    ∀ i ∈ xs, Fl.Le (T.fitness r) (T.fitness i)
  | [], b, r, h => by
    simp [minFrom] at h; subst h
    refine ⟨.inl rfl, by simp, fun h => Fl.le_refl h, by simp⟩
  | x :: xs, b, r, h => by
    unfold minFrom at h
    cases hc : cmpInd T b x with
    | error e => rw [hc] at h; simp at h
    | ok o =>
      obtain ⟨u, v, hu, hv, ho⟩ := cmpInd_ok T hc
      have hbn : (T.fitness b).IsNum := by rw [hu]; trivial
      have hxn : (T.fitness x).IsNum := by rw [hv]; trivial
      rw [hc] at h
      by_cases hgt : o = .gt
      · subst hgt
        simp only at h
        obtain ⟨h1, -, h3, h4⟩ := minFrom_spec xs x r h
        have hrx := h3 hxn
        have hxb : Fl.Le (T.fitness x) (T.fitness b) := by
          rw [hu, hv]; exact le_of_lt (compare_gt_iff_gt.1 ho.symm)
        refine ⟨?_, fun _ => hbn, fun _ => hrx.trans hxb, ?_⟩
        · rcases h1 with rfl | h1
          · right; simp
          · right; simp [h1]
        · intro i hi
          rcases List.mem_cons.1 hi with rfl | hi
          · exact hrx
          · exact h4 i hi
      · have h' : minFrom T b xs = .ok r := by
          cases o <;> simp_all
        obtain ⟨h1, -, h3, h4⟩ := minFrom_spec xs b r h'
        have hrb := h3 hbn
        have hbx : Fl.Le (T.fitness b) (T.fitness x) := by
          rw [hu, hv]
          show u ≤ v
          by_contra hlt
          exact hgt (by rw [ho]; exact compare_gt_iff_gt.2 (not_le.1 hlt))
        refine ⟨?_, fun _ => hbn, fun _ => hrb, ?_⟩
        · rcases h1 with rfl | h1
          · left; rfl
          · right; simp [h1]
        · intro i hi
          rcases List.mem_cons.1 hi with rfl | hi
          · exact hrb.trans hbx
          · exact h4 i hi

theorem findBest_mem {l : List I} {b : I} (h : findBest T l = .ok b) : b ∈ l := by
  cases l with
  | nil => simp [findBest] at h
  | cons x xs =>
    rcases (minFrom_spec T xs x b h).1 with rfl | h1
    · simp
    · simp [h1]

theorem findBest_not_lt {l : List I} {b : I} (h : findBest T l = .ok b) :
    ∀ i ∈ l, ¬ Fl.Lt (T.fitness i) (T.fitness b) := by
  cases l with
  | nil => simp [findBest] at h
  | cons x xs =>
    obtain ⟨h1, h2, h3, h4⟩ := minFrom_spec T xs x b h
    intro i hi hlt
    rcases List.mem_cons.1 hi with rfl | hi
    · cases xs with
      | nil =>
        simp at h1; subst h1
        cases hb : T.fitness b <;> rw [hb] at hlt <;> simp [Fl.Lt] at hlt
      | cons y ys =>
        have := h3 (h2 (by simp))
        rw [← Fl.not_lt this.isNum_right this.isNum_left] at this
        exact this hlt
    · have := h4 i hi
      rw [← Fl.not_lt this.isNum_right this.isNum_left] at this
      exact this hlt

theorem findBest_le {l : List I} {b : I} (h : findBest T l = .ok b)
    (h2 : 2 ≤ l.length ∨ ∀ i ∈ l, (T.fitness i).IsNum) :
    ∀ i ∈ l, Fl.Le (T.fitness b) (T.fitness i) := by
  cases l with
  | nil => simp
  | cons x xs =>
    obtain ⟨h1, h2', h3, h4⟩ := minFrom_spec T xs x b h
    have hx : (T.fitness x).IsNum := by
      rcases h2 with h2 | h2
      · apply h2'; intro hn; subst hn; simp at h2
      · exact h2 x (by simp)
    intro i hi
    rcases List.mem_cons.1 hi with rfl | hi
    · exact h3 hx
    · exact h4 i hi

theorem minFrom_ok : ∀ (xs : List I) (b : I), (T.fitness b).IsNum →
    (∀ i ∈ xs, (T.fitness i).IsNum) → ∃ r, minFrom T b xs = .ok r
  | [], b, _, _ => ⟨b, rfl⟩
  | x :: xs, b, hb, h => by
    have hx := h x (by simp)
    have ht : ∀ i ∈ xs, (T.fitness i).IsNum := fun i hi => h i (by simp [hi])
    unfold minFrom cmpInd
    cases hbv : T.fitness b with
    | nan => rw [hbv] at hb; exact hb.elim
    | num u =>
      cases hxv : T.fitness x with
      | nan => rw [hxv] at hx; exact hx.elim
      | num v =>
        simp only [Fl.partialCmp]
        cases compare u v
        · exact minFrom_ok xs b hb ht
        · exact minFrom_ok xs b hb ht
        · exact minFrom_ok xs x hx ht

theorem findBest_ok {l : List I} (hne : l ≠ []) (h : ∀ i ∈ l, (T.fitness i).IsNum) :
    ∃ b, findBest T l = .ok b := by
  cases l with
  | nil => exact absurd rfl hne
  | cons x xs => exact minFrom_ok T xs x (h x (by simp)) (fun i hi => h i (by simp [hi]))

theorem minFrom_nan : ∀ (xs : List I) (b : I),
    (∃ i ∈ xs, T.fitness i = .nan) ∨ (T.fitness b = .nan ∧ xs ≠ []) →
    minFrom T b xs = .error .nanCompare
  | [], b, h => by simp at h
  | x :: xs, b, h => by
    unfold minFrom
    cases hbv : T.fitness b with
    | nan => simp [cmpInd, hbv, Fl.partialCmp]
    | num u =>
      cases hxv : T.fitness x with
      | nan => simp [cmpInd, hbv, hxv, Fl.partialCmp]
      | num v =>
        have h' : ∃ i ∈ xs, T.fitness i = .nan := by
          rcases h with ⟨i, hi, hn⟩ | ⟨hn, -⟩
          · rcases List.mem_cons.1 hi with rfl | hi
            · rw [hxv] at hn; cases hn
            · exact ⟨i, hi, hn⟩
          · rw [hbv] at hn; cases hn
        simp only [cmpInd, hbv, hxv, Fl.partialCmp]
        cases compare u v
        · exact minFrom_nan xs b (.inl h')
        · exact minFrom_nan xs b (.inl h')
        · exact minFrom_nan xs x (.inl h')

theorem findBest_nan {l : List I} (h2 : 2 ≤ l.length) (h : ∃ i ∈ l, T.fitness i = .nan) :
    findBest T l = .error .nanCompare := by
  cases l with
  | nil => simp at h2
  | cons x xs =>
    apply minFrom_nan
    obtain ⟨i, hi, hn⟩ := h
    rcases List.mem_cons.1 hi with rfl | hi
    · right; refine ⟨hn, ?_⟩; rintro rfl; simp at h2
    · left; exact ⟨i, hi, hn⟩

end findBest

section loop
variable {W I C K : Type} [LinearOrder K] (T : IndTrait I C K) (ops : Ops W I K) (p : GAParams)

/-- Everything a returning iteration did. -/
theorem iteration_ok {g : Nat} {s s' : St I} {stop : Bool} {w w' : W}
    (h : iteration T ops p g s w = .ok ((s', stop), w')) :
    ∃ d wa m pop wb pool wc crossed wd mutated we children wf replaced wg m' wh b d' wi,
      ops.elapsed w = .ok (d, wa) ∧
      m = { s.metrics with generation := g, totalDur := some d } ∧
      evalPop T ops s.pop wa = .ok (pop, wb) ∧
      ops.select m pop wb = .ok (pool, wc) ∧
      ops.cross m pool wc = .ok (crossed, wd) ∧
      M.forEach (ops.mutate m) crossed wd = .ok (mutated, we) ∧
      evalChildren T ops mutated we = .ok (children, wf) ∧
      ops.replace m pop children wf = .ok (replaced, wg) ∧
      m' = { m with populationSize := replaced.length } ∧
      replaced.length = p.populationSize ∧
      evalPop T ops replaced wg = .ok (s'.pop, wh) ∧
      findBest T s'.pop = .ok b ∧
      ops.elapsed wh = .ok (d', wi) ∧
      s'.best = (if Fl.lt (T.fitness b) (T.fitness s.best) then b else s.best) ∧
      s'.metrics = m' ∧
      stop = decide (p.maxDuration ≤ d') ∧
      s'.trace = s.trace ++ [.onIterationStart m, .selectCall pop, .replaceCall pop children,
        .onNewGeneration m' s'.pop, .onBestFit m' b] ++
        (if Fl.lt (T.fitness b) (T.fitness s.best) then [.onNewBest m' b] else []) ++
        [.onIterationEnd m', .clockCheck d'] := by
  unfold iteration at h
  simp only [M.bind_ok_iff, M.pure_ok_iff, M.assert_ok_iff, M.ofExcept_ok_iff] at h
  obtain ⟨d, wa, h1, pop, wb, h2, pool, wc, h3, crossed, wd, h4, mutated, we, h5, children, wf, h6,
    replaced, wg, h7, _, w8, ⟨h8, h8'⟩, pop', wh, h9, b, w10, ⟨h10, h10'⟩, d', wi, h11, hr⟩ := h
  simp only [Prod.mk.injEq] at hr h8'
  obtain ⟨⟨rfl, rfl⟩, rfl⟩ := hr
  obtain ⟨-, rfl⟩ := h8'
  subst h10'
  exact ⟨d, wa, _, pop, wb, pool, wc, crossed, wd, mutated, we, children, wf, replaced, w8, _, w10,
    b, d', w', h1, rfl, h2, h3, h4, h5, h6, h7, rfl, by simpa using h8, h9, h10, h11, rfl, rfl, rfl,
    rfl⟩

/-- Invariant rule for the generation loop. -/
theorem loop_inv {Inv : Nat → St I → Prop}
    (step : ∀ g s w s' stop w', Inv g s → iteration T ops p g s w = .ok ((s', stop), w') →
      Inv (g + 1) s') :
    ∀ (n g : Nat) (s : St I) (w : W) (s' : St I) (w' : W),
      Inv g s → loop T ops p n g s w = .ok (s', w') → ∃ k ≤ n, Inv (g + k) s'
  | 0, g, s, w, s', w', hi, h => by
    simp [loop] at h; obtain ⟨rfl, rfl⟩ := h
    exact ⟨0, Nat.le_refl _, hi⟩
  | n + 1, g, s, w, s', w', hi, h => by
    unfold loop at h
    obtain ⟨⟨s1, stop⟩, w1, h1, h2⟩ := M.bind_ok_iff.1 h
    have hi1 := step g s w s1 stop w1 hi h1
    simp only at h2
    cases stop with
    | true =>
      simp at h2; obtain ⟨rfl, rfl⟩ := h2
      exact ⟨1, by omega, hi1⟩
    | false =>
      simp at h2
      obtain ⟨k, hk, hinv⟩ := loop_inv step n (g + 1) s1 w1 s' w' hi1 h2
      exact ⟨k + 1, by omega, by rw [show g + (k + 1) = g + 1 + k by omega]; exact hinv⟩

/-- Everything a returning prologue did. -/
theorem prologue_ok {m0 : Metrics} {s : St I} {w w' : W}
    (h : prologue T ops p m0 w = .ok (s, w')) :
    ∃ pop0 wa wb d, ops.generate p.populationSize w = .ok (pop0, wa) ∧
      evalPop T ops pop0 wa = .ok (s.pop, wb) ∧
      findBest T s.pop = .ok s.best ∧
      ops.elapsed wb = .ok (d, w') ∧
      s.metrics = { m0 with populationSize := pop0.length, totalDur := some d } ∧
      s.trace = [.onStart m0, .onInitialPopulation { m0 with populationSize := pop0.length } s.pop,
        .onNewBest { m0 with populationSize := pop0.length, totalDur := some d } s.best] := by
  unfold prologue at h
  simp only [M.bind_ok_iff, M.pure_ok_iff, M.ofExcept_ok_iff] at h
  obtain ⟨pop0, wa, h1, pop, wb, h2, b, wc, ⟨h3, h3'⟩, d, wd, h4, hr⟩ := h
  simp only [Prod.mk.injEq] at hr h3'
  obtain ⟨rfl, rfl⟩ := hr
  subst h3'
  exact ⟨pop0, wa, wc, d, h1, h2, h3, h4, rfl, rfl⟩

/-- Everything a returning run did. -/
theorem run_ok {m0 : Metrics} {best : I} {tr : List (Ev I)} {w w' : W}
    (h : run T ops p m0 w = .ok ((best, tr), w')) :
    ∃ s wa s' wb d, prologue T ops p m0 w = .ok (s, wa) ∧
      loop T ops p p.generationLimit 1 s wa = .ok (s', wb) ∧
      ops.elapsed wb = .ok (d, w') ∧ best = s'.best ∧
      tr = s'.trace ++ [.onEnd { s'.metrics with totalDur := some d } s'.pop s'.best] := by
  unfold run at h
  simp only [M.bind_ok_iff, M.pure_ok_iff] at h
  obtain ⟨s, wa, h1, s', wb, h2, d, wc, h3, hr⟩ := h
  simp only [Prod.mk.injEq] at hr
  obtain ⟨⟨rfl, rfl⟩, rfl⟩ := hr
  exact ⟨s, wa, s', wb, d, h1, h2, h3, rfl, rfl⟩

theorem forEach_length {α β : Type} {f : α → M W β} {xs : List α} {ys : List β} {w w' : W}
    (h : M.forEach f xs w = .ok (ys, w')) : ys.length = xs.length :=
  (IfReturns.forEach (R := fun _ _ => True) xs (fun _ _ => IfReturns.trivial) _ _ _ h).length_eq.symm

omit [LinearOrder K] in
theorem evalPop_length {xs ys : List I} {w w' : W} (h : evalPop T ops xs w = .ok (ys, w')) :
    ys.length = xs.length := forEach_length h

end loop
end Ecrs.Ga
