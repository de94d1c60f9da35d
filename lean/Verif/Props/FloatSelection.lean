import Verif.Ga.Rounded
import Verif.CounterRng

/-!
# C125: the sampling selections under floating point rounding
-/

set_option linter.unusedSectionVars false
set_option linter.unusedVariables false

namespace Ecrs.Props
open Ecrs Ecrs.Ga

/-! ### Specification -/

section
variable {G K I : Type} [Field K] [LinearOrder K] [IsStrictOrderedRing K]

/-- The computed sum of the fitness values of the individuals: added from the left, every result rounded. -/
def computedSum (A : Rounding K) (fit : I → K) (pop : List I) : K := pop.foldl (fun s x => A.rnd (s + fit x)) 0

/-- `x` is where the computed running fitness sum first reaches the threshold `t`. -/
def FirstReachingR (A : Rounding K) (fit : I → K) (pop : List I) (t : K) (x : I) : Prop :=
  ∃ pre post, pop = pre ++ x :: post ∧ t ≤ computedSum A fit (pre ++ [x]) ∧
    ∀ p y q, pre = p ++ y :: q → computedSum A fit (p ++ [y]) < t

/-- The computed position of the pointer number `k`: the first is `p0`, each of the others is the rounded sum of its predecessor
and the distance `d`. -/
def computedPointer (A : Rounding K) (d p0 : K) : Nat → K
  | 0 => p0
  | k + 1 => A.rnd (computedPointer A d p0 k + d)

/-- The computed distance of the pointers. -/
def computedDistance (A : Rounding K) (fit : I → K) (pop : List I) (count : Nat) : K :=
  A.rnd (computedSum A fit pop / A.rnd (count : K))

theorem computedSum_eq (A : Rounding K) (fit : I → K) (pop : List I) : computedSum A fit pop = rsum A (pop.map fit) := by
  unfold computedSum rsum; rw [List.foldl_map]

theorem computedPointer_eq (A : Rounding K) (d p0 : K) (k : Nat) : computedPointer A d p0 k = pointer A d p0 k := by
  induction k with
  | zero => rfl
  | succ k ih => rw [pointer_succ, ← ih]; rfl

/-! ### Roulette wheel -/

/-- **C125, roulette.** Whatever the rounding, RouletteWheel never panics, and what it returns are at most `count` members of the
population, each the one where the computed running sum first reaches the rounded product of the computed total and a draw in
`[0, 1)`. -/
theorem C125_roulette (A : Rounding K) (R : Rng G K) (fit : I → K) (count : Nat) (pop : List I) :
    Returns (selRouletteR A R fit count pop) fun sel => sel.length ≤ count ∧ ∀ x ∈ sel, x ∈ pop ∧
      ∃ u : K, 0 ≤ u ∧ u < 1 ∧ FirstReachingR A fit pop (A.rnd (computedSum A fit pop * u)) x := by
  unfold selRouletteR
  refine Returns.bind (Returns.replicate R.genUnit_returns count) fun us hus => Returns.pure ?_
  refine ⟨le_trans (List.length_filterMap_le _ _) (le_of_eq hus.1), ?_⟩
  intro x hx
  obtain ⟨u, hu, hux⟩ := List.mem_filterMap.1 hx
  obtain ⟨pre, post, h1, h2, h3⟩ := roulettePickR_some pop _ 0 x hux
  refine ⟨by rw [h1]; simp, u, (hus.2 u hu).1, (hus.2 u hu).2, pre, post, h1, ?_, ?_⟩
  · have e : computedSum A fit (pre ++ [x]) = A.rnd ((pre.map fit).foldl (fun s x => A.rnd (s + x)) 0 + fit x) := by
      rw [computedSum_eq, List.map_append, rsum, List.foldl_append]; rfl
    rw [e, computedSum_eq]; exact h2
  · intro p y q hp
    have e : computedSum A fit (p ++ [y]) = A.rnd ((p.map fit).foldl (fun s x => A.rnd (s + x)) 0 + fit y) := by
      rw [computedSum_eq, List.map_append, rsum, List.foldl_append]; rfl
    rw [e, computedSum_eq]; exact h3 p y q hp

/-- **C125, roulette, count.** Whatever the rounding, with non-negative fitness values and a non-empty population RouletteWheel returns
exactly `count` individuals: the rounded threshold never exceeds the computed total. -/
theorem C125_roulette_count (A : Rounding K) (R : Rng G K) (fit : I → K) (count : Nat) {pop : List I} (h0 : pop ≠ [])
    (hf : ∀ y ∈ pop, 0 ≤ fit y) : Returns (selRouletteR A R fit count pop) fun sel => sel.length = count := by
  unfold selRouletteR
  refine Returns.bind (Returns.replicate R.genUnit_returns count) fun us hus => Returns.pure ?_
  have ht : 0 ≤ rsum A (pop.map fit) := rsum_nonneg (by simpa using hf)
  have key : ∀ l : List K, (∀ u ∈ l, 0 ≤ u ∧ u < 1) →
      (l.filterMap fun u => roulettePickR A fit (A.rnd (rsum A (pop.map fit) * u)) 0 pop).length = l.length := by
    intro l
    induction l with
    | nil => simp
    | cons u l ih =>
      intro hl
      have hu := hl u (by simp)
      have hle : A.rnd (rsum A (pop.map fit) * u) ≤ rsum A (pop.map fit) := by
        calc _ ≤ A.rnd (rsum A (pop.map fit)) := A.mono (by nlinarith [hu.1, hu.2])
          _ = _ := rsum_rounded _
      obtain ⟨x, hx⟩ := roulettePickR_isSome pop _ 0 h0 hle
      rw [List.filterMap_cons_some (f := fun u => roulettePickR A fit (A.rnd (rsum A (pop.map fit) * u)) 0 pop) hx, List.length_cons, List.length_cons, ih fun v hv => hl v (by simp [hv])]
  rw [key us hus.2, hus.1]

/-- **C125, roulette, absorbed individuals.** An individual whose fitness is lost in the rounding of the running sum is never where a
positive threshold is first reached, however large that fitness is in itself. -/
theorem C125_absorbed_never_selected (A : Rounding K) (fit : I → K) {pop : List I} {t : K} {x : I} (ht : 0 < t)
    (hx : ∀ pre post, pop = pre ++ x :: post → computedSum A fit (pre ++ [x]) = computedSum A fit pre) :
    ¬ FirstReachingR A fit pop t x := by
  rintro ⟨pre, post, h1, h2, h3⟩
  rw [hx pre post h1] at h2
  rcases List.eq_nil_or_concat pre with rfl | ⟨p, y, rfl⟩
  · exact absurd h2 (not_le.2 ht)
  · have := h3 p y [] (by simp)
    rw [List.concat_eq_append] at h2
    exact absurd h2 (not_le.2 this)

/-! ### Stochastic universal sampling -/

/-- **C125, SUS, when it returns.** Whatever the rounding, with non-negative fitness values, a positive computed distance and a drawn
start pointer that is a floating point number: StochasticUniversalSampling returns (for all sufficiently large fuel) iff the
computed pointer number `count` is the first beyond the computed total.  Then it returns `count` individuals, in population order. -/
theorem C125_sus_returns_iff (A : Rounding K) (R : FRng G K) (fit : I → K) {count : Nat} {pop : List I} (h0 : pop ≠ [])
    (hcount : 0 < count) (hf : ∀ y ∈ pop, 0 ≤ fit y) (hd : 0 < computedDistance A fit pop count) (g : G) (p0 : K)
    (hp : (R.between g 0 (computedDistance A fit pop count)).1 = p0) (hrep : A.rnd p0 = p0) {fuel : Nat} (hfuel : count < fuel) :
    (∃ sel g', selSusR A R fit fuel count pop g = .ok (sel, g')) ↔
      computedPointer A (computedDistance A fit pop count) p0 (count - 1) ≤ computedSum A fit pop ∧
        computedSum A fit pop < computedPointer A (computedDistance A fit pop count) p0 count := by
  have ed : computedDistance A fit pop count = A.rnd (rsum A (pop.map fit) / A.rnd (count : K)) := by
    unfold computedDistance; rw [computedSum_eq]
  rw [computedPointer_eq, computedPointer_eq, computedSum_eq]
  generalize hD : computedDistance A fit pop count = d at *
  have hopen : selSusR A R fit fuel count pop g = (do
      let sel ← susGoR A fit d fuel 0 p0 pop
      M.assert (sel.length == count)
      pure sel : M G (List I)) (R.between g 0 d).2 := by
    unfold selSusR
    simp only [← ed]
    rw [M.bind_of_ok (a := ()) (w' := g) (by simp [hd, M.assert])]
    rw [M.bind_of_ok (a := (R.between g 0 d).1) (w' := (R.between g 0 d).2) (by
        unfold FRng.genBetween; rw [if_pos hd.le]; rfl)]
    rw [hp]
  rw [hopen]
  have spec := susGoR_spec (G := G) (A := A) (fit := fit) d fuel pop 0 p0 0 A.zero hf (fun j hj => absurd hj (Nat.not_lt_zero j))
    (fun h => absurd h h0)
  constructor
  · rintro ⟨sel, g', h⟩
    obtain ⟨sel', g1, h1, h2⟩ := M.bind_ok_iff.1 h
    obtain ⟨_, g2, h3, h4⟩ := M.bind_ok_iff.1 h2
    obtain ⟨-, s1, s2⟩ := spec _ _ _ h1
    have hlen : sel'.length = count := by
      by_contra hne
      simp [M.assert, hne, M.fail] at h3
    rw [Nat.zero_add, hlen] at s1 s2
    exact ⟨s1 (count - 1) (by omega), s2⟩
  · rintro ⟨k1, k2⟩
    obtain ⟨sel, g', h1, -⟩ := susGoR_returns (G := G) (A := A) (fit := fit) d fuel count hd.le hfuel pop 0 p0 0 hrep A.zero hf k2
      (R.between g 0 d).2
    obtain ⟨-, s1, s2⟩ := spec _ _ _ h1
    rw [Nat.zero_add] at s1 s2
    have hlen : sel.length = count := by
      by_contra hne
      rcases Nat.lt_or_gt_of_ne hne with hlt | hgt
      · exact absurd (lt_of_lt_of_le s2 (pointer_mono hd.le hrep (by omega : sel.length ≤ count - 1))) (not_lt.2 k1)
      · exact absurd (s1 count hgt) (not_le.2 k2)
    refine ⟨sel, g', ?_⟩
    refine M.bind_ok_iff.2 ⟨sel, g', h1, ?_⟩
    rw [hlen]
    simp [M.assert]

/-- **C125, SUS, otherwise.** Under the same hypotheses, if some computed pointer is beyond the computed total (as long as adding the
distance is not lost in the rounding), failing to return means that the operator's own assertion on the number of individuals fails. -/
theorem C125_sus_panics (A : Rounding K) (R : FRng G K) (fit : I → K) {count : Nat} {pop : List I} (h0 : pop ≠ [])
    (hcount : 0 < count) (hf : ∀ y ∈ pop, 0 ≤ fit y) (hd : 0 < computedDistance A fit pop count) (g : G) (p0 : K)
    (hp : (R.between g 0 (computedDistance A fit pop count)).1 = p0) (hrep : A.rnd p0 = p0) {fuel c : Nat} (hfuel : count < fuel)
    (hc : c < fuel) (hpass : computedSum A fit pop < computedPointer A (computedDistance A fit pop count) p0 c)
    (hne : ¬ (computedPointer A (computedDistance A fit pop count) p0 (count - 1) ≤ computedSum A fit pop ∧
      computedSum A fit pop < computedPointer A (computedDistance A fit pop count) p0 count)) :
    selSusR A R fit fuel count pop g = .error .assertion := by
  have hno := mt (C125_sus_returns_iff A R fit h0 hcount hf hd g p0 hp hrep hfuel).1 hne
  have ed : computedDistance A fit pop count = A.rnd (rsum A (pop.map fit) / A.rnd (count : K)) := by
    unfold computedDistance; rw [computedSum_eq]
  rw [computedPointer_eq, computedSum_eq] at hpass
  generalize hD : computedDistance A fit pop count = d at *
  have hopen : selSusR A R fit fuel count pop g = (do
      let sel ← susGoR A fit d fuel 0 p0 pop
      M.assert (sel.length == count)
      pure sel : M G (List I)) (R.between g 0 d).2 := by
    unfold selSusR
    simp only [← ed]
    rw [M.bind_of_ok (a := ()) (w' := g) (by simp [hd, M.assert])]
    rw [M.bind_of_ok (a := (R.between g 0 d).1) (w' := (R.between g 0 d).2) (by
        unfold FRng.genBetween; rw [if_pos hd.le]; rfl)]
    rw [hp]
  obtain ⟨sel, g', h1, -⟩ := susGoR_returns (G := G) (A := A) (fit := fit) d fuel c hd.le hc pop 0 p0 0 hrep A.zero hf hpass
    (R.between g 0 d).2
  rw [hopen] at hno ⊢
  have h1' : susGoR A fit d fuel 0 p0 pop (R.between g 0 d).2 = .ok (sel, g') := h1
  rw [M.bind_of_ok h1'] at hno ⊢
  by_cases hlen : sel.length = count
  · exact absurd ⟨sel, g', by rw [hlen]; simp [M.assert]⟩ hno
  · have : (sel.length == count) = false := by simpa using hlen
    rw [this]
    exact M.bind_of_error rfl

/-- **C125, SUS, result.** Whatever the rounding, what StochasticUniversalSampling returns with non-negative fitness values are `count`
individuals in population order. -/
theorem C125_sus_result (A : Rounding K) (R : FRng G K) (fit : I → K) {count fuel : Nat} {pop : List I} (h0 : pop ≠ [])
    (hf : ∀ y ∈ pop, 0 ≤ fit y) :
    IfReturns (selSusR A R fit fuel count pop) fun sel => sel.length = count ∧
      ∃ copies : List Nat, copies.length = pop.length ∧ sel = (List.zipWith List.replicate copies pop).flatten := by
  unfold selSusR
  simp only
  refine IfReturns.bind IfReturns.assert fun _ _ => ?_
  refine IfReturns.bind R.genBetween_ifReturns fun p0 _ => ?_
  refine IfReturns.bind (susGoR_spec (G := G) (A := A) (fit := fit) _ fuel pop 0 p0 0 A.zero hf
    (fun j hj => absurd hj (Nat.not_lt_zero j)) (fun h => absurd h h0)) fun sel hsel => ?_
  refine IfReturns.bind IfReturns.assert fun _ hl => IfReturns.pure ?_
  exact ⟨by simpa using hl, hsel.1⟩

end

/-! ### The failures occur in `f64` -/

private theorem fd : binary64.rnd (7 / 6) = 5254199565265579 / 4503599627370496 := by
  rw [binary64_eq 0 5254199565265579 (by norm_num) (by norm_num) (by rw [abs_lt]; norm_num)]; norm_num

private theorem fp1 : binary64.rnd (5254199565265579 / 4503599627370496 + 5254199565265579 / 4503599627370496) = 5254199565265579 / 2251799813685248 := by
  rw [binary64_eq 1 5254199565265579 (by norm_num) (by norm_num) (by rw [abs_lt]; norm_num)]; norm_num

private theorem fp2 : binary64.rnd (5254199565265579 / 2251799813685248 + 5254199565265579 / 4503599627370496) = 7 / 2 := by
  rw [binary64_tie 1 7881299347898368 (by norm_num) (by norm_num) (by norm_num) (Or.inl (by norm_num))]; norm_num

private theorem fp3 : binary64.rnd (7 / 2 + 5254199565265579 / 4503599627370496) = 5254199565265579 / 1125899906842624 := by
  rw [binary64_eq 2 5254199565265579 (by norm_num) (by norm_num) (by rw [abs_lt]; norm_num)]; norm_num

private theorem fp4 : binary64.rnd (5254199565265579 / 1125899906842624 + 5254199565265579 / 4503599627370496) = 3283874728290987 / 562949953421312 := by
  rw [binary64_eq 2 6567749456581974 (by norm_num) (by norm_num) (by rw [abs_lt]; norm_num)]; norm_num

private theorem fp5 : binary64.rnd (3283874728290987 / 562949953421312 + 5254199565265579 / 4503599627370496) = 7881299347898369 / 1125899906842624 := by
  rw [binary64_eq 2 7881299347898369 (by norm_num) (by norm_num) (by rw [abs_lt]; norm_num)]; norm_num

private theorem fint (e n : ℤ) (x : ℚ) (h1 : (2 : ℚ) ^ e ≤ x) (h2 : x < (2 : ℚ) ^ (e + 1)) (h : x = n * (2 : ℚ) ^ (e - 52)) :
    binary64.rnd x = x := by
  rw [binary64_eq e n h1 h2]
  · exact h.symm
  · rw [h, mul_div_cancel_right₀ _ (zpow_pos (by norm_num) _).ne', sub_self, abs_zero]; norm_num

section
variable {G I : Type}

/-- **C125, one pointer too many.** In `f64` arithmetic, an individual of fitness 1, `count = 2` and the start pointer `2⁻⁵³` (positive and
within the range drawn from): the third computed pointer is `2⁻⁵³ + 0.5 + 0.5`, rounded to 1, so three individuals are collected and the
assertion fails, in every release and debug build. -/
theorem C125_sus_collects_too_many (R : FRng G ℚ) (fit : I → ℚ) (x : I) (hx : fit x = 1) (g : G)
    (hdraw : (R.between g 0 (1 / 2)).1 = 1 / 9007199254740992) {fuel : Nat} (hfuel : 3 < fuel) :
    selSusR binary64 R fit fuel 2 [x] g = .error .assertion := by
  have r1 : binary64.rnd 1 = 1 := binary64.one
  have r2 : binary64.rnd 2 = 2 := fint 1 4503599627370496 2 (by norm_num) (by norm_num) (by norm_num)
  have rh : binary64.rnd (1 / 2) = 1 / 2 := fint (-1) 4503599627370496 _ (by norm_num) (by norm_num) (by norm_num)
  have hs : computedSum binary64 fit [x] = 1 := by
    show binary64.rnd (0 + fit x) = 1
    rw [hx, zero_add, r1]
  have hD : computedDistance binary64 fit [x] 2 = 1 / 2 := by
    unfold computedDistance; rw [hs]; push_cast; rw [r2, rh]
  have p1 : binary64.rnd (1 / 9007199254740992 + 1 / 2) = 4503599627370497 / 9007199254740992 := by
    rw [binary64_eq (-1) 4503599627370497 (by norm_num) (by norm_num) (by rw [abs_lt]; norm_num)]; norm_num
  have p2 : binary64.rnd (4503599627370497 / 9007199254740992 + 1 / 2) = 1 := by
    rw [binary64_tie 0 4503599627370496 (by norm_num) (by norm_num) (by norm_num) (Or.inl (by norm_num))]; norm_num
  have p3 : binary64.rnd (1 + 1 / 2) = 3 / 2 := by
    rw [binary64_eq 0 6755399441055744 (by norm_num) (by norm_num) (by rw [abs_lt]; norm_num)]; norm_num
  have q2 : computedPointer binary64 (1 / 2) (1 / 9007199254740992) 2 = 1 := by
    show binary64.rnd (binary64.rnd (1 / 9007199254740992 + 1 / 2) + 1 / 2) = _
    rw [p1, p2]
  refine C125_sus_panics (c := 3) binary64 R fit (by simp) (by norm_num) (by simp [hx]) (by rw [hD]; norm_num) g
    (1 / 9007199254740992) (by rw [hD]; exact hdraw)
    (fint (-53) 4503599627370496 _ (by norm_num) (by norm_num) (by norm_num)) (by omega) hfuel ?_ ?_
  · rw [hs, hD]
    show 1 < binary64.rnd (computedPointer binary64 (1 / 2) (1 / 9007199254740992) 2 + 1 / 2)
    rw [q2, p3]; norm_num
  · rintro ⟨-, h⟩
    rw [hs, hD, q2] at h
    exact lt_irrefl _ h

/-- **C125, one pointer too few.** In `f64` arithmetic, an individual of fitness 7, `count = 6` and the start pointer at the upper end of its
range, the computed distance 7/6 (rounded): the sixth computed pointer is beyond 7, so five individuals are collected and the
assertion fails. -/
theorem C125_sus_collects_too_few (R : FRng G ℚ) (fit : I → ℚ) (x : I) (hx : fit x = 7) (g : G)
    (hdraw : (R.between g 0 (binary64.rnd (7 / 6))).1 = binary64.rnd (7 / 6)) {fuel : Nat} (hfuel : 6 < fuel) :
    selSusR binary64 R fit fuel 6 [x] g = .error .assertion := by
  have r7 : binary64.rnd 7 = 7 := fint 2 7881299347898368 7 (by norm_num) (by norm_num) (by norm_num)
  have r6 : binary64.rnd 6 = 6 := fint 2 6755399441055744 6 (by norm_num) (by norm_num) (by norm_num)
  have hs : computedSum binary64 fit [x] = 7 := by
    show binary64.rnd (0 + fit x) = 7
    rw [hx, zero_add, r7]
  have hD : computedDistance binary64 fit [x] 6 = binary64.rnd (7 / 6) := by
    unfold computedDistance; rw [hs]; push_cast; rw [r6]
  have q5 : computedPointer binary64 (binary64.rnd (7 / 6)) (binary64.rnd (7 / 6)) 5 = 7881299347898369 / 1125899906842624 := by
    show binary64.rnd (binary64.rnd (binary64.rnd (binary64.rnd (binary64.rnd (binary64.rnd (7 / 6) + binary64.rnd (7 / 6)) + binary64.rnd (7 / 6)) + binary64.rnd (7 / 6)) + binary64.rnd (7 / 6)) + binary64.rnd (7 / 6)) = _
    rw [fd, fp1, fp2, fp3, fp4, fp5]
  refine C125_sus_panics (c := 5) binary64 R fit (by simp) (by norm_num) (by simp [hx]) (by rw [hD, fd]; norm_num) g
    (binary64.rnd (7 / 6)) (by rw [hD]; exact hdraw) (binary64.idem _) hfuel (by omega) ?_ ?_
  · rw [hs, hD, q5]; norm_num
  · rintro ⟨h, -⟩
    rw [hs, hD, q5] at h
    norm_num at h

/-- **C125, absorbed in `f64`.** Of two individuals with fitness 2⁵³ and 1 (both positive), RouletteWheel never selects the second one. -/
theorem C125_roulette_ignores_small (R : Rng G ℚ) (count : Nat) :
    Returns (selRouletteR binary64 R id count [9007199254740992, 1]) fun sel => sel = List.replicate count 9007199254740992 := by
  have rb : binary64.rnd 9007199254740992 = 9007199254740992 := fint 53 4503599627370496 _ (by norm_num) (by norm_num) (by norm_num)
  have rs : binary64.rnd (9007199254740992 + 1) = 9007199254740992 := by
    rw [binary64_tie 53 4503599627370496 (by norm_num) (by norm_num) (by norm_num) (Or.inl (by norm_num))]; norm_num
  have hsum : rsum binary64 ([9007199254740992, 1].map id) = 9007199254740992 := by
    show binary64.rnd (binary64.rnd (0 + 9007199254740992) + 1) = _
    rw [zero_add, rb, rs]
  unfold selRouletteR
  refine Returns.bind (Returns.replicate R.genUnit_returns count) fun us hus => Returns.pure ?_
  rw [← hus.1]
  have key : ∀ l : List ℚ, (∀ u ∈ l, 0 ≤ u ∧ u < 1) →
      (l.filterMap fun u => roulettePickR binary64 id (binary64.rnd (rsum binary64 ([9007199254740992, 1].map id) * u)) 0
        [9007199254740992, 1]) = List.replicate l.length 9007199254740992 := by
    intro l
    induction l with
    | nil => intro _; rfl
    | cons u l ih =>
      intro hl
      have hu := hl u (by simp)
      have hle : binary64.rnd (rsum binary64 ([9007199254740992, 1].map id) * u) ≤ binary64.rnd (0 + 9007199254740992) := by
        rw [hsum]; exact binary64.mono (by linarith [hu.2])
      have hx : roulettePickR binary64 id (binary64.rnd (rsum binary64 ([9007199254740992, 1].map id) * u)) 0
          [9007199254740992, 1] = some 9007199254740992 := by
        unfold roulettePickR; exact if_pos hle
      rw [List.filterMap_cons_some (f := fun u => roulettePickR binary64 id (binary64.rnd (rsum binary64
        ([9007199254740992, 1].map id) * u)) 0 [9007199254740992, 1]) hx, ih fun v hv => hl v (by simp [hv])]
      rfl
  exact key us hus.2

end

/-- The hypotheses of C125 are met: every rounding is monotone, idempotent and fixes 0 and 1, and `binary64` is one that does round. -/
example : binary64.rnd (7 / 6) ≠ 7 / 6 := by rw [fd]; norm_num

/-- A generator that draws the upper end of every closed range. -/
def upperRng : FRng Nat ℚ where
  toRng := counterRng
  between g _ hi := (hi, g)
  between_spec _ _ _ h := ⟨h, le_rfl⟩
  halfOpen g lo _ := (lo, g)
  halfOpen_spec _ _ _ h := ⟨le_rfl, h⟩
  weighted g _ _ := (none, g)
  weighted_spec _ _ _ _ h := by cases h

/-- `C125_sus_collects_too_few` applies to it, for every seed. -/
example (g : Nat) : selSusR binary64 upperRng id 7 6 [7] g = .error .assertion :=
  C125_sus_collects_too_few upperRng id 7 rfl g rfl (by norm_num)

/-- `C125_sus_returns_iff` applies, with a positive answer: fitness 1, one individual requested, start pointer 1. -/
example (g : Nat) : ∃ sel g', selSusR binary64 upperRng id 3 1 [1] g = .ok (sel, g') := by
  have r1 : binary64.rnd 1 = 1 := binary64.one
  have hs : computedSum binary64 id [(1 : ℚ)] = 1 := by
    show binary64.rnd (0 + 1) = 1
    rw [zero_add, r1]
  have hD : computedDistance binary64 id [(1 : ℚ)] 1 = 1 := by
    unfold computedDistance; rw [hs]; norm_num [r1]
  refine (C125_sus_returns_iff binary64 upperRng id (by simp) (by norm_num) (by simp) (by rw [hD]; norm_num) g 1
    (by rw [hD]; rfl) r1 (by norm_num)).2 ?_
  rw [hs, hD]
  refine ⟨le_rfl, ?_⟩
  show 1 < binary64.rnd (1 + 1)
  rw [fint 1 4503599627370496 (1 + 1) (by norm_num) (by norm_num) (by norm_num)]; norm_num

/-- `C125_roulette_count` applies to a population of three. -/
example : Returns (selRouletteR binary64 counterRng id 5 [1, 0, 1 / 3]) fun sel => sel.length = 5 :=
  C125_roulette_count binary64 counterRng id 5 (by simp) (by simp)

/-! ## Every theorem on a concrete case -/

section instances
/-- A generator whose `between` returns 2⁻⁵³ when it may. -/
def tinyRng : FRng Nat ℚ where
  toRng := counterRng
  between g lo hi := (if lo ≤ 1 / 9007199254740992 ∧ 1 / 9007199254740992 ≤ hi then 1 / 9007199254740992 else hi, g)
  between_spec _ _ _ h := by
    dsimp only
    split
    · assumption
    · exact ⟨h, le_rfl⟩
  halfOpen g lo _ := (lo, g)
  halfOpen_spec _ _ _ h := ⟨le_rfl, h⟩
  weighted g _ _ := (none, g)
  weighted_spec _ _ _ _ h := by cases h

example := C125_sus_result binary64 upperRng id (count := 2) (fuel := 5) (pop := [1, 0, 1 / 3]) (by simp) (by simp)
example := C125_sus_collects_too_many tinyRng id 1 rfl 0 (by decide +kernel) (fuel := 4) (by norm_num)
/-- A zero fitness adds nothing to the running sum, and is never selected. -/
example : ¬ FirstReachingR binary64 id [0, 1] 1 (0 : ℚ) := C125_absorbed_never_selected binary64 id one_pos (by
  intro pre post h
  match pre, h with
  | [], _ => show binary64.rnd (0 + 0) = 0; rw [zero_add]; exact binary64.zero
  | [_], h => simp at h
  | _ :: _ :: _, h => simp at h)
end instances

end Ecrs.Props
