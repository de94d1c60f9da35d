import Verif.Aco.Rounded
import Verif.Props.AcoRun

/-!
# C126: the ant colony module under `f64` rounding
-/

set_option linter.unusedSectionVars false

namespace Ecrs.Aco
open Ecrs

section rounded
variable {F : Type} [Field F] [LinearOrder F] [IsStrictOrderedRing F]
variable (A : Rounding F) (sqrt : Ext F → Ext F) (pow : Ext F → Ext F → Ext F) (maxv : F) (floor : F → Nat)

/-! ## Specification -/

/-- Specification: an `n × n` matrix whose entries off the diagonal are finite non-negative floating point numbers. -/
def FloatMat (n : Nat) (m : Mat (Ext F)) : Prop :=
  m.rows = n ∧ m.cols = n ∧ ∀ i j, i < n → j < n → i ≠ j → ∃ x, m.get i j = .fin x ∧ 0 ≤ x ∧ A.rnd x = x

/-- Specification: `gen_range(0.0..=s)` returns a floating point number of the interval. -/
def DrawOk (d : StepDraw (Ext F)) : Prop := ∀ s, 0 ≤ s → ∃ r, d.range (.fin s) = .fin r ∧ 0 ≤ r ∧ r ≤ s ∧ A.rnd r = r

/-- Specification: the computed sum of the goodness values `x` of the unvisited vertices, in the order of the hash set. -/
def goodnessSum (xs : List F) : F := xs.foldl (fun s x => A.rnd (s + x)) 0

/-! ## Operations on finite numbers -/

theorem ro_lt {a b : F} : (roundedOps A sqrt pow maxv floor).lt (.fin a) (.fin b) = true ↔ a < b := ex_lt sqrt pow maxv floor

theorem ro_notLe {a b : F} : (roundedOps A sqrt pow maxv floor).notLe (.fin a) (.fin b) = true ↔ b < a :=
  ex_notLe sqrt pow maxv floor

theorem ro_add {a b : F} : (roundedOps A sqrt pow maxv floor).add (.fin a) (.fin b) = .fin (A.rnd (a + b)) := rfl

theorem ro_mul {a b : F} : (roundedOps A sqrt pow maxv floor).mul (.fin a) (.fin b) = .fin (A.rnd (a * b)) := rfl

theorem ro_sub {a b : F} : (roundedOps A sqrt pow maxv floor).sub (.fin a) (.fin b) = .fin (A.rnd (a - b)) := by
  show Ext.fin (A.rnd (a + -b)) = _
  rw [sub_eq_add_neg]

variable {A}

theorem rnd_nonneg {x : F} (h : 0 ≤ x) : 0 ≤ A.rnd x := by have := A.mono h; rwa [A.zero] at this

theorem floatMat_at {n : Nat} {m : Mat (Ext F)} (h : FloatMat A n m) {i j : Nat} (hi : i < n) (hj : j < n) (hij : i ≠ j) :
    ∃ x, m.get i j = .fin x ∧ m.at' i j = .ok (.fin x) ∧ 0 ≤ x ∧ A.rnd x = x := by
  obtain ⟨x, hx, hp⟩ := h.2.2 i j hi hj hij
  exact ⟨x, hx, by unfold Mat.at'; rw [if_pos ⟨by rw [h.1]; exact hi, by rw [h.2.1]; exact hj⟩, hx], hp⟩

/-- The goodness values met by the loops. -/
theorem row_values {n : Nat} {g : Mat (Ext F)} (hg : FloatMat A n g) {last : Nat} (hl : last < n) :
    ∀ (vs : List Nat), (∀ v ∈ vs, v < n ∧ last ≠ v) → ∃ xs : List F, vs.map (g.get last) = xs.map .fin ∧
      (∀ x ∈ xs, 0 ≤ x ∧ A.rnd x = x) ∧
      ∀ acc, rowSum (roundedOps A sqrt pow maxv floor) g last vs (.fin acc) = .ok (.fin (xs.foldl (fun s x => A.rnd (s + x)) acc)) := by
  intro vs
  induction vs with
  | nil => intro _; exact ⟨[], rfl, by simp, fun _ => rfl⟩
  | cons v vs ih =>
    intro hv
    obtain ⟨xs, h1, h2, h3⟩ := ih fun u hu => hv u (by simp [hu])
    obtain ⟨x, hx, hx1, hx2⟩ := floatMat_at hg hl (hv v (by simp)).1 (hv v (by simp)).2
    refine ⟨x :: xs, by simp [h1, hx], ?_, fun acc => ?_⟩
    · intro y hy
      rcases List.mem_cons.1 hy with rfl | hy
      · exact hx2
      · exact h2 y hy
    · rw [rowSum, Exc.bind_of_ok hx1, ro_add, h3]; rfl

/-- What is left of the draw after subtracting the values one by one. -/
def remaining (A : Rounding F) : F → List F → F
  | r, [] => r
  | r, x :: xs => remaining A (A.rnd (r - x)) xs

/-- The roulette loop stops at a vertex, or every remainder is positive. -/
theorem roulette_float {n : Nat} {g : Mat (Ext F)} (hg : FloatMat A n g) {last : Nat} (hl : last < n) :
    ∀ (vs : List Nat) (xs : List F) (r : F), (∀ v ∈ vs, v < n ∧ last ≠ v) → vs.map (g.get last) = xs.map .fin →
      (∃ v, roulette (roundedOps A sqrt pow maxv floor) g last vs (.fin r) = .ok (some v)) ∨
      (roulette (roundedOps A sqrt pow maxv floor) g last vs (.fin r) = .ok none ∧
        ∀ pre post, xs = pre ++ post → pre ≠ [] → 0 < remaining A r pre) := by
  intro vs
  induction vs with
  | nil =>
    intro xs r _ h
    cases xs with
    | nil =>
      refine .inr ⟨rfl, fun pre post h hp => ?_⟩
      rw [eq_comm, List.append_eq_nil_iff] at h
      exact absurd h.1 hp
    | cons x xs => simp at h
  | cons v vs ih =>
    intro xs r hv h
    cases xs with
    | nil => simp at h
    | cons x xs =>
      rw [List.map_cons, List.map_cons, List.cons.injEq] at h
      obtain ⟨y, hy, hy1, hy2⟩ := floatMat_at hg hl (hv v (by simp)).1 (hv v (by simp)).2
      have hyx : y = x := Ext.fin.inj (hy.symm.trans h.1)
      subst hyx
      rw [roulette, Exc.bind_of_ok hy1, ro_sub]
      by_cases hle : A.rnd (r - y) ≤ 0
      · left
        have : (roundedOps A sqrt pow maxv floor).notLe (.fin (A.rnd (r - y))) (roundedOps A sqrt pow maxv floor).zero = false := by
          cases hc : (roundedOps A sqrt pow maxv floor).notLe (.fin (A.rnd (r - y))) (roundedOps A sqrt pow maxv floor).zero with
          | false => rfl
          | true => exact absurd ((ro_notLe A sqrt pow maxv floor).1 hc) (not_lt.2 hle)
        rw [this]
        exact ⟨v, rfl⟩
      · have hgt : (roundedOps A sqrt pow maxv floor).notLe (.fin (A.rnd (r - y))) (roundedOps A sqrt pow maxv floor).zero = true :=
          (ro_notLe A sqrt pow maxv floor).2 (not_le.1 hle)
        rw [hgt]
        rcases ih xs (A.rnd (r - y)) (fun u hu => hv u (by simp [hu])) h.2 with ⟨u, hu⟩ | ⟨hn, hrest⟩
        · exact .inl ⟨u, by simpa using hu⟩
        · refine .inr ⟨by simpa using hn, fun pre post hp hne => ?_⟩
          cases pre with
          | nil => exact absurd rfl hne
          | cons z pre =>
            rw [List.cons_append, List.cons.injEq] at hp
            obtain ⟨rfl, hp⟩ := hp
            show 0 < remaining A (A.rnd (r - y)) pre
            cases pre with
            | nil => exact not_le.1 hle
            | cons w pre => exact hrest (w :: pre) post hp (by simp)

/-- If every remainder is positive, the draw exceeds every single value. -/
theorem remaining_large : ∀ (xs : List F) (r : F), A.rnd r = r → (∀ x ∈ xs, 0 ≤ x) →
    (∀ pre post, xs = pre ++ post → pre ≠ [] → 0 < remaining A r pre) → ∀ x ∈ xs, x < r := by
  intro xs
  induction xs with
  | nil => simp
  | cons y xs ih =>
    intro r hr hn h x hx
    have h1 : 0 < A.rnd (r - y) := h [y] xs rfl (by simp)
    have hle : A.rnd (r - y) ≤ r := by
      have := A.mono (show r - y ≤ r by linarith [hn y (by simp)])
      rwa [hr] at this
    rcases List.mem_cons.1 hx with rfl | hx
    · by_contra hc
      have := A.mono (show r - x ≤ 0 by linarith)
      rw [A.zero] at this
      linarith
    · have := ih (A.rnd (r - y)) (A.idem _) (fun z hz => hn z (by simp [hz])) (fun pre post hp hne =>
        h (y :: pre) post (by rw [hp]; rfl) (by simp)) x hx
      linarith

theorem goodnessSum_nonneg {xs : List F} (h : ∀ x ∈ xs, 0 ≤ x) : ∀ acc, 0 ≤ acc → 0 ≤ xs.foldl (fun s x => A.rnd (s + x)) acc := by
  induction xs with
  | nil => intro acc h; exact h
  | cons x xs ih =>
    intro acc ha
    rw [List.foldl_cons]
    exact ih (fun y hy => h y (by simp [hy])) _ (rnd_nonneg (add_nonneg ha (h x (by simp))))

theorem byRoulette_float {n : Nat} {g : Mat (Ext F)} (hg : FloatMat A n g) {last : Nat} (hl : last < n) {vs : List Nat}
    (hv : ∀ v ∈ vs, v < n ∧ last ≠ v) {d : StepDraw (Ext F)} (hd : DrawOk A d) :
    ∃ (xs : List F) (r : F), vs.map (g.get last) = xs.map .fin ∧ (∀ x ∈ xs, 0 ≤ x ∧ A.rnd x = x) ∧
      d.range (.fin (goodnessSum A xs)) = .fin r ∧ 0 ≤ r ∧ r ≤ goodnessSum A xs ∧ A.rnd r = r ∧
      ((∃ v, byRoulette (roundedOps A sqrt pow maxv floor) g last vs d = .ok (some v)) ∨
      (byRoulette (roundedOps A sqrt pow maxv floor) g last vs d = .ok none ∧
        ∀ pre post, xs = pre ++ post → pre ≠ [] → 0 < remaining A r pre)) := by
  obtain ⟨xs, h1, h2, h3⟩ := row_values sqrt pow maxv floor hg hl vs hv
  have hs : 0 ≤ goodnessSum A xs := goodnessSum_nonneg (fun x hx => (h2 x hx).1) 0 (le_refl _)
  obtain ⟨r, hr, hr0, hrs, hrr⟩ := hd _ hs
  refine ⟨xs, r, h1, h2, hr, hr0, hrs, hrr, ?_⟩
  unfold byRoulette
  have e1 : rowSum (roundedOps A sqrt pow maxv floor) g last vs (roundedOps A sqrt pow maxv floor).zero
      = .ok (.fin (goodnessSum A xs)) := h3 0
  rw [Exc.bind_of_ok e1]
  have e2 : genRange (roundedOps A sqrt pow maxv floor) d (.fin (goodnessSum A xs)) = .ok (.fin r) := by
    unfold genRange
    have a1 : (roundedOps A sqrt pow maxv floor).notLe (roundedOps A sqrt pow maxv floor).zero (.fin (goodnessSum A xs)) = false := by
      cases hc : (roundedOps A sqrt pow maxv floor).notLe (roundedOps A sqrt pow maxv floor).zero (.fin (goodnessSum A xs)) with
      | false => rfl
      | true => exact absurd ((ro_notLe A sqrt pow maxv floor).1 hc) (not_lt.2 hs)
    have a2 : (roundedOps A sqrt pow maxv floor).lt (.fin (goodnessSum A xs)) (roundedOps A sqrt pow maxv floor).infinity = true :=
      ex_lt_pinf sqrt pow maxv floor
    rw [a1, a2]
    show Except.ok (d.range (.fin _)) = _
    rw [hr]
  rw [Exc.bind_of_ok e2]
  exact roulette_float sqrt pow maxv floor hg hl vs xs r hv h1

theorem bestVertex_float {n : Nat} {g : Mat (Ext F)} (hg : FloatMat A n g) {last : Nat} (hl : last < n) :
    ∀ (vs : List Nat) (next : Option Nat) (value : F), (∀ v ∈ vs, v < n ∧ last ≠ v) →
      (next.isSome ∨ (vs ≠ [] ∧ value < 0)) →
      ∃ v, bestVertex (roundedOps A sqrt pow maxv floor) g last vs next (.fin value) = .ok (some v) := by
  intro vs
  induction vs with
  | nil =>
    intro next value _ h
    rcases h with h | ⟨h, -⟩
    · obtain ⟨v, rfl⟩ := Option.isSome_iff_exists.1 h; exact ⟨v, rfl⟩
    · exact absurd rfl h
  | cons v vs ih =>
    intro next value hv h
    obtain ⟨hvn, hvl⟩ := hv v (by simp)
    obtain ⟨x, -, hx, hp, -⟩ := floatMat_at hg hl hvn hvl
    rw [bestVertex, Exc.bind_of_ok hx]
    by_cases hlt : value < x
    · rw [if_pos ((ro_lt A sqrt pow maxv floor).2 hlt)]
      exact ih (some v) x (fun u hu => hv u (by simp [hu])) (.inl rfl)
    · rw [if_neg (fun h => hlt ((ro_lt A sqrt pow maxv floor).1 h))]
      refine ih next value (fun u hu => hv u (by simp [hu])) ?_
      rcases h with h | ⟨-, h⟩
      · exact .inl h
      · exact absurd (lt_of_lt_of_le h hp) hlt

/-! ## One step of an ant -/

/-- The analysis of a step: it returns, and if the ant gets stuck then it drew `r` and every remainder of `r` was positive. -/
theorem goNext_float (hmax : 0 < maxv) {n : Nat} {g : Mat (Ext F)} (hg : FloatMat A n g) {a : Ant (Ext F)}
    (ha : Building n a) (hs : a.stuck = false) (hu : a.unvisited ≠ []) {d : StepDraw (Ext F)} (hd : DrawOk A d) :
    ∃ (b : Ant (Ext F)) (e : Nat × Nat) (last : Nat) (xs : List F) (r : F),
      a.goNext (roundedOps A sqrt pow maxv floor) g d = .ok (b, e) ∧ a.path.getLast? = some last ∧
      (d.ord a.unvisited).map (g.get last) = xs.map .fin ∧ (∀ x ∈ xs, 0 ≤ x ∧ A.rnd x = x) ∧
      d.range (.fin (goodnessSum A xs)) = .fin r ∧ 0 ≤ r ∧ r ≤ goodnessSum A xs ∧ A.rnd r = r ∧
      (b.stuck = true → ∀ pre post, xs = pre ++ post → pre ≠ [] → 0 < remaining A r pre) := by
  obtain ⟨last, hl⟩ : ∃ last, a.path.getLast? = some last := by
    cases h : a.path.getLast? with
    | none => exact absurd (List.getLast?_eq_none_iff.1 h) ha.2.1
    | some l => exact ⟨l, rfl⟩
  have hlm : last ∈ a.path := List.mem_of_getLast? hl
  have hnd := (ha.2.2.1 hs).nodup_iff.2 List.nodup_range
  have hdisj : ∀ v ∈ d.ord a.unvisited, v < n ∧ last ≠ v := by
    intro v hv
    have hv := (d.perm _).mem_iff.1 hv
    exact ⟨ha.1.2.2 v hv, (List.nodup_append.1 hnd).2.2 last hlm v hv⟩
  have hne : d.ord a.unvisited ≠ [] := by
    intro h
    have := (d.perm a.unvisited).length_eq
    rw [h] at this
    exact hu (List.length_eq_zero_iff.1 this.symm)
  obtain ⟨xs, r, h1, h2, h3, h4, h5, h6, h7⟩ := byRoulette_float sqrt pow maxv floor hg (ha.2.2.2 last hlm) hdisj hd
  have hch : ∃ c, choose (roundedOps A sqrt pow maxv floor) g last (d.ord a.unvisited) a.exploit d = .ok c ∧
      (c = none → ∀ pre post, xs = pre ++ post → pre ≠ [] → 0 < remaining A r pre) := by
    have hr : ∃ c, byRoulette (roundedOps A sqrt pow maxv floor) g last (d.ord a.unvisited) d = .ok c ∧
        (c = none → ∀ pre post, xs = pre ++ post → pre ≠ [] → 0 < remaining A r pre) := by
      rcases h7 with ⟨v, hv⟩ | ⟨hv, hrest⟩
      · exact ⟨some v, hv, fun h => by cases h⟩
      · exact ⟨none, hv, fun _ => hrest⟩
    unfold choose
    cases a.exploit with
    | none => exact hr
    | some rate =>
      simp only
      split
      · obtain ⟨v, hv⟩ := bestVertex_float sqrt pow maxv floor hg (ha.2.2.2 last hlm) (d.ord a.unvisited) none (-maxv) hdisj
          (.inr ⟨hne, by linarith⟩)
        exact ⟨some v, hv, fun h => by cases h⟩
      · exact hr
  obtain ⟨c, hc, hcn⟩ := hch
  refine ⟨{ a with stuck := c.getD last == last, unvisited := a.unvisited.filter (· ≠ c.getD last), path := a.path ++ [c.getD last] },
    (last, c.getD last), last, xs, r, ?_, hl, h1, h2, h3, h4, h5, h6, ?_⟩
  · unfold Ant.goNext
    rw [hl]
    simp only
    rw [if_neg (by rw [hs]; simp), if_neg hu, Exc.bind_of_ok hc]
    rfl
  · intro hst
    refine hcn ?_
    cases c with
    | none => rfl
    | some v =>
      simp only [Option.getD_some, beq_iff_eq] at hst
      exact absurd hst.symm (hdisj v (choose_mem hc)).2

/-- **C126, a step.** Whatever the rounding, with finite non-negative goodness values off the diagonal a step of an ant that still has
unvisited vertices does not panic; if it leaves the ant stuck, the number drawn by the roulette (from 0 to the computed sum of
the goodness values of the unvisited vertices) exceeds every one of these values. -/
theorem C126_stuck_draw (hmax : 0 < maxv) {n : Nat} {g : Mat (Ext F)} (hg : FloatMat A n g) {a : Ant (Ext F)}
    (ha : Building n a) (hs : a.stuck = false) (hu : a.unvisited ≠ []) {d : StepDraw (Ext F)} (hd : DrawOk A d) :
    ∃ (b : Ant (Ext F)) (e : Nat × Nat) (last : Nat) (xs : List F) (r : F),
      a.goNext (roundedOps A sqrt pow maxv floor) g d = .ok (b, e) ∧ a.path.getLast? = some last ∧
      (d.ord a.unvisited).map (g.get last) = xs.map .fin ∧ d.range (.fin (goodnessSum A xs)) = .fin r ∧
      (b.stuck = true → ∀ x ∈ xs, x < r) := by
  obtain ⟨b, e, last, xs, r, h1, h2, h3, h4, h5, -, -, h8, h9⟩ := goNext_float sqrt pow maxv floor hmax hg ha hs hu hd
  exact ⟨b, e, last, xs, r, h1, h2, h3, h5, fun hst =>
    remaining_large xs r h8 (fun x hx => (h4 x hx).1) (h9 hst)⟩

/-- **C126, the last step.** Whatever the rounding, the step to the last unvisited vertex never leaves an ant stuck. -/
theorem C126_last_step (hmax : 0 < maxv) {n : Nat} {g : Mat (Ext F)} (hg : FloatMat A n g) {a : Ant (Ext F)}
    (ha : Building n a) (hs : a.stuck = false) (hu : a.unvisited.length = 1) {d : StepDraw (Ext F)} (hd : DrawOk A d) :
    ∃ b e, a.goNext (roundedOps A sqrt pow maxv floor) g d = .ok (b, e) ∧ b.stuck = false ∧ IsTour n b.path := by
  obtain ⟨b, e, last, xs, r, h1, h2, h3, h4, h5, -, h7, h8, h9⟩ := goNext_float sqrt pow maxv floor hmax hg ha hs
    (by intro h; rw [h] at hu; simp at hu) hd
  have hlen : xs.length = 1 := by
    have := congrArg List.length h3
    rw [List.length_map, List.length_map, (d.perm _).length_eq, hu] at this
    exact this.symm
  obtain ⟨x, rfl⟩ := List.length_eq_one_iff.1 hlen
  have hst : b.stuck = false := by
    by_contra hc
    have hc : b.stuck = true := by simpa using hc
    have hlt := remaining_large [x] r h8 (fun y hy => (h4 y hy).1) (h9 hc) x (by simp)
    have : goodnessSum A [x] = x := by
      show A.rnd (0 + x) = x
      rw [zero_add]; exact (h4 x (by simp)).2
    rw [this] at h7
    linarith
  obtain ⟨c1, -, c3⟩ := goNext_building ha h1
  refine ⟨b, e, h1, hst, building_full c1 hst ?_⟩
  have := (ha.2.2.1 hs).length_eq
  rw [List.length_append, List.length_range, hu] at this
  have := (c3 hst).2.1
  omega

/-! ## How near the end of its range a draw has to be -/

theorem sum_nonneg' : ∀ {xs : List F}, (∀ x ∈ xs, 0 ≤ x) → 0 ≤ xs.sum
  | [], _ => le_refl _
  | x :: xs, h => by
    rw [List.sum_cons]
    exact add_nonneg (h x (by simp)) (sum_nonneg' fun y hy => h y (by simp [hy]))

theorem goodnessSum_le {u : F} (hA : A.RelErr u) : ∀ (xs : List F) (acc : F), 0 ≤ acc → (∀ x ∈ xs, 0 ≤ x) →
    xs.foldl (fun s x => A.rnd (s + x)) acc ≤ (1 + u) ^ xs.length * (acc + xs.sum) := by
  intro xs
  induction xs with
  | nil => intro acc _ _; simp
  | cons x xs ih =>
    intro acc ha h
    have hx := h x (by simp)
    have h1 := ih (A.rnd (acc + x)) (rnd_nonneg (add_nonneg ha hx)) fun y hy => h y (by simp [hy])
    have h2 := (hA.2.2 (acc + x) (add_nonneg ha hx)).2
    have hsum : 0 ≤ xs.sum := sum_nonneg' fun y hy => h y (by simp [hy])
    have hu := hA.1
    rw [List.foldl_cons, List.length_cons, pow_succ, List.sum_cons]
    refine h1.trans ?_
    rw [mul_assoc]
    refine mul_le_mul_of_nonneg_left ?_ (by positivity)
    nlinarith

/-- If every remainder is positive, the draw exceeds the exact sum up to rounding. -/
theorem remaining_sum {u : F} (hA : A.RelErr u) : ∀ (xs : List F) (r : F), xs ≠ [] → (∀ x ∈ xs, 0 ≤ x) →
    (∀ pre post, xs = pre ++ post → pre ≠ [] → 0 < remaining A r pre) → xs.sum < (1 + u) ^ xs.length * r := by
  intro xs
  induction xs with
  | nil => intro r h; exact absurd rfl h
  | cons x xs ih =>
    intro r _ hn h
    have hx := hn x (by simp)
    have hu := hA.1
    have h1 : 0 < A.rnd (r - x) := h [x] xs rfl (by simp)
    have hrx : 0 < r - x := by
      by_contra hc
      have := A.mono (not_lt.1 hc)
      rw [A.zero] at this
      linarith
    have h2 := (hA.2.2 (r - x) hrx.le).2
    rw [List.sum_cons, List.length_cons, pow_succ]
    have hpow : (1 : F) ≤ (1 + u) ^ xs.length := one_le_pow₀ (by linarith)
    cases xs with
    | nil => simp; nlinarith
    | cons y ys =>
      have h3 := ih (A.rnd (r - x)) (by simp) (fun z hz => hn z (by simp [hz]))
        fun pre post hp hne => h (x :: pre) post (by rw [hp]; rfl) (by simp)
      have h4 : (1 + u) ^ (y :: ys).length * A.rnd (r - x) ≤ (1 + u) ^ (y :: ys).length * ((1 + u) * (r - x)) :=
        mul_le_mul_of_nonneg_left h2 (by positivity)
      have h5 : x ≤ (1 + u) ^ (y :: ys).length * (1 + u) * x := by
        have : (1 : F) ≤ (1 + u) ^ (y :: ys).length * (1 + u) := by nlinarith
        nlinarith
      nlinarith

/-- **C126, only near the end of the range.** If the relative error of an operation is at most `u`, an ant with `m` unvisited vertices
gets stuck only if the draw, taken from `0` to the computed sum `s`, is within a factor `(1 + u)^(2m)` of `s` (in `f64`,
`u = 2⁻⁵³`). -/
theorem C126_stuck_only_near_end (hmax : 0 < maxv) {u : F} (hA : A.RelErr u) {n : Nat} {g : Mat (Ext F)} (hg : FloatMat A n g)
    {a : Ant (Ext F)} (ha : Building n a) (hs : a.stuck = false) (hu : a.unvisited ≠ []) {d : StepDraw (Ext F)} (hd : DrawOk A d) :
    ∃ (b : Ant (Ext F)) (e : Nat × Nat) (last : Nat) (xs : List F) (r : F),
      a.goNext (roundedOps A sqrt pow maxv floor) g d = .ok (b, e) ∧ a.path.getLast? = some last ∧
      (d.ord a.unvisited).map (g.get last) = xs.map .fin ∧ d.range (.fin (goodnessSum A xs)) = .fin r ∧ r ≤ goodnessSum A xs ∧
      (b.stuck = true → goodnessSum A xs < (1 + u) ^ (2 * a.unvisited.length) * r) := by
  obtain ⟨b, e, last, xs, r, h1, h2, h3, h4, h5, h6, h7, h8, h9⟩ := goNext_float sqrt pow maxv floor hmax hg ha hs hu hd
  refine ⟨b, e, last, xs, r, h1, h2, h3, h5, h7, fun hst => ?_⟩
  have hlen : xs.length = a.unvisited.length := by
    have := congrArg List.length h3
    rw [List.length_map, List.length_map, (d.perm _).length_eq] at this
    exact this.symm
  have hne : xs ≠ [] := by
    rintro rfl
    exact hu (List.length_eq_zero_iff.1 hlen.symm)
  have k1 := remaining_sum hA xs r hne (fun x hx => (h4 x hx).1) (h9 hst)
  have k2 := goodnessSum_le hA xs 0 (le_refl _) fun x hx => (h4 x hx).1
  rw [zero_add] at k2
  have hu0 := hA.1
  have hp : (0 : F) < (1 + u) ^ xs.length := by positivity
  rw [← hlen, two_mul, pow_add, mul_assoc]
  exact lt_of_le_of_lt k2 (mul_lt_mul_of_pos_left k1 hp)

/-! ## Ant Colony System -/

/-- A synchronous step of all ants: if one vertex is left, no ant gets stuck in it. -/
theorem acsStep_float (hmax : 0 < maxv) {n t L : Nat} {g : Mat (Ext F)} (hg : FloatMat A n g) {d : IterDraws (Ext F)}
    (hd : ∀ k t, DrawOk A (d.step k t)) (hL : L < n) : ∀ (ants : List (Ant (Ext F))) (k : Nat),
    (∀ a ∈ ants, Building n a ∧ (a.stuck = false → a.path.length = L)) →
    ∃ as ps, acsStep (roundedOps A sqrt pow maxv floor) g d t k ants = .ok (as, ps) ∧ (∀ p ∈ ps, 2 ≤ p.length ∧ ∀ v ∈ p, v < n) ∧
      (L + 1 = n → ∀ p ∈ ps, IsTour n p) := by
  intro ants
  induction ants with
  | nil => intro k _; exact ⟨[], [], rfl, by simp, by simp⟩
  | cons a ants ih =>
    intro k h
    obtain ⟨as, ps, h1, h2, h3⟩ := ih (k + 1) fun x hx => h x (by simp [hx])
    obtain ⟨ha, hal⟩ := h a (by simp)
    cases hs : a.stuck with
    | true =>
      refine ⟨a :: as, ps, ?_, h2, h3⟩
      rw [acsStep, if_pos hs, Exc.bind_of_ok h1]; rfl
    | false =>
      have hlen := (ha.2.2.1 hs).length_eq
      rw [List.length_append, List.length_range, hal hs] at hlen
      have hu : a.unvisited ≠ [] := by
        intro hu
        rw [hu] at hlen; simp at hlen; omega
      obtain ⟨b, e, last, xs, r, e1, e2, -⟩ := goNext_float sqrt pow maxv floor hmax hg ha hs hu (hd k t)
      obtain ⟨c1, -, c3⟩ := goNext_building ha e1
      refine ⟨b :: as, b.path :: ps, ?_, ?_, ?_⟩
      · rw [acsStep, if_neg (by rw [hs]; simp), Exc.bind_of_ok e1, Exc.bind_of_ok h1]; rfl
      · intro p hp
        rcases List.mem_cons.1 hp with rfl | hp
        · refine ⟨?_, c1.2.2.2⟩
          obtain ⟨l, -, hc⟩ := goNext_cases e1
          rcases hc with ⟨h3, -⟩ | ⟨-, -, next, -, -, hb, -⟩
          · rw [hs] at h3; cases h3
          · have : a.path.length ≠ 0 := fun h => ha.2.1 (List.length_eq_zero_iff.1 h)
            rw [hb]; simp; omega
        · exact h2 p hp
      · intro hL1 p hp
        rcases List.mem_cons.1 hp with rfl | hp
        · obtain ⟨b', e', f1, f2, f3⟩ := C126_last_step sqrt pow maxv floor hmax hg ha hs (by omega) (hd k t)
          rw [f1] at e1
          cases e1
          exact f3
        · exact h3 hL1 p hp

/-- **C126, Ant Colony System.** Whatever the rounding: if the goodness of a pheromone with finite non-negative entries has finite
non-negative entries off the diagonal, and the local rule leaves such a pheromone on paths in range, then `AntColonySystemAB` on
`n ≥ 2` vertices does not panic, and every path it returns visits every vertex exactly once (there may be fewer paths than ants). -/
theorem C126_acs_tours (hmax : 0 < maxv) {goodness : Mat (Ext F) → Except Panic (Mat (Ext F))} {n : Nat}
    {l : LocalRule (Ext F)} {d : IterDraws (Ext F)} {ants : List (Ant (Ext F))} {ph : Mat (Ext F)} (hn : 2 ≤ n)
    (Ok : Mat (Ext F) → Prop) (hph : Ok ph) (hrows : ph.rows = n) (hr : ∀ a ∈ ants, Ready n a)
    (hgo : ∀ m, Ok m → ∃ g, goodness m = .ok g ∧ FloatMat A n g)
    (hl : ∀ m ps, Ok m → (∀ p ∈ ps, 2 ≤ p.length ∧ ∀ v ∈ p, v < n) →
      ∃ m', l.apply (roundedOps A sqrt pow maxv floor) ps m = .ok m' ∧ Ok m')
    (hd : ∀ k t, DrawOk A (d.step k t)) :
    ∃ ants' paths ph', antColonySystem (roundedOps A sqrt pow maxv floor) goodness l d ants ph = .ok (ants', paths, ph') ∧
      paths.length ≤ ants.length ∧ (∀ p ∈ paths, IsTour n p) ∧ Ok ph' := by
  have key : ∀ (m t L : Nat) (ants : List (Ant (Ext F))) (paths0 : List (List Nat)) (ph : Mat (Ext F)),
      Ok ph → L + m = n → (∀ a ∈ ants, Building n a ∧ (a.stuck = false → a.path.length = L)) →
      (0 < m ∨ ∀ p ∈ paths0, IsTour n p) →
      ∃ as ps ph', acsLoop (roundedOps A sqrt pow maxv floor) goodness l d t m ants paths0 ph = .ok (as, ps, ph') ∧
        (∀ p ∈ ps, IsTour n p) ∧ Ok ph' := by
    intro m
    induction m with
    | zero =>
      intro t L ants paths0 ph hp _ h hm
      rcases hm with hm | hm
      · omega
      · exact ⟨ants, paths0, ph, rfl, hm, hp⟩
    | succ m ih =>
      intro t L ants paths0 ph hp hL h _
      obtain ⟨g, hg, hgp⟩ := hgo ph hp
      obtain ⟨as, ps, h1, h2, h3⟩ := acsStep_float sqrt pow maxv floor hmax (t := t) hgp hd (by omega) ants 0 h
      obtain ⟨ph1, h4, h5⟩ := hl ph ps hp h2
      obtain ⟨-, -, b3, -⟩ := acsStep_ok h h1
      obtain ⟨as2, ps2, ph2, e1, e2, e3⟩ := ih (t + 1) (L + 1) as ps ph1 h5 (by omega) b3 (by
        rcases Nat.eq_zero_or_pos m with rfl | hm
        · exact .inr (h3 (by omega))
        · exact .inl hm)
      refine ⟨as2, ps2, ph2, ?_, e2, e3⟩
      rw [acsLoop, Exc.bind_of_ok hg, Exc.bind_of_ok h1, Exc.bind_of_ok h4]
      exact e1
  obtain ⟨as, has⟩ := startAll_exact (by omega : 0 < n) ants 0 hr (d := d)
  obtain ⟨s1, s2⟩ := startAll_ok hr has
  obtain ⟨as2, ps2, ph2, e1, e2, e3⟩ := key (ph.rows - 1) 0 1 as [] ph hph (by omega)
    (fun a ha => ⟨(s2 a ha).1, fun _ => (s2 a ha).2.2⟩) (.inl (by omega))
  have hrun : antColonySystem (roundedOps A sqrt pow maxv floor) goodness l d ants ph = .ok (as2, ps2, ph2) := by
    unfold antColonySystem
    rw [Exc.bind_of_ok has]
    exact e1
  exact ⟨as2, ps2, ph2, hrun, (C89_acs_paths (by rw [hrows]; exact hr) hrun).1, e2, e3⟩

/-! ## Tour lengths -/

theorem cost_float {n : Nat} {w : Mat (Ext F)} {f : Nat → Nat → F} (hw : FinMat n w f) : ∀ (es : List (Nat × Nat)) (acc : F),
    (∀ e ∈ es, e.1 < n ∧ e.2 < n) →
    cost (roundedOps A sqrt pow maxv floor) w es (.fin acc)
      = .ok (.fin ((es.map fun e => f e.1 e.2).foldl (fun s x => A.rnd (s + x)) acc))
  | [], acc, _ => rfl
  | e :: es, acc, he => by
    obtain ⟨h1, h2⟩ := he e (by simp)
    have c1 : w.at' e.1 e.2 = .ok (.fin (f e.1 e.2)) := by
      unfold Mat.at'; rw [if_pos ⟨by rw [hw.1]; exact h1, by rw [hw.2.1]; exact h2⟩, hw.2.2 _ _ h1 h2]
    rw [cost, Exc.bind_of_ok c1, ro_add, cost_float hw es _ fun x hx => he x (by simp [hx])]
    rfl

/-- Specification: the length of the closed tour, as computed: the weights are added in the order of the path. -/
def computedLength (A : Rounding F) (f : Nat → Nat → F) (p : List Nat) : F :=
  ((windows p).map fun e => f e.1 e.2).foldl (fun s x => A.rnd (s + x)) 0

/-- **C126, fitness.** Whatever the rounding, `PathLengthInverse` gives a path in range of non-zero computed length `c` the rounded inverse
of `c`. -/
theorem C126_fitness {n : Nat} {w : Mat (Ext F)} {f : Nat → Nat → F} (hw : FinMat n w f)
    {s : Sol (Ext F)} (hs : InRange n s) (hc : computedLength A f s.path ≠ 0) :
    gradeOne (roundedOps A sqrt pow maxv floor) w s = .ok ⟨s.path, .fin (A.rnd (1 / computedLength A f s.path))⟩ := by
  have h1 : cost (roundedOps A sqrt pow maxv floor) w (windows s.path) (roundedOps A sqrt pow maxv floor).zero =
    .ok (.fin (computedLength A f s.path)) := cost_float sqrt pow maxv floor hw (windows s.path) 0 (windows_lt hs)
  unfold gradeOne
  rw [Exc.bind_of_ok h1]
  show Except.ok (⟨s.path, (if computedLength A f s.path = 0 then (if (1 : F) = 0 then Ext.nan else Ext.signed 1)
    else .fin (1 / computedLength A f s.path)).round A⟩ : Sol (Ext F)) = _
  rw [if_neg hc]
  rfl

theorem goodnessSum_ge {u : F} (hA : A.RelErr u) : ∀ (xs : List F) (acc : F), 0 ≤ acc → (∀ x ∈ xs, 0 ≤ x) →
    (1 - u) ^ xs.length * (acc + xs.sum) ≤ xs.foldl (fun s x => A.rnd (s + x)) acc := by
  intro xs
  induction xs with
  | nil => intro acc _ _; simp
  | cons x xs ih =>
    intro acc ha h
    have hx := h x (by simp)
    have h1 := ih (A.rnd (acc + x)) (rnd_nonneg (add_nonneg ha hx)) fun y hy => h y (by simp [hy])
    have h2 := (hA.2.2 (acc + x) (add_nonneg ha hx)).1
    have hsum : 0 ≤ xs.sum := sum_nonneg' fun y hy => h y (by simp [hy])
    have hu := hA.1
    have hu1 := hA.2.1
    rw [List.foldl_cons, List.length_cons, pow_succ, List.sum_cons]
    refine le_trans ?_ h1
    rw [mul_assoc]
    refine mul_le_mul_of_nonneg_left ?_ (pow_nonneg (by linarith) _)
    nlinarith

/-- **C126, lengths.** With relative error `u` the computed length of a path of `n` vertices is within the factors `(1 - u)^n` and
`(1 + u)^n` of its length. -/
theorem C126_length_error {u : F} (hA : A.RelErr u) {f : Nat → Nat → F} {p : List Nat} (hf : ∀ e ∈ windows p, 0 ≤ f e.1 e.2) :
    (1 - u) ^ p.length * tourLength f p ≤ computedLength A f p ∧ computedLength A f p ≤ (1 + u) ^ p.length * tourLength f p := by
  have hn : ∀ x ∈ (windows p).map (fun e => f e.1 e.2), 0 ≤ x := by
    intro x hx
    obtain ⟨e, he, rfl⟩ := List.mem_map.1 hx
    exact hf e he
  have hl : ((windows p).map fun e => f e.1 e.2).length = p.length := by rw [List.length_map, windows_length]
  have h1 := goodnessSum_ge hA _ 0 (le_refl _) hn
  have h2 := goodnessSum_le hA _ 0 (le_refl _) hn
  rw [hl, zero_add] at h1 h2
  exact ⟨h1, h2⟩

/-- **C126, order.** With relative error `u`, of two tours of `n` cities the one that is shorter by more than the factor
`((1 + u) / (1 - u))^(n + 1)` gets the strictly greater fitness. -/
theorem C126_fitter_if_clearly_shorter {u : F} (hA : A.RelErr u) {n : Nat} {w : Mat (Ext F)} {f : Nat → Nat → F}
    (hi : Instance n w f) {p q : List Nat} (hp : IsTour n p) (hq : IsTour n q)
    (h : (1 + u) ^ (n + 1) * tourLength f p < (1 - u) ^ (n + 1) * tourLength f q) :
    ∃ x y, gradeOne (roundedOps A sqrt pow maxv floor) w ⟨p, .fin 0⟩ = .ok ⟨p, .fin x⟩ ∧
      gradeOne (roundedOps A sqrt pow maxv floor) w ⟨q, .fin 0⟩ = .ok ⟨q, .fin y⟩ ∧ y < x := by
  have hu := hA.1
  have hu1 : 0 < 1 - u := by linarith [hA.2.1]
  have nn : ∀ {p : List Nat}, IsTour n p → (∀ e ∈ windows p, 0 ≤ f e.1 e.2) ∧ p.length = n ∧ InRange n (⟨p, .fin 0⟩ : Sol (Ext F)) := by
    intro p hp
    have hlt : ∀ v ∈ p, v < n := fun v hv => List.mem_range.1 (hp.mem_iff.1 hv)
    exact ⟨fun e he => (hi.pos _ _ (hlt _ (windows_mem he).1) (hlt _ (windows_mem he).2) (tour_edges_ne hp hi.two e he)).le,
      by rw [hp.length_eq, List.length_range], hlt⟩
  obtain ⟨p1, p2, p3⟩ := nn hp
  obtain ⟨q1, q2, q3⟩ := nn hq
  have lp := C126_length_error hA p1
  have lq := C126_length_error hA q1
  rw [p2] at lp; rw [q2] at lq
  have hlp := tourLength_pos hi hp
  have hlq := tourLength_pos hi hq
  have hcp : 0 < computedLength A f p := lt_of_lt_of_le (mul_pos (pow_pos hu1 n) hlp) lp.1
  have hcq : 0 < computedLength A f q := lt_of_lt_of_le (mul_pos (pow_pos hu1 n) hlq) lq.1
  refine ⟨_, _, C126_fitness sqrt pow maxv floor hi.fin p3 hcp.ne', C126_fitness sqrt pow maxv floor hi.fin q3 hcq.ne', ?_⟩
  show A.rnd (1 / computedLength A f q) < A.rnd (1 / computedLength A f p)
  have r1 := (hA.2.2 _ (one_div_pos.2 hcq).le).2
  have r2 := (hA.2.2 _ (one_div_pos.2 hcp).le).1
  refine lt_of_le_of_lt r1 (lt_of_lt_of_le ?_ r2)
  rw [mul_one_div, mul_one_div, div_lt_div_iff₀ hcq hcp]
  have a1 : (1 + u) * computedLength A f p ≤ (1 + u) ^ (n + 1) * tourLength f p := by
    rw [pow_succ, mul_comm ((1 + u) ^ n), mul_assoc]
    exact mul_le_mul_of_nonneg_left lp.2 (by linarith)
  have a2 : (1 - u) ^ (n + 1) * tourLength f q ≤ (1 - u) * computedLength A f q := by
    rw [pow_succ, mul_comm ((1 - u) ^ n), mul_assoc]
    exact mul_le_mul_of_nonneg_left lq.1 hu1.le
  linarith

/-! ## Pheromone -/

/-- Specification: an `n × n` matrix of finite entries satisfying `P`. -/
def Entries (P : F → Prop) (n : Nat) (m : Mat (Ext F)) : Prop := ∃ f, FinMat n m f ∧ ∀ i j, i < n → j < n → P (f i j)

/-- Specification: a non-negative floating point number. -/
def NonnegFloat (A : Rounding F) (x : F) : Prop := 0 ≤ x ∧ A.rnd x = x

/-- Specification: a solution in range whose fitness is a non-negative floating point number. -/
def FloatSol (A : Rounding F) (n : Nat) (s : Sol (Ext F)) : Prop := InRange n s ∧ ∃ x, s.fitness = .fin x ∧ NonnegFloat A x

theorem entries_at {P : F → Prop} {n : Nat} {m : Mat (Ext F)} (h : Entries P n m) {i j : Nat} (hi : i < n) (hj : j < n) :
    ∃ x, m.at' i j = .ok (.fin x) ∧ P x := by
  obtain ⟨f, hf, hP⟩ := h
  exact ⟨f i j, by unfold Mat.at'; rw [if_pos ⟨by rw [hf.1]; exact hi, by rw [hf.2.1]; exact hj⟩, hf.2.2 i j hi hj], hP i j hi hj⟩

theorem entries_set {P : F → Prop} {n : Nat} {m : Mat (Ext F)} (h : Entries P n m) {i j : Nat} (hi : i < n) (hj : j < n) {x : F}
    (hx : P x) : ∃ m', m.set i j (.fin x) = .ok m' ∧ Entries P n m' := by
  obtain ⟨f, hf, hP⟩ := h
  unfold Mat.set
  rw [if_pos ⟨by rw [hf.1]; exact hi, by rw [hf.2.1]; exact hj⟩]
  refine ⟨_, rfl, fun a b => if a = i ∧ b = j then x else f a b, ⟨hf.1, hf.2.1, fun a b ha hb => ?_⟩, fun a b ha hb => ?_⟩
  · show (if a = i ∧ b = j then Ext.fin x else m.get a b) = .fin (if a = i ∧ b = j then x else f a b)
    split
    · rfl
    · exact hf.2.2 a b ha hb
  · show P (if a = i ∧ b = j then x else f a b)
    split
    · exact hx
    · exact hP a b ha hb

theorem evaporate_entries {P Q : F → Prop} {n : Nat} {rho : F} (hPQ : ∀ x, P x → Q (A.rnd (x * A.rnd (1 - rho)))) {m : Mat (Ext F)}
    (h : Entries P n m) : Entries Q n (evaporate (roundedOps A sqrt pow maxv floor) (.fin rho) m) := by
  obtain ⟨f, hf, hP⟩ := h
  refine ⟨fun i j => A.rnd (f i j * A.rnd (1 - rho)), ⟨hf.1, hf.2.1, fun i j hi hj => ?_⟩, fun i j hi hj => hPQ _ (hP i j hi hj)⟩
  show (roundedOps A sqrt pow maxv floor).mul (m.get i j) ((roundedOps A sqrt pow maxv floor).sub (.fin 1) (.fin rho)) = _
  rw [hf.2.2 i j hi hj, ro_sub, ro_mul]

theorem leaveEdges_entries {P : F → Prop} {n : Nat} {x : F} (hP : ∀ a, P a → P (A.rnd (a + x))) : ∀ (es : List (Nat × Nat))
    (m : Mat (Ext F)), Entries P n m → (∀ e ∈ es, e.1 < n ∧ e.2 < n) →
    ∃ m', leaveEdges (roundedOps A sqrt pow maxv floor) (.fin x) es m = .ok m' ∧ Entries P n m'
  | [], m, hm, _ => ⟨m, rfl, hm⟩
  | e :: es, m, hm, he => by
    obtain ⟨h1, h2⟩ := he e (by simp)
    obtain ⟨a, ha, pa⟩ := entries_at hm h1 h2
    obtain ⟨m1, hm1, em1⟩ := entries_set hm h1 h2 (hP a pa)
    obtain ⟨b, hb, pb⟩ := entries_at em1 h2 h1
    obtain ⟨m2, hm2, em2⟩ := entries_set em1 h2 h1 (hP b pb)
    obtain ⟨m', h3, h4⟩ := leaveEdges_entries hP es m2 em2 fun x hx => he x (by simp [hx])
    refine ⟨m', ?_, h4⟩
    have : addBoth (roundedOps A sqrt pow maxv floor) m e.1 e.2 (.fin x) = .ok m2 := by
      unfold addBoth
      rw [Exc.bind_of_ok ha, ro_add, Exc.bind_of_ok hm1, Exc.bind_of_ok hb, ro_add]
      exact hm2
    rw [leaveEdges, Exc.bind_of_ok this]
    exact h3

theorem leaveTrails_entries {n : Nat} : ∀ (sols : List (Sol (Ext F))) (m : Mat (Ext F)), (∀ s ∈ sols, FloatSol A n s) →
    Entries (NonnegFloat A) n m →
    ∃ m', leaveTrails (roundedOps A sqrt pow maxv floor) sols m = .ok m' ∧ Entries (NonnegFloat A) n m'
  | [], m, _, hm => ⟨m, rfl, hm⟩
  | s :: ss, m, hs, hm => by
    obtain ⟨h1, x, h2, h3⟩ := hs s (by simp)
    obtain ⟨m1, e1, e2⟩ := leaveEdges_entries sqrt pow maxv floor (x := x) (P := NonnegFloat A)
      (fun a ha => ⟨rnd_nonneg (add_nonneg ha.1 h3.1), A.idem _⟩) (windows s.path) m hm (windows_lt h1)
    obtain ⟨m2, e3, e4⟩ := leaveTrails_entries ss m1 (fun t ht => hs t (by simp [ht])) e2
    refine ⟨m2, ?_, e4⟩
    have : leaveTrail (roundedOps A sqrt pow maxv floor) s m = .ok m1 := by unfold leaveTrail; rw [h2]; exact e1
    rw [leaveTrails, Exc.bind_of_ok this]
    exact e3

theorem rate_nonneg {rho : F} (h1 : rho ≤ 1) : 0 ≤ A.rnd (1 - rho) := rnd_nonneg (by linarith)

theorem picks_float {policy : Sol (Ext F) → List (Sol (Ext F)) → Sol (Ext F)} (h : Picks policy) {n : Nat}
    {b : Sol (Ext F)} {ss : List (Sol (Ext F))} (hb : FloatSol A n b) (hs : ∀ s ∈ ss, FloatSol A n s) :
    FloatSol A n (policy b ss) := by
  rcases h b ss with h | h
  · rw [h]; exact hb
  · exact hs _ h

/-- **C126, pheromone stays non-negative.** Whatever the rounding, for rates in `[0, 1]` and solutions of finite non-negative fitness
the Ant System, Elitist Ant System and Ant Colony System updates do not panic and leave finite non-negative pheromone. -/
theorem C126_pheromone_nonneg {n : Nat} {rho : F} (h0 : 0 ≤ rho) (h1 : rho ≤ 1) {best : Sol (Ext F)}
    {sols : List (Sol (Ext F))} {ph : Mat (Ext F)} (hb : FloatSol A n best) (hs : ∀ s ∈ sols, FloatSol A n s)
    (hp : Entries (NonnegFloat A) n ph) :
    (∃ ph', antSystemPU (roundedOps A sqrt pow maxv floor) (.fin rho) sols ph = .ok ph' ∧ Entries (NonnegFloat A) n ph') ∧
    (∃ ph' b', elitistPU (roundedOps A sqrt pow maxv floor) (.fin rho) best sols ph = .ok (ph', b') ∧ Entries (NonnegFloat A) n ph' ∧
      FloatSol A n b') ∧
    ∀ policy, Picks policy → ∃ ph' b', acsPU (roundedOps A sqrt pow maxv floor) (.fin rho) policy best sols ph = .ok (ph', b') ∧
      Entries (NonnegFloat A) n ph' ∧ FloatSol A n b' := by
  have hev : Entries (NonnegFloat A) n (evaporate (roundedOps A sqrt pow maxv floor) (.fin rho) ph) :=
    evaporate_entries sqrt pow maxv floor (fun x hx => ⟨rnd_nonneg (mul_nonneg hx.1 (rate_nonneg h1)), A.idem _⟩) hp
  obtain ⟨m1, e1, e2⟩ := leaveTrails_entries sqrt pow maxv floor sols _ hs hev
  refine ⟨⟨m1, e1, e2⟩, ?_, fun policy hpol => ?_⟩
  · have hbg := picks_float (overallBest_mem (A := roundedOps A sqrt pow maxv floor)) hb hs
    obtain ⟨m2, e3, e4⟩ := leaveTrails_entries sqrt pow maxv floor [_] m1 (fun s h => by rw [List.mem_singleton.1 h]; exact hbg) e2
    refine ⟨m2, _, ?_, e4, hbg⟩
    unfold elitistPU
    simp only
    rw [Exc.bind_of_ok e1]
    rw [leaveTrails] at e3
    obtain ⟨m3, k1, k2⟩ := Exc.bind_ok.1 e3
    cases k2
    rw [Exc.bind_of_ok k1]
    rfl
  · have hbg := picks_float hpol hb hs
    obtain ⟨g1, x, g2, g3⟩ := hbg
    obtain ⟨m2, e3, e4⟩ := leaveEdges_entries sqrt pow maxv floor (x := A.rnd (x * rho)) (P := NonnegFloat A)
      (fun a ha => ⟨rnd_nonneg (add_nonneg ha.1 (rnd_nonneg (mul_nonneg g3.1 h0))), A.idem _⟩)
      (windows (policy best sols).path) _ hev (windows_lt g1)
    refine ⟨m2, _, ?_, e4, ⟨g1, x, g2, g3⟩⟩
    unfold acsPU
    simp only
    rw [g2, ro_mul, Exc.bind_of_ok e3]
    rfl

theorem clamp_float {lo hi v : F} (h : lo < hi) :
    ∃ y, clampVal (roundedOps A sqrt pow maxv floor) (.fin v) (.fin lo) (.fin hi) = .fin y ∧ lo ≤ y ∧ y ≤ hi ∧
      (y = v ∨ y = lo ∨ y = hi) := by
  unfold clampVal
  by_cases h1 : lo < v
  · rw [if_pos ((ro_lt A sqrt pow maxv floor).2 h1)]
    by_cases h2 : v < hi
    · rw [if_pos ((ro_lt A sqrt pow maxv floor).2 h2)]; exact ⟨v, rfl, h1.le, h2.le, .inl rfl⟩
    · rw [if_neg (fun h => h2 ((ro_lt A sqrt pow maxv floor).1 h))]; exact ⟨hi, rfl, h.le, le_refl _, .inr (.inr rfl)⟩
  · rw [if_neg (fun h => h1 ((ro_lt A sqrt pow maxv floor).1 h))]; exact ⟨lo, rfl, le_refl _, h.le, .inr (.inl rfl)⟩

theorem mmEdges_entries {n : Nat} {x lo hi : F} (hlo : NonnegFloat A lo) (hhi : A.rnd hi = hi) (hlh : lo < hi) :
    ∀ (es : List (Nat × Nat)) (m : Mat (Ext F)), Entries (fun x => NonnegFloat A x ∧ x ≤ hi) n m → (∀ e ∈ es, e.1 < n ∧ e.2 < n) →
    ∃ m', mmEdges (roundedOps A sqrt pow maxv floor) (.fin x) (.fin lo) (.fin hi) es m = .ok m' ∧
      Entries (fun x => NonnegFloat A x ∧ x ≤ hi) n m'
  | [], m, hm, _ => ⟨m, rfl, hm⟩
  | e :: es, m, hm, he => by
    obtain ⟨h1, h2⟩ := he e (by simp)
    obtain ⟨a, ha, pa⟩ := entries_at hm h1 h2
    obtain ⟨y, hy, y1, y2, y3⟩ := clamp_float (A := A) sqrt pow maxv floor (v := A.rnd (a + x)) hlh
    have py : NonnegFloat A y ∧ y ≤ hi := by
      refine ⟨⟨hlo.1.trans y1, ?_⟩, y2⟩
      rcases y3 with rfl | rfl | rfl
      · exact A.idem _
      · exact hlo.2
      · exact hhi
    obtain ⟨m1, hm1, em1⟩ := entries_set hm h1 h2 py
    obtain ⟨b, hb, pb⟩ := entries_at em1 h1 h2
    obtain ⟨m2, hm2, em2⟩ := entries_set em1 h2 h1 pb
    obtain ⟨m', h3, h4⟩ := mmEdges_entries hlo hhi hlh es m2 em2 fun x hx => he x (by simp [hx])
    refine ⟨m', ?_, h4⟩
    rw [mmEdges, Exc.bind_of_ok ha, ro_add, hy, Exc.bind_of_ok hm1, Exc.bind_of_ok hb, Exc.bind_of_ok hm2]
    exact h3

/-- **C126, Max-Min bounds.** Whatever the rounding, a Max-Min update keeps every entry in `[0, hi]` (rates in `[0, 1]`, bounds that the
constructor accepts and that are floating point numbers). -/
theorem C126_max_min_upper {n : Nat} {rho lo hi : F} (h0 : 0 ≤ rho) (h1 : rho ≤ 1) (hlo : NonnegFloat A lo) (hhi : A.rnd hi = hi)
    (hlh : lo < hi) {best : Sol (Ext F)} {sols : List (Sol (Ext F))} {ph : Mat (Ext F)} (hb : FloatSol A n best)
    (hs : ∀ s ∈ sols, FloatSol A n s) (hp : Entries (fun x => NonnegFloat A x ∧ x ≤ hi) n ph)
    {policy : Sol (Ext F) → List (Sol (Ext F)) → Sol (Ext F)} (hpol : Picks policy) :
    ∃ ph' b', mmPU (roundedOps A sqrt pow maxv floor) (.fin rho) (.fin lo) (.fin hi) policy best sols ph = .ok (ph', b') ∧
      Entries (fun x => NonnegFloat A x ∧ x ≤ hi) n ph' ∧ FloatSol A n b' := by
  have hr1 : A.rnd (1 - rho) ≤ 1 := by have := A.mono (show 1 - rho ≤ 1 by linarith); rwa [A.one] at this
  have hev : Entries (fun x => NonnegFloat A x ∧ x ≤ hi) n (evaporate (roundedOps A sqrt pow maxv floor) (.fin rho) ph) :=
    evaporate_entries sqrt pow maxv floor (fun x hx => ⟨⟨rnd_nonneg (mul_nonneg hx.1.1 (rate_nonneg h1)), A.idem _⟩, by
      have h2 : x * A.rnd (1 - rho) ≤ hi := (mul_le_of_le_one_right hx.1.1 hr1).trans hx.2
      have := A.mono h2
      rwa [hhi] at this⟩) hp
  obtain ⟨g1, x, g2, g3⟩ := picks_float hpol hb hs
  obtain ⟨m', e1, e2⟩ := mmEdges_entries sqrt pow maxv floor (x := x) hlo hhi hlh (windows (policy best sols).path) _ hev
    (windows_lt g1)
  refine ⟨m', _, ?_, e2, ⟨g1, x, g2, g3⟩⟩
  unfold mmPU
  simp only
  rw [g2, Exc.bind_of_ok e1]
  rfl

/-- Specification: the constants of a local rule with a rate in `[0, 1]` and a non-negative stable value. -/
def LocalRule.Sane : LocalRule (Ext F) → Prop
  | .decay r => ∃ x, r = .fin x ∧ 0 ≤ x
  | .decayTo r s => ∃ x y, r = .fin x ∧ s = .fin y ∧ 0 ≤ x ∧ x ≤ 1 ∧ 0 ≤ y

/-- **C126, local updates.** Whatever the rounding, the local rules leave non-negative pheromone on paths of at least two vertices in
range, without a panic. -/
theorem C126_local_update_nonneg {n : Nat} {l : LocalRule (Ext F)} (hl : l.Sane) : ∀ (ps : List (List Nat)) (ph : Mat (Ext F)),
    Entries (NonnegFloat A) n ph → (∀ p ∈ ps, 2 ≤ p.length ∧ ∀ v ∈ p, v < n) →
    ∃ ph', l.apply (roundedOps A sqrt pow maxv floor) ps ph = .ok ph' ∧ Entries (NonnegFloat A) n ph'
  | [], ph, hp, _ => ⟨ph, rfl, hp⟩
  | p :: ps, ph, hp, h => by
    obtain ⟨h1, h2⟩ := h p (by simp)
    obtain ⟨s, r, he, hs, hr⟩ : ∃ s r, lastEdge p = .ok (s, r) ∧ s ∈ p ∧ r ∈ p := by
      unfold lastEdge
      have hlen : 2 ≤ p.reverse.length := by rw [List.length_reverse]; exact h1
      match hp : p.reverse, hlen with
      | r :: s :: t, _ =>
        exact ⟨s, r, rfl, List.mem_reverse.1 (by rw [hp]; simp), List.mem_reverse.1 (by rw [hp]; simp)⟩
      | [_], hlen => simp at hlen
      | [], hlen => simp at hlen
    obtain ⟨a, ha, pa⟩ := entries_at hp (h2 s hs) (h2 r hr)
    obtain ⟨y, hy, py⟩ : ∃ y, l.value (roundedOps A sqrt pow maxv floor) (.fin a) = .fin y ∧ NonnegFloat A y := by
      cases l with
      | decay q =>
        obtain ⟨q, rfl, hq⟩ := hl
        exact ⟨_, rfl, rnd_nonneg (mul_nonneg pa.1 hq), A.idem _⟩
      | decayTo q st =>
        obtain ⟨q, y, rfl, rfl, q0, q1, hy⟩ := hl
        refine ⟨A.rnd (A.rnd (a * q) + A.rnd (y * A.rnd (1 - q))), ?_, ?_, A.idem _⟩
        · show (roundedOps A sqrt pow maxv floor).add ((roundedOps A sqrt pow maxv floor).mul (.fin a) (.fin q))
            ((roundedOps A sqrt pow maxv floor).mul (.fin y) ((roundedOps A sqrt pow maxv floor).sub (.fin 1) (.fin q))) = _
          rw [ro_sub, ro_mul, ro_mul, ro_add]
        · exact rnd_nonneg (add_nonneg (rnd_nonneg (mul_nonneg pa.1 q0)) (rnd_nonneg (mul_nonneg hy (rate_nonneg q1))))
    obtain ⟨ph1, e1, e2⟩ := entries_set hp (h2 s hs) (h2 r hr) py
    obtain ⟨ph2, e3, e4⟩ := C126_local_update_nonneg hl ps ph1 e2 fun q hq => h q (by simp [hq])
    refine ⟨ph2, ?_, e4⟩
    rw [LocalRule.apply, Exc.bind_of_ok he, Exc.bind_of_ok ha, hy, Exc.bind_of_ok e1]
    exact e3

/-- Converse of `roulette_float`. -/
theorem roulette_none {n : Nat} {g : Mat (Ext F)} (hg : FloatMat A n g) {last : Nat} (hl : last < n) :
    ∀ (vs : List Nat) (xs : List F) (r : F), (∀ v ∈ vs, v < n ∧ last ≠ v) → vs.map (g.get last) = xs.map .fin →
      (∀ pre post, xs = pre ++ post → pre ≠ [] → 0 < remaining A r pre) →
      roulette (roundedOps A sqrt pow maxv floor) g last vs (.fin r) = .ok none := by
  intro vs
  induction vs with
  | nil => intro xs r _ _ _; rfl
  | cons v vs ih =>
    intro xs r hv h hrem
    cases xs with
    | nil => simp at h
    | cons x xs =>
      rw [List.map_cons, List.map_cons, List.cons.injEq] at h
      obtain ⟨y, hy, hy1, hy2⟩ := floatMat_at hg hl (hv v (by simp)).1 (hv v (by simp)).2
      have hyx : y = x := Ext.fin.inj (hy.symm.trans h.1)
      subst hyx
      have hgt : (roundedOps A sqrt pow maxv floor).notLe (.fin (A.rnd (r - y))) (roundedOps A sqrt pow maxv floor).zero = true :=
        (ro_notLe A sqrt pow maxv floor).2 (hrem [y] xs rfl (by simp))
      rw [roulette, Exc.bind_of_ok hy1, ro_sub, hgt]
      have := ih xs (A.rnd (r - y)) (fun u hu => hv u (by simp [hu])) h.2 fun pre post hp hne =>
        hrem (y :: pre) post (by rw [hp]; rfl) (by simp)
      simpa using this

end rounded

/-! ## The failures occur in `f64` -/

section binary64
variable (sqrt : Ext ℚ → Ext ℚ) (pow : Ext ℚ → Ext ℚ → Ext ℚ) (maxv : ℚ) (floor : ℚ → Nat)

/-- One third in `f64`. -/
def third : ℚ := 6004799503160661 / 18014398509481984

theorem third_eq : binary64.rnd (1 / 3) = third := by
  unfold third
  rw [binary64_eq (-2) 6004799503160661 (by norm_num) (by norm_num) (by rw [abs_lt]; norm_num)]; norm_num

theorem third_rnd : binary64.rnd third = third := by rw [← third_eq, binary64.idem]

theorem third_two : binary64.rnd (third + third) = 6004799503160661 / 9007199254740992 := by
  unfold third
  rw [binary64_eq (-1) 6004799503160661 (by norm_num) (by norm_num) (by rw [abs_lt]; norm_num)]; norm_num

theorem third_three : binary64.rnd (6004799503160661 / 9007199254740992 + third) = 1 := by
  unfold third
  rw [binary64_tie (-1) 9007199254740992 (by norm_num) (by norm_num) (by norm_num) (Or.inr (by norm_num))]; norm_num

theorem third_sum : goodnessSum binary64 [third, third, third] = 1 := by
  show binary64.rnd (binary64.rnd (binary64.rnd (0 + third) + third) + third) = 1
  rw [zero_add, third_rnd, third_two, third_three]

theorem third_sub1 : binary64.rnd (1 - third) = 3002399751580331 / 4503599627370496 := by
  unfold third
  rw [binary64_tie (-1) 6004799503160662 (by norm_num) (by norm_num) (by norm_num) (Or.inr (by norm_num))]; norm_num

theorem third_sub2 : binary64.rnd (3002399751580331 / 4503599627370496 - third) = 6004799503160663 / 18014398509481984 := by
  unfold third
  rw [binary64_eq (-2) 6004799503160663 (by norm_num) (by norm_num) (by rw [abs_lt]; norm_num)]; norm_num

theorem third_sub3 : binary64.rnd (6004799503160663 / 18014398509481984 - third) = 1 / 9007199254740992 := by
  unfold third
  rw [binary64_eq (-53) 4503599627370496 (by norm_num) (by norm_num) (by rw [abs_lt]; norm_num)]; norm_num

theorem third_remaining : ∀ pre post, [third, third, third] = pre ++ post → pre ≠ [] → 0 < remaining binary64 1 pre := by
  intro pre post h hne
  match pre, h, hne with
  | [a], h, _ =>
    simp only [List.cons_append, List.nil_append, List.cons.injEq] at h
    obtain ⟨rfl, -⟩ := h
    show 0 < binary64.rnd (1 - third)
    rw [third_sub1]; norm_num
  | [a, b], h, _ =>
    simp only [List.cons_append, List.nil_append, List.cons.injEq] at h
    obtain ⟨rfl, rfl, -⟩ := h
    show 0 < binary64.rnd (binary64.rnd (1 - third) - third)
    rw [third_sub1, third_sub2]; norm_num
  | [a, b, c], h, _ =>
    simp only [List.cons_append, List.nil_append, List.cons.injEq] at h
    obtain ⟨rfl, rfl, rfl, -⟩ := h
    show 0 < binary64.rnd (binary64.rnd (binary64.rnd (1 - third) - third) - third)
    rw [third_sub1, third_sub2, third_sub3]; norm_num
  | a :: b :: c :: e :: t, h, _ => simp at h

/-- Four cities at mutual distance 3. -/
def fourCities : Mat (Ext ℚ) := ⟨4, 4, fun i j => if i = j then .fin 0 else .fin 3⟩

/-- The goodness of the four cities for pheromone 1 and exponents 1. -/
theorem four_goodness (hpow : ∀ x, pow (.fin x) (.fin 1) = .fin x) :
    ∃ g, canonicalGoodness (roundedOps binary64 sqrt pow maxv floor) (.fin 1) (.fin 1)
      (heuristic (roundedOps binary64 sqrt pow maxv floor) fourCities) (constMat 4 1) = .ok g ∧ g.rows = 4 ∧ g.cols = 4 ∧
      ∀ i j, i < 4 → j < 4 → i ≠ j → g.get i j = .fin third := by
  obtain ⟨g, h1, h2, h3, h4⟩ := C88_goodness_entries (A := roundedOps binary64 sqrt pow maxv floor) (alpha := .fin 1) (beta := .fin 1)
    (ph := constMat 4 1) (h := heuristic (roundedOps binary64 sqrt pow maxv floor) fourCities) (n := 4) rfl rfl rfl rfl
  refine ⟨g, h1, h2, h3, fun i j hi hj hij => ?_⟩
  have hw : fourCities.get i j = .fin 3 := by show (if i = j then _ else _) = _; rw [if_neg hij]
  have hz : (roundedOps binary64 sqrt pow maxv floor).eq (fourCities.get i j) (roundedOps binary64 sqrt pow maxv floor).zero = false := by
    rw [hw]; exact ex_eq_zero sqrt pow maxv floor (by norm_num)
  rw [h4 i j hi hj, (C94_heuristic _ i j).2.2.2 hz, hw]
  have e1 : (roundedOps binary64 sqrt pow maxv floor).div (roundedOps binary64 sqrt pow maxv floor).one (.fin 3) = .fin third := by
    show Ext.round binary64 (if (3 : ℚ) = 0 then (if (1 : ℚ) = 0 then Ext.nan else Ext.signed 1) else .fin (1 / 3)) = _
    rw [if_neg (by norm_num)]
    show Ext.fin (binary64.rnd (1 / 3)) = _
    rw [third_eq]
  rw [e1]
  show (roundedOps binary64 sqrt pow maxv floor).mul (pow (.fin 1) (.fin 1)) (pow (.fin third) (.fin 1)) = _
  rw [hpow, hpow, ro_mul, one_mul, third_rnd]

/-- **C126, a stuck ant.** In `f64` arithmetic, on four cities at mutual distance 3 with pheromone 1 and exponents 1, an ant at any city gets
stuck in its first step if the roulette draws the upper end of its range, whatever the iteration order of the hash set. -/
theorem C126_ant_gets_stuck (hpow : ∀ x, pow (.fin x) (.fin 1) = .fin x) {g : Mat (Ext ℚ)}
    (hg : canonicalGoodness (roundedOps binary64 sqrt pow maxv floor) (.fin 1) (.fin 1)
      (heuristic (roundedOps binary64 sqrt pow maxv floor) fourCities) (constMat 4 1) = .ok g)
    {a : Ant (Ext ℚ)} (ha : Building 4 a) (hs : a.stuck = false) (h1 : a.path.length = 1) (hc : a.exploit = none)
    {d : StepDraw (Ext ℚ)} (hd : d.range (.fin 1) = .fin 1) :
    ∃ b e, a.goNext (roundedOps binary64 sqrt pow maxv floor) g d = .ok (b, e) ∧ b.stuck = true := by
  obtain ⟨g', e1, e2, e3, e4⟩ := four_goodness sqrt pow maxv floor hpow
  rw [hg] at e1
  cases e1
  have hfm : FloatMat binary64 4 g := ⟨e2, e3, fun i j hi hj hij => ⟨third, e4 i j hi hj hij, by unfold third; norm_num, third_rnd⟩⟩
  obtain ⟨last, hl⟩ : ∃ last, a.path.getLast? = some last := by
    cases h : a.path.getLast? with
    | none => exact absurd (List.getLast?_eq_none_iff.1 h) ha.2.1
    | some l => exact ⟨l, rfl⟩
  have hlm : last ∈ a.path := List.mem_of_getLast? hl
  have hnd := (ha.2.2.1 hs).nodup_iff.2 List.nodup_range
  have hdisj : ∀ v ∈ d.ord a.unvisited, v < 4 ∧ last ≠ v := by
    intro v hv
    have hv := (d.perm _).mem_iff.1 hv
    exact ⟨ha.1.2.2 v hv, (List.nodup_append.1 hnd).2.2 last hlm v hv⟩
  have hlen : (d.ord a.unvisited).length = 3 := by
    rw [(d.perm _).length_eq]
    have := (ha.2.2.1 hs).length_eq
    rw [List.length_append, List.length_range, h1] at this
    omega
  have hu : a.unvisited ≠ [] := by
    intro h
    have := (d.perm a.unvisited).length_eq
    rw [hlen, h] at this
    simp at this
  have hmap : (d.ord a.unvisited).map (g.get last) = [third, third, third].map .fin := by
    have : (d.ord a.unvisited).map (g.get last) = (d.ord a.unvisited).map fun _ => Ext.fin third :=
      List.map_congr_left fun v hv => e4 last v (ha.2.2.2 last hlm) (hdisj v hv).1 (hdisj v hv).2
    rw [this, List.map_const', hlen]; rfl
  obtain ⟨xs, k1, k2, k3⟩ := row_values sqrt pow maxv floor hfm (ha.2.2.2 last hlm) (d.ord a.unvisited) hdisj
  have hxs : xs = [third, third, third] := by
    rw [k1] at hmap
    exact List.map_injective_iff.2 (fun x y h => Ext.fin.inj h) hmap
  subst hxs
  have hr : byRoulette (roundedOps binary64 sqrt pow maxv floor) g last (d.ord a.unvisited) d = .ok none := by
    have e1 : rowSum (roundedOps binary64 sqrt pow maxv floor) g last (d.ord a.unvisited) (roundedOps binary64 sqrt pow maxv floor).zero
        = .ok (.fin 1) := by
      rw [← third_sum]; exact k3 0
    have e2 : genRange (roundedOps binary64 sqrt pow maxv floor) d (.fin 1) = .ok (.fin 1) := by
      unfold genRange
      have a1 : (roundedOps binary64 sqrt pow maxv floor).notLe (roundedOps binary64 sqrt pow maxv floor).zero (.fin 1) = false := by
        cases hc : (roundedOps binary64 sqrt pow maxv floor).notLe (roundedOps binary64 sqrt pow maxv floor).zero (.fin 1) with
        | false => rfl
        | true => exact absurd ((ro_notLe binary64 sqrt pow maxv floor).1 hc) (by norm_num)
      have a2 : (roundedOps binary64 sqrt pow maxv floor).lt (.fin 1) (roundedOps binary64 sqrt pow maxv floor).infinity = true :=
        ex_lt_pinf sqrt pow maxv floor
      rw [a1, a2]
      show Except.ok (d.range (.fin 1)) = _
      rw [hd]
    unfold byRoulette
    rw [Exc.bind_of_ok e1, Exc.bind_of_ok e2]
    exact roulette_none sqrt pow maxv floor hfm (ha.2.2.2 last hlm) _ _ 1 hdisj k1 third_remaining
  refine ⟨{ a with stuck := last == last, unvisited := a.unvisited.filter (· ≠ last), path := a.path ++ [last] }, (last, last), ?_, by simp⟩
  unfold Ant.goNext
  rw [hl]
  simp only
  have hch : choose (roundedOps binary64 sqrt pow maxv floor) g last (d.ord a.unvisited) a.exploit d = .ok none := by
    rw [hc]; exact hr
  rw [if_neg (by rw [hs]; simp), if_neg hu, Exc.bind_of_ok hch]
  rfl

/-- A stuck ant stays where it is. -/
theorem walk_stuck {X K : Type} [LinearOrder K] {A : AcoOps X K} {g : Mat X} {d : Nat → StepDraw X} : ∀ (m k : Nat) (a : Ant X),
    a.stuck = true → a.path ≠ [] → Ant.walk A g d k m a = .ok a
  | 0, _, _, _, _ => rfl
  | m + 1, k, a, hs, hp => by
    obtain ⟨l, hl⟩ : ∃ l, a.path.getLast? = some l := by
      cases h : a.path.getLast? with
      | none => exact absurd (List.getLast?_eq_none_iff.1 h) hp
      | some l => exact ⟨l, rfl⟩
    have h1 : a.goNext A g (d k) = .ok (a, (l, l)) := by
      unfold Ant.goNext; rw [hl]; simp only; rw [if_pos hs]
    rw [Ant.walk, Exc.bind_of_ok h1]
    exact walk_stuck m (k + 1) a hs hp

/-- **C126, the run panics.** In `f64` arithmetic the Ant System on these four cities panics in its first iteration if the first draw of the
first ant is the upper end of its range, however many ants there are: that ant is stuck, no path of the iteration is kept, and
there is no best solution to report. -/
theorem C126_ant_system_panics (hpow : ∀ x, pow (.fin x) (.fin 1) = .fin x) {a : Ant (Ext ℚ)} (ha : Ready 4 a) (hc : a.exploit = none)
    (rest : List (Ant (Ext ℚ))) {d : Draws (Ext ℚ)} (hd : ((d 0).step 0 0).range (.fin 1) = .fin 1) (rate : Ext ℚ)
    (best : Sol (Ext ℚ)) (limit fuel : Nat) (hl : 1 ≤ limit) (hf : 1 ≤ fuel) :
    runIterations (roundedOps binary64 sqrt pow maxv floor) (tspAntSystem (roundedOps binary64 sqrt pow maxv floor)
        (canonicalGoodness (roundedOps binary64 sqrt pow maxv floor) (.fin 1) (.fin 1)
          (heuristic (roundedOps binary64 sqrt pow maxv floor) fourCities)) d fourCities rate) fuel
        ⟨0, limit⟩ ⟨(0, a :: rest), (), best, constMat 4 1⟩
      = ([.iterationStart], .panicked .unwrapNone) := by
  obtain ⟨g, hg, -⟩ := four_goodness sqrt pow maxv floor hpow
  obtain ⟨b, hb⟩ := start_exact (s := (d 0).start 0) (by norm_num : 0 < 4) ha
  obtain ⟨b1, b2, b3, b4⟩ := start_ok ha hb
  have hex : b.exploit = none := by
    unfold Ant.start at hb
    split at hb
    · cases hb
    · cases hb; exact hc
  obtain ⟨c, e, h1, h2⟩ := C126_ant_gets_stuck sqrt pow maxv floor hpow hg b1 b2 b3 hex hd
  have hcp : c.path ≠ [] := (goNext_building b1 h1).1.2.1
  have hone : oneAnt (roundedOps binary64 sqrt pow maxv floor) g 4 (d 0) 0 a = .ok c := by
    unfold oneAnt
    rw [Exc.bind_of_ok hb]
    show Ant.walk _ g ((d 0).step 0) 0 3 b = _
    rw [Ant.walk, Exc.bind_of_ok h1]
    exact walk_stuck 2 1 c h2 hcp
  have hloop := C56_stuck_ant_drops_the_rest (ants := rest) hone h2
  obtain ⟨fu, rfl⟩ : ∃ f, fuel = f + 1 := ⟨fuel - 1, by omega⟩
  unfold runIterations IterationCond.init
  rw [runLoop]
  have hchk : (IterationCond.check (⟨0, limit⟩ : IterationCond) (constMat 4 1)).2 = false := by
    unfold IterationCond.check; simp; omega
  rw [if_neg (by rw [hchk]; simp)]
  have hbg : ∀ al : Algo (Ext ℚ) (Mat (Ext ℚ)) (Nat × List (Ant (Ext ℚ))) Unit (Sol (Ext ℚ)),
      al = tspAntSystem (roundedOps binary64 sqrt pow maxv floor)
        (canonicalGoodness (roundedOps binary64 sqrt pow maxv floor) (.fin 1) (.fin 1)
          (heuristic (roundedOps binary64 sqrt pow maxv floor) fourCities)) d fourCities rate →
      buildGrade (roundedOps binary64 sqrt pow maxv floor) al ⟨(0, a :: rest), (), best, constMat 4 1⟩ = .error .unwrapNone := by
    rintro al rfl
    unfold buildGrade
    have e1 : (tspAntSystem (roundedOps binary64 sqrt pow maxv floor)
        (canonicalGoodness (roundedOps binary64 sqrt pow maxv floor) (.fin 1) (.fin 1)
          (heuristic (roundedOps binary64 sqrt pow maxv floor) fourCities)) d fourCities rate).build (0, a :: rest) (constMat 4 1)
        = .ok ((1, c :: rest), [], constMat 4 1) := by
      show asColony _ _ d (0, a :: rest) (constMat 4 1) = _
      unfold asColony antSystem
      rw [Exc.bind_of_ok (show _ = Except.ok (c :: rest, [], constMat 4 1) from
        (Exc.bind_of_ok hg).trans ((Exc.bind_of_ok hloop).trans rfl))]
      rfl
    rw [Exc.bind_of_ok e1]
    rfl
  unfold iterate
  rw [hbg _ rfl]

/-! ### The same cycle, two lengths -/

/-- Three cities at the distances 0.1, 0.2 and 0.3 (as `f64` literals). -/
def triangle (i j : Nat) : ℚ :=
  if i + j = 1 then 3602879701896397 / 36028797018963968
  else if i + j = 3 then 3602879701896397 / 18014398509481984
  else 5404319552844595 / 18014398509481984

theorem tri_0_1 : triangle 0 1 = 3602879701896397 / 36028797018963968 := by norm_num [triangle]
theorem tri_1_2 : triangle 1 2 = 3602879701896397 / 18014398509481984 := by norm_num [triangle]
theorem tri_2_0 : triangle 2 0 = 5404319552844595 / 18014398509481984 := by norm_num [triangle]
theorem tri1 : binary64.rnd (3602879701896397 / 36028797018963968) = 3602879701896397 / 36028797018963968 := by
  rw [binary64_eq (-4) 7205759403792794 (by norm_num) (by norm_num) (by rw [abs_lt]; norm_num)]; norm_num
theorem tri2 : binary64.rnd (3602879701896397 / 18014398509481984) = 3602879701896397 / 18014398509481984 := by
  rw [binary64_eq (-3) 7205759403792794 (by norm_num) (by norm_num) (by rw [abs_lt]; norm_num)]; norm_num
theorem tri12 : binary64.rnd (3602879701896397 / 36028797018963968 + 3602879701896397 / 18014398509481984)
    = 1351079888211149 / 4503599627370496 := by
  rw [binary64_tie (-2) 5404319552844596 (by norm_num) (by norm_num) (by norm_num) (Or.inr (by norm_num))]; norm_num
theorem tri123 : binary64.rnd (1351079888211149 / 4503599627370496 + 5404319552844595 / 18014398509481984)
    = 1351079888211149 / 2251799813685248 := by
  rw [binary64_tie (-1) 5404319552844596 (by norm_num) (by norm_num) (by norm_num) (Or.inr (by norm_num))]; norm_num
theorem tri23 : binary64.rnd (3602879701896397 / 18014398509481984 + 5404319552844595 / 18014398509481984) = 1 / 2 := by
  rw [binary64_eq (-1) 4503599627370496 (by norm_num) (by norm_num) (by rw [abs_lt]; norm_num)]; norm_num
theorem tri231 : binary64.rnd (1 / 2 + 3602879701896397 / 36028797018963968) = 5404319552844595 / 9007199254740992 := by
  rw [binary64_eq (-1) 5404319552844595 (by norm_num) (by norm_num) (by rw [abs_lt]; norm_num)]; norm_num
theorem triA : binary64.rnd (1 / (1351079888211149 / 2251799813685248)) = 3752999689475413 / 2251799813685248 := by
  rw [binary64_eq 0 7505999378950826 (by norm_num) (by norm_num) (by rw [abs_lt]; norm_num)]; norm_num
theorem triB : binary64.rnd (1 / (5404319552844595 / 9007199254740992)) = 7505999378950827 / 4503599627370496 := by
  rw [binary64_eq 0 7505999378950827 (by norm_num) (by norm_num) (by rw [abs_lt]; norm_num)]; norm_num

/-- **C126, one cycle, two fitness values.** In `f64` arithmetic the closed tour through three cities at the (symmetric) distances 0.1, 0.2
and 0.3 gets a greater fitness if it is written from the second city than from the first. -/
theorem C126_rotation_changes_fitness {w : Mat (Ext ℚ)} (hw : FinMat 3 w triangle) :
    ∃ x y, gradeOne (roundedOps binary64 sqrt pow maxv floor) w ⟨[0, 1, 2], .fin 0⟩ = .ok ⟨[0, 1, 2], .fin x⟩ ∧
      gradeOne (roundedOps binary64 sqrt pow maxv floor) w ⟨[0, 1, 2].rotate 1, .fin 0⟩ = .ok ⟨[0, 1, 2].rotate 1, .fin y⟩ ∧ x < y := by
  have l1 : computedLength binary64 triangle [0, 1, 2] = 1351079888211149 / 2251799813685248 := by
    show binary64.rnd (binary64.rnd (binary64.rnd (0 + triangle 0 1) + triangle 1 2) + triangle 2 0) = _
    rw [tri_0_1, tri_1_2, tri_2_0, zero_add, tri1, tri12, tri123]
  have l2 : computedLength binary64 triangle ([0, 1, 2].rotate 1) = 5404319552844595 / 9007199254740992 := by
    show binary64.rnd (binary64.rnd (binary64.rnd (0 + triangle 1 2) + triangle 2 0) + triangle 0 1) = _
    rw [tri_0_1, tri_1_2, tri_2_0, zero_add, tri2, tri23, tri231]
  have g1 := C126_fitness (A := binary64) sqrt pow maxv floor hw (s := ⟨[0, 1, 2], .fin 0⟩)
    (fun v hv => by simp at hv; omega) (by show computedLength binary64 triangle [0, 1, 2] ≠ 0; rw [l1]; norm_num)
  have g2 := C126_fitness (A := binary64) sqrt pow maxv floor hw (s := ⟨[0, 1, 2].rotate 1, .fin 0⟩)
    (fun v hv => by simp at hv; omega) (by show computedLength binary64 triangle ([0, 1, 2].rotate 1) ≠ 0; rw [l2]; norm_num)
  refine ⟨_, _, g1, g2, ?_⟩
  show binary64.rnd (1 / computedLength binary64 triangle [0, 1, 2]) < binary64.rnd (1 / computedLength binary64 triangle ([0, 1, 2].rotate 1))
  rw [l1, l2, triA, triB]
  norm_num

end binary64

/-! ## Examples -/

/-- A draw that always takes the upper end. -/
def topDraw : StepDraw (Ext ℚ) := ⟨List.reverse, fun l => List.reverse_perm l, .fin 0, fun s => s⟩

/-- A draw of 0. -/
def lowDraw : StepDraw (Ext ℚ) := ⟨id, fun _ => List.Perm.refl _, .fin 0, fun _ => .fin 0⟩

theorem lowDraw_ok : DrawOk binary64 lowDraw := fun _ hs => ⟨0, rfl, le_refl _, hs, binary64.zero⟩

/-- The hypotheses of the run that panics are met: two canonical ants and draws at the upper end. -/
example : runIterations (roundedOps binary64 id (fun x _ => x) 1000 (fun _ => 0))
    (tspAntSystem (roundedOps binary64 id (fun x _ => x) 1000 (fun _ => 0))
      (canonicalGoodness (roundedOps binary64 id (fun x _ => x) 1000 (fun _ => 0)) (.fin 1) (.fin 1)
        (heuristic (roundedOps binary64 id (fun x _ => x) 1000 (fun _ => 0)) fourCities))
      (fun _ => ⟨fun k => k, fun _ _ => topDraw⟩) fourCities (.fin (1 / 2))) 10 ⟨0, 5⟩
      ⟨(0, [Ant.canonical 4, Ant.canonical 4]), (), Sol.default (roundedOps binary64 id (fun x _ => x) 1000 (fun _ => 0)), constMat 4 1⟩
    = ([.iterationStart], .panicked .unwrapNone) :=
  C126_ant_system_panics id (fun x _ => x) 1000 (fun _ => 0) (fun _ => rfl) (ready_canonical 4) rfl [Ant.canonical 4] rfl _ _ 5 10
    (by norm_num) (by norm_num)

/-- The draw of the stuck ant is at the end of its range, as `C126_stuck_only_near_end` says it has to be. -/
example : goodnessSum binary64 [third, third, third] < (1 + (1 / 2) ^ 53) ^ (2 * 3) * 1 := by rw [third_sum]; norm_num

/-- The Ant Colony System on four vertices with goodness `third` everywhere, in `f64`. -/
example : ∃ ants' paths ph', antColonySystem (roundedOps binary64 id (fun x _ => x) 1000 (fun _ => 0)) (fun _ => .ok (constMat 4 third))
    (.decay (.fin (1 / 2))) ⟨fun k => k, fun _ _ => lowDraw⟩ [Ant.canonical 4, Ant.canonical 4] (constMat 4 1) = .ok (ants', paths, ph') ∧
      paths.length ≤ 2 ∧ (∀ p ∈ paths, IsTour 4 p) ∧ Entries (NonnegFloat binary64) 4 ph' :=
  C126_acs_tours id (fun x _ => x) 1000 (fun _ => 0) (by norm_num) (by norm_num) (Entries (NonnegFloat binary64) 4)
    ⟨fun _ _ => 1, ⟨rfl, rfl, fun _ _ _ _ => rfl⟩, fun _ _ _ _ => ⟨by norm_num, binary64.one⟩⟩ rfl
    (fun a ha => by
      simp only [List.mem_cons, List.not_mem_nil, or_false, or_self] at ha
      rw [ha]; exact ready_canonical 4)
    (fun _ _ => ⟨_, rfl, rfl, rfl, fun _ _ _ _ _ => ⟨third, rfl, by unfold third; norm_num, third_rnd⟩⟩)
    (fun m ps hm hps => C126_local_update_nonneg id (fun x _ => x) 1000 (fun _ => 0) (l := .decay (.fin (1 / 2)))
      ⟨1 / 2, rfl, by norm_num⟩ ps m hm hps)
    (fun _ _ => lowDraw_ok)

/-- The triangle as a matrix. -/
example : FinMat 3 (⟨3, 3, fun i j => .fin (triangle i j)⟩ : Mat (Ext ℚ)) triangle := ⟨rfl, rfl, fun _ _ _ _ => rfl⟩

example : NonnegFloat binary64 third := ⟨by unfold third; norm_num, third_rnd⟩

/-! ## Every theorem on a concrete case -/

section instances

theorem thirds_float : FloatMat binary64 4 (constMat 4 third) :=
  ⟨rfl, rfl, fun _ _ _ _ _ => ⟨third, rfl, by unfold third; norm_num, third_rnd⟩⟩

/-- An ant that has visited vertices 0 and 1 of four, … -/
def halfway : Ant (Ext ℚ) := ⟨[2, 3], [0, 1], 4, false, none⟩

theorem halfway_building : Building 4 halfway := ⟨⟨rfl, by simp [halfway], by simp [halfway]⟩, by decide, by decide, by decide⟩

/-- … and one that has only vertex 3 left. -/
def almostDone : Ant (Ext ℚ) := ⟨[3], [0, 1, 2], 4, false, none⟩

theorem almostDone_building : Building 4 almostDone :=
  ⟨⟨rfl, by simp [almostDone], by simp [almostDone]⟩, by decide, by decide, by decide⟩

theorem onesMat_entries : Entries (NonnegFloat binary64) 4 (constMat 4 1) :=
  ⟨fun _ _ => 1, ⟨rfl, rfl, fun _ _ _ _ => rfl⟩, fun _ _ _ _ => ⟨by norm_num, binary64.one⟩⟩

/-- The triangle as a matrix. -/
def triangleMat : Mat (Ext ℚ) := ⟨3, 3, fun i j => .fin (triangle i j)⟩

theorem triangleMat_fin : FinMat 3 triangleMat triangle := ⟨rfl, rfl, fun _ _ _ _ => rfl⟩

theorem someTour_range (f : Ext ℚ) : InRange 4 (⟨[2, 0, 3, 1], f⟩ : Sol (Ext ℚ)) := by intro v hv; simp at hv; omega

theorem someTour_float : FloatSol binary64 4 ⟨[2, 0, 3, 1], .fin third⟩ :=
  ⟨someTour_range _, third, rfl, by unfold third; norm_num, third_rnd⟩

theorem someTours_float : ∀ s ∈ [(⟨[2, 0, 3, 1], .fin third⟩ : Sol (Ext ℚ)), ⟨[2, 0, 3, 1], .fin third⟩], FloatSol binary64 4 s := by
  intro s hs; simp at hs; subst hs; exact someTour_float

example := C126_stuck_draw id (fun x _ => x) 1000 (fun _ => 0) (by norm_num) thirds_float halfway_building rfl (by decide) lowDraw_ok
example := C126_last_step id (fun x _ => x) 1000 (fun _ => 0) (by norm_num) thirds_float almostDone_building rfl rfl lowDraw_ok
example := C126_stuck_only_near_end id (fun x _ => x) 1000 (fun _ => 0) (by norm_num) binary64_relErr thirds_float halfway_building rfl
  (by decide) lowDraw_ok
example (hc : computedLength binary64 triangle [0, 1, 2] ≠ 0) := C126_fitness (A := binary64) id (fun x _ => x) 1000 (fun _ => 0)
  triangleMat_fin (s := ⟨[0, 1, 2], .fin 0⟩) (by intro v hv; simp at hv; omega) hc
example := C126_length_error binary64_relErr (f := lineF) (p := [2, 0, 3, 1]) (fun _ _ => abs_nonneg _)
example := C126_fitter_if_clearly_shorter id (fun x _ => x) 1000 (fun _ => 0) binary64_relErr (n := 4)
  (w := ⟨4, 4, fun i j => .fin (lineF i j)⟩) (f := lineF)
  ⟨by decide, ⟨rfl, rfl, fun _ _ _ _ => rfl⟩, fun i j _ _ hij => by
    unfold lineF; rw [abs_pos, sub_ne_zero]; exact_mod_cast hij⟩
  (p := [0, 1, 2, 3]) (q := [0, 2, 1, 3]) (by unfold IsTour; decide) (by unfold IsTour; decide) (by decide +kernel)
example := C126_pheromone_nonneg id (fun x _ => x) 1000 (fun _ => 0) (rho := 1 / 2) (by norm_num) (by norm_num) someTour_float
  someTours_float onesMat_entries
example := C126_max_min_upper (A := binary64) id (fun x _ => x) 1000 (fun _ => 0) (n := 4) (rho := 1 / 2) (lo := 0) (hi := 1) (by norm_num)
  (by norm_num) ⟨le_refl _, binary64.zero⟩ binary64.one (by norm_num) someTour_float someTours_float (ph := constMat 4 1)
  ⟨fun _ _ => 1, ⟨rfl, rfl, fun _ _ _ _ => rfl⟩, fun _ _ _ _ => ⟨⟨by norm_num, binary64.one⟩, le_refl _⟩⟩
  (policy := fun b ss => ss.headD b) (fun b ss => by cases ss <;> simp)
example {g : Mat (Ext ℚ)} (hg : canonicalGoodness (roundedOps binary64 id (fun x _ => x) 1000 (fun _ => 0)) (.fin 1) (.fin 1)
      (heuristic (roundedOps binary64 id (fun x _ => x) 1000 (fun _ => 0)) fourCities) (constMat 4 1) = .ok g) :=
  C126_ant_gets_stuck id (fun x _ => x) 1000 (fun _ => 0) (fun _ => rfl) hg (a := ⟨[1, 2, 3], [0], 4, false, none⟩)
    ⟨⟨rfl, by simp, by simp⟩, by decide, by decide, by decide⟩ rfl rfl rfl (d := topDraw) rfl
example := C126_rotation_changes_fitness id (fun x _ => x) 1000 (fun _ => 0) triangleMat_fin

end instances

end Ecrs.Aco
