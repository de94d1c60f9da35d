import Verif.Ga.Selection
import Verif.Float.Rounding

/-!
# The sampling selections in rounded arithmetic (src/ga/operators/selection/impls.rs)

The same code as `selRoulette` and `selSus` in `Ga/Selection`, with a rounding after every arithmetic operation, as `f64` performs it.
-/

set_option linter.unusedSectionVars false

namespace Ecrs.Ga
open Ecrs

variable {G K I : Type} [Field K] [LinearOrder K] [IsStrictOrderedRing K] (A : Rounding K)

/-- Models `population.iter().map(|indiv| indiv.fitness()).sum()` (impls.rs:81, 561): additions from the left, starting at zero, each
rounded. -/
def rsum (l : List K) : K := l.foldl (fun s x => A.rnd (s + x)) 0

/-- Models the inner loop of `RouletteWheel::apply` (impls.rs:89-97). -/
def roulettePickR (fit : I → K) (threshold : K) : K → List I → Option I
  | _, [] => none
  | s, x :: xs => if threshold ≤ A.rnd (s + fit x) then some x else roulettePickR fit threshold (A.rnd (s + fit x)) xs

/-- Models `RouletteWheel::apply` (impls.rs:80-100); the draws are listed first (see `selRoulette`). -/
def selRouletteR (R : Rng G K) (fit : I → K) (count : Nat) (pop : List I) : M G (List I) := do
  let us ← M.replicate count R.genUnit
  pure (us.filterMap fun u => roulettePickR A fit (A.rnd (rsum A (pop.map fit) * u)) 0 pop)

/-- Models the `while` of `StochasticUniversalSampling::apply` (impls.rs:575-578). -/
def susWhileR (d sum : K) : Nat → K → M G (Nat × K)
  | 0, _ => M.fail .outOfFuel
  | fuel + 1, ptr =>
    if ptr ≤ sum then do
      let (k, ptr') ← susWhileR d sum fuel (A.rnd (ptr + d))
      pure (k + 1, ptr')
    else pure (0, ptr)

/-- Models the `for` of `StochasticUniversalSampling::apply` (impls.rs:572-579). -/
def susGoR (fit : I → K) (d : K) (fuel : Nat) : K → K → List I → M G (List I)
  | _, _, [] => pure []
  | sum, ptr, x :: xs => do
    let (k, ptr') ← susWhileR A d (A.rnd (sum + fit x)) fuel ptr
    let rest ← susGoR fit d fuel (A.rnd (sum + fit x)) ptr' xs
    pure (List.replicate k x ++ rest)

/-- Models `StochasticUniversalSampling::apply` (impls.rs:559-584). -/
def selSusR (R : FRng G K) (fit : I → K) (fuel count : Nat) (pop : List I) : M G (List I) := do
  let d := A.rnd (rsum A (pop.map fit) / A.rnd (count : K))
  M.assert (decide (0 < d))
  let ptr ← R.genBetween 0 d
  let sel ← susGoR A fit d fuel 0 ptr pop
  M.assert (sel.length == count)
  pure sel

/-! With exact arithmetic these are the operators of `Ga/Selection`. -/

theorem rsum_exact (l : List K) : rsum (exact K) l = l.sum := by
  have key : ∀ (l : List K) (s : K), l.foldl (fun s x => (exact K).rnd (s + x)) s = s + l.sum := by
    intro l
    induction l with
    | nil => intro s; simp
    | cons a l ih => intro s; rw [List.foldl_cons, ih, List.sum_cons, ← add_assoc]; rfl
  rw [rsum, key, zero_add]

theorem roulettePickR_exact (fit : I → K) (t : K) : ∀ (pop : List I) (s : K),
    roulettePickR (exact K) fit t s pop = roulettePick fit t s pop := by
  intro pop
  induction pop with
  | nil => intro s; rfl
  | cons a l ih => intro s; unfold roulettePickR roulettePick; rw [ih]; rfl

theorem selRouletteR_exact (R : Rng G K) (fit : I → K) (count : Nat) (pop : List I) :
    selRouletteR (exact K) R fit count pop = selRoulette R fit count pop := by
  unfold selRouletteR selRoulette
  simp only [roulettePickR_exact, rsum_exact]; rfl

theorem susWhileR_exact (d sum : K) : ∀ (fuel : Nat) (ptr : K),
    susWhileR (G := G) (exact K) d sum fuel ptr = susWhile d sum fuel ptr := by
  intro fuel
  induction fuel with
  | zero => intro ptr; rfl
  | succ n ih => intro ptr; unfold susWhileR susWhile; rw [ih]; rfl

theorem susGoR_exact (fit : I → K) (d : K) (fuel : Nat) : ∀ (pop : List I) (sum ptr : K),
    susGoR (G := G) (exact K) fit d fuel sum ptr pop = susGo fit d fuel sum ptr pop := by
  intro pop
  induction pop with
  | nil => intro _ _; rfl
  | cons a l ih =>
    intro sum ptr
    unfold susGoR susGo
    rw [susWhileR_exact]
    have : ∀ p, susGoR (G := G) (exact K) fit d fuel ((exact K).rnd (sum + fit a)) p l = susGo fit d fuel (sum + fit a) p l := fun p => ih _ _
    simp only [this]; rfl

theorem selSusR_exact (R : FRng G K) (fit : I → K) (fuel count : Nat) (pop : List I) :
    selSusR (exact K) R fit fuel count pop = selSus R fit fuel count pop := by
  unfold selSusR selSus
  simp only [susGoR_exact, rsum_exact]; rfl

/-! ## Lemmas -/

section
variable {A} {fit : I → K}

theorem foldl_rounded (l : List K) (s : K) (hs : A.rnd s = s) : A.rnd (l.foldl (fun s x => A.rnd (s + x)) s) = l.foldl (fun s x => A.rnd (s + x)) s := by
  induction l generalizing s with
  | nil => exact hs
  | cons a l ih => exact ih _ (A.idem _)

theorem rsum_rounded (l : List K) : A.rnd (rsum A l) = rsum A l := foldl_rounded l 0 A.zero

theorem foldl_ge (l : List K) (h : ∀ x ∈ l, 0 ≤ x) (s : K) (hs : A.rnd s = s) : s ≤ l.foldl (fun s x => A.rnd (s + x)) s := by
  induction l generalizing s with
  | nil => exact le_rfl
  | cons a l ih =>
    refine le_trans ?_ (ih (fun x hx => h x (by simp [hx])) _ (A.idem _))
    calc s = A.rnd s := hs.symm
      _ ≤ A.rnd (s + a) := A.mono (by linarith [h a (by simp)])

theorem rsum_nonneg {l : List K} (h : ∀ x ∈ l, 0 ≤ x) : 0 ≤ rsum A l := foldl_ge l h 0 A.zero

theorem roulettePickR_some : ∀ (pop : List I) (t s : K) (x : I), roulettePickR A fit t s pop = some x →
    ∃ pre post, pop = pre ++ x :: post ∧ t ≤ A.rnd ((pre.map fit).foldl (fun s x => A.rnd (s + x)) s + fit x) ∧
      ∀ p y q, pre = p ++ y :: q → A.rnd ((p.map fit).foldl (fun s x => A.rnd (s + x)) s + fit y) < t
  | [], t, s, x, h => by simp [roulettePickR] at h
  | y :: ys, t, s, x, h => by
    unfold roulettePickR at h
    by_cases hy : t ≤ A.rnd (s + fit y)
    · rw [if_pos hy] at h
      cases h
      refine ⟨[], ys, rfl, hy, ?_⟩
      intro p z q hp
      cases p <;> simp at hp
    · rw [if_neg hy] at h
      obtain ⟨pre, post, h1, h2, h3⟩ := roulettePickR_some ys t _ x h
      refine ⟨y :: pre, post, by rw [h1]; rfl, h2, ?_⟩
      intro p z q hp
      cases p with
      | nil =>
        simp only [List.nil_append, List.cons.injEq] at hp
        obtain ⟨rfl, -⟩ := hp
        exact not_le.1 hy
      | cons a p =>
        simp only [List.cons_append, List.cons.injEq] at hp
        obtain ⟨rfl, hp⟩ := hp
        exact h3 p z q hp

theorem roulettePickR_isSome : ∀ (pop : List I) (t s : K), pop ≠ [] → t ≤ (pop.map fit).foldl (fun s x => A.rnd (s + x)) s →
    ∃ x, roulettePickR A fit t s pop = some x
  | [], _, _, h, _ => absurd rfl h
  | y :: ys, t, s, _, h => by
    unfold roulettePickR
    by_cases hy : t ≤ A.rnd (s + fit y)
    · exact ⟨y, by rw [if_pos hy]⟩
    · rw [if_neg hy]
      cases ys with
      | nil => exact absurd h hy
      | cons z zs => exact roulettePickR_isSome (z :: zs) t _ (by simp) h

/-- The pointers: each is the rounded sum of the one before and `d`. -/
def pointer (A : Rounding K) (d p0 : K) (k : Nat) : K := (fun p => A.rnd (p + d))^[k] p0

theorem pointer_succ (d p0 : K) (k : Nat) : pointer A d p0 (k + 1) = A.rnd (pointer A d p0 k + d) := by
  unfold pointer; rw [Function.iterate_succ_apply']

theorem pointer_shift (d p0 : K) (k : Nat) : pointer A d (A.rnd (p0 + d)) k = pointer A d p0 (k + 1) := rfl

theorem pointer_add (d p0 : K) (a k : Nat) : pointer A d (pointer A d p0 a) k = pointer A d p0 (a + k) := by
  unfold pointer; rw [← Function.iterate_add_apply, Nat.add_comm]

theorem pointer_mono {d p0 : K} (hd : 0 ≤ d) (h0 : A.rnd p0 = p0) {a b : Nat} (h : a ≤ b) : pointer A d p0 a ≤ pointer A d p0 b := by
  have fixed : ∀ k, A.rnd (pointer A d p0 k) = pointer A d p0 k := by
    intro k
    cases k with
    | zero => exact h0
    | succ k => rw [pointer_succ, A.idem]
  induction h with
  | refl => exact le_rfl
  | step _ ih =>
    refine ih.trans ?_
    rw [pointer_succ]
    calc _ = A.rnd _ := (fixed _).symm
      _ ≤ _ := A.mono (by linarith)

theorem susWhileR_spec (d sum : K) : ∀ (fuel : Nat) (ptr : K), IfReturns (susWhileR (G := G) A d sum fuel ptr) fun r =>
    r.2 = pointer A d ptr r.1 ∧ (∀ j < r.1, pointer A d ptr j ≤ sum) ∧ sum < pointer A d ptr r.1 := by
  intro fuel
  induction fuel with
  | zero => intro ptr; exact IfReturns.fail
  | succ n ih =>
    intro ptr
    unfold susWhileR
    by_cases h : ptr ≤ sum
    · rw [if_pos h]
      refine IfReturns.bind (ih _) fun r hr => IfReturns.pure ?_
      refine ⟨hr.1, ?_, hr.2.2⟩
      intro j hj
      cases j with
      | zero => exact h
      | succ j => exact hr.2.1 j (by simpa using hj)
    · rw [if_neg h]
      exact IfReturns.pure ⟨rfl, fun j hj => absurd hj (Nat.not_lt_zero j), not_le.1 h⟩

theorem susWhileR_returns (d sum : K) : ∀ (fuel : Nat) (ptr : K) (k : Nat), k < fuel → sum < pointer A d ptr k →
    Returns (susWhileR (G := G) A d sum fuel ptr) fun r =>
      r.2 = pointer A d ptr r.1 ∧ (∀ j < r.1, pointer A d ptr j ≤ sum) ∧ sum < pointer A d ptr r.1 := by
  intro fuel
  induction fuel with
  | zero => intro ptr k hk; omega
  | succ n ih =>
    intro ptr k hk hs
    unfold susWhileR
    by_cases h : ptr ≤ sum
    · rw [if_pos h]
      cases k with
      | zero => exact absurd h (not_le.2 hs)
      | succ k =>
        refine Returns.bind (ih _ k (by omega) hs) fun r hr => Returns.pure ?_
        refine ⟨hr.1, ?_, hr.2.2⟩
        intro j hj
        cases j with
        | zero => exact h
        | succ j => exact hr.2.1 j (by simpa using hj)
    · rw [if_neg h]
      exact Returns.pure ⟨rfl, fun j hj => absurd hj (Nat.not_lt_zero j), not_le.1 h⟩

/-- What the loop over the population collects: one individual per pointer up to the total, in population order. -/
theorem susGoR_spec (d : K) (fuel : Nat) : ∀ (pop : List I) (sum p0 : K) (a : Nat), A.rnd sum = sum → (∀ y ∈ pop, 0 ≤ fit y) →
    (∀ j < a, pointer A d p0 j ≤ sum) → (pop = [] → sum < pointer A d p0 a) →
    IfReturns (susGoR (G := G) A fit d fuel sum (pointer A d p0 a) pop) fun sel =>
      (∃ copies : List Nat, copies.length = pop.length ∧ sel = (List.zipWith List.replicate copies pop).flatten) ∧
      (∀ j < a + sel.length, pointer A d p0 j ≤ (pop.map fit).foldl (fun s x => A.rnd (s + x)) sum) ∧
      (pop.map fit).foldl (fun s x => A.rnd (s + x)) sum < pointer A d p0 (a + sel.length) := by
  intro pop
  induction pop with
  | nil =>
    intro sum p0 a _ _ h1 h2
    exact IfReturns.pure ⟨⟨[], rfl, rfl⟩, h1, h2 rfl⟩
  | cons y ys ih =>
    intro sum p0 a hs hf h1 _
    unfold susGoR
    refine IfReturns.bind (susWhileR_spec d _ fuel _) fun r hr => ?_
    obtain ⟨k, ptr'⟩ := r
    obtain ⟨e1, e2, e3⟩ := hr
    simp only at e1 e2 e3
    rw [pointer_add] at e1 e3
    have hle : sum ≤ A.rnd (sum + fit y) := by
      calc sum = A.rnd sum := hs.symm
        _ ≤ _ := A.mono (by linarith [hf y (by simp)])
    have h1' : ∀ j < a + k, pointer A d p0 j ≤ A.rnd (sum + fit y) := by
      intro j hj
      by_cases hja : j < a
      · exact (h1 j hja).trans hle
      · have := e2 (j - a) (by omega)
        rw [pointer_add, show a + (j - a) = j by omega] at this
        exact this
    subst e1
    refine IfReturns.bind (ih _ p0 (a + k) (A.idem _) (fun z hz => hf z (by simp [hz])) h1' (fun _ => e3)) fun rest hrest => IfReturns.pure ?_
    obtain ⟨⟨copies, hc1, hc2⟩, hr1, hr2⟩ := hrest
    have hlen : a + (List.replicate k y ++ rest).length = a + k + rest.length := by simp; omega
    rw [hlen]
    exact ⟨⟨k :: copies, by simp [hc1], by simp [hc2]⟩, hr1, hr2⟩

theorem susGoR_returns (d : K) (fuel c : Nat) (hd : 0 ≤ d) (hfuel : c < fuel) : ∀ (pop : List I) (sum p0 : K) (a : Nat), A.rnd p0 = p0 →
    A.rnd sum = sum → (∀ y ∈ pop, 0 ≤ fit y) → (pop.map fit).foldl (fun s x => A.rnd (s + x)) sum < pointer A d p0 c →
    Returns (susGoR (G := G) A fit d fuel sum (pointer A d p0 a) pop) fun _ => True := by
  intro pop
  induction pop with
  | nil => intro sum p0 a _ _ _ _; exact Returns.pure trivial
  | cons y ys ih =>
    intro sum p0 a h0 hs hf hc
    have hle : A.rnd (sum + fit y) ≤ (ys.map fit).foldl (fun s x => A.rnd (s + x)) (A.rnd (sum + fit y)) :=
      foldl_ge _ (by simpa using fun z hz => hf z (by simp [hz])) _ (A.idem _)
    have hlt : A.rnd (sum + fit y) < pointer A d p0 (a + c) :=
      lt_of_le_of_lt hle (lt_of_lt_of_le hc (pointer_mono hd h0 (by omega)))
    unfold susGoR
    refine Returns.bind (susWhileR_returns d _ fuel _ c hfuel (by rw [pointer_add]; exact hlt)) fun r hr => ?_
    obtain ⟨k, ptr'⟩ := r
    have e1 : ptr' = pointer A d (pointer A d p0 a) k := hr.1
    rw [pointer_add] at e1
    subst e1
    exact Returns.bind (ih _ p0 _ h0 (A.idem _) (fun z hz => hf z (by simp [hz])) hc) fun rest _ => Returns.pure trivial

end
end Ecrs.Ga
