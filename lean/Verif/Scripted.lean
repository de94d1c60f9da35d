import Verif.FRng
import Mathlib.Algebra.Order.Ring.Rat
import Mathlib.Tactic.NormNum

/-!
# Which outcomes of a random operator are possible

The operators are modelled for an arbitrary generator obeying the contract of `Rng`; theorems of the form
"for every generator …" say what cannot happen.  To say what *can* happen, a generator is called full when it
excludes no answer: whatever a draw is to answer, and in whatever state the generator is to be afterwards,
there is a state from which it does so.  `scripted` is such a generator.
-/

namespace Ecrs

/-- `x` is a possible outcome of `m`, whatever is to happen afterwards: for each state there is a state from
which `m` returns `x` and leaves that state. -/
def CanYield {W α : Type} (m : M W α) (x : α) : Prop := ∀ w', ∃ w, m w = .ok (x, w')

/-- `x` is a possible outcome of `m`. -/
def MayYield {W α : Type} (m : M W α) (x : α) : Prop := ∃ w w', m w = .ok (x, w')

/-- The generator excludes no answer allowed by its contract. -/
structure Rng.Full {G U : Type} [LinearOrder U] [Zero U] [One U] (R : Rng G U) : Prop where
  inhabited : Nonempty G
  below : ∀ lo hi v g', lo ≤ v → v < hi → ∃ g, R.below g lo hi = (v, g')
  upto : ∀ lo hi v g', lo ≤ v → v ≤ hi → ∃ g, R.upto g lo hi = (v, g')
  unit : ∀ u g', 0 ≤ u → u < 1 → ∃ g, R.unit g = (u, g')
  coin : ∀ b g', ∃ g, R.coin g = (b, g')
  sample : ∀ n k l g', l.length = k → l.Nodup → (∀ i ∈ l, i < n) → ∃ g, R.sample g n k = (l, g')
  shuffle : ∀ n l g', l.Perm (List.range n) → ∃ g, R.shuffle g n = (l, g')
  threadBelow : ∀ lo hi v g', lo ≤ v → v < hi → ∃ g, R.threadBelow g lo hi = (v, g')

section
variable {W α β : Type}

theorem CanYield.may [Nonempty W] {m : M W α} {x : α} (h : CanYield m x) : MayYield m x := by
  obtain ⟨w'⟩ := ‹Nonempty W›
  obtain ⟨w, hw⟩ := h w'
  exact ⟨w, w', hw⟩

theorem CanYield.pure {x : α} : CanYield (Pure.pure x : M W α) x := fun w' => ⟨w', rfl⟩

theorem CanYield.bind {m : M W α} {f : α → M W β} {x : α} {y : β} (hm : CanYield m x)
    (hf : CanYield (f x) y) : CanYield (m >>= f) y := by
  intro w'
  obtain ⟨w1, h1⟩ := hf w'
  obtain ⟨w, h⟩ := hm w1
  exact ⟨w, by rw [M.bind_of_ok h, h1]⟩

theorem CanYield.bind_pure {m : M W α} {f : α → β} {x : α} (hm : CanYield m x) :
    CanYield (m >>= fun a => Pure.pure (f a)) (f x) := hm.bind .pure

theorem MayYield.bind_pure {m : M W α} {f : α → β} {x : α} (hm : MayYield m x) :
    MayYield (m >>= fun a => Pure.pure (f a)) (f x) := by
  obtain ⟨w, w', h⟩ := hm
  exact ⟨w, w', by rw [M.bind_of_ok h]; rfl⟩

theorem CanYield.assert {c : Bool} {p : Panic} (h : c = true) : CanYield (M.assert c p : M W Unit) () := by
  subst h; exact fun w' => ⟨w', rfl⟩

theorem CanYield.ofExcept {x : Except Panic α} {a : α} (h : x = .ok a) : CanYield (M.ofExcept x : M W α) a := by
  subst h; exact fun w' => ⟨w', rfl⟩

theorem CanYield.forEach {f : α → M W β} : ∀ {xs : List α} {ys : List β},
    List.Forall₂ (fun a b => CanYield (f a) b) xs ys → CanYield (M.forEach f xs) ys
  | _, _, .nil => .pure
  | _, _, .cons h hs => by
    unfold M.forEach
    exact h.bind ((CanYield.forEach hs).bind .pure)

theorem CanYield.replicate {f : M W β} {n : Nat} {ys : List β} (hl : ys.length = n)
    (h : ∀ y ∈ ys, CanYield f y) : CanYield (M.replicate n f) ys := by
  subst hl
  induction ys with
  | nil => exact .pure
  | cons y ys ih =>
    exact (h y (by simp)).bind ((ih fun z hz => h z (by simp [hz])).bind .pure)

/-- A chain of states through which a fold can pass. -/
theorem CanYield.fold {f : β → α → M W β} : ∀ {xs : List α} {s t : β} {Q : List α → β → Prop},
    Q xs s → (∀ x xs s, Q (x :: xs) s → ∃ s', CanYield (f s x) s' ∧ Q xs s') → (∀ s, Q [] s → s = t) →
    CanYield (M.fold f s xs) t
  | [], s, t, Q, h, _, hn => by rw [← hn s h]; exact .pure
  | x :: xs, s, t, Q, h, hs, hn => by
    obtain ⟨s', h1, h2⟩ := hs x xs s h
    unfold M.fold
    exact h1.bind (CanYield.fold h2 hs hn)

end

section
variable {G U α : Type} [LinearOrder U] [Zero U] [One U] {R : Rng G U}

theorem Rng.Full.genRange (hR : R.Full) {lo hi v : Nat} (h1 : lo ≤ v) (h2 : v < hi) :
    CanYield (R.genRange lo hi) v := by
  intro g'
  obtain ⟨g, hg⟩ := hR.below lo hi v g' h1 h2
  refine ⟨g, ?_⟩
  unfold Rng.genRange; rw [if_pos (by omega)]; exact congrArg Except.ok hg

theorem Rng.Full.genRangeIncl (hR : R.Full) {lo hi v : Nat} (h1 : lo ≤ v) (h2 : v ≤ hi) :
    CanYield (R.genRangeIncl lo hi) v := by
  intro g'
  obtain ⟨g, hg⟩ := hR.upto lo hi v g' h1 h2
  refine ⟨g, ?_⟩
  unfold Rng.genRangeIncl; rw [if_pos (by omega)]; exact congrArg Except.ok hg

theorem Rng.Full.threadRange (hR : R.Full) {lo hi v : Nat} (h1 : lo ≤ v) (h2 : v < hi) :
    CanYield (R.threadRange lo hi) v := by
  intro g'
  obtain ⟨g, hg⟩ := hR.threadBelow lo hi v g' h1 h2
  refine ⟨g, ?_⟩
  unfold Rng.threadRange; rw [if_pos (by omega)]; exact congrArg Except.ok hg

theorem Rng.Full.genUnit (hR : R.Full) {u : U} (h1 : 0 ≤ u) (h2 : u < 1) : CanYield R.genUnit u := by
  intro g'
  obtain ⟨g, hg⟩ := hR.unit u g' h1 h2
  exact ⟨g, congrArg Except.ok hg⟩

theorem Rng.Full.genCoin (hR : R.Full) (b : Bool) : CanYield R.genCoin b := by
  intro g'
  obtain ⟨g, hg⟩ := hR.coin b g'
  exact ⟨g, congrArg Except.ok hg⟩

theorem Rng.Full.indexSample (hR : R.Full) {n k : Nat} {l : List Nat} (h1 : l.length = k) (h2 : l.Nodup)
    (h3 : ∀ i ∈ l, i < n) (hk : k ≤ n) : CanYield (R.indexSample n k) l := by
  intro g'
  obtain ⟨g, hg⟩ := hR.sample n k l g' h1 h2 h3
  refine ⟨g, ?_⟩
  unfold Rng.indexSample; rw [if_pos hk]; exact congrArg Except.ok hg

theorem Rng.Full.genShuffle (hR : R.Full) {n : Nat} {l : List Nat} (h : l.Perm (List.range n)) :
    CanYield (R.genShuffle n) l := by
  intro g'
  obtain ⟨g, hg⟩ := hR.shuffle n l g' h
  exact ⟨g, congrArg Except.ok hg⟩

theorem CanYield.onClone (hs : R.clonesShareState = true) {m : M G α} {x : α} (h : CanYield m x) :
    CanYield (R.onClone m) x := by
  intro g'
  obtain ⟨g, hg⟩ := h g'
  exact ⟨g, by unfold Rng.onClone; rw [hg]; simp only [hs]; rfl⟩

theorem MayYield.onClone {m : M G α} {x : α} (h : MayYield m x) : MayYield (R.onClone m) x := by
  obtain ⟨g, g', hg⟩ := h
  exact ⟨g, if R.clonesShareState then g' else g, by unfold Rng.onClone; rw [hg]⟩

end

/-! ## A full generator -/

/-- An answer written down in advance. -/
structure Answer where
  nat : Nat := 0
  unit : ℚ := 0
  coin : Bool := false
  list : List Nat := []

/-- The next written answer if the contract allows it, else a fallback. -/
def nextAnswer {α : Type} (ok : Answer → Option α) (fallback : α) : List Answer → α × List Answer
  | [] => (fallback, [])
  | a :: as => ((ok a).getD fallback, as)

/-- A generator that reads its answers from a list, for generators whose clones share their state
(`shared = true`, like `ThreadRng`) or do not. -/
def scripted (shared : Bool) : Rng (List Answer) ℚ where
  below g lo hi := nextAnswer (fun a => if lo ≤ a.nat ∧ a.nat < hi then some a.nat else none) lo g
  below_spec g lo hi h := by
    cases g with
    | nil => exact ⟨le_rfl, h⟩
    | cons a as => simp only [nextAnswer]; split <;> simp_all
  upto g lo hi := nextAnswer (fun a => if lo ≤ a.nat ∧ a.nat ≤ hi then some a.nat else none) lo g
  upto_spec g lo hi h := by
    cases g with
    | nil => exact ⟨le_rfl, h⟩
    | cons a as => simp only [nextAnswer]; split <;> simp_all
  unit g := nextAnswer (fun a => if 0 ≤ a.unit ∧ a.unit < 1 then some a.unit else none) 0 g
  unit_spec g := by
    cases g with
    | nil => exact ⟨le_rfl, by norm_num [nextAnswer]⟩
    | cons a as => simp only [nextAnswer]; split <;> simp_all
  coin g := nextAnswer (fun a => some a.coin) false g
  sample g n k := nextAnswer (fun a => if a.list.length = k ∧ a.list.Nodup ∧ ∀ i ∈ a.list, i < n then some a.list
    else none) (List.range k) g
  sample_spec g n k h := by
    have h0 : (List.range k).length = k ∧ (List.range k).Nodup ∧ ∀ i ∈ List.range k, i < n :=
      ⟨by simp, List.nodup_range, by intro i hi; simp at hi; omega⟩
    cases g with
    | nil => exact h0
    | cons a as =>
      simp only [nextAnswer]; split
      · next hc => exact hc
      · exact h0
  shuffle g n := nextAnswer (fun a => if a.list.Perm (List.range n) then some a.list else none) (List.range n) g
  shuffle_spec g n := by
    cases g with
    | nil => exact .refl _
    | cons a as =>
      simp only [nextAnswer]; split
      · next hc => exact hc
      · exact .refl _
  threadBelow g lo hi := nextAnswer (fun a => if lo ≤ a.nat ∧ a.nat < hi then some a.nat else none) lo g
  threadBelow_spec g lo hi h := by
    cases g with
    | nil => exact ⟨le_rfl, h⟩
    | cons a as => simp only [nextAnswer]; split <;> simp_all
  clonesShareState := shared

theorem scripted_full (shared : Bool) : (scripted shared).Full where
  inhabited := ⟨[]⟩
  below lo hi v g' h1 h2 := ⟨{ nat := v } :: g', by simp [scripted, nextAnswer, h1, h2]⟩
  upto lo hi v g' h1 h2 := ⟨{ nat := v } :: g', by simp [scripted, nextAnswer, h1, h2]⟩
  unit u g' h1 h2 := ⟨{ unit := u } :: g', by simp [scripted, nextAnswer, h1, h2]⟩
  coin b g' := ⟨{ coin := b } :: g', by simp [scripted, nextAnswer]⟩
  sample n k l g' h1 h2 h3 := ⟨{ list := l } :: g', by
    simp only [scripted, nextAnswer]; rw [if_pos ⟨h1, h2, h3⟩]; rfl⟩
  shuffle n l g' h := ⟨{ list := l } :: g', by
    simp only [scripted, nextAnswer]; rw [if_pos h]; rfl⟩
  threadBelow lo hi v g' h1 h2 := ⟨{ nat := v } :: g', by simp [scripted, nextAnswer, h1, h2]⟩

end Ecrs
