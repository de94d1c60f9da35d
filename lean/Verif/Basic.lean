import Mathlib.Order.Defs.LinearOrder
import Mathlib.Order.Basic
import Mathlib.Data.List.Forall2

/-!
# Basic vocabulary of the model

Panics, the state-and-panic monad, the random-number-generator contract and floating point values
with NaN.  Nothing here is specific to one part of ecrs; the definitions that stand for external
crates say which calls they stand for.
-/

namespace Ecrs

/-- Every way a modelled Rust function can panic.  `assertion` stands for `assert!`/`assert_eq!`,
`unwrapNone` for `Option::unwrap`/`expect` on `None`, `indexOob` for slice indexing,
`emptyRange` for `gen_range`/`Uniform::from` on an empty range, `sampleTooMany` for
`rand::seq::index::sample` with `amount > length`, `nanCompare` for the `unimplemented!()` at
src/ga/individual.rs:162, `underflow` for `usize` subtraction below zero, `libError` for an
`Err`/`panic!` raised by an external crate.  `outOfFuel` is not a Rust panic: it marks a Rust loop
without a bound that ran longer than the fuel given to its model. -/
inductive Panic
  | assertion
  | unwrapNone
  | indexOob
  | emptyRange
  | sampleTooMany
  | nanCompare
  | underflow
  | divByZero
  | libError
  | outOfFuel
  deriving DecidableEq, Repr

/-- State-and-panic computations: `W` is the mutable world a Rust call may change (the states of
the random number generators, of the operators, of the clock). -/
def M (W : Type) (α : Type) : Type := W → Except Panic (α × W)

namespace M
variable {W α β : Type}

@[inline] def pure' (a : α) : M W α := fun w => .ok (a, w)
@[inline] def bind' (m : M W α) (f : α → M W β) : M W β := fun w =>
  match m w with
  | .error e => .error e
  | .ok (a, w') => f a w'

instance : Monad (M W) where
  pure := pure'
  bind := bind'

/-- A Rust panic. -/
def fail (p : Panic) : M W α := fun _ => .error p

/-- `assert!(c)`. -/
def assert (c : Bool) (p : Panic := .assertion) : M W Unit := if c then pure () else fail p

/-- A total state transformer. -/
def lift (f : W → α × W) : M W α := fun w => .ok (f w)

/-- A computation without state. -/
def ofExcept (x : Except Panic α) : M W α := fun w =>
  match x with
  | .error e => .error e
  | .ok a => .ok (a, w)

/-- `for x in xs { out.push(f(x)) }` -/
def forEach (f : α → M W β) : List α → M W (List β)
  | [] => pure []
  | x :: xs => do
      let y ← f x
      let ys ← forEach f xs
      pure (y :: ys)

/-- `(0..n).map(|_| f()).collect()` -/
def replicate (n : Nat) (f : M W β) : M W (List β) :=
  match n with
  | 0 => pure []
  | n + 1 => do
      let y ← f
      let ys ← replicate n f
      pure (y :: ys)

/-- A loop threading an accumulator. -/
def fold (f : β → α → M W β) : β → List α → M W β
  | b, [] => pure b
  | b, x :: xs => do
      let b' ← f b x
      fold f b' xs

@[simp] theorem pure_run (a : α) (w : W) : (pure a : M W α) w = .ok (a, w) := rfl
@[simp] theorem fail_run (p : Panic) (w : W) : (fail p : M W α) w = .error p := rfl
@[simp] theorem lift_run (f : W → α × W) (w : W) : lift f w = .ok (f w) := rfl

theorem bind_run (m : M W α) (f : α → M W β) (w : W) :
    (m >>= f) w = match m w with
      | .error e => .error e
      | .ok (a, w') => f a w' := rfl

theorem bind_ok_iff {m : M W α} {f : α → M W β} {w : W} {r : β × W} :
    (m >>= f) w = .ok r ↔ ∃ a w', m w = .ok (a, w') ∧ f a w' = .ok r := by
  rw [bind_run]
  cases h : m w with
  | error e => simp
  | ok p =>
    obtain ⟨a, w'⟩ := p
    constructor
    · intro h'; exact ⟨a, w', rfl, h'⟩
    · rintro ⟨b, w'', h1, h2⟩; cases h1; exact h2

theorem bind_of_ok {m : M W α} {f : α → M W β} {w w' : W} {a : α} (h : m w = .ok (a, w')) :
    (m >>= f) w = f a w' := by rw [bind_run, h]

theorem bind_of_error {m : M W α} {f : α → M W β} {w : W} {e : Panic} (h : m w = .error e) :
    (m >>= f) w = .error e := by rw [bind_run, h]

theorem pure_ok_iff {a : α} {w : W} {r : α × W} :
    (pure a : M W α) w = .ok r ↔ r = (a, w) := by
  simp [eq_comm]

theorem assert_ok_iff {c : Bool} {p : Panic} {w : W} {r : Unit × W} :
    (assert c p : M W Unit) w = .ok r ↔ c = true ∧ r = ((), w) := by
  unfold assert; split <;> simp_all [eq_comm]

theorem assert_true (p : Panic) (w : W) : (assert true p : M W Unit) w = .ok ((), w) := rfl
theorem assert_false (p : Panic) (w : W) : (assert false p : M W Unit) w = .error p := rfl

theorem ofExcept_ok_iff {x : Except Panic α} {w : W} {r : α × W} :
    (ofExcept x : M W α) w = .ok r ↔ x = .ok r.1 ∧ r.2 = w := by
  unfold ofExcept
  cases x with
  | error e => simp
  | ok a => obtain ⟨b, w'⟩ := r; simp [eq_comm]

instance : LawfulMonad (M W) := LawfulMonad.mk'
  (id_map := by
    intro α x; funext w
    show (bind' x _) w = _
    unfold bind'
    cases h : x w with
    | error e => rfl
    | ok p => rfl)
  (pure_bind := by intros; rfl)
  (bind_assoc := by
    intro α β γ x f g; funext w
    show (bind' (bind' x f) g) w = (bind' x fun a => bind' (f a) g) w
    unfold bind'
    cases h : x w with
    | error e => rfl
    | ok p => rfl)

end M

/-! ## Total and partial correctness -/

/-- `Returns m Q`: from every world the computation `m` returns (does not panic) and its result
satisfies `Q`. -/
def Returns {W α : Type} (m : M W α) (Q : α → Prop) : Prop :=
  ∀ w, ∃ a w', m w = .ok (a, w') ∧ Q a

/-- `IfReturns m Q`: from every world, if `m` returns then its result satisfies `Q`. -/
def IfReturns {W α : Type} (m : M W α) (Q : α → Prop) : Prop :=
  ∀ w a w', m w = .ok (a, w') → Q a

/-- `Panics m`: from every world the computation panics. -/
def Panics {W α : Type} (m : M W α) : Prop := ∀ w, ∃ e, m w = .error e

section rules
variable {W α β : Type}

theorem Returns.pure {a : α} {Q : α → Prop} (h : Q a) : Returns (Pure.pure a : M W α) Q :=
  fun w => ⟨a, w, rfl, h⟩

theorem Returns.bind {m : M W α} {f : α → M W β} {P : α → Prop} {Q : β → Prop}
    (hm : Returns m P) (hf : ∀ a, P a → Returns (f a) Q) : Returns (m >>= f) Q := by
  intro w
  obtain ⟨a, w', h1, h2⟩ := hm w
  obtain ⟨b, w'', h3, h4⟩ := hf a h2 w'
  exact ⟨b, w'', by rw [M.bind_of_ok h1, h3], h4⟩

theorem Returns.mono {m : M W α} {P Q : α → Prop} (hm : Returns m P) (h : ∀ a, P a → Q a) :
    Returns m Q := by
  intro w; obtain ⟨a, w', h1, h2⟩ := hm w; exact ⟨a, w', h1, h a h2⟩

theorem IfReturns.pure {a : α} {Q : α → Prop} (h : Q a) : IfReturns (Pure.pure a : M W α) Q := by
  intro w b w' hb
  rw [M.pure_run] at hb
  cases hb; exact h

theorem IfReturns.bind {m : M W α} {f : α → M W β} {P : α → Prop} {Q : β → Prop}
    (hm : IfReturns m P) (hf : ∀ a, P a → IfReturns (f a) Q) : IfReturns (m >>= f) Q := by
  intro w b w' h
  obtain ⟨a, w1, h1, h2⟩ := M.bind_ok_iff.1 h
  exact hf a (hm _ _ _ h1) _ _ _ h2

theorem IfReturns.mono {m : M W α} {P Q : α → Prop} (hm : IfReturns m P) (h : ∀ a, P a → Q a) :
    IfReturns m Q := fun w a w' hw => h a (hm w a w' hw)

theorem IfReturns.and {m : M W α} {P Q : α → Prop} (hm : IfReturns m P) (h : IfReturns m Q) :
    IfReturns m (fun a => P a ∧ Q a) := fun w a w' hw => ⟨hm w a w' hw, h w a w' hw⟩

theorem Returns.ifReturns {m : M W α} {P : α → Prop} (hm : Returns m P) : IfReturns m P := by
  intro w a w' h
  obtain ⟨b, w'', h1, h2⟩ := hm w
  rw [h1] at h; cases h; exact h2

theorem IfReturns.trivial {m : M W α} : IfReturns m (fun _ => True) := fun _ _ _ _ => True.intro

theorem IfReturns.fail {p : Panic} {Q : α → Prop} : IfReturns (M.fail p : M W α) Q := by
  intro w a w' h; simp at h

theorem Returns.assert {c : Bool} {p : Panic} (h : c = true) :
    Returns (M.assert c p : M W Unit) (fun _ => True) := by
  subst h; intro w; exact ⟨(), w, rfl, True.intro⟩

theorem IfReturns.assert {c : Bool} {p : Panic} :
    IfReturns (M.assert c p : M W Unit) (fun _ => c = true) := by
  intro w a w' h; exact (M.assert_ok_iff.1 h).1

theorem Panics.bind_left {m : M W α} {f : α → M W β} (h : Panics m) : Panics (m >>= f) := by
  intro w; obtain ⟨e, he⟩ := h w; exact ⟨e, M.bind_of_error he⟩

theorem Panics.bind_right {m : M W α} {f : α → M W β} {P : α → Prop} (hm : IfReturns m P)
    (h : ∀ a, P a → Panics (f a)) : Panics (m >>= f) := by
  intro w
  cases hmw : m w with
  | error e => exact ⟨e, M.bind_of_error hmw⟩
  | ok p =>
    obtain ⟨a, w'⟩ := p
    rw [M.bind_of_ok hmw]
    exact h a (hm _ _ _ hmw) w'

theorem Panics.fail {p : Panic} : Panics (M.fail p : M W α) := fun _ => ⟨p, rfl⟩

theorem Panics.assert {c : Bool} {p : Panic} (h : c = false) : Panics (M.assert c p : M W Unit) := by
  subst h; intro w; exact ⟨p, rfl⟩

theorem Returns.lift {f : W → α × W} {Q : α → Prop} (h : ∀ w, Q (f w).1) : Returns (M.lift f) Q :=
  fun w => ⟨(f w).1, (f w).2, rfl, h w⟩

theorem Returns.ofExcept {x : Except Panic α} {Q : α → Prop} {a : α} (hx : x = .ok a) (h : Q a) :
    Returns (M.ofExcept x : M W α) Q := by
  subst hx; intro w; exact ⟨a, w, rfl, h⟩

theorem IfReturns.ofExcept {x : Except Panic α} {Q : α → Prop} (h : ∀ a, x = .ok a → Q a) :
    IfReturns (M.ofExcept x : M W α) Q := by
  intro w a w' hw; exact h a (M.ofExcept_ok_iff.1 hw).1

/-- Loop rule for `forEach`: the outputs correspond one-to-one to the inputs. -/
theorem Returns.forEach {f : α → M W β} {R : α → β → Prop} :
    ∀ (xs : List α), (∀ x ∈ xs, Returns (f x) (R x)) →
      Returns (M.forEach f xs) (List.Forall₂ R xs)
  | [], _ => Returns.pure .nil
  | x :: xs, h =>
    Returns.bind (h x (by simp)) fun y hy =>
      Returns.bind (Returns.forEach xs fun z hz => h z (by simp [hz])) fun ys hys =>
        Returns.pure (.cons hy hys)

theorem IfReturns.forEach {f : α → M W β} {R : α → β → Prop} :
    ∀ (xs : List α), (∀ x ∈ xs, IfReturns (f x) (R x)) →
      IfReturns (M.forEach f xs) (List.Forall₂ R xs)
  | [], _ => IfReturns.pure .nil
  | x :: xs, h =>
    IfReturns.bind (h x (by simp)) fun y hy =>
      IfReturns.bind (IfReturns.forEach xs fun z hz => h z (by simp [hz])) fun ys hys =>
        IfReturns.pure (.cons hy hys)

theorem Returns.replicate {f : M W β} {Q : β → Prop} (h : Returns f Q) :
    ∀ n, Returns (M.replicate n f) (fun ys => ys.length = n ∧ ∀ y ∈ ys, Q y)
  | 0 => Returns.pure ⟨rfl, by simp⟩
  | n + 1 => Returns.bind h fun y hy => Returns.bind (Returns.replicate h n) fun ys hys =>
      Returns.pure ⟨by simp [hys.1], by
        intro z hz
        rcases List.mem_cons.1 hz with rfl | hz
        · exact hy
        · exact hys.2 z hz⟩

theorem IfReturns.replicate {f : M W β} {Q : β → Prop} (h : IfReturns f Q) :
    ∀ n, IfReturns (M.replicate n f) (fun ys => ys.length = n ∧ ∀ y ∈ ys, Q y)
  | 0 => IfReturns.pure ⟨rfl, by simp⟩
  | n + 1 => IfReturns.bind h fun y hy => IfReturns.bind (IfReturns.replicate h n) fun ys hys =>
      IfReturns.pure ⟨by simp [hys.1], by
        intro z hz
        rcases List.mem_cons.1 hz with rfl | hz
        · exact hy
        · exact hys.2 z hz⟩

theorem Returns.fold {f : β → α → M W β} {I : β → Prop} :
    ∀ (xs : List α) (b : β), I b → (∀ b x, x ∈ xs → I b → Returns (f b x) I) →
      Returns (M.fold f b xs) I
  | [], b, hb, _ => Returns.pure hb
  | x :: xs, b, hb, h =>
    Returns.bind (h b x (by simp) hb) fun b' hb' =>
      Returns.fold xs b' hb' fun b x hx => h b x (by simp [hx])

theorem IfReturns.fold {f : β → α → M W β} {I : β → Prop} :
    ∀ (xs : List α) (b : β), I b → (∀ b x, x ∈ xs → I b → IfReturns (f b x) I) →
      IfReturns (M.fold f b xs) I
  | [], b, hb, _ => IfReturns.pure hb
  | x :: xs, b, hb, h =>
    IfReturns.bind (h b x (by simp) hb) fun b' hb' =>
      IfReturns.fold xs b' hb' fun b x hx => h b x (by simp [hx])

end rules

/-! ## Floating point values -/

/-- An `f64` seen through its order: either NaN or an element of a linear order `K` (which may
contain the infinities).  Rust's `partial_cmp` is `none` exactly when NaN is involved. -/
inductive Fl (K : Type) where
  | nan : Fl K
  | num : K → Fl K
  deriving DecidableEq, Repr

namespace Fl
variable {K : Type} [LinearOrder K]

/-- `f64::partial_cmp`. -/
def partialCmp : Fl K → Fl K → Option Ordering
  | num a, num b => some (compare a b)
  | _, _ => none

/-- `PartialOrd::lt` on values with the derived-from-`partial_cmp` order: false on NaN. -/
def lt (a b : Fl K) : Bool := partialCmp a b == some .lt

/-- `a` is a number. -/
def IsNum : Fl K → Prop
  | nan => False
  | num _ => True

/-- `a ≤ b` between numbers; false when either is NaN. -/
def Le : Fl K → Fl K → Prop
  | num a, num b => a ≤ b
  | _, _ => False

/-- `a < b` between numbers; false when either is NaN. -/
def Lt : Fl K → Fl K → Prop
  | num a, num b => a < b
  | _, _ => False

theorem lt_iff {a b : Fl K} : lt a b = true ↔ Lt a b := by
  cases a <;> cases b <;> simp [lt, partialCmp, Lt, compare_lt_iff_lt]

theorem Le.trans {a b c : Fl K} (h1 : Le a b) (h2 : Le b c) : Le a c := by
  cases a <;> cases b <;> cases c <;> simp_all [Le]
  exact le_trans h1 h2

theorem Lt.le {a b : Fl K} (h : Lt a b) : Le a b := by
  cases a <;> cases b <;> simp_all [Le, Lt]
  exact le_of_lt h

theorem le_refl {a : Fl K} (h : a.IsNum) : Le a a := by
  cases a <;> simp_all [Le, IsNum]

theorem Le.isNum_left {a b : Fl K} (h : Le a b) : a.IsNum := by
  cases a <;> cases b <;> simp_all [Le, IsNum]

theorem Le.isNum_right {a b : Fl K} (h : Le a b) : b.IsNum := by
  cases a <;> cases b <;> simp_all [Le, IsNum]

theorem not_lt {a b : Fl K} (ha : a.IsNum) (hb : b.IsNum) : ¬ Lt a b ↔ Le b a := by
  cases a <;> cases b <;> simp_all [Le, Lt, IsNum]

theorem Lt.trans_le {a b c : Fl K} (h1 : Lt a b) (h2 : Le b c) : Lt a c := by
  cases a <;> cases b <;> cases c <;> simp_all [Le, Lt]
  exact lt_of_lt_of_le h1 h2

end Fl

/-! ## Random number generators -/

/-- The contract of the `rand` 0.8 calls the crate makes, over an arbitrary state `G` and an
arbitrary linear order `U` of floating point draws.  Nothing is assumed about distribution or
determinism beyond the documented ranges.

* `below g lo hi`   : `rng.gen_range(lo..hi)` on `usize` (the caller panics when `hi ≤ lo`);
* `upto g lo hi`    : `rng.gen_range(lo..=hi)` (the caller panics when `hi < lo`);
* `unit g`          : `rng.gen::<f64>()`, `Uniform::from(0.0..1.0)`;
* `coin g`          : `rng.gen::<bool>()`;
* `sample g n k`    : `rand::seq::index::sample(rng, n, k)` (the caller panics when `n < k`);
* `shuffle g n`     : the permutation `slice::shuffle` applies to a slice of length `n`, as the list
  of old indices in their new order;
* `threadBelow`     : as `below`, on `rand::thread_rng()` instead of the operator's own generator;
* `clonesShareState`: whether `rng.clone()` shares its state with `rng` (true for `ThreadRng`,
  false for seeded generators, whose clone advances independently). -/
structure Rng (G : Type) (U : Type) [LinearOrder U] [Zero U] [One U] where
  below : G → Nat → Nat → Nat × G
  below_spec : ∀ g lo hi, lo < hi → lo ≤ (below g lo hi).1 ∧ (below g lo hi).1 < hi
  upto : G → Nat → Nat → Nat × G
  upto_spec : ∀ g lo hi, lo ≤ hi → lo ≤ (upto g lo hi).1 ∧ (upto g lo hi).1 ≤ hi
  unit : G → U × G
  unit_spec : ∀ g, 0 ≤ (unit g).1 ∧ (unit g).1 < 1
  coin : G → Bool × G
  sample : G → Nat → Nat → List Nat × G
  sample_spec : ∀ g n k, k ≤ n → (sample g n k).1.length = k ∧ (sample g n k).1.Nodup ∧
    ∀ i ∈ (sample g n k).1, i < n
  shuffle : G → Nat → List Nat × G
  shuffle_spec : ∀ g n, (shuffle g n).1.Perm (List.range n)
  threadBelow : G → Nat → Nat → Nat × G
  threadBelow_spec : ∀ g lo hi, lo < hi →
    lo ≤ (threadBelow g lo hi).1 ∧ (threadBelow g lo hi).1 < hi
  clonesShareState : Bool

namespace Rng
variable {G U : Type} [LinearOrder U] [Zero U] [One U] (R : Rng G U)

/-- `rng.gen_range(lo..hi)`: panics on an empty range. -/
def genRange (lo hi : Nat) : M G Nat :=
  if lo < hi then M.lift (fun g => R.below g lo hi) else M.fail .emptyRange

/-- `rng.gen_range(lo..=hi)`: panics on an empty range. -/
def genRangeIncl (lo hi : Nat) : M G Nat :=
  if lo ≤ hi then M.lift (fun g => R.upto g lo hi) else M.fail .emptyRange

/-- `rand::thread_rng()` index draw; `Uniform::from(lo..hi)` panics on an empty range. -/
def threadRange (lo hi : Nat) : M G Nat :=
  if lo < hi then M.lift (fun g => R.threadBelow g lo hi) else M.fail .emptyRange

/-- `rng.gen::<f64>()`. -/
def genUnit : M G U := M.lift R.unit

/-- `rng.gen::<bool>()`. -/
def genCoin : M G Bool := M.lift R.coin

/-- `rand::seq::index::sample(rng, n, k)`: panics when `k > n`. -/
def indexSample (n k : Nat) : M G (List Nat) :=
  if k ≤ n then M.lift (fun g => R.sample g n k) else M.fail .sampleTooMany

/-- The index permutation applied by `slice::shuffle` on a slice of length `n`. -/
def genShuffle (n : Nat) : M G (List Nat) := M.lift (fun g => R.shuffle g n)

/-- Run `m` on `rng.clone()`: unless clones share state, the original state is left unchanged. -/
def onClone {α : Type} (m : M G α) : M G α := fun g =>
  match m g with
  | .error e => .error e
  | .ok (a, g') => .ok (a, if R.clonesShareState then g' else g)

theorem genRange_returns {lo hi : Nat} (h : lo < hi) :
    Returns (R.genRange lo hi) (fun r => lo ≤ r ∧ r < hi) := by
  unfold genRange; rw [if_pos h]; exact Returns.lift fun g => R.below_spec g lo hi h

theorem genRange_panics {lo hi : Nat} (h : hi ≤ lo) : Panics (R.genRange lo hi) := by
  unfold genRange; rw [if_neg (by omega)]; exact Panics.fail

theorem genRange_ifReturns {lo hi : Nat} :
    IfReturns (R.genRange lo hi) (fun r => lo ≤ r ∧ r < hi) := by
  by_cases h : lo < hi
  · exact (R.genRange_returns h).ifReturns
  · unfold genRange; rw [if_neg h]; exact IfReturns.fail

theorem genRangeIncl_returns {lo hi : Nat} (h : lo ≤ hi) :
    Returns (R.genRangeIncl lo hi) (fun r => lo ≤ r ∧ r ≤ hi) := by
  unfold genRangeIncl; rw [if_pos h]; exact Returns.lift fun g => R.upto_spec g lo hi h

theorem genRangeIncl_ifReturns {lo hi : Nat} :
    IfReturns (R.genRangeIncl lo hi) (fun r => lo ≤ r ∧ r ≤ hi) := by
  by_cases h : lo ≤ hi
  · exact (R.genRangeIncl_returns h).ifReturns
  · unfold genRangeIncl; rw [if_neg h]; exact IfReturns.fail

theorem threadRange_returns {lo hi : Nat} (h : lo < hi) :
    Returns (R.threadRange lo hi) (fun r => lo ≤ r ∧ r < hi) := by
  unfold threadRange; rw [if_pos h]; exact Returns.lift fun g => R.threadBelow_spec g lo hi h

theorem threadRange_ifReturns {lo hi : Nat} :
    IfReturns (R.threadRange lo hi) (fun r => lo ≤ r ∧ r < hi) := by
  by_cases h : lo < hi
  · exact (R.threadRange_returns h).ifReturns
  · unfold threadRange; rw [if_neg h]; exact IfReturns.fail

theorem genUnit_returns : Returns R.genUnit (fun u => 0 ≤ u ∧ u < 1) :=
  Returns.lift R.unit_spec

theorem genCoin_returns : Returns R.genCoin (fun _ => True) :=
  Returns.lift fun _ => True.intro

theorem indexSample_returns {n k : Nat} (h : k ≤ n) :
    Returns (R.indexSample n k) (fun l => l.length = k ∧ l.Nodup ∧ ∀ i ∈ l, i < n) := by
  unfold indexSample; rw [if_pos h]; exact Returns.lift fun g => R.sample_spec g n k h

theorem indexSample_panics {n k : Nat} (h : n < k) : Panics (R.indexSample n k) := by
  unfold indexSample; rw [if_neg (by omega)]; exact Panics.fail

theorem indexSample_ifReturns {n k : Nat} :
    IfReturns (R.indexSample n k) (fun l => l.length = k ∧ l.Nodup ∧ ∀ i ∈ l, i < n) := by
  by_cases h : k ≤ n
  · exact (R.indexSample_returns h).ifReturns
  · unfold indexSample; rw [if_neg h]; exact IfReturns.fail

theorem genShuffle_returns (n : Nat) :
    Returns (R.genShuffle n) (fun l => l.Perm (List.range n)) :=
  Returns.lift fun g => R.shuffle_spec g n

theorem onClone_returns {α : Type} {m : M G α} {Q : α → Prop} (h : Returns m Q) :
    Returns (R.onClone m) Q := by
  intro g
  obtain ⟨a, g', h1, h2⟩ := h g
  exact ⟨a, if R.clonesShareState then g' else g, by unfold onClone; rw [h1], h2⟩

theorem onClone_ifReturns {α : Type} {m : M G α} {Q : α → Prop} (h : IfReturns m Q) :
    IfReturns (R.onClone m) Q := by
  intro g a g' hg
  unfold onClone at hg
  cases hm : m g with
  | error e => rw [hm] at hg; simp at hg
  | ok p =>
    obtain ⟨b, g1⟩ := p
    rw [hm] at hg; simp at hg
    obtain ⟨rfl, -⟩ := hg
    exact h _ _ _ hm

theorem onClone_panics {α : Type} {m : M G α} (h : Panics m) : Panics (R.onClone m) := by
  intro g
  obtain ⟨e, he⟩ := h g
  exact ⟨e, by unfold onClone; rw [he]⟩

end Rng

end Ecrs
