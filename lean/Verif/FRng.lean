import Verif.Basic
import Mathlib.Algebra.Order.Field.Basic

/-!
# Real-valued draws

`Rng` extended by the calls that draw real numbers from an interval and by weighted index sampling.
-/

namespace Ecrs

/-- * `between g lo hi` : `rng.gen_range(lo..=hi)` on `f64` (callers panic unless `lo ≤ hi`);
* `halfOpen g lo hi` : `rng.gen_range(lo..hi)` on `f64` (callers panic unless `lo < hi`);
* `weighted g ws k` : `rand::seq::index::sample_weighted(rng, ws.len(), |i| ws[i], k)`, `none` standing for
  an `Err` or a panic inside the crate; when it succeeds it yields `k` distinct positions. -/
structure FRng (G : Type) (U : Type) [LinearOrder U] [Zero U] [One U] extends Rng G U where
  between : G → U → U → U × G
  between_spec : ∀ g lo hi, lo ≤ hi → lo ≤ (between g lo hi).1 ∧ (between g lo hi).1 ≤ hi
  halfOpen : G → U → U → U × G
  halfOpen_spec : ∀ g lo hi, lo < hi → lo ≤ (halfOpen g lo hi).1 ∧ (halfOpen g lo hi).1 < hi
  weighted : G → List U → Nat → Option (List Nat) × G
  weighted_spec : ∀ g ws k l, (weighted g ws k).1 = some l → l.length = k ∧ l.Nodup ∧
    ∀ i ∈ l, i < ws.length

namespace FRng
variable {G U : Type} [LinearOrder U] [Zero U] [One U] (R : FRng G U)

/-- `rng.gen_range(lo..=hi)` on floats; panics on an empty range. -/
def genBetween (lo hi : U) : M G U :=
  if lo ≤ hi then M.lift (fun g => R.between g lo hi) else M.fail .emptyRange

/-- `rng.gen_range(lo..hi)` on floats; panics on an empty range. -/
def genHalfOpen (lo hi : U) : M G U :=
  if lo < hi then M.lift (fun g => R.halfOpen g lo hi) else M.fail .emptyRange

/-- `sample_weighted(..)` with the caller panicking on `Err`. -/
def genWeighted (ws : List U) (k : Nat) : M G (List Nat) := fun g =>
  match R.weighted g ws k with
  | (some l, g') => .ok (l, g')
  | (none, _) => .error .libError

theorem genBetween_returns {lo hi : U} (h : lo ≤ hi) :
    Returns (R.genBetween lo hi) (fun x => lo ≤ x ∧ x ≤ hi) := by
  unfold genBetween; rw [if_pos h]; exact Returns.lift fun g => R.between_spec g lo hi h

theorem genBetween_ifReturns {lo hi : U} :
    IfReturns (R.genBetween lo hi) (fun x => lo ≤ x ∧ x ≤ hi) := by
  by_cases h : lo ≤ hi
  · exact (R.genBetween_returns h).ifReturns
  · unfold genBetween; rw [if_neg h]; exact IfReturns.fail

theorem genHalfOpen_returns {lo hi : U} (h : lo < hi) :
    Returns (R.genHalfOpen lo hi) (fun x => lo ≤ x ∧ x < hi) := by
  unfold genHalfOpen; rw [if_pos h]; exact Returns.lift fun g => R.halfOpen_spec g lo hi h

theorem genHalfOpen_ifReturns {lo hi : U} :
    IfReturns (R.genHalfOpen lo hi) (fun x => lo ≤ x ∧ x < hi) := by
  by_cases h : lo < hi
  · exact (R.genHalfOpen_returns h).ifReturns
  · unfold genHalfOpen; rw [if_neg h]; exact IfReturns.fail

theorem genWeighted_ifReturns {ws : List U} {k : Nat} :
    IfReturns (R.genWeighted ws k) (fun l => l.length = k ∧ l.Nodup ∧ ∀ i ∈ l, i < ws.length) := by
  intro g l g' h
  unfold genWeighted at h
  cases hw : R.weighted g ws k with
  | mk o g1 =>
    rw [hw] at h
    cases o with
    | none => cases h
    | some l' =>
      cases h
      exact R.weighted_spec g ws k l (by rw [hw])

end FRng
end Ecrs
