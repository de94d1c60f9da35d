import Verif.Jssp.Model

/-!
# Shops: what an instance fixes, and how operations represent it

Vocabulary of the proofs about examples/jssp; nothing here models code.
-/

namespace Ecrs.Jssp
open Ecrs

/-- The fixed data of an instance with operations `1..n` (0 is the dummy start, `n+1` the sink). -/
structure Shop where
  n : Nat
  machines : Nat
  dur : Nat → Nat
  mach : Nat → Nat
  /-- the operation before it in its job, 0 for the first -/
  dp : Nat → Nat
  /-- the job edges leaving an operation -/
  je : Nat → List Edge

/-- A regular operation. -/
def Shop.Reg (S : Shop) (v : Nat) : Prop := 1 ≤ v ∧ v ≤ S.n

/-- The data are those of a job shop. -/
structure Shop.WF (S : Shop) : Prop where
  pos : 1 ≤ S.n
  dur_zero : S.dur 0 = 0
  dur_sink : S.dur (S.n + 1) = 0
  dp_lt : ∀ v, S.Reg v → S.dp v < v
  mach_lt : ∀ v, S.Reg v → S.mach v < S.machines
  je_mid : ∀ v, S.Reg v → ∃ w, S.je v = [⟨w, .jobSucc⟩] ∧ (w = S.n + 1 ∨ (S.Reg w ∧ S.dp w = v))
  je_dp : ∀ w, S.Reg w → (⟨w, .jobSucc⟩ : Edge) ∈ S.je (S.dp w)
  je_zero : ∀ e ∈ S.je 0, e.kind = .jobSucc ∧ S.Reg e.neigh ∧ S.dp e.neigh = 0
  je_sink : S.je (S.n + 1) = []

/-- The operations array represents the shop with machine successors `ms` and machine predecessors `mp`. -/
structure Fits (S : Shop) (ops : Arr Operation) (ms mp : Nat → Option Nat) : Prop where
  size : ops.size = S.n + 2
  id : ∀ v, v ≤ S.n + 1 → (ops.get v).id = v
  dur : ∀ v, v ≤ S.n + 1 → (ops.get v).duration = S.dur v
  mach : ∀ v, S.Reg v → (ops.get v).machine = S.mach v
  last : ∀ v, S.Reg v → (ops.get v).preds.getLast? = some (S.dp v)
  sink_mem : ∀ v, v ≤ S.n → v ∈ (ops.get (S.n + 1)).preds
  sink_le : ∀ v ∈ (ops.get (S.n + 1)).preds, v ≤ S.n
  edges : ∀ v, v ≤ S.n + 1 → (ops.get v).edgesOut = S.je v ++ ((ms v).toList.map fun w => (⟨w, .machineSucc⟩ : Edge))
  mpred : ∀ v, v ≤ S.n + 1 → (ops.get v).machinePred = mp v
  sink_cpe : (ops.get (S.n + 1)).criticalPathEdge = none

namespace Arr
variable {α : Type}

theorem at'_ok {v : Arr α} {i : Nat} (h : i < v.size) : v.at' i = .ok (v.get i) := by
  unfold Arr.at'; rw [if_pos h]

theorem modify_ok {v : Arr α} {i : Nat} (f : α → α) (h : i < v.size) :
    v.modify i f = .ok { v with get := fun k => if k = i then f (v.get i) else v.get k } := by
  unfold Arr.modify; rw [if_pos h]

theorem mem_toList {v : Arr α} {a : α} : a ∈ v.toList ↔ ∃ i, i < v.size ∧ v.get i = a := by
  unfold Arr.toList; simp

end Arr

theorem minimum?_eq_some {l : List Nat} {m : Nat} (h : minimum? l = some m) : m ∈ l ∧ ∀ x ∈ l, m ≤ x := by
  cases l with
  | nil => cases h
  | cons x xs =>
    have h' : xs.foldl min x = m := Option.some.inj h
    subst h'
    clear h
    induction xs generalizing x with
    | nil => simp
    | cons y ys ih =>
      obtain ⟨h1, h2⟩ := ih (min x y)
      rw [List.foldl_cons]
      refine ⟨?_, ?_⟩
      · rcases List.mem_cons.1 h1 with h | h
        · rw [h]
          rcases Nat.le_total x y with hxy | hxy
          · simp [Nat.min_eq_left hxy]
          · simp [Nat.min_eq_right hxy]
        · simp [h]
      · intro z hz
        have h0 := h2 (min x y) (by simp)
        rcases List.mem_cons.1 hz with rfl | hz
        · exact Nat.le_trans h0 (Nat.min_le_left _ _)
        · rcases List.mem_cons.1 hz with rfl | hz
          · exact Nat.le_trans h0 (Nat.min_le_right _ _)
          · exact h2 z (by simp [hz])

theorem minimum?_isSome {l : List Nat} {x : Nat} (h : x ∈ l) : ∃ m, minimum? l = some m := by
  cases l with
  | nil => cases h
  | cons y ys => exact ⟨_, rfl⟩

/-- Idle means disjoint from every reservation. -/
theorem isIdle_iff {m : Machine} {a b : Nat} : m.isIdle (a, b) = true ↔ ∀ r ∈ m.rmc, b ≤ r.1 ∨ r.2 ≤ a := by
  unfold Machine.isIdle
  simp only [Bool.not_eq_true', List.any_eq_false, Bool.and_eq_true, decide_eq_true_eq, not_and, Nat.not_lt]
  constructor
  · intro h r hr
    by_cases h1 : r.1 < b
    · exact .inr (h r hr h1)
    · exact .inl (by omega)
  · intro h r hr h1
    rcases h r hr with h2 | h2
    · omega
    · exact h2

end Ecrs.Jssp
