import Verif.Basic

/-! # Rules for computations that return or panic (`Except Panic`) -/

namespace Ecrs.Exc
open Ecrs

theorem bind_ok {α β : Type} {m : Except Panic α} {k : α → Except Panic β} {b : β} :
    (m >>= k) = .ok b ↔ ∃ a, m = .ok a ∧ k a = .ok b := by
  cases m with
  | error e => simp [bind, Except.bind]
  | ok a => simp [bind, Except.bind]

theorem pure_ok {α : Type} {a b : α} : (pure a : Except Panic α) = .ok b ↔ a = b := by
  simp [pure, Except.pure]

theorem bind_of_ok {α β : Type} {m : Except Panic α} {k : α → Except Panic β} {a : α} (h : m = .ok a) :
    (m >>= k) = k a := by rw [h]; rfl

theorem bind_of_error {α β : Type} {m : Except Panic α} {k : α → Except Panic β} {e : Panic} (h : m = .error e) :
    (m >>= k) = .error e := by rw [h]; rfl

end Ecrs.Exc
