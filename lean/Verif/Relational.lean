import Verif.Basic

/-!
# Relating two computations

`Rel2 R m m'`: from every world, `m` and `m'` either raise the same panic, or both return, leave the same world, and their
results are related by `R`.  Used to compare two runs of a search that differ in the objective (C145).
-/

namespace Ecrs

/-- The two computations behave alike and return related results. -/
def Rel2 {W α β : Type} (R : α → β → Prop) (m : M W α) (m' : M W β) : Prop :=
  ∀ w, (∃ e, m w = .error e ∧ m' w = .error e) ∨
    ∃ a b w', m w = .ok (a, w') ∧ m' w = .ok (b, w') ∧ R a b

namespace Rel2
variable {W α β γ δ : Type}

theorem rfl' {m : M W α} : Rel2 Eq m m := by
  intro w
  cases h : m w with
  | error e => exact .inl ⟨e, rfl, rfl⟩
  | ok p => exact .inr ⟨p.1, p.1, p.2, rfl, rfl, rfl⟩

theorem of_eq {m m' : M W α} (h : m = m') : Rel2 Eq m m' := by subst h; exact rfl'

theorem pure {R : α → β → Prop} {a : α} {b : β} (h : R a b) : Rel2 R (Pure.pure a : M W α) (Pure.pure b) :=
  fun w => .inr ⟨a, b, w, rfl, rfl, h⟩

theorem fail {R : α → β → Prop} {e : Panic} : Rel2 R (M.fail e : M W α) (M.fail e) :=
  fun _ => .inl ⟨e, rfl, rfl⟩

theorem mono {R S : α → β → Prop} {m : M W α} {m' : M W β} (h : Rel2 R m m') (hS : ∀ a b, R a b → S a b) :
    Rel2 S m m' := fun w => (h w).imp id fun ⟨a, b, w', h1, h2, h3⟩ => ⟨a, b, w', h1, h2, hS a b h3⟩

theorem bind {R : α → β → Prop} {S : γ → δ → Prop} {m : M W α} {m' : M W β} {f : α → M W γ} {f' : β → M W δ}
    (h : Rel2 R m m') (hf : ∀ a b, R a b → Rel2 S (f a) (f' b)) : Rel2 S (m >>= f) (m' >>= f') := by
  intro w
  rcases h w with ⟨e, h1, h2⟩ | ⟨a, b, w', h1, h2, h3⟩
  · exact .inl ⟨e, M.bind_of_error h1, M.bind_of_error h2⟩
  · rw [M.bind_of_ok h1, M.bind_of_ok h2]; exact hf a b h3 w'

/-- The same first step on both sides. -/
theorem bindEq {S : γ → δ → Prop} {m m' : M W α} {f : α → M W γ} {f' : α → M W δ} (h : m = m')
    (hf : ∀ a, Rel2 S (f a) (f' a)) : Rel2 S (m >>= f) (m' >>= f') :=
  bind (of_eq h) fun a b hab => by subst hab; exact hf a

theorem ofExcept {R : α → β → Prop} {x : Except Panic α} {y : Except Panic β}
    (h : (∃ e, x = .error e ∧ y = .error e) ∨ ∃ a b, x = .ok a ∧ y = .ok b ∧ R a b) :
    Rel2 R (M.ofExcept x : M W α) (M.ofExcept y) := by
  intro w
  rcases h with ⟨e, rfl, rfl⟩ | ⟨a, b, rfl, rfl, h⟩
  · exact .inl ⟨e, rfl, rfl⟩
  · exact .inr ⟨a, b, w, rfl, rfl, h⟩

theorem forEach {R : α → β → Prop} {S : γ → δ → Prop} {f : α → M W γ} {f' : β → M W δ}
    (h : ∀ a b, R a b → Rel2 S (f a) (f' b)) :
    ∀ {xs : List α} {ys : List β}, List.Forall₂ R xs ys →
      Rel2 (List.Forall₂ S) (M.forEach f xs) (M.forEach f' ys)
  | _, _, .nil => pure .nil
  | _, _, .cons hxy ht => bind (h _ _ hxy) fun _ _ h1 => bind (forEach h ht) fun _ _ h2 => pure (.cons h1 h2)

theorem replicate {S : γ → δ → Prop} {f : M W γ} {f' : M W δ} (h : Rel2 S f f') :
    ∀ n, Rel2 (List.Forall₂ S) (M.replicate n f) (M.replicate n f')
  | 0 => pure .nil
  | n + 1 => bind h fun _ _ h1 => bind (replicate h n) fun _ _ h2 => pure (.cons h1 h2)

/-- Related computations whose results are related by a function are equal up to that function. -/
theorem map_eq {f : α → γ} {g : β → γ} {R : α → β → Prop} {m : M W α} {m' : M W β} (h : Rel2 R m m')
    (hfg : ∀ a b, R a b → f a = g b) : (g <$> m' : M W γ) = f <$> m := by
  funext w
  rw [map_eq_pure_bind, map_eq_pure_bind]
  rcases h w with ⟨e, h1, h2⟩ | ⟨a, b, w', h1, h2, h3⟩
  · rw [M.bind_of_error h1, M.bind_of_error h2]
  · rw [M.bind_of_ok h1, M.bind_of_ok h2, hfg a b h3]

end Rel2
end Ecrs
