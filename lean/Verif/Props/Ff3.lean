import Verif.Props.Ff2

/-!
# C121: the firefly builder, any sequence of setters
-/

set_option linter.unusedSectionVars false

namespace Ecrs.Ff
open Ecrs
variable {X : Type}

/-- The value given by the last call in `l` that says something (`said`), `d` if there is none. -/
def lastSaid {V : Type} (l : List (Setter X)) (said : Setter X → Option V) (d : V) : V := (l.reverse.findSome? said).getD d

theorem lastSaid_fold {V : Type} (get : Builder X → V) (said : Setter X → Option V)
    (h : ∀ b s, get (Setter.apply b s) = (said s).getD (get b)) (l : List (Setter X)) (b : Builder X) :
    get (l.foldl Setter.apply b) = lastSaid l said (get b) := by
  unfold lastSaid
  induction l generalizing b with
  | nil => rfl
  | cons s l ih =>
    rw [List.foldl_cons, ih, List.reverse_cons, List.findSome?_append, h]
    cases hl : l.reverse.findSome? said with
    | some v => rfl
    | none =>
      rw [Option.none_or, Option.getD_none]
      cases hs : said s with
      | some v => simp [hs]
      | none => simp [hs]

/-- **C121.** After any sequence of setter calls every setting has the value given by the last call that concerns it
(`set_config` concerns all numeric settings), and its initial value if no call does. -/
theorem C121_last_setter_wins (l : List (Setter X)) (b : Builder X) :
    let r := l.foldl Setter.apply b
    r.cfg.dimensions = lastSaid l (fun | .dimensions n => some n | .config c => some c.dimensions | _ => none) b.cfg.dimensions ∧
    r.cfg.lower = lastSaid l (fun | .lower x => some x | .config c => some c.lower | _ => none) b.cfg.lower ∧
    r.cfg.upper = lastSaid l (fun | .upper x => some x | .config c => some c.upper | _ => none) b.cfg.upper ∧
    r.cfg.maxGenerations =
      lastSaid l (fun | .maxGenerations n => some n | .config c => some c.maxGenerations | _ => none) b.cfg.maxGenerations ∧
    r.cfg.populationSize =
      lastSaid l (fun | .populationSize n => some n | .config c => some c.populationSize | _ => none) b.cfg.populationSize ∧
    r.cfg.alfa0 = lastSaid l (fun | .alfa0 x => some x | .config c => some c.alfa0 | _ => none) b.cfg.alfa0 ∧
    r.cfg.beta0 = lastSaid l (fun | .beta0 x => some x | .config c => some c.beta0 | _ => none) b.cfg.beta0 ∧
    r.cfg.gamma = lastSaid l (fun | .gamma x => some x | .config c => some c.gamma | _ => none) b.cfg.gamma ∧
    r.cfg.delta = lastSaid l (fun | .delta x => some x | .config c => some c.delta | _ => none) b.cfg.delta ∧
    r.f = lastSaid l (fun | .brightnessFunction f => some f | _ => none) b.f ∧
    r.pop = lastSaid l (fun | .population p => some p | _ => none) b.pop := by
  refine ⟨?_, ?_, ?_, ?_, ?_, ?_, ?_, ?_, ?_, ?_, ?_⟩
  · exact lastSaid_fold (fun b => b.cfg.dimensions) _ (fun b s => by cases s <;> rfl) l b
  · exact lastSaid_fold (fun b => b.cfg.lower) _ (fun b s => by cases s <;> rfl) l b
  · exact lastSaid_fold (fun b => b.cfg.upper) _ (fun b s => by cases s <;> rfl) l b
  · exact lastSaid_fold (fun b => b.cfg.maxGenerations) _ (fun b s => by cases s <;> rfl) l b
  · exact lastSaid_fold (fun b => b.cfg.populationSize) _ (fun b s => by cases s <;> rfl) l b
  · exact lastSaid_fold (fun b => b.cfg.alfa0) _ (fun b s => by cases s <;> rfl) l b
  · exact lastSaid_fold (fun b => b.cfg.beta0) _ (fun b s => by cases s <;> rfl) l b
  · exact lastSaid_fold (fun b => b.cfg.gamma) _ (fun b s => by cases s <;> rfl) l b
  · exact lastSaid_fold (fun b => b.cfg.delta) _ (fun b s => by cases s <;> rfl) l b
  · exact lastSaid_fold (fun b => b.f) _ (fun b s => by cases s <;> rfl) l b
  · exact lastSaid_fold (fun b => b.pop) _ (fun b s => by cases s <;> rfl) l b

/-- A later call overrides an earlier one, other settings keep theirs. -/
example (b : Builder Nat) : ([.beta0 3, .gamma 5, .beta0 4].foldl Setter.apply b).cfg.beta0 = 4 ∧
    ([.beta0 3, .gamma 5, .beta0 4].foldl Setter.apply b).cfg.gamma = 5 := ⟨rfl, rfl⟩
example (b : Builder Nat) := C121_last_setter_wins [.beta0 3, .gamma 5, .beta0 4] b

end Ecrs.Ff
