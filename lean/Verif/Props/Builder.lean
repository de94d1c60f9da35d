import Verif.Ga.Builder
import Verif.Props.Presets

/-!
# Property C40: builders

Specification vocabulary: `Call.fitness? c` etc. say what a setter call sets; the value in force after a chain is
the one set last.
-/

namespace Ecrs.Ga
open Ecrs

section
variable {Mu Cr Se Re Po Fi Pr : Type}

namespace Call
/-- What each call sets. -/
def maxDuration? : Call Mu Cr Se Re Po Fi Pr → Option Nat | .setMaxDuration x => some x | _ => none
def generationLimit? : Call Mu Cr Se Re Po Fi Pr → Option Nat | .setMaxGenerationCount x => some x | _ => none
def populationSize? : Call Mu Cr Se Re Po Fi Pr → Option Nat | .setPopulationSize x => some x | _ => none
def fitness? : Call Mu Cr Se Re Po Fi Pr → Option Fi | .setFitness x => some x | _ => none
def mutation? : Call Mu Cr Se Re Po Fi Pr → Option Mu | .setMutation x => some x | _ => none
def crossover? : Call Mu Cr Se Re Po Fi Pr → Option Cr | .setCrossover x => some x | _ => none
def selection? : Call Mu Cr Se Re Po Fi Pr → Option Se | .setSelection x => some x | _ => none
def replacement? : Call Mu Cr Se Re Po Fi Pr → Option Re | .setReplacement x => some x | _ => none
def generator? : Call Mu Cr Se Re Po Fi Pr → Option Po | .setPopulationGenerator x => some x | _ => none
def probe? : Call Mu Cr Se Re Po Fi Pr → Option Pr | .setProbe x => some x | _ => none
end Call

/-- The value a chain of calls last set for a component, if any. -/
def lastSet {C α : Type} (get : C → Option α) (xs : List C) : Option α := (xs.filterMap get).getLast?

/-- No setter was given a value it rejects. -/
def ArgsValid (xs : List (Call Mu Cr Se Re Po Fi Pr)) : Prop :=
  ∀ x ∈ xs, x ≠ .setMaxGenerationCount 0 ∧ x ≠ .setPopulationSize 0

/-- The missing components of a chain in the order in which `build` complains about them. -/
def missing (xs : List (Call Mu Cr Se Re Po Fi Pr)) : List ConfigError :=
  (if (lastSet Call.fitness? xs).isNone then [ConfigError.missingFitness] else []) ++
  (if (lastSet Call.mutation? xs).isNone then [.missingMutation] else []) ++
  (if (lastSet Call.crossover? xs).isNone then [.missingCrossover] else []) ++
  (if (lastSet Call.selection? xs).isNone then [.missingSelection] else []) ++
  (if (lastSet Call.replacement? xs).isNone then [.missingReplacement] else []) ++
  (if (lastSet Call.generator? xs).isNone then [.missingPopulationFactory] else []) ++
  (if (lastSet Call.probe? xs).isNone then [.noProbe] else [])

theorem lastSet_cons {C α : Type} (get : C → Option α) (x : C) (xs : List C) :
    lastSet get (x :: xs) = (lastSet get xs).or (get x) := by
  unfold lastSet
  cases hx : get x with
  | none => rw [List.filterMap_cons_none (f := get) hx]; simp
  | some a =>
    rw [List.filterMap_cons_some (f := get) hx, List.getLast?_cons]
    cases (List.filterMap get xs).getLast? <;> simp

theorem calls_ok (c : GAConfigOpt Mu Cr Se Re Po Fi Pr) (xs : List (Call Mu Cr Se Re Po Fi Pr))
    (hv : ArgsValid xs) : c.calls xs = .ok
      { params := ⟨(lastSet Call.populationSize? xs).or c.params.populationSize,
          (lastSet Call.generationLimit? xs).or c.params.generationLimit,
          (lastSet Call.maxDuration? xs).or c.params.maxDuration⟩
        fitness := (lastSet Call.fitness? xs).or c.fitness
        mutation := (lastSet Call.mutation? xs).or c.mutation
        crossover := (lastSet Call.crossover? xs).or c.crossover
        selection := (lastSet Call.selection? xs).or c.selection
        replacement := (lastSet Call.replacement? xs).or c.replacement
        populationFactory := (lastSet Call.generator? xs).or c.populationFactory
        probe := (lastSet Call.probe? xs).or c.probe } := by
  induction xs generalizing c with
  | nil => simp [GAConfigOpt.calls, lastSet]
  | cons x xs ih =>
    have hx := hv x (by simp)
    have hv' : ArgsValid xs := fun y hy => hv y (by simp [hy])
    unfold GAConfigOpt.calls
    simp only [lastSet_cons]
    cases x with
    | setMaxGenerationCount n =>
      have : 1 ≤ n := Nat.pos_of_ne_zero (by rintro rfl; exact hx.1 rfl)
      simp only [GAConfigOpt.call, if_pos this, ih _ hv']
      simp [Call.populationSize?, Call.generationLimit?, Call.maxDuration?, Call.fitness?, Call.mutation?,
        Call.crossover?, Call.selection?, Call.replacement?, Call.generator?, Call.probe?]
    | setPopulationSize n =>
      have : 0 < n := Nat.pos_of_ne_zero (by rintro rfl; exact hx.2 rfl)
      simp only [GAConfigOpt.call, if_pos this, ih _ hv']
      simp [Call.populationSize?, Call.generationLimit?, Call.maxDuration?, Call.fitness?, Call.mutation?,
        Call.crossover?, Call.selection?, Call.replacement?, Call.generator?, Call.probe?]
    | _ =>
      simp only [GAConfigOpt.call, ih _ hv']
      simp [Call.populationSize?, Call.generationLimit?, Call.maxDuration?, Call.fitness?, Call.mutation?,
        Call.crossover?, Call.selection?, Call.replacement?, Call.generator?, Call.probe?]

theorem calls_invalid (c : GAConfigOpt Mu Cr Se Re Po Fi Pr) (xs : List (Call Mu Cr Se Re Po Fi Pr))
    (hv : ¬ ArgsValid xs) : c.calls xs = .error .assertion := by
  induction xs generalizing c with
  | nil => exact absurd (by simp [ArgsValid]) hv
  | cons x xs ih =>
    unfold GAConfigOpt.calls
    by_cases hx : x ≠ .setMaxGenerationCount 0 ∧ x ≠ .setPopulationSize 0
    · have hv' : ¬ ArgsValid xs := fun h => hv fun y hy => by
        rcases List.mem_cons.1 hy with rfl | hy
        · exact hx
        · exact h y hy
      cases hc : c.call x with
      | ok c' => exact ih c' hv'
      | error e =>
        cases x <;> simp_all [GAConfigOpt.call]
        all_goals
          split at hc
          · cases hc
          · cases hc; rfl
    · have : x = .setMaxGenerationCount 0 ∨ x = .setPopulationSize 0 := by
        by_contra h; exact hx ⟨fun e => h (.inl e), fun e => h (.inr e)⟩
      rcases this with rfl | rfl <;> rfl

theorem getOrInsert_eq {α : Type} (o : Option α) (a : α) : getOrInsert o a = some (o.getD a) := by
  cases o <;> rfl

/-- **C40, success.** A chain of setter calls followed by `build` succeeds exactly when no setter was given an
invalid value (generation count 0, population size 0) and all seven components were set; the resulting
configuration then holds the component and parameter values set last, with 100 individuals, `usize::MAX`
generations and `Duration::MAX` for parameters that were never set. -/
theorem C40_build_success (xs : List (Call Mu Cr Se Re Po Fi Pr)) (cfg : GAConfig Mu Cr Se Re Po Fi Pr) :
    genericBuild xs = .ok cfg ↔ ArgsValid xs ∧
      lastSet Call.fitness? xs = some cfg.fitness ∧
      lastSet Call.mutation? xs = some cfg.mutation ∧
      lastSet Call.crossover? xs = some cfg.crossover ∧
      lastSet Call.selection? xs = some cfg.selection ∧
      lastSet Call.replacement? xs = some cfg.replacement ∧
      lastSet Call.generator? xs = some cfg.populationFactory ∧
      lastSet Call.probe? xs = some cfg.probe ∧
      cfg.params.populationSize = (lastSet Call.populationSize? xs).getD 100 ∧
      cfg.params.generationLimit = (lastSet Call.generationLimit? xs).getD (2 ^ 64 - 1) ∧
      cfg.params.maxDuration = (lastSet Call.maxDuration? xs).getD ((2 ^ 64 - 1) * 10 ^ 9 + 999999999) := by
  unfold genericBuild
  by_cases hv : ArgsValid xs
  · rw [calls_ok _ xs hv]
    simp only [GAConfigOpt.new, GAParamsOpt.new, Option.or_none, GAConfigOpt.build, GAConfig.tryFrom,
      GAParamsOpt.fillFrom, getOrInsert_eq, GAParams.tryFrom, defaultParams, usizeMax, durationMax]
    obtain ⟨⟨ps, gl, md⟩, f, mu, cr, se, re, po, pr⟩ := cfg
    cases h1 : lastSet Call.fitness? xs <;> simp only [reduceCtorEq, false_and, and_false]
    cases h2 : lastSet Call.mutation? xs <;> simp only [reduceCtorEq, false_and, and_false]
    cases h3 : lastSet Call.crossover? xs <;> simp only [reduceCtorEq, false_and, and_false]
    cases h4 : lastSet Call.selection? xs <;> simp only [reduceCtorEq, false_and, and_false]
    cases h5 : lastSet Call.replacement? xs <;> simp only [reduceCtorEq, false_and, and_false]
    cases h6 : lastSet Call.generator? xs <;> simp only [reduceCtorEq, false_and, and_false]
    cases h7 : lastSet Call.probe? xs <;> simp only [reduceCtorEq, false_and, and_false]
    simp only [Except.ok.injEq, GAConfig.mk.injEq, GAParams.mk.injEq, Option.some.injEq, hv, true_and]
    constructor
    · rintro ⟨⟨rfl, rfl, rfl⟩, rfl, rfl, rfl, rfl, rfl, rfl, rfl⟩; simp
    · rintro ⟨rfl, rfl, rfl, rfl, rfl, rfl, rfl, rfl, rfl, rfl⟩; simp
  · rw [calls_invalid _ xs hv]
    simp [hv]

/-- **C40, failure.** Otherwise the chain panics: in the setter if a setter got an invalid value, and else in
`build` with an error naming the first missing component. -/
theorem C40_build_error (xs : List (Call Mu Cr Se Re Po Fi Pr)) (e : BuildPanic)
    (h : genericBuild xs = .error e) :
    (¬ ArgsValid xs ∧ e = .assertion) ∨ (ArgsValid xs ∧ ∃ c, (missing xs).head? = some c ∧ e = .config c) := by
  unfold genericBuild at h
  by_cases hv : ArgsValid xs
  · right
    refine ⟨hv, ?_⟩
    rw [calls_ok _ xs hv] at h
    simp only [GAConfigOpt.new, GAParamsOpt.new, Option.or_none, GAConfigOpt.build, GAConfig.tryFrom,
      GAParamsOpt.fillFrom, getOrInsert_eq, GAParams.tryFrom] at h
    unfold missing
    cases h1 : lastSet Call.fitness? xs <;> simp only [h1] at h
    · exact ⟨_, rfl, by cases h; rfl⟩
    cases h2 : lastSet Call.mutation? xs <;> simp only [h2] at h
    · exact ⟨_, rfl, by cases h; rfl⟩
    cases h3 : lastSet Call.crossover? xs <;> simp only [h3] at h
    · exact ⟨_, rfl, by cases h; rfl⟩
    cases h4 : lastSet Call.selection? xs <;> simp only [h4] at h
    · exact ⟨_, rfl, by cases h; rfl⟩
    cases h5 : lastSet Call.replacement? xs <;> simp only [h5] at h
    · exact ⟨_, rfl, by cases h; rfl⟩
    cases h6 : lastSet Call.generator? xs <;> simp only [h6] at h
    · exact ⟨_, rfl, by cases h; rfl⟩
    cases h7 : lastSet Call.probe? xs <;> simp only [h7] at h
    · exact ⟨_, rfl, by cases h; rfl⟩
    cases h
  · left
    rw [calls_invalid _ xs hv] at h
    cases h; exact ⟨hv, rfl⟩

/-- Which component or parameter a setter call concerns. -/
def Call.kind : Call Mu Cr Se Re Po Fi Pr → Nat
  | .setMaxDuration _ => 0
  | .setMaxGenerationCount _ => 1
  | .setPopulationSize _ => 2
  | .setFitness _ => 3
  | .setMutation _ => 4
  | .setCrossover _ => 5
  | .setSelection _ => 6
  | .setReplacement _ => 7
  | .setPopulationGenerator _ => 8
  | .setProbe _ => 9

theorem filterMap_le_one {α : Type} (get : Call Mu Cr Se Re Po Fi Pr → Option α) (k : Nat)
    (hget : ∀ x, (get x).isSome → x.kind = k) : ∀ (xs : List (Call Mu Cr Se Re Po Fi Pr)),
      (xs.map Call.kind).Nodup → (xs.filterMap get).length ≤ 1 ∧
        (k ∉ xs.map Call.kind → xs.filterMap get = [])
  | [], _ => by simp
  | x :: xs, hn => by
    obtain ⟨h1, h2⟩ := filterMap_le_one get k hget xs (List.nodup_cons.1 hn).2
    have hx := (List.nodup_cons.1 hn).1
    cases e : get x with
    | none =>
      rw [List.filterMap_cons_none (f := get) e]
      exact ⟨h1, fun h => h2 fun h' => h (by simp [List.mem_map] at h' ⊢; exact .inr h')⟩
    | some a =>
      have hk := hget x (by simp [e])
      rw [List.filterMap_cons_some (f := get) e, h2 (by rw [← hk]; exact hx)]
      exact ⟨by simp, fun h => absurd (by simp [hk]) h⟩

/-- **C40, order of setters.** When nothing is set twice, the order of the setter calls is irrelevant. -/
theorem C40_build_order_irrelevant (xs ys : List (Call Mu Cr Se Re Po Fi Pr)) (hp : xs.Perm ys)
    (hn : (xs.map Call.kind).Nodup) : genericBuild xs = genericBuild ys := by
  have hlast : ∀ {α} (get : Call Mu Cr Se Re Po Fi Pr → Option α) (k : Nat),
      (∀ x, (get x).isSome → x.kind = k) → lastSet get xs = lastSet get ys := by
    intro α get k hget
    have h := (filterMap_le_one get k hget xs hn).1
    have hp' := hp.filterMap get
    unfold lastSet
    match hx : xs.filterMap get, h with
    | [], _ => rw [hx] at hp'; rw [List.nil_perm.1 hp']
    | [a], _ => rw [hx] at hp'; rw [List.singleton_perm.1 hp']
  have hval : ArgsValid xs ↔ ArgsValid ys := by
    unfold ArgsValid
    constructor
    · intro h x hx; exact h x (hp.mem_iff.2 hx)
    · intro h x hx; exact h x (hp.mem_iff.1 hx)
  unfold genericBuild
  by_cases hv : ArgsValid xs
  · rw [calls_ok _ xs hv, calls_ok _ ys (hval.1 hv),
      hlast Call.populationSize? 2 (by intro x; cases x <;> simp [Call.populationSize?, Call.kind]),
      hlast Call.generationLimit? 1 (by intro x; cases x <;> simp [Call.generationLimit?, Call.kind]),
      hlast Call.maxDuration? 0 (by intro x; cases x <;> simp [Call.maxDuration?, Call.kind]),
      hlast Call.fitness? 3 (by intro x; cases x <;> simp [Call.fitness?, Call.kind]),
      hlast Call.mutation? 4 (by intro x; cases x <;> simp [Call.mutation?, Call.kind]),
      hlast Call.crossover? 5 (by intro x; cases x <;> simp [Call.crossover?, Call.kind]),
      hlast Call.selection? 6 (by intro x; cases x <;> simp [Call.selection?, Call.kind]),
      hlast Call.replacement? 7 (by intro x; cases x <;> simp [Call.replacement?, Call.kind]),
      hlast Call.generator? 8 (by intro x; cases x <;> simp [Call.generator?, Call.kind]),
      hlast Call.probe? 9 (by intro x; cases x <;> simp [Call.probe?, Call.kind])]
  · rw [calls_invalid _ xs hv, calls_invalid _ ys (fun h => hv (hval.2 h))]

end

/-! ## Presets -/

section presets
variable {Fi : Type}

namespace PresetCall
/-- What each call sets. -/
def maxDuration? : PresetCall Fi → Option Nat | .setMaxDuration x => some x | _ => none
def generationLimit? : PresetCall Fi → Option Nat | .setMaxGenerationCount x => some x | _ => none
def populationSize? : PresetCall Fi → Option Nat | .setPopulationSize x => some x | _ => none
def dim? : PresetCall Fi → Option Nat | .dim x => some x | _ => none
def fitness? : PresetCall Fi → Option Fi | .setFitness x => some x | _ => none
end PresetCall

/-- No setter was given a value it rejects. -/
def PresetArgsValid (checked : Bool) (xs : List (PresetCall Fi)) : Prop :=
  ∀ x ∈ xs, x ≠ .dim 0 ∧ (checked = true → x ≠ .setMaxGenerationCount 0 ∧ x ≠ .setPopulationSize 0)

theorem presetCalls_ok (checked : Bool) (c : PresetOpt Fi) (xs : List (PresetCall Fi))
    (hv : PresetArgsValid checked xs) : c.calls checked xs = .ok
      { params := ⟨(lastSet PresetCall.populationSize? xs).or c.params.populationSize,
          (lastSet PresetCall.generationLimit? xs).or c.params.generationLimit,
          (lastSet PresetCall.maxDuration? xs).or c.params.maxDuration⟩
        fitness := (lastSet PresetCall.fitness? xs).or c.fitness
        dim := (lastSet PresetCall.dim? xs).or c.dim } := by
  induction xs generalizing c with
  | nil => simp [PresetOpt.calls, lastSet]
  | cons x xs ih =>
    have hx := hv x (by simp)
    have hv' : PresetArgsValid checked xs := fun y hy => hv y (by simp [hy])
    unfold PresetOpt.calls
    simp only [lastSet_cons]
    cases x with
    | setMaxGenerationCount n =>
      have : checked = true → 1 ≤ n := fun hc => Nat.pos_of_ne_zero (by rintro rfl; exact (hx.2 hc).1 rfl)
      simp only [PresetOpt.call, if_pos this, ih _ hv']
      simp [PresetCall.populationSize?, PresetCall.generationLimit?, PresetCall.maxDuration?,
        PresetCall.fitness?, PresetCall.dim?]
    | setPopulationSize n =>
      have : checked = true → 0 < n := fun hc => Nat.pos_of_ne_zero (by rintro rfl; exact (hx.2 hc).2 rfl)
      simp only [PresetOpt.call, if_pos this, ih _ hv']
      simp [PresetCall.populationSize?, PresetCall.generationLimit?, PresetCall.maxDuration?,
        PresetCall.fitness?, PresetCall.dim?]
    | dim n =>
      have : 0 < n := Nat.pos_of_ne_zero (by rintro rfl; exact hx.1 rfl)
      simp only [PresetOpt.call, if_pos this, ih _ hv']
      simp [PresetCall.populationSize?, PresetCall.generationLimit?, PresetCall.maxDuration?,
        PresetCall.fitness?, PresetCall.dim?]
    | _ =>
      simp only [PresetOpt.call, ih _ hv']
      simp [PresetCall.populationSize?, PresetCall.generationLimit?, PresetCall.maxDuration?,
        PresetCall.fitness?, PresetCall.dim?]

theorem presetCalls_valid (checked : Bool) (c c' : PresetOpt Fi) (xs : List (PresetCall Fi))
    (h : c.calls checked xs = .ok c') : PresetArgsValid checked xs := by
  induction xs generalizing c with
  | nil => simp [PresetArgsValid]
  | cons x xs ih =>
    unfold PresetOpt.calls at h
    cases hc : c.call checked x with
    | error e => rw [hc] at h; cases h
    | ok c1 =>
      rw [hc] at h
      intro y hy
      rcases List.mem_cons.1 hy with rfl | hy
      · cases y <;> simp_all [PresetOpt.call]
        all_goals first
          | omega
          | (split at hc
             · rename_i hh; first | omega | (intro hck; have := hh hck; omega)
             · cases hc)
      · exact ih c1 h y hy

/-- **C40, presets.** The preset builders build exactly when the fitness and the dimension were set and no
setter was given a value it rejects (dimension 0 always; generation count 0 and population size 0 for the
bit-string builder and, in debug builds only, for the real-valued one); parameters default as documented. -/
theorem C40_preset_build (checked : Bool) (xs : List (PresetCall Fi)) (cfg : PresetConfig Fi) :
    presetBuild checked xs = .ok cfg ↔ PresetArgsValid checked xs ∧
      lastSet PresetCall.fitness? xs = some cfg.fitness ∧
      lastSet PresetCall.dim? xs = some cfg.dim ∧
      cfg.params.populationSize = (lastSet PresetCall.populationSize? xs).getD 100 ∧
      cfg.params.generationLimit = (lastSet PresetCall.generationLimit? xs).getD (2 ^ 64 - 1) ∧
      cfg.params.maxDuration =
        (lastSet PresetCall.maxDuration? xs).getD ((2 ^ 64 - 1) * 10 ^ 9 + 999999999) := by
  unfold presetBuild
  by_cases hv : PresetArgsValid checked xs
  · rw [presetCalls_ok checked _ xs hv]
    simp only [GAParamsOpt.new, Option.or_none, PresetOpt.build, GAConfig.tryFrom,
      GAParamsOpt.fillFrom, getOrInsert_eq, GAParams.tryFrom, defaultParams, usizeMax, durationMax]
    obtain ⟨⟨ps, gl, md⟩, dim, f⟩ := cfg
    cases h1 : lastSet PresetCall.fitness? xs <;> simp only [reduceCtorEq, false_and, and_false]
    cases h2 : lastSet PresetCall.dim? xs <;> simp only [reduceCtorEq, false_and, and_false]
    simp only [Except.ok.injEq, PresetConfig.mk.injEq, GAParams.mk.injEq, Option.some.injEq, hv, true_and]
    constructor
    · rintro ⟨⟨rfl, rfl, rfl⟩, rfl, rfl⟩; simp
    · rintro ⟨rfl, rfl, rfl, rfl, rfl⟩; simp
  · cases hc : (⟨GAParamsOpt.new, none, none⟩ : PresetOpt Fi).calls checked xs with
    | ok c => exact absurd (presetCalls_valid checked _ _ _ hc) hv
    | error e => simp [hv]

/-- **C41, from the builder on.** If a chain of real-valued preset setters builds, no call asked for an odd
or zero population size, and the fitness function never returns NaN, then the built GA runs to completion for
every generator and clock, staying in `[0,1)^dim` for the dimension given. -/
theorem C41_real_valued_built {G K F W : Type} [Field K] [LinearOrder K] [IsStrictOrderedRing K]
    [FloorSemiring K] [LinearOrder F] (R : Rng G K) (S : Slots W G) (worst : Fl F) {elapsed : M W Nat}
    (hel : Returns elapsed fun _ => True) (checked : Bool) {xs : List (PresetCall (List K → Fl F))}
    {cfg : PresetConfig (List K → Fl F)} (hb : presetBuild checked xs = .ok cfg)
    (hsz : ∀ n, PresetCall.setPopulationSize n ∈ xs → 0 < n ∧ n % 2 = 0)
    (hf : ∀ f, PresetCall.setFitness f ∈ xs → ∀ c, (f c).IsNum) :
    Returns (run (Individual.trait (List K) F)
        (rvcOps R S worst cfg.fitness cfg.dim cfg.params.populationSize elapsed) cfg.params
        (initialMetrics cfg.params))
      fun r => InUnitCube cfg.dim r.1.chromosome := by
  obtain ⟨hv, h1, h2, h3, -⟩ := (C40_preset_build checked xs cfg).1 hb
  have mem : ∀ {α : Type} (get : PresetCall (List K → Fl F) → Option α) (a : α), lastSet get xs = some a →
      ∃ x ∈ xs, get x = some a := by
    intro α get a h
    exact List.mem_filterMap.1 (List.mem_of_getLast? h)
  have hd : 0 < cfg.dim := by
    obtain ⟨x, hx, e⟩ := mem _ _ h2
    cases x <;> simp [PresetCall.dim?] at e
    subst e
    exact Nat.pos_of_ne_zero fun h0 => (hv _ hx).1 (by rw [h0])
  have hfit : ∀ c, (cfg.fitness c).IsNum := by
    obtain ⟨x, hx, e⟩ := mem _ _ h1
    cases x <;> simp [PresetCall.fitness?] at e
    subst e
    exact hf _ hx
  have hp : 0 < cfg.params.populationSize ∧ cfg.params.populationSize % 2 = 0 := by
    rw [h3]
    cases h : lastSet PresetCall.populationSize? xs with
    | none => simp
    | some n =>
      obtain ⟨x, hx, e⟩ := mem _ _ h
      cases x <;> simp [PresetCall.populationSize?] at e
      subst e
      exact hsz _ hx
  exact (C41_real_valued_preset R S worst hfit hd hel hp.1 hp.2 _).mono fun _ h => h.1

end presets

/-! ## Non-vacuity -/

example : genericBuild ([.setFitness 1, .setMutation 2, .setPopulationSize 7, .setCrossover 3, .setSelection 4,
    .setReplacement 5, .setPopulationGenerator 6, .setProbe 7, .setPopulationSize 9] :
      List (Call Nat Nat Nat Nat Nat Nat Nat)) =
    .ok ⟨⟨9, 2 ^ 64 - 1, (2 ^ 64 - 1) * 10 ^ 9 + 999999999⟩, 1, 2, 3, 4, 5, 6, 7⟩ := rfl

example : genericBuild ([.setFitness 1, .setMutation 2, .setSelection 4] :
      List (Call Nat Nat Nat Nat Nat Nat Nat)) = .error (.config .missingCrossover) := rfl

example : genericBuild ([.setPopulationSize 0] : List (Call Nat Nat Nat Nat Nat Nat Nat)) =
    .error .assertion := rfl

example : presetBuild true ([.dim 3, .setFitness ()] : List (PresetCall Unit)) =
    .ok ⟨⟨100, 2 ^ 64 - 1, (2 ^ 64 - 1) * 10 ^ 9 + 999999999⟩, 3, ()⟩ := rfl

/-! ## Every theorem on a concrete case -/

section instances

/-- All seven parts and a population size set twice. -/
def sevenCalls : List (Call Nat Nat Nat Nat Nat Nat Nat) := [.setFitness 1, .setMutation 2, .setPopulationSize 7, .setCrossover 3,
  .setSelection 4, .setReplacement 5, .setPopulationGenerator 6, .setProbe 7, .setPopulationSize 9]

example := (C40_build_success sevenCalls _).1 rfl
example := C40_build_error ([.setFitness 1, .setMutation 2, .setSelection 4] : List (Call Nat Nat Nat Nat Nat Nat Nat)) _ rfl
example := C40_build_order_irrelevant ([.setFitness 1, .setMutation 2, .setCrossover 3] : List (Call Nat Nat Nat Nat Nat Nat Nat))
  [.setMutation 2, .setFitness 1, .setCrossover 3] (.swap _ _ _) (by decide)
example := (C40_preset_build true ([.dim 3, .setFitness ()] : List (PresetCall Unit)) _).1 rfl
/-- A preset built with population size 4 and dimension 3. -/
example := C41_real_valued_built (K := ℚ) (F := ℚ) counterRng sharedSlots .nan (elapsed := pure 0) (Returns.pure trivial) true
  (xs := [.dim 3, .setFitness fun c => .num (c.headD 0), .setPopulationSize 4])
  rfl (by intro n hn; simp at hn; omega) (by intro f hf c; simp at hf; subst hf; trivial)

end instances

end Ecrs.Ga
