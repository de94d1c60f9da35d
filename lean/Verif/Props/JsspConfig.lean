import Verif.Jssp.Config

/-!
# C114, C115: which options of the job shop example take effect
-/

set_option linter.unusedSectionVars false

namespace Ecrs.Jssp
open Ecrs

section
variable {Path F : Type} (read : Path → Except String (PartialConfig Path F))

/-- The contents of the configuration file named on the command line; nothing is set when none is named. -/
def FileSays (a : Args Path F) (p : PartialConfig Path F) : Prop :=
  (∃ f, a.cfgFile = some f ∧ read f = .ok p) ∨
  (a.cfgFile = none ∧ p.inputFile = none ∧ p.outputDir = none ∧ p.nGen = none ∧ p.popSize = none ∧ p.delayConstFactor = none ∧
    p.performRandomsearch = none)

/-- The value of an option: from the command line if given there, else from the file. -/
def Effective {α : Type} (cli file value : Option α) : Prop := (cli ≠ none → value = cli) ∧ (cli = none → value = file)

private theorem bind_ok' {ε α β : Type} {x : Except ε α} {f : α → Except ε β} {b : β} :
    (x >>= f) = .ok b ↔ ∃ a, x = .ok a ∧ f a = .ok b := by
  cases x <;> simp [bind, Except.bind]

private theorem bind_of_ok' {ε α β : Type} {x : Except ε α} {f : α → Except ε β} {a : α} (h : x = .ok a) : (x >>= f) = f a := by
  rw [h]; rfl

private theorem bind_of_error' {ε α β : Type} {x : Except ε α} {f : α → Except ε β} {e : ε} (h : x = .error e) :
    (x >>= f) = .error e := by
  rw [h]; rfl

private theorem effective_iff {α : Type} {cli file value : Option α} : Effective cli file value ↔ value = override file cli := by
  unfold Effective override
  cases cli <;> simp

private theorem fileSays_iff {a : Args Path F} {p : PartialConfig Path F} : FileSays read a p ↔ initialConfig read a = .ok p := by
  unfold FileSays initialConfig
  cases hc : a.cfgFile with
  | none =>
    cases p
    simp [PartialConfig.empty, eq_comm]
  | some f =>
    cases hr : read f <;> simp [hr]

/-- **C114**: a configuration is built exactly when the file (if any) can be read and input file and output directory are
given on the command line or in the file; then every option has the value of the command line if given there and otherwise
that of the file, and random search is off unless asked for. -/
theorem C114_precedence (a : Args Path F) (c : Config Path F) : Config.ofArgs read a = .ok c ↔
    ∃ p, FileSays read a p ∧ Effective a.inputFile p.inputFile (some c.inputFile) ∧ Effective a.outputDir p.outputDir (some c.outputDir) ∧
      Effective a.nGen p.nGen c.nGen ∧ Effective a.popSize p.popSize c.popSize ∧
      Effective a.delayConstFactor p.delayConstFactor c.delayConstFactor ∧
      ∃ rs, Effective a.performRandomsearch p.performRandomsearch rs ∧ (c.performRandomsearch = true ↔ rs = some true) := by
  simp only [fileSays_iff, effective_iff]
  unfold Config.ofArgs
  rw [bind_ok']
  refine exists_congr fun p => and_congr_right fun _ => ?_
  unfold Config.ofPartial
  obtain ⟨ci, co, cg, cp, cd, cr⟩ := c
  cases h1 : override p.inputFile a.inputFile <;> cases h2 : override p.outputDir a.outputDir
  · simp
  · simp
  · simp
  · simp only [Except.ok.injEq, Config.mk.injEq, Option.some.injEq, exists_eq_left]
    cases h3 : override p.performRandomsearch a.performRandomsearch with
    | none => cases cr <;> simp [eq_comm]
    | some b => cases b <;> cases cr <;> simp [eq_comm]

/-- **C114**: without an input file, or without an output directory, in both places there is no configuration. -/
theorem C114_required {a : Args Path F} {p : PartialConfig Path F} (hp : FileSays read a p) :
    (a.inputFile = none → p.inputFile = none → Config.ofArgs read a = .error .inputFileMissing) ∧
    ((a.inputFile ≠ none ∨ p.inputFile ≠ none) → a.outputDir = none → p.outputDir = none →
      Config.ofArgs read a = .error .outputDirMissing) := by
  rw [fileSays_iff] at hp
  unfold Config.ofArgs
  rw [bind_of_ok' hp]
  unfold Config.ofPartial override
  constructor
  · intro h1 h2
    rw [h1, h2]
  · intro h0 h1 h2
    rw [h1, h2]
    cases ha : a.inputFile with
    | some x => rfl
    | none =>
      cases hq : p.inputFile with
      | some x => rfl
      | none => simp [ha, hq] at h0

/-- **C114**: a configuration file that cannot be read is reported, whatever the command line says. -/
theorem C114_unreadable {a : Args Path F} {f : Path} {e : String} (hf : a.cfgFile = some f) (hr : read f = .error e) :
    Config.ofArgs read a = .error (.loading e) := by
  unfold Config.ofArgs
  refine bind_of_error' ?_
  unfold initialConfig
  rw [hf]
  simp [hr]

/-- **C114**: the started solver uses the configured population size and number of generations, by default twice the number
of operations and 400, and is random search exactly when that is configured. -/
theorem C114_launch (x : F) (nOps : Nat) (c : Config Path F) :
    (∀ n, c.popSize = some n → (launch x nOps c).populationSize = n) ∧
    (c.popSize = none → (launch x nOps c).populationSize = nOps + nOps) ∧
    (∀ n, c.nGen = some n → (launch x nOps c).generations = n) ∧ (c.nGen = none → (launch x nOps c).generations = 400) ∧
    ((launch x nOps c).randomSearch = true ↔ c.performRandomsearch = true) := by
  unfold launch
  refine ⟨fun n h => by simp [h], fun h => by simp [h]; omega, fun n h => by simp [h], fun h => by simp [h], Iff.rfl⟩

/-- **C114**: the program starts a solver exactly when every file named on the command line exists (input and
configuration), the configuration can be built and the instance can be read; it then runs with that configuration. -/
theorem C114_starts (isFile : Path → Bool) (instanceOf : Path → Except Panic Nat) (x : F) (a : Args Path F) (l : Launch F) :
    main isFile read instanceOf x a = .ok l ↔ (∀ f, a.inputFile = some f → isFile f = true) ∧
      (∀ f, a.cfgFile = some f → isFile f = true) ∧
      ∃ c n, Config.ofArgs read a = .ok c ∧ instanceOf c.inputFile = .ok n ∧ l = launch x n c := by
  have hv : validateArgs isFile a = true ↔ (∀ f, a.inputFile = some f → isFile f = true) ∧
      (∀ f, a.cfgFile = some f → isFile f = true) := by
    unfold validateArgs
    cases a.inputFile <;> cases a.cfgFile <;> simp
  unfold main
  by_cases h : validateArgs isFile a = true
  · rw [if_pos h]
    obtain ⟨h1, h2⟩ := hv.1 h
    refine Iff.trans ?_ ⟨fun h3 => ⟨h1, h2, h3⟩, fun h3 => h3.2.2⟩
    cases hc : Config.ofArgs read a with
    | error e => simp
    | ok c =>
      simp only [bind, Except.bind]
      cases hi : instanceOf c.inputFile with
      | error e => simp [hi]
      | ok n => simp [hi, pure, Except.pure, eq_comm]
  · rw [if_neg h]
    constructor
    · intro e; cases e
    · rintro ⟨h1, h2, -⟩
      exact absurd (hv.2 ⟨h1, h2⟩) h

/-- **C115**, violated: the delay constant given on the command line or in the file has no effect.  Two command lines that
differ in it only start the same solver, whatever the file system contains. -/
theorem C115_delay_const_ignored (isFile : Path → Bool) (instanceOf : Path → Except Panic Nat) (x : F) (a : Args Path F) (d : Option F) :
    main isFile read instanceOf x { a with delayConstFactor := d } = main isFile read instanceOf x a := by
  unfold main
  have hv : validateArgs isFile { a with delayConstFactor := d } = validateArgs isFile a := rfl
  rw [hv]
  split
  · have key : ∀ {q : Option F} {r : Except Panic (Launch F)},
        (∀ c, Config.ofArgs read a = .ok c → r = (do let nOps ← instanceOf c.inputFile; pure (launch x nOps c))) →
        (∀ e, Config.ofArgs read a = .error e → r = .error .libError) →
        (match Config.ofArgs read { a with delayConstFactor := q } with
          | .error _ => .error .libError
          | .ok c => do let nOps ← instanceOf c.inputFile; pure (launch x nOps c)) = r := by
      intro q r h1 h2
      unfold Config.ofArgs at h1 h2 ⊢
      have hi : initialConfig read { a with delayConstFactor := q } = initialConfig read a := rfl
      rw [hi]
      cases hc : initialConfig read a with
      | error e =>
        rw [hc] at h2
        exact (h2 e rfl).symm
      | ok p =>
        rw [hc] at h1 h2
        simp only [bind, Except.bind] at h1 h2 ⊢
        unfold Config.ofPartial at h1 h2 ⊢
        cases hi1 : override p.inputFile a.inputFile <;> cases hi2 : override p.outputDir a.outputDir <;>
          simp only [hi1, hi2] at h1 h2 ⊢
        · exact (h2 _ rfl).symm
        · exact (h2 _ rfl).symm
        · exact (h2 _ rfl).symm
        · exact (h1 _ rfl).symm
    refine key (fun c hc => by rw [hc]) (fun e he => by rw [he])
  · rfl

end

/-- A command line with a configuration file: the population size of the command line wins, the number of generations comes
from the file. -/
example : Config.ofArgs (Path := String) (F := Nat) (fun _ => .ok ⟨some "la01.txt", some "out", some 50, some 20, none, none⟩)
    ⟨none, some "results", none, some 100, none, some "cfg.json", none⟩ =
    .ok ⟨"la01.txt", "results", some 50, some 100, none, false⟩ := rfl

/-- `--delay-const-factor 3` starts the same solver as no option, with the constant 1.5 (here 15 tenths). -/
example : main (Path := String) (fun _ => true) (fun _ => .ok .empty) (fun _ => .ok 6) 15
      ⟨some "la01.txt", some "out", none, none, some 30, none, none⟩ = .ok ⟨false, 12, 400, 15⟩ := rfl

/-- A configuration file that does not exist stops the program although the input file exists. -/
example : main (Path := String) (fun f => f == "la01.txt") (fun _ => .ok .empty) (fun _ => .ok 6) 15
      ⟨some "la01.txt", some "out", none, none, some 30, some "missing.json", none⟩ = .error .libError := rfl

/-! ## Every theorem on a concrete case -/

section instances
/-- Reading a configuration file that gives an output directory but no instance. -/
def exRead : String → Except String (PartialConfig String Nat) := fun f =>
  if f = "cfg.json" then .ok ⟨none, some "out", some 50, some 20, none, none⟩ else .error "no such file"
example := (C114_precedence exRead ⟨some "la01.txt", some "results", none, some 100, none, some "cfg.json", none⟩ _).1 rfl
example := (C114_required exRead (a := ⟨none, none, none, none, none, some "cfg.json", none⟩) (p := ⟨none, some "out", some 50, some 20, none, none⟩)
  (.inl ⟨"cfg.json", rfl, rfl⟩)).1 rfl rfl
example := C114_unreadable exRead (a := ⟨none, none, none, none, none, some "other.json", none⟩) rfl rfl
example := (C114_launch (15 : Nat) 6 (⟨"la01.txt", "results", some 50, none, none, false⟩ : Config String Nat)).2.1 rfl
example := (C114_starts exRead (fun _ => true) (fun _ => .ok 6) 15 ⟨some "la01.txt", some "results", none, some 100, none, some "cfg.json", none⟩ _).1 rfl
end instances

end Ecrs.Jssp
