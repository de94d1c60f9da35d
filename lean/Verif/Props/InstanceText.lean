import Verif.Text.InstanceFile
import Verif.Props.CsvText
import Verif.Props.Jssp

/-!
# Property **C171**: which files the job shop example accepts

What a file says is specified by relations: how a number, a line, a file may be laid out.
-/

set_option linter.unusedSectionVars false
set_option linter.unusedVariables false

namespace Ecrs.Jssp
open Ecrs Ecrs.Csv

/-! ## Specification -/

/-- Specification: `w` is a way to write `n`: decimal digits, leading zeros and one `+` allowed, at most `max`. -/
def Numeral (max : Nat) (w : Text) (n : Nat) : Prop := ∃ d, (w = d ∨ w = '+' :: d) ∧ readNat d = some n ∧ n ≤ max

/-- Specification: nothing but white space. -/
def Blank (t : Text) : Prop := ∀ c ∈ t, space c = true

/-- Specification: nothing, or something starting with white space. -/
def SpaceFirst (t : Text) : Prop := t = [] ∨ ∃ c r, t = c :: r ∧ space c = true

/-- Specification: a line of numbers, separated (and possibly surrounded) by white space. -/
inductive Row (max : Nat) : Text → List Nat → Prop
  | blank {b : Text} : Blank b → Row max b []
  | word {b w r : Text} {n : Nat} {ns : List Nat} : Blank b → Numeral max w n → SpaceFirst r → Row max r ns → Row max (b ++ (w ++ r)) (n :: ns)

/-- Specification: a file of such lines; the last one need not be ended by a line feed. -/
inductive Rows (max : Nat) : Text → List (List Nat) → Prop
  | nil : Rows max [] []
  | last {l : Text} {ns : List Nat} : l ≠ [] → '\n' ∉ l → Row max l ns → Rows max l [ns]
  | line {l t : Text} {ns : List Nat} {rs : List (List Nat)} : '\n' ∉ l → Row max l ns → Rows max t rs → Rows max (l ++ '\n' :: t) (ns :: rs)

/-- Loading from the text: `run` and `JsspPopProvider::try_from` (examples/jssp/main.rs:150, problem/population.rs:78-86). -/
def loadText (max : Nat) (t : Text) : Except Panic (List Operation × Nat) := do
  let inst ← parseText max t
  let ops ← provider inst
  pure (ops, inst.nMachines)

/-! ## Numbers -/

theorem parseUsize_iff {max : Nat} {w : Text} {n : Nat} : parseUsize max w = some n ↔ Numeral max w n := by
  have key : ∀ d : Text, (if d.isEmpty then none else if d.all fun c => '0' ≤ c && c ≤ '9' then (if digitsValue d ≤ max then some (digitsValue d) else none)
      else none) = some n ↔ readNat d = some n ∧ n ≤ max := by
    intro d
    unfold readNat digitsValue
    cases d with
    | nil => simp
    | cons c d =>
      by_cases h : ((c :: d).all fun c => '0' ≤ c && c ≤ '9') = true
      · simp only [List.isEmpty_cons, Bool.false_eq_true, if_false, h, if_true, ne_eq, reduceCtorEq, not_false_eq_true, and_self, Option.some.injEq]
        split
        · simp only [Option.some.injEq]; constructor
          · intro e; exact ⟨e, by omega⟩
          · intro e; exact e.1
        · constructor
          · intro e; cases e
          · intro e; omega
      · simp only [List.isEmpty_cons, Bool.false_eq_true, if_false, h, and_false, if_false]
        simp
  unfold parseUsize Numeral
  constructor
  · intro h
    split at h
    · rename_i d; exact ⟨d, .inr rfl, (key d).1 h⟩
    · exact ⟨w, .inl rfl, (key w).1 h⟩
  · rintro ⟨d, rfl | rfl, h⟩
    · split
      · rename_i d
        exfalso
        have := h.1
        unfold readNat at this
        rw [if_neg] at this
        · cases this
        · rintro ⟨-, h2⟩
          rw [List.all_cons] at h2
          exact absurd (Bool.and_eq_true_iff.1 h2).1 (by decide)
      · exact (key _).2 h
    · exact (key d).2 h

/-- A numeral is a word. -/
theorem Numeral.isWord {max : Nat} {w : Text} {n : Nat} (h : Numeral max w n) : w ≠ [] ∧ ∀ c ∈ w, space c = false := by
  obtain ⟨d, hw, hd, -⟩ := h
  unfold readNat at hd
  split at hd
  · rename_i hc
    have hs : ∀ c ∈ d, space c = false := by
      intro c hcd
      have := List.all_eq_true.1 hc.2 c hcd
      simp only [Bool.and_eq_true, decide_eq_true_eq] at this
      have h1 : 48 ≤ c.toNat := this.1
      have h2 : c.toNat ≤ 57 := this.2
      unfold space
      simp only [Bool.or_eq_false_iff, Bool.and_eq_false_iff, decide_eq_false_iff_not, beq_eq_false_iff_ne, ne_eq]
      omega
    rcases hw with rfl | rfl
    · exact ⟨hc.1, hs⟩
    · refine ⟨by simp, fun c hc' => ?_⟩
      rcases List.mem_cons.1 hc' with rfl | hc'
      · decide
      · exact hs c hc'
  · cases hd

/-! ## Words -/

theorem words_space {c : Char} (h : space c = true) (t : Text) : words (c :: t) = words t := by
  unfold words
  rw [List.splitOnP_cons_eq_if_modifyHead, if_pos h]
  rfl

theorem words_blank {b : Text} (h : Blank b) (t : Text) : words (b ++ t) = words t := by
  induction b with
  | nil => rfl
  | cons c b ih => rw [List.cons_append, words_space (h c (by simp)), ih fun c hc => h c (by simp [hc])]

theorem words_nil : words [] = [] := rfl

theorem words_word {w r : Text} (hw : w ≠ [] ∧ ∀ c ∈ w, space c = false) (hr : SpaceFirst r) : words (w ++ r) = w :: words r := by
  have hne : (!w.isEmpty) = true := by cases w with | nil => exact absurd rfl hw.1 | cons c w => rfl
  rcases hr with rfl | ⟨c, r, rfl, hc⟩
  · rw [List.append_nil]
    unfold words
    rw [List.splitOnP_eq_singleton hw.2, List.filter_cons_of_pos (p := fun w : Text => !w.isEmpty) hne]
    rfl
  · rw [words_space hc]
    unfold words
    rw [List.splitOnP_append_cons_of_forall_mem hw.2 c hc, List.filter_cons_of_pos (p := fun w : Text => !w.isEmpty) hne]

theorem words_append_space {c : Char} (h : space c = true) (t : Text) : words (t ++ [c]) = words t := by
  unfold words
  rw [show t ++ [c] = t ++ c :: [] from rfl, List.splitOnP_append_cons t [] h]
  simp

/-- A line is blank, or a word between white space and the rest of the line. -/
theorem line_cases (l : Text) : Blank l ∨ ∃ b w r, l = b ++ (w ++ r) ∧ Blank b ∧ (w ≠ [] ∧ ∀ c ∈ w, space c = false) ∧ SpaceFirst r := by
  have h1 : Blank (l.takeWhile space) := fun c hc => List.all_eq_true.1 List.all_takeWhile c hc
  cases hd : l.dropWhile space with
  | nil =>
    left
    have := List.takeWhile_append_dropWhile (p := space) (l := l)
    rw [hd, List.append_nil] at this
    rw [← this]; exact h1
  | cons c t =>
    right
    have hc : space c = false := by
      have := List.head?_dropWhile_not space l
      rw [hd] at this
      simpa using this
    refine ⟨l.takeWhile space, (c :: t).takeWhile (fun x => !space x), (c :: t).dropWhile (fun x => !space x), ?_, h1, ⟨?_, ?_⟩, ?_⟩
    · rw [List.takeWhile_append_dropWhile, ← hd, List.takeWhile_append_dropWhile]
    · rw [List.takeWhile_cons_of_pos (by simp [hc])]; simp
    · intro x hx
      have := List.all_eq_true.1 (List.all_takeWhile (p := fun x => !space x) (l := c :: t)) x hx
      simpa using this
    · cases hr : (c :: t).dropWhile (fun x => !space x) with
      | nil => exact .inl rfl
      | cons x r =>
        right
        refine ⟨x, r, rfl, ?_⟩
        have := List.head?_dropWhile_not (fun x => !space x) (c :: t)
        rw [hr] at this
        simpa using this

theorem parseNumber_iff {max : Nat} {w : Text} {n : Nat} : parseNumber max w = .ok n ↔ Numeral max w n := by
  rw [← parseUsize_iff]
  unfold parseNumber
  cases parseUsize max w with
  | none => constructor <;> intro h <;> cases h
  | some m => constructor <;> (intro h; cases h; rfl)

theorem mapM_cons_ok {α β : Type} {f : α → Except Panic β} {a : α} {l : List α} {ys : List β} :
    (a :: l).mapM f = .ok ys ↔ ∃ b bs, f a = .ok b ∧ l.mapM f = .ok bs ∧ ys = b :: bs := by
  rw [List.mapM_cons]
  constructor
  · intro h
    obtain ⟨b, h1, h⟩ := Exc.bind_ok.1 h
    obtain ⟨bs, h2, h⟩ := Exc.bind_ok.1 h
    cases h
    exact ⟨b, bs, h1, h2, rfl⟩
  · rintro ⟨b, bs, h1, h2, rfl⟩
    rw [Exc.bind_of_ok h1, Exc.bind_of_ok h2]
    rfl

theorem row_iff {max : Nat} (l : Text) (ns : List Nat) : (words l).mapM (parseNumber max) = .ok ns ↔ Row max l ns := by
  constructor
  · intro h
    induction hk : l.length using Nat.strong_induction_on generalizing l ns with
    | _ k ih =>
      rcases line_cases l with hb | ⟨b, w, r, rfl, hb, hw, hr⟩
      · have : words l = [] := by have := words_blank hb []; rwa [List.append_nil, words_nil] at this
        rw [this] at h
        cases h
        exact .blank hb
      · rw [words_blank hb, words_word hw hr] at h
        obtain ⟨n, ms, h1, h2, rfl⟩ := mapM_cons_ok.1 h
        refine .word hb (parseNumber_iff.1 h1) hr (ih r.length ?_ r ms h2 rfl)
        have := List.length_pos_iff.2 hw.1
        simp only [List.length_append] at hk
        omega
  · intro h
    induction h with
    | @blank b hb =>
      have : words b = [] := by have := words_blank hb []; rwa [List.append_nil, words_nil] at this
      rw [this]; rfl
    | word hb hn hr _ ih =>
      rw [words_blank hb, words_word hn.isWord hr]
      exact mapM_cons_ok.2 ⟨_, _, parseNumber_iff.2 hn, ih, rfl⟩

/-! ## Lines -/

theorem textLines_nil : textLines [] = [] := rfl

theorem textLines_last {l : Text} (h : l ≠ []) (hn : '\n' ∉ l) : textLines l = [l] := by
  unfold textLines
  rw [List.splitOn_eq_singleton hn]
  cases l with
  | nil => exact absurd rfl h
  | cons c l => rfl

theorem textLines_line {l : Text} (hn : '\n' ∉ l) (t : Text) : textLines (l ++ '\n' :: t) = dropCr l :: textLines t := by
  unfold textLines
  rw [List.splitOn_append_cons_self_of_not_mem hn]
  have := List.splitOn_ne_nil '\n' t
  cases hs : t.splitOn '\n' with
  | nil => exact absurd hs this
  | cons a s => simp

theorem words_dropCr (l : Text) : words (dropCr l) = words l := by
  unfold dropCr
  split
  · rename_i h
    have := List.dropLast_append_getLast? '\r' h
    conv_rhs => rw [← this]
    exact (words_append_space (by decide) _).symm
  · rfl

theorem text_cases (t : Text) : '\n' ∉ t ∨ ∃ l r, t = l ++ '\n' :: r ∧ '\n' ∉ l := by
  by_cases h : '\n' ∈ t
  · right
    exact List.eq_append_cons_of_mem h |>.elim fun l h => h.elim fun r h => ⟨l, r, h⟩
  · exact .inl h

theorem rows_iff {max : Nat} (t : Text) (rows : List (List Nat)) :
    ((textLines t).mapM fun l => (words l).mapM (parseNumber max)) = .ok rows ↔ Rows max t rows := by
  constructor
  · intro h
    induction hk : t.length using Nat.strong_induction_on generalizing t rows with
    | _ k ih =>
      rcases text_cases t with hn | ⟨l, r, rfl, hn⟩
      · by_cases h0 : t = []
        · subst h0; cases h; exact .nil
        · rw [textLines_last h0 hn] at h
          obtain ⟨ns, bs, h1, h2, rfl⟩ := mapM_cons_ok.1 h
          cases h2
          exact .last h0 hn ((row_iff _ _).1 h1)
      · rw [textLines_line hn] at h
        obtain ⟨ns, rs, h1, h2, rfl⟩ := mapM_cons_ok.1 h
        rw [words_dropCr] at h1
        exact .line hn ((row_iff _ _).1 h1) (ih r.length (by simp only [List.length_append, List.length_cons] at hk; omega) r rs h2 rfl)
  · intro h
    induction h with
    | nil => rfl
    | last h0 hn hr => rw [textLines_last h0 hn]; exact mapM_cons_ok.2 ⟨_, _, (row_iff _ _).2 hr, rfl, rfl⟩
    | line hn hr _ ih =>
      rw [textLines_line hn]
      exact mapM_cons_ok.2 ⟨_, _, by rw [words_dropCr]; exact (row_iff _ _).2 hr, ih, rfl⟩

/-! ## Loading -/

theorem parseText_iff {max : Nat} {t : Text} {inst : Instance} :
    parseText max t = .ok inst ↔ ∃ rows, Rows max t rows ∧ parse rows = .ok inst := by
  unfold parseText
  rw [Exc.bind_ok]
  constructor
  · rintro ⟨rows, h1, h2⟩; exact ⟨rows, (rows_iff t rows).1 h1, h2⟩
  · rintro ⟨rows, h1, h2⟩; exact ⟨rows, (rows_iff t rows).2 h1, h2⟩

/-- **C171, accepted files.** A file is loaded without panic exactly if it is a file of lines of numbers, laid out with any white space (of any
amount, at any place between and around the numbers, either kind of line end, last line ended or not), and its numbers are loaded (C100). -/
theorem C171_loads_iff {max : Nat} {t : Text} {r : List Operation × Nat} :
    loadText max t = .ok r ↔ ∃ rows, Rows max t rows ∧ load rows = .ok r := by
  unfold loadText load
  rw [Exc.bind_ok]
  constructor
  · rintro ⟨inst, h1, h2⟩
    obtain ⟨rows, h3, h4⟩ := parseText_iff.1 h1
    exact ⟨rows, h3, by rw [Exc.bind_of_ok h4]; exact h2⟩
  · rintro ⟨rows, h1, h2⟩
    obtain ⟨inst, h3, h4⟩ := Exc.bind_ok.1 h2
    exact ⟨inst, parseText_iff.2 ⟨rows, h1, h3⟩, h4⟩

/-- **C171, one reading.** A file has at most one reading. -/
theorem C171_one_reading {max : Nat} {t : Text} {rows rows' : List (List Nat)} (h : Rows max t rows) (h' : Rows max t rows') : rows = rows' := by
  have h1 := (rows_iff t rows).2 h
  rw [(rows_iff t rows').2 h'] at h1
  exact (Except.ok.inj h1).symm

/-- **C171, layout.** However a well-formed instance is laid out, it is loaded as that instance: operation `k` of job `j` is found under its
number with its machine and duration, its predecessors being the dummy start and the earlier operations of its job. -/
theorem C171_layout {max : Nat} {t : Text} {jobs : Jobs} {nM : Nat} (h : jobs.Proper nM) (ht : Rows max t (jobs.file nM)) :
    ∃ ops, loadText max t = .ok (ops, nM) ∧ load (jobs.file nM) = .ok (ops, nM) ∧ ops.length = jobs.total + 2 ∧
      ∀ j k m d, jobs.op? j k = some (m, d) → ∃ o, ops[jobs.number j k]? = some o ∧ o.id = jobs.number j k ∧
        o.machine = m ∧ o.duration = d ∧ o.finishTime = none ∧ o.preds = 0 :: (List.range k).map (jobs.number j) := by
  obtain ⟨ops, h1, h2⟩ := C100_loading h
  exact ⟨ops, C171_loads_iff.2 ⟨_, ht, h1⟩, h1, h2⟩

/-! ## Ways to write an instance -/

/-- Specification: a line of numbers in decimal with `sep` between them. -/
def writeRow (sep : Text) : List Nat → Text
  | [] => []
  | [n] => natText n
  | n :: m :: ns => natText n ++ (sep ++ writeRow sep (m :: ns))

/-- Specification: the lines, each ended by `eol`. -/
def writeRows (sep eol : Text) : List (List Nat) → Text
  | [] => []
  | r :: rs => writeRow sep r ++ (eol ++ writeRows sep eol rs)

theorem natText_numeral {max n : Nat} (h : n ≤ max) : Numeral max (natText n) n := ⟨natText n, .inl rfl, (natText_back n).1, h⟩

theorem blank_free {b t : Text} (h : Blank b) (hb : b ≠ []) : SpaceFirst (b ++ t) := by
  cases b with
  | nil => exact absurd rfl hb
  | cons c b => exact .inr ⟨c, b ++ t, rfl, h c (by simp)⟩

/-- White space before and after a line does not matter. -/
theorem Row.prepend {max : Nat} {b l : Text} {ns : List Nat} (hb : Blank b) (h : Row max l ns) : Row max (b ++ l) ns := by
  rw [← row_iff, words_blank hb]
  exact (row_iff _ _).2 h

theorem Row.append {max : Nat} {b l : Text} {ns : List Nat} (hb : Blank b) (h : Row max l ns) : Row max (l ++ b) ns := by
  induction b using List.reverseRecOn with
  | nil => rwa [List.append_nil]
  | append_singleton b c ih =>
    rw [← row_iff, ← List.append_assoc, words_append_space (hb c (by simp))]
    exact (row_iff _ _).2 (ih fun x hx => hb x (by simp [hx]))

theorem writeRow_row {max : Nat} {sep : Text} (hs : Blank sep) (hs0 : sep ≠ []) : ∀ {ns : List Nat}, (∀ n ∈ ns, n ≤ max) → Row max (writeRow sep ns) ns
  | [], _ => .blank fun c hc => by cases hc
  | [n], h => by
    have := Row.word (max := max) (b := []) (r := []) (fun c hc => by cases hc) (natText_numeral (h n (by simp))) (.inl rfl)
      (.blank fun c hc => by cases hc)
    rwa [List.append_nil] at this
  | n :: m :: ns, h => by
    rw [writeRow]
    exact Row.word (b := []) (fun c hc => by cases hc) (natText_numeral (h n (by simp))) (blank_free hs hs0)
      (Row.prepend hs (writeRow_row hs hs0 fun k hk => h k (by simp [hk])))

theorem writeRow_noNewline {sep : Text} (hs : '\n' ∉ sep) : ∀ ns : List Nat, '\n' ∉ writeRow sep ns
  | [] => by simp [writeRow]
  | [n] => (natText_back n).2.not_mem.2
  | n :: m :: ns => by
    rw [writeRow]
    simp only [List.mem_append, not_or]
    exact ⟨(natText_back n).2.not_mem.2, hs, writeRow_noNewline hs (m :: ns)⟩

/-- **C171, written files.** Numbers in decimal, any white space between the numbers of a line (blanks, tabs, …), lines ended by line feeds,
possibly with white space before them (as in files from Windows): such files are read as written. -/
theorem C171_written {max : Nat} {sep trail : Text} (hs : Blank sep) (hs0 : sep ≠ []) (hsn : '\n' ∉ sep) (ht : Blank trail) (htn : '\n' ∉ trail)
    {rows : List (List Nat)} (h : ∀ r ∈ rows, ∀ n ∈ r, n ≤ max) : Rows max (writeRows sep (trail ++ ['\n']) rows) rows := by
  induction rows with
  | nil => exact .nil
  | cons r rs ih =>
    rw [writeRows]
    have e : writeRow sep r ++ ((trail ++ ['\n']) ++ writeRows sep (trail ++ ['\n']) rs) =
        (writeRow sep r ++ trail) ++ '\n' :: writeRows sep (trail ++ ['\n']) rs := by simp
    rw [e]
    refine .line ?_ (Row.append ht (writeRow_row hs hs0 (h r (by simp)))) (ih fun r' h' => h r' (by simp [h']))
    simp only [List.mem_append, not_or]
    exact ⟨writeRow_noNewline hsn r, htn⟩

/-- **C171, last line.** Whether the last line is ended by a line feed does not matter. -/
theorem C171_last_line {max : Nat} {t : Text} (h : t ≠ []) (hn : t.getLast? ≠ some '\n') {rows : List (List Nat)} :
    Rows max (t ++ ['\n']) rows ↔ Rows max t rows := by
  have key : ∀ (k : Nat) (t : Text), t.length = k → t ≠ [] → t.getLast? ≠ some '\n' →
      (textLines (t ++ ['\n'])).map words = (textLines t).map words := by
    intro k
    induction k using Nat.strong_induction_on with
    | _ k ih =>
      intro t hk h0 hl
      rcases text_cases t with hc | ⟨l, r, rfl, hc⟩
      · rw [textLines_line hc, textLines_last h0 hc, textLines_nil]
        simp [words_dropCr]
      · have hr0 : r ≠ [] := by
          rintro rfl
          exact hl (by simp)
        have hrl : r.getLast? ≠ some '\n' := by
          intro hr
          apply hl
          rw [List.getLast?_append, List.getLast?_cons, hr]
          rfl
        rw [List.append_assoc, List.cons_append, textLines_line hc, textLines_line hc, List.map_cons, List.map_cons,
          ih r.length (by simp only [List.length_append, List.length_cons] at hk; omega) r rfl hr0 hrl]
  have e : ∀ t : Text, ((textLines t).mapM fun l => (words l).mapM (parseNumber max)) =
      ((textLines t).map words).mapM fun w => w.mapM (parseNumber max) := fun t => by rw [List.mapM_map]; rfl
  rw [← rows_iff, ← rows_iff, e, e, key _ t rfl h hn]

/-! ## Rejected files -/

theorem parseJobs_empty {off : Nat} {lines : List (List Nat)} {jobs : List (List Operation)} (h : parseJobs off lines = .ok jobs)
    (he : [] ∈ lines) : [] ∈ jobs := by
  induction lines generalizing off jobs with
  | nil => cases he
  | cons l ls ih =>
    rw [parseJobs] at h
    obtain ⟨job, h1, h⟩ := Exc.bind_ok.1 h
    obtain ⟨js, h2, h⟩ := Exc.bind_ok.1 h
    cases h
    rcases List.mem_cons.1 he with rfl | he
    · cases h1; simp
    · exact List.mem_cons_of_mem _ (ih h2 he)

theorem prepareJobs_nonempty {sink : Nat} {jobs : List (List Operation)} {r} (h : prepareJobs sink jobs = .ok r) : [] ∉ jobs := by
  induction jobs generalizing r with
  | nil => simp
  | cons job js ih =>
    rw [prepareJobs] at h
    obtain ⟨job', h1, h⟩ := Exc.bind_ok.1 h
    obtain ⟨first, -, h⟩ := Exc.bind_ok.1 h
    obtain ⟨p, h2, -⟩ := Exc.bind_ok.1 h
    intro he
    rcases List.mem_cons.1 he with he | he
    · subst he; cases h1
    · exact ih h2 he

/-- **C171, blank lines.** A line without numbers anywhere after the first line (in particular a second line feed at the end of the file) makes
the program panic, however the file is laid out. -/
theorem C171_blank_line_panics {max : Nat} {t : Text} {header : List Nat} {before after : List (List Nat)}
    (h : Rows max t (header :: before ++ [] :: after)) : ∃ e, loadText max t = .error e := by
  cases hl : loadText max t with
  | error e => exact ⟨e, rfl⟩
  | ok r =>
    exfalso
    obtain ⟨rows, h1, h2⟩ := C171_loads_iff.1 hl
    obtain rfl := C171_one_reading h1 h
    unfold load at h2
    obtain ⟨inst, h3, h4⟩ := Exc.bind_ok.1 h2
    obtain ⟨ops, h5, -⟩ := Exc.bind_ok.1 h4
    match header, h3 with
    | [_, nM], h3 =>
      obtain ⟨jobs, h6, h7⟩ := Exc.bind_ok.1 h3
      cases h7
      unfold provider at h5
      obtain ⟨p, h8, -⟩ := Exc.bind_ok.1 h5
      exact prepareJobs_nonempty h8 (parseJobs_empty h6 (by simp))
    | [], h3 => cases h3
    | [_], h3 => cases h3
    | _ :: _ :: _ :: _, h3 => cases h3

/-- **C171, two line feeds at the end.** An accepted file with a second line feed at its end is not accepted any more. -/
theorem C171_second_newline_panics {max : Nat} {t : Text} {r : List Operation × Nat} (h : loadText max (t ++ ['\n']) = .ok r) :
    ∃ e, loadText max (t ++ ['\n', '\n']) = .error e := by
  obtain ⟨rows, h1, h2⟩ := C171_loads_iff.1 h
  have key : ∀ (k : Nat) (t : Text), t.length = k → textLines (t ++ ['\n', '\n']) = textLines (t ++ ['\n']) ++ [[]] := by
    intro k
    induction k using Nat.strong_induction_on with
    | _ k ih =>
      intro t hk
      rcases text_cases t with hc | ⟨l, r, rfl, hc⟩
      · rw [show t ++ ['\n', '\n'] = t ++ '\n' :: ([] ++ '\n' :: []) from rfl, textLines_line hc, textLines_line (by simp), textLines_line hc, textLines_nil]
        rfl
      · rw [List.append_assoc, List.cons_append, textLines_line hc, List.append_assoc, List.cons_append, textLines_line hc,
          ih r.length (by simp only [List.length_append, List.length_cons] at hk; omega) r rfl]
        rfl
  have h3 : Rows max (t ++ ['\n', '\n']) (rows ++ [[]]) := by
    rw [← rows_iff, key _ t rfl, List.mapM_append, Exc.bind_of_ok ((rows_iff _ _).2 h1)]
    rfl
  cases rows with
  | nil => cases h2
  | cons header rest => exact C171_blank_line_panics (before := rest) (after := []) h3

/-- **C171, words.** A word that is not a number up to `usize::MAX` anywhere (a comment, a minus sign, a decimal point, a separator other than
white space, a number that is too large) makes the program panic. -/
theorem C171_word_panics {max : Nat} {a w b : Text} (hw : w ≠ [] ∧ ∀ c ∈ w, space c = false) (ha : a = [] ∨ ∃ x c, a = x ++ [c] ∧ space c = true)
    (hb : SpaceFirst b) (h : ∀ n, ¬ Numeral max w n) : ∃ e, loadText max (a ++ (w ++ b)) = .error e := by
  cases hl : loadText max (a ++ (w ++ b)) with
  | error e => exact ⟨e, rfl⟩
  | ok r =>
    exfalso
    obtain ⟨rows, h1, -⟩ := C171_loads_iff.1 hl
    have hnl : ∀ c, space c = false → c ≠ '\n' := by rintro c hc rfl; exact absurd hc (by decide)
    have hwn : '\n' ∉ w := fun hm => hnl _ (hw.2 _ hm) rfl
    -- the line of the word
    have line : ∀ (l : Text), '\n' ∉ l → (l = [] ∨ ∃ x c, l = x ++ [c] ∧ space c = true) → ∀ (b : Text), SpaceFirst b →
        ∃ l' ∈ textLines (l ++ (w ++ b)), w ∈ words l' := by
      intro l hl hs b hb
      have mem : ∀ b' : Text, SpaceFirst b' → w ∈ words (l ++ (w ++ b')) := by
        intro b' hb'
        rcases hs with rfl | ⟨x, c, rfl, hc⟩
        · rw [List.nil_append, words_word hw hb']; simp
        · rw [List.append_assoc, List.singleton_append]
          unfold words
          rw [List.splitOnP_append_cons _ _ hc, List.filter_append]
          have := words_word hw hb'
          unfold words at this
          rw [this]; simp
      rcases text_cases b with hc | ⟨b1, b2, rfl, hc⟩
      · refine ⟨l ++ (w ++ b), ?_, mem b hb⟩
        rw [textLines_last]
        · simp
        · simp [hw.1]
        · simp [hl, hwn, hc]
      · refine ⟨dropCr (l ++ (w ++ b1)), ?_, ?_⟩
        · rw [show l ++ (w ++ (b1 ++ '\n' :: b2)) = (l ++ (w ++ b1)) ++ '\n' :: b2 by simp, textLines_line (by simp [hl, hwn, hc])]
          simp
        · rw [words_dropCr]
          refine mem b1 ?_
          cases b1 with
          | nil => exact .inl rfl
          | cons c b1 =>
            rcases hb with hb | ⟨c', r', hb, hs'⟩
            · cases hb
            · injection hb with e1 e2
              subst e1
              exact .inr ⟨_, _, rfl, hs'⟩
    have main : ∀ (k : Nat) (a : Text), a.length = k → (a = [] ∨ ∃ x c, a = x ++ [c] ∧ space c = true) →
        ∃ l' ∈ textLines (a ++ (w ++ b)), w ∈ words l' := by
      intro k
      induction k using Nat.strong_induction_on with
      | _ k ih =>
        intro a hk ha
        rcases text_cases a with hc | ⟨l, r, rfl, hc⟩
        · exact line a hc ha b hb
        · rw [List.append_assoc, List.cons_append, textLines_line hc]
          have hr : r = [] ∨ ∃ x c, r = x ++ [c] ∧ space c = true := by
            rcases List.eq_nil_or_concat' r with hr | ⟨x, c, rfl⟩
            · exact .inl hr
            · right
              refine ⟨x, c, by simp, ?_⟩
              rcases ha with ha | ⟨y, d, ha, hd⟩
              · simp at ha
              · rw [← List.singleton_append, ← List.append_assoc, ← List.append_assoc] at ha
                have := (List.append_inj' ha rfl).2
                injection this with this _
                rwa [this]
          obtain ⟨l', h1, h2⟩ := ih r.length (by simp only [List.length_append, List.length_cons] at hk; omega) r rfl hr
          exact ⟨l', List.mem_cons_of_mem _ h1, h2⟩
    obtain ⟨l', hl', hwl⟩ := main _ a rfl ha
    have mapM_mem : ∀ {α β : Type} {f : α → Except Panic β} {l : List α} {ys : List β}, l.mapM f = .ok ys → ∀ x ∈ l, ∃ y, f x = .ok y := by
      intro α β f l
      induction l with
      | nil => intro ys _ x hx; cases hx
      | cons y l ih =>
        intro ys h x hx
        obtain ⟨b, bs, h1, h2, -⟩ := mapM_cons_ok.1 h
        rcases List.mem_cons.1 hx with rfl | hx
        · exact ⟨b, h1⟩
        · exact ih h2 x hx
    obtain ⟨ns, hns⟩ := mapM_mem ((rows_iff _ _).2 h1) l' hl'
    obtain ⟨n, hn⟩ := mapM_mem hns w hwl
    exact h n (parseNumber_iff.1 hn)

/-! ## Examples -/

/-- Two jobs on two machines, with a tab, a leading zero, a plus sign and a Windows line end. -/
def exFile : Text := "2 2\r\n0 3 1 +4\n\t1 02  0 5 ".toList

theorem exFile_rows : Rows 1000 exFile (Jobs.file [[(0, 3), (1, 4)], [(1, 2), (0, 5)]] 2) :=
  (rows_iff _ _).1 (by decide +kernel)

example := C171_layout (jobs := [[(0, 3), (1, 4)], [(1, 2), (0, 5)]]) ⟨by decide, by decide, by decide⟩ exFile_rows
example := C171_one_reading exFile_rows exFile_rows
example : Rows 1000 "1 1\r\n0 7\r\n".toList [[1, 1], [0, 7]] :=
  C171_written (sep := [' ']) (trail := ['\r']) (rows := [[1, 1], [0, 7]]) (by unfold Blank; decide) (by decide) (by decide) (by unfold Blank; decide) (by decide) (by decide)
example := (C171_last_line (max := 1000) (t := exFile) (by decide) (by decide)).2 exFile_rows
example : ∃ e, loadText 1000 ("2 1\n0 3\n \n0 4\n".toList) = .error e :=
  C171_blank_line_panics (header := [2, 1]) (before := [[0, 3]]) (after := [[0, 4]]) ((rows_iff _ _).1 (by decide +kernel))
example : ∃ e, loadText 1000 (exFile ++ ['\n', '\n']) = .error e := by
  obtain ⟨ops, h, -⟩ := C171_layout (jobs := [[(0, 3), (1, 4)], [(1, 2), (0, 5)]]) ⟨by decide, by decide, by decide⟩
    ((C171_last_line (max := 1000) (t := exFile) (by decide) (by decide)).2 exFile_rows)
  exact C171_second_newline_panics h
example : ∃ e, loadText 1000 ("1 1\n".toList ++ ("-1".toList ++ " 7\n".toList)) = .error e :=
  C171_word_panics (by decide +kernel) (.inr ⟨"1 1".toList, '\n', by decide, by decide⟩) (.inr ⟨' ', "7\n".toList, by decide, by decide⟩)
    fun n hn => by have := parseUsize_iff.2 hn; cases this

end Ecrs.Jssp
