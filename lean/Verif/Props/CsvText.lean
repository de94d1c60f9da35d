import Mathlib.Tactic.IntervalCases
import Mathlib.Data.Countable.Basic
import Mathlib.Data.Rat.Encodable
import Mathlib.Logic.Encodable.Basic
import Verif.Text.Csv
import Verif.Props.Pso
import Verif.Props.Ff
import Verif.Props.AcoParts

/-!
# Property **C167**: the CSV files can be read back

Reading is specified independently of writing: lines are separated by line feeds, fields by commas, no quotes.
-/

set_option linter.unusedSectionVars false
set_option linter.unusedVariables false

namespace Ecrs.Csv
open Ecrs

/-! ## Specification: reading -/

/-- Specification: the lines of a text all of whose lines are terminated, split at the commas. -/
def lines (t : Text) : List (List Text) := (t.splitOn '\n').dropLast.map (·.splitOn ',')

/-- Specification: a decimal number. -/
def readNat (t : Text) : Option Nat :=
  if t ≠ [] ∧ t.all (fun c => '0' ≤ c && c ≤ '9') then some (t.foldl (fun n c => 10 * n + (c.toNat - '0'.toNat)) 0) else none

/-- Specification: a way to write numbers that can be read back and needs no quoting, like Rust's `Display` for `f64` and `csv`'s `ryu`. -/
structure Format {F : Type} (num : F → Text) (parse : Text → Option F) : Prop where
  nonempty : ∀ x, num x ≠ []
  plain : ∀ x, ∀ c ∈ num x, special c = false
  back : ∀ x, parse (num x) = some x

/-- Specification: a file of cities, read. -/
def readCities {F : Type} (parse : Text → Option F) (t : Text) : Option (List (F × F)) :=
  match lines t with
  | header :: rows => if header = [['x'], ['y']] then rows.mapM fun r =>
      match r with
      | [a, b] => match parse a, parse b with
        | some x, some y => some (x, y)
        | _, _ => none
      | _ => none
    else none
  | [] => none

/-- Specification: a file of numbered values, read: its header (if there are lines at all) and its rows. -/
def readValues {F : Type} (parse : Text → Option F) (header : List Text) (t : Text) : Option (List (Nat × F)) :=
  match lines t with
  | h :: rows => if h = header then rows.mapM fun r =>
      match r with
      | [a, b] => match readNat a, parse b with
        | some x, some y => some (x, y)
        | _, _ => none
      | _ => none
    else none
  | [] => some []

/-- Specification: best.csv, read. -/
def readEdges (t : Text) : Option (List (Nat × Nat × Nat)) :=
  match lines t with
  | h :: rows => if h = ["from".toList, "to".toList, "iter".toList] then rows.mapM fun r =>
      match r with
      | [a, b, c] => match readNat a, readNat b, readNat c with
        | some x, some y, some z => some (x, y, z)
        | _, _, _ => none
      | _ => none
    else none
  | [] => some []

/-- Specification: pheromone.csv, read. -/
def readPheromone {X : Type} (parse : Text → Option X) (t : Text) : Option (List (Aco.PherRecord X)) :=
  match lines t with
  | h :: rows => if h = ["from".toList, "to".toList, "iter".toList, "val".toList] then rows.mapM fun r =>
      match r with
      | [a, b, c, d] => match readNat a, readNat b, readNat c, parse d with
        | some x, some y, some z, some v => some ⟨x, y, z, v⟩
        | _, _, _, _ => none
      | _ => none
    else none
  | [] => some []

/-! ## Lines and fields -/

/-- A field that is written as it is. -/
def Plain (t : Text) : Prop := t ≠ [] ∧ ∀ c ∈ t, special c = false

theorem field_plain {t : Text} (h : Plain t) : field t = t := by
  unfold field
  rw [if_neg]
  simp only [Bool.or_eq_true, List.isEmpty_iff, List.any_eq_true, not_or, not_exists, not_and]
  exact ⟨h.1, fun c hc => by rw [h.2 c hc]; simp⟩

theorem Plain.not_mem {t : Text} (h : Plain t) : ',' ∉ t ∧ '\n' ∉ t :=
  ⟨fun hc => absurd (h.2 _ hc) (by decide), fun hc => absurd (h.2 _ hc) (by decide)⟩

theorem lines_records (rs : List (List Text)) (h : ∀ r ∈ rs, r ≠ [] ∧ ∀ t ∈ r, Plain t) : lines (rs.flatMap record) = rs := by
  unfold lines
  suffices hs : ∀ rs : List (List Text), (∀ r ∈ rs, r ≠ [] ∧ ∀ t ∈ r, Plain t) →
      (rs.flatMap record).splitOn '\n' = rs.map (fun r => List.intercalate [','] r) ++ [[]] by
    rw [hs rs h, List.dropLast_concat, List.map_map]
    refine (List.map_congr_left fun r hr => ?_).trans (List.map_id rs)
    exact List.splitOn_intercalate ',' (fun t ht => ((h r hr).2 t ht).not_mem.1) (h r hr).1
  intro rs
  induction rs with
  | nil => intro _; rfl
  | cons r rs ih =>
    intro h
    have hr := h r (by simp)
    have e : r.map field = r := (List.map_congr_left fun t ht => field_plain (hr.2 t ht)).trans (List.map_id r)
    have hn : '\n' ∉ List.intercalate [','] r := by
      have : ∀ r : List Text, (∀ t ∈ r, Plain t) → '\n' ∉ List.intercalate [','] r := by
        intro r
        induction r with
        | nil => intro _ h; simp at h
        | cons a r ihr =>
          intro hp hm
          cases r with
          | nil => simp at hm; exact (hp a (by simp)).not_mem.2 hm
          | cons b r =>
            rw [List.intercalate_cons_cons] at hm
            simp only [List.mem_append, List.mem_singleton] at hm
            rcases hm with (hm | hm) | hm
            · exact (hp a (by simp)).not_mem.2 hm
            · exact absurd hm (by decide)
            · exact ihr (fun t ht => hp t (by simp [ht])) hm
      exact this r hr.2
    rw [List.flatMap_cons, record, e, List.append_assoc, List.singleton_append, List.splitOn_append_cons_self_of_not_mem hn,
      ih fun r' h' => h r' (by simp [h'])]
    rfl

/-! ## Decimal numbers -/

theorem digit_ok {d : Nat} (h : d < 10) : ('0' ≤ Nat.digitChar d ∧ Nat.digitChar d ≤ '9') ∧ (Nat.digitChar d).toNat - '0'.toNat = d ∧
    special (Nat.digitChar d) = false := by
  interval_cases d <;> decide

theorem natText_back (n : Nat) : readNat (natText n) = some n ∧ Plain (natText n) := by
  unfold natText
  by_cases h0 : n = 0
  · subst h0; exact ⟨by decide, by simp, by simp [special]⟩
  · rw [if_neg h0]
    have hne : ((Nat.digits 10 n).map Nat.digitChar).reverse ≠ [] := by
      simp [Nat.digits_ne_nil_iff_ne_zero, h0]
    have hd : ∀ c ∈ ((Nat.digits 10 n).map Nat.digitChar).reverse, ∃ d < 10, c = Nat.digitChar d := by
      intro c hc
      obtain ⟨d, hd, rfl⟩ := List.mem_map.1 (List.mem_reverse.1 hc)
      exact ⟨d, Nat.digits_lt_base (by norm_num) hd, rfl⟩
    refine ⟨?_, hne, fun c hc => ?_⟩
    · unfold readNat
      have hall : ((Nat.digits 10 n).map Nat.digitChar).reverse.all (fun c => '0' ≤ c && c ≤ '9') = true := by
        rw [List.all_eq_true]
        intro c hc
        obtain ⟨d, hd, rfl⟩ := hd c hc
        simp [(digit_ok hd).1]
      rw [if_pos ⟨hne, hall⟩, List.foldl_reverse, List.foldr_map]
      have : ∀ l : List Nat, (∀ d ∈ l, d < 10) →
          l.foldr (fun x y => 10 * y + ((Nat.digitChar x).toNat - '0'.toNat)) 0 = Nat.ofDigits 10 l := by
        intro l
        induction l with
        | nil => intro _; rfl
        | cons a l ih =>
          intro h
          rw [List.foldr_cons, ih fun d hd => h d (by simp [hd]), (digit_ok (h a (by simp))).2.1, Nat.ofDigits_cons]
          omega
      rw [this _ fun d hd => Nat.digits_lt_base (by norm_num) hd, Nat.ofDigits_digits]
    · obtain ⟨d, hd, rfl⟩ := hd c hc
      exact (digit_ok hd).2.2

section files
variable {F : Type} {num : F → Text} {parse : Text → Option F}

theorem Format.isPlain (h : Format num parse) (x : F) : Plain (num x) := ⟨h.nonempty x, h.plain x⟩

theorem lines_serialized (header : List Text) (rows : List (List Text)) (h : ∀ r ∈ header :: rows, r ≠ [] ∧ ∀ t ∈ r, Plain t) :
    lines (serialized header rows) = if rows.isEmpty then [] else header :: rows := by
  unfold serialized
  split
  · rfl
  · rw [← List.flatMap_cons, lines_records _ h]

theorem mapM_back {α : Type} {rec : α → List Text} {f : List Text → Option α} (h : ∀ a, f (rec a) = some a) (l : List α) :
    (l.map rec).mapM f = some l := by
  induction l with
  | nil => rfl
  | cons a l ih => rw [List.map_cons, List.mapM_cons, h, ih]; rfl

/-- **C167, cities.** What `write_cities_csv` writes can be read back: the file has the header `x,y` and the coordinates of the cities, in order
– so two different lists of cities never give the same file. -/
theorem C167_cities (hf : Format num parse) (cities : List (F × F)) : readCities parse (citiesFile num cities) = some cities := by
  have e : citiesFile num cities = ([['x'], ['y']] :: cities.map fun c => [num c.1, num c.2]).flatMap record := by
    unfold citiesFile
    rw [List.flatMap_cons, List.flatMap_map]
  unfold readCities
  rw [e, lines_records]
  · simp only [if_true]
    exact mapM_back (fun c => by simp only [hf.back]) cities
  · intro r hr
    rcases List.mem_cons.1 hr with rfl | hr
    · exact ⟨by simp, by simp [Plain, special]⟩
    · obtain ⟨c, -, rfl⟩ := List.mem_map.1 hr
      refine ⟨by simp, fun t ht => ?_⟩
      simp only [List.mem_cons, List.not_mem_nil, or_false] at ht
      rcases ht with rfl | rfl <;> exact hf.isPlain _

theorem readValues_back (hf : Format num parse) {header : List Text} (hh : header ≠ [] ∧ ∀ t ∈ header, Plain t) (records : List (Nat × F)) :
    readValues parse header (serialized header (records.map fun r => [natText r.1, num r.2])) = some records := by
  unfold readValues
  rw [lines_serialized]
  · cases records with
    | nil => rfl
    | cons a l =>
      simp only [List.map_cons, List.isEmpty_cons, Bool.false_eq_true, if_false, if_true]
      exact mapM_back (rec := fun r : Nat × F => [natText r.1, num r.2]) (fun c => by simp only [(natText_back _).1, hf.back]) (a :: l)
  · intro r hr
    rcases List.mem_cons.1 hr with rfl | hr
    · exact hh
    · obtain ⟨c, -, rfl⟩ := List.mem_map.1 hr
      refine ⟨by simp, fun t ht => ?_⟩
      simp only [List.mem_cons, List.not_mem_nil, or_false] at ht
      rcases ht with rfl | rfl
      · exact (natText_back _).2
      · exact hf.isPlain _

end files

/-! ## The probes -/

/-- **C167, particle swarm.** After every returning run of `n` iterations the file of the CSV probe, read back, holds exactly one line per
generation `0, 1, …, n`, in order, with the best value of that generation. -/
theorem C167_pso {X K W : Type} [LinearOrder K] [Add X] [Sub X] [Mul X] [Neg X] {isMet : Pso.Term W X K} {c : Pso.Coeffs X} {f : List X → Fl K}
    {draw : Nat → Nat → Nat → X × X} {fuel : Nat} {s s' : Pso.Swarm X K} {evs : List (Pso.Ev X K)} {w w' : W}
    {num : Fl K → Text} {parse : Text → Option (Fl K)} (hf : Format num parse)
    (hr : Pso.run isMet c f draw fuel s w = .ok ((s', evs), w')) :
    ∃ n, s' = Pso.swarmAfter c f draw s n ∧
      readValues parse ["generation".toList, "best_value".toList] (psoFile num (Pso.csvRecords evs)) =
        some ((List.range (n + 1)).map fun k => (k, (Pso.swarmAfter c f draw s k).bestValue)) := by
  obtain ⟨n, h1, h2, -⟩ := Pso.C74_records hr
  refine ⟨n, h1, ?_⟩
  unfold psoFile
  rw [readValues_back hf ⟨by simp, by simp [Plain, special]⟩, h2]

/-- **C167, firefly.** After every returning run the file of the CSV probe, read back, holds exactly one line per generation
`0, …, max_generations - 1` with the best value reported in it; without generations the file is empty: it has not even a header. -/
theorem C167_ff {X K : Type} [LinearOrder K] {A : FloatOps X K} {c : Ff.Cfg X} {f : List X → X} {dist : List X → List X → Except Panic X}
    {dr : Ff.Draws X} {pop : List (List X)} {sts : List (Ff.St X)} {evs : List (Ff.Ev X)}
    {num : X → Text} {parse : Text → Option X} (hf : Format num parse) (h : Ff.run A c f dist dr pop = .ok (sts, evs)) (zero : X) :
    (readValues parse ["iteration".toList, "best_value".toList]
        (ffFile num ((evs.foldl Ff.recStep ⟨0, zero, [], []⟩).records.map fun r => (r.1, r.2.1))) =
      some ((List.range c.maxGenerations).zip (sts.map Ff.St.best))) ∧
    (c.maxGenerations = 0 → ffFile num ((evs.foldl Ff.recStep ⟨0, zero, [], []⟩).records.map fun r => (r.1, r.2.1)) = []) := by
  obtain ⟨ps, p1, -, p2⟩ := Ff.C83_records h ⟨0, zero, [], []⟩
  have hl : sts.length = c.maxGenerations := by
    obtain ⟨-, q1, -⟩ := Ff.C80_callbacks h
    exact q1
  have e : (evs.foldl Ff.recStep ⟨0, zero, [], []⟩).records.map (fun r => (r.1, r.2.1)) =
      (List.range c.maxGenerations).zip (sts.map Ff.St.best) := by
    rw [p2, List.nil_append, List.map_map]
    apply List.ext_getElem
    · simp [p1, hl]
    · intro k h1 h2
      simp
  rw [e]
  refine ⟨readValues_back hf ⟨by simp, by simp [Plain, special]⟩ _, fun h0 => ?_⟩
  rw [h0]
  rfl

section aco
open Aco
variable {X K : Type} [LinearOrder K] {A : AcoOps X K}

theorem bestLines_filter (recs : List (Sol X × Mat X)) : ∀ (i k : Nat) (r : Sol X × Mat X), recs[k]? = some r →
    ((bestLines i recs).filter fun l => l.2.2 = i + k) = (windows r.1.path).map fun e => (e.1, e.2, i + k) := by
  have after : ∀ (recs : List (Sol X × Mat X)) (i j : Nat), j < i → (bestLines i recs).filter (fun l => l.2.2 = j) = [] := by
    intro recs
    induction recs with
    | nil => intro i j _; rfl
    | cons a l ih =>
      intro i j h
      rw [bestLines, List.filter_append, ih (i + 1) j (by omega), List.append_nil, List.filter_eq_nil_iff]
      intro x hx
      obtain ⟨e, -, rfl⟩ := List.mem_map.1 hx
      simp; omega
  induction recs with
  | nil => intro i k r h; simp at h
  | cons a l ih =>
    intro i k r h
    rw [bestLines, List.filter_append]
    cases k with
    | zero =>
      obtain rfl : a = r := by simpa using h
      rw [Nat.add_zero, after l (i + 1) i (by omega), List.append_nil, List.filter_eq_self]
      intro x hx
      obtain ⟨e, -, rfl⟩ := List.mem_map.1 hx
      simp
    | succ k =>
      have := ih (i + 1) k r (by simpa using h)
      rw [show i + 1 + k = i + (k + 1) by omega] at this
      rw [this, List.filter_eq_nil_iff.2, List.nil_append]
      intro x hx
      obtain ⟨e, -, rfl⟩ := List.mem_map.1 hx
      simp

theorem windows_fst (p : List Nat) : (windows p).map Prod.fst = p := by
  unfold windows
  rw [List.map_fst_zip]
  cases p <;> simp

theorem pherLines_mem (recs : List (Sol X × Mat X)) : ∀ (i : Nat) (l : PherRecord X), l ∈ pherLines i recs ↔
    ∃ k r, recs[k]? = some r ∧ l ∈ matRecords (i + k) r.2 := by
  induction recs with
  | nil => intro i l; simp [pherLines]
  | cons a rs ih =>
    intro i l
    rw [pherLines, List.mem_append, ih]
    constructor
    · rintro (h | ⟨k, r, h1, h2⟩)
      · exact ⟨0, a, rfl, h⟩
      · exact ⟨k + 1, r, by simpa using h1, by rwa [show i + (k + 1) = i + 1 + k by omega]⟩
    · rintro ⟨k, r, h1, h2⟩
      cases k with
      | zero =>
        obtain rfl : a = r := by simpa using h1
        exact .inl h2
      | succ k => exact .inr ⟨k, r, by simpa using h1, by rwa [show i + 1 + k = i + (k + 1) by omega]⟩

theorem readEdges_back (ls : List (Nat × Nat × Nat)) : readEdges (bestFile ls) = some ls := by
  unfold readEdges bestFile
  rw [lines_serialized]
  · cases ls with
    | nil => rfl
    | cons a l =>
      simp only [List.map_cons, List.isEmpty_cons, Bool.false_eq_true, if_false, if_true]
      exact mapM_back (rec := fun r : Nat × Nat × Nat => [natText r.1, natText r.2.1, natText r.2.2]) (fun c => by simp only [(natText_back _).1]) (a :: l)
  · intro r hr
    rcases List.mem_cons.1 hr with rfl | hr
    · exact ⟨by simp, by simp [Plain, special]⟩
    · obtain ⟨c, -, rfl⟩ := List.mem_map.1 hr
      refine ⟨by simp, fun t ht => ?_⟩
      simp only [List.mem_cons, List.not_mem_nil, or_false] at ht
      rcases ht with rfl | rfl | rfl <;> exact (natText_back _).2

theorem readPheromone_back {num : X → Text} {parse : Text → Option X} (hf : Format num parse) (ls : List (PherRecord X)) :
    readPheromone parse (pheromoneFile num ls) = some ls := by
  unfold readPheromone pheromoneFile
  rw [lines_serialized]
  · cases ls with
    | nil => rfl
    | cons a l =>
      simp only [List.map_cons, List.isEmpty_cons, Bool.false_eq_true, if_false, if_true]
      exact mapM_back (rec := fun l : PherRecord X => [natText l.src, natText l.dst, natText l.iter, num l.val])
        (fun c => by simp only [(natText_back _).1, hf.back]) (a :: l)
  · intro r hr
    rcases List.mem_cons.1 hr with rfl | hr
    · exact ⟨by simp, by simp [Plain, special]⟩
    · obtain ⟨c, -, rfl⟩ := List.mem_map.1 hr
      refine ⟨by simp, fun t ht => ?_⟩
      simp only [List.mem_cons, List.not_mem_nil, or_false] at ht
      rcases ht with rfl | rfl | rfl | rfl
      · exact (natText_back _).2
      · exact (natText_back _).2
      · exact (natText_back _).2
      · exact hf.isPlain _

/-- **C167, ant colony.** For a run that reports the bests and pheromones `recs` (one of each per iteration, C61): read back, the lines of
best.csv numbered `k + 1` are the tour of iteration `k`'s best, in order, and the lines of pheromone.csv numbered `k + 1` give exactly the
entries of that iteration's pheromone. So the two files determine everything reported. -/
theorem C167_aco {num : X → Text} {parse : Text → Option X} (hf : Format num parse) (recs : List (Sol X × Mat X)) :
    ∃ b p, ((recs.flatMap block ++ [Event.finish] : List (Event X (Mat X))).foldl CsvProbe.on (CsvProbe.new A)).written = some (b, p) ∧
      (∃ es, readEdges (bestFile b) = some es ∧
        ∀ (k : Nat) (r : Sol X × Mat X), recs[k]? = some r → (es.filter fun l => l.2.2 = k + 1).map (fun l => l.1) = r.1.path) ∧
      ∃ ps, readPheromone parse (pheromoneFile num p) = some ps ∧
        ∀ (k : Nat) (r : Sol X × Mat X), recs[k]? = some r → ∀ (i j : Nat) (v : X),
          (⟨i, j, k + 1, v⟩ : PherRecord X) ∈ ps ↔ i < r.2.rows ∧ j < r.2.cols ∧ v = r.2.get i j := by
  refine ⟨_, _, C93_csv_records recs, ⟨_, readEdges_back _, fun k r hr => ?_⟩, _, readPheromone_back hf _, fun k r hr i j v => ?_⟩
  · have := bestLines_filter recs 1 k r hr
    rw [Nat.add_comm 1 k] at this
    rw [this, List.map_map]
    exact windows_fst _
  · rw [pherLines_mem]
    constructor
    · rintro ⟨k', r', h1, h2⟩
      unfold matRecords at h2
      obtain ⟨i', hi', h2⟩ := List.mem_flatMap.1 h2
      obtain ⟨j', hj', h2⟩ := List.mem_map.1 h2
      injection h2 with e1 e2 e3 e4
      obtain rfl : k' = k := by omega
      rw [hr] at h1
      obtain rfl := Option.some.inj h1
      subst e1 e2
      exact ⟨List.mem_range.1 hi', List.mem_range.1 hj', e4.symm⟩
    · rintro ⟨h1, h2, rfl⟩
      refine ⟨k, r, hr, ?_⟩
      rw [Nat.add_comm 1 k]
      exact (C93_matrix_lines (k + 1) r.2).2 i j h1 h2

end aco

/-! ## Examples -/

/-- A number format: natural numbers in decimal. -/
theorem natFormat : Format natText readNat := ⟨fun n => (natText_back n).2.1, fun n => (natText_back n).2.2, fun n => (natText_back n).1⟩

example := C167_cities natFormat [(3, 40), (12, 7)]
example : citiesFile natText [(3, 40), (12, 7)] = "x,y\n3,40\n12,7\n".toList := by decide +kernel


/-- Every countable type of numbers (as the 64-bit floats are) has one. -/
theorem format_exists (F : Type) [Countable F] : ∃ (num : F → Text) (parse : Text → Option F), Format num parse := by
  have := Encodable.ofCountable F
  exact ⟨fun x => natText (Encodable.encode x), fun t => (readNat t).bind Encodable.decode, fun x => (natText_back _).2.1, fun x => (natText_back _).2.2,
    fun x => by simp [(natText_back _).1]⟩

instance : Countable (Fl ℚ) := by
  refine Function.Injective.countable (f := fun x : Fl ℚ => match x with | .num q => some q | .nan => none) fun a b h => ?_
  cases a <;> cases b <;> simp_all

instance : Countable (Ext ℚ) := by
  refine Function.Injective.countable (f := fun x : Ext ℚ => match x with | .fin q => (0, q) | .pinf => (1, 0) | .ninf => (2, 0) | .nan => ((3 : Nat), (0 : ℚ))) fun a b h => ?_
  cases a <;> cases b <;> simp_all

example : ∃ (num : Fl ℚ → Text) (parse : Text → Option (Fl ℚ)) (n : Nat),
    readValues parse ["generation".toList, "best_value".toList] (psoFile num (Pso.csvRecords
      (match Pso.run (Pso.generationLimit 3) Pso.demoCoeffs Pso.demoF Pso.demoDraw 4 Pso.demoSwarm () with | .ok r => r.1.2 | .error _ => []))) =
    some ((List.range (n + 1)).map fun k => (k, (Pso.swarmAfter Pso.demoCoeffs Pso.demoF Pso.demoDraw Pso.demoSwarm k).bestValue)) := by
  obtain ⟨num, parse, hf⟩ := format_exists (Fl ℚ)
  have h := Pso.C48_generation_limit 3 Pso.demoCoeffs Pso.demoF Pso.demoDraw 4 (by decide) Pso.demoSwarm ()
  obtain ⟨n, -, hn⟩ := C167_pso hf h
  exact ⟨num, parse, n, by rw [h]; exact hn⟩

example : ∃ (num : Ext ℚ → Text) (parse : Text → Option (Ext ℚ)), Format num parse ∧
    ∃ r, Ff.run Ff.AQ (Ff.cfgQ 2 3 1) Ff.absQ (Ff.taxi Ff.AQ) Ff.drQ [[.fin 3], [.fin 2], [.fin 1]] = .ok r := by
  obtain ⟨num, parse, hf⟩ := format_exists (Ext ℚ)
  exact ⟨num, parse, hf, Ff.exRun_returns⟩

example := C167_aco (A := Aco.Qf) (format_exists (Ext ℚ)).choose_spec.choose_spec [(⟨[2, 0, 1], .fin 3⟩, ⟨3, 3, fun _ _ => .fin 1⟩)]

end Ecrs.Csv
