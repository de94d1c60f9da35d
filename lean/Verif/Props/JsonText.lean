import Verif.Text.Json
import Verif.Props.CsvText

/-!
# Property **C170**: the JSON files can be read back

Reading is specified independently of writing: a recursive descent reader of JSON (white space, arrays, objects with unescaped keys, numbers,
`null`) and readers of the records that look the fields up by name.
-/

set_option linter.unusedSectionVars false
set_option linter.unusedVariables false

namespace Ecrs.Csv
open Ecrs

/-! ## Specification: reading JSON -/

/-- Specification: JSON's white space. -/
def white (c : Char) : Bool := c == ' ' || c == '\n' || c == '\t' || c == '\r'

/-- Specification: the characters of numbers. -/
def numeric (c : Char) : Bool := ('0' ≤ c && c ≤ '9') || c == '-' || c == '+' || c == '.' || c == 'e' || c == 'E'

/-- Specification: without leading white space. -/
def skip (t : Text) : Text := t.dropWhile white

mutual
/-- Specification: reads a value from the front of a text; the number bounds the recursion. -/
def value : Nat → Text → Option (Json × Text)
  | 0, _ => none
  | n + 1, t =>
    match skip t with
    | 'n' :: 'u' :: 'l' :: 'l' :: r => some (.null, r)
    | '[' :: r => match elements n true r with
      | some (xs, r) => some (.arr xs, r)
      | none => none
    | '{' :: r => match fields n true r with
      | some (xs, r) => some (.obj xs, r)
      | none => none
    | '"' :: r => match r.dropWhile (· ≠ '"') with
      | '"' :: r' => some (.str (r.takeWhile (· ≠ '"')), r')
      | _ => none
    | r => if r.takeWhile numeric = [] then none else some (.num (r.takeWhile numeric), r.dropWhile numeric)
/-- Specification: reads the elements of an array up to its closing bracket; all but the first follow a comma. -/
def elements : Nat → Bool → Text → Option (Items × Text)
  | 0, _, _ => none
  | n + 1, first, t =>
    match skip t with
    | ']' :: r => some (.nil, r)
    | r => if first then element n r else
      match r with
      | ',' :: r => element n r
      | _ => none
/-- Specification: reads an element and the elements after it. -/
def element : Nat → Text → Option (Items × Text)
  | 0, _ => none
  | n + 1, t =>
    match value n t with
    | some (x, r) => match elements n false r with
      | some (xs, r) => some (.cons x xs, r)
      | none => none
    | none => none
/-- Specification: reads the members of an object up to its closing brace; all but the first follow a comma. -/
def fields : Nat → Bool → Text → Option (Members × Text)
  | 0, _, _ => none
  | n + 1, first, t =>
    match skip t with
    | '}' :: r => some (.nil, r)
    | r => if first then member n r else
      match r with
      | ',' :: r => member n r
      | _ => none
/-- Specification: reads a member (a key without escapes, a colon, a value) and the members after it. -/
def member : Nat → Text → Option (Members × Text)
  | 0, _ => none
  | n + 1, t =>
    match skip t with
    | '"' :: r => match r.dropWhile (· ≠ '"') with
      | '"' :: r' => match skip r' with
        | ':' :: r' => match value n r' with
          | some (x, r') => match fields n false r' with
            | some (xs, r') => some (.cons (r.takeWhile (· ≠ '"')) x xs, r')
            | none => none
          | none => none
        | _ => none
      | _ => none
    | _ => none
end

/-- Specification: the JSON value a text is. -/
def parseJson (t : Text) : Option Json :=
  match value (3 * t.length + 1) t with
  | some (j, r) => if skip r = [] then some j else none
  | none => none

/-! ## Specification: reading records -/

/-- Specification: the elements of an array. -/
def Items.list : Items → List Json
  | .nil => []
  | .cons x xs => x :: xs.list

/-- Specification: the value of a key. -/
def Members.find (key : String) : Members → Option Json
  | .nil => none
  | .cons k x xs => if k = key.toList then some x else xs.find key

/-- Specification: the value of a field of an object. -/
def field? (key : String) : Json → Option Json
  | .obj xs => xs.find key
  | _ => none

/-- Specification: a list whose elements are read by `f`. -/
def asList {α : Type} (f : Json → Option α) : Json → Option (List α)
  | .arr xs => xs.list.mapM f
  | _ => none

/-- Specification: an integer. -/
def asNat : Json → Option Nat
  | .num t => readNat t
  | _ => none

/-- Specification: a floating-point number, or none where the file says `null`. -/
def asFloat {F : Type} (parse : Text → Option F) : Json → Option (Option F)
  | .num t => (parse t).map some
  | .null => some none
  | _ => none

/-- Specification: a way to write the finite numbers that can be read back and is made of the characters of numbers, like `serde_json`'s
`ryu`; the others have none. -/
structure JsonFormat {F : Type} (num : F → Option Text) (parse : Text → Option F) : Prop where
  nonempty : ∀ x t, num x = some t → t ≠ []
  plain : ∀ x t, num x = some t → ∀ c ∈ t, numeric c = true
  back : ∀ x t, num x = some t → parse t = some x

/-- Specification: a number if it is finite (can be written). -/
def ifFinite {F : Type} (num : F → Option Text) (x : F) : Option F := (num x).map fun _ => x

/-- Specification: the records of a swarm or of fireflies: number of the iteration (under the given name), best value, best position. -/
def readBests {V X : Type} (parse : Text → Option V) (parseX : Text → Option X) (number : String) (t : Text) :
    Option (List (Nat × Option V × List (Option X))) :=
  (parseJson t).bind (asList fun j => do
    let n ← (field? number j).bind asNat
    let v ← (field? "best_value" j).bind (asFloat parse)
    let x ← (field? "best_position" j).bind (asList (asFloat parseX))
    pure (n, v, x))

/-- Specification: the records of ants: the rows of the pheromone, the tour and its fitness. -/
def readAnts {X : Type} (parse : Text → Option X) (t : Text) : Option (List (List (List (Option X)) × List Nat × Option X)) :=
  (parseJson t).bind (asList fun j => do
    let m ← (field? "pheromone" j).bind (asList (asList (asFloat parse)))
    let s ← field? "solution" j
    let p ← (field? "path" s).bind (asList asNat)
    let v ← (field? "fitness" s).bind (asFloat parse)
    pure (m, p, v))

/-! ## Reading what is written -/

mutual
/-- Numbers are made of numeric characters, keys have no quotes. -/
def Json.good : Json → Prop
  | .null => True
  | .num t => t ≠ [] ∧ ∀ c ∈ t, numeric c = true
  | .str t => '"' ∉ t
  | .arr xs => xs.good
  | .obj xs => xs.good
def Items.good : Items → Prop
  | .nil => True
  | .cons x xs => x.good ∧ xs.good
def Members.good : Members → Prop
  | .nil => True
  | .cons k x xs => '"' ∉ k ∧ x.good ∧ xs.good
end

mutual
def Json.size : Json → Nat
  | .null => 1
  | .num _ => 1
  | .str _ => 1
  | .arr xs => xs.size + 1
  | .obj xs => xs.size + 1
def Items.size : Items → Nat
  | .nil => 1
  | .cons x xs => x.size + xs.size + 2
def Members.size : Members → Nat
  | .nil => 1
  | .cons _ x xs => x.size + xs.size + 2
end

theorem skip_indent (d : Nat) (t : Text) : skip (indent d ++ t) = skip t := by
  unfold indent skip
  generalize 2 * d = n
  induction n with
  | zero => rfl
  | succ n ih => rw [List.replicate_succ, List.cons_append, List.dropWhile_cons_of_pos (by decide), ih]

theorem skip_newline (t : Text) : skip ('\n' :: t) = skip t := by
  unfold skip
  rw [List.dropWhile_cons_of_pos (by decide)]

theorem skip_blank (t : Text) : skip (' ' :: t) = skip t := by
  unfold skip
  rw [List.dropWhile_cons_of_pos (by decide)]

theorem skip_black {c : Char} (h : white c = false) (t : Text) : skip (c :: t) = c :: t := by
  unfold skip
  rw [List.dropWhile_cons_of_neg (by simp [h])]

theorem numeric_black {c : Char} (h : numeric c = true) : white c = false := by
  unfold white
  unfold numeric at h
  simp only [Bool.or_eq_true, Bool.and_eq_true, decide_eq_true_eq, beq_iff_eq] at h
  rcases h with ((((h | h) | h) | h) | h) | h
  · simp only [Bool.or_eq_false_iff, beq_eq_false_iff_ne, ne_eq]
    refine ⟨⟨⟨?_, ?_⟩, ?_⟩, ?_⟩ <;> (rintro rfl; exact absurd h.1 (by decide))
  all_goals (subst h; decide)

/-- What may follow a value: not a character of numbers. -/
def Stops (r : Text) : Prop := ∀ c r', r = c :: r' → numeric c = false

/-- A value starts with a visible character that is not a closing bracket or comma. -/
theorem text_starts {j : Json} (h : j.good) (d : Nat) : ∃ c t, j.text d = c :: t ∧ white c = false ∧ c ≠ ']' := by
  cases j with
  | null => exact ⟨'n', _, rfl, by decide, by decide⟩
  | num t =>
    cases t with
    | nil => exact absurd rfl h.1
    | cons c t =>
      have := h.2 c (by simp)
      exact ⟨c, t, rfl, numeric_black this, fun hc => by subst hc; exact absurd this (by decide)⟩
  | str t => exact ⟨'"', _, rfl, by decide, by decide⟩
  | arr xs => exact ⟨'[', _, rfl, by decide, by decide⟩
  | obj xs => exact ⟨'{', _, rfl, by decide, by decide⟩

theorem takeWhile_numeric {t r : Text} (h : ∀ c ∈ t, numeric c = true) (hr : Stops r) :
    (t ++ r).takeWhile numeric = t ∧ (t ++ r).dropWhile numeric = r := by
  induction t with
  | nil =>
    cases r with
    | nil => exact ⟨rfl, rfl⟩
    | cons c r => simp [hr c r rfl]
  | cons c t ih =>
    have := ih fun c hc => h c (by simp [hc])
    rw [List.cons_append, List.takeWhile_cons_of_pos (h c (by simp)), List.dropWhile_cons_of_pos (h c (by simp)), this.1]
    exact ⟨rfl, this.2⟩

theorem key_read {k : Text} (h : '"' ∉ k) (r : Text) :
    (k ++ '"' :: r).takeWhile (· ≠ '"') = k ∧ (k ++ '"' :: r).dropWhile (· ≠ '"') = '"' :: r := by
  induction k with
  | nil => simp
  | cons c k ih =>
    have hc : c ≠ '"' := fun hc => h (by simp [hc])
    have := ih fun hk => h (by simp [hk])
    rw [List.cons_append, List.takeWhile_cons_of_pos (by simp [hc]), List.dropWhile_cons_of_pos (by simp [hc]), this.1]
    exact ⟨rfl, this.2⟩

theorem value_num {n : Nat} {t r : Text} (h : t ≠ [] ∧ ∀ c ∈ t, numeric c = true) (hr : Stops r) : value (n + 1) (t ++ r) = some (.num t, r) := by
  obtain ⟨e1, e2⟩ := takeWhile_numeric h.2 hr
  cases t with
  | nil => exact absurd rfl h.1
  | cons c t =>
    have hc := h.2 c (by simp)
    have hs : skip (c :: t ++ r) = c :: t ++ r := skip_black (numeric_black hc) _
    rw [value, hs]
    split
    · rename_i he; injection he with he _; subst he; exact absurd hc (by decide)
    · rename_i he; injection he with he _; subst he; exact absurd hc (by decide)
    · rename_i he; injection he with he _; subst he; exact absurd hc (by decide)
    · rename_i he; injection he with he _; subst he; exact absurd hc (by decide)
    · rw [e1, e2, if_neg h.1]

theorem value_null {n : Nat} {r : Text} : value (n + 1) (['n', 'u', 'l', 'l'] ++ r) = some (.null, r) := by
  rw [value, show skip (['n', 'u', 'l', 'l'] ++ r) = 'n' :: 'u' :: 'l' :: 'l' :: r from skip_black (by decide) _]
  rfl

theorem value_str {n : Nat} {t r : Text} (h : '"' ∉ t) : value (n + 1) ('"' :: (t ++ ['"']) ++ r) = some (.str t, r) := by
  obtain ⟨e1, e2⟩ := key_read h r
  have hs : skip ('"' :: (t ++ ['"']) ++ r) = '"' :: (t ++ '"' :: r) := by
    rw [List.cons_append, List.append_assoc]
    exact skip_black (by decide) _
  rw [value, hs]
  simp only [e1, e2]

theorem value_skip (n : Nat) {t t' : Text} (h : skip t = skip t') : value n t = value n t' := by
  cases n with
  | zero => rw [value, value]
  | succ n => rw [value, value, h]

theorem stops_items (d : Nat) (xs : Items) (r : Text) : Stops (xs.text d false ++ r) := by
  intro c r' h
  cases xs with
  | nil => injection h with h _; subst h; decide
  | cons x xs => injection h with h _; subst h; decide

theorem stops_members (d : Nat) (xs : Members) (r : Text) : Stops (xs.text d false ++ r) := by
  intro c r' h
  cases xs with
  | nil => injection h with h _; subst h; decide
  | cons k x xs => injection h with h _; subst h; decide

mutual
theorem value_text (j : Json) (h : j.good) (n : Nat) (hn : j.size ≤ n) (d : Nat) (r : Text) (hr : Stops r) :
    value n (j.text d ++ r) = some (j, r) := by
  match j, n with
  | .null, 0 => rw [Json.size] at hn; omega
  | .num _, 0 => rw [Json.size] at hn; omega
  | .str _, 0 => rw [Json.size] at hn; omega
  | .arr _, 0 => rw [Json.size] at hn; omega
  | .obj _, 0 => rw [Json.size] at hn; omega
  | .null, n + 1 => rw [Json.text]; exact value_null
  | .num t, n + 1 => rw [Json.text]; rw [Json.good] at h; exact value_num h hr
  | .str t, n + 1 => rw [Json.text]; rw [Json.good] at h; exact value_str h
  | .arr xs, n + 1 =>
    rw [Json.good] at h
    rw [Json.size] at hn
    rw [Json.text, value, List.cons_append, skip_black (by decide)]
    show (match elements n true (xs.text d true ++ r) with | some (xs, r) => some (Json.arr xs, r) | none => none) = _
    rw [elements_text xs h n (by omega) d true r]
  | .obj xs, n + 1 =>
    rw [Json.good] at h
    rw [Json.size] at hn
    rw [Json.text, value, List.cons_append, skip_black (by decide)]
    show (match fields n true (xs.text d true ++ r) with | some (xs, r) => some (Json.obj xs, r) | none => none) = _
    rw [fields_text xs h n (by omega) d true r]

theorem elements_text (xs : Items) (h : xs.good) (n : Nat) (hn : xs.size ≤ n) (d : Nat) (first : Bool) (r : Text) :
    elements n first (xs.text d first ++ r) = some (xs, r) := by
  match xs, n with
  | .nil, 0 => rw [Items.size] at hn; omega
  | .cons _ _, 0 => rw [Items.size] at hn; omega
  | .nil, n + 1 =>
    have e : skip ((Items.nil).text d first ++ r) = ']' :: r := by
      rw [Items.text]
      cases first
      · rw [if_neg (by simp), List.cons_append, skip_newline, List.append_assoc, skip_indent]; exact skip_black (by decide) _
      · exact skip_black (by decide) _
    rw [elements, e]
    rfl
  | .cons _ _, 1 => rw [Items.size] at hn; omega
  | .cons x xs, n + 2 =>
    rw [Items.good] at h
    rw [Items.size] at hn
    have hx : ∀ t : Text, skip t = skip (x.text (d + 1) ++ (xs.text d false ++ r)) → element (n + 1) t = some (.cons x xs, r) := by
      intro t ht
      rw [element, (value_skip n ht).trans (value_text x h.1 n (by omega) (d + 1) _ (stops_items d xs r))]
      dsimp only
      rw [elements_text xs h.2 n (by omega) d false r]
    obtain ⟨c, t, hc, hw, hb⟩ := text_starts h.1 (d + 1)
    cases first with
    | true =>
      have e : skip ((Items.cons x xs).text d true ++ r) = x.text (d + 1) ++ (xs.text d false ++ r) := by
        rw [Items.text, if_pos rfl, List.append_assoc, List.append_assoc, List.append_assoc, List.singleton_append, skip_newline, skip_indent, hc,
          List.cons_append, skip_black hw]
      rw [elements, e]
      split
      · rename_i he; rw [hc] at he; injection he with he _; exact absurd he hb
      · rw [if_pos rfl, hx _ rfl]
    | false =>
      have e : skip ((Items.cons x xs).text d false ++ r) = ',' :: '\n' :: (indent (d + 1) ++ (x.text (d + 1) ++ (xs.text d false ++ r))) := by
        rw [Items.text, if_neg (by simp), List.append_assoc, List.append_assoc, List.append_assoc]
        exact skip_black (by decide) _
      rw [elements, e]
      exact hx _ (by rw [skip_newline, skip_indent])

theorem fields_text (xs : Members) (h : xs.good) (n : Nat) (hn : xs.size ≤ n) (d : Nat) (first : Bool) (r : Text) :
    fields n first (xs.text d first ++ r) = some (xs, r) := by
  match xs, n with
  | .nil, 0 => rw [Members.size] at hn; omega
  | .cons _ _ _, 0 => rw [Members.size] at hn; omega
  | .cons _ _ _, 1 => rw [Members.size] at hn; omega
  | .nil, n + 1 =>
    have e : skip ((Members.nil).text d first ++ r) = '}' :: r := by
      rw [Members.text]
      cases first
      · rw [if_neg (by simp), List.cons_append, skip_newline, List.append_assoc, skip_indent]; exact skip_black (by decide) _
      · exact skip_black (by decide) _
    rw [fields, e]
    rfl
  | .cons k x xs, n + 2 =>
    rw [Members.good] at h
    rw [Members.size] at hn
    have hm : ∀ t : Text, skip t = '"' :: (k ++ '"' :: ':' :: ' ' :: (x.text (d + 1) ++ (xs.text d false ++ r))) →
        member (n + 1) t = some (.cons k x xs, r) := by
      intro t ht
      obtain ⟨e1, e2⟩ := key_read h.1 (':' :: ' ' :: (x.text (d + 1) ++ (xs.text d false ++ r)))
      rw [member, ht]
      simp only [e1, e2]
      rw [skip_black (by decide)]
      simp only
      rw [(value_skip n (skip_blank _)).trans (value_text x h.2.1 n (by omega) (d + 1) _ (stops_members d xs r))]
      dsimp only
      rw [fields_text xs h.2.2 n (by omega) d false r]
    cases first with
    | true =>
      have e : skip ((Members.cons k x xs).text d true ++ r) = '"' :: (k ++ '"' :: ':' :: ' ' :: (x.text (d + 1) ++ (xs.text d false ++ r))) := by
        rw [Members.text, if_pos rfl]
        simp only [List.append_assoc, List.cons_append, List.nil_append]
        rw [skip_newline, skip_indent, skip_black (by decide)]
      rw [fields, e]
      exact hm _ (skip_black (by decide) _)
    | false =>
      have e : skip ((Members.cons k x xs).text d false ++ r) =
          ',' :: '\n' :: (indent (d + 1) ++ '"' :: (k ++ '"' :: ':' :: ' ' :: (x.text (d + 1) ++ (xs.text d false ++ r)))) := by
        rw [Members.text, if_neg (by simp)]
        simp only [List.append_assoc, List.cons_append, List.nil_append]
        exact skip_black (by decide) _
      rw [fields, e]
      exact hm _ (by rw [skip_newline, skip_indent, skip_black (by decide)])
end

mutual
theorem size_text (j : Json) (h : j.good) (d : Nat) : j.size ≤ 3 * (j.text d).length := by
  match j with
  | .null => rw [Json.size, Json.text]; simp
  | .num t =>
    rw [Json.good] at h
    rw [Json.size, Json.text]
    have := List.length_pos_iff.2 h.1
    omega
  | .str t => rw [Json.size, Json.text]; simp; omega
  | .arr xs =>
    rw [Json.good] at h
    rw [Json.size, Json.text, List.length_cons]
    have := size_items xs h d true
    omega
  | .obj xs =>
    rw [Json.good] at h
    rw [Json.size, Json.text, List.length_cons]
    have := size_members xs h d true
    omega

theorem size_items (xs : Items) (h : xs.good) (d : Nat) (first : Bool) : xs.size ≤ 3 * (xs.text d first).length := by
  match xs with
  | .nil => rw [Items.size, Items.text]; cases first <;> simp; omega
  | .cons x xs =>
    rw [Items.good] at h
    rw [Items.size, Items.text]
    have h1 := size_text x h.1 (d + 1)
    have h2 := size_items xs h.2 d false
    cases first <;> simp <;> omega

theorem size_members (xs : Members) (h : xs.good) (d : Nat) (first : Bool) : xs.size ≤ 3 * (xs.text d first).length := by
  match xs with
  | .nil => rw [Members.size, Members.text]; cases first <;> simp; omega
  | .cons k x xs =>
    rw [Members.good] at h
    rw [Members.size, Members.text]
    have h1 := size_text x h.2.1 (d + 1)
    have h2 := size_members xs h.2.2 d false
    cases first <;> simp <;> omega
end

theorem parse_text (j : Json) (h : j.good) : parseJson (j.text 0) = some j := by
  unfold parseJson
  have := value_text j h (3 * (j.text 0).length + 1) (by have := size_text j h 0; omega) 0 [] (fun c r' h => by cases h)
  rw [List.append_nil] at this
  rw [this]
  rfl

/-! ## Records -/

theorem items_list (l : List Json) : (Items.of l).list = l := by
  induction l with
  | nil => rfl
  | cons x l ih => rw [Items.of, Items.list, ih]

theorem items_good (l : List Json) (h : ∀ x ∈ l, x.good) : (Items.of l).good := by
  induction l with
  | nil => rw [Items.of, Items.good]; trivial
  | cons x l ih => rw [Items.of, Items.good]; exact ⟨h x (by simp), ih fun y hy => h y (by simp [hy])⟩

theorem listJson_good {α : Type} (f : α → Json) (l : List α) (h : ∀ a ∈ l, (f a).good) : (listJson f l).good := by
  rw [listJson, Json.good]
  refine items_good _ fun x hx => ?_
  obtain ⟨a, ha, rfl⟩ := List.mem_map.1 hx
  exact h a ha

theorem members_good (l : List (String × Json)) (h : ∀ x ∈ l, '"' ∉ x.1.toList ∧ x.2.good) : (Members.of l).good := by
  induction l with
  | nil => rw [Members.of, Members.good]; trivial
  | cons x l ih =>
    rw [Members.of, Members.good]
    exact ⟨(h x (by simp)).1, (h x (by simp)).2, ih fun y hy => h y (by simp [hy])⟩

theorem natJson_good (n : Nat) : (natJson n).good := by
  rw [natJson, Json.good]
  refine ⟨(natText_back n).2.1, fun c hc => ?_⟩
  unfold natText at hc
  by_cases h0 : n = 0
  · rw [if_pos h0] at hc; rw [List.mem_singleton.1 hc]; decide
  · rw [if_neg h0] at hc
    obtain ⟨d, hd, rfl⟩ := List.mem_map.1 (List.mem_reverse.1 hc)
    have := Nat.digits_lt_base (by norm_num) hd
    interval_cases d <;> decide

theorem asNat_natJson (n : Nat) : asNat (natJson n) = some n := (natText_back n).1

section floats
variable {F : Type} {num : F → Option Text} {parse : Text → Option F}

theorem floatJson_good (hf : JsonFormat num parse) (x : F) : (floatJson num x).good := by
  unfold floatJson
  cases hx : num x with
  | none => simp only [Json.good]
  | some t => simp only [Json.good]; exact ⟨hf.nonempty x t hx, hf.plain x t hx⟩

theorem asFloat_floatJson (hf : JsonFormat num parse) (x : F) : asFloat parse (floatJson num x) = some (ifFinite num x) := by
  unfold floatJson ifFinite
  cases hx : num x with
  | none => rfl
  | some t => simp only [asFloat, hf.back x t hx]; rfl

end floats

theorem asList_listJson {α β : Type} {f : Json → Option β} {g : α → Json} {h : α → β} (hfg : ∀ a, f (g a) = some (h a)) (l : List α) :
    asList f (listJson g l) = some (l.map h) := by
  unfold asList listJson
  simp only [items_list]
  induction l with
  | nil => rfl
  | cons a l ih => rw [List.map_cons, List.mapM_cons, hfg, ih]; rfl

theorem noQuote_best_value : '"' ∉ "best_value".toList := by decide
theorem noQuote_best_position : '"' ∉ "best_position".toList := by decide
theorem noQuote_pheromone : '"' ∉ "pheromone".toList := by decide
theorem noQuote_solution : '"' ∉ "solution".toList := by decide
theorem noQuote_path : '"' ∉ "path".toList := by decide
theorem noQuote_fitness : '"' ∉ "fitness".toList := by decide

theorem field_same (k : String) (x : Json) (l : List (String × Json)) : field? k (structJson ((k, x) :: l)) = some x := by
  rw [structJson, field?, Members.of, Members.find, if_pos rfl]

theorem field_other {k key : String} (h : k ≠ key) (x : Json) (l : List (String × Json)) :
    field? key (structJson ((k, x) :: l)) = field? key (structJson l) := by
  rw [structJson, field?, Members.of, Members.find, if_neg fun e => h (String.ext e), structJson, field?]

section bests
variable {V X : Type} {num : V → Option Text} {parse : Text → Option V} {numX : X → Option Text} {parseX : Text → Option X}

theorem readBests_back (hf : JsonFormat num parse) (hx : JsonFormat numX parseX) (number : String) (hn : '"' ∉ number.toList)
    (h1 : "best_value" ≠ number) (h2 : "best_position" ≠ number) (records : List (Nat × V × List X)) :
    readBests parse parseX number ((listJson (fun r : Nat × V × List X => structJson
      [(number, natJson r.1), ("best_value", floatJson num r.2.1), ("best_position", listJson (floatJson numX) r.2.2)]) records).text 0) =
    some (records.map fun r => (r.1, ifFinite num r.2.1, r.2.2.map (ifFinite numX))) := by
  unfold readBests
  rw [parse_text]
  · refine asList_listJson (fun r => ?_) records
    rw [field_same, field_other h1.symm, field_same, field_other h2.symm, field_other (by decide), field_same, Option.bind_some, Option.bind_some,
      Option.bind_some, asNat_natJson, asFloat_floatJson hf, asList_listJson (asFloat_floatJson hx)]
    rfl
  · refine listJson_good _ _ fun r _ => ?_
    rw [structJson, Json.good]
    refine members_good _ fun x hm => ?_
    simp only [List.mem_cons, List.not_mem_nil, or_false] at hm
    rcases hm with rfl | rfl | rfl
    · exact ⟨hn, natJson_good _⟩
    · exact ⟨noQuote_best_value, floatJson_good hf _⟩
    · exact ⟨noQuote_best_position, listJson_good _ _ fun y _ => floatJson_good hx y⟩

end bests

/-- **C170, particle swarm.** After every returning run of `n` iterations the file of the JSON probe is JSON that holds exactly one record per
generation `0, 1, …, n`, in order, with the best value and the best position of that generation, up to numbers that are not finite, for which
the file says `null`. -/
theorem C170_pso {X K W : Type} [LinearOrder K] [Add X] [Sub X] [Mul X] [Neg X] {isMet : Pso.Term W X K} {c : Pso.Coeffs X} {f : List X → Fl K}
    {draw : Nat → Nat → Nat → X × X} {fuel : Nat} {s s' : Pso.Swarm X K} {evs : List (Pso.Ev X K)} {w w' : W}
    {num : Fl K → Option Text} {parse : Text → Option (Fl K)} {numX : X → Option Text} {parseX : Text → Option X}
    (hf : JsonFormat num parse) (hx : JsonFormat numX parseX) (hr : Pso.run isMet c f draw fuel s w = .ok ((s', evs), w')) :
    ∃ n, s' = Pso.swarmAfter c f draw s n ∧
      readBests parse parseX "generation" (psoJson num numX (Pso.jsonRecords evs)) =
        some ((List.range (n + 1)).map fun k => (k, ifFinite num (Pso.swarmAfter c f draw s k).bestValue,
          (Pso.swarmAfter c f draw s k).bestPosition.map (ifFinite numX))) := by
  obtain ⟨n, h1, -, h2⟩ := Pso.C74_records hr
  refine ⟨n, h1, ?_⟩
  unfold psoJson
  rw [readBests_back hf hx "generation" (by decide) (by decide) (by decide), h2, List.map_map]
  rfl

/-- **C170, firefly.** After every returning run the file of the JSON probe is JSON that holds exactly one record per generation
`0, …, max_generations - 1`, with the best value reported in it and the position of one of that generation's fireflies, up to numbers that are
not finite; without generations it is the empty list. -/
theorem C170_ff {X K : Type} [LinearOrder K] {A : FloatOps X K} {c : Ff.Cfg X} {f : List X → X} {dist : List X → List X → Except Panic X}
    {dr : Ff.Draws X} {pop : List (List X)} {sts : List (Ff.St X)} {evs : List (Ff.Ev X)}
    {num : X → Option Text} {parse : Text → Option X} (hf : JsonFormat num parse) (h : Ff.run A c f dist dr pop = .ok (sts, evs)) (zero : X) :
    ∃ recs : List (Nat × Option X × List (Option X)),
      readBests parse parse "iteration" (ffJson num (evs.foldl Ff.recStep ⟨0, zero, [], []⟩).records) = some recs ∧
      recs.length = c.maxGenerations ∧
      ∀ (k : Nat) (s : Ff.St X), sts[k]? = some s → ∃ x ∈ s.pop, recs[k]? = some (k, ifFinite num s.best, x.map (ifFinite num)) := by
  obtain ⟨ps, p1, p3, p2⟩ := Ff.C83_records h ⟨0, zero, [], []⟩
  have hl : sts.length = c.maxGenerations := by
    obtain ⟨-, q1, -⟩ := Ff.C80_callbacks h
    exact q1
  refine ⟨_, readBests_back hf hf "iteration" (by decide) (by decide) (by decide) _, ?_, fun k s hk => ?_⟩
  · rw [List.length_map, p2, List.nil_append]
    simp [p1, hl]
  · obtain ⟨hk', -⟩ := List.getElem?_eq_some_iff.1 hk
    obtain ⟨x, hx⟩ : ∃ x, ps[k]? = some x := ⟨ps[k]'(by omega), List.getElem?_eq_getElem (by omega)⟩
    refine ⟨x, p3 k s x hk hx, ?_⟩
    rw [p2, List.nil_append]
    have hz : ((List.range c.maxGenerations).zip (sts.zip ps))[k]? = some (k, s, x) := by
      rw [List.getElem?_zip_eq_some]
      exact ⟨by rw [List.getElem?_range]; omega, by rw [List.getElem?_zip_eq_some]; exact ⟨hk, hx⟩⟩
    rw [List.getElem?_map, List.getElem?_map, hz]
    rfl

section ants
variable {X K : Type} [LinearOrder K] {A : Aco.AcoOps X K}

theorem readAnts_back {num : X → Option Text} {parse : Text → Option X} (hf : JsonFormat num parse) (l : List (Aco.Mat X × Aco.Sol X)) :
    readAnts parse (acoJson num l) = some (l.map fun r =>
      ((intoVec r.1).map fun row => row.map (ifFinite num), r.2.path, ifFinite num r.2.fitness)) := by
  unfold readAnts acoJson
  rw [parse_text]
  · refine asList_listJson (fun r => ?_) l
    rw [field_same, field_other (by decide), field_same, Option.bind_some, asList_listJson (asList_listJson (asFloat_floatJson hf))]
    show (do
      let p ← (field? "path" (solJson num r.2)).bind (asList asNat)
      let v ← (field? "fitness" (solJson num r.2)).bind (asFloat parse)
      pure ((intoVec r.1).map (List.map (ifFinite num)), p, v)) = _
    rw [solJson, field_same, field_other (by decide), field_same, Option.bind_some, Option.bind_some, asList_listJson asNat_natJson,
      asFloat_floatJson hf, List.map_id']
    rfl
  · refine listJson_good _ _ fun r _ => ?_
    rw [structJson, Json.good]
    refine members_good _ fun x hm => ?_
    simp only [List.mem_cons, List.not_mem_nil, or_false] at hm
    rcases hm with rfl | rfl
    · exact ⟨noQuote_pheromone, listJson_good _ _ fun y _ => listJson_good _ _ fun z _ => floatJson_good hf z⟩
    · refine ⟨noQuote_solution, ?_⟩
      show (solJson num r.2).good
      rw [solJson, structJson, Json.good]
      refine members_good _ fun x hm => ?_
      simp only [List.mem_cons, List.not_mem_nil, or_false] at hm
      rcases hm with rfl | rfl
      · exact ⟨noQuote_path, listJson_good _ _ fun y _ => natJson_good y⟩
      · exact ⟨noQuote_fitness, floatJson_good hf _⟩

/-- **C170, ant colony.** For a run that reports the bests and pheromones `recs` (one of each per iteration, C61): the probe does not panic, and
its file is JSON that holds exactly one record per iteration, in order: all the rows of its pheromone, its best tour and that tour's fitness, up
to numbers that are not finite. -/
theorem C170_aco {num : X → Option Text} {parse : Text → Option X} (hf : JsonFormat num parse) (recs : List (Aco.Sol X × Aco.Mat X)) :
    ∃ l p, (recs.flatMap Aco.block ++ [Aco.Event.finish] : List (Aco.Event X (Aco.Mat X))).foldlM (Aco.JsonProbe.on A) ⟨[], none⟩ = .ok ⟨l, some p⟩ ∧
      ∃ read, readAnts parse (acoJson num p) = some read ∧ read.length = recs.length ∧
        ∀ (k : Nat) (r : Aco.Sol X × Aco.Mat X), recs[k]? = some r → ∃ rows, read[k]? = some (rows, r.1.path, ifFinite num r.1.fitness) ∧
          rows.length = r.2.rows ∧ ∀ i < r.2.rows, ∃ row, rows[i]? = some row ∧ row.length = r.2.cols ∧
            ∀ j < r.2.cols, row[j]? = some (ifFinite num (r.2.get i j)) := by
  refine ⟨_, _, Aco.C93_json_records recs, _, readAnts_back hf _, by simp, fun k r hk => ?_⟩
  refine ⟨(intoVec r.2).map fun row => row.map (ifFinite num), by simp [hk], by simp [intoVec], fun i hi => ?_⟩
  refine ⟨((List.range r.2.cols).map (r.2.get i)).map (ifFinite num), ?_, by simp, fun j hj => ?_⟩
  · simp [intoVec, List.getElem?_range hi]
  · simp [List.getElem?_range hj]

end ants

/-- **C170, lossless.** If all numbers are finite, reading gives back what was recorded: different records never give the same file. -/
theorem C170_lossless {V X : Type} {num : V → Option Text} {parse : Text → Option V} {numX : X → Option Text} {parseX : Text → Option X}
    (hf : JsonFormat num parse) (hx : JsonFormat numX parseX) {l l' : List (Nat × V × List X)}
    (hl : ∀ r ∈ l, (num r.2.1).isSome ∧ ∀ x ∈ r.2.2, (numX x).isSome) (hl' : ∀ r ∈ l', (num r.2.1).isSome ∧ ∀ x ∈ r.2.2, (numX x).isSome)
    (h : psoJson num numX l = psoJson num numX l') : l = l' := by
  have e := congrArg (readBests parse parseX "generation") h
  unfold psoJson at e
  rw [readBests_back hf hx "generation" (by decide) (by decide) (by decide), readBests_back hf hx "generation" (by decide) (by decide) (by decide)] at e
  have fin : ∀ {F : Type} {num : F → Option Text} {x : F}, (num x).isSome → ifFinite num x = some x := by
    intro F num x h
    obtain ⟨t, ht⟩ := Option.isSome_iff_exists.1 h
    simp [ifFinite, ht]
  have key : ∀ l : List (Nat × V × List X), (∀ r ∈ l, (num r.2.1).isSome ∧ ∀ x ∈ r.2.2, (numX x).isSome) →
      l.map (fun r => (r.1, ifFinite num r.2.1, r.2.2.map (ifFinite numX))) = l.map fun r => (r.1, some r.2.1, r.2.2.map some) := by
    intro l hl
    refine List.map_congr_left fun r hr => ?_
    rw [fin (hl r hr).1, List.map_congr_left fun x hx => fin ((hl r hr).2 x hx)]
  rw [key l hl, key l' hl'] at e
  refine List.map_injective_iff.2 ?_ (Option.some.inj e)
  rintro ⟨a, b, c⟩ ⟨a', b', c'⟩ h
  simp only [Prod.mk.injEq, Option.some.injEq] at h
  obtain ⟨rfl, rfl, h⟩ := h
  rw [List.map_injective_iff.2 (Option.some_injective X) h]

/-- **C170, not finite.** Numbers that are not finite are lost: swarms with different such best values leave the same file. -/
theorem C170_not_finite {V X : Type} {num : V → Option Text} (numX : X → Option Text) (g : Nat) (position : List X) {v v' : V}
    (hv : num v = none) (hv' : num v' = none) : psoJson num numX [(g, v, position)] = psoJson num numX [(g, v', position)] := by
  unfold psoJson
  simp only [listJson, List.map_cons, List.map_nil, floatJson, hv, hv']

/-! ## Examples -/

/-- A format: natural numbers in decimal. -/
theorem natJsonFormat : JsonFormat (fun n => some (natText n)) readNat := by
  refine ⟨fun n t h => ?_, fun n t h => ?_, fun n t h => ?_⟩ <;> (obtain rfl := Option.some.inj h)
  · exact (natText_back n).2.1
  · have := natJson_good n
    rw [natJson, Json.good] at this
    exact this.2
  · exact (natText_back n).1

/-- Every countable type of numbers has a format for the finite ones among them. -/
theorem jsonFormat_exists (F : Type) [Countable F] (finite : F → Bool) :
    ∃ (num : F → Option Text) (parse : Text → Option F), JsonFormat num parse ∧ ∀ x, (num x).isSome = finite x := by
  have := Encodable.ofCountable F
  refine ⟨fun x => if finite x then some (natText (Encodable.encode x)) else none, fun t => (readNat t).bind Encodable.decode, ⟨fun x t h => ?_,
    fun x t h => ?_, fun x t h => ?_⟩, fun x => by cases h : finite x <;> simp [h]⟩
  all_goals
    by_cases hx : finite x
    · simp only [hx, if_true] at h
      obtain rfl := Option.some.inj h
      first
        | exact natJsonFormat.nonempty _ _ rfl
        | exact natJsonFormat.plain _ _ rfl
        | simp [(natText_back _).1]
    · simp [hx] at h

example : psoJson (fun n : Nat => if n = 0 then none else some (natText n)) (fun n : Nat => some (natText n)) [(0, 12, [3, 4]), (1, 0, [])] =
    "[\n  {\n    \"generation\": 0,\n    \"best_value\": 12,\n    \"best_position\": [\n      3,\n      4\n    ]\n  },\n  {\n    \"generation\": 1,\n    \"best_value\": null,\n    \"best_position\": []\n  }\n]".toList := by
  decide +kernel

example : ∃ (num : Fl ℚ → Option Text) (parse : Text → Option (Fl ℚ)) (numX : ℚ → Option Text) (parseX : Text → Option ℚ) (n : Nat),
    num .nan = none ∧
    readBests parse parseX "generation" (psoJson num numX (Pso.jsonRecords
      (match Pso.run (Pso.generationLimit 3) Pso.demoCoeffs Pso.demoF Pso.demoDraw 4 Pso.demoSwarm () with | .ok r => r.1.2 | .error _ => []))) =
    some ((List.range (n + 1)).map fun k => (k, ifFinite num (Pso.swarmAfter Pso.demoCoeffs Pso.demoF Pso.demoDraw Pso.demoSwarm k).bestValue,
      (Pso.swarmAfter Pso.demoCoeffs Pso.demoF Pso.demoDraw Pso.demoSwarm k).bestPosition.map (ifFinite numX))) := by
  obtain ⟨num, parse, hf, hfin⟩ := jsonFormat_exists (Fl ℚ) (fun x => match x with | .num _ => true | .nan => false)
  obtain ⟨numX, parseX, hx, -⟩ := jsonFormat_exists ℚ (fun _ => true)
  have h := Pso.C48_generation_limit 3 Pso.demoCoeffs Pso.demoF Pso.demoDraw 4 (by decide) Pso.demoSwarm ()
  obtain ⟨n, -, hn⟩ := C170_pso hf hx h
  have h0 := hfin .nan
  refine ⟨num, parse, numX, parseX, n, by simpa using h0, by rw [h]; exact hn⟩

example : ∃ (num : Ext ℚ → Option Text) (parse : Text → Option (Ext ℚ)), JsonFormat num parse ∧
    ∃ r, Ff.run Ff.AQ (Ff.cfgQ 2 3 1) Ff.absQ (Ff.taxi Ff.AQ) Ff.drQ [[.fin 3], [.fin 2], [.fin 1]] = .ok r := by
  obtain ⟨num, parse, hf, -⟩ := jsonFormat_exists (Ext ℚ) (fun x => match x with | .fin _ => true | _ => false)
  exact ⟨num, parse, hf, Ff.exRun_returns⟩

example := C170_aco (A := Aco.Qf) (jsonFormat_exists (Ext ℚ) fun _ => true).choose_spec.choose_spec.1 [(⟨[2, 0, 1], .fin 3⟩, ⟨3, 3, fun _ _ => .fin 1⟩)]
example := C170_lossless natJsonFormat natJsonFormat (l := [(0, 12, [3, 4])]) (l' := [(0, 12, [3, 4])]) (by simp) (by simp) rfl
example := C170_not_finite (num := fun n : Nat => if n ≤ 1 then none else some (natText n)) (fun n : Nat => some (natText n)) 3 [5, 6] (v := 0) (v' := 1) rfl rfl

end Ecrs.Csv
