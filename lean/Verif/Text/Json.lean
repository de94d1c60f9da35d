import Verif.Text.Csv

/-!
# The text of the JSON files

What the JSON probes hand to `serde_json::to_writer_pretty`. Library behaviour (crates `serde`, `serde_json`, its `PrettyFormatter` with the
default indentation of two blanks) written down here: every element of an array and every member of an object goes on a line of its own, indented
by two blanks per level, separated by `,`; the closing bracket goes on a line of its own, unless there are no elements; a member is written
`"key": value`; a struct is written as the object of its fields in the order of declaration (`derive(Serialize)`) or of the calls of
`serialize_field`; a `f64` that is infinite or NaN is written `null`. How a finite `f64` is written is a parameter; integers are written in
decimal. Keys are field names: nothing in them needs escaping, nor in the strings that are written (escaping is not modelled).
-/

namespace Ecrs.Csv
open Ecrs

mutual
/-- What is serialized (serde's data model, as far as the records of the probes need it). -/
inductive Json where
  | null
  | num (digits : Text)
  | str (chars : Text)
  | arr (items : Items)
  | obj (members : Members)
/-- The elements of an array. -/
inductive Items where
  | nil
  | cons (x : Json) (xs : Items)
/-- The members of an object. -/
inductive Members where
  | nil
  | cons (key : Text) (x : Json) (xs : Members)
end

/-- A sequence as serde presents it. -/
def Items.of : List Json → Items
  | [] => .nil
  | x :: xs => .cons x (Items.of xs)

/-- The fields of a struct as serde presents them. -/
def Members.of : List (String × Json) → Members
  | [] => .nil
  | x :: xs => .cons x.1.toList x.2 (Members.of xs)

/-- Two blanks per level (`PrettyFormatter`, library behaviour). -/
def indent (d : Nat) : Text := List.replicate (2 * d) ' '

mutual
/-- A value, nested `d` levels deep, as `to_writer_pretty` writes it (library behaviour). -/
def Json.text (d : Nat) : Json → Text
  | .null => ['n', 'u', 'l', 'l']
  | .num t => t
  | .str t => '"' :: (t ++ ['"'])
  | .arr xs => '[' :: xs.text d true
  | .obj xs => '{' :: xs.text d true
/-- The elements of an array and its closing bracket; `first`: nothing has been written after the opening one. -/
def Items.text (d : Nat) (first : Bool) : Items → Text
  | .nil => if first then [']'] else '\n' :: (indent d ++ [']'])
  | .cons x xs => (if first then ['\n'] else [',', '\n']) ++ (indent (d + 1) ++ (x.text (d + 1) ++ xs.text d false))
/-- The members of an object and its closing brace. -/
def Members.text (d : Nat) (first : Bool) : Members → Text
  | .nil => if first then ['}'] else '\n' :: (indent d ++ ['}'])
  | .cons k x xs => (if first then ['\n'] else [',', '\n']) ++
      (indent (d + 1) ++ ('"' :: (k ++ ('"' :: ':' :: ' ' :: (x.text (d + 1) ++ xs.text d false)))))
end

/-- `serde_json` for a `f64` (library behaviour): `num` gives the digits of a finite one. -/
def floatJson {F : Type} (num : F → Option Text) (x : F) : Json :=
  match num x with
  | some t => .num t
  | none => .null

/-- `serde_json` for a `usize` or `u32`. -/
def natJson (n : Nat) : Json := .num (natText n)

/-- `serde_json` for a `Vec`. -/
def listJson {α : Type} (f : α → Json) (l : List α) : Json := .arr (Items.of (l.map f))

/-- A struct. -/
def structJson (fields : List (String × Json)) : Json := .obj (Members.of fields)

/-- Models `on_end` of the PSO `JsonProbe` (src/pso/probe/json_probe.rs:7-12, 33-41): the text for its list of records. Creating and writing
the file are taken to succeed. -/
def psoJson {V X : Type} (num : V → Option Text) (numX : X → Option Text) (records : List (Nat × V × List X)) : Text :=
  (listJson (fun r : Nat × V × List X => structJson
    [("generation", natJson r.1), ("best_value", floatJson num r.2.1), ("best_position", listJson (floatJson numX) r.2.2)]) records).text 0

/-- Models `on_end` of the firefly `JsonProbe` (src/ff/probe/json_probe.rs:7-12, 57-67). -/
def ffJson {X : Type} (num : X → Option Text) (records : List (Nat × X × List X)) : Text :=
  (listJson (fun r : Nat × X × List X => structJson
    [("iteration", natJson r.1), ("best_value", floatJson num r.2.1), ("best_position", listJson (floatJson num) r.2.2)]) records).text 0

/-- Models `into_vec` (src/aco/probe/json_probe.rs:91-98). -/
def intoVec {X : Type} (m : Aco.Mat X) : List (List X) := (List.range m.rows).map fun i => (List.range m.cols).map (m.get i)

/-- Models `Solution::serialize` (src/aco/solution.rs:37-48). -/
def solJson {X : Type} (num : X → Option Text) (s : Aco.Sol X) : Json :=
  structJson [("path", listJson natJson s.path), ("fitness", floatJson num s.fitness)]

/-- Models `JsonProbe::flush` of the ant colony with `IterationData::serialize` (src/aco/probe/json_probe.rs:29-41, 60-68). -/
def acoJson {X : Type} (num : X → Option Text) (iterations : List (Aco.Mat X × Aco.Sol X)) : Text :=
  (listJson (fun r : Aco.Mat X × Aco.Sol X => structJson
    [("pheromone", listJson (listJson (floatJson num)) (intoVec r.1)), ("solution", solJson num r.2)]) iterations).text 0

end Ecrs.Csv
