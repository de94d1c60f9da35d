import Mathlib.Data.Nat.Digits.Defs
import Verif.Aco.Aco
import Verif.Pso.Pso
import Verif.Ff.Ff

/-!
# The text of the CSV files

`write_cities_csv` (src/aco/tsp/util.rs:56-65) and what the CSV probes hand to `csv::Writer`. Library behaviour (crate `csv`, default
`WriterBuilder`) written down here: fields are separated by `,`, a record ends with `\n`, a field is enclosed in quotes (quotes in it doubled)
only if it contains `,`, `"`, `\n` or `\r` or is empty; `serialize` of a struct writes its field names as a first record before the first
record and only then. How a `f64` is written is a parameter; integers are written in decimal.
-/

namespace Ecrs.Csv
open Ecrs

abbrev Text := List Char

/-- The characters that make `csv::Writer` quote a field. -/
def special (c : Char) : Bool := c == ',' || c == '"' || c == '\n' || c == '\r'

/-- A field as `csv::Writer` writes it (library behaviour; empty fields: quoted only if alone in their record, here always – there are none). -/
def field (t : Text) : Text :=
  if t.isEmpty || t.any special then '"' :: (t.flatMap fun c => if c == '"' then ['"', '"'] else [c]) ++ ['"'] else t

/-- `wtr.write_record` (library behaviour). -/
def record (fields : List Text) : Text := List.intercalate [','] (fields.map field) ++ ['\n']

/-- `wtr.serialize` of one struct after the other (library behaviour): the header is written with the first of them. -/
def serialized (header : List Text) (rows : List (List Text)) : Text :=
  if rows.isEmpty then [] else record header ++ rows.flatMap record

/-- A natural number in decimal. -/
def natText (n : Nat) : Text := if n = 0 then ['0'] else ((Nat.digits 10 n).map Nat.digitChar).reverse

/-- Models `write_cities_csv` (src/aco/tsp/util.rs:56-65): the text of the file. Opening and writing the file are taken to succeed. -/
def citiesFile {F : Type} (num : F → Text) (cities : List (F × F)) : Text :=
  record [['x'], ['y']] ++ cities.flatMap fun c => record [num c.1, num c.2]

/-- Models `on_end` of the PSO `CsvProbe` (src/pso/probe/csv_probe.rs:5-9, 30-40): the text for its list of records. -/
def psoFile {F : Type} (num : F → Text) (records : List (Nat × F)) : Text :=
  serialized ["generation".toList, "best_value".toList] (records.map fun r => [natText r.1, num r.2])

/-- Models `on_end` of the firefly `CsvProbe` (src/ff/probe/csv_probe.rs:4-8, 51-63). -/
def ffFile {F : Type} (num : F → Text) (records : List (Nat × F)) : Text :=
  serialized ["iteration".toList, "best_value".toList] (records.map fun r => [natText r.1, num r.2])

/-- Models the first half of `CsvProbe::flush` (src/aco/probe/csv_probe.rs:8-14, 45-52): best.csv. -/
def bestFile (lines : List (Nat × Nat × Nat)) : Text :=
  serialized ["from".toList, "to".toList, "iter".toList] (lines.map fun l => [natText l.1, natText l.2.1, natText l.2.2])

/-- Models the second half (src/aco/probe/csv_probe.rs:16-23, 54-59): pheromone.csv. -/
def pheromoneFile {X : Type} (num : X → Text) (lines : List (Aco.PherRecord X)) : Text :=
  serialized ["from".toList, "to".toList, "iter".toList, "val".toList]
    (lines.map fun l => [natText l.src, natText l.dst, natText l.iter, num l.val])

end Ecrs.Csv
