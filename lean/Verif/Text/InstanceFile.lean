import Verif.Text.Csv
import Verif.Jssp.Model

/-!
# The text of a job shop instance file

The character level of `JsspInstance::try_from` (examples/jssp/parse.rs:32-90), above the token level of Jssp/Model. Behaviour of `std` written
down here: `str::lines`, `str::split_whitespace`, `str::parse::<usize>`. Not modelled: opening the file and decoding it as UTF-8.
-/

namespace Ecrs.Jssp
open Ecrs Ecrs.Csv

/-- `char::is_whitespace` (Unicode's White_Space, library behaviour). -/
def space (c : Char) : Bool :=
  (9 ≤ c.toNat && c.toNat ≤ 13) || c.toNat == 32 || c.toNat == 0x85 || c.toNat == 0xA0 || c.toNat == 0x1680 ||
    (0x2000 ≤ c.toNat && c.toNat ≤ 0x200A) || c.toNat == 0x2028 || c.toNat == 0x2029 || c.toNat == 0x202F || c.toNat == 0x205F || c.toNat == 0x3000

/-- A carriage return before the line feed is not part of the line (`str::lines`, library behaviour). -/
def dropCr (l : Text) : Text := if l.getLast? = some '\r' then l.dropLast else l

/-- `str::lines` (library behaviour): the parts ended by line feeds, and what comes after the last one unless it is empty. -/
def textLines (t : Text) : List Text :=
  ((t.splitOn '\n').dropLast.map dropCr) ++ ((t.splitOn '\n').getLast?.toList.filter fun l => !l.isEmpty)

/-- `str::split_whitespace` (library behaviour). -/
def words (l : Text) : List Text := (l.splitOnP space).filter fun w => !w.isEmpty

/-- The value of a string of decimal digits. -/
def digitsValue (d : Text) : Nat := d.foldl (fun n c => 10 * n + (c.toNat - '0'.toNat)) 0

/-- `str::parse::<usize>` (library behaviour): an optional `+` and at least one digit; `max` is `usize::MAX`. -/
def parseUsize (max : Nat) (w : Text) : Option Nat :=
  let d := match w with
    | '+' :: d => d
    | d => d
  if d.isEmpty then none
  else if d.all fun c => '0' ≤ c && c ≤ '9' then (if digitsValue d ≤ max then some (digitsValue d) else none)
  else none

/-- `parse::<usize>().unwrap()`. -/
def parseNumber (max : Nat) (w : Text) : Except Panic Nat :=
  match parseUsize max w with
  | some n => .ok n
  | none => .error .libError

/-- Models `JsspInstance::try_from` (examples/jssp/parse.rs:32-90) on the text of the file. Simplification: all words are parsed before the
checks of `parse` (number of words of the first line, odd number of words), so where several panics are possible another one of them may be
reported. -/
def parseText (max : Nat) (t : Text) : Except Panic Instance := do
  let rows ← (textLines t).mapM fun l => (words l).mapM (parseNumber max)
  parse rows

end Ecrs.Jssp
