import Verif.Jssp.Model

/-!
# Specification vocabulary for the job shop example

Jobs as lists of (machine, duration), instance files, start times, feasibility.  Independent of the model, except that
`Jobs.number` says under which id an operation is known.
-/

namespace Ecrs.Jssp
open Ecrs

/-- The jobs of an instance: each a list of (machine, duration). -/
abbrev Jobs := List (List (Nat × Nat))

/-- Operation `k` of job `j`. -/
def Jobs.op? (jobs : Jobs) (j k : Nat) : Option (Nat × Nat) := jobs[j]?.bind (·[k]?)

/-- The number of operations. -/
def Jobs.total (jobs : Jobs) : Nat := jobs.flatten.length

/-- The number under which operation `k` of job `j` is known: operations are numbered consecutively from 1. -/
def Jobs.number (jobs : Jobs) (j k : Nat) : Nat := (jobs.take j).flatten.length + k + 1

/-- Start times respect the order within the jobs, and a machine works on one operation at a time. -/
structure Feasible (jobs : Jobs) (start : Nat → Nat → Nat) : Prop where
  order : ∀ j k m d m' d', jobs.op? j k = some (m, d) → jobs.op? j (k + 1) = some (m', d') →
    start j k + d ≤ start j (k + 1)
  exclusive : ∀ j k j' k' m d d', jobs.op? j k = some (m, d) → jobs.op? j' k' = some (m, d') → (j, k) ≠ (j', k') →
    start j k + d ≤ start j' k' ∨ start j' k' + d' ≤ start j k

/-- The last operation ends at `t`. -/
def EndsAt (jobs : Jobs) (start : Nat → Nat → Nat) (t : Nat) : Prop :=
  (∀ j k m d, jobs.op? j k = some (m, d) → start j k + d ≤ t) ∧ ∃ j k m d, jobs.op? j k = some (m, d) ∧ start j k + d = t

/-- The lines of the instance file: a header and one line of `machine duration` pairs per job. -/
def Jobs.file (jobs : Jobs) (nMachines : Nat) : List (List Nat) :=
  [jobs.length, nMachines] :: jobs.map fun job => job.flatMap fun md => [md.1, md.2]

/-- A well-formed instance: there is a job, every job has an operation, machines are numbered below `nMachines`. -/
structure Jobs.Proper (jobs : Jobs) (nMachines : Nat) : Prop where
  some_job : jobs ≠ []
  some_op : ∀ job ∈ jobs, job ≠ []
  machine : ∀ job ∈ jobs, ∀ md ∈ job, md.1 < nMachines

/-- Consecutive operations of a job are on different machines. -/
def Jobs.Alternates (jobs : Jobs) : Prop :=
  ∀ j k m d m' d', jobs.op? j k = some (m, d) → jobs.op? j (k + 1) = some (m', d') → m ≠ m'

/-- Every operation takes time. -/
def Jobs.Positive (jobs : Jobs) : Prop := ∀ j k m d, jobs.op? j k = some (m, d) → 0 < d

end Ecrs.Jssp
