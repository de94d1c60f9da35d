import Verif.Props.JsspLocalOpt
import Verif.Props.JsspRun
import Mathlib.Data.Finset.Card
import Mathlib.Data.Fintype.EquivFin

/-!
# C150: schedules that no chromosome of the job shop example reaches

Delays are at most one and a half times the longest duration, so an operation whose job gets to it later than that waits until
the first operations of all jobs have been scheduled.  There are instances whose optimal schedules need the opposite.
-/

set_option linter.unusedSectionVars false
set_option linter.unusedVariables false

namespace Ecrs.Jssp
open Ecrs

section
variable {X : Type} {E : EvalOps X}

/-- No delay exceeds one and a half times the longest duration: an operation that is not late at time `t` ends by then plus this. -/
def Delays (E : EvalOps X) (ch : List X) : Prop :=
  ∀ x ∈ ch, ∀ longest a t : Nat, E.late (some a) (some t) (E.delay x longest) = false → 2 * a ≤ 2 * t + 3 * longest

/-- Once the clock has moved, all first operations are scheduled. -/
theorem firsts_done {jobs : Jobs} {ch : List X} {longest : Nat} {start : Nat → Nat → Nat} {steps : List ((Nat × Nat) × Nat)}
    (hs : ∀ done o t rest, steps = done ++ (o, t) :: rest →
      DecodeStep jobs E ch longest start (done.map Prod.fst) (clockAfter done) t o) :
    ∀ (done : List ((Nat × Nat) × Nat)) (rest), steps = done ++ rest → 0 < clockAfter done →
      ∀ j md, jobs.op? j 0 = some md → (j, 0) ∈ done.map Prod.fst := by
  intro done
  induction done using List.reverseRecOn with
  | nil => intro rest _ h0; exact absurd h0 (by simp [clockAfter])
  | append_singleton done p ih =>
    obtain ⟨o, t⟩ := p
    intro rest he h0 j md hj
    have hc : clockAfter (done ++ [(o, t)]) = t := by simp [clockAfter]
    rw [hc] at h0
    have he' : steps = done ++ (o, t) :: rest := by rw [he]; simp
    obtain ⟨x, -, -, -, hno⟩ := (hs done o t rest he').choice
    rw [List.map_append, List.mem_append]
    left
    rcases (hs done o t rest he').clock with h1 | ⟨h1, -⟩
    · exact ih _ he' (by omega) j md hj
    · by_contra hc
      exact hno _ (.inl rfl) h1 (j, 0) ⟨⟨md, hj⟩, hc, fun k m dur hk => by simp at hk⟩

theorem firsts_before {jobs : Jobs} {ch : List X} (hB : Delays E ch) {longest : Nat} {start : Nat → Nat → Nat}
    {steps : List ((Nat × Nat) × Nat)} (hs : ∀ done o t rest, steps = done ++ (o, t) :: rest →
      DecodeStep jobs E ch longest start (done.map Prod.fst) (clockAfter done) t o) {done : List ((Nat × Nat) × Nat)} {j k t : Nat} {rest}
    (he : steps = done ++ ((j, k + 1), t) :: rest) {m d : Nat} (hop : jobs.op? j k = some (m, d))
    (hlate : 3 * longest < 2 * (start j k + d)) {j' : Nat} {md : Nat × Nat} (hj' : jobs.op? j' 0 = some md) :
    (j', 0) ∈ done.map Prod.fst := by
  have hst := hs done _ t rest he
  obtain ⟨x, hx, hpl, -, hno⟩ := hst.choice
  obtain ⟨-, hp2⟩ := hpl.pred k m d rfl hop
  have : 2 * (start j k + d) ≤ _ := hB x (List.mem_of_getElem? hx) longest _ _ hp2
  have h0 : 0 < t := by omega
  rcases hst.clock with h1 | ⟨h1, -⟩
  · exact firsts_done hs done _ he (by omega) j' md hj'
  · by_contra hc
    exact hno _ (.inl rfl) h1 (j', 0) ⟨⟨md, hj'⟩, hc, fun k m dur hk => by simp at hk⟩

/-- **C150, the rule.** However the chromosome is chosen, the decoder schedules an operation whose predecessor ends later than one
and a half times the longest duration only after the first operations of all jobs. -/
theorem C150_first_operations_first {jobs : Jobs} {nM : Nat} (h : jobs.Proper nM) {ops : List Operation}
    (ho : load (jobs.file nM) = .ok (ops, nM)) (worst : Nat) {ch : List X} (hch : ch.length = 2 * jobs.total) (hE : E.Sane ch)
    (hO : E.Ordered ch) (hB : Delays E ch) :
    ∃ (s : Sched) (start : Nat → Nat → Nat) (longest : Nat) (order : List (Nat × Nat)),
      (∃ F, ∀ fuel, F ≤ fuel → schedule E fuel (freshIndividual ops nM worst ch) = .ok s) ∧
      (∀ j k m d, jobs.op? j k = some (m, d) → (s.ops.get (jobs.number j k)).finishTime = some (start j k + d)) ∧
      Longest jobs longest ∧
      (order.map fun o => jobs.number o.1 o.2).foldlM scheduleOp (initialSched (freshIndividual ops nM worst ch)) = .ok s ∧
      ∀ j k m d before after, jobs.op? j k = some (m, d) → 3 * longest < 2 * (start j k + d) →
        order = before ++ (j, k + 1) :: after → ∀ j' md, jobs.op? j' 0 = some md → (j', 0) ∈ before := by
  obtain ⟨s, start, longest, steps, h1, h2, h3, h4, h5, h6, h7⟩ := decoding_core h ho worst hch hE hO
  refine ⟨s, start, longest, steps.map Prod.fst, h1, h2, h3, h7, ?_⟩
  intro j k m d before after hop hlate hsp j' md hj'
  obtain ⟨done, cb, e1, rfl, hcb⟩ := List.map_eq_append_iff.1 hsp
  obtain ⟨⟨o, t⟩, rest, rfl, hvt, -⟩ := List.map_eq_cons_iff.1 hcb
  obtain rfl : o = (j, k + 1) := hvt
  exact firsts_before hB h6 e1 hop hlate hj'

end

/-! ## An instance -/

/-- `n` jobs of one operation on machine `b`, and a job whose third operation is on machine `b`, the others alternating between the
machines `b + 1` and `b + 2`.  All operations take one unit of time. -/
def half (n b : Nat) : Jobs :=
  List.replicate n [(b, 1)] ++ [(List.range (n + 3)).map fun k => (if k = 2 then b else b + 1 + k % 2, 1)]

/-- Two of these, on different machines. -/
def stubborn (n : Nat) : Jobs := half n 0 ++ half n 3

/-- The machine of operation `k` of the long job of half `c`. -/
def machineOf (c k : Nat) : Nat := if k = 2 then 3 * c else 3 * c + 1 + k % 2

theorem half_get (n b j k : Nat) (md : Nat × Nat) : ((half n b)[j]?.bind (·[k]?)) = some md ↔
    (j < n ∧ k = 0 ∧ md = (b, 1)) ∨ (j = n ∧ k < n + 3 ∧ md = (if k = 2 then b else b + 1 + k % 2, 1)) := by
  unfold half
  by_cases hj : j < n
  · rw [List.getElem?_append_left (by simpa using hj), List.getElem?_replicate, if_pos hj]
    cases k with
    | zero =>
      show some (b, 1) = some md ↔ _
      constructor
      · intro h; cases h; exact .inl ⟨hj, rfl, rfl⟩
      · rintro (⟨-, -, rfl⟩ | ⟨h, -⟩)
        · rfl
        · omega
    | succ k =>
      show none = some md ↔ _
      constructor
      · intro h; cases h
      · rintro (⟨-, h, -⟩ | ⟨h, -⟩)
        · omega
        · omega
  · rw [List.getElem?_append_right (by simpa using hj), List.length_replicate]
    by_cases hj' : j = n
    · subst hj'
      rw [Nat.sub_self]
      show ((List.range (j + 3)).map _)[k]? = some md ↔ _
      rw [List.getElem?_map]
      by_cases hk : k < j + 3
      · rw [List.getElem?_range hk]
        constructor
        · intro h; exact .inr ⟨rfl, hk, (Option.some.inj h).symm⟩
        · rintro (⟨h, -⟩ | ⟨-, -, rfl⟩)
          · omega
          · rfl
      · rw [List.getElem?_eq_none (by simpa using hk)]
        constructor
        · intro h; cases h
        · rintro (⟨h, -⟩ | ⟨-, h, -⟩)
          · omega
          · omega
    · have : j - n = (j - n - 1) + 1 := by omega
      rw [this]
      constructor
      · intro h; cases h
      · rintro (⟨h, -⟩ | ⟨h, -⟩)
        · omega
        · omega

theorem half_length (n b : Nat) : (half n b).length = n + 1 := by simp [half]

theorem stubborn_op (n j k m d : Nat) : (stubborn n).op? j k = some (m, d) ↔ d = 1 ∧ ∃ c < 2,
    (∃ i < n, j = c * (n + 1) + i ∧ k = 0 ∧ m = 3 * c) ∨ (j = c * (n + 1) + n ∧ k < n + 3 ∧ m = machineOf c k) := by
  unfold Jobs.op? stubborn machineOf
  by_cases hj : j < n + 1
  · rw [List.getElem?_append_left (by rw [half_length]; exact hj), half_get]
    constructor
    · rintro (⟨h1, h2, h3⟩ | ⟨h1, h2, h3⟩)
      · cases h3; exact ⟨rfl, 0, by omega, .inl ⟨j, h1, by omega, h2, rfl⟩⟩
      · cases h3; exact ⟨rfl, 0, by omega, .inr ⟨by omega, h2, by simp⟩⟩
    · rintro ⟨rfl, c, hc, h1⟩
      have : c = 0 ∨ c = 1 := by omega
      rcases this with rfl | rfl
      · rcases h1 with ⟨i, hi, h1, h2, h3⟩ | ⟨h1, h2, h3⟩
        · left; exact ⟨by omega, h2, by rw [h3]⟩
        · right; exact ⟨by omega, h2, by simp [h3]⟩
      · rcases h1 with ⟨i, hi, h1, h2, h3⟩ | ⟨h1, h2, h3⟩ <;> omega
  · rw [List.getElem?_append_right (by rw [half_length]; omega), half_length, half_get]
    constructor
    · rintro (⟨h1, h2, h3⟩ | ⟨h1, h2, h3⟩)
      · cases h3; exact ⟨rfl, 1, by omega, .inl ⟨j - (n + 1), h1, by omega, h2, rfl⟩⟩
      · cases h3; exact ⟨rfl, 1, by omega, .inr ⟨by omega, h2, by simp⟩⟩
    · rintro ⟨rfl, c, hc, h1⟩
      have : c = 0 ∨ c = 1 := by omega
      rcases this with rfl | rfl
      · rcases h1 with ⟨i, hi, h1, h2, h3⟩ | ⟨h1, h2, h3⟩ <;> omega
      · rcases h1 with ⟨i, hi, h1, h2, h3⟩ | ⟨h1, h2, h3⟩
        · left; exact ⟨by omega, h2, by rw [h3]⟩
        · right; exact ⟨by omega, h2, by rw [h3]⟩

/-- The single operation of short job `i` of half `c`. -/
def shortOp (n c i : Nat) : Nat × Nat := (c * (n + 1) + i, 0)

/-- Operation `k` of the long job of half `c`. -/
def longOp (n c k : Nat) : Nat × Nat := (c * (n + 1) + n, k)

theorem short_op {n c i : Nat} (hc : c < 2) (hi : i < n) : (stubborn n).op? (shortOp n c i).1 (shortOp n c i).2 = some (3 * c, 1) :=
  (stubborn_op ..).2 ⟨rfl, c, hc, .inl ⟨i, hi, rfl, rfl, rfl⟩⟩

theorem long_op {n c k : Nat} (hc : c < 2) (hk : k < n + 3) : (stubborn n).op? (longOp n c k).1 (longOp n c k).2 = some (machineOf c k, 1) :=
  (stubborn_op ..).2 ⟨rfl, c, hc, .inr ⟨rfl, hk, rfl⟩⟩

theorem stubborn_cases {n : Nat} {a : Nat × Nat} {m d : Nat} (h : (stubborn n).op? a.1 a.2 = some (m, d)) : d = 1 ∧ ∃ c < 2,
    (∃ i < n, a = shortOp n c i ∧ m = 3 * c) ∨ ∃ k < n + 3, a = longOp n c k ∧ m = machineOf c k := by
  obtain ⟨h1, c, hc, ⟨i, hi, h2, h3, h4⟩ | ⟨h2, h3, h4⟩⟩ := (stubborn_op ..).1 h
  · exact ⟨h1, c, hc, .inl ⟨i, hi, Prod.ext h2 h3, h4⟩⟩
  · exact ⟨h1, c, hc, .inr ⟨a.2, h3, Prod.ext h2 rfl, h4⟩⟩

theorem machineOf_half {c k c' k' : Nat} (h : machineOf c k = machineOf c' k') : c = c' ∧ (k = 2 ↔ k' = 2) := by
  unfold machineOf at h
  have := Nat.mod_lt k (show 0 < 2 by omega)
  have := Nat.mod_lt k' (show 0 < 2 by omega)
  split at h <;> split at h <;> constructor <;> omega

theorem machineOf_two {c c' k : Nat} (h : machineOf c k = 3 * c') : c = c' ∧ k = 2 := by
  unfold machineOf at h
  have := Nat.mod_lt k (show 0 < 2 by omega)
  split at h
  · exact ⟨by omega, by assumption⟩
  · omega

theorem machineOf_le {c k : Nat} (hc : c < 2) : machineOf c k < 6 := by
  unfold machineOf
  have := Nat.mod_lt k (show 0 < 2 by omega)
  split <;> omega

theorem stubborn_proper (n : Nat) : (stubborn n).Proper 6 := by
  have hlen : (stubborn n).length = 2 * n + 2 := by simp [stubborn, half_length]; omega
  refine ⟨fun hc => by rw [hc] at hlen; simp at hlen, ?_, ?_⟩
  · intro job hj
    simp only [stubborn, half, List.mem_append, List.mem_replicate, List.mem_singleton] at hj
    rcases hj with ((⟨-, rfl⟩ | rfl) | (⟨-, rfl⟩ | rfl)) <;> simp
  · intro job hj md hmd
    obtain ⟨j, hj⟩ := List.mem_iff_getElem?.1 hj
    obtain ⟨k, hk⟩ := List.mem_iff_getElem?.1 hmd
    have : (stubborn n).op? j k = some (md.1, md.2) := by unfold Jobs.op?; rw [hj]; exact hk
    obtain ⟨-, c, hc, ⟨i, hi, -, -, h⟩ | ⟨-, -, h⟩⟩ := (stubborn_op ..).1 this
    · omega
    · rw [h]; exact machineOf_le hc

theorem stubborn_alternates (n : Nat) : (stubborn n).Alternates := by
  intro j k m d m' d' h h'
  obtain ⟨-, c, hc, h1⟩ := (stubborn_op ..).1 h
  obtain ⟨-, c', hc', ⟨i', hi', h2, h3, -⟩ | ⟨h2, h3, h4⟩⟩ := (stubborn_op ..).1 h'
  · omega
  · rcases h1 with ⟨i, hi, e1, e2, e3⟩ | ⟨e1, e2, e3⟩
    · have : c = 0 ∨ c = 1 := by omega
      have : c' = 0 ∨ c' = 1 := by omega
      rcases this with rfl | rfl <;> rcases ‹c = 0 ∨ c = 1› with rfl | rfl <;> omega
    · have : c = 0 ∨ c = 1 := by omega
      have : c' = 0 ∨ c' = 1 := by omega
      have hcc : c = c' := by rcases this with rfl | rfl <;> rcases ‹c = 0 ∨ c = 1› with rfl | rfl <;> omega
      subst hcc
      rw [e3, h4]
      unfold machineOf
      split <;> split <;> omega

theorem stubborn_positive (n : Nat) : (stubborn n).Positive := by
  intro j k m d h
  have := ((stubborn_op ..).1 h).1
  omega

/-! ## The optimum -/

/-- Start times of an optimal schedule: the long jobs are never interrupted. -/
def bestStart (n j k : Nat) : Nat :=
  if j = n ∨ j = 2 * n + 1 then k else (fun i => if i < 2 then i else i + 1) (if j < n then j else j - (n + 1))

theorem bestStart_long {n c k : Nat} (hc : c < 2) : bestStart n (longOp n c k).1 (longOp n c k).2 = k := by
  have : c = 0 ∨ c = 1 := by omega
  unfold bestStart longOp
  rw [if_pos]
  rcases this with rfl | rfl
  · left; simp
  · right; omega

theorem bestStart_short {n c i : Nat} (hc : c < 2) (hi : i < n) :
    bestStart n (shortOp n c i).1 (shortOp n c i).2 = if i < 2 then i else i + 1 := by
  have : c = 0 ∨ c = 1 := by omega
  unfold bestStart shortOp
  rcases this with rfl | rfl
  · rw [if_neg (by omega)]
    simp only [Nat.zero_mul, Nat.zero_add]
    rw [if_pos hi]
  · rw [if_neg (by omega)]
    simp only [Nat.one_mul]
    have e : (if n + 1 + i < n then n + 1 + i else n + 1 + i - (n + 1)) = i := by rw [if_neg (by omega)]; omega
    rw [e]

theorem shortOp_inj {n c i c' i' : Nat} (hi : i < n) (hi' : i' < n) (hc : c < 2) (hc' : c' < 2) (h : shortOp n c i = shortOp n c' i') :
    c = c' ∧ i = i' := by
  have h := congrArg Prod.fst h
  have h : c * (n + 1) + i = c' * (n + 1) + i' := h
  have : c = 0 ∨ c = 1 := by omega
  have : c' = 0 ∨ c' = 1 := by omega
  rcases this with rfl | rfl <;> rcases ‹c = 0 ∨ c = 1› with rfl | rfl <;> omega

/-- The instance has a schedule of length `n + 3`, and none is shorter. -/
theorem stubborn_optimum (n : Nat) :
    Makespan (stubborn n) (n + 3) ∧ ∀ t, Makespan (stubborn n) t → n + 3 ≤ t := by
  refine ⟨⟨bestStart n, ⟨?_, ?_⟩, ?_, ?_⟩, ?_⟩
  · intro j k m d m' d' h h'
    obtain ⟨rfl, c, hc, ⟨i, hi, e1, -⟩ | ⟨k1, hk1, e1, -⟩⟩ := stubborn_cases (a := (j, k)) h
    · obtain ⟨-, c', hc', ⟨i', hi', e2, -⟩ | ⟨k2, hk2, e2, -⟩⟩ := stubborn_cases (a := (j, k + 1)) h'
      · have := congrArg Prod.snd e2; simp [shortOp] at this
      · have a1 := congrArg Prod.fst e1
        have a2 := congrArg Prod.fst e2
        have a3 : c * (n + 1) + i = c' * (n + 1) + n := a1.symm.trans a2
        have : c = 0 ∨ c = 1 := by omega
        have : c' = 0 ∨ c' = 1 := by omega
        rcases this with rfl | rfl <;> rcases ‹c = 0 ∨ c = 1› with rfl | rfl <;> omega
    · have a1 : j = (longOp n c k).1 := congrArg Prod.fst e1
      have b1 : bestStart n j k = k := by rw [a1]; exact bestStart_long (k := k) hc
      have b2 : bestStart n j (k + 1) = k + 1 := by rw [a1]; exact bestStart_long (k := k + 1) hc
      omega
  · intro j k j' k' m d d' h h' hne
    obtain ⟨rfl, c, hc, h1⟩ := stubborn_cases (a := (j, k)) h
    obtain ⟨rfl, c', hc', h2⟩ := stubborn_cases (a := (j', k')) h'
    rcases h1 with ⟨i, hi, e1, m1⟩ | ⟨k1, hk1, e1, m1⟩ <;> rcases h2 with ⟨i', hi', e2, m2⟩ | ⟨k2, hk2, e2, m2⟩
    · obtain rfl : c = c' := by omega
      have b1 := bestStart_short hc hi
      have b2 := bestStart_short hc hi'
      rw [← e1] at b1
      rw [← e2] at b2
      have : i ≠ i' := by rintro rfl; exact hne (e1.trans e2.symm)
      have b1 : bestStart n j k = _ := b1
      have b2 : bestStart n j' k' = _ := b2
      rw [b1, b2]
      split <;> split <;> omega
    · obtain ⟨rfl, rfl⟩ := machineOf_two (m2.symm.trans m1)
      have b1 := bestStart_short hc hi
      have b2 := bestStart_long (n := n) (k := 2) hc
      rw [← e1] at b1
      rw [← e2] at b2
      have b1 : bestStart n j k = _ := b1
      have b2 : bestStart n j' k' = _ := b2
      rw [b1, b2]
      split <;> omega
    · obtain ⟨rfl, rfl⟩ := machineOf_two (m1.symm.trans m2)
      have b1 := bestStart_short hc' hi'
      have b2 := bestStart_long (n := n) (k := 2) hc'
      rw [← e2] at b1
      rw [← e1] at b2
      have b1 : bestStart n j' k' = _ := b1
      have b2 : bestStart n j k = _ := b2
      rw [b1, b2]
      split <;> omega
    · obtain ⟨rfl, -⟩ := machineOf_half (m1.symm.trans m2)
      have b1 := bestStart_long (n := n) (k := k1) hc
      have b2 := bestStart_long (n := n) (k := k2) hc
      rw [← e1] at b1
      rw [← e2] at b2
      have b1 : bestStart n j k = _ := b1
      have b2 : bestStart n j' k' = _ := b2
      have : k1 ≠ k2 := by rintro rfl; exact hne (e1.trans e2.symm)
      omega
  · intro j k m d h
    obtain ⟨rfl, c, hc, ⟨i, hi, e1, -⟩ | ⟨k1, hk1, e1, -⟩⟩ := stubborn_cases (a := (j, k)) h
    · have b1 := bestStart_short hc hi
      rw [← e1] at b1
      have b1 : bestStart n j k = _ := b1
      rw [b1]; split <;> omega
    · have b1 := bestStart_long (n := n) (k := k1) hc
      rw [← e1] at b1
      have b1 : bestStart n j k = _ := b1
      omega
  · refine ⟨_, _, _, _, long_op (n := n) (c := 0) (k := n + 2) (by omega) (by omega), ?_⟩
    rw [bestStart_long (by omega)]
  · rintro t ⟨start, h1, h2⟩
    have : ∀ k, k < n + 3 → k ≤ start (longOp n 0 k).1 (longOp n 0 k).2 := by
      intro k
      induction k with
      | zero => omega
      | succ k ih =>
        intro hk
        have := h1.order _ _ _ _ _ _ (long_op (n := n) (c := 0) (k := k) (by omega) (by omega)) (long_op (n := n) (c := 0) (k := k + 1) (by omega) hk)
        have h3 := ih (by omega)
        have h4 : start (longOp n 0 k).1 (longOp n 0 k).2 + 1 ≤ start (longOp n 0 (k + 1)).1 (longOp n 0 (k + 1)).2 := this
        omega
    have h3 := this (n + 2) (by omega)
    have h4 := h2.1 _ _ _ _ (long_op (n := n) (c := 0) (k := n + 2) (by omega) (by omega))
    omega

/-! ## Every chromosome -/

/-- In half `c` of the instance the machine order puts all short jobs before the long one. -/
def ShortFirst (n : Nat) (pos : Nat × Nat → Nat) (c : Nat) : Prop := ∀ i < n, pos (shortOp n c i) < pos (longOp n c 2)

theorem ends_of_third {n c l : Nat} (hc : c < 2) {start : Nat → Nat → Nat} {t : Nat}
    (ho : ∀ j k m d m' d', (stubborn n).op? j k = some (m, d) → (stubborn n).op? j (k + 1) = some (m', d') →
      start j k + d ≤ start j (k + 1)) (he : EndsAt (stubborn n) start t)
    (h : l ≤ start (longOp n c 2).1 (longOp n c 2).2) : l + n + 1 ≤ t := by
  have : ∀ k, k ≤ n → l + k ≤ start (longOp n c (k + 2)).1 (longOp n c (k + 2)).2 := by
    intro k
    induction k with
    | zero => intro _; exact h
    | succ k ih =>
      intro hk
      have h3 := ih (by omega)
      have h4 : start (longOp n c (k + 2)).1 (longOp n c (k + 2)).2 + 1 ≤ start (longOp n c (k + 3)).1 (longOp n c (k + 3)).2 :=
        ho _ _ _ _ _ _ (long_op (n := n) hc (by omega)) (long_op (n := n) (k := k + 2 + 1) hc (by omega))
      show l + (k + 1) ≤ start (longOp n c (k + 3)).1 (longOp n c (k + 3)).2
      omega
  have h3 := this n (Nat.le_refl _)
  have h4 := he.1 _ _ _ _ (long_op (n := n) (c := c) (k := n + 2) hc (by omega))
  omega

theorem order_lower {n c : Nat} (hc : c < 2) {pos : Nat × Nat → Nat}
    (hinj : ∀ i < n, ∀ i' < n, pos (shortOp n c i) = pos (shortOp n c i') → i = i')
    (hf : ShortFirst n pos c) {start : Nat → Nat → Nat} {t : Nat} (h1 : Follows (stubborn n) pos start)
    (h2 : EndsAt (stubborn n) start t) : 2 * n + 1 ≤ t := by
  have key : n ≤ start (longOp n c 2).1 (longOp n c 2).2 := by
    have hmaps : ∀ i ∈ Finset.range n, start (shortOp n c i).1 (shortOp n c i).2 ∈ Finset.range (start (longOp n c 2).1 (longOp n c 2).2) := by
      intro i hi
      rw [Finset.mem_range] at hi ⊢
      have := h1.machine _ _ _ _ _ (short_op hc hi) (long_op (k := 2) hc (by omega)) (hf i hi)
      omega
    have hinj' : Set.InjOn (fun i => start (shortOp n c i).1 (shortOp n c i).2) (Finset.range n : Set Nat) := by
      intro i hi i' hi' he
      rw [Finset.coe_range, Set.mem_Iio] at hi hi'
      by_contra hne
      have hp : pos (shortOp n c i) ≠ pos (shortOp n c i') := fun hc' => hne (hinj i hi i' hi' hc')
      have he : start (shortOp n c i).1 (shortOp n c i).2 = start (shortOp n c i').1 (shortOp n c i').2 := he
      rcases Nat.lt_or_gt_of_ne hp with hlt | hlt
      · have := h1.machine _ _ _ _ _ (short_op hc hi) (short_op hc hi') hlt; omega
      · have := h1.machine _ _ _ _ _ (short_op hc hi') (short_op hc hi) hlt; omega
    have := Finset.card_le_card_of_injOn _ hmaps hinj'
    simpa using this
  have := ends_of_third hc h1.job h2 key
  omega

/-- What the order of decoding says about the machine order. -/
structure Tidy (n : Nat) (pos : Nat × Nat → Nat) : Prop where
  order : MachineOrder (stubborn n) pos
  short : ∀ c < 2, ShortFirst n pos c
  long : ∀ c < 2, ∀ k k', k < k' → k' < n + 3 → machineOf c k = machineOf c k' → pos (longOp n c k) < pos (longOp n c k')

theorem Tidy.inj {n : Nat} {pos : Nat × Nat → Nat} (h : Tidy n pos) {c : Nat} (hc : c < 2) :
    ∀ i < n, ∀ i' < n, pos (shortOp n c i) = pos (shortOp n c i') → i = i' := fun i hi i' hi' he =>
  (shortOp_inj hi hi' hc hc (h.order.inj _ _ _ _ _ (short_op hc hi) (short_op hc hi') he)).2

theorem Tidy.short_lt {n : Nat} {pos : Nat × Nat → Nat} (h : Tidy n pos) {c : Nat} (hc : c < 2) {i : Nat} (hi : i < n) :
    pos (shortOp n c i) < n := by
  have down : ∀ q, q ≤ pos (shortOp n c i) → ∃ i' < n, pos (shortOp n c i') = q := by
    intro q hq
    obtain ⟨e, he⟩ := Nat.exists_eq_add_of_le hq
    induction e generalizing q with
    | zero => exact ⟨i, hi, by omega⟩
    | succ e ih =>
      obtain ⟨i', hi', he'⟩ := ih (q + 1) (by omega) (by omega)
      obtain ⟨b, d', hb, hq'⟩ := h.order.dense _ _ _ q (short_op hc hi') he'
      obtain ⟨-, c', hc', ⟨i'', hi'', rfl, hm⟩ | ⟨k, hk, rfl, hm⟩⟩ := stubborn_cases hb
      · obtain rfl : c = c' := by omega
        exact ⟨i'', hi'', hq'⟩
      · obtain ⟨rfl, rfl⟩ := machineOf_two hm.symm
        have := h.short _ hc' i hi
        omega
  choose f hf using down
  by_contra hlt
  have hmaps : ∀ q ∈ Finset.range (n + 1), (fun q => if hq : q ≤ pos (shortOp n c i) then f q hq else 0) q ∈ Finset.range n := by
    intro q hq
    rw [Finset.mem_range] at hq ⊢
    have hq' : q ≤ pos (shortOp n c i) := by omega
    simp only [dif_pos hq']
    exact (hf q hq').1
  have := Finset.card_le_card_of_injOn _ hmaps (by
    intro q hq q' hq' he
    rw [Finset.coe_range, Set.mem_Iio] at hq hq'
    have h1 : q ≤ pos (shortOp n c i) := by omega
    have h2 : q' ≤ pos (shortOp n c i) := by omega
    simp only [dif_pos h1, dif_pos h2] at he
    rw [← (hf q h1).2, ← (hf q' h2).2, he])
  simp at this

/-- The shortest schedule for a tidy order. -/
theorem Tidy.shortest {n : Nat} (hn : 2 ≤ n) {pos : Nat × Nat → Nat} (h : Tidy n pos) {l : Nat} (hl : Shortest (stubborn n) pos l) :
    l = 2 * n + 1 := by
  obtain ⟨⟨start, h1, h2⟩, h3⟩ := hl
  have lower := order_lower (c := 0) (by omega) (h.inj (by omega)) (h.short 0 (by omega)) h1 h2
  let st : Nat → Nat → Nat := fun j k => if j = n ∨ j = 2 * n + 1 then (if k < 2 then k else n + k - 2) else pos (j, k)
  have st_long : ∀ c < 2, ∀ k, st (longOp n c k).1 (longOp n c k).2 = if k < 2 then k else n + k - 2 := by
    intro c hc k
    have : (longOp n c k).1 = n ∨ (longOp n c k).1 = 2 * n + 1 := by
      have : c = 0 ∨ c = 1 := by omega
      rcases this with rfl | rfl
      · left; simp [longOp]
      · right; simp [longOp]; omega
    show (if _ then _ else _) = _
    rw [if_pos this]; rfl
  have st_short : ∀ c < 2, ∀ i < n, st (shortOp n c i).1 (shortOp n c i).2 = pos (shortOp n c i) := by
    intro c hc i hi
    have : ¬ ((shortOp n c i).1 = n ∨ (shortOp n c i).1 = 2 * n + 1) := by
      have : c = 0 ∨ c = 1 := by omega
      rcases this with rfl | rfl <;> simp [shortOp] <;> omega
    show (if _ then _ else _) = _
    rw [if_neg this]
  have upper : l ≤ 2 * n + 1 := by
    refine h3 st _ ⟨?_, ?_⟩ ⟨?_, ?_⟩
    · intro j k m d m' d' hop hop'
      obtain ⟨rfl, c, hc, ⟨i, hi, e1, -⟩ | ⟨k1, hk1, e1, -⟩⟩ := stubborn_cases (a := (j, k)) hop
      · obtain ⟨-, c', hc', ⟨i', hi', e2, -⟩ | ⟨k2, hk2, e2, -⟩⟩ := stubborn_cases (a := (j, k + 1)) hop'
        · have := congrArg Prod.snd e2; simp [shortOp] at this
        · have a1 := congrArg Prod.fst e1
          have a2 := congrArg Prod.fst e2
          have a3 : c * (n + 1) + i = c' * (n + 1) + n := a1.symm.trans a2
          have : c = 0 ∨ c = 1 := by omega
          have : c' = 0 ∨ c' = 1 := by omega
          rcases this with rfl | rfl <;> rcases ‹c = 0 ∨ c = 1› with rfl | rfl <;> omega
      · have a1 : j = (longOp n c k).1 := congrArg Prod.fst e1
        have b1 : st (longOp n c k).1 k = _ := st_long c hc k
        have b2 : st (longOp n c k).1 (k + 1) = _ := st_long c hc (k + 1)
        rw [← a1] at b1 b2
        rw [b1, b2]
        split <;> split <;> omega
    · intro a b m d d' ha hb hlt
      obtain ⟨rfl, c, hc, h4⟩ := stubborn_cases ha
      obtain ⟨rfl, c', hc', h5⟩ := stubborn_cases hb
      rcases h4 with ⟨i, hi, rfl, m1⟩ | ⟨k1, hk1, rfl, m1⟩ <;> rcases h5 with ⟨i', hi', rfl, m2⟩ | ⟨k2, hk2, rfl, m2⟩
      · rw [st_short c hc i hi, st_short c' hc' i' hi']; omega
      · obtain ⟨rfl, rfl⟩ := machineOf_two (m2.symm.trans m1)
        rw [st_short _ hc i hi, st_long _ hc' 2]
        have := h.short_lt hc hi
        simp; omega
      · obtain ⟨rfl, rfl⟩ := machineOf_two (m1.symm.trans m2)
        have := h.short _ hc i' hi'
        omega
      · have hm := m1.symm.trans m2
        obtain ⟨rfl, -⟩ := machineOf_half hm
        rw [st_long _ hc k1, st_long _ hc k2]
        have : k1 < k2 := by
          by_contra hge
          rcases Nat.lt_or_eq_of_le (Nat.le_of_not_lt hge) with h6 | rfl
          · have := h.long c hc k2 k1 h6 hk1 hm.symm
            omega
          · omega
        split <;> split <;> omega
    · intro j k m d hop
      obtain ⟨rfl, c, hc, ⟨i, hi, e1, -⟩ | ⟨k1, hk1, e1, -⟩⟩ := stubborn_cases (a := (j, k)) hop
      · have b1 := st_short c hc i hi
        rw [← e1] at b1
        have b1 : st j k = _ := b1
        have := h.short_lt hc hi
        rw [b1, e1]; omega
      · have b1 := st_long c hc k1
        rw [← e1] at b1
        have b1 : st j k = _ := b1
        rw [b1]
        split <;> omega
    · refine ⟨_, _, _, _, long_op (n := n) (c := 0) (k := n + 2) (by omega) (by omega), ?_⟩
      rw [st_long 0 (by omega), if_neg (by omega)]
      omega
  omega

/-- No exchange helps: it leaves one half as it is. -/
theorem Tidy.descent {n : Nat} {pos pos' : Nat × Nat → Nat} (h : Tidy n pos) {l l' : Nat} (hl : l = 2 * n + 1)
    (hd : Descent (stubborn n) pos l pos' l') : l' = 2 * n + 1 := by
  cases hd with
  | stay => exact hl
  | @exchange _ _ a b m d d' pos1 l1 _ _ ha hb hpos hex hsh hlt _ =>
    exfalso
    obtain ⟨⟨start, h1, h2⟩, -⟩ := hsh
    -- the half that does not contain `a` and `b`
    have hm : ∃ ca < 2, ∃ cb < 2, (∀ c < 2, c ≠ ca → ∀ x, (∃ i < n, x = shortOp n c i) ∨ x = longOp n c 2 → x ≠ a) ∧
        (∀ c < 2, c ≠ cb → ∀ x, (∃ i < n, x = shortOp n c i) ∨ x = longOp n c 2 → x ≠ b) ∧ ca = cb := by
      have part : ∀ (y : Nat × Nat) (m d : Nat), (stubborn n).op? y.1 y.2 = some (m, d) → ∃ cy < 2, m / 3 = cy ∧ ∀ c < 2, c ≠ cy → ∀ x,
          (∃ i < n, x = shortOp n c i) ∨ x = longOp n c 2 → x ≠ y := by
        intro y m d hy
        have hdiv : ∀ c k, machineOf c k / 3 = c := by
          intro c k
          unfold machineOf
          have := Nat.mod_lt k (show 0 < 2 by omega)
          split <;> omega
        obtain ⟨-, c, hc, h4⟩ := stubborn_cases hy
        refine ⟨c, hc, ?_, ?_⟩
        · rcases h4 with ⟨i, hi, -, rfl⟩ | ⟨k, hk, -, rfl⟩
          · omega
          · exact hdiv c k
        · rintro c' hc' hne x hx rfl
          have : m = 3 * c' := by
            rcases hx with ⟨i, hi, rfl⟩ | rfl
            · rw [short_op hc' hi] at hy; cases hy; rfl
            · rw [long_op hc' (by omega)] at hy; cases hy; simp [machineOf]
          rcases h4 with ⟨i, hi, -, h5⟩ | ⟨k, hk, -, h5⟩
          · omega
          · have := machineOf_two (h5.symm.trans this); omega
      obtain ⟨ca, hca, e1, q1⟩ := part a m d ha
      obtain ⟨cb, hcb, e2, q2⟩ := part b m d' hb
      exact ⟨ca, hca, cb, hcb, q1, q2, by omega⟩
    obtain ⟨ca, hca, cb, hcb, q1, q2, rfl⟩ := hm
    have hc : 1 - ca < 2 := by omega
    have hne : 1 - ca ≠ ca := by omega
    have keep : ∀ x, (∃ i < n, x = shortOp n (1 - ca) i) ∨ x = longOp n (1 - ca) 2 → pos1 x = pos x := by
      intro x hx
      have hop : ∃ md, (stubborn n).op? x.1 x.2 = some md := by
        rcases hx with ⟨i, hi, rfl⟩ | rfl
        · exact ⟨_, short_op hc hi⟩
        · exact ⟨_, long_op hc (by omega)⟩
      obtain ⟨md, hop⟩ := hop
      rw [hex x md hop]
      unfold exchange
      rw [if_neg (q1 _ hc hne x hx), if_neg (q2 _ hc hne x hx)]
    have := order_lower (c := 1 - ca) hc (pos := pos1) (by
        intro i hi i' hi' he
        rw [keep _ (.inl ⟨i, hi, rfl⟩), keep _ (.inl ⟨i', hi', rfl⟩)] at he
        exact h.inj hc i hi i' hi' he) (by
        intro i hi
        rw [keep _ (.inl ⟨i, hi, rfl⟩), keep _ (.inr rfl)]
        exact h.short _ hc i hi) h1 h2
    omega

section
variable {X : Type} {E : EvalOps X}

/-- Along the order of decoding the positions on a machine increase. -/
theorem order_pos {jobs : Jobs} {s : Sched} {pos : Nat × Nat → Nat} (hH : Holds jobs s.ops pos) {L : List (Nat × Nat)}
    (hL : ∀ o ∈ L, ∃ md, jobs.op? o.1 o.2 = some md)
    (hedge : ∀ j k m d j' k' m' d', jobs.op? j k = some (m, d) → jobs.op? j' k' = some (m', d') →
        ((⟨jobs.number j' k', .machineSucc⟩ : Edge) ∈ (s.ops.get (jobs.number j k)).edgesOut ↔
          m = m' ∧ ∃ a b c, (L.map fun o => jobs.number o.1 o.2) = a ++ jobs.number j k :: b ++ jobs.number j' k' :: c ∧
            ∀ i l mi di, jobs.op? i l = some (mi, di) → jobs.number i l ∈ b → mi ≠ m)) :
    ∀ (len : Nat) (x y z : List (Nat × Nat)) (a b : Nat × Nat) (m d d' : Nat), y.length ≤ len → L = x ++ a :: y ++ b :: z →
      jobs.op? a.1 a.2 = some (m, d) → jobs.op? b.1 b.2 = some (m, d') → pos a < pos b := by
  intro len
  induction len with
  | zero =>
    intro x y z a b m d d' hy hsp ha hb
    obtain rfl : y = [] := List.length_eq_zero_iff.1 (by omega)
    have := (hH a b m d m d' ha hb).1 ((hedge _ _ _ _ _ _ _ _ ha hb).2 ⟨rfl, x.map fun o => jobs.number o.1 o.2, [],
      z.map fun o => jobs.number o.1 o.2, by rw [hsp]; simp, by simp⟩)
    omega
  | succ len ih =>
    intro x y z a b m d d' hy hsp ha hb
    by_cases hc : ∃ c ∈ y, ∃ e, jobs.op? c.1 c.2 = some (m, e)
    · obtain ⟨c, hcy, e, hce⟩ := hc
      obtain ⟨y1, y2, rfl⟩ := List.append_of_mem hcy
      rw [List.length_append, List.length_cons] at hy
      have h1 := ih x y1 (y2 ++ b :: z) a c m d e (by omega) (by rw [hsp]; simp) ha hce
      have h2 := ih (x ++ a :: y1) y2 z c b m e d' (by omega) (by rw [hsp]; simp) hce hb
      omega
    · have := (hH a b m d m d' ha hb).1 ((hedge _ _ _ _ _ _ _ _ ha hb).2 ⟨rfl, x.map fun o => jobs.number o.1 o.2,
        y.map fun o => jobs.number o.1 o.2, z.map fun o => jobs.number o.1 o.2, by rw [hsp]; simp, by
          rintro i l mi di hil hmem rfl
          obtain ⟨c, hcy, he⟩ := List.mem_map.1 hmem
          obtain ⟨md, hcm⟩ := hL c (by rw [hsp]; simp [hcy])
          obtain ⟨e1, e2⟩ := number_inj jobs _ _ _ _ _ _ hcm hil he
          exact hc ⟨c, hcy, di, by rw [e1, e2]; exact hil⟩⟩)
      omega

theorem finish_unique {jobs : Jobs} {s : Sched} {st st' : Nat → Nat → Nat}
    (h1 : ∀ j k m d, jobs.op? j k = some (m, d) → (s.ops.get (jobs.number j k)).finishTime = some (st j k + d))
    (h2 : ∀ j k m d, jobs.op? j k = some (m, d) → (s.ops.get (jobs.number j k)).finishTime = some (st' j k + d))
    {j k m d : Nat} (h : jobs.op? j k = some (m, d)) : st j k = st' j k := by
  have := (h1 j k m d h).symm.trans (h2 j k m d h)
  have := Option.some.inj this
  omega

/-- What the decoder makes of the instance, whatever the chromosome. -/
theorem decode_stubborn {n : Nat} (hn : 2 ≤ n) {ops : List Operation} (ho : load ((stubborn n).file 6) = .ok (ops, 6)) (worst : Nat)
    {ch : List X} (hch : ch.length = 2 * (stubborn n).total) (hE : E.Sane ch) (hO : E.Ordered ch) (hB : Delays E ch) {s : Sched}
    (hs : ∃ F, ∀ fuel, F ≤ fuel → schedule E fuel (freshIndividual ops 6 worst ch) = .ok s) {pos : Nat × Nat → Nat}
    (hpos : MachineOrder (stubborn n) pos) (hH : Holds (stubborn n) s.ops pos) {start : Nat → Nat → Nat}
    (hst : ∀ j k m d, (stubborn n).op? j k = some (m, d) → (s.ops.get ((stubborn n).number j k)).finishTime = some (start j k + d))
    {T : Nat} (hT : EndsAt (stubborn n) start T) : Tidy n pos ∧ 2 * n + 1 ≤ T := by
  have h := stubborn_proper n
  obtain ⟨s1, start1, longest, steps, h1, h2, h3, h4, h5, h6, h7⟩ := decoding_core h ho worst hch hE hO
  obtain ⟨s2, start2, g1, g2, g3, -⟩ := C66_construction_feasible (E := E) h ho worst hch hE
  have uniq : ∀ s', (∃ F, ∀ fuel, F ≤ fuel → schedule E fuel (freshIndividual ops 6 worst ch) = .ok s') → s' = s := by
    rintro s' ⟨F', hF'⟩
    obtain ⟨F, hF⟩ := hs
    have e := hF' (max F F') (by omega)
    rw [hF (max F F') (by omega)] at e
    exact (Except.ok.inj e).symm
  obtain rfl := uniq s1 h1
  obtain rfl := uniq s2 g1
  have hs1 : ∀ {j k m d}, (stubborn n).op? j k = some (m, d) → start1 j k = start j k := fun hop => finish_unique h2 hst hop
  have hs2 : ∀ {j k m d}, (stubborn n).op? j k = some (m, d) → start2 j k = start j k := fun hop => finish_unique g3 hst hop
  obtain ⟨-, -, hedge⟩ := fold_edges h ho worst hch hE hs h7
  have hlong : longest = 1 := by
    obtain ⟨-, j, k, m, e⟩ := h3
    exact ((stubborn_op ..).1 e).1
  subst hlong
  have hLmem : ∀ o, o ∈ steps.map Prod.fst ↔ ∃ md, (stubborn n).op? o.1 o.2 = some md := fun o => h5 o.1 o.2
  have split : ∀ {before after : List (Nat × Nat)} {o : Nat × Nat}, steps.map Prod.fst = before ++ o :: after →
      ∃ done t rest, steps = done ++ (o, t) :: rest ∧ done.map Prod.fst = before := by
    intro before after o hsp
    obtain ⟨done, cb, e1, e2, hcb⟩ := List.map_eq_append_iff.1 hsp
    obtain ⟨⟨o', t⟩, rest, rfl, rfl, -⟩ := List.map_eq_cons_iff.1 hcb
    exact ⟨done, t, rest, e1, e2⟩
  -- the short jobs come before the third operations of the long ones
  have F1 : ∀ c < 2, ∀ before after, steps.map Prod.fst = before ++ longOp n c 2 :: after → ∀ c' < 2, ∀ i < n, shortOp n c' i ∈ before := by
    intro c hc before after hsp c' hc' i hi
    obtain ⟨done, t, rest, e1, rfl⟩ := split hsp
    have o0 := long_op (n := n) (k := 0) hc (by omega)
    have o1 := long_op (n := n) (k := 1) hc (by omega)
    have hfe : start2 (longOp n c 0).1 (longOp n c 0).2 + 1 ≤ start2 (longOp n c 1).1 (longOp n c 1).2 := g2.order _ _ _ _ _ _ o0 o1
    have e2 : start2 (longOp n c 1).1 (longOp n c 1).2 = start1 (longOp n c 1).1 (longOp n c 1).2 := (hs2 o1).trans (hs1 o1).symm
    have e3 : start1 (longOp n c 1).1 (longOp n c 1).2 = start1 (c * (n + 1) + n) 1 := rfl
    exact firsts_before hB h6 (j := c * (n + 1) + n) (k := 1) e1 o1 (by omega) (short_op hc' hi)
  have F2 := order_pos (L := steps.map Prod.fst) hH (fun o ho => (hLmem o).1 ho) hedge
  have F3 : ∀ (k' j : Nat) (before after : List (Nat × Nat)), steps.map Prod.fst = before ++ (j, k') :: after → ∀ k, k < k' →
      (j, k) ∈ before := by
    intro k'
    induction k' with
    | zero => intro j before after _ k hk; omega
    | succ k' ih =>
      intro j before after hsp k hk
      obtain ⟨done, t, rest, e1, rfl⟩ := split hsp
      obtain ⟨x, -, hpl, -⟩ := (h6 _ _ _ _ e1).choice
      obtain ⟨md, hop⟩ := hpl.exists_op
      obtain ⟨⟨m', d'⟩, hop'⟩ := op_prev hop
      have hmem := (hpl.pred k' m' d' rfl hop').1
      have hmem : (j, k') ∈ done.map Prod.fst := hmem
      rcases Nat.lt_or_eq_of_le (Nat.le_of_lt_succ hk) with h8 | rfl
      · obtain ⟨x, y, e2⟩ := List.append_of_mem hmem
        have := ih j x (y ++ (j, k' + 1) :: after) (by rw [hsp, e2]; simp) k h8
        rw [e2]; simp [this]
      · exact hmem
  have tidy : Tidy n pos := by
    refine ⟨hpos, ?_, ?_⟩
    · intro c hc i hi
      obtain ⟨before, after, hsp⟩ := List.append_of_mem ((hLmem (longOp n c 2)).2 ⟨_, long_op hc (by omega)⟩)
      obtain ⟨x, y, e⟩ := List.append_of_mem (F1 c hc before after hsp c hc i hi)
      exact F2 y.length x y after _ _ (3 * c) 1 1 (Nat.le_refl _) (by rw [hsp, e]) (short_op hc hi) (long_op hc (by omega))
    · intro c hc k k' hk hk' hm
      obtain ⟨before, after, hsp⟩ := List.append_of_mem ((hLmem (longOp n c k')).2 ⟨_, long_op hc hk'⟩)
      obtain ⟨x, y, e⟩ := List.append_of_mem (F3 k' _ before after hsp k hk)
      exact F2 y.length x y after (longOp n c k) (longOp n c k') (machineOf c k') 1 1 (Nat.le_refl _) (by rw [hsp, e]; rfl)
        (by rw [← hm]; exact long_op hc (by omega)) (long_op hc hk')
  refine ⟨tidy, ?_⟩
  -- the short jobs of half 0 occupy the times below `n`
  have hc : (0 : Nat) < 2 := by omega
  have short_lt : ∀ i < n, start1 (shortOp n 0 i).1 (shortOp n 0 i).2 < n := by
    intro i hi
    obtain ⟨before, after, hsp⟩ := List.append_of_mem ((hLmem (shortOp n 0 i)).2 ⟨_, short_op hc hi⟩)
    obtain ⟨done, t, rest, e1, rfl⟩ := split hsp
    obtain ⟨m, dur, r, q1, q2, q3, q4, q5⟩ := (h6 _ _ _ _ e1).earliest
    rw [short_op hc hi] at q1
    cases q1
    have hr : r = 0 := by
      rcases q2 with ⟨-, q2⟩ | ⟨k, m, dur, hk, -⟩
      · exact q2
      · simp [shortOp] at hk
    subst hr
    have hcard : (((Finset.range n).erase i).image fun i' => start1 (shortOp n 0 i').1 (shortOp n 0 i').2).card < (Finset.range n).card := by
      refine Nat.lt_of_le_of_lt Finset.card_image_le ?_
      rw [Finset.card_erase_of_mem (Finset.mem_range.2 hi), Finset.card_range]
      omega
    obtain ⟨a, ha, hna⟩ := Finset.exists_mem_notMem_of_card_lt_card hcard
    rw [Finset.mem_range] at ha
    have hnd := h4
    rw [hsp] at hnd
    have hfree : Free (stubborn n) start1 (done.map Prod.fst) (3 * 0) a (a + 1) := by
      intro j k dur hjk hop
      obtain ⟨rfl, c', hc', ⟨i', hi', e, hm⟩ | ⟨k1, hk1, e, hm⟩⟩ := stubborn_cases (a := (j, k)) hop
      · obtain rfl : c' = 0 := by omega
        have hne : i' ≠ i := by
          rintro rfl
          rw [e] at hjk
          exact (List.nodup_append.1 hnd).2.2 _ hjk _ (by simp) rfl
        have : start1 j k ≠ a := by
          rintro rfl
          refine hna (Finset.mem_image.2 ⟨i', Finset.mem_erase.2 ⟨hne, Finset.mem_range.2 hi'⟩, ?_⟩)
          rw [← e]
        omega
      · exfalso
        obtain ⟨rfl, rfl⟩ := machineOf_two hm.symm
        rw [e] at hjk
        obtain ⟨x, y, e2⟩ := List.append_of_mem hjk
        have h8 := F1 0 hc x (y ++ shortOp n 0 i :: after) (by rw [hsp, e2]; simp) 0 hc i hi
        exact (List.nodup_append.1 hnd).2.2 (shortOp n 0 i) (by rw [e2]; simp [h8]) (shortOp n 0 i) (by simp) rfl
    have := q5 a (Nat.zero_le _) hfree
    omega
  have hexcl : ∀ {a b : Nat × Nat} {m}, (stubborn n).op? a.1 a.2 = some (m, 1) → (stubborn n).op? b.1 b.2 = some (m, 1) → a ≠ b →
      start1 a.1 a.2 ≠ start1 b.1 b.2 := by
    intro a b m ha hb hne he
    have := g2.exclusive _ _ _ _ _ _ _ ha hb hne
    rw [hs2 ha, hs2 hb, ← hs1 ha, ← hs1 hb] at this
    omega
  have himg : (Finset.range n).image (fun i => start1 (shortOp n 0 i).1 (shortOp n 0 i).2) = Finset.range n := by
    refine Finset.eq_of_subset_of_card_le ?_ ?_
    · intro a ha
      obtain ⟨i, hi, rfl⟩ := Finset.mem_image.1 ha
      exact Finset.mem_range.2 (short_lt i (Finset.mem_range.1 hi))
    · rw [Finset.card_image_of_injOn]
      intro i hi i' hi' he
      rw [Finset.coe_range, Set.mem_Iio] at hi hi'
      by_contra hne
      exact hexcl (short_op hc hi) (short_op hc hi') (fun h => hne (shortOp_inj hi hi' hc hc h).2) he
  have third : n ≤ start (longOp n 0 2).1 (longOp n 0 2).2 := by
    have ho2 := long_op (n := n) (k := 2) hc (by omega)
    by_contra hlt
    rw [← hs1 ho2] at hlt
    have : start1 (longOp n 0 2).1 (longOp n 0 2).2 ∈ Finset.range n := Finset.mem_range.2 (by omega)
    rw [← himg] at this
    obtain ⟨i, hi, he⟩ := Finset.mem_image.1 this
    refine hexcl (short_op hc (Finset.mem_range.1 hi)) ho2 ?_ he
    intro hc'
    have := congrArg Prod.snd hc'
    simp [shortOp, longOp] at this
  have := ends_of_third (l := n) hc (fun j k m d m' d' ha hb => by
    have := g2.order _ _ _ _ _ _ ha hb
    rw [hs2 ha, hs2 hb] at this
    exact this) hT third
  omega

/-- **C150.** In the instance `stubborn n` (2n + 2 jobs, all operations of length 1) the best schedules end at `n + 3`, but the
evaluation of every individual that can occur in a run, whatever its chromosome, reports `2 n + 1`: neither the decoder nor the
local search reaches a better schedule. -/
theorem C150_unreachable_optimum {n : Nat} (hn : 2 ≤ n) {ops : List Operation} (ho : load ((stubborn n).file 6) = .ok (ops, 6))
    {worst : Nat} {i i' : Individual X} {r : Nat} (hi : Arises E ops 6 worst (stubborn n).total i) (hO : E.Ordered i.chromosome)
    (hB : Delays E i.chromosome) (he : Evaluates E i i' r) :
    r = 2 * n + 1 ∧ Makespan (stubborn n) (n + 3) ∧ ∀ t, Makespan (stubborn n) t → n + 3 ≤ t := by
  refine ⟨?_, stubborn_optimum n⟩
  have h := stubborn_proper n
  have hA := stubborn_alternates n
  have hD := stubborn_positive n
  obtain ⟨hp, -⟩ := load_ok ho
  obtain ⟨-, a2, a3⟩ := hi.inv h hA hD hp
  have hfresh : Arises E ops 6 worst (stubborn n).total (freshIndividual ops 6 worst i.chromosome) := .fresh _ a3 a2
  obtain ⟨j', t, F, hF⟩ := C97_evaluation_returns h hA hD ho hfresh
  have hj : Evaluates E (freshIndividual ops 6 worst i.chromosome) j' t := ⟨F, hF⟩
  obtain ⟨rfl, -⟩ := C96_history_independent h hA hD ho hi hfresh rfl he hj
  obtain ⟨pos, pos0, l, l0, T, blocks, s, start, -, -, -, -, -, c1, c2, c3, c4, -, c5, c6, c7, c8⟩ :=
    C124_local_optimum h hA hD ho hfresh hj
  obtain ⟨d1, d2⟩ := decode_stubborn hn ho worst a3 a2 hO hB c1 c2 c3 (fun j k m d hop => (c6 j k m d hop).1) c7
  have d3 := d1.descent (d1.shortest hn c4) c5
  have d4 := (C95_fitness_is_a_makespan h hA hD ho hfresh hj).1
  omega

end

/-! ## Runs -/

section
variable {G X : Type} [Field X] [LinearOrder X] [IsStrictOrderedRing X] {R : Rng G X} {E : EvalOps X}

/-- **C150, a whole run.** Solving `stubborn n`, with any number of generations, any even population size and any draws, returns an
individual of fitness `2 n + 1`, and every individual of every generation has this fitness; schedules of length `n + 3` exist. -/
theorem C150_run {n : Nat} (hn : 2 ≤ n) {ops : List Operation} (ho : load ((stubborn n).file 6) = .ok (ops, 6)) {worst : Nat}
    (hE : ∀ ch : List X, UnitGenes ch → E.Sane ch ∧ E.Ordered ch ∧ Delays E ch) (keep : X)
    {elite sample : Nat → Nat} {elapsed : M G Nat} (hel : Returns elapsed fun _ => True) {p : Ga.GAParams}
    (hp : 0 < p.populationSize) (heven : p.populationSize % 2 = 0)
    (h1 : elite p.populationSize + sample p.populationSize ≤ p.populationSize)
    (h2 : 0 < elite p.populationSize + sample p.populationSize) (m0 : Ga.Metrics) :
    Returns (Ga.run (Indiv.trait X) (solverOps R E keep ops 6 worst p.populationSize elite sample elapsed) p m0) fun r =>
      r.1.ind.fitness = 2 * n + 1 ∧ (∀ pop ∈ Ga.shownPops r.2, ∀ i ∈ pop, i.ind.fitness = 2 * n + 1) ∧
      Makespan (stubborn n) (n + 3) := by
  refine (solves_of_staged (solver_staged (R := R) (worst := worst) (stubborn_proper n) (stubborn_alternates n) (stubborn_positive n) ho
    (fun ch hu => (hE ch hu).1) keep hel hp heven h1 h2) hp rfl m0).mono ?_
  rintro ⟨best, tr⟩ ⟨q1, q2⟩
  have hall : ∀ pop ∈ Ga.shownPops tr, ∀ i ∈ pop, i.ind.fitness = 2 * n + 1 := by
    intro pop hpop i hi
    obtain ⟨j, j', k1, k2, k3⟩ := (q2 pop hpop i hi).value (q2 pop hpop i hi).done
    exact (C150_unreachable_optimum hn ho k1 (hE _ k2).2.1 (hE _ k2).2.2 k3).1
  obtain ⟨pop, m1, m2⟩ := q1.member
  exact ⟨hall pop m1 best m2, hall, (stubborn_optimum n).1⟩

end

/-! ## The hypotheses are met -/

theorem ratEval_ordered (ch : List ℚ) : ratEval.Ordered ch := by
  refine ⟨fun x _ y _ h => ?_, fun x _ y _ z _ h => ?_⟩
  · have h : y < x := of_decide_eq_true h
    exact decide_eq_false (not_lt.2 h.le)
  · have h : y < x := of_decide_eq_true h
    rcases lt_or_ge z x with hz | hz
    · exact .inl (decide_eq_true hz)
    · exact .inr (decide_eq_true (lt_of_lt_of_le h hz))

theorem ratEval_delays (ch : List ℚ) (h : UnitGenes ch) : Delays ratEval ch := by
  intro x hx longest a t hl
  have h1 : ¬ (t : ℚ) + x * (3 / 2) * longest < a := of_decide_eq_false hl
  have h2 := (h x hx).2
  have h3 : (0 : ℚ) ≤ longest := by positivity
  have h4 : x * longest ≤ 1 * longest := mul_le_mul_of_nonneg_right h2.le h3
  have h5 : (2 : ℚ) * a ≤ 2 * t + 3 * longest := by linarith [not_lt.1 h1]
  exact_mod_cast h5

/-- Ten short jobs on each side: every run of the example with its own parameters ends with 21, the optimum is 13. -/
example : ∃ ops, load ((stubborn 10).file 6) = .ok (ops, 6) ∧
    Returns (Ga.run (Indiv.trait ℚ) (solverOps Ga.counterRng ratEval (7 / 10) ops 6 1000 100 (· / 10) (· / 5) (pure 0))
      ⟨100, 400, 1000⟩ ⟨0, 100, none⟩) fun r => r.1.ind.fitness = 21 ∧ Makespan (stubborn 10) 13 := by
  obtain ⟨ops, h1, -⟩ := C100_loading (stubborn_proper 10)
  refine ⟨ops, h1, (C150_run (R := Ga.counterRng) (p := ⟨100, 400, 1000⟩) (n := 10) (by decide) h1
    (fun ch hu => ⟨ratEval_sane ch hu, ratEval_ordered ch, ratEval_delays ch hu⟩) (7 / 10) (elite := (· / 10)) (sample := (· / 5))
    (elapsed := pure 0) (Returns.pure trivial) (by decide) (by decide) (by decide) (by decide) ⟨0, 100, none⟩).mono fun r hr => ⟨hr.1, hr.2.2⟩⟩

/-! ## Every theorem on a concrete case -/

section instances
/-- Three operations per job, unit genes. -/
theorem unitGenes_halves (n : Nat) : UnitGenes (List.replicate n (1 / 2 : ℚ)) := fun x hx => by
  rw [List.eq_of_mem_replicate hx]; norm_num
example {ops : List Operation} (ho : load ((stubborn 10).file 6) = .ok (ops, 6)) :=
  C150_first_operations_first (E := ratEval) (stubborn_proper 10) ho 1000 (ch := List.replicate (2 * (stubborn 10).total) (1 / 2))
    List.length_replicate (ratEval_sane _ (unitGenes_halves _)) (ratEval_ordered _) (ratEval_delays _ (unitGenes_halves _))
example {ops : List Operation} (ho : load ((stubborn 10).file 6) = .ok (ops, 6)) {i' : Individual ℚ} {r : Nat}
    (he : Evaluates ratEval (freshIndividual ops 6 1000 (List.replicate (2 * (stubborn 10).total) (1 / 2))) i' r) :=
  C150_unreachable_optimum (n := 10) (by decide) ho (.fresh _ List.length_replicate (ratEval_sane _ (unitGenes_halves _)))
    (ratEval_ordered _) (ratEval_delays _ (unitGenes_halves _)) he
end instances

end Ecrs.Jssp
