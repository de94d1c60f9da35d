import Verif.Jssp.Evaluate

/-!
# Individuals of a run, and the translation between shops and jobs
-/

namespace Ecrs.Jssp
open Ecrs

section
variable {X : Type}

/-- The individuals that occur when an instance is solved: fresh ones of the population generator, evaluated ones, children
(clones of a parent with another chromosome, marked as not evaluated), and any of these after the solver wrote a fitness. -/
inductive Arises (E : EvalOps X) (ops : List Operation) (nM worst n : Nat) : Individual X → Prop
  | fresh (ch : List X) : ch.length = 2 * n → E.Sane ch → Arises E ops nM worst n (freshIndividual ops nM worst ch)
  | evaluated {i i' : Individual X} {r : Nat} : Arises E ops nM worst n i → Evaluates E i i' r → Arises E ops nM worst n i'
  | child {i : Individual X} (ch : List X) : Arises E ops nM worst n i → ch.length = 2 * n → E.Sane ch →
      Arises E ops nM worst n { i with chromosome := ch, isFitnessValid := false }
  | written {i : Individual X} (f : Nat) : Arises E ops nM worst n i → Arises E ops nM worst n { i with fitness := f }

end

/-! ## Jobs and shops -/

theorem number_spec {jobs : Jobs} (nM : Nat) {j k m d : Nat} (h : jobs.op? j k = some (m, d)) :
    (jobs.shop nM).Reg (jobs.number j k) ∧ (jobs.shop nM).mach (jobs.number j k) = m ∧
      (jobs.shop nM).dur (jobs.number j k) = d ∧ (recAt jobs (jobs.number j k)).k = k := by
  obtain ⟨r, h1, h2, h3, h4, h5⟩ := recs_number jobs 0 j k m d h
  have hlt := (List.getElem?_eq_some_iff.1 h1).1
  rw [recs_length] at hlt
  have hpos : 1 ≤ jobs.number j k := by unfold Jobs.number; omega
  have hr : recAt jobs (jobs.number j k) = r := by unfold recAt; rw [h1]; rfl
  have hle : jobs.number j k ≤ jobs.total := by omega
  refine ⟨⟨hpos, hle⟩, ?_, ?_, by rw [hr]; exact h2⟩
  · show (recAt jobs _).m = m
    rw [hr]; exact h3
  · show (if 1 ≤ jobs.number j k ∧ jobs.number j k ≤ jobs.total then (recAt jobs _).d else 0) = d
    rw [if_pos ⟨hpos, hle⟩, hr]; exact h4

theorem number_succ (jobs : Jobs) (j k : Nat) : jobs.number j (k + 1) = jobs.number j k + 1 := by
  unfold Jobs.number; omega

theorem op_prev {jobs : Jobs} {j k : Nat} {o : Nat × Nat} (h : jobs.op? j (k + 1) = some o) : ∃ o', jobs.op? j k = some o' := by
  unfold Jobs.op? at h ⊢
  cases hj : jobs[j]? with
  | none => rw [hj] at h; cases h
  | some job =>
    rw [hj] at h
    have h' : job[k + 1]? = some o := h
    have := (List.getElem?_eq_some_iff.1 h').1
    exact ⟨job[k], by show job[k]? = _; exact List.getElem?_eq_getElem (by omega)⟩

theorem dp_number {jobs : Jobs} (nM : Nat) {j k m d : Nat} (h : jobs.op? j (k + 1) = some (m, d)) :
    (jobs.shop nM).dp (jobs.number j (k + 1)) = jobs.number j k := by
  have := (number_spec nM h).2.2.2
  show (if (recAt jobs _).k = 0 then 0 else _ - 1) = _
  rw [this, if_neg (by omega), number_succ]; rfl

/-- Every regular operation is an operation of a job. -/
theorem reg_number {jobs : Jobs} {nM v : Nat} (h : (jobs.shop nM).Reg v) :
    ∃ j k m d, jobs.op? j k = some (m, d) ∧ jobs.number j k = v := by
  obtain ⟨j, k, ⟨m, d⟩, h1, h2⟩ := number_surj jobs v h.1 h.2
  exact ⟨j, k, m, d, h1, h2⟩

theorem shop_alternating {jobs : Jobs} (nM : Nat) (h : jobs.Alternates) : (jobs.shop nM).Alternating := by
  intro v hv hd
  obtain ⟨j, k, m, d, h1, rfl⟩ := reg_number hv
  cases k with
  | zero =>
    exfalso
    have h2 := (number_spec nM h1).2.2.2
    have h3 : (jobs.shop nM).dp (jobs.number j 0) = 0 := by
      show (if (recAt jobs _).k = 0 then 0 else _ - 1) = 0
      rw [h2, if_pos rfl]
    have := hd.1
    rw [h3] at this
    omega
  | succ k =>
    obtain ⟨⟨m', d'⟩, h2⟩ := op_prev h1
    rw [dp_number nM h1, (number_spec nM h1).2.1, (number_spec nM h2).2.1]
    exact h j k m' d' m d h2 h1

theorem shop_positive {jobs : Jobs} (nM : Nat) (h : jobs.Positive) : ∀ v, (jobs.shop nM).Reg v → 0 < (jobs.shop nM).dur v := by
  intro v hv
  obtain ⟨j, k, m, d, h1, rfl⟩ := reg_number hv
  rw [(number_spec nM h1).2.2.1]
  exact h j k m d h1

theorem feasible_of_shop {jobs : Jobs} {nM : Nat} {st : Nat → Nat} (h : SFeas (jobs.shop nM) st) :
    Feasible jobs (fun j k => st (jobs.number j k)) := by
  refine ⟨?_, ?_⟩
  · intro j k m d m' d' h1 h2
    have a1 := number_spec nM h1
    have a2 := number_spec nM h2
    have := h.prec _ a2.1 (by rw [dp_number nM h2]; exact a1.1)
    rw [dp_number nM h2, a1.2.2.1] at this
    exact this
  · intro j k j' k' m d d' h1 h2 hne
    have a1 := number_spec nM h1
    have a2 := number_spec nM h2
    have := h.excl _ _ a1.1 a2.1 (fun hc => hne (by obtain ⟨h3, h4⟩ := number_inj jobs j k j' k' _ _ h1 h2 hc; rw [h3, h4]))
      (by rw [a1.2.1, a2.2.1])
    rw [a1.2.2.1, a2.2.2.1] at this
    exact this

theorem endsAt_of_shop {jobs : Jobs} {nM : Nat} {st : Nat → Nat} {t : Nat} (h : SEnds (jobs.shop nM) st t) :
    EndsAt jobs (fun j k => st (jobs.number j k)) t := by
  refine ⟨?_, ?_⟩
  · intro j k m d h1
    have a1 := number_spec nM h1
    have := h.le _ a1.1
    rw [a1.2.2.1] at this
    exact this
  · obtain ⟨v, h1, h2⟩ := h.attained
    obtain ⟨j, k, m, d, h3, rfl⟩ := reg_number h1
    refine ⟨j, k, m, d, h3, ?_⟩
    rw [(number_spec nM h3).2.2.1] at h2
    exact h2

/-! ## Invariant of the individuals -/

section
variable {X : Type} {E : EvalOps X}

theorem fresh_base {jobs : Jobs} {nM : Nat} (h : jobs.Proper nM) {ops : List Operation}
    (ho : provider ⟨loaded 0 jobs, nM⟩ = .ok ops) : Base (jobs.shop nM) (Arr.ofList ops) ⟨nM, Machine.new⟩ := by
  have hr := fresh_ready h ho 0 ([] : List Unit)
  refine ⟨hr, ?_, rfl⟩
  intro k hk
  have hsz : ops.length = jobs.total + 2 := hr.fits.size
  have hk' : jobs.total + 1 < k := hk
  have : (Arr.ofList ops).get k = default := by
    show ops.getD k default = default
    rw [List.getD_eq_getElem?_getD, List.getElem?_eq_none (by omega)]; rfl
  rw [this]; rfl

theorem SimTo.congr {S : Shop} {ops machines} {i j : Individual X} (h : SimTo S ops machines i) (ho : j.operations = i.operations)
    (hm : j.machines = i.machines) (hd : j.isDirty = i.isDirty) : SimTo S ops machines j := by
  have h1 : j.prepare.operations = i.prepare.operations := by
    unfold Individual.prepare Individual.reset; rw [hd]; split <;> simp [ho]
  have h2 : j.prepare.machines = i.prepare.machines := by
    unfold Individual.prepare Individual.reset; rw [hd]; split <;> simp [hm]
  exact ⟨by rw [h1]; exact h.size, by rw [h1]; exact h.redist, by rw [h1]; exact h.sink, by rw [h2]; exact h.machines⟩

theorem Arises.inv {jobs : Jobs} {nM worst : Nat} (h : jobs.Proper nM) (hA : jobs.Alternates) (hD : jobs.Positive)
    {ops : List Operation} (ho : provider ⟨loaded 0 jobs, nM⟩ = .ok ops) {i : Individual X}
    (hi : Arises E ops nM worst jobs.total i) :
    SimTo (jobs.shop nM) (Arr.ofList ops) ⟨nM, Machine.new⟩ i ∧ E.Sane i.chromosome ∧ i.chromosome.length = 2 * jobs.total := by
  have hb := fresh_base h ho
  induction hi with
  | fresh ch h1 h2 => exact ⟨SimTo.fresh hb rfl rfl rfl, h2, h1⟩
  | evaluated _ h2 ih =>
    obtain ⟨a1, a2, a3⟩ := ih
    obtain ⟨i', r, s, l, c, b1, -, -, -, -, -, -, b2, -, -, -, b3, -⟩ :=
      evaluate_ok (shop_wf h) (shop_alternating nM hA) (shop_positive nM hD) hb a1 a2 a3
    obtain ⟨rfl, -⟩ := h2.unique b1
    exact ⟨b3, by rw [b2]; exact a2, by rw [b2]; exact a3⟩
  | child ch _ h1 h2 ih => exact ⟨ih.1.congr rfl rfl rfl, h2, h1⟩
  | written f _ ih => exact ⟨ih.1.congr rfl rfl rfl, ih.2⟩

end
end Ecrs.Jssp
