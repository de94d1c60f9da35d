import Verif.Jssp.Spec
import Mathlib.Algebra.BigOperators.Group.Finset.Basic
import Mathlib.Algebra.Order.BigOperators.Group.Finset
import Mathlib.Data.Finset.Union
import Mathlib.Order.Interval.Finset.Nat

/-!
# Every feasible schedule takes at least as long as each job and as the load of each machine
-/

namespace Ecrs.Jssp
open Ecrs

theorem job_le {jobs : Jobs} {start : Nat → Nat → Nat} {t : Nat} (hf : Feasible jobs start) (he : EndsAt jobs start t)
    {j : Nat} {job : List (Nat × Nat)} (hj : jobs[j]? = some job) : (job.map Prod.snd).sum ≤ t := by
  have hop : ∀ (k : Nat), jobs.op? j k = job[k]? := fun k => by unfold Jobs.op?; rw [hj]; rfl
  have key : ∀ (k : Nat) (o : Nat × Nat), job[k]? = some o → ((job.take (k + 1)).map Prod.snd).sum ≤ start j k + o.2 := by
    intro k
    induction k with
    | zero =>
      intro o ho
      cases job with
      | nil => cases ho
      | cons x xs =>
        have : x = o := by simpa using ho
        subst this
        simp
    | succ k ih =>
      intro o ho
      have hlt := (List.getElem?_eq_some_iff.1 ho).1
      have hk : job[k]? = some job[k] := List.getElem?_eq_getElem (by omega)
      have h1 := ih _ hk
      have h2 := hf.order j k _ _ _ _ (by rw [hop, hk]) (by rw [hop, ho])
      rw [List.take_add_one, ho]
      simp only [Option.toList_some, List.map_append, List.sum_append, List.map_cons, List.map_nil, List.sum_cons, List.sum_nil]
      omega
  cases hl : job.length with
  | zero =>
    rw [List.length_eq_zero_iff] at hl
    subst hl; simp
  | succ n =>
    have hk : job[n]? = some job[n] := List.getElem?_eq_getElem (by omega)
    have h1 := key n _ hk
    have h2 := he.1 j n _ _ (by rw [hop, hk])
    rw [List.take_of_length_le (by omega)] at h1
    omega

/-- Position of an operation in the list of all operations. -/
theorem flatten_at (jobs : Jobs) : ∀ i o, jobs.flatten[i]? = some o → ∃ j k, jobs.op? j k = some o ∧ (jobs.take j).flatten.length + k = i := by
  induction jobs with
  | nil => intro i o h; simp at h
  | cons job jobs ih =>
    intro i o h
    rw [List.flatten_cons] at h
    by_cases hi : i < job.length
    · rw [List.getElem?_append_left hi] at h
      exact ⟨0, i, by simpa [Jobs.op?] using h, by simp⟩
    · rw [List.getElem?_append_right (by omega)] at h
      obtain ⟨j, k, h1, h2⟩ := ih _ _ h
      exact ⟨j + 1, k, by simpa [Jobs.op?] using h1, by
        rw [List.take_succ_cons, List.flatten_cons, List.length_append]; omega⟩

theorem sum_filter_range (l : List (Nat × Nat)) (m : Nat) :
    ((l.filter fun o => o.1 = m).map Prod.snd).sum =
      ∑ i ∈ (Finset.range l.length).filter (fun i => (l[i]?.map Prod.fst) = some m), (l[i]?.map Prod.snd).getD 0 := by
  induction l using List.reverseRecOn with
  | nil => simp
  | append_singleton l o ih =>
    rw [List.filter_append, List.map_append, List.sum_append, ih, List.length_append, List.length_singleton, Finset.range_add_one,
      Finset.filter_insert]
    have hl : (l ++ [o])[l.length]? = some o := by simp
    have hs : ∑ i ∈ (Finset.range l.length).filter (fun i => (l[i]?.map Prod.fst) = some m), (l[i]?.map Prod.snd).getD 0 =
        ∑ i ∈ (Finset.range l.length).filter (fun i => ((l ++ [o])[i]?.map Prod.fst) = some m), ((l ++ [o])[i]?.map Prod.snd).getD 0 := by
      refine Finset.sum_congr ?_ ?_
      · refine Finset.filter_congr fun i hi => ?_
        rw [List.getElem?_append_left (Finset.mem_range.1 hi)]
      · intro i hi
        rw [List.getElem?_append_left (Finset.mem_range.1 (Finset.mem_filter.1 hi).1)]
    rw [hs]
    by_cases ho : o.1 = m
    · rw [if_pos (by rw [hl]; simp [ho]), Finset.sum_insert (by simp), hl]
      simp [ho, Nat.add_comm]
    · rw [if_neg (by rw [hl]; simp [ho])]
      simp [ho]

theorem load_le {jobs : Jobs} {start : Nat → Nat → Nat} {t : Nat} (hf : Feasible jobs start) (he : EndsAt jobs start t) (m : Nat) :
    ((jobs.flatten.filter fun o => o.1 = m).map Prod.snd).sum ≤ t := by
  classical
  rw [sum_filter_range]
  have hchoose : ∀ i, ∃ jk : Nat × Nat, ∀ o, jobs.flatten[i]? = some o →
      jobs.op? jk.1 jk.2 = some o ∧ (jobs.take jk.1).flatten.length + jk.2 = i := by
    intro i
    cases h : jobs.flatten[i]? with
    | none => exact ⟨(0, 0), fun o ho => by cases ho⟩
    | some o =>
      obtain ⟨j, k, h1, h2⟩ := flatten_at jobs i o h
      exact ⟨(j, k), fun o' ho' => by cases ho'; exact ⟨h1, h2⟩⟩
  choose jk hjk using hchoose
  let I := (Finset.range jobs.flatten.length).filter (fun i => (jobs.flatten[i]?.map Prod.fst) = some m)
  let f := fun i => Finset.Ico (start (jk i).1 (jk i).2) (start (jk i).1 (jk i).2 + (jobs.flatten[i]?.map Prod.snd).getD 0)
  have hI : ∀ i ∈ I, ∃ d, jobs.flatten[i]? = some (m, d) := by
    intro i hi
    have := (Finset.mem_filter.1 hi).2
    cases h : jobs.flatten[i]? with
    | none => rw [h] at this; cases this
    | some o => rw [h] at this; exact ⟨o.2, by rw [← Option.some.inj this]⟩
  have hcard : ∑ i ∈ I, (jobs.flatten[i]?.map Prod.snd).getD 0 = (I.biUnion f).card := by
    rw [Finset.card_biUnion]
    · refine Finset.sum_congr rfl fun i _ => ?_
      simp [f]
    · intro a ha b hb hab
      obtain ⟨d, h1⟩ := hI a ha
      obtain ⟨d', h2⟩ := hI b hb
      obtain ⟨h3, h4⟩ := hjk a _ h1
      obtain ⟨h5, h6⟩ := hjk b _ h2
      have hne : ((jk a).1, (jk a).2) ≠ ((jk b).1, (jk b).2) := by
        intro hc
        have h7 : jk a = jk b := hc
        rw [h7] at h4
        exact hab (h4.symm.trans h6)
      have := hf.exclusive _ _ _ _ m d d' h3 h5 hne
      show Disjoint (f a) (f b)
      rw [Finset.disjoint_left]
      intro x hx hx'
      simp only [f, h1, h2, Option.map_some, Option.getD_some, Finset.mem_Ico] at hx hx'
      omega
  show ∑ i ∈ I, _ ≤ t
  rw [hcard]
  have hsub : I.biUnion f ⊆ Finset.range t := by
    intro x hx
    obtain ⟨a, ha, hxa⟩ := Finset.mem_biUnion.1 hx
    obtain ⟨d, h1⟩ := hI a ha
    obtain ⟨h3, -⟩ := hjk a _ h1
    have := he.1 _ _ _ _ h3
    simp only [f, h1, Option.map_some, Option.getD_some, Finset.mem_Ico] at hxa
    rw [Finset.mem_range]; omega
  exact (Finset.card_le_card hsub).trans (by simp)

end Ecrs.Jssp
