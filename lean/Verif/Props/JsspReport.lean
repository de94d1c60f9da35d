import Verif.Jssp.Report
import Verif.Props.JsspRun

/-!
# C116, C117: what the job shop example reports
-/

set_option linter.unusedSectionVars false

namespace Ecrs.Jssp
open Ecrs

/-! ## The string determines the order -/

private theorem append_underscore_inj : ∀ {a b r s : List Char}, '_' ∉ a → '_' ∉ b → a ++ '_' :: r = b ++ '_' :: s → a = b ∧ r = s
  | [], [], r, s, _, _, h => by simpa using h
  | [], c :: b, r, s, _, hb, h => by
    simp only [List.nil_append, List.cons_append, List.cons.injEq] at h
    exact absurd (h.1 ▸ List.mem_cons_self) hb
  | c :: a, [], r, s, ha, _, h => by
    simp only [List.nil_append, List.cons_append, List.cons.injEq] at h
    exact absurd (h.1 ▸ List.mem_cons_self) ha
  | c :: a, d :: b, r, s, ha, hb, h => by
    simp only [List.cons_append, List.cons.injEq] at h
    obtain ⟨h1, h2⟩ := append_underscore_inj (fun hc => ha (List.mem_cons_of_mem _ hc))
      (fun hc => hb (List.mem_cons_of_mem _ hc)) h.2
    exact ⟨by rw [h.1, h1], h2⟩

private theorem digits_inj {x y : Nat} (h : Nat.toDigits 10 x = Nat.toDigits 10 y) : x = y := by
  rw [← Nat.ofDigitChars_toDigits (b := 10) (n := x) (by decide) (by decide), h,
    Nat.ofDigitChars_toDigits (by decide) (by decide)]

private theorem digits_no_underscore (x : Nat) : '_' ∉ Nat.toDigits 10 x := Nat.underscore_not_in_toDigits

/-- **C117, string**: two different orders have two different solution strings. -/
theorem C117_string_injective : ∀ {l l' : List Nat}, joinIds l = joinIds l' → l = l'
  | [], [], _ => rfl
  | [], [x], h => absurd h.symm Nat.toDigits_ne_nil
  | [], x :: y :: ys, h => by simp [joinIds] at h
  | [x], [], h => absurd h Nat.toDigits_ne_nil
  | x :: y :: ys, [], h => by simp [joinIds] at h
  | [x], [y], h => by rw [digits_inj h]
  | [x], y :: z :: zs, h => by
    have h' : Nat.toDigits 10 x = Nat.toDigits 10 y ++ '_' :: joinIds (z :: zs) := h
    exact absurd (h' ▸ by simp) (digits_no_underscore x)
  | y :: z :: zs, [x], h => by
    have h' : Nat.toDigits 10 y ++ '_' :: joinIds (z :: zs) = Nat.toDigits 10 x := h
    exact absurd (h' ▸ by simp) (digits_no_underscore x)
  | x :: y :: ys, x' :: y' :: ys', h => by
    obtain ⟨h1, h2⟩ := append_underscore_inj (digits_no_underscore x) (digits_no_underscore x') h
    rw [digits_inj h1, C117_string_injective h2]

example : joinIds [3, 12, 1] = "3_12_1".toList := by decide

/-! ## The order of the operations -/

/-- `u` stands before `v` in `l`. -/
def Before {α : Type} (l : List α) (u v : α) : Prop := [u, v].Sublist l

section
variable {S : Shop} {ops : Arr Operation} {fin : Nat → Nat}

/-- The operations of a shop after scheduling: finish times `fin`. -/
private structure Reported (S : Shop) (ops : Arr Operation) (fin : Nat → Nat) : Prop where
  size : ops.size = S.n + 2
  id : ∀ v, v ≤ S.n + 1 → (ops.get v).id = v
  dur : ∀ v, S.Reg v → (ops.get v).duration = S.dur v
  dur0 : (ops.get 0).duration = 0
  mach : ∀ v, S.Reg v → (ops.get v).machine = S.mach v
  done : ∀ v, S.Reg v → (ops.get v).finishTime = some (fin v)
  fin0 : (ops.get 0).finishTime = some 0
  pos : ∀ v, S.Reg v → 0 < S.dur v ∧ 0 < fin v
  diff : ∀ u v, S.Reg u → S.Reg v → u ≠ v → S.mach u = S.mach v → fin u ≠ fin v

/-- The order in which the report lists the operations. -/
private def keyLt (S : Shop) (fin : Nat → Nat) (u v : Nat) : Prop := fin u < fin v ∨ (fin u = fin v ∧ S.mach u < S.mach v)

/-- What the comparison says about two operations of the array. -/
private theorem Reported.cmp (h : Reported S ops fin) {u v : Nat} (hu : u ≤ S.n + 1) (hv : v ≤ S.n + 1) (hne : u ≠ v) :
    compareOps S.n (ops.get u) (ops.get v) = .ok (
      if u = S.n + 1 then .gt else if v = S.n + 1 then .lt else if u = 0 then .lt else if v = 0 then .gt
      else if fin u < fin v then .lt else if fin v < fin u then .gt else compare (S.mach u) (S.mach v)) := by
  unfold compareOps
  rw [h.id u hu, h.id v hv]
  by_cases h1 : u = S.n + 1
  · rw [if_pos h1, if_pos h1]
  rw [if_neg h1, if_neg h1]
  by_cases h2 : v = S.n + 1
  · rw [if_pos h2, if_pos h2]
  rw [if_neg h2, if_neg h2]
  by_cases h3 : u = 0
  · subst h3
    have hr : S.Reg v := ⟨by omega, by omega⟩
    have := (h.pos v hr).2
    rw [h.fin0, h.done v hr]
    show Except.ok _ = _
    simp [this]
  rw [if_neg h3]
  have hru : S.Reg u := ⟨by omega, by omega⟩
  by_cases h4 : v = 0
  · subst h4
    have := (h.pos u hru).2
    rw [h.fin0, h.done u hru]
    show Except.ok _ = _
    simp [this]
  rw [if_neg h4]
  have hrv : S.Reg v := ⟨by omega, by omega⟩
  have d1 := (h.pos u hru).1
  have d2 := (h.pos v hrv).1
  rw [h.done u hru, h.done v hrv, h.dur u hru, h.dur v hrv, h.mach u hru, h.mach v hrv]
  show Except.ok _ = _
  rw [if_pos (show S.dur u ≠ 0 ∧ S.dur v ≠ 0 from ⟨by omega, by omega⟩)]

/-- Position in the sorted list. -/
private def rankOf (S : Shop) (fin : Nat → Nat) (v : Nat) : Nat × Nat × Nat :=
  if v = S.n + 1 then (2, 0, 0) else if v = 0 then (0, 0, 0) else (1, fin v, S.mach v)

private def rankLt (a b : Nat × Nat × Nat) : Prop := a.1 < b.1 ∨ a.1 = b.1 ∧ (a.2.1 < b.2.1 ∨ a.2.1 = b.2.1 ∧ a.2.2 < b.2.2)

private theorem Reported.cmp_lt (h : Reported S ops fin) {u v : Nat} (hu : u ≤ S.n + 1) (hv : v ≤ S.n + 1) (hne : u ≠ v) :
    (compareOps S.n (ops.get u) (ops.get v) = .ok .lt ∧ rankLt (rankOf S fin u) (rankOf S fin v)) ∨
    (compareOps S.n (ops.get u) (ops.get v) = .ok .gt ∧ rankLt (rankOf S fin v) (rankOf S fin u)) := by
  rw [h.cmp hu hv hne]
  unfold rankOf rankLt
  by_cases h1 : u = S.n + 1
  · have h2 : v ≠ S.n + 1 := by omega
    right
    rw [if_pos h1, if_pos h1, if_neg h2]
    refine ⟨rfl, ?_⟩
    split <;> simp
  rw [if_neg h1, if_neg h1]
  by_cases h2 : v = S.n + 1
  · left
    rw [if_pos h2, if_pos h2]
    refine ⟨rfl, ?_⟩
    split <;> simp
  rw [if_neg h2, if_neg h2]
  by_cases h3 : u = 0
  · left
    rw [if_pos h3, if_pos h3, if_neg (by omega)]
    exact ⟨rfl, by simp⟩
  rw [if_neg h3, if_neg h3]
  by_cases h4 : v = 0
  · right
    rw [if_pos h4, if_pos h4]
    exact ⟨rfl, by simp⟩
  rw [if_neg h4, if_neg h4]
  have hru : S.Reg u := ⟨by omega, by omega⟩
  have hrv : S.Reg v := ⟨by omega, by omega⟩
  by_cases h5 : fin u < fin v
  · left
    rw [if_pos h5]
    exact ⟨rfl, .inr ⟨rfl, .inl h5⟩⟩
  rw [if_neg h5]
  by_cases h6 : fin v < fin u
  · right
    rw [if_pos h6]
    exact ⟨rfl, .inr ⟨rfl, .inl h6⟩⟩
  rw [if_neg h6]
  have hm : S.mach u ≠ S.mach v := fun hm => h.diff u v hru hrv hne hm (by omega)
  rcases Nat.lt_or_gt_of_ne hm with h7 | h7
  · left
    exact ⟨by rw [Nat.compare_eq_lt.2 h7], .inr ⟨rfl, .inr ⟨by show fin u = fin v; omega, h7⟩⟩⟩
  · right
    exact ⟨by rw [Nat.compare_eq_gt.2 h7], .inr ⟨rfl, .inr ⟨by show fin v = fin u; omega, h7⟩⟩⟩

private theorem rankLt_trans {a b c : Nat × Nat × Nat} (h1 : rankLt a b) (h2 : rankLt b c) : rankLt a c := by
  unfold rankLt at *; omega

private theorem rankLt_asymm {a b : Nat × Nat × Nat} (h1 : rankLt a b) (h2 : rankLt b a) : False := by
  unfold rankLt at *; omega

private theorem Reported.total (h : Reported S ops fin) : TotalOn (compareOps S.n) ops.toList := by
  have hm : ∀ a ∈ ops.toList, ∃ u, u ≤ S.n + 1 ∧ ops.get u = a := by
    intro a ha
    obtain ⟨u, hu, rfl⟩ := Arr.mem_toList.1 ha
    exact ⟨u, by have := h.size; omega, rfl⟩
  refine ⟨?_, ?_, ?_⟩
  · intro a ha b hb hne
    obtain ⟨u, hu, rfl⟩ := hm a ha
    obtain ⟨v, hv, rfl⟩ := hm b hb
    rcases h.cmp_lt hu hv (fun hc => hne (by rw [hc])) with h1 | h1 <;> exact ⟨_, h1.1⟩
  · intro a ha b hb hne o ho
    obtain ⟨u, hu, rfl⟩ := hm a ha
    obtain ⟨v, hv, rfl⟩ := hm b hb
    have huv : u ≠ v := fun hc => hne (by rw [hc])
    rcases h.cmp_lt hu hv huv with h1 | h1 <;> rcases h.cmp_lt hv hu huv.symm with h2 | h2
    · exact (rankLt_asymm h1.2 h2.2).elim
    · rw [h1.1] at ho; cases ho; exact h2.1
    · rw [h1.1] at ho; cases ho; exact h2.1
    · exact (rankLt_asymm h1.2 h2.2).elim
  · intro a ha b hb c hc n1 n2 n3 g1 g2
    obtain ⟨u, hu, rfl⟩ := hm a ha
    obtain ⟨v, hv, rfl⟩ := hm b hb
    obtain ⟨w, hw, rfl⟩ := hm c hc
    rcases h.cmp_lt hu hv (fun hc => n1 (by rw [hc])) with h1 | h1
    · rcases h.cmp_lt hv hw (fun hc => n2 (by rw [hc])) with h2 | h2
      · rcases h.cmp_lt hu hw (fun hc => n3 (by rw [hc])) with h3 | h3
        · rw [h3.1]; simp
        · exact (rankLt_asymm (rankLt_trans h1.2 h2.2) h3.2).elim
      · exact absurd h2.1 g2
    · exact absurd h1.1 g1

private theorem Reported.ids (h : Reported S ops fin) : (ops.toList.map (·.id)) = List.range (S.n + 2) := by
  unfold Arr.toList
  rw [List.map_map, h.size]
  conv_rhs => rw [← List.map_id (List.range (S.n + 2))]
  refine List.map_congr_left fun v hv => ?_
  rw [List.mem_range] at hv
  exact h.id v (by omega)

private theorem solutionIds_eq (n : Nat) (l : List Operation) :
    solutionIds n l = (l.map (·.id)).filter fun v => v != 0 && v != n + 1 := by
  unfold solutionIds
  rw [List.filter_map]; rfl

private theorem filter_range (n : Nat) : (List.range (n + 2)).filter (fun v => v != 0 && v != n + 1) = List.range' 1 n := by
  have e : List.range (n + 2) = 0 :: (List.range' 1 n ++ [n + 1]) := by
    rw [List.range_eq_range', List.range'_succ, List.range'_concat]
    simp [Nat.add_comm]
  rw [e]
  simp only [List.filter_cons, List.filter_append, List.filter_nil]
  simp
  intro a h1 h2
  omega

private theorem Reported.perm (h : Reported S ops fin) {out : List Operation} (ho : SortsTo (compareOps S.n) ops.toList out) :
    (solutionIds S.n out).Perm (List.range' 1 S.n) := by
  rw [solutionIds_eq, ← filter_range, ← h.ids]
  exact (ho.perm.map _).filter _

private theorem Reported.order (h : Reported S ops fin) {out : List Operation} (ho : SortsTo (compareOps S.n) ops.toList out) :
    (solutionIds S.n out).Pairwise (keyLt S fin) := by
  have hnd : (out.map (·.id)).Nodup := (ho.perm.map _).nodup_iff.2 (by rw [h.ids]; exact List.nodup_range)
  have hs := ho.sorted h.total
  have hmem : ∀ a ∈ out, ops.get a.id = a ∧ a.id ≤ S.n + 1 := by
    intro a ha
    obtain ⟨u, hu, rfl⟩ := Arr.mem_toList.1 (ho.perm.mem_iff.1 ha)
    have hu' : u ≤ S.n + 1 := by have := h.size; omega
    rw [h.id u hu']
    exact ⟨rfl, hu'⟩
  have hp : out.Pairwise fun a b => rankLt (rankOf S fin a.id) (rankOf S fin b.id) := by
    have hne : out.Pairwise fun a b => a.id ≠ b.id := by
      rw [List.Nodup, List.pairwise_map] at hnd; exact hnd
    have := hs.and hne
    refine List.Pairwise.imp_of_mem ?_ this
    intro a b ha hb hab
    obtain ⟨a1, a2⟩ := hmem a ha
    obtain ⟨b1, b2⟩ := hmem b hb
    rcases h.cmp_lt a2 b2 hab.2 with h1 | h1
    · exact h1.2
    · rw [a1, b1] at h1
      exact absurd h1.1 hab.1
  unfold solutionIds
  rw [List.pairwise_map]
  refine List.Pairwise.imp_of_mem ?_ (hp.filter _)
  intro a b ha hb hab
  have ha' := (List.mem_filter.1 ha).2
  have hb' := (List.mem_filter.1 hb).2
  simp only [bne_iff_ne, ne_eq, Bool.and_eq_true] at ha' hb'
  unfold rankLt rankOf at hab
  rw [if_neg ha'.2, if_neg hb'.2, if_neg ha'.1, if_neg hb'.1] at hab
  unfold keyLt
  rcases hab with h1 | ⟨-, h1⟩
  · exact absurd h1 (Nat.lt_irrefl _)
  · exact h1

private theorem Reported.exists_sorted (h : Reported S ops fin) : ∃ out, SortsTo (compareOps S.n) ops.toList out := by
  classical
  let le : Operation → Operation → Bool := fun a b => decide (¬ rankLt (rankOf S fin b.id) (rankOf S fin a.id))
  refine ⟨ops.toList.mergeSort le, List.mergeSort_perm _ _, fun _ => ?_⟩
  have hs : (ops.toList.mergeSort le).Pairwise fun a b => le a b = true := by
    refine List.pairwise_mergeSort ?_ ?_ _
    · intro a b c h1 h2
      simp only [le, decide_eq_true_eq] at h1 h2 ⊢
      unfold rankLt at *; omega
    · intro a b
      simp only [le, Bool.or_eq_true, decide_eq_true_eq]
      unfold rankLt; omega
  have hnd : ((ops.toList.mergeSort le).map (·.id)).Nodup :=
    ((List.mergeSort_perm _ _).map _).nodup_iff.2 (by rw [h.ids]; exact List.nodup_range)
  have hne : (ops.toList.mergeSort le).Pairwise fun a b => a.id ≠ b.id := by
    rw [List.Nodup, List.pairwise_map] at hnd; exact hnd
  refine List.Pairwise.imp_of_mem ?_ (hs.and hne)
  intro a b ha hb hab hc
  obtain ⟨u, hu, rfl⟩ := Arr.mem_toList.1 ((List.mergeSort_perm _ _).mem_iff.1 ha)
  obtain ⟨v, hv, rfl⟩ := Arr.mem_toList.1 ((List.mergeSort_perm _ _).mem_iff.1 hb)
  have hsz := h.size
  have eu := h.id u (by omega)
  have ev := h.id v (by omega)
  rw [eu, ev] at hab
  rcases h.cmp_lt (by omega) (by omega) hab.2 with h1 | h1
  · rw [h1.1] at hc; cases hc
  · have := hab.1
    simp only [le, decide_eq_true_eq, eu, ev] at this
    exact this h1.2

private theorem keyLt_asymm {u v : Nat} (h1 : keyLt S fin u v) (h2 : keyLt S fin v u) : False := by
  unfold keyLt at *; omega

end

/-- In a list ordered by an asymmetric relation, an element stands before every one that is larger. -/
private theorem before_of_pairwise {α : Type} {r : α → α → Prop} (hr : ∀ a b, r a b → r b a → False) :
    ∀ {l : List α}, l.Pairwise r → ∀ {u v}, u ∈ l → v ∈ l → r u v → Before l u v
  | [], _, u, v, hu, _, _ => by cases hu
  | a :: l, hp, u, v, hu, hv, huv => by
    rw [List.pairwise_cons] at hp
    rcases List.mem_cons.1 hu with rfl | hu'
    · rcases List.mem_cons.1 hv with rfl | hv
      · exact (hr _ _ huv huv).elim
      · exact List.Sublist.cons_cons _ (List.singleton_sublist.2 hv)
    · rcases List.mem_cons.1 hv with rfl | hv'
      · exact (hr _ _ huv (hp.1 _ hu')).elim
      · exact List.Sublist.cons _ (before_of_pairwise hr hp.2 hu' hv' huv)

section
variable {X : Type} {E : EvalOps X}

private theorem done_of_evaluated {jobs : Jobs} {nM worst : Nat} (h : jobs.Proper nM) (hA : jobs.Alternates) (hD : jobs.Positive)
    {ops : List Operation} (ho : load (jobs.file nM) = .ok (ops, nM)) {i i' : Individual X} {r : Nat}
    (hi : Arises E ops nM worst jobs.total i) (he : Evaluates E i i' r) :
    ∃ st : Nat → Nat, SFeas (jobs.shop nM) st ∧ Reported (jobs.shop nM) i'.operations (fun v => st v + (jobs.shop nM).dur v) := by
  obtain ⟨hp, -⟩ := load_ok ho
  obtain ⟨a1, a2, a3⟩ := hi.inv h hA hD hp
  obtain ⟨i2, r2, s, l, c, b1, b2, b3, -, -, b6, -, -, -, -, -, -, b5, -⟩ :=
    evaluate_ok (shop_wf h) (shop_alternating nM hA) (shop_positive nM hD) (fresh_base h hp) a1 a2 a3
  obtain ⟨rfl, rfl⟩ := he.unique b1
  obtain ⟨order, pos, cnt, rk, ms, mp, hs⟩ := b2
  obtain ⟨h4, h5, h6⟩ := hs.feasible (shop_wf h) b3
  obtain ⟨pos', ms', mp', rk', N', -, -, hf', -⟩ := b6
  have hpos := shop_positive nM hD
  refine ⟨_, h4, hf'.size, hf'.id, fun v hv => hf'.dur v (by have := hv.2; omega), (hf'.dur 0 (by omega)).trans (shop_wf h).dur_zero,
    hf'.mach, ?_, ?_, ?_, ?_⟩
  · intro v hv
    obtain ⟨f, h7, h8⟩ := h6 v hv
    rw [b5, hs.ft_ops _ hv.2, h7]
    rw [Option.getD_some, Nat.sub_add_cancel h8]
  · rw [b5, hs.ft_ops 0 (Nat.zero_le _), hs.ft_zero]
  · intro v hv
    have := hpos v hv
    exact ⟨this, by omega⟩
  · intro u v hu hv hne hm hc
    have := h4.excl u v hu hv hne hm
    have d1 := hpos u hu
    have d2 := hpos v hv
    omega

/-- The position at which an operation is listed: earlier finish first, lower machine number at equal finish times. -/
def ListedFirst (f m f' m' : Nat) : Prop := f < f' ∨ (f = f' ∧ m < m')

/-- **C117**: for every evaluated individual of a run on a well-formed instance (positive durations, no job twice in a row on
one machine) the comparisons of `on_end` return and form a total order, so that the sort neither panics nor leaves the order
open; the solution string lists every operation of the instance exactly once, and there is a feasible schedule, whose finish
times are those stored in the individual, such that an operation finishing earlier (or at the same time, on a machine with a
lower number) stands before. -/
theorem C117_solution_string {jobs : Jobs} {nM worst : Nat} (h : jobs.Proper nM) (hA : jobs.Alternates) (hD : jobs.Positive)
    {ops : List Operation} (ho : load (jobs.file nM) = .ok (ops, nM)) {i i' : Individual X} {r : Nat}
    (hi : Arises E ops nM worst jobs.total i) (he : Evaluates E i i' r) :
    TotalOn (compareOps (i'.operations.size - 2)) i'.operations.toList ∧
    ∃ start : Nat → Nat → Nat, Feasible jobs start ∧
      (∀ j k m d, jobs.op? j k = some (m, d) → (i'.operations.get (jobs.number j k)).finishTime = some (start j k + d)) ∧
      ∃ ids, (∀ s, SolutionString i'.operations s ↔ s = joinIds ids) ∧ ids.Perm (List.range' 1 jobs.total) ∧
        ∀ j k m d j' k' m' d', jobs.op? j k = some (m, d) → jobs.op? j' k' = some (m', d') →
          ListedFirst (start j k + d) m (start j' k' + d') m' → Before ids (jobs.number j k) (jobs.number j' k') := by
  obtain ⟨st, h4, hd⟩ := done_of_evaluated h hA hD ho hi he
  have hsz : i'.operations.size - 2 = (jobs.shop nM).n := by rw [hd.size]; rfl
  rw [hsz]
  have hn : (jobs.shop nM).n = jobs.total := rfl
  refine ⟨hd.total, _, feasible_of_shop h4, ?_, ?_⟩
  · intro j k m d hop
    have a := number_spec nM hop
    rw [hd.done _ a.1, a.2.2.1]
  · -- a sorted list exists
    have hex : ∃ out, SortsTo (compareOps (jobs.shop nM).n) i'.operations.toList out := by
      exact hd.exists_sorted
    obtain ⟨out, hout⟩ := hex
    have hp := hd.perm hout
    have hord := hd.order hout
    refine ⟨solutionIds (jobs.shop nM).n out, ?_, hp, ?_⟩
    · intro s
      constructor
      · rintro ⟨-, out2, h1, rfl⟩
        rw [hsz] at h1
        rw [hsz]
        congr 1
        exact ((hd.perm h1).trans hp.symm).eq_of_pairwise (fun a b _ _ h1 h2 => (keyLt_asymm h1 h2).elim) (hd.order h1) hord
      · rintro rfl
        refine ⟨by rw [hd.size]; omega, out, ?_, ?_⟩
        · rw [hsz]; exact hout
        · rw [hsz]
    · intro j k m d j' k' m' d' h1 h2 hl
      have a := number_spec nM h1
      have b := number_spec nM h2
      have hmem : ∀ v, (jobs.shop nM).Reg v → v ∈ solutionIds (jobs.shop nM).n out := fun v hv => by
        rw [hp.mem_iff, List.mem_range'_1]; exact ⟨hv.1, by have := hv.2; omega⟩
      refine before_of_pairwise (fun _ _ => keyLt_asymm) hord (hmem _ a.1) (hmem _ b.1) ?_
      unfold keyLt
      beta_reduce
      rw [a.2.2.1, b.2.2.1, a.2.1, b.2.1]
      exact hl

/-- **C117, jobs**: the string lists the operations of a job in the order of the job. -/
theorem C117_jobs_in_order {jobs : Jobs} {nM worst : Nat} (h : jobs.Proper nM) (hA : jobs.Alternates) (hD : jobs.Positive)
    {ops : List Operation} (ho : load (jobs.file nM) = .ok (ops, nM)) {i i' : Individual X} {r : Nat}
    (hi : Arises E ops nM worst jobs.total i) (he : Evaluates E i i' r) :
    ∃ ids, SolutionString i'.operations (joinIds ids) ∧ ids.Perm (List.range' 1 jobs.total) ∧
      ∀ j k o o', jobs.op? j k = some o → jobs.op? j (k + 1) = some o' →
        Before ids (jobs.number j k) (jobs.number j (k + 1)) := by
  obtain ⟨-, start, hf, -, ids, h1, h2, h3⟩ := C117_solution_string h hA hD ho hi he
  refine ⟨ids, (h1 _).2 rfl, h2, ?_⟩
  rintro j k ⟨m, d⟩ ⟨m', d'⟩ h4 h5
  refine h3 j k m d j (k + 1) m' d' h4 h5 (.inl ?_)
  have := hf.order j k m d m' d' h4 h5
  have := hD j (k + 1) m' d' h5
  omega

/-- **C117, machines**: the string lists the operations of a machine in the order in which the machine works on them. -/
theorem C117_machines_in_order {jobs : Jobs} {nM worst : Nat} (h : jobs.Proper nM) (hA : jobs.Alternates) (hD : jobs.Positive)
    {ops : List Operation} (ho : load (jobs.file nM) = .ok (ops, nM)) {i i' : Individual X} {r : Nat}
    (hi : Arises E ops nM worst jobs.total i) (he : Evaluates E i i' r) :
    ∃ start : Nat → Nat → Nat, Feasible jobs start ∧ ∃ ids, SolutionString i'.operations (joinIds ids) ∧
      ∀ j k m d j' k' d', jobs.op? j k = some (m, d) → jobs.op? j' k' = some (m, d') → start j k < start j' k' →
        Before ids (jobs.number j k) (jobs.number j' k') := by
  obtain ⟨-, start, hf, -, ids, h1, h2, h3⟩ := C117_solution_string h hA hD ho hi he
  refine ⟨start, hf, ids, (h1 _).2 rfl, ?_⟩
  intro j k m d j' k' d' h4 h5 h6
  refine h3 j k m d j' k' m d' h4 h5 (.inl ?_)
  have hne : (j, k) ≠ (j', k') := by
    intro hc
    rw [Prod.mk.injEq] at hc
    rw [hc.1, hc.2] at h6
    omega
  have := hf.exclusive j k j' k' m d d' h4 h5 hne
  have := hD j' k' m d' h5
  have := hD j k m d h4
  omega

/-- An individual with a valid fitness carries the operations of an evaluation. -/
private theorem Arises.last_evaluation {ops : List Operation} {nM worst n : Nat} {i : Individual X} (hi : Arises E ops nM worst n i)
    (hv : i.isFitnessValid = true) :
    ∃ j j' r, Arises E ops nM worst n j ∧ Evaluates E j j' r ∧ i.operations = j'.operations := by
  induction hi with
  | fresh ch _ _ => cases hv
  | evaluated h1 h2 _ => exact ⟨_, _, _, h1, h2, rfl⟩
  | child ch _ _ _ _ => cases hv
  | written f _ ih => exact ih hv

end

section
variable {G X : Type} [Field X] [LinearOrder X] [IsStrictOrderedRing X] {R : Rng G X} {E : EvalOps X}
variable {jobs : Jobs} {nM worst : Nat} {ops : List Operation}

/-- **C117, runs**: after a run of the solver the reported best individual has exactly one possible solution string; it lists
every operation once and the operations of each job in order. -/
theorem C117_run (h : jobs.Proper nM) (hA : jobs.Alternates) (hD : jobs.Positive)
    (ho : load (jobs.file nM) = .ok (ops, nM)) (hE : ∀ ch : List X, UnitGenes ch → E.Sane ch) (keep : X)
    {elite sample : Nat → Nat} {elapsed : M G Nat} (hel : Returns elapsed fun _ => True) {p : Ga.GAParams}
    (hn : 0 < p.populationSize) (heven : p.populationSize % 2 = 0)
    (h1 : elite p.populationSize + sample p.populationSize ≤ p.populationSize)
    (h2 : 0 < elite p.populationSize + sample p.populationSize) (m0 : Ga.Metrics) :
    Returns (Ga.run (Indiv.trait X) (solverOps R E keep ops nM worst p.populationSize elite sample elapsed) p m0)
      fun r => TotalOn (compareOps (r.1.ind.operations.size - 2)) r.1.ind.operations.toList ∧
        ∃ ids, (∀ s, SolutionString r.1.ind.operations s ↔ s = joinIds ids) ∧ ids.Perm (List.range' 1 jobs.total) ∧
        ∀ j k o o', jobs.op? j k = some o → jobs.op? j (k + 1) = some o' →
          Before ids (jobs.number j k) (jobs.number j (k + 1)) := by
  refine (solves_of_staged (solver_staged (R := R) (worst := worst) h hA hD ho hE keep hel hn heven h1 h2) hn rfl m0).mono ?_
  rintro r ⟨hs, hsh⟩
  obtain ⟨pop, hpop, hb⟩ := hs.member
  have hb' := hsh pop hpop _ hb
  obtain ⟨j, j', q, a1, a2, a3⟩ := hb'.arises.last_evaluation hb'.done
  rw [a3]
  obtain ⟨b0, start, b1, -, ids, b2, b3, -⟩ := C117_solution_string h hA hD ho a1 a2
  obtain ⟨ids', c1, -, c3⟩ := C117_jobs_in_order h hA hD ho a1 a2
  have : ids' = ids := C117_string_injective ((b2 _).1 c1)
  subst this
  exact ⟨b0, ids', b2, b3, c3⟩

end

/-! ## Concrete cases -/

/-- Two jobs on two machines: the hypotheses of `C117_solution_string` hold, and the string lists the four operations. -/
example : ∃ ops i' r ids, load (twoJobs.file 2) = .ok (ops, 2) ∧
    Evaluates natEval (freshIndividual ops 2 1000 [1, 2, 3, 4, 1, 1, 1, 1]) i' r ∧
    (∀ s, SolutionString i'.operations s ↔ s = joinIds ids) ∧ ids.Perm [1, 2, 3, 4] := by
  obtain ⟨ops, h1, -, -⟩ := C100_loading twoJobs_proper
  have hi : Arises natEval ops 2 1000 twoJobs.total (freshIndividual ops 2 1000 [1, 2, 3, 4, 1, 1, 1, 1]) :=
    .fresh _ rfl (natEval_sane (by decide))
  obtain ⟨i', r, -, -, he, -⟩ := C66_evaluated_feasible twoJobs_proper twoJobs_alternates twoJobs_positive h1 hi
  obtain ⟨-, -, -, -, ids, h2, h3, -⟩ := C117_solution_string twoJobs_proper twoJobs_alternates twoJobs_positive h1 hi he
  exact ⟨ops, i', r, ids, h1, he, h2, h3⟩

/-- The comparison on the individual of `C102`: operations 3 and 5 both finish at time 2; 3 is on machine 0 and comes first. -/
example : (evaluate natEval 100 threeInd).map (fun p => (compareOps 6 (p.1.operations.get 3) (p.1.operations.get 5),
    compareOps 6 (p.1.operations.get 5) (p.1.operations.get 3), compareOps 6 (p.1.operations.get 2) (p.1.operations.get 3))) =
    .ok (.ok .lt, .ok .gt, .ok .gt) := by
  decide +kernel

/-- Ten individuals, the rates 0.1 and 0.2 of the example. -/
example : ∃ ops, load (twoJobs.file 2) = .ok (ops, 2) ∧
    Returns (Ga.run (Indiv.trait ℚ) (solverOps Ga.counterRng ratEval (3 / 5) ops 2 1000 10 (· / 10) (· / 5) (pure 0))
      ⟨10, 400, 1000⟩ ⟨0, 10, none⟩) fun r => ∃ ids, (∀ s, SolutionString r.1.ind.operations s ↔ s = joinIds ids) ∧ ids.Perm [1, 2, 3, 4] := by
  obtain ⟨ops, h1, -, -⟩ := C100_loading twoJobs_proper
  refine ⟨ops, h1, ?_⟩
  refine (C117_run (R := Ga.counterRng) (worst := 1000) (p := ⟨10, 400, 1000⟩) twoJobs_proper twoJobs_alternates
    twoJobs_positive h1 ratEval_sane (3 / 5) (elite := (· / 10)) (sample := (· / 5)) (elapsed := pure 0) (Returns.pure trivial)
    (by decide) (by decide) (by decide) (by decide) ⟨0, 10, none⟩).mono ?_
  rintro r ⟨-, ids, h2, h3, -⟩
  exact ⟨ids, h2, h3⟩

/-- Two jobs whose operations take no time. -/
def idleJobs : Jobs := [[(0, 0)], [(1, 0)]]

def idleOps : List Operation := (getOk ([], 0) (load (idleJobs.file 2))).1

/-- **C117**, violated without the hypothesis on durations: for an instance with operations of duration zero the comparison
says of the dummy operation and of operation 1, and of operations 1 and 2, that each is greater than the other; it is not an
order, and `sort_unstable_by` may then panic or return any permutation. -/
theorem C117_zero_durations_not_ordered : load (idleJobs.file 2) = .ok (idleOps, 2) ∧ idleJobs.Proper 2 ∧
    ∃ i' r, evaluate natEval 100 (freshIndividual idleOps 2 1000 [1, 1, 1, 1]) = .ok (i', r) ∧
      ¬ TotalOn (compareOps 2) i'.operations.toList := by
  refine ⟨rfl, ⟨by decide, by decide, by decide⟩, ?_⟩
  have val : (match evaluate natEval 100 (freshIndividual idleOps 2 1000 [1, 1, 1, 1]) with
    | .ok v => decide (2 < v.1.operations.size) && decide (v.1.operations.get 1 ≠ v.1.operations.get 2) &&
      decide (compareOps 2 (v.1.operations.get 1) (v.1.operations.get 2) = .ok .gt) &&
      decide (compareOps 2 (v.1.operations.get 2) (v.1.operations.get 1) = .ok .gt)
    | .error _ => false) = true := by decide +kernel
  split at val
  case h_2 => cases val
  case h_1 v hv =>
    refine ⟨v.1, v.2, hv, fun ht => ?_⟩
    simp only [Bool.and_eq_true, decide_eq_true_eq] at val
    obtain ⟨⟨⟨v1, v2⟩, v3⟩, v4⟩ := val
    have := ht.swap _ (Arr.mem_toList.2 ⟨1, by omega, rfl⟩) _ (Arr.mem_toList.2 ⟨2, v1, rfl⟩) v2 _ v3
    rw [v4] at this
    cases this

end Ecrs.Jssp
