import Verif.Jssp.Operators
import Verif.Props.Jssp
import Verif.Props.GaSolver
import Verif.Props.Selection
import Verif.Props.Population
import Verif.Props.Presets
import Verif.Ga.Staged
import Verif.Ga.CrossoverLocusLemmas
import Verif.CounterRng
import Mathlib.Data.List.Chain
import Mathlib.Tactic.Positivity

/-!
# Properties C65, C103-C106: operators and whole runs of the job shop example
-/

set_option linter.unusedSectionVars false

namespace Ecrs.Jssp
open Ecrs

/-! ## Replacement -/

section
variable {G I : Type}

theorem swapFold (elite : Nat) : ∀ (c j : Nat) (l ch : List I), elite + j + c ≤ l.length → j + c ≤ ch.length →
    ∃ ch', (M.fold (swapStep elite) (l, ch) (List.range' (elite + j) c) : M G _) =
      pure (l.take (elite + j) ++ (ch.drop j).take c ++ l.drop (elite + j + c), ch') := by
  intro c
  induction c with
  | zero => intro j l ch _ _; exact ⟨ch, by simp [M.fold]⟩
  | succ c ih =>
    intro j l ch h1 h2
    have hl : elite + j < l.length := by omega
    have hc : j < ch.length := by omega
    rw [List.range'_succ, M.fold]
    have hstep : (swapStep elite (l, ch) (elite + j) : M G _) =
        pure (l.set (elite + j) ch[j], ch.set j l[elite + j]) := by
      unfold swapStep
      rw [Nat.add_sub_cancel_left]
      simp only
      rw [Ga.idx_of_lt hl, pure_bind, Ga.idx_of_lt hc, pure_bind]
      unfold Ga.setIdx
      rw [if_pos hl, if_pos hc]
      rfl
    rw [hstep, pure_bind, Nat.add_assoc]
    obtain ⟨ch', h⟩ := ih (j + 1) (l.set (elite + j) ch[j]) (ch.set j l[elite + j]) (by rw [List.length_set]; omega)
      (by rw [List.length_set]; omega)
    refine ⟨ch', h.trans ?_⟩
    congr 2
    have e1 : (l.set (elite + j) ch[j]).take (elite + (j + 1)) = l.take (elite + j) ++ [ch[j]] := by
      rw [show elite + (j + 1) = (elite + j) + 1 by omega, List.take_succ_eq_append_getElem (by simpa using hl)]
      rw [List.take_set_of_le (Nat.le_refl _)]
      simp
    have e2 : (ch.set j l[elite + j]).drop (j + 1) = ch.drop (j + 1) := List.drop_set_of_lt (by omega)
    have e3 : (l.set (elite + j) ch[j]).drop (elite + (j + 1) + c) = l.drop (elite + j + (c + 1)) := by
      rw [List.drop_set_of_lt (by omega)]; congr 1; omega
    rw [e1, e2, e3, List.drop_eq_getElem_cons hc, List.take_succ_cons]
    simp

theorem mergeSort_key (key : I → Nat) (l : List I) :
    (l.mergeSort fun a b => decide (key a ≤ key b)).Pairwise fun a b => key a ≤ key b := by
  refine (List.pairwise_mergeSort ?_ ?_ l).imp ?_
  · intro a b c h1 h2; simp at *; omega
  · intro a b; simp; omega
  · intro a b h; simpa using h

/-- **C65**: the replacement returns a population of the same size: the `elite` best individuals, the first children, and
freshly generated individuals. -/
theorem C65_replacement {key : I → Nat} {gen : Nat → M G (List I)} {elite sample : Nat → Nat} {pop children : List I}
    {New : List I → Prop} (h1 : elite pop.length + sample pop.length ≤ pop.length)
    (h2 : 0 < elite pop.length + sample pop.length)
    (h3 : pop.length - elite pop.length - sample pop.length ≤ children.length)
    (h4 : Returns (gen (sample pop.length)) fun l => l.length = sample pop.length ∧ New l) :
    Returns (replace key gen elite sample pop children) fun out => out.length = pop.length ∧
      ∃ kept rest new, out = kept ++ children.take (pop.length - elite pop.length - sample pop.length) ++ new ∧
        kept.length = elite pop.length ∧ (kept ++ rest).Perm pop ∧ (∀ x ∈ kept, ∀ y ∈ rest, key x ≤ key y) ∧
        new.length = sample pop.length ∧ (new ≠ [] → New new) := by
  unfold replace
  refine Returns.bind (Returns.assert (by simpa using h1)) fun _ _ => ?_
  refine Returns.bind (Returns.assert (by simp; omega)) fun _ _ => ?_
  generalize hs : (if 0 < elite pop.length then pop.mergeSort (fun a b => decide (key a ≤ key b)) else pop) = sorted
  generalize elite pop.length = e at *
  generalize sample pop.length = s at *
  have hperm : sorted.Perm pop := by
    rw [← hs]; split
    · exact List.mergeSort_perm _ _
    · exact List.Perm.refl _
  have hlen : sorted.length = pop.length := hperm.length_eq
  obtain ⟨ch', hf⟩ := swapFold (G := G) e (pop.length - e - s) 0 sorted children (by omega) (by omega)
  simp only [Nat.add_zero, List.drop_zero] at hf
  simp only
  rw [hf, pure_bind]
  simp only
  have hkept : ∀ x ∈ sorted.take e, ∀ y ∈ sorted.drop e, key x ≤ key y := by
    intro x hx y hy
    by_cases he : 0 < e
    · rw [if_pos he] at hs
      have hp := mergeSort_key key pop
      rw [hs, ← List.take_append_drop e sorted, List.pairwise_append] at hp
      exact hp.2.2 x hx y hy
    · have : e = 0 := by omega
      subst this; simp at hx
  have hA : (sorted.take e ++ children.take (pop.length - e - s)).length = e + (pop.length - e - s) := by
    simp; omega
  unfold spliceSamples
  by_cases hz : 0 < s
  · rw [if_pos hz]
    refine Returns.bind h4 fun new hn => Returns.pure ?_
    rw [List.take_append_of_le_length (by omega), ← hA, List.take_length]
    refine ⟨by simp [hn.1]; omega, sorted.take e, sorted.drop e, new, rfl, by simp; omega, ?_, hkept, hn.1, fun _ => hn.2⟩
    rw [List.take_append_drop]; exact hperm
  · rw [if_neg hz]
    have hz' : s = 0 := by omega
    subst hz'
    have hd : sorted.drop (e + (pop.length - e - 0)) = [] := List.drop_of_length_le (by omega)
    rw [hd]
    refine Returns.pure ⟨by simp; omega, sorted.take e, sorted.drop e, [], rfl, by simp; omega, ?_, hkept, rfl, fun h => absurd rfl h⟩
    rw [List.take_append_drop]; exact hperm

/-- **C65**: with at least one elite place the best individual survives. -/
theorem C65_best_survives {key : I → Nat} {gen : Nat → M G (List I)} {elite sample : Nat → Nat} {pop children : List I}
    (h1 : elite pop.length + sample pop.length ≤ pop.length) (h2 : 0 < elite pop.length)
    (h3 : pop.length - elite pop.length - sample pop.length ≤ children.length)
    (h4 : Returns (gen (sample pop.length)) fun l => l.length = sample pop.length) :
    Returns (replace key gen elite sample pop children) fun out => ∃ b ∈ out, b ∈ pop ∧ ∀ x ∈ pop, key b ≤ key x := by
  refine (C65_replacement (key := key) (New := fun _ => True) h1 (by omega) h3 (h4.mono fun _ h => ⟨h, trivial⟩)).mono ?_
  rintro out ⟨-, kept, rest, new, ho, hk, hp, hle, -, -⟩
  have hne : kept ≠ [] := by rintro rfl; simp at hk; omega
  obtain ⟨b, hb, hmin⟩ : ∃ b ∈ kept, ∀ x ∈ kept, key b ≤ key x := by
    clear ho hk hp hle
    induction kept with
    | nil => exact absurd rfl hne
    | cons a l ih =>
      by_cases hl : l = []
      · subst hl; exact ⟨a, by simp, by simp⟩
      · obtain ⟨b, hb, hm⟩ := ih hl
        rcases Nat.le_total (key a) (key b) with h | h
        · exact ⟨a, by simp, by intro x hx; rcases List.mem_cons.1 hx with rfl | hx; exact Nat.le_refl _; exact Nat.le_trans h (hm x hx)⟩
        · exact ⟨b, by simp [hb], by intro x hx; rcases List.mem_cons.1 hx with rfl | hx; exact h; exact hm x hx⟩
  refine ⟨b, by rw [ho]; simp [hb], hp.subset (by simp [hb]), fun x hx => ?_⟩
  rcases List.mem_append.1 (hp.symm.subset hx) with h | h
  · exact hmin x h
  · exact hle b hb x h

/-- **C65**: it panics when there is neither an elite nor a sample (rates 0.1 and 0.2: up to four individuals), when the two
exceed the population, and when there are too few children. -/
theorem C65_replacement_panics {key : I → Nat} {gen : Nat → M G (List I)} {elite sample : Nat → Nat} {pop children : List I}
    (h : elite pop.length + sample pop.length = 0 ∨ pop.length < elite pop.length + sample pop.length ∨
      children.length < pop.length - elite pop.length - sample pop.length) :
    Panics (replace key gen elite sample pop children) := by
  unfold replace
  by_cases h1 : elite pop.length + sample pop.length ≤ pop.length
  swap
  · exact Panics.bind_left (Panics.assert (by simpa using h1))
  refine Panics.bind_right IfReturns.trivial fun _ _ => ?_
  by_cases h2 : 0 < elite pop.length + sample pop.length
  swap
  · exact Panics.bind_left (Panics.assert (by simp; omega))
  refine Panics.bind_right IfReturns.trivial fun _ _ => ?_
  refine Panics.bind_left ?_
  have hc : children.length < pop.length - elite pop.length - sample pop.length := by omega
  have hlen : (if 0 < elite pop.length then pop.mergeSort (fun a b => decide (key a ≤ key b)) else pop).length = pop.length := by
    split
    · exact List.length_mergeSort _
    · rfl
  generalize (if 0 < elite pop.length then pop.mergeSort (fun a b => decide (key a ≤ key b)) else pop) = sorted at hlen
  have key' : ∀ (c j : Nat) (l ch : List I), ch.length < j + c → j ≤ ch.length →
      Panics (M.fold (swapStep (elite pop.length)) (l, ch) (List.range' (elite pop.length + j) c) : M G _) := by
    intro c
    induction c with
    | zero => intro j l ch h h'; omega
    | succ c ih =>
      intro j l ch h h'
      rw [List.range'_succ, M.fold]
      by_cases hj : j = ch.length
      · refine Panics.bind_left ?_
        unfold swapStep
        refine Panics.bind_right IfReturns.trivial fun a _ => ?_
        refine Panics.bind_left ?_
        unfold Ga.idx
        rw [Nat.add_sub_cancel_left]
        simp only
        rw [List.getElem?_eq_none (by omega)]
        exact Panics.fail
      · refine Panics.bind_right (P := fun st => st.2.length = ch.length) ?_ fun st hst => ?_
        · unfold swapStep
          refine IfReturns.bind IfReturns.trivial fun a _ => IfReturns.bind IfReturns.trivial fun b _ =>
            IfReturns.bind IfReturns.trivial fun p _ => IfReturns.bind (P := fun c : List I => c.length = ch.length) ?_ fun c hc => IfReturns.pure hc
          unfold Ga.setIdx
          split
          · exact IfReturns.pure (by simp)
          · exact IfReturns.fail
        · obtain ⟨l', ch'⟩ := st
          simp only at hst
          rw [Nat.add_assoc]
          exact ih (j + 1) l' ch' (by omega) (by omega)
  exact key' _ 0 sorted children (by omega) (by omega)

/-- The hypotheses are met with ten individuals, the rates 0.1 and 0.2 and ten children. -/
example : Returns (replace (G := Unit) id (fun k => pure (List.replicate k 77)) (· / 10) (· / 5) [9, 3, 8, 5, 6, 4, 7, 2, 10, 11]
    [20, 21, 22, 23, 24, 25, 26, 27, 28, 29]) fun out => ∃ b ∈ out, b ∈ [9, 3, 8, 5, 6, 4, 7, 2, 10, 11] ∧
      ∀ x ∈ [9, 3, 8, 5, 6, 4, 7, 2, 10, 11], b ≤ x :=
  C65_best_survives (key := id) (elite := (· / 10)) (sample := (· / 5)) (by decide) (by decide) (by decide) (Returns.pure (by decide))

end

/-! ## Crossover -/

section
variable {G X : Type} [Field X] [LinearOrder X] (R : Rng G X)

/-- **C104**: of every pair of children one has, at each locus, the gene of one parent and the other that of the other parent;
apart from the chromosome they are clones of their parents, and marked as not evaluated. -/
theorem C104_crossover {keep : X} {sel : List (Indiv X)}
    (h : Ga.Pairs (fun a b : Indiv X => a.ind.chromosome.length = b.ind.chromosome.length) sel) :
    Returns (cross R keep sel) (Ga.PairsRel (fun a b c d =>
      (∃ ch, c.ind = { a.ind with chromosome := ch, isFitnessValid := false } ∧ c.fit = a.fit) ∧
      (∃ ch, d.ind = { b.ind with chromosome := ch, isFitnessValid := false } ∧ d.fit = b.fit) ∧
      c.ind.chromosome.length = a.ind.chromosome.length ∧ d.ind.chromosome.length = a.ind.chromosome.length ∧
      ∀ k : Nat, (c.ind.chromosome[k]? = a.ind.chromosome[k]? ∧ d.ind.chromosome[k]? = b.ind.chromosome[k]?) ∨
        (c.ind.chromosome[k]? = b.ind.chromosome[k]? ∧ d.ind.chromosome[k]? = a.ind.chromosome[k]?)) sel) := by
  unfold cross
  apply Ga.applyPairs_returns
  induction h with
  | nil => exact .nil
  | @cons a b rest hab _ ih =>
    refine .cons ?_ ih
    unfold crossSingle
    refine Returns.bind (Returns.replicate R.genUnit_returns _) fun vals hv => ?_
    generalize hm : (vals.map fun v => decide (v ≤ keep)) = mask
    have hml : mask.length = a.ind.chromosome.length := by rw [← hm]; simp [hv.1]
    rw [Ga.maskLoci_eq _ _ mask 0 (by omega) hab, pure_bind]
    simp only [List.drop_zero]
    have e1 : (Ga.mix mask a.ind.chromosome b.ind.chromosome).length = a.ind.chromosome.length := Ga.mix_length _ _ _ hml hab
    have e2 : (Ga.mix mask b.ind.chromosome a.ind.chromosome).length = b.ind.chromosome.length :=
      Ga.mix_length _ _ _ (by omega) hab.symm
    rw [Ga.map_fst_zip' (by omega), Ga.map_snd_zip' (by omega)]
    refine Returns.pure ⟨⟨_, rfl, rfl⟩, ⟨_, rfl, rfl⟩, e1, e2.trans hab.symm, fun k => ?_⟩
    show ((Ga.mix mask _ _)[k]? = _ ∧ (Ga.mix mask _ _)[k]? = _) ∨ ((Ga.mix mask _ _)[k]? = _ ∧ (Ga.mix mask _ _)[k]? = _)
    rw [Ga.mix_getElem? _ _ _ _ hml hab, Ga.mix_getElem? _ _ _ _ (by omega) hab.symm]
    by_cases ht : mask[k]? = some true
    · left; rw [if_pos ht, if_pos ht]; exact ⟨rfl, rfl⟩
    · right; rw [if_neg ht, if_neg ht]; exact ⟨rfl, rfl⟩

end

/-! ## Whole runs -/

section
variable {G X : Type} [Field X] [LinearOrder X] [IsStrictOrderedRing X] {R : Rng G X} {E : EvalOps X}

/-- A time at which some feasible schedule of the jobs ends. -/
def Makespan (jobs : Jobs) (t : Nat) : Prop := ∃ start, Feasible jobs start ∧ EndsAt jobs start t

/-- Genes as the population generator draws them. -/
def UnitGenes (ch : List X) : Prop := ∀ x ∈ ch, 0 ≤ x ∧ x < 1

/-- Invariant of all individuals of a run. -/
structure Known (E : EvalOps X) (jobs : Jobs) (ops : List Operation) (nM worst : Nat) (i : Indiv X) : Prop where
  fit : i.fit = .num i.ind.fitness
  arises : Arises E ops nM worst jobs.total i.ind
  genes : UnitGenes i.ind.chromosome
  len : i.ind.chromosome.length = 2 * jobs.total
  valid : i.ind.isFitnessValid = true → Makespan jobs i.ind.fitness
  value : i.ind.isFitnessValid = true → ∃ j j' : Individual X, Arises E ops nM worst jobs.total j ∧ UnitGenes j.chromosome ∧
    Evaluates E j j' i.ind.fitness

/-- Invariant of the evaluated individuals of a run. -/
structure Shown (E : EvalOps X) (jobs : Jobs) (ops : List Operation) (nM worst : Nat) (i : Indiv X) : Prop
    extends Known E jobs ops nM worst i where
  done : i.ind.isFitnessValid = true

variable {jobs : Jobs} {nM worst : Nat} {ops : List Operation}

theorem generate_returns (hl : ops.length = jobs.total + 2) (hE : ∀ ch : List X, UnitGenes ch → E.Sane ch) (count : Nat) :
    Returns (generate R ops nM worst count) fun pop => pop.length = count ∧ ∀ i ∈ pop, Known E jobs ops nM worst i := by
  unfold generate Ga.generateWithSingleConstraint
  refine Returns.bind (Ga.generateWithConstraints_returns R (n := count) (by simp)) fun pts hp => Returns.pure ⟨by simp [hp.1], ?_⟩
  intro i hi
  obtain ⟨ch, hch, rfl⟩ := List.mem_map.1 hi
  have h1 := hp.2 ch hch
  have hu : UnitGenes ch := by
    intro x hx
    obtain ⟨k, hk⟩ := List.mem_iff_getElem?.1 hx
    obtain ⟨hk', rfl⟩ := List.getElem?_eq_some_iff.1 hk
    have := h1.2.get (i := k) (by simpa [h1.1] using hk') hk'
    have h2 : (0 ≤ ch[k] ∧ ch[k] ≤ 1) ∧ ch[k] < 1 := by simpa [Ga.Within] using this
    exact ⟨h2.1.1, h2.2⟩
  have hlen : ch.length = 2 * jobs.total := by rw [h1.1, hl]; simp
  exact ⟨rfl, .fresh ch hlen (hE ch hu), hu, hlen, (by intro h; cases h), (by intro h; cases h)⟩

theorem eval_returns (h : jobs.Proper nM) (hA : jobs.Alternates) (hD : jobs.Positive) (ho : load (jobs.file nM) = .ok (ops, nM))
    {O : Ga.Ops G (Indiv X) Nat} (hO : O.fitnessFn = fitnessFn E) {i : Indiv X} (hi : Known E jobs ops nM worst i) :
    Returns (Ga.evalOne (Indiv.trait X) O i) (Shown E jobs ops nM worst) := by
  unfold Ga.evalOne
  by_cases hv : i.ind.isFitnessValid = true
  · rw [if_neg (by simp [Indiv.trait, hv])]
    exact Returns.pure ⟨hi, hv⟩
  · rw [if_pos (by simpa [Indiv.trait] using hv), hO]
    obtain ⟨i', r, -, -, he, -⟩ := C66_evaluated_feasible h hA hD ho hi.arises
    have hex : ∃ p : Individual X × Nat, Evaluates E i.ind p.1 p.2 := ⟨(i', r), he⟩
    refine Returns.bind (P := fun p => p = ((⟨i', .num r⟩, .num r) : Indiv X × Fl Nat)) ?_ ?_
    · intro g
      have hc := hex.choose_spec.unique he
      have h5 := (C95_fitness_is_a_makespan h hA hD ho hi.arises he).1
      refine ⟨_, g, ?_, rfl⟩
      unfold fitnessFn
      rw [dif_pos hex, hc.1, hc.2, h5]
    · rintro p rfl
      obtain ⟨a1, a2, a3, a4⟩ := C95_fitness_is_a_makespan h hA hD ho hi.arises he
      refine Returns.pure ?_
      have e : (Indiv.trait X).setFitness ⟨i', .num r⟩ (.num r) = ⟨i', .num r⟩ := by
        show (⟨{ i' with fitness := r }, .num r⟩ : Indiv X) = _
        rw [← a1]
      show Shown E jobs ops nM worst ((Indiv.trait X).setFitness ⟨i', .num r⟩ (.num r))
      rw [e]
      exact ⟨⟨by show Fl.num r = .num i'.fitness; rw [a1], .evaluated hi.arises he, by show UnitGenes i'.chromosome; rw [a3]; exact hi.genes,
        by show i'.chromosome.length = _; rw [a3]; exact hi.len, fun _ => by show Makespan jobs i'.fitness; rw [a1]; exact a4,
        fun _ => ⟨i.ind, i', hi.arises, hi.genes, by show Evaluates E i.ind i' i'.fitness; rw [a1]; exact he⟩⟩, a2⟩

theorem pairs_of_even {I : Type} {P : I → I → Prop} : ∀ (n : Nat) (l : List I), l.length = 2 * n →
    (∀ a ∈ l, ∀ b ∈ l, P a b) → Ga.Pairs P l
  | 0, [], _, _ => .nil
  | 0, _ :: _, h, _ => by simp at h
  | n + 1, [], h, _ => by simp at h
  | n + 1, [_], h, _ => by simp at h; omega
  | n + 1, a :: b :: l, h, hP => .cons (hP a (by simp) b (by simp)) (pairs_of_even n l (by simp at h; omega)
      fun x hx y hy => hP x (by simp [hx]) y (by simp [hy]))

theorem pairsRel_all {I : Type} {Q : I → I → I → I → Prop} {S P : I → Prop} {sel out : List I} (h : Ga.PairsRel Q sel out)
    (hs : ∀ i ∈ sel, S i) (hQ : ∀ a b c d, S a → S b → Q a b c d → P c ∧ P d) : ∀ i ∈ out, P i := by
  induction h with
  | nil => intro i hi; cases hi
  | @cons a b c d sel out h1 _ ih =>
    have hh := hQ a b c d (hs a (by simp)) (hs b (by simp)) h1
    intro i hi
    rcases List.mem_cons.1 hi with rfl | hi
    · exact hh.1
    rcases List.mem_cons.1 hi with rfl | hi
    · exact hh.2
    exact ih (fun i hi => hs i (by simp [hi])) i hi

/-- Children of evaluated individuals. -/
theorem known_child (hE : ∀ ch : List X, UnitGenes ch → E.Sane ch) {a b c : Indiv X} (ha : Shown E jobs ops nM worst a)
    (hb : Shown E jobs ops nM worst b)
    (hc : ∃ ch, c.ind = { a.ind with chromosome := ch, isFitnessValid := false } ∧ c.fit = a.fit)
    (hl : c.ind.chromosome.length = a.ind.chromosome.length)
    (hg : ∀ k : Nat, c.ind.chromosome[k]? = a.ind.chromosome[k]? ∨ c.ind.chromosome[k]? = b.ind.chromosome[k]?) :
    Known E jobs ops nM worst c := by
  obtain ⟨ch, h1, h2⟩ := hc
  have hch : c.ind.chromosome = ch := by rw [h1]
  have hu : UnitGenes c.ind.chromosome := by
    intro x hx
    obtain ⟨k, hk⟩ := List.mem_iff_getElem?.1 hx
    rcases hg k with h | h
    · exact ha.genes x (List.mem_iff_getElem?.2 ⟨k, h ▸ hk⟩)
    · exact hb.genes x (List.mem_iff_getElem?.2 ⟨k, h ▸ hk⟩)
  have hlen := hl.trans ha.len
  refine ⟨by rw [h2, ha.fit, h1], ?_, hu, hlen, fun hv => (by rw [h1] at hv; cases hv), fun hv => (by rw [h1] at hv; cases hv)⟩
  rw [h1]
  rw [hch] at hlen hu
  exact .child ch ha.arises hlen (hE ch hu)

theorem solver_staged (h : jobs.Proper nM) (hA : jobs.Alternates) (hD : jobs.Positive)
    (ho : load (jobs.file nM) = .ok (ops, nM)) (hE : ∀ ch : List X, UnitGenes ch → E.Sane ch) (keep : X)
    {elite sample : Nat → Nat} {elapsed : M G Nat} (hel : Returns elapsed fun _ => True) {n : Nat} (hn : 0 < n)
    (heven : n % 2 = 0) (h1 : elite n + sample n ≤ n) (h2 : 0 < elite n + sample n) :
    Ga.Staged (Indiv.trait X) (solverOps R E keep ops nM worst n elite sample elapsed) (Known E jobs ops nM worst)
      (Shown E jobs ops nM worst) n n n := by
  have hops : ops.length = jobs.total + 2 := by
    obtain ⟨ops', h3, h4, -⟩ := C100_loading h
    rw [ho] at h3
    cases h3; exact h4
  have hgen := generate_returns (R := R) (jobs := jobs) (nM := nM) (worst := worst) hops hE
  refine ⟨fun i hi => hi.toKnown, fun i hi => ?_, fun i hi => eval_returns h hA hD ho rfl hi, hgen n, ?_, ?_,
    fun m i hi => Returns.pure hi, ?_, hel⟩
  · show i.fit.IsNum
    rw [hi.fit]; trivial
  · intro m pop hl hp
    exact (Ga.C28_rank R (Indiv.trait X) (by omega)).mono fun pool hpool => ⟨hpool.1, fun i hi => hp i (hpool.2 i hi).1⟩
  · intro m pool hl hp
    refine (C104_crossover R (keep := keep) (sel := pool) (pairs_of_even (n / 2) pool (by omega)
      fun a ha b hb => (hp a ha).len.trans (hp b hb).len.symm)).mono fun out hout => ⟨hout.length.trans hl, ?_⟩
    refine pairsRel_all hout hp ?_
    rintro a b c d ha hb ⟨q1, q2, q3, q4, q5⟩
    refine ⟨known_child hE ha hb q1 q3 fun k => ?_, known_child hE hb ha q2 (q4.trans (ha.len.trans hb.len.symm)) fun k => ?_⟩
    · rcases q5 k with q | q
      · exact .inl q.1
      · exact .inr q.1
    · rcases q5 k with q | q
      · exact .inl q.2
      · exact .inr q.2
  · intro m pop children hl hc hp hch
    refine (C65_replacement (New := fun l => ∀ i ∈ l, Known E jobs ops nM worst i) (by rw [hl]; exact h1) (by rw [hl]; exact h2)
      (by omega) (hgen _)).mono ?_
    rintro out ⟨q1, kept, rest, new, q2, q3, q4, -, q5, q6⟩
    refine ⟨q1.trans hl, fun i hi => ?_⟩
    rw [q2] at hi
    rcases List.mem_append.1 hi with hi | hi
    · rcases List.mem_append.1 hi with hi | hi
      · exact (hp i (q4.subset (by simp [hi]))).toKnown
      · exact hch i (List.mem_of_mem_take hi)
    · exact q6 (List.ne_nil_of_mem hi) i hi

theorem randomSearch_staged (h : jobs.Proper nM) (hA : jobs.Alternates) (hD : jobs.Positive)
    (ho : load (jobs.file nM) = .ok (ops, nM)) (hE : ∀ ch : List X, UnitGenes ch → E.Sane ch)
    {elapsed : M G Nat} (hel : Returns elapsed fun _ => True) {n : Nat} :
    Ga.Staged (Indiv.trait X) (randomSearchOps R E ops nM worst elapsed) (Known E jobs ops nM worst)
      (Shown E jobs ops nM worst) n 0 0 := by
  have hops : ops.length = jobs.total + 2 := by
    obtain ⟨ops', h3, h4, -⟩ := C100_loading h
    rw [ho] at h3
    cases h3; exact h4
  have hgen := generate_returns (R := R) (jobs := jobs) (nM := nM) (worst := worst) hops hE
  refine ⟨fun i hi => hi.toKnown, fun i hi => ?_, fun i hi => eval_returns h hA hD ho rfl hi, hgen n, ?_, ?_,
    fun m i hi => Returns.pure hi, ?_, hel⟩
  · show i.fit.IsNum
    rw [hi.fit]; trivial
  · intro m pop hl hp
    exact Returns.pure ⟨rfl, by simp⟩
  · intro m pool hl hp
    have : pool = [] := List.eq_nil_of_length_eq_zero hl
    subst this
    refine (Ga.applyPairs_returns (Q := fun _ _ _ _ => True) .nil).mono fun out ho => ?_
    cases ho
    exact ⟨rfl, by simp⟩
  · intro m pop children hl hc hp hch
    exact (hgen pop.length).mono fun out q => ⟨q.1.trans hl, q.2⟩

/-- What every run promises about the individual it returns and the populations it shows. -/
structure Solves (jobs : Jobs) (best : Indiv X) (tr : List (Ga.Ev (Indiv X))) : Prop where
  achievable : Makespan jobs best.ind.fitness
  least : ∀ pop ∈ Ga.shownPops tr, ∀ i ∈ pop, Makespan jobs i.ind.fitness ∧ best.ind.fitness ≤ i.ind.fitness
  member : ∃ pop ∈ Ga.shownPops tr, best ∈ pop

theorem solves_of_staged {O : Ga.Ops G (Indiv X) Nat} {n k c : Nat} {p : Ga.GAParams}
    (hs : Ga.Staged (Indiv.trait X) O (Known E jobs ops nM worst) (Shown E jobs ops nM worst) n k c) (hn : 0 < n)
    (hp : p.populationSize = n) (m0 : Ga.Metrics) :
    Returns (Ga.run (Indiv.trait X) O p m0) fun r => Solves jobs r.1 r.2 ∧ ∀ pop ∈ Ga.shownPops r.2, ∀ i ∈ pop, Shown E jobs ops nM worst i := by
  intro g
  obtain ⟨⟨best, tr⟩, g', h1, h2, h3⟩ := hs.run p hn hp m0 g
  refine ⟨(best, tr), g', h1, ?_⟩
  have hsh : ∀ pop ∈ Ga.shownPops tr, ∀ i ∈ pop, Shown E jobs ops nM worst i := by
    intro pop hpop
    obtain ⟨e, he, he'⟩ := List.mem_filterMap.1 hpop
    have := h3 e he
    cases e <;> simp at he' <;> subst he' <;> exact this
  have hle := Ga.C01_result_le_all (Indiv.trait X) O p h1 fun pop hpop => .inr fun i hi => by
    show i.fit.IsNum
    rw [(hsh pop hpop i hi).fit]; trivial
  refine ⟨⟨h2.valid h2.done, fun pop hpop i hi => ⟨(hsh pop hpop i hi).valid (hsh pop hpop i hi).done, ?_⟩,
    (Ga.C01_result_is_best (Indiv.trait X) O p h1).1⟩, hsh⟩
  have := hle pop hpop i hi
  have e1 : (Indiv.trait X).fitness best = .num best.ind.fitness := h2.fit
  have e2 : (Indiv.trait X).fitness i = .num i.ind.fitness := (hsh pop hpop i hi).fit
  rw [e1, e2] at this
  exact this

/-- **C103**: solving any instance (in which no job uses a machine twice in a row and durations are positive) with a population
of even size returns, without panic; the fitness of the returned individual is the makespan of a feasible schedule and no
individual of any generation has a smaller one. -/
theorem C103_solver_run (h : jobs.Proper nM) (hA : jobs.Alternates) (hD : jobs.Positive)
    (ho : load (jobs.file nM) = .ok (ops, nM)) (hE : ∀ ch : List X, UnitGenes ch → E.Sane ch) (keep : X)
    {elite sample : Nat → Nat} {elapsed : M G Nat} (hel : Returns elapsed fun _ => True) {p : Ga.GAParams}
    (hn : 0 < p.populationSize) (heven : p.populationSize % 2 = 0)
    (h1 : elite p.populationSize + sample p.populationSize ≤ p.populationSize)
    (h2 : 0 < elite p.populationSize + sample p.populationSize) (m0 : Ga.Metrics) :
    Returns (Ga.run (Indiv.trait X) (solverOps R E keep ops nM worst p.populationSize elite sample elapsed) p m0)
      fun r => Solves jobs r.1 r.2 :=
  (solves_of_staged (solver_staged h hA hD ho hE keep hel hn heven h1 h2) hn rfl m0).mono fun _ h => h.1

/-- **C105**: random search returns, for every positive population size, the best of all individuals it generated. -/
theorem C105_random_search_run (h : jobs.Proper nM) (hA : jobs.Alternates) (hD : jobs.Positive)
    (ho : load (jobs.file nM) = .ok (ops, nM)) (hE : ∀ ch : List X, UnitGenes ch → E.Sane ch)
    {elapsed : M G Nat} (hel : Returns elapsed fun _ => True) {p : Ga.GAParams}
    (hn : 0 < p.populationSize) (m0 : Ga.Metrics) :
    Returns (Ga.run (Indiv.trait X) (randomSearchOps R E ops nM worst elapsed) p m0) fun r => Solves jobs r.1 r.2 :=
  (solves_of_staged (randomSearch_staged h hA hD ho hE hel) hn rfl m0).mono fun _ h => h.1

/-- **C103**, violated for odd population sizes, which the command line accepts: every run of at least one generation panics. -/
theorem C103_odd_population_panics (keep : X) (elite sample : Nat → Nat) (elapsed : M G Nat) {p : Ga.GAParams}
    (hodd : p.populationSize % 2 = 1) (hg : 1 ≤ p.generationLimit) (m0 : Ga.Metrics) :
    Panics (Ga.run (Indiv.trait X) (solverOps R E keep ops nM worst p.populationSize elite sample elapsed) p m0) := by
  refine Ga.run_panics_of_cross _ _ (Q := fun pool => pool.length = p.populationSize) ?_ ?_ hg m0
  · intro m pop
    exact (IfReturns.replicate IfReturns.trivial _).mono fun _ h => h.1
  · intro m pool hl
    exact Panics.bind_left (Panics.assert (by rw [hl, hodd]; rfl))

/-- **C103**, violated for populations so small that neither rate gives an individual (rates 0.1 and 0.2: at most four, which
is the default for instances of up to two operations): every run of at least one generation panics. -/
theorem C103_small_population_panics (keep : X) {elite sample : Nat → Nat} (elapsed : M G Nat) {p : Ga.GAParams}
    (hs : elite p.populationSize + sample p.populationSize = 0) (hg : 1 ≤ p.generationLimit) (m0 : Ga.Metrics) :
    Panics (Ga.run (Indiv.trait X) (solverOps R E keep ops nM worst p.populationSize elite sample elapsed) p m0) := by
  unfold Ga.run
  have hpl : ∀ (O : Ga.Ops G (Indiv X) Nat) (l : List (Indiv X)), IfReturns (Ga.evalPop (Indiv.trait X) O l) fun l' => l'.length = l.length :=
    fun O l w l' w' h => Ga.evalPop_length _ _ h
  refine Panics.bind_right (P := fun s => s.pop.length = p.populationSize) ?_ fun s hpop => Panics.bind_left ?_
  · intro w s w' hw
    obtain ⟨pop0, wa, wb, d, h1, h2, -⟩ := Ga.prologue_ok _ _ _ hw
    rw [hpl _ _ _ _ _ h2]
    have : IfReturns (generate R ops nM worst p.populationSize) fun l => l.length = p.populationSize := by
      unfold generate Ga.generateWithSingleConstraint
      exact IfReturns.bind (Ga.generateWithConstraints_returns R (by simp)).ifReturns fun pts hp => IfReturns.pure (by simp [hp.1])
    exact this _ _ _ h1
  · obtain ⟨k, hk⟩ : ∃ k, p.generationLimit = k + 1 := ⟨p.generationLimit - 1, by omega⟩
    rw [hk]
    unfold Ga.loop
    refine Panics.bind_left ?_
    unfold Ga.iteration
    refine Panics.bind_right IfReturns.trivial fun d _ => ?_
    refine Panics.bind_right (hpl _ _) fun pop hl => ?_
    refine Panics.bind_right IfReturns.trivial fun pool _ => ?_
    refine Panics.bind_right IfReturns.trivial fun crossed _ => ?_
    refine Panics.bind_right IfReturns.trivial fun mutated _ => ?_
    refine Panics.bind_right IfReturns.trivial fun children _ => ?_
    refine Panics.bind_left ?_
    exact C65_replacement_panics (.inl (by rw [hl, hpop]; exact hs))

/-! ## The best fitness from generation to generation -/

/-- The smaller of two populations' best fitness is that of the second. -/
def NoWorse (a b : List (Indiv X)) : Prop := ∃ x ∈ b, ∀ y ∈ a, x.ind.fitness ≤ y.ind.fitness

theorem evalOne_shown {O : Ga.Ops G (Indiv X) Nat} {i : Indiv X} (hi : Shown E jobs ops nM worst i) :
    Ga.evalOne (Indiv.trait X) O i = pure i := by
  unfold Ga.evalOne
  rw [if_neg (by simp [Indiv.trait, hi.done])]

theorem evalPop_shown {O : Ga.Ops G (Indiv X) Nat} : ∀ {l l' : List (Indiv X)} {w w' : G},
    Ga.evalPop (Indiv.trait X) O l w = .ok (l', w') → ∀ i ∈ l, Shown E jobs ops nM worst i → i ∈ l' := by
  intro l
  induction l with
  | nil => intro l' w w' _ i hi; cases hi
  | cons a l ih =>
    intro l' w w' h i hi hs
    unfold Ga.evalPop M.forEach at h
    obtain ⟨y, w1, h1, h2⟩ := M.bind_ok_iff.1 h
    obtain ⟨ys, w2, h3, h4⟩ := M.bind_ok_iff.1 h2
    have h5 := (Prod.mk.inj (M.pure_ok_iff.1 h4)).1
    subst h5
    rcases List.mem_cons.1 hi with rfl | hi
    · rw [evalOne_shown hs] at h1
      have := (Prod.mk.inj (M.pure_ok_iff.1 h1)).1
      subst this
      simp
    · exact List.mem_cons_of_mem _ (ih h3 i hi hs)

/-- **C65, C103**: with at least one elite place the best fitness of the population never gets worse from one generation to the
next. -/
theorem C65_generations_never_worsen (h : jobs.Proper nM) (hA : jobs.Alternates) (hD : jobs.Positive)
    (ho : load (jobs.file nM) = .ok (ops, nM)) (hE : ∀ ch : List X, UnitGenes ch → E.Sane ch) (keep : X)
    {elite sample : Nat → Nat} {elapsed : M G Nat} (hel : Returns elapsed fun _ => True) {p : Ga.GAParams}
    (hn : 0 < p.populationSize) (heven : p.populationSize % 2 = 0)
    (h1 : elite p.populationSize + sample p.populationSize ≤ p.populationSize) (h2 : 0 < elite p.populationSize) (m0 : Ga.Metrics) :
    Returns (Ga.run (Indiv.trait X) (solverOps R E keep ops nM worst p.populationSize elite sample elapsed) p m0)
      fun r => (Ga.shownPops r.2).IsChain NoWorse := by
  have hst := solver_staged (R := R) (worst := worst) h hA hD ho hE keep hel hn heven h1 (by omega)
  intro g
  obtain ⟨⟨best, tr⟩, g', hr, -⟩ := hst.run p hn rfl m0 g
  refine ⟨(best, tr), g', hr, ?_⟩
  generalize hO : solverOps R E keep ops nM worst p.populationSize elite sample elapsed = O at hst hr
  have hev : ∀ {l l' : List (Indiv X)} {w w' : G}, Ga.evalPop (Indiv.trait X) O l w = .ok (l', w') →
      (∀ i ∈ l, Known E jobs ops nM worst i) → l'.length = l.length ∧ ∀ i ∈ l', Shown E jobs ops nM worst i := by
    intro l l' w w' h1 h2
    exact (hst.evalPop h2).ifReturns _ _ _ h1
  have hid : ∀ {l l' : List (Indiv X)} {w w' : G}, Ga.evalPop (Indiv.trait X) O l w = .ok (l', w') →
      (∀ i ∈ l, Shown E jobs ops nM worst i) → l' = l := by
    intro l
    induction l with
    | nil => intro l' w w' h1 _; exact (Prod.mk.inj (M.pure_ok_iff.1 h1)).1
    | cons a l ih =>
      intro l' w w' h hs
      unfold Ga.evalPop M.forEach at h
      obtain ⟨y, w1, h1, h2⟩ := M.bind_ok_iff.1 h
      obtain ⟨ys, w2, h3, h4⟩ := M.bind_ok_iff.1 h2
      have h5 := (Prod.mk.inj (M.pure_ok_iff.1 h4)).1
      rw [evalOne_shown (hs a (by simp))] at h1
      have h6 := (Prod.mk.inj (M.pure_ok_iff.1 h1)).1
      rw [h5, h6, ih h3 fun i hi => hs i (by simp [hi])]
  obtain ⟨s, wa, s', wb, d, q1, q2, -, -, q3⟩ := Ga.run_ok _ _ _ hr
  let Inv : Ga.St (Indiv X) → Prop := fun s => s.pop.length = p.populationSize ∧ (∀ i ∈ s.pop, Shown E jobs ops nM worst i) ∧
    (∃ init, Ga.shownPops s.trace = init ++ [s.pop]) ∧ (Ga.shownPops s.trace).IsChain NoWorse
  have hi0 : Inv s := by
    obtain ⟨pop0, wa, wb, d, e1, e2, -, -, -, e3⟩ := Ga.prologue_ok _ _ _ q1
    have a := hst.gen.ifReturns _ _ _ e1
    have b := hev e2 a.2
    have e : Ga.shownPops s.trace = [s.pop] := by rw [e3]; rfl
    exact ⟨b.1.trans a.1, b.2, ⟨[], by rw [e]; rfl⟩, by rw [e]; exact List.isChain_singleton _⟩
  obtain ⟨k, -, hk⟩ := Ga.loop_inv _ _ _ (Inv := fun _ s => Inv s) (by
    rintro g s w s' stop w' ⟨c1, c2, ⟨init, c3⟩, c4⟩ hit
    obtain ⟨d, wa, m, pop, wb, pool, wc, crossed, wd, mutated, we, children, wf, replaced, wg, m', wh, b, d', wi, -, -, e1, e2,
      e3, e4, e5, e6, -, e7, e8, hb, -, hbest, -, -, htr⟩ := Ga.iteration_ok _ _ _ hit
    have f1 := hid e1 c2
    subst f1
    have f2 := (hst.sel _ _ c1 c2).ifReturns _ _ _ e2
    have f3 := (hst.cross _ _ f2.1 f2.2).ifReturns _ _ _ e3
    have f4 := (Returns.forEach (R := fun _ y => Known E jobs ops nM worst y) crossed fun i hi => hst.mutate m i (f3.2 i hi)).ifReturns
      _ _ _ e4
    have f5 : children = mutated := by
      unfold Ga.evalChildren at e5
      have : O.requiresChildrenFitness = false := by rw [← hO]; rfl
      rw [this] at e5
      exact (Prod.mk.inj (M.pure_ok_iff.1 e5)).1
    subst f5
    have hcl : children.length = p.populationSize := f4.length_eq.symm.trans f3.1
    have f6 := (hst.replace m _ _ c1 hcl c2 (Ga.forall₂_right f4 fun _ _ h => h)).ifReturns _ _ _ e6
    have f7 := hev e8 f6.2
    have f8 : ∃ b ∈ replaced, b ∈ s.pop ∧ ∀ x ∈ s.pop, b.ind.fitness ≤ x.ind.fitness := by
      have hops : ops.length = jobs.total + 2 := by
        obtain ⟨ops', h3, h4, -⟩ := C100_loading h
        rw [ho] at h3
        cases h3; exact h4
      have hgen := generate_returns (R := R) (jobs := jobs) (nM := nM) (worst := worst) hops hE (sample s.pop.length)
      rw [← hO] at e6
      exact (C65_best_survives (key := fun i : Indiv X => i.ind.fitness) (by rw [c1]; exact h1) (by rw [c1]; exact h2)
        (by omega) (hgen.mono fun _ h => h.1)).ifReturns _ _ _ e6
    have e : Ga.shownPops s'.trace = Ga.shownPops s.trace ++ [s'.pop] := by
      rw [htr]; unfold Ga.shownPops; split <;> simp
    refine ⟨f7.1.trans f6.1, f7.2, ⟨_, e⟩, ?_⟩
    rw [e, c3, List.append_assoc]
    rw [c3] at c4
    refine List.isChain_append.2 ⟨(List.isChain_append.1 c4).1, ?_, ?_⟩
    · refine List.isChain_pair.2 ?_
      obtain ⟨x, x1, x2, x3⟩ := f8
      exact ⟨x, evalPop_shown e8 x x1 (c2 x x2), x3⟩
    · intro x hx y hy
      exact (List.isChain_append.1 c4).2.2 x hx y (by simpa using hy)) _ _ _ _ _ _ hi0 q2
  have e : Ga.shownPops tr = Ga.shownPops s'.trace := by rw [q3]; simp [Ga.shownPops]
  rw [show (best, tr).2 = tr from rfl, e]
  exact hk.2.2.2

end

/-! ## The hypotheses are met -/

/-- Rational arithmetic for the `f64` operations: delays are `gene * 1.5 * longest duration`. -/
def ratEval : EvalOps ℚ where
  delay x md := x * (3 / 2) * md
  late f t d := match f, t with
    | none, some _ => true
    | some a, some t => decide ((t : ℚ) + d < a)
    | _, none => false
  gt x y := decide (y < x)
  minv := -1

theorem ratEval_sane (ch : List ℚ) (h : UnitGenes ch) : ratEval.Sane ch := by
  refine ⟨fun x hx => ?_, fun _ _ _ _ => rfl, fun x hx md a t hl => ?_⟩
  · have := (h x hx).1
    simp only [ratEval, decide_eq_true_eq]; linarith
  · have h0 := (h x hx).1
    have h1 : (t : ℚ) + x * (3 / 2) * md < a := of_decide_eq_true hl
    have h2 : 0 ≤ x * (3 / 2) * (md : ℚ) := by positivity
    have : (t : ℚ) < a := by linarith
    exact_mod_cast this

/-- Two jobs on two machines, ten individuals, the rates 0.1 and 0.2 of the example, a concrete generator. -/
example : ∃ ops, load (twoJobs.file 2) = .ok (ops, 2) ∧
    Returns (Ga.run (Indiv.trait ℚ) (solverOps Ga.counterRng ratEval (3 / 5) ops 2 1000 10 (· / 10) (· / 5) (pure 0))
      ⟨10, 400, 1000⟩ ⟨0, 10, none⟩)
      fun r => Solves twoJobs r.1 r.2 ∧ (Ga.shownPops r.2).IsChain NoWorse := by
  obtain ⟨ops, h1, -, -⟩ := C100_loading twoJobs_proper
  refine ⟨ops, h1, fun g => ?_⟩
  obtain ⟨a, g', h2, h3⟩ := C103_solver_run (R := Ga.counterRng) (worst := 1000) (p := ⟨10, 400, 1000⟩) twoJobs_proper twoJobs_alternates
    twoJobs_positive h1 ratEval_sane (3 / 5) (elite := (· / 10)) (sample := (· / 5)) (elapsed := pure 0) (Returns.pure trivial)
    (by decide) (by decide) (by decide) (by decide) ⟨0, 10, none⟩ g
  obtain ⟨b, g'', h4, h5⟩ := C65_generations_never_worsen (R := Ga.counterRng) (worst := 1000) (p := ⟨10, 400, 1000⟩) twoJobs_proper twoJobs_alternates
    twoJobs_positive h1 ratEval_sane (3 / 5) (elite := (· / 10)) (sample := (· / 5)) (elapsed := pure 0) (Returns.pure trivial)
    (by decide) (by decide) (by decide) (by decide) ⟨0, 10, none⟩ g
  have e := h2.symm.trans h4
  cases e
  exact ⟨a, g', h2, h3, h5⟩

end Ecrs.Jssp
