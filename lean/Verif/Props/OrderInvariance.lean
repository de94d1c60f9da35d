import Verif.Relational
import Verif.Ga.RealAssemble
import Verif.Ga.SolverLemmas
import Verif.CounterRng
import Verif.Props.Presets

set_option linter.unusedSectionVars false
set_option linter.unusedVariables false

/-!
# C145: searches that only compare objective values do not depend on their scale (genetic algorithms)
-/

namespace Ecrs

/-- A transformation of the numbers applied to a floating point value; NaN stays NaN. -/
def Fl.map {K L : Type} (φ : K → L) : Fl K → Fl L
  | .nan => .nan
  | .num a => .num (φ a)

theorem Fl.partialCmp_map {K L : Type} [LinearOrder K] [LinearOrder L] {φ : K → L} (hφ : StrictMono φ) (a b : Fl K) :
    Fl.partialCmp (a.map φ) (b.map φ) = Fl.partialCmp a b := by
  cases a with
  | nan => rfl
  | num a =>
    cases b with
    | nan => rfl
    | num b =>
      show some (compare (φ a) (φ b)) = some (compare a b)
      congr 1
      rcases lt_trichotomy a b with h | h | h
      · rw [compare_lt_iff_lt.2 h, compare_lt_iff_lt.2 (hφ h)]
      · subst h; rw [compare_eq_iff_eq.2 rfl, compare_eq_iff_eq.2 rfl]
      · rw [compare_gt_iff_gt.2 h, compare_gt_iff_gt.2 (hφ h)]

theorem Fl.lt_map {K L : Type} [LinearOrder K] [LinearOrder L] {φ : K → L} (hφ : StrictMono φ) (a b : Fl K) :
    Fl.lt (a.map φ) (b.map φ) = Fl.lt a b := by
  unfold Fl.lt; rw [Fl.partialCmp_map hφ]

end Ecrs

namespace Ecrs.Ga
open Ecrs

/-- The same individual with the transformed fitness. -/
def Individual.relabel {C K L : Type} (φ : K → L) (i : Individual C K) : Individual C L :=
  ⟨i.chromosome, i.fitness.map φ⟩

/-- The same event with the transformed fitness in every individual. -/
def Ev.map {I J : Type} (h : I → J) : Ev I → Ev J
  | .onStart m => .onStart m
  | .onInitialPopulation m pop => .onInitialPopulation m (pop.map h)
  | .onNewBest m i => .onNewBest m (h i)
  | .onIterationStart m => .onIterationStart m
  | .onNewGeneration m pop => .onNewGeneration m (pop.map h)
  | .onBestFit m i => .onBestFit m (h i)
  | .onIterationEnd m => .onIterationEnd m
  | .onEnd m pop best => .onEnd m (pop.map h) (h best)
  | .selectCall pop => .selectCall (pop.map h)
  | .replaceCall pop children => .replaceCall (pop.map h) (children.map h)
  | .clockCheck d => .clockCheck d

/-- What a user observes of a run: the returned individual and the probe callbacks. -/
def observed {I : Type} (r : I × List (Ev I)) : I × List (Ev I) := (r.1, r.2.filter Ev.isCallback)

/-- The selection operators that only compare fitness values (or do not look at them). -/
inductive OrderSelection (U : Type)
  | random
  | uniqueRandom
  | rank
  | rankR (r : U)
  | tournament (factor : U)

/-- They are shipped operators. -/
def OrderSelection.toSelection {U I : Type} : OrderSelection U → Selection U I
  | .random => .random
  | .uniqueRandom => .uniqueRandom
  | .rank => .rank
  | .rankR r => .rankR r
  | .tournament f => .tournament f

section rel
variable {C K L : Type} [LinearOrder K] [LinearOrder L] (φ : K → L)

/-- Same individual, transformed fitness. -/
def Full (i : Individual C K) (j : Individual C L) : Prop := j = i.relabel φ

/-- Same chromosome. -/
def SameCh (i : Individual C K) (j : Individual C L) : Prop := j.chromosome = i.chromosome

variable {φ}

theorem Full.sameCh {i : Individual C K} {j : Individual C L} (h : Full φ i j) : SameCh i j := by
  unfold Full at h; subst h; rfl

theorem full_list {xs : List (Individual C K)} {ys : List (Individual C L)} :
    List.Forall₂ (Full φ) xs ys ↔ ys = xs.map (Individual.relabel φ) := by
  constructor
  · intro h
    induction h with
    | nil => rfl
    | cons h1 _ ih => rw [ih]; unfold Full at h1; subst h1; rfl
  · rintro rfl
    induction xs with
    | nil => exact .nil
    | cons x xs ih => exact .cons rfl ih

theorem sameCh_list {xs : List (Individual C K)} {ys : List (Individual C L)} (h : List.Forall₂ (Full φ) xs ys) :
    List.Forall₂ SameCh xs ys := h.imp fun _ _ => Full.sameCh

theorem idx_rel {W α β : Type} {R : α → β → Prop} : ∀ {xs : List α} {ys : List β} (i : Nat), List.Forall₂ R xs ys →
    Rel2 (W := W) R (idx xs i) (idx ys i)
  | _, _, _, .nil => by simp only [idx, List.getElem?_nil]; exact Rel2.fail
  | _, _, 0, .cons h _ => by simp only [idx, List.getElem?_cons_zero]; exact Rel2.pure h
  | _, _, i + 1, .cons _ h => by
    simp only [idx, List.getElem?_cons_succ]
    exact idx_rel i h

variable (hφ : StrictMono φ)
include hφ

theorem cmp_rel {a b : Individual C K} {a' b' : Individual C L} (ha : Full φ a a') (hb : Full φ b b') :
    cmpInd (Individual.trait C L) a' b' = cmpInd (Individual.trait C K) a b := by
  unfold Full at ha hb; subst ha hb
  unfold cmpInd
  show (match Fl.partialCmp (a.fitness.map φ) (b.fitness.map φ) with | some o => _ | none => _) = _
  rw [Fl.partialCmp_map hφ]; rfl

theorem lt_rel {a b : Individual C K} {a' b' : Individual C L} (ha : Full φ a a') (hb : Full φ b b') :
    Fl.lt a'.fitness b'.fitness = Fl.lt a.fitness b.fitness := by
  unfold Full at ha hb; subst ha hb
  exact Fl.lt_map hφ _ _

theorem minFrom_rel : ∀ {xs : List (Individual C K)} {ys : List (Individual C L)} {b b'}, Full φ b b' →
    List.Forall₂ (Full φ) xs ys →
    (∃ e, minFrom (Individual.trait C K) b xs = .error e ∧ minFrom (Individual.trait C L) b' ys = .error e) ∨
    ∃ i j, minFrom (Individual.trait C K) b xs = .ok i ∧ minFrom (Individual.trait C L) b' ys = .ok j ∧ Full φ i j
  | _, _, b, b', hb, .nil => .inr ⟨b, b', rfl, rfl, hb⟩
  | _, _, b, b', hb, .cons hx ht => by
    unfold minFrom
    rw [cmp_rel hφ hb hx]
    cases cmpInd (Individual.trait C K) b _ with
    | error e => exact .inl ⟨e, rfl, rfl⟩
    | ok o => cases o <;> [exact minFrom_rel hb ht; exact minFrom_rel hb ht; exact minFrom_rel hx ht]

theorem maxFrom_rel : ∀ {xs : List (Individual C K)} {ys : List (Individual C L)} {b b'}, Full φ b b' →
    List.Forall₂ (Full φ) xs ys →
    (∃ e, maxFrom (Individual.trait C K) b xs = .error e ∧ maxFrom (Individual.trait C L) b' ys = .error e) ∨
    ∃ i j, maxFrom (Individual.trait C K) b xs = .ok i ∧ maxFrom (Individual.trait C L) b' ys = .ok j ∧ Full φ i j
  | _, _, b, b', hb, .nil => .inr ⟨b, b', rfl, rfl, hb⟩
  | _, _, b, b', hb, .cons hx ht => by
    unfold maxFrom
    rw [cmp_rel hφ hb hx]
    cases cmpInd (Individual.trait C K) b _ with
    | error e => exact .inl ⟨e, rfl, rfl⟩
    | ok o => cases o <;> [exact maxFrom_rel hx ht; exact maxFrom_rel hx ht; exact maxFrom_rel hb ht]

theorem findBest_rel {xs : List (Individual C K)} {ys : List (Individual C L)} (h : List.Forall₂ (Full φ) xs ys) :
    (∃ e, findBest (Individual.trait C K) xs = .error e ∧ findBest (Individual.trait C L) ys = .error e) ∨
    ∃ i j, findBest (Individual.trait C K) xs = .ok i ∧ findBest (Individual.trait C L) ys = .ok j ∧ Full φ i j := by
  cases h with
  | nil => exact .inl ⟨_, rfl, rfl⟩
  | cons hx ht => exact minFrom_rel hφ hx ht

theorem findMax_rel {xs : List (Individual C K)} {ys : List (Individual C L)} (h : List.Forall₂ (Full φ) xs ys) :
    (∃ e, findMax (Individual.trait C K) xs = .error e ∧ findMax (Individual.trait C L) ys = .error e) ∨
    ∃ i j, findMax (Individual.trait C K) xs = .ok i ∧ findMax (Individual.trait C L) ys = .ok j ∧ Full φ i j := by
  cases h with
  | nil => exact .inl ⟨_, rfl, rfl⟩
  | cons hx ht => exact maxFrom_rel hφ hx ht

end rel

/-! ## The driver -/

section driver
variable {W C K L : Type} [LinearOrder K] [LinearOrder L]

/-- What relates two configurations that differ in the objective only. -/
structure Related (φ : K → L) (ops : Ops W (Individual C K) K) (ops' : Ops W (Individual C L) L) : Prop where
  generate : ∀ n, Rel2 (List.Forall₂ SameCh) (ops.generate n) (ops'.generate n)
  fitness : ∀ i j, SameCh i j →
    Rel2 (fun a b => SameCh a.1 b.1 ∧ b.2 = a.2.map φ) (ops.fitnessFn i) (ops'.fitnessFn j)
  select : ∀ m xs ys, List.Forall₂ (Full φ) xs ys →
    Rel2 (List.Forall₂ SameCh) (ops.select m xs) (ops'.select m ys)
  cross : ∀ m xs ys, List.Forall₂ SameCh xs ys → Rel2 (List.Forall₂ SameCh) (ops.cross m xs) (ops'.cross m ys)
  mutate : ∀ m i j, SameCh i j → Rel2 SameCh (ops.mutate m i) (ops'.mutate m j)
  requires : ops'.requiresChildrenFitness = ops.requiresChildrenFitness
  replaceEvaluated : ∀ m xs ys cs ds, List.Forall₂ (Full φ) xs ys → List.Forall₂ (Full φ) cs ds →
    Rel2 (List.Forall₂ SameCh) (ops.replace m xs cs) (ops'.replace m ys ds)
  replaceUnevaluated : ops.requiresChildrenFitness = false → ∀ m xs ys cs ds, List.Forall₂ (Full φ) xs ys →
    List.Forall₂ SameCh cs ds → Rel2 (List.Forall₂ SameCh) (ops.replace m xs cs) (ops'.replace m ys ds)
  elapsed : ops'.elapsed = ops.elapsed

/-- Related states of the main loop. -/
structure RelSt (φ : K → L) (s : St (Individual C K)) (s' : St (Individual C L)) : Prop where
  pop : s'.pop = s.pop.map (Individual.relabel φ)
  best : s'.best = s.best.relabel φ
  metrics : s'.metrics = s.metrics
  trace : s'.trace.filter Ev.isCallback = (s.trace.filter Ev.isCallback).map (Ev.map (Individual.relabel φ))

variable {φ : K → L} (hφ : StrictMono φ) {ops : Ops W (Individual C K) K} {ops' : Ops W (Individual C L) L}
  (H : Related φ ops ops') (p : GAParams)

include H in
theorem evalPop_rel {xs : List (Individual C K)} {ys : List (Individual C L)} (h : List.Forall₂ SameCh xs ys) :
    Rel2 (List.Forall₂ (Full φ)) (evalPop (Individual.trait C K) ops xs) (evalPop (Individual.trait C L) ops' ys) := by
  refine Rel2.forEach (fun a b hab => ?_) h
  show Rel2 (Full φ) (ops.fitnessFn a >>= fun r => pure ((Individual.trait C K).setFitness r.1 r.2))
    (ops'.fitnessFn b >>= fun r => pure ((Individual.trait C L).setFitness r.1 r.2))
  refine Rel2.bind (H.fitness a b hab) fun r r' hr => Rel2.pure ?_
  show (⟨r'.1.chromosome, r'.2⟩ : Individual C L) = ⟨r.1.chromosome, r.2.map φ⟩
  rw [hr.2, show r'.1.chromosome = r.1.chromosome from hr.1]

theorem map_relabel_length (xs : List (Individual C K)) : (xs.map (Individual.relabel φ)).length = xs.length := by simp

include H hφ in
theorem iteration_rel (g : Nat) {s : St (Individual C K)} {s' : St (Individual C L)} (hs : RelSt φ s s') :
    Rel2 (fun a b => RelSt φ a.1 b.1 ∧ b.2 = a.2) (iteration (Individual.trait C K) ops p g s)
      (iteration (Individual.trait C L) ops' p g s') := by
  unfold iteration
  refine Rel2.bindEq H.elapsed.symm fun d => ?_
  rw [hs.metrics]
  refine Rel2.bind (evalPop_rel H (by rw [hs.pop]; exact sameCh_list (full_list.2 rfl))) fun pop pop' hpop => ?_
  refine Rel2.bind (H.select _ _ _ hpop) fun pool pool' hpool => ?_
  refine Rel2.bind (H.cross _ _ _ hpool) fun crossed crossed' hcr => ?_
  refine Rel2.bind (Rel2.forEach (fun a b hab => H.mutate _ a b hab) hcr) fun mu mu' hmu => ?_
  refine Rel2.bind (R := fun cs ds => List.Forall₂ SameCh cs ds ∧
      (ops.requiresChildrenFitness = true → List.Forall₂ (Full φ) cs ds)) ?_ fun ch ch' hch => ?_
  · unfold evalChildren
    rw [H.requires]
    cases hr : ops.requiresChildrenFitness with
    | true =>
      rw [if_pos rfl, if_pos rfl]
      exact (evalPop_rel H hmu).mono fun a b hab => ⟨sameCh_list hab, fun _ => hab⟩
    | false =>
      rw [if_neg (by simp), if_neg (by simp)]
      exact Rel2.pure ⟨hmu, fun h => by cases h⟩
  refine Rel2.bind (R := List.Forall₂ SameCh) ?_ fun re re' hre => ?_
  · cases hr : ops.requiresChildrenFitness with
    | true => exact H.replaceEvaluated _ _ _ _ _ hpop (hch.2 hr)
    | false => exact H.replaceUnevaluated hr _ _ _ _ _ hpop hch.1
  rw [show re'.length = re.length from hre.length_eq.symm]
  refine Rel2.bindEq rfl fun _ => ?_
  refine Rel2.bind (evalPop_rel H hre) fun pop1 pop1' hpop1 => ?_
  refine Rel2.bind (Rel2.ofExcept (findBest_rel hφ hpop1)) fun b b' hb => ?_
  refine Rel2.bindEq H.elapsed.symm fun d' => Rel2.pure ?_
  have hlt : Fl.lt ((Individual.trait C L).fitness b') ((Individual.trait C L).fitness s'.best) =
      Fl.lt ((Individual.trait C K).fitness b) ((Individual.trait C K).fitness s.best) :=
    lt_rel hφ hb hs.best
  refine ⟨⟨full_list.1 hpop1, ?_, rfl, ?_⟩, rfl⟩
  · show (if Fl.lt ((Individual.trait C L).fitness b') ((Individual.trait C L).fitness s'.best) = true then b' else s'.best) =
      Individual.relabel φ (if Fl.lt ((Individual.trait C K).fitness b) ((Individual.trait C K).fitness s.best) = true
        then b else s.best)
    rw [hlt]
    split
    · exact hb
    · exact hs.best
  · show List.filter Ev.isCallback (s'.trace ++ [_, _, _, _, _] ++ (if Fl.lt ((Individual.trait C L).fitness b')
        ((Individual.trait C L).fitness s'.best) = true then _ else _) ++ [_, _]) = _
    rw [hlt]
    have hb' : b' = b.relabel φ := hb
    have hp' : pop1' = pop1.map (Individual.relabel φ) := full_list.1 hpop1
    simp only [List.filter_append, hs.trace, List.map_append]
    cases Fl.lt ((Individual.trait C K).fitness b) ((Individual.trait C K).fitness s.best) <;>
      simp [List.filter, Ev.isCallback, Ev.map, hb', hp']

include H hφ in
theorem loop_rel : ∀ (n g : Nat) {s : St (Individual C K)} {s' : St (Individual C L)}, RelSt φ s s' →
    Rel2 (RelSt φ) (loop (Individual.trait C K) ops p n g s) (loop (Individual.trait C L) ops' p n g s')
  | 0, _, _, _, hs => Rel2.pure hs
  | n + 1, g, s, s', hs => by
    unfold loop
    refine Rel2.bind (iteration_rel hφ H p g hs) fun a b hab => ?_
    obtain ⟨a1, a2⟩ := a
    obtain ⟨b1, b2⟩ := b
    obtain ⟨h1, h2⟩ := hab
    have h2' : b2 = a2 := h2
    subst h2'
    cases b2 with
    | true => exact Rel2.pure h1
    | false => exact loop_rel n (g + 1) h1

include H hφ in
/-- Configurations that differ in the objective only, by a strictly increasing transformation, behave alike. -/
theorem run_rel (m0 : Metrics) :
    (observed <$> run (Individual.trait C L) ops' p m0 : M W _) =
      (fun r => ((observed r).1.relabel φ, (observed r).2.map (Ev.map (Individual.relabel φ)))) <$>
        run (Individual.trait C K) ops p m0 := by
  refine Rel2.map_eq (R := fun a b => b.1 = a.1.relabel φ ∧
    b.2.filter Ev.isCallback = (a.2.filter Ev.isCallback).map (Ev.map (Individual.relabel φ))) ?_ ?_
  · unfold run
    refine Rel2.bind (R := RelSt φ) ?_ fun s s' hs => ?_
    · unfold prologue
      refine Rel2.bind (H.generate _) fun pop pop' hpop => ?_
      refine Rel2.bind (evalPop_rel H hpop) fun ev ev' hev => ?_
      refine Rel2.bind (Rel2.ofExcept (findBest_rel hφ hev)) fun b b' hb => ?_
      refine Rel2.bindEq H.elapsed.symm fun d => Rel2.pure ?_
      have hlen : pop'.length = pop.length := hpop.length_eq.symm
      have hb' : b' = b.relabel φ := hb
      have hp' : ev' = ev.map (Individual.relabel φ) := full_list.1 hev
      refine ⟨hp', hb', by rw [hlen], ?_⟩
      simp [List.filter, Ev.isCallback, Ev.map, hb', hp', hlen]
    · refine Rel2.bind (loop_rel hφ H p _ 1 hs) fun t t' ht => ?_
      refine Rel2.bindEq H.elapsed.symm fun d => Rel2.pure ⟨ht.best, ?_⟩
      rw [List.filter_append, List.filter_append, ht.trace, List.map_append, ht.metrics]
      simp [List.filter, Ev.isCallback, Ev.map, ht.best, ht.pop]
  · intro a b hab
    show (a.1.relabel φ, _) = (b.1, _)
    rw [hab.1]
    show (_, (a.2.filter Ev.isCallback).map _) = (_, b.2.filter Ev.isCallback)
    rw [hab.2]

end driver

/-! ## The operators -/

section operators
variable {G U A K L : Type} [LinearOrder K] [LinearOrder L] {φ : K → L}

theorem slot_rel {W G' α β : Type} {R : α → β → Prop} (S : Slot W G') {m : M G' α} {m' : M G' β} (h : Rel2 R m m') :
    Rel2 R (S.run m) (S.run m') := by
  intro w
  unfold Slot.run
  rcases h (S.get w) with ⟨e, h1, h2⟩ | ⟨a, b, g, h1, h2, h3⟩
  · rw [h1, h2]; exact .inl ⟨e, rfl, rfl⟩
  · rw [h1, h2]; exact .inr ⟨a, b, _, rfl, rfl, h3⟩

theorem picks_rel {W α β : Type} {R : α → β → Prop} {xs : List α} {ys : List β} (h : List.Forall₂ R xs ys)
    (is : List Nat) : Rel2 (W := W) (List.Forall₂ R) (M.forEach (idx xs) is) (M.forEach (idx ys) is) :=
  Rel2.forEach (R := Eq) (fun i j hij => by subst hij; exact idx_rel i h) (List.forall₂_eq_eq_eq ▸ rfl)

section sel
variable [Field U] [LinearOrder U] [IsStrictOrderedRing U] [FloorSemiring U] (R : FRng G U) {C : Type}

theorem orderSelection_rel (hφ : StrictMono φ) (fit : Individual C K → U) (fit' : Individual C L → U) (fuel count : Nat)
    (sel : OrderSelection U) (m : Metrics) {xs : List (Individual C K)} {ys : List (Individual C L)}
    (h : List.Forall₂ (Full φ) xs ys) :
    Rel2 (List.Forall₂ (Full φ))
      ((sel.toSelection : Selection U _).apply R (Individual.trait C K) fit fuel count m xs)
      ((sel.toSelection : Selection U _).apply R (Individual.trait C L) fit' fuel count m ys) := by
  have hlen : ys.length = xs.length := h.length_eq.symm
  cases sel with
  | random =>
    show Rel2 _ (selRandom R.toRng count xs) (selRandom R.toRng count ys)
    unfold selRandom; rw [hlen]
    exact Rel2.bindEq rfl fun _ => Rel2.bindEq rfl fun is => picks_rel h is
  | uniqueRandom =>
    show Rel2 _ (selUniqueRandom R.toRng count xs) (selUniqueRandom R.toRng count ys)
    unfold selUniqueRandom; rw [hlen]
    exact Rel2.bindEq rfl fun is => picks_rel h is
  | rank =>
    show Rel2 _ (selRank R.toRng (Individual.trait C K) count xs) (selRank R.toRng (Individual.trait C L) count ys)
    refine Rel2.replicate ?_ count
    unfold rankOne; rw [hlen]
    refine Rel2.bindEq rfl fun i => Rel2.bind (idx_rel i h) fun p p' hp => ?_
    refine Rel2.bindEq rfl fun j => Rel2.bind (idx_rel j h) fun q q' hq => Rel2.pure ?_
    have hge : Fl.ge ((Individual.trait C L).fitness p') ((Individual.trait C L).fitness q') =
        Fl.ge ((Individual.trait C K).fitness p) ((Individual.trait C K).fitness q) := by
      unfold Full at hp hq; subst hp hq
      show Fl.ge (p.fitness.map φ) (q.fitness.map φ) = Fl.ge p.fitness q.fitness
      cases p.fitness <;> cases q.fitness <;> simp [Fl.ge, Fl.map, hφ.le_iff_le]
    rw [hge]
    split
    · exact hp
    · exact hq
  | rankR r =>
    show Rel2 _ (selRankR R.toRng r count xs) (selRankR R.toRng r count ys)
    unfold selRankR; rw [hlen]
    refine Rel2.bindEq rfl fun _ => Rel2.replicate ?_ count
    unfold rankROne; rw [hlen]
    refine Rel2.bindEq rfl fun i => Rel2.bind (idx_rel i h) fun p p' hp => ?_
    refine Rel2.bindEq rfl fun j => Rel2.bind (idx_rel j h) fun q q' hq => Rel2.bindEq rfl fun u => Rel2.pure ?_
    split
    · exact hp
    · exact hq
  | tournament f =>
    show Rel2 _ (selTournament R.toRng (Individual.trait C K) f count xs)
      (selTournament R.toRng (Individual.trait C L) f count ys)
    unfold selTournament; rw [hlen]
    refine Rel2.replicate ?_ count
    unfold tournamentOne; rw [hlen]
    exact Rel2.bindEq rfl fun is => Rel2.bind (picks_rel h is) fun cs ds hcs => Rel2.ofExcept (findMax_rel hφ hcs)

end sel

theorem chunks2_rel {G I J : Type} {R : I → J → Prop} {f : I → I → M G (I × I)} {f' : J → J → M G (J × J)}
    (hf : ∀ a b c d, R a c → R b d → Rel2 (fun x y => R x.1 y.1 ∧ R x.2 y.2) (f a b) (f' c d)) :
    ∀ {xs : List I} {ys : List J}, List.Forall₂ R xs ys → Rel2 (List.Forall₂ R) (chunks2 f xs) (chunks2 f' ys)
  | _, _, .nil => Rel2.pure .nil
  | _, _, .cons _ .nil => Rel2.fail
  | _, _, .cons h1 (.cons h2 ht) => by
    unfold chunks2
    refine Rel2.bind (hf _ _ _ _ h1 h2) fun x y hxy => Rel2.bind (chunks2_rel hf ht) fun o o' ho => ?_
    exact Rel2.pure (.cons hxy.1 (.cons hxy.2 ho))

theorem applyPairs_rel {G I J : Type} {R : I → J → Prop} {f : I → I → M G (I × I)} {f' : J → J → M G (J × J)}
    (hf : ∀ a b c d, R a c → R b d → Rel2 (fun x y => R x.1 y.1 ∧ R x.2 y.2) (f a b) (f' c d))
    {xs : List I} {ys : List J} (h : List.Forall₂ R xs ys) :
    Rel2 (List.Forall₂ R) (applyPairs f xs) (applyPairs f' ys) := by
  unfold applyPairs
  rw [show ys.length = xs.length from h.length_eq.symm]
  exact Rel2.bindEq rfl fun _ => chunks2_rel hf h

variable (worst : Fl K) (worst' : Fl L)

theorem lifted_rel {G : Type} (single : List A → List A → M G (List A × List A))
    {xs : List (Individual (List A) K)} {ys : List (Individual (List A) L)} (h : List.Forall₂ SameCh xs ys) :
    Rel2 (List.Forall₂ SameCh) (applyPairs (liftSingle (Individual.chromOps A worst) single) xs)
      (applyPairs (liftSingle (Individual.chromOps A worst') single) ys) := by
  refine applyPairs_rel (fun a b c d hac hbd => ?_) h
  show Rel2 _ (single a.chromosome b.chromosome >>= fun r => pure ((⟨r.1, worst⟩, ⟨r.2, worst⟩) :
      Individual (List A) K × Individual (List A) K))
    (single c.chromosome d.chromosome >>= fun r => pure ((⟨r.1, worst'⟩, ⟨r.2, worst'⟩) :
      Individual (List A) L × Individual (List A) L))
  rw [show c.chromosome = a.chromosome from hac, show d.chromosome = b.chromosome from hbd]
  exact Rel2.bindEq rfl fun r => Rel2.pure ⟨rfl, rfl⟩

theorem crossover_rel [LinearOrder U] [Zero U] [One U] [DecidableEq A] (R : Rng G U) (half : U) (fuel : Nat)
    (cr : Crossover U) {xs : List (Individual (List A) K)} {ys : List (Individual (List A) L)}
    (h : List.Forall₂ SameCh xs ys) :
    Rel2 (List.Forall₂ SameCh) (cr.apply R (Individual.chromOps A worst) half fuel xs)
      (cr.apply R (Individual.chromOps A worst') half fuel ys) := by
  cases cr with
  | fixedPoint cut =>
    refine applyPairs_rel (fun a b c d hac hbd => ?_) h
    show Rel2 _ (fixedPointCh cut a.chromosome b.chromosome >>= fun r =>
        pure ({ a with chromosome := r.1 }, { b with chromosome := r.2 }))
      (fixedPointCh cut c.chromosome d.chromosome >>= fun r =>
        pure ({ c with chromosome := r.1 }, { d with chromosome := r.2 }))
    rw [show c.chromosome = a.chromosome from hac, show d.chromosome = b.chromosome from hbd]
    exact Rel2.bindEq rfl fun r => Rel2.pure ⟨rfl, rfl⟩
  | _ => exact lifted_rel worst worst' _ h

theorem mutation_rel {G : Type} (op : List A → M G (List A)) {i : Individual (List A) K} {j : Individual (List A) L}
    (h : SameCh i j) :
    Rel2 SameCh (applyMutation (Individual.chromOps A worst) op i) (applyMutation (Individual.chromOps A worst') op j) := by
  show Rel2 _ (op i.chromosome >>= fun c => pure { i with chromosome := c })
    (op j.chromosome >>= fun c => pure { j with chromosome := c })
  rw [show j.chromosome = i.chromosome from h]
  exact Rel2.bindEq rfl fun r => Rel2.pure rfl

theorem largerFirst_rel {C : Type} (hφ : StrictMono φ) (a b : Individual C K) :
    largerFirst (Individual.trait C L) (a.relabel φ) (b.relabel φ) =
      ((largerFirst (Individual.trait C K) a b).1.relabel φ, (largerFirst (Individual.trait C K) a b).2.relabel φ) := by
  have h : indLt (Individual.trait C L) (a.relabel φ) (b.relabel φ) = indLt (Individual.trait C K) a b :=
    Fl.lt_map hφ _ _
  unfold largerFirst; rw [h]; split <;> rfl

theorem weakMerge_rel {C : Type} (hφ : StrictMono φ) (a b c d : Individual C K) :
    weakMerge (Individual.trait C L) (a.relabel φ) (b.relabel φ) (c.relabel φ) (d.relabel φ) =
      ((weakMerge (Individual.trait C K) a b c d).1.relabel φ, (weakMerge (Individual.trait C K) a b c d).2.relabel φ) := by
  have h : ∀ x y : Individual C K, indLt (Individual.trait C L) (x.relabel φ) (y.relabel φ) =
      indLt (Individual.trait C K) x y := fun x y => Fl.lt_map hφ _ _
  unfold weakMerge; simp only [h]
  split
  · split <;> rfl
  · split <;> rfl

theorem weakGo_rel {W C : Type} (hφ : StrictMono φ) : ∀ (ps cs : List (Individual C K)),
    Rel2 (W := W) (List.Forall₂ (Full φ)) (weakGo (Individual.trait C K) ps cs)
      (weakGo (Individual.trait C L) (ps.map (Individual.relabel φ)) (cs.map (Individual.relabel φ)))
  | a :: b :: ps, c :: d :: cs => by
    show Rel2 _ (weakGo (Individual.trait C K) ps cs >>= fun rest => pure (_ :: _ :: rest))
      (weakGo (Individual.trait C L) _ _ >>= fun rest => pure (_ :: _ :: rest))
    refine Rel2.bind (weakGo_rel hφ ps cs) fun r r' hr => Rel2.pure ?_
    unfold weakFamily
    rw [largerFirst_rel hφ, largerFirst_rel hφ, weakMerge_rel hφ]
    exact .cons rfl (.cons rfl hr)
  | a :: b :: ps, [] => Rel2.fail
  | a :: b :: ps, [c] => Rel2.fail
  | [], cs => by
    cases cs <;> exact Rel2.pure .nil
  | [a], cs => by
    cases cs <;> exact Rel2.pure (.cons rfl .nil)

theorem replacement_rel {W C : Type} (hφ : StrictMono φ) (debug : Bool) (re : Replacement)
    {xs : List (Individual C K)} {ys : List (Individual C L)} {cs : List (Individual C K)} {ds : List (Individual C L)}
    (h : List.Forall₂ (Full φ) xs ys) (hc : List.Forall₂ SameCh cs ds)
    (hf : re.requiresChildrenFitness = true → List.Forall₂ (Full φ) cs ds) :
    Rel2 (W := W) (List.Forall₂ SameCh) (re.apply (Individual.trait C K) debug xs cs)
      (re.apply (Individual.trait C L) debug ys ds) := by
  cases re with
  | bothParents => exact Rel2.pure hc
  | noop => exact Rel2.pure (sameCh_list h)
  | weakParent =>
    have hd := full_list.1 (hf rfl)
    have hy := full_list.1 h
    subst hd hy
    show Rel2 _ (weakParent (Individual.trait C K) debug xs cs)
      (weakParent (Individual.trait C L) debug (xs.map _) (cs.map _))
    unfold weakParent
    rw [List.length_map, List.length_map]
    refine Rel2.bindEq rfl fun _ => Rel2.bindEq rfl fun _ => Rel2.bindEq rfl fun _ => ?_
    exact (weakGo_rel hφ xs cs).mono fun _ _ => sameCh_list

theorem fnFitness_rel {W C : Type} (f : C → Fl K) (i : Individual C K) (j : Individual C L) (h : SameCh i j) :
    Rel2 (W := W) (fun a b => SameCh a.1 b.1 ∧ b.2 = a.2.map φ) (fnFitness (Individual.trait C K) f i)
      (fnFitness (Individual.trait C L) (fun c => (f c).map φ) j) :=
  Rel2.pure ⟨h, by
    show (f j.chromosome).map φ = (f i.chromosome).map φ
    rw [show j.chromosome = i.chromosome from h]⟩

/-- Individuals built from the same chromosomes. -/
theorem built_rel {A : Type} (cs : List (List A)) :
    List.Forall₂ SameCh (cs.map (Individual.chromOps A worst).ofCh) (cs.map (Individual.chromOps A worst').ofCh) := by
  induction cs with
  | nil => exact .nil
  | cons c cs ih => exact .cons rfl ih

end operators

/-! ## The property -/

section props
variable {G U K L W A : Type} [Field U] [LinearOrder U] [IsStrictOrderedRing U] [FloorSemiring U]
  [LinearOrder K] [LinearOrder L] (R : FRng G U) (S : Slots W G) {φ : K → L} (hφ : StrictMono φ)
  (worst : Fl K) (worst' : Fl L)
include hφ

/-- **C145** (permutation problems).  Take any GA made of the shipped permutation operators whose selection only compares
fitness values (Random, UniqueRandom, Rank, RankR, Tournament), any crossover, mutation and replacement, and replace the
objective `f` by `φ ∘ f` with `φ` strictly increasing (doubling it, adding a constant, taking the logarithm, ..., between
any two number types).  With the same random draws and the same clock the run is the same run: same panic or same final
generator states, same returned chromosome and the same callbacks in the same order, every reported fitness `v` now reading
`φ v` (NaN stays NaN).  The placeholder fitness of fresh individuals (`f64::MIN`) need not be related in any way, and the
numbers `fit` that other selections would use do not matter. -/
theorem C145_permutations [DecidableEq A] (f : List A → Fl K) (fit : Individual (List A) K → U)
    (fit' : Individual (List A) L → U) (half : U) (fuel count : Nat) (genes : List A) (sel : OrderSelection U)
    (cr : Crossover U) (mu : Mutation U) (re : Replacement) (debug : Bool) (elapsed : M W Nat) (p : GAParams)
    (m0 : Metrics) :
    (observed <$> run (Individual.trait (List A) L)
      (permOps R (Individual.trait _ L) (Individual.chromOps A worst') S (fun c => (f c).map φ) fit' half fuel count genes
        sel.toSelection cr mu re debug elapsed) p m0 : M W _) =
    (fun r => ((observed r).1.relabel φ, (observed r).2.map (Ev.map (Individual.relabel φ)))) <$>
      run (Individual.trait (List A) K)
        (permOps R (Individual.trait _ K) (Individual.chromOps A worst) S f fit half fuel count genes
          sel.toSelection cr mu re debug elapsed) p m0 := by
  refine run_rel hφ ?_ p m0
  refine ⟨fun n => slot_rel _ ?_, fun i j h => fnFitness_rel f i j h, fun m xs ys h => slot_rel _ ?_,
    fun m xs ys h => slot_rel _ (crossover_rel _ _ _ _ _ _ h), fun m i j h => slot_rel _ (mutation_rel _ _ _ h), rfl,
    fun m xs ys cs ds h hc => replacement_rel hφ _ _ h (sameCh_list hc) fun _ => hc,
    fun hr m xs ys cs ds h hc => replacement_rel hφ _ _ h hc fun h1 => ?_, rfl⟩
  · refine Rel2.replicate (S := SameCh) ?_ n
    exact Rel2.bindEq rfl fun c => Rel2.pure rfl
  · exact (orderSelection_rel R hφ fit fit' fuel count sel m h).mono fun _ _ => sameCh_list
  · exact absurd (h1.symm.trans hr) (by simp)

/-- **C145** (real vectors).  The same for RandomPoints in any box. -/
theorem C145_points (f : List U → Fl K) (fit : Individual (List U) K → U) (fit' : Individual (List U) L → U) (half : U)
    (fuel count : Nat) (rp : RandomPoints U) (sel : OrderSelection U) (cr : Crossover U) (mu : Mutation U)
    (re : Replacement) (debug : Bool) (elapsed : M W Nat) (p : GAParams) (m0 : Metrics) :
    (observed <$> run (Individual.trait (List U) L)
      (realOps R (Individual.trait _ L) (Individual.chromOps U worst') S (fun c => (f c).map φ) fit' half fuel count rp
        sel.toSelection cr mu re debug elapsed) p m0 : M W _) =
    (fun r => ((observed r).1.relabel φ, (observed r).2.map (Ev.map (Individual.relabel φ)))) <$>
      run (Individual.trait (List U) K)
        (realOps R (Individual.trait _ K) (Individual.chromOps U worst) S f fit half fuel count rp
          sel.toSelection cr mu re debug elapsed) p m0 := by
  refine run_rel hφ ?_ p m0
  refine ⟨fun n => slot_rel _ ?_, fun i j h => fnFitness_rel f i j h, fun m xs ys h => slot_rel _ ?_,
    fun m xs ys h => slot_rel _ (crossover_rel _ _ _ _ _ _ h), fun m i j h => slot_rel _ (mutation_rel _ _ _ h), rfl,
    fun m xs ys cs ds h hc => replacement_rel hφ _ _ h (sameCh_list hc) fun _ => hc,
    fun hr m xs ys cs ds h hc => replacement_rel hφ _ _ h hc fun h1 => ?_, rfl⟩
  · exact Rel2.bindEq rfl fun pts => Rel2.pure (built_rel worst worst' pts)
  · exact (orderSelection_rel R hφ fit fit' fuel count sel m h).mono fun _ _ => sameCh_list
  · exact absurd (h1.symm.trans hr) (by simp)

/-- **C145** (bit strings).  The same for the solver `BitStringBuilder` builds. -/
theorem C145_bit_strings (f : List Bool → Fl K) (dim n : Nat) (elapsed : M W Nat) (p : GAParams) (m0 : Metrics) :
    (observed <$> run (Individual.trait (List Bool) L)
      (bscOps R.toRng S worst' (fun c => (f c).map φ) dim n elapsed) p m0 : M W _) =
    (fun r => ((observed r).1.relabel φ, (observed r).2.map (Ev.map (Individual.relabel φ)))) <$>
      run (Individual.trait (List Bool) K) (bscOps R.toRng S worst f dim n elapsed) p m0 := by
  refine run_rel hφ ?_ p m0
  refine ⟨fun n => slot_rel _ ?_, fun i j h => fnFitness_rel f i j h, fun m xs ys h => slot_rel _ ?_,
    fun m xs ys h => slot_rel _ (lifted_rel _ _ _ h), fun m i j h => slot_rel _ (mutation_rel _ _ _ h), rfl,
    fun m xs ys cs ds h hc => replacement_rel hφ false .bothParents h (sameCh_list hc) fun _ => hc,
    fun hr m xs ys cs ds h hc => replacement_rel hφ false .bothParents h hc fun h1 => ?_, rfl⟩
  · refine Rel2.replicate (S := SameCh) ?_ n
    exact Rel2.bindEq rfl fun c => Rel2.pure rfl
  · exact (orderSelection_rel R hφ (fun _ => (0 : U)) (fun _ => (0 : U)) 0 _ (.tournament (1 / 5)) m h).mono
      fun _ _ => sameCh_list
  · exact absurd h1 (by simp [Replacement.requiresChildrenFitness])

end props

/-- **C145** (the contrast).  RouletteWheel computes with the fitness values: scaling them by a positive constant changes
nothing (in exact arithmetic) ... -/
theorem C145_roulette_scale {G I K : Type} [Field K] [LinearOrder K] [IsStrictOrderedRing K] (R : Rng G K) (fit : I → K)
    (c : K) (hc : 0 < c) (count : Nat) (pop : List I) :
    selRoulette R (fun i => c * fit i) count pop = selRoulette R fit count pop := by
  have key : ∀ (t s : K) (xs : List I),
      roulettePick (fun i => c * fit i) (c * t) (c * s) xs = roulettePick fit t s xs := by
    intro t s xs
    induction xs generalizing s with
    | nil => rfl
    | cons x xs ih =>
      unfold roulettePick
      rw [← mul_add, ih]
      by_cases h : t ≤ s + fit x
      · rw [if_pos h, if_pos (mul_le_mul_of_nonneg_left h hc.le)]
      · rw [if_neg h, if_neg (fun h' => h (le_of_mul_le_mul_left h' hc))]
  unfold selRoulette
  have hs : (pop.map fun i => c * fit i).sum = c * (pop.map fit).sum := by
    clear key
    induction pop with
    | nil => simp
    | cons x xs ih => rw [List.map_cons, List.map_cons, List.sum_cons, List.sum_cons, ih, mul_add]
  congr 1
  funext us
  congr 2
  funext u
  rw [hs, mul_assoc]
  simpa using key ((pop.map fit).sum * u) 0 pop

/-- **C145** (the contrast).  ... but adding a constant does: from two individuals of fitness 1 and 99, a draw between 0.01 and 0.33 selects the
second; when 100 is added to both fitness values the same draw selects the first. -/
theorem C145_roulette_shift {G K : Type} [Field K] [LinearOrder K] [IsStrictOrderedRing K] (R : Rng G K) (g : G)
    (h1 : 1 / 100 < (R.unit g).1) (h2 : (R.unit g).1 < 33 / 100) :
    (∃ g', selRoulette R (fun v : K => v) 1 [1, 99] g = .ok ([99], g')) ∧
    (∃ g', selRoulette R (fun v : K => v + 100) 1 [1, 99] g = .ok ([1], g')) := by
  have ha : ¬ ((1 + (99 + 0)) * (R.unit g).1 ≤ 0 + (1 : K)) := by
    intro h; linarith
  have hb : (1 + (99 + 0)) * (R.unit g).1 ≤ 0 + (1 : K) + 99 := by
    linarith
  have hc : (1 + 100 + (99 + 100 + 0)) * (R.unit g).1 ≤ 0 + ((1 : K) + 100) := by
    linarith
  refine ⟨⟨(R.unit g).2, ?_⟩, ⟨(R.unit g).2, ?_⟩⟩
  · show Except.ok ([(R.unit g).1].filterMap (fun u => roulettePick (fun v : K => v)
      ((1 + (99 + 0)) * u) 0 [1, 99]), (R.unit g).2) = _
    have hp : roulettePick (fun v : K => v) ((1 + (99 + 0)) * (R.unit g).1) 0 [1, 99] = some 99 := by
      unfold roulettePick; rw [if_neg ha]; unfold roulettePick; rw [if_pos hb]
    simp only [List.filterMap_cons, hp, List.filterMap_nil]
  · show Except.ok ([(R.unit g).1].filterMap (fun u => roulettePick (fun v : K => v + 100)
      ((1 + 100 + (99 + 100 + 0)) * u) 0 [1, 99]), (R.unit g).2) = _
    have hp : roulettePick (fun v : K => v + 100) ((1 + 100 + (99 + 100 + 0)) * (R.unit g).1) 0 [1, 99] = some 1 := by
      unfold roulettePick; rw [if_pos hc]
    simp only [List.filterMap_cons, hp, List.filterMap_nil]

/-! ## Concrete cases -/

/-- A strictly increasing transformation that is neither a scaling nor a shift. -/
example : StrictMono (fun x : ℚ => 2 * x ^ 3 + 5) := by
  intro a b h
  show 2 * a ^ 3 + 5 < 2 * b ^ 3 + 5
  nlinarith [sq_nonneg (a + b), sq_nonneg (a - b), sq_nonneg a, sq_nonneg b, mul_pos (sub_pos.2 h) (sub_pos.2 h)]

/-- A permutation GA (Tournament, PMX, Interchange, WeakParent) and the same GA on the transformed objective, with an
unrelated placeholder fitness: both return `[3, 2, 1]`. -/
example : okWith (run (Individual.trait (List Nat) ℚ) (permOps counterFRng (Individual.trait (List Nat) ℚ)
      (Individual.chromOps Nat (.num 0)) sharedSlots (fun c => .num (c.headD 0 : ℚ)) (fun _ => 1) (1 / 2) 5 2
      [1, 2, 3] (OrderSelection.tournament (1 / 5)).toSelection .pmx (.interchange (1 / 2)) .weakParent true tickClock)
      ⟨2, 2, 1000⟩ ⟨0, 2, none⟩ 0) (fun r => r.1 = ⟨[3, 2, 1], .num 3⟩ ∧ r.2.length = 18) = true ∧
    okWith (run (Individual.trait (List Nat) ℚ) (permOps counterFRng (Individual.trait (List Nat) ℚ)
      (Individual.chromOps Nat (.num 77)) sharedSlots (fun c => (Fl.num (c.headD 0 : ℚ)).map (fun x => 2 * x ^ 3 + 5))
      (fun _ => 1) (1 / 2) 5 2
      [1, 2, 3] (OrderSelection.tournament (1 / 5)).toSelection .pmx (.interchange (1 / 2)) .weakParent true tickClock)
      ⟨2, 2, 1000⟩ ⟨0, 2, none⟩ 0) (fun r => r.1 = ⟨[3, 2, 1], .num 59⟩ ∧ r.2.length = 18) = true := by
  decide +kernel

/-- The draw 1/4 of the counter is in the range of `C145_roulette_shift`. -/
example : 1 / 100 < (counterRng.unit 0).1 ∧ (counterRng.unit 0).1 < 33 / 100 := by decide +kernel

/-! ## Every theorem on a concrete case -/

section instances
theorem cube_mono : StrictMono (fun x : ℚ => 2 * x ^ 3 + 5) := by
  intro a b h
  show 2 * a ^ 3 + 5 < 2 * b ^ 3 + 5
  nlinarith [sq_nonneg (a + b), sq_nonneg (a - b), sq_nonneg a, sq_nonneg b, mul_pos (sub_pos.2 h) (sub_pos.2 h)]
example := C145_permutations counterFRng sharedSlots cube_mono (.num 0) (.num 77) (fun c : List Nat => .num (c.headD 0 : ℚ)) (fun _ => 1) (fun _ => 1)
  (1 / 2) 5 2 [1, 2, 3] (.tournament (1 / 5)) .pmx (.interchange (1 / 2)) .weakParent true tickClock ⟨2, 2, 1000⟩ ⟨0, 2, none⟩
example := C145_points counterFRng sharedSlots cube_mono (.num 0) (.num 77) (fun c : List ℚ => .num (c.headD 0)) (fun _ => 1) (fun _ => 1)
  (1 / 2) 5 2 ⟨2, [(0, 1), (0, 1)]⟩ (.tournament (1 / 5)) .singlePoint (.interchange (1 / 2)) .weakParent true tickClock ⟨2, 2, 1000⟩ ⟨0, 2, none⟩
example := C145_bit_strings counterFRng sharedSlots cube_mono (.num 0) (.num 77) (fun c : List Bool => .num (c.count true : ℚ)) 4 2 tickClock
  ⟨2, 2, 1000⟩ ⟨0, 2, none⟩
example := C145_roulette_scale counterRng (fun x : ℚ => x) 3 (by norm_num) 4 [1, 0, 3]
example := C145_roulette_shift counterRng 0 (by decide +kernel) (by decide +kernel)
end instances

end Ecrs.Ga
