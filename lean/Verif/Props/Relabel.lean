import Verif.Props.OrderInvariance

/-!
# Crossovers do not look at what the genes are (C149)
-/

set_option linter.unusedSectionVars false
set_option linter.unusedVariables false

namespace Ecrs.Props
open Ecrs Ecrs.Ga
open Ecrs.Ga (idx)

/-- Rewrite every gene of both children. -/
def relabelBoth {A B : Type} (φ : A → B) (c : List A × List A) : List B × List B := (c.1.map φ, c.2.map φ)

/-- The operator commutes with rewriting the genes: from every generator state, crossing the rewritten parents either panics
in the same way as crossing the originals, or leaves the generator in the same state and returns the rewritten children. -/
def CommutesWith {G A B : Type} (φ : A → B) (op : List A → List A → M G (List A × List A))
    (op' : List B → List B → M G (List B × List B)) : Prop :=
  ∀ p q : List A, op' (p.map φ) (q.map φ) = relabelBoth φ <$> op p q

namespace Relabel
variable {G U A B : Type} [LinearOrder U] [Zero U] [One U] (R : Rng G U) (φ : A → B)

theorem of_rel2 {op : M G (List A × List A)} {op' : M G (List B × List B)}
    (h : Rel2 (fun c c' => c' = relabelBoth φ c) op op') : op' = relabelBoth φ <$> op := by
  have := Rel2.map_eq (f := relabelBoth φ) (g := id) h (fun a b hab => hab.symm)
  simpa using this

theorem idx_rel (l : List A) (i : Nat) :
    Rel2 (fun a b => b = φ a) (idx l i : M G A) (idx (l.map φ) i) := by
  unfold idx
  rw [List.getElem?_map]
  cases l[i]? with
  | none => exact Rel2.fail
  | some a => exact Rel2.pure rfl

/-- Lists of pairs pushed by the loops. -/
def pairs (l : List (A × A)) : List (B × B) := l.map (Prod.map φ φ)

theorem forall2_map {α β : Type} {f : α → β} : ∀ {xs : List α} {ys : List β},
    List.Forall₂ (fun a b => b = f a) xs ys → ys = xs.map f
  | _, _, .nil => rfl
  | _, _, .cons h t => by rw [h, forall2_map t]; rfl

theorem forall2_refl {α : Type} : ∀ xs : List α, List.Forall₂ Eq xs xs
  | [] => .nil
  | _ :: xs => .cons rfl (forall2_refl xs)

theorem pushLoci_rel (s1 s2 : List A) (lo hi : Nat) :
    Rel2 (fun l l' => l' = pairs φ l) (pushLoci s1 s2 lo hi : M G _) (pushLoci (s1.map φ) (s2.map φ) lo hi) := by
  unfold pushLoci
  refine (Rel2.forEach (R := Eq) (S := fun a b => b = Prod.map φ φ a) ?_ (forall2_refl _)).mono
    fun _ _ h => forall2_map h
  rintro i _ rfl
  exact (idx_rel φ s1 i).bind fun a a' ha => (idx_rel φ s2 i).bind fun b b' hb => Rel2.pure (by subst ha hb; rfl)

theorem children_pairs (l : List (A × A)) :
    (((pairs φ l).map Prod.fst, (pairs φ l).map Prod.snd) : List B × List B)
      = relabelBoth φ (l.map Prod.fst, l.map Prod.snd) := by
  simp [pairs, relabelBoth, Function.comp_def]

theorem pairs_append (a b : List (A × A)) : pairs φ (a ++ b) = pairs φ a ++ pairs φ b := by simp [pairs]

theorem singlePoint_rel (p q : List A) :
    Rel2 (fun c c' => c' = relabelBoth φ c) (singlePoint R p q) (singlePoint R (p.map φ) (q.map φ)) := by
  unfold singlePoint
  rw [List.length_map]
  refine Rel2.bindEq rfl fun cut => (pushLoci_rel φ p q _ _).bind fun a a' ha =>
    (pushLoci_rel φ q p _ _).bind fun b b' hb => Rel2.pure ?_
  subst ha hb
  rw [← pairs_append, children_pairs]

theorem twoPoint_rel (p q : List A) :
    Rel2 (fun c c' => c' = relabelBoth φ c) (twoPoint R p q) (twoPoint R (p.map φ) (q.map φ)) := by
  unfold twoPoint
  simp only [List.length_map]
  refine Rel2.bindEq rfl fun _ => Rel2.bindEq rfl fun x => Rel2.bindEq rfl fun y => ?_
  refine (pushLoci_rel φ p q _ _).bind fun a a' ha => (pushLoci_rel φ q p _ _).bind fun b b' hb =>
    (pushLoci_rel φ p q _ _).bind fun c c' hc => Rel2.pure ?_
  subst ha hb hc
  rw [← pairs_append, ← pairs_append, children_pairs]

theorem multiFirst_rel (p q : List A) : ∀ is : List Nat,
    Rel2 (fun l l' => l' = (pairs φ l.1, l.2)) (multiFirst p q is : M G _) (multiFirst (p.map φ) (q.map φ) is)
  | [] => Rel2.pure rfl
  | i :: is => (idx_rel φ p i).bind fun a a' ha => (idx_rel φ q i).bind fun b b' hb =>
      (multiFirst_rel p q is).bind fun r r' hr => Rel2.pure (by subst ha hb hr; rfl)

theorem multiRest_rel (len : Nat) : ∀ (cs : List Nat) (p q : List A),
    Rel2 (fun l l' => l' = pairs φ l) (multiRest p q len cs : M G _) (multiRest (p.map φ) (q.map φ) len cs)
  | [], _, _ => Rel2.fail
  | [c], p, q => pushLoci_rel φ p q _ _
  | c :: c' :: cs, p, q => (pushLoci_rel φ p q _ _).bind fun a a' ha =>
      (multiRest_rel len (c' :: cs) q p).bind fun r r' hr => Rel2.pure (by subst ha hr; exact (pairs_append φ _ _).symm)

theorem multiPoint_rel (k : Nat) (p q : List A) :
    Rel2 (fun c c' => c' = relabelBoth φ c) (multiPoint R k p q) (multiPoint R k (p.map φ) (q.map φ)) := by
  unfold multiPoint multiPointCuts
  simp only [List.length_map]
  refine Rel2.bindEq rfl fun _ => Rel2.bindEq rfl fun _ => Rel2.bindEq rfl fun _ => Rel2.bindEq rfl fun cuts =>
    Rel2.bindEq rfl fun c0 => (multiFirst_rel φ p q _).bind fun a a' ha => ?_
  subst ha
  have e1 : (if a.2 then q.map φ else p.map φ) = (if a.2 then q else p).map φ := by cases a.2 <;> rfl
  have e2 : (if a.2 then p.map φ else q.map φ) = (if a.2 then p else q).map φ := by cases a.2 <;> rfl
  dsimp only
  rw [e1, e2]
  refine (multiRest_rel φ _ _ _ _).bind fun b b' hb => Rel2.pure ?_
  subst hb
  rw [← pairs_append, children_pairs]

theorem fold_rel {σ τ ι : Type} {S : σ → τ → Prop} {f : σ → ι → M G σ} {f' : τ → ι → M G τ}
    (h : ∀ s t i, S s t → Rel2 S (f s i) (f' t i)) : ∀ (is : List ι) (s : σ) (t : τ), S s t →
      Rel2 S (M.fold f s is) (M.fold f' t is)
  | [], s, t, hs => Rel2.pure hs
  | i :: is, s, t, hs => (h s t i hs).bind fun s' t' hs' => fold_rel h is s' t' hs'

theorem setIdx_rel (l : List A) (i : Nat) (v : A) :
    Rel2 (fun a b => b = a.map φ) (setIdx l i v : M G _) (setIdx (l.map φ) i (φ v)) := by
  unfold setIdx
  rw [List.length_map]
  by_cases h : i < l.length
  · rw [if_pos h, if_pos h]; exact Rel2.pure (by rw [List.map_set])
  · rw [if_neg h, if_neg h]; exact Rel2.fail

theorem fixedPoint_rel (cut : Nat) (p q : List A) :
    Rel2 (fun c c' => c' = relabelBoth φ c) (fixedPointCh cut p q : M G _) (fixedPointCh cut (p.map φ) (q.map φ)) := by
  unfold fixedPointCh
  rw [List.length_map]
  refine fold_rel ?_ _ _ _ rfl
  rintro s t i rfl
  refine (idx_rel φ q i).bind fun b b' hb => ?_
  subst hb
  refine (setIdx_rel φ s.1 i b).bind fun c1 c1' h1 => (idx_rel φ p i).bind fun a a' ha => ?_
  subst ha
  exact (setIdx_rel φ s.2 i a).bind fun c2 c2' h2 => Rel2.pure (by subst h1 h2; rfl)

theorem maskLoci_rel (p q : List A) : ∀ (ms : List Bool) (i : Nat),
    Rel2 (fun l l' => l' = pairs φ l) (maskLoci p q i ms : M G _) (maskLoci (p.map φ) (q.map φ) i ms)
  | [], _ => Rel2.pure rfl
  | m :: ms, i => (idx_rel φ p i).bind fun a a' ha => (idx_rel φ q i).bind fun b b' hb =>
      (maskLoci_rel p q ms (i + 1)).bind fun r r' hr => Rel2.pure (by subst ha hb hr; cases m <;> rfl)

theorem uniform_rel (half : U) (p q : List A) :
    Rel2 (fun c c' => c' = relabelBoth φ c) (uniform R half p q) (uniform R half (p.map φ) (q.map φ)) := by
  unfold uniform
  simp only [List.length_map]
  refine Rel2.bindEq rfl fun _ => Rel2.bindEq rfl fun vals => (maskLoci_rel φ p q _ _).bind fun a a' ha => Rel2.pure ?_
  subst ha; rw [children_pairs]

theorem uniformParameterized_rel (bias : U) (p q : List A) :
    Rel2 (fun c c' => c' = relabelBoth φ c) (uniformParameterized R bias p q)
      (uniformParameterized R bias (p.map φ) (q.map φ)) := by
  unfold uniformParameterized
  simp only [List.length_map]
  refine Rel2.bindEq rfl fun _ => Rel2.bindEq rfl fun vals => (maskLoci_rel φ p q _ _).bind fun a a' ha => Rel2.pure ?_
  subst ha; rw [children_pairs]

theorem shuffle_rel (p q : List A) :
    Rel2 (fun c c' => c' = relabelBoth φ c) (shuffle R p q) (shuffle R (p.map φ) (q.map φ)) := by
  unfold shuffle
  simp only [List.length_map]
  refine Rel2.bindEq rfl fun _ => Rel2.bindEq rfl fun vals => (maskLoci_rel φ p q _ _).bind fun a a' ha => Rel2.pure ?_
  subst ha; rw [children_pairs]

variable [DecidableEq A] [DecidableEq B] (hφ : Function.Injective φ)
include hφ

theorem orderedFill_rel (sub : List A) : ∀ (rest : List A) (need : Nat),
    Rel2 (fun l l' => l' = (l.1.map φ, l.2.map φ)) (orderedFill sub need rest : M G _)
      (orderedFill (sub.map φ) need (rest.map φ))
  | rest, 0 => by simp only [orderedFill]; exact Rel2.pure (by simp)
  | [], need + 1 => Rel2.fail
  | g :: rest, need + 1 => by
    have hm : φ g ∈ sub.map φ ↔ g ∈ sub := List.mem_map_of_injective hφ
    simp only [List.map_cons, orderedFill]
    by_cases h : g ∈ sub
    · rw [if_pos h, if_pos (hm.2 h)]; exact orderedFill_rel sub rest (need + 1)
    · rw [if_neg h, if_neg (mt hm.1 h)]
      exact (orderedFill_rel sub rest need).bind fun r r' hr => Rel2.pure (by subst hr; rfl)

omit [DecidableEq A] [DecidableEq B] hφ in
theorem readRange_rel (p : List A) (lo hi : Nat) :
    Rel2 (fun l l' => l' = l.map φ) (readRange p lo hi : M G _) (readRange (p.map φ) lo hi) := by
  unfold readRange
  refine (Rel2.forEach (R := Eq) (S := fun a b => b = φ a) ?_ (forall2_refl _)).mono
    fun _ _ h => forall2_map h
  rintro i _ rfl
  exact idx_rel φ p i

theorem orderedChild_rel (p q : List A) (b e : Nat) :
    Rel2 (fun l l' => l' = l.map φ) (orderedChild p q b e : M G _) (orderedChild (p.map φ) (q.map φ) b e) := by
  unfold orderedChild
  refine (readRange_rel φ p b e).bind fun sub sub' hs => ?_
  subst hs
  refine (orderedFill_rel φ hφ sub q b).bind fun r r' hr => Rel2.pure ?_
  subst hr
  have : List.filter (fun x => decide (x ∉ sub.map φ)) (r.2.map φ)
      = (r.2.filter (fun x => decide (x ∉ sub))).map φ := by
    rw [List.filter_map]
    congr 1
    refine List.filter_congr fun x _ => ?_
    simp only [Function.comp, List.mem_map_of_injective hφ]
  simp only [List.map_append, this]

theorem ordered_rel (p q : List A) :
    Rel2 (fun c c' => c' = relabelBoth φ c) (ordered R p q) (ordered R (p.map φ) (q.map φ)) := by
  unfold ordered
  simp only [List.length_map]
  exact Rel2.bindEq rfl fun _ => Rel2.bindEq rfl fun b => Rel2.bindEq rfl fun e =>
    (orderedChild_rel φ hφ p q b e).bind fun a a' ha => (orderedChild_rel φ hφ q p b e).bind fun c c' hc =>
      Rel2.pure (by subst ha hc; rfl)

theorem lastIndexOf_eq (p : List A) (v : A) :
    (lastIndexOf (p.map φ) (φ v) : M G Nat) = lastIndexOf p v := by
  unfold lastIndexOf
  have : (fun i : Nat => decide ((p.map φ)[i]? = some (φ v))) = fun i => decide (p[i]? = some v) := by
    funext i
    rw [List.getElem?_map]
    cases p[i]? with
    | none => simp
    | some a => simp [hφ.eq_iff]
  rw [List.length_map, this]

theorem pmxExit_rel (p q : List A) (b e : Nat) : ∀ (fuel j : Nat),
    Rel2 Eq (pmxExit p q b e fuel j : M G Nat) (pmxExit (p.map φ) (q.map φ) b e fuel j)
  | 0, _ => Rel2.fail
  | fuel + 1, j => by
    unfold pmxExit
    refine (idx_rel φ p j).bind fun v v' hv => ?_
    subst hv
    refine Rel2.bindEq (lastIndexOf_eq φ hφ q v).symm fun c => ?_
    by_cases h : b ≤ c ∧ c < e
    · rw [if_pos h, if_pos h]; exact pmxExit_rel p q b e fuel c
    · rw [if_neg h, if_neg h]; exact Rel2.pure rfl

theorem pmxPlace_rel (fuel : Nat) (p q : List A) (b e : Nat) (sub : List A) (is : List Nat) (ch : List (Option A)) :
    Rel2 (fun l l' => l' = l.map (Option.map φ)) (pmxPlace fuel p q b e sub ch is : M G _)
      (pmxPlace fuel (p.map φ) (q.map φ) b e (sub.map φ) (ch.map (Option.map φ)) is) := by
  unfold pmxPlace
  refine fold_rel ?_ _ _ _ rfl
  rintro s t i rfl
  refine (idx_rel φ q i).bind fun g g' hg => ?_
  subst hg
  have hm : φ g ∈ sub.map φ ↔ g ∈ sub := List.mem_map_of_injective hφ
  by_cases h : g ∈ sub
  · rw [if_pos h, if_pos (hm.2 h)]; exact Rel2.pure rfl
  · rw [if_neg h, if_neg (mt hm.1 h)]
    refine (pmxExit_rel φ hφ p q b e fuel i).bind fun c c' hc => ?_
    subst hc
    exact setIdx_rel (Option.map φ) s c (some g)

omit [DecidableEq A] [DecidableEq B] hφ in
theorem pmxFinish_rel (q : List A) : ∀ (os : List (Option A)) (i : Nat),
    Rel2 (fun l l' => l' = l.map φ) (pmxFinish q i os : M G _) (pmxFinish (q.map φ) i (os.map (Option.map φ)))
  | [], _ => Rel2.pure rfl
  | o :: os, i => by
    have h1 : Rel2 (fun a b => b = φ a) (pmxGene q i o : M G _) (pmxGene (q.map φ) i (o.map φ)) := by
      cases o with
      | none => exact idx_rel φ q i
      | some g => exact Rel2.pure rfl
    exact h1.bind fun a a' ha => (pmxFinish_rel q os (i + 1)).bind fun r r' hr => Rel2.pure (by subst ha hr; rfl)

theorem pmxChild_rel (fuel : Nat) (p q : List A) (b e : Nat) :
    Rel2 (fun l l' => l' = l.map φ) (pmxChild fuel p q b e : M G _) (pmxChild fuel (p.map φ) (q.map φ) b e) := by
  unfold pmxChild
  refine (readRange_rel φ p b e).bind fun sub sub' hs => ?_
  subst hs
  refine Rel2.bind (R := fun l l' => l' = l.map (Option.map φ)) ?_ ?_
  · refine fold_rel ?_ _ _ _ (by rw [List.length_map, List.map_replicate]; rfl)
    rintro s t i rfl
    refine (idx_rel φ p i).bind fun g g' hg => ?_
    subst hg
    exact setIdx_rel (Option.map φ) s i (some g)
  · rintro ch _ rfl
    refine (pmxPlace_rel φ hφ fuel p q b e sub _ ch).bind ?_
    rintro ch1 _ rfl
    exact pmxFinish_rel φ q ch1 0

theorem pmx_rel (fuel : Nat) (p q : List A) :
    Rel2 (fun c c' => c' = relabelBoth φ c) (pmx R fuel p q) (pmx R fuel (p.map φ) (q.map φ)) := by
  unfold pmx
  simp only [List.length_map]
  exact Rel2.bindEq rfl fun _ => Rel2.bindEq rfl fun b => Rel2.bindEq rfl fun e =>
    (pmxChild_rel φ hφ fuel p q b e).bind fun a a' ha => (pmxChild_rel φ hφ fuel q p b e).bind fun c c' hc =>
      Rel2.pure (by subst ha hc; rfl)

theorem ppxNext_rel (taken : List A) : ∀ rem : List A,
    Rel2 (fun l l' => l' = (φ l.1, l.2.map φ)) (ppxNext taken rem : M G _) (ppxNext (taken.map φ) (rem.map φ))
  | [] => Rel2.fail
  | g :: rest => by
    have hm : φ g ∈ taken.map φ ↔ g ∈ taken := List.mem_map_of_injective hφ
    simp only [List.map_cons, ppxNext]
    by_cases h : g ∈ taken
    · rw [if_pos h, if_pos (hm.2 h)]; exact ppxNext_rel taken rest
    · rw [if_neg h, if_neg (mt hm.1 h)]; exact Rel2.pure rfl

theorem ppxGo_rel : ∀ (ms : List Bool) (taken p q : List A),
    Rel2 (fun l l' => l' = l.map φ) (ppxGo ms taken p q : M G _) (ppxGo ms (taken.map φ) (p.map φ) (q.map φ))
  | [], _, _, _ => Rel2.pure rfl
  | true :: ms, taken, p, q => (ppxNext_rel φ hφ taken p).bind fun r r' hr => by
      subst hr
      have := ppxGo_rel ms (taken ++ [r.1]) r.2 q
      rw [List.map_append] at this
      exact this
  | false :: ms, taken, p, q => (ppxNext_rel φ hφ taken q).bind fun r r' hr => by
      subst hr
      have := ppxGo_rel ms (taken ++ [r.1]) p r.2
      rw [List.map_append] at this
      exact this

theorem ppx_rel (p q : List A) :
    Rel2 (fun c c' => c' = relabelBoth φ c) (ppx R p q) (ppx R (p.map φ) (q.map φ)) := by
  unfold ppx ppxChild
  simp only [List.length_map]
  exact Rel2.bindEq rfl fun _ => Rel2.bindEq rfl fun mask =>
    (ppxGo_rel φ hφ mask [] p q).bind fun a a' ha => (ppxGo_rel φ hφ mask [] q p).bind fun c c' hc =>
      Rel2.pure (by subst ha hc; rfl)

omit [DecidableEq A] [DecidableEq B] hφ

/-! ## Mutations -/

theorem swapIdx_rel (l : List A) (i j : Nat) :
    Rel2 (fun a b => b = a.map φ) (swapIdx l i j : M G _) (swapIdx (l.map φ) i j) := by
  unfold swapIdx
  refine (idx_rel φ l j).bind fun g g' hg => (idx_rel φ l i).bind fun x x' hx => ?_
  subst hg hx
  refine (setIdx_rel φ l j x).bind fun c c' hc => ?_
  subst hc
  exact setIdx_rel φ c i g

theorem inversionGo_rel : ∀ (n : Nat) (c : List A) (lo hi : Nat),
    Rel2 (fun a b => b = a.map φ) (inversionGo n c lo hi : M G _) (inversionGo n (c.map φ) lo hi)
  | 0, c, lo, hi => by
    unfold inversionGo
    by_cases h : lo < hi
    · rw [if_pos h, if_pos h]; exact Rel2.fail
    · rw [if_neg h, if_neg h]; exact Rel2.pure rfl
  | n + 1, c, lo, hi => by
    unfold inversionGo
    by_cases h : lo < hi
    · rw [if_pos h, if_pos h]
      refine (swapIdx_rel φ c lo hi).bind fun d d' hd => ?_
      subst hd
      exact inversionGo_rel n d (lo + 1) (hi - 1)
    · rw [if_neg h, if_neg h]; exact Rel2.pure rfl

theorem mutation_rel (mu : Mutation U) (c : List A) :
    Rel2 (fun a b => b = a.map φ) (mu.run R c) (mu.run R (c.map φ)) := by
  cases mu with
  | identity => exact Rel2.pure rfl
  | interchange rate =>
    show Rel2 _ (interchange R rate c) (interchange R rate (c.map φ))
    unfold interchange
    rw [List.length_map]
    refine Rel2.bindEq rfl fun _ => fold_rel ?_ _ _ _ rfl
    rintro s _ i rfl
    unfold interchangeStep
    refine Rel2.bindEq rfl fun d => ?_
    by_cases h : d < rate
    · rw [if_pos h, if_pos h, List.length_map]
      exact Rel2.bindEq rfl fun j => swapIdx_rel φ s i j
    · rw [if_neg h, if_neg h]; exact Rel2.pure rfl
  | reversing rate =>
    show Rel2 _ (reversing R rate c) (reversing R rate (c.map φ))
    unfold reversing
    rw [List.length_map]
    refine fold_rel ?_ _ _ _ rfl
    rintro s _ i rfl
    unfold reversingStep
    refine Rel2.bindEq rfl fun d => ?_
    by_cases h : d < rate
    · rw [if_pos h, if_pos h]; exact swapIdx_rel φ s i _
    · rw [if_neg h, if_neg h]; exact Rel2.pure rfl
  | inversion rate =>
    show Rel2 _ (inversion R rate c) (inversion R rate (c.map φ))
    unfold inversion
    refine Rel2.bindEq rfl fun d => ?_
    by_cases h : rate < d
    · rw [if_pos h, if_pos h]; exact Rel2.pure rfl
    · rw [if_neg h, if_neg h]
      unfold inversionBody
      rw [List.length_map]
      exact Rel2.bindEq rfl fun lo => Rel2.bindEq rfl fun hi => inversionGo_rel φ _ _ _ _

theorem shuffled_rel (genes : List A) :
    Rel2 (fun a b => b = a.map φ) (shuffled R genes) (shuffled R (genes.map φ)) := by
  unfold shuffled
  rw [List.length_map]
  refine Rel2.bindEq rfl fun order => ?_
  refine (Rel2.forEach (R := Eq) (S := fun a b => b = φ a) ?_ (forall2_refl _)).mono fun _ _ h => forall2_map h
  rintro i _ rfl
  exact idx_rel φ genes i

end Relabel

/-! ## The property, operator by operator -/

section operators
variable {G U A B : Type} [LinearOrder U] [Zero U] [One U] (R : Rng G U) (φ : A → B)

/-- **C149** (locus operators).  SinglePoint, TwoPoint, MultiPoint, FixedPoint, Uniform, UniformParameterized and Shuffle
never look at a gene: for *every* way `φ` of rewriting genes, injective or not, and every pair of parents (of whatever
lengths), crossing the rewritten parents with the same generator gives the same panic, or the same generator state and the
rewritten children. -/
theorem C149_locus_operators (half bias : U) (k cut : Nat) :
    CommutesWith φ (singlePoint R) (singlePoint R) ∧ CommutesWith φ (twoPoint R) (twoPoint R) ∧
    CommutesWith φ (multiPoint R k) (multiPoint R k) ∧
    CommutesWith φ (fixedPointCh (G := G) cut) (fixedPointCh cut) ∧
    CommutesWith φ (uniform R half) (uniform R half) ∧
    CommutesWith φ (uniformParameterized R bias) (uniformParameterized R bias) ∧
    CommutesWith φ (shuffle R) (shuffle R) :=
  ⟨fun p q => Relabel.of_rel2 φ (Relabel.singlePoint_rel R φ p q),
   fun p q => Relabel.of_rel2 φ (Relabel.twoPoint_rel R φ p q),
   fun p q => Relabel.of_rel2 φ (Relabel.multiPoint_rel R φ k p q),
   fun p q => Relabel.of_rel2 φ (Relabel.fixedPoint_rel φ cut p q),
   fun p q => Relabel.of_rel2 φ (Relabel.uniform_rel R φ half p q),
   fun p q => Relabel.of_rel2 φ (Relabel.uniformParameterized_rel R φ bias p q),
   fun p q => Relabel.of_rel2 φ (Relabel.shuffle_rel R φ p q)⟩

/-- **C149** (permutation operators).  OrderedCrossover, Pmx and Ppx only test genes for equality: the same holds for every
injective rewriting (Pmx with the same bound on its mapping loop, so including the runs that never end). -/
theorem C149_permutation_operators [DecidableEq A] [DecidableEq B] (hφ : Function.Injective φ) (fuel : Nat) :
    CommutesWith φ (ordered R) (ordered R) ∧ CommutesWith φ (pmx R fuel) (pmx R fuel) ∧
    CommutesWith φ (ppx R) (ppx R) :=
  ⟨fun p q => Relabel.of_rel2 φ (Relabel.ordered_rel R φ hφ p q),
   fun p q => Relabel.of_rel2 φ (Relabel.pmx_rel R φ hφ fuel p q),
   fun p q => Relabel.of_rel2 φ (Relabel.ppx_rel R φ hφ p q)⟩

/-- **C149** (mutations).  Identity, Interchange, Reversing and Inversion commute with every rewriting of the genes. -/
theorem C149_mutations (mu : Mutation U) (c : List A) : mu.run R (c.map φ) = List.map φ <$> mu.run R c := by
  simpa using Rel2.map_eq (f := List.map φ) (g := id) (Relabel.mutation_rel R φ mu c) (fun a b h => h.symm)

end operators

/-! ## The driver -/

section driver
variable {W I J C D K : Type} [LinearOrder K]

/-- Two configurations such that one is the image of the other under `h`. -/
structure Image (h : I → J) (T : IndTrait I C K) (T' : IndTrait J D K) (ops : Ops W I K) (ops' : Ops W J K) : Prop where
  fit : ∀ i, T'.fitness (h i) = T.fitness i
  set : ∀ i x, T'.setFitness (h i) x = h (T.setFitness i x)
  eval : ∀ i, T'.requiresEval (h i) = T.requiresEval i
  generate : ∀ n, Rel2 (fun l l' => l' = l.map h) (ops.generate n) (ops'.generate n)
  fitness : ∀ i, Rel2 (fun a b => b = (h a.1, a.2)) (ops.fitnessFn i) (ops'.fitnessFn (h i))
  select : ∀ m pop, Rel2 (fun l l' => l' = l.map h) (ops.select m pop) (ops'.select m (pop.map h))
  cross : ∀ m pop, Rel2 (fun l l' => l' = l.map h) (ops.cross m pop) (ops'.cross m (pop.map h))
  mutate : ∀ m i, Rel2 (fun a b => b = h a) (ops.mutate m i) (ops'.mutate m (h i))
  replace : ∀ m pop cs, Rel2 (fun l l' => l' = l.map h) (ops.replace m pop cs) (ops'.replace m (pop.map h) (cs.map h))
  requires : ops'.requiresChildrenFitness = ops.requiresChildrenFitness
  elapsed : ops'.elapsed = ops.elapsed

/-- Related states of the main loop. -/
structure ImageSt (h : I → J) (s : St I) (s' : St J) : Prop where
  pop : s'.pop = s.pop.map h
  best : s'.best = h s.best
  metrics : s'.metrics = s.metrics
  trace : s'.trace = s.trace.map (Ev.map h)

variable {h : I → J} {T : IndTrait I C K} {T' : IndTrait J D K} {ops : Ops W I K} {ops' : Ops W J K}
  (H : Image h T T' ops ops')
include H

theorem Image.evalPop (pop : List I) :
    Rel2 (fun l l' => l' = l.map h) (Ga.evalPop T ops pop) (Ga.evalPop T' ops' (pop.map h)) := by
  refine (Rel2.forEach (R := fun a b => b = h a) (S := fun a b => b = h a) ?_ ?_).mono
    fun _ _ hh => Relabel.forall2_map hh
  · rintro i _ rfl
    unfold evalOne
    rw [H.eval]
    cases T.requiresEval i with
    | false => exact Rel2.pure rfl
    | true =>
      show Rel2 _ (ops.fitnessFn i >>= fun r => pure (T.setFitness r.1 r.2))
        (ops'.fitnessFn (h i) >>= fun r => pure (T'.setFitness r.1 r.2))
      refine (H.fitness i).bind ?_
      rintro a _ rfl
      exact Rel2.pure (H.set a.1 a.2)
  · induction pop with
    | nil => exact .nil
    | cons i pop ih => exact .cons rfl ih

theorem Image.cmp (a b : I) : cmpInd T' (h a) (h b) = cmpInd T a b := by unfold cmpInd; rw [H.fit, H.fit]

theorem Image.minFrom : ∀ (xs : List I) (b : I),
    Ga.minFrom T' (h b) (xs.map h) = h <$> Ga.minFrom T b xs
  | [], b => rfl
  | x :: xs, b => by
    simp only [List.map_cons, Ga.minFrom, H.cmp]
    cases cmpInd T b x with
    | error e => rfl
    | ok o => cases o <;> exact Image.minFrom xs _

theorem Image.maxFrom : ∀ (xs : List I) (b : I),
    Ga.maxFrom T' (h b) (xs.map h) = h <$> Ga.maxFrom T b xs
  | [], b => rfl
  | x :: xs, b => by
    simp only [List.map_cons, Ga.maxFrom, H.cmp]
    cases cmpInd T b x with
    | error e => rfl
    | ok o => cases o <;> exact Image.maxFrom xs _

omit H in
theorem rel_of_map {x : Except Panic I} {y : Except Panic J} (e : y = h <$> x) :
    Rel2 (W := W) (fun a b => b = h a) (M.ofExcept x) (M.ofExcept y) := by
  subst e
  cases x with
  | error e => exact Rel2.ofExcept (.inl ⟨e, rfl, rfl⟩)
  | ok a => exact Rel2.ofExcept (.inr ⟨a, h a, rfl, rfl, rfl⟩)

theorem Image.findBest (xs : List I) :
    Rel2 (W := W) (fun a b => b = h a) (M.ofExcept (Ga.findBest T xs)) (M.ofExcept (Ga.findBest T' (xs.map h))) := by
  refine rel_of_map ?_
  cases xs with
  | nil => rfl
  | cons x xs => exact H.minFrom xs x

theorem Image.findMax (xs : List I) :
    Rel2 (W := W) (fun a b => b = h a) (M.ofExcept (Ga.findMax T xs)) (M.ofExcept (Ga.findMax T' (xs.map h))) := by
  refine rel_of_map ?_
  cases xs with
  | nil => rfl
  | cons x xs => exact H.maxFrom xs x

theorem Image.iteration (p : GAParams) (g : Nat) {s : St I} {s' : St J} (hs : ImageSt h s s') :
    Rel2 (fun a b => ImageSt h a.1 b.1 ∧ b.2 = a.2) (Ga.iteration T ops p g s) (Ga.iteration T' ops' p g s') := by
  unfold Ga.iteration
  refine Rel2.bindEq H.elapsed.symm fun d => ?_
  rw [hs.metrics, hs.pop]
  refine (H.evalPop s.pop).bind ?_
  rintro pop _ rfl
  refine (H.select _ pop).bind ?_
  rintro pool _ rfl
  refine (H.cross _ pool).bind ?_
  rintro cr _ rfl
  refine Rel2.bind (R := fun l l' => l' = l.map h) ?_ ?_
  · refine (Rel2.forEach (R := fun a b => b = h a) (S := fun a b => b = h a) ?_ ?_).mono
      fun _ _ hh => Relabel.forall2_map hh
    · rintro i _ rfl
      exact H.mutate _ i
    · clear hs
      induction cr with
      | nil => exact .nil
      | cons i cr ih => exact .cons rfl ih
  rintro mu _ rfl
  refine Rel2.bind (R := fun l l' => l' = l.map h) ?_ ?_
  · unfold evalChildren
    rw [H.requires]
    cases ops.requiresChildrenFitness with
    | true => exact H.evalPop mu
    | false => exact Rel2.pure rfl
  rintro ch _ rfl
  refine (H.replace _ pop ch).bind ?_
  rintro re _ rfl
  rw [List.length_map]
  refine Rel2.bindEq rfl fun _ => (H.evalPop re).bind ?_
  rintro pop1 _ rfl
  refine (H.findBest pop1).bind ?_
  rintro b _ rfl
  refine Rel2.bindEq H.elapsed.symm fun d' => Rel2.pure ?_
  rw [hs.best, H.fit, H.fit, hs.trace]
  refine ⟨⟨rfl, ?_, rfl, ?_⟩, rfl⟩
  · show (if Fl.lt (T.fitness b) (T.fitness s.best) = true then h b else h s.best) =
      h (if Fl.lt (T.fitness b) (T.fitness s.best) = true then b else s.best)
    split <;> rfl
  · simp only [List.map_append, List.map_cons, List.map_nil, Ev.map]
    cases Fl.lt (T.fitness b) (T.fitness s.best) <;> rfl

theorem Image.loop (p : GAParams) : ∀ (n g : Nat) {s : St I} {s' : St J}, ImageSt h s s' →
    Rel2 (ImageSt h) (Ga.loop T ops p n g s) (Ga.loop T' ops' p n g s')
  | 0, _, _, _, hs => Rel2.pure hs
  | n + 1, g, s, s', hs => by
    unfold Ga.loop
    refine Rel2.bind (H.iteration p g hs) fun a b hab => ?_
    obtain ⟨a1, a2⟩ := a
    obtain ⟨b1, b2⟩ := b
    obtain ⟨h1, h2⟩ := hab
    have h2' : b2 = a2 := h2
    subst h2'
    cases b2 with
    | true => exact Rel2.pure h1
    | false => exact Image.loop p n (g + 1) h1

/-- The run of the image configuration is the image of the run. -/
theorem Image.run (p : GAParams) (m0 : Metrics) :
    Ga.run T' ops' p m0 = (fun r => (h r.1, r.2.map (Ev.map h))) <$> Ga.run T ops p m0 := by
  have key : Rel2 (fun a b => b = (h a.1, a.2.map (Ev.map h))) (Ga.run T ops p m0) (Ga.run T' ops' p m0) := by
    unfold Ga.run
    refine Rel2.bind (R := ImageSt h) ?_ fun s s' hs => ?_
    · unfold prologue
      refine (H.generate _).bind ?_
      rintro pop _ rfl
      refine (H.evalPop pop).bind ?_
      rintro ev _ rfl
      refine (H.findBest ev).bind ?_
      rintro b _ rfl
      rw [List.length_map]
      exact Rel2.bindEq H.elapsed.symm fun d => Rel2.pure ⟨rfl, rfl, rfl, rfl⟩
    · refine Rel2.bind (H.loop p _ 1 hs) fun t t' ht => ?_
      refine Rel2.bindEq H.elapsed.symm fun d => Rel2.pure ?_
      rw [ht.best, ht.pop, ht.metrics, ht.trace]
      simp [Ev.map]
  simpa using Rel2.map_eq (f := fun r => (h r.1, r.2.map (Ev.map h))) (g := id) key (fun a b hh => hh.symm)

end driver

/-! ## The operators on individuals -/

/-- The same individual with every gene rewritten. -/
def rewriteGenes {A B K : Type} (φ : A → B) (i : Individual (List A) K) : Individual (List B) K :=
  ⟨i.chromosome.map φ, i.fitness⟩

/-- The selection that looks at the rewritten individual. -/
def Selection.after {K I J : Type} (h : I → J) : Selection K J → Selection K I
  | .roulette => .roulette
  | .random => .random
  | .uniqueRandom => .uniqueRandom
  | .rank => .rank
  | .rankR r => .rankR r
  | .tournament f => .tournament f
  | .sus => .sus
  | .boltzmann w => .boltzmann fun m i => w m (h i)

/-- Does the operator compare genes with each other? -/
def Crossover.comparesGenes {U : Type} : Crossover U → Bool
  | .ordered | .pmx | .ppx => true
  | _ => false

namespace Relabel
variable {G U I J C D F : Type} [Field U] [LinearOrder U] [IsStrictOrderedRing U] [FloorSemiring U] [LinearOrder F]
  (R : FRng G U) {h : I → J} {T : IndTrait I C F} {T' : IndTrait J D F}

theorem pick_rel {W : Type} (pop : List I) (i : Nat) :
    Rel2 (W := W) (fun a b => b = h a) (idx pop i) (idx (pop.map h) i) := idx_rel h pop i

theorem picks_rel' {W : Type} (pop : List I) (is : List Nat) :
    Rel2 (W := W) (fun l l' => l' = l.map h) (M.forEach (idx pop) is) (M.forEach (idx (pop.map h)) is) := by
  refine (Rel2.forEach (R := Eq) (S := fun a b => b = h a) ?_ (forall2_refl _)).mono fun _ _ hh => forall2_map hh
  rintro i _ rfl
  exact idx_rel h pop i

theorem replicate_rel {W : Type} {m : M W I} {m' : M W J} (hm : Rel2 (fun a b => b = h a) m m') (n : Nat) :
    Rel2 (fun l l' => l' = l.map h) (M.replicate n m) (M.replicate n m') :=
  (Rel2.replicate hm n).mono fun _ _ hh => forall2_map hh

theorem roulettePick_eq (fit' : J → U) (t : U) : ∀ (xs : List I) (s : U),
    roulettePick fit' t s (xs.map h) = (roulettePick (fun i => fit' (h i)) t s xs).map h
  | [], _ => rfl
  | x :: xs, s => by
    simp only [List.map_cons, roulettePick]
    split
    · rfl
    · exact roulettePick_eq fit' t xs _

theorem susGo_rel (fit' : J → U) (d : U) (fuel : Nat) : ∀ (xs : List I) (s p : U),
    Rel2 (W := G) (fun l l' => l' = l.map h) (susGo (fun i => fit' (h i)) d fuel s p xs) (susGo fit' d fuel s p (xs.map h))
  | [], _, _ => Rel2.pure rfl
  | x :: xs, s, p => by
    simp only [List.map_cons, susGo]
    refine Rel2.bindEq rfl fun k => (susGo_rel fit' d fuel xs _ _).bind ?_
    rintro r _ rfl
    exact Rel2.pure (by simp)

theorem selection_rel (hfit : ∀ i, T'.fitness (h i) = T.fitness i) (fit' : J → U) (fuel count : Nat) (sel : Selection U J)
    (m : Metrics) (pop : List I) :
    Rel2 (fun l l' => l' = l.map h) ((Selection.after h sel).apply R T (fun i => fit' (h i)) fuel count m pop)
      (sel.apply R T' fit' fuel count m (pop.map h)) := by
  cases sel with
  | roulette =>
    show Rel2 _ (selRoulette R.toRng (fun i => fit' (h i)) count pop) (selRoulette R.toRng fit' count (pop.map h))
    unfold selRoulette
    refine Rel2.bindEq rfl fun us => Rel2.pure ?_
    rw [List.map_map, List.map_filterMap]
    congr 1
    funext u
    exact roulettePick_eq fit' _ pop 0
  | random =>
    show Rel2 _ (selRandom R.toRng count pop) (selRandom R.toRng count (pop.map h))
    unfold selRandom; rw [List.length_map]
    exact Rel2.bindEq rfl fun _ => Rel2.bindEq rfl fun is => picks_rel' pop is
  | uniqueRandom =>
    show Rel2 _ (selUniqueRandom R.toRng count pop) (selUniqueRandom R.toRng count (pop.map h))
    unfold selUniqueRandom; rw [List.length_map]
    exact Rel2.bindEq rfl fun is => picks_rel' pop is
  | rank =>
    show Rel2 _ (selRank R.toRng T count pop) (selRank R.toRng T' count (pop.map h))
    refine replicate_rel ?_ count
    unfold rankOne; rw [List.length_map]
    refine Rel2.bindEq rfl fun i => (idx_rel h pop i).bind ?_
    rintro a _ rfl
    refine Rel2.bindEq rfl fun j => (idx_rel h pop j).bind ?_
    rintro b _ rfl
    refine Rel2.pure ?_
    rw [hfit, hfit]
    split <;> rfl
  | rankR r =>
    show Rel2 _ (selRankR R.toRng r count pop) (selRankR R.toRng r count (pop.map h))
    unfold selRankR; rw [List.length_map]
    refine Rel2.bindEq rfl fun _ => replicate_rel ?_ count
    unfold rankROne; rw [List.length_map]
    refine Rel2.bindEq rfl fun i => (idx_rel h pop i).bind ?_
    rintro a _ rfl
    refine Rel2.bindEq rfl fun j => (idx_rel h pop j).bind ?_
    rintro b _ rfl
    refine Rel2.bindEq rfl fun u => Rel2.pure ?_
    split <;> rfl
  | tournament f =>
    show Rel2 _ (selTournament R.toRng T f count pop) (selTournament R.toRng T' f count (pop.map h))
    unfold selTournament; rw [List.length_map]
    refine replicate_rel ?_ count
    unfold tournamentOne; rw [List.length_map]
    refine Rel2.bindEq rfl fun is => (picks_rel' pop is).bind ?_
    rintro cs _ rfl
    refine rel_of_map ?_
    have hc : ∀ a b, cmpInd T' (h a) (h b) = cmpInd T a b := fun a b => by unfold cmpInd; rw [hfit, hfit]
    have key : ∀ (xs : List I) (b : I), Ga.maxFrom T' (h b) (xs.map h) = h <$> Ga.maxFrom T b xs := by
      intro xs
      induction xs with
      | nil => intro b; rfl
      | cons x xs ih =>
        intro b
        simp only [List.map_cons, Ga.maxFrom, hc]
        cases cmpInd T b x with
        | error e => rfl
        | ok o => cases o <;> exact ih _
    cases cs with
    | nil => rfl
    | cons c cs => exact key cs c
  | sus =>
    show Rel2 _ (selSus R (fun i => fit' (h i)) fuel count pop) (selSus R fit' fuel count (pop.map h))
    unfold selSus
    rw [List.map_map]
    refine Rel2.bindEq rfl fun _ => Rel2.bindEq rfl fun ptr => (susGo_rel fit' _ fuel pop 0 ptr).bind ?_
    rintro l _ rfl
    rw [List.length_map]
    exact Rel2.bindEq rfl fun _ => Rel2.pure rfl
  | boltzmann w =>
    show Rel2 _ (selBoltzmann R (fun i => w m (h i)) count pop) (selBoltzmann R (w m) count (pop.map h))
    unfold selBoltzmann
    rw [List.map_map]
    exact Rel2.bindEq rfl fun is => picks_rel' pop is

theorem weakGo_image {W : Type} (hfit : ∀ i, T'.fitness (h i) = T.fitness i) : ∀ (ps cs : List I),
    Rel2 (W := W) (fun l l' => l' = l.map h) (weakGo T ps cs) (weakGo T' (ps.map h) (cs.map h))
  | a :: b :: ps, c :: d :: cs => by
    show Rel2 _ (weakGo T ps cs >>= fun rest => pure (_ :: _ :: rest))
      (weakGo T' _ _ >>= fun rest => pure (_ :: _ :: rest))
    have hl : ∀ x y, indLt T' (h x) (h y) = indLt T x y := fun x y => by unfold indLt; rw [hfit, hfit]
    have hf : ∀ x y, largerFirst T' (h x) (h y) = (h (largerFirst T x y).1, h (largerFirst T x y).2) := by
      intro x y; unfold largerFirst; rw [hl]; split <;> rfl
    have hm : ∀ x y z w, weakMerge T' (h x) (h y) (h z) (h w) =
        (h (weakMerge T x y z w).1, h (weakMerge T x y z w).2) := by
      intro x y z w; unfold weakMerge; simp only [hl]
      split
      · split <;> rfl
      · split <;> rfl
    refine (weakGo_image hfit ps cs).bind ?_
    rintro r _ rfl
    refine Rel2.pure ?_
    unfold weakFamily
    simp only [hf, hm, List.map_cons]
  | a :: b :: ps, [] => Rel2.fail
  | a :: b :: ps, [c] => Rel2.fail
  | [], cs => by cases cs <;> exact Rel2.pure rfl
  | [a], cs => by cases cs <;> exact Rel2.pure rfl

theorem replacement_image {W : Type} (hfit : ∀ i, T'.fitness (h i) = T.fitness i) (debug : Bool) (re : Replacement)
    (pop cs : List I) :
    Rel2 (W := W) (fun l l' => l' = l.map h) (re.apply T debug pop cs) (re.apply T' debug (pop.map h) (cs.map h)) := by
  cases re with
  | bothParents => exact Rel2.pure rfl
  | noop => exact Rel2.pure rfl
  | weakParent =>
    show Rel2 _ (weakParent T debug pop cs) (weakParent T' debug (pop.map h) (cs.map h))
    unfold weakParent
    rw [List.length_map, List.length_map]
    exact Rel2.bindEq rfl fun _ => Rel2.bindEq rfl fun _ => Rel2.bindEq rfl fun _ => weakGo_image hfit pop cs

theorem pairs_image {f : I → I → M G (I × I)} {f' : J → J → M G (J × J)}
    (hf : ∀ a b, Rel2 (fun x y => y = (h x.1, h x.2)) (f a b) (f' (h a) (h b))) (pop : List I) :
    Rel2 (fun l l' => l' = l.map h) (applyPairs f pop) (applyPairs f' (pop.map h)) := by
  refine (applyPairs_rel (R := fun a b => b = h a) ?_ ?_).mono fun _ _ hh => forall2_map hh
  · rintro a b _ _ rfl rfl
    exact (hf a b).mono fun x y hxy => by subst hxy; exact ⟨rfl, rfl⟩
  · induction pop with
    | nil => exact .nil
    | cons i pop ih => exact .cons rfl ih

variable {A B : Type} [DecidableEq A] [DecidableEq B] (φ : A → B) (worst : Fl F)

theorem lift_image {op : List A → List A → M G (List A × List A)} {op' : List B → List B → M G (List B × List B)}
    (hop : ∀ p q, Rel2 (fun c c' => c' = relabelBoth φ c) (op p q) (op' (p.map φ) (q.map φ)))
    (pop : List (Individual (List A) F)) :
    Rel2 (fun l l' => l' = l.map (rewriteGenes φ))
      (applyPairs (liftSingle (Individual.chromOps A worst) op) pop)
      (applyPairs (liftSingle (Individual.chromOps B worst) op') (pop.map (rewriteGenes φ))) := by
  refine pairs_image (fun a b => ?_) pop
  unfold liftSingle
  refine (hop a.chromosome b.chromosome).bind ?_
  rintro c _ rfl
  exact Rel2.pure rfl

theorem crossover_image (half : U) (fuel : Nat) (cr : Crossover U)
    (hφ : Crossover.comparesGenes cr = true → Function.Injective φ) (pop : List (Individual (List A) F)) :
    Rel2 (fun l l' => l' = l.map (rewriteGenes φ)) (cr.apply R.toRng (Individual.chromOps A worst) half fuel pop)
      (cr.apply R.toRng (Individual.chromOps B worst) half fuel (pop.map (rewriteGenes φ))) := by
  cases cr with
  | singlePoint => exact lift_image φ worst (singlePoint_rel R.toRng φ) pop
  | twoPoint => exact lift_image φ worst (twoPoint_rel R.toRng φ) pop
  | multiPoint k => exact lift_image φ worst (multiPoint_rel R.toRng φ k) pop
  | uniform => exact lift_image φ worst (uniform_rel R.toRng φ half) pop
  | uniformParameterized b => exact lift_image φ worst (uniformParameterized_rel R.toRng φ b) pop
  | shuffle => exact lift_image φ worst (shuffle_rel R.toRng φ) pop
  | ordered => exact lift_image φ worst (ordered_rel R.toRng φ (hφ rfl)) pop
  | pmx => exact lift_image φ worst (pmx_rel R.toRng φ (hφ rfl) fuel) pop
  | ppx => exact lift_image φ worst (ppx_rel R.toRng φ (hφ rfl)) pop
  | fixedPoint cut =>
    refine pairs_image (fun a b => ?_) pop
    unfold fixedPoint
    refine (fixedPoint_rel φ cut a.chromosome b.chromosome).bind ?_
    rintro c _ rfl
    exact Rel2.pure rfl

end Relabel

/-- **C149** (whole runs).  Take any permutation GA made of shipped operators (any of the eight selections, ten crossovers,
four mutations, three replacements) over genes of one type, and the same GA whose gene list, objective, selection weights
refer to the genes under other names `φ`.  From every state of the generators and the clock, the run on the renamed genes is
the run on the original genes with every individual renamed: same panic or same final state, same returned individual, same
sequence of callbacks with the same metrics and fitness values.  `φ` has to be injective only when the crossover compares
genes (OrderedCrossover, Pmx, Ppx); with the other seven it may merge genes. -/
theorem C149_whole_run {W G U A B F : Type} [Field U] [LinearOrder U] [IsStrictOrderedRing U] [FloorSemiring U]
    [LinearOrder F] [DecidableEq A] [DecidableEq B] (R : FRng G U) (S : Slots W G) (φ : A → B) (worst : Fl F)
    (f : List B → Fl F) (fit : Individual (List B) F → U) (half : U) (fuel count : Nat) (genes : List A)
    (sel : Selection U (Individual (List B) F)) (cr : Crossover U) (mu : Mutation U) (re : Replacement) (debug : Bool)
    (elapsed : M W Nat) (p : GAParams) (m0 : Metrics)
    (hφ : Crossover.comparesGenes cr = true → Function.Injective φ) :
    run (Individual.trait (List B) F)
        (permOps R (Individual.trait _ F) (Individual.chromOps B worst) S f fit half fuel count (genes.map φ)
          sel cr mu re debug elapsed) p m0 =
      (fun r => (rewriteGenes φ r.1, r.2.map (Ev.map (rewriteGenes φ)))) <$>
        run (Individual.trait (List A) F)
          (permOps R (Individual.trait _ F) (Individual.chromOps A worst) S (fun c => f (c.map φ))
            (fun i => fit (rewriteGenes φ i)) half fuel count genes (Selection.after (rewriteGenes φ) sel) cr mu re debug
            elapsed) p m0 := by
  refine Image.run (h := rewriteGenes φ) ⟨fun _ => rfl, fun _ _ => rfl, fun _ => rfl, fun n => slot_rel _ ?_,
    fun i => ?_,
    fun m pop => slot_rel _ (Relabel.selection_rel (h := rewriteGenes φ) R (fun _ => rfl) fit fuel count sel m pop),
    fun m pop => slot_rel _ (Relabel.crossover_image R φ worst half fuel cr hφ pop), fun m i => slot_rel _ ?_,
    fun m pop cs => Relabel.replacement_image (h := rewriteGenes φ) (fun _ => rfl) debug re pop cs, rfl, rfl⟩ p m0
  · refine Relabel.replicate_rel ?_ n
    refine (Relabel.shuffled_rel R.toRng φ genes).bind ?_
    rintro c _ rfl
    exact Rel2.pure rfl
  · show Rel2 _ (fnFitness (Individual.trait (List A) F) (fun c => f (c.map φ)) i)
      (fnFitness (Individual.trait (List B) F) f (rewriteGenes φ i))
    unfold fnFitness
    exact Rel2.pure rfl
  · unfold applyMutation
    refine (Relabel.mutation_rel R.toRng φ mu i.chromosome).bind ?_
    rintro c _ rfl
    exact Rel2.pure rfl

/-! ## Concrete cases -/

/-- An injective renaming of the genes 0, 1, 2, ... and one that merges genes. -/
example : Function.Injective (fun n : Nat => (n, n % 2 = 0)) ∧ ¬ Function.Injective (fun n : Nat => n % 2) :=
  ⟨fun a b h => (Prod.mk.inj h).1, fun h => absurd (@h 0 2 rfl) (by decide)⟩

/-- The GA of C145's example on the genes 1, 2, 3 and on the genes 'a', 'b', 'c': the answers are `[3, 2, 1]` and
`['c', 'b', 'a']`. -/
example : okWith (run (Individual.trait (List Nat) ℚ) (permOps counterFRng (Individual.trait (List Nat) ℚ)
      (Individual.chromOps Nat (.num 0)) sharedSlots (fun c => .num (c.headD 0 : ℚ)) (fun _ => 1) (1 / 2) 5 2
      [1, 2, 3] (.tournament (1 / 5)) .pmx (.interchange (1 / 2)) .weakParent true tickClock)
      ⟨2, 2, 1000⟩ ⟨0, 2, none⟩ 0) (fun r => r.1 = ⟨[3, 2, 1], .num 3⟩) = true ∧
    okWith (run (Individual.trait (List Char) ℚ) (permOps counterFRng (Individual.trait (List Char) ℚ)
      (Individual.chromOps Char (.num 0)) sharedSlots
      (fun c => .num (((c.headD 'a').toNat - 96 : Nat) : ℚ)) (fun _ => 1) (1 / 2) 5 2
      ['a', 'b', 'c'] (.tournament (1 / 5)) .pmx (.interchange (1 / 2)) .weakParent true tickClock)
      ⟨2, 2, 1000⟩ ⟨0, 2, none⟩ 0) (fun r => r.1 = ⟨['c', 'b', 'a'], .num 3⟩) = true := by
  decide +kernel

/-- Injectivity is needed for the operators that compare genes: Ppx crosses two permutations of 0, 1, 2, 3, but panics when
the genes are merged to their parities. -/
example : okWith (ppx counterRng [0, 1, 2, 3] [3, 2, 1, 0] 0) (fun c => c.1.length = 4) = true ∧
    okWith (ppx counterRng ([0, 1, 2, 3].map (· % 2)) ([3, 2, 1, 0].map (· % 2)) 0) (fun _ => true) = false := by
  decide +kernel

section instances
example := C149_locus_operators counterRng (fun n : Nat => n % 2) (1 / 2) (1 / 4) 2 1
example := C149_permutation_operators counterRng (φ := fun n : Nat => (n, n + 1)) (fun _ _ h => (Prod.mk.inj h).1) 5
example := C149_mutations counterRng (fun n : Nat => n % 2) (.reversing (1 / 2)) [1, 2, 3]
example := C149_whole_run counterFRng sharedSlots (fun n : Nat => (n, n + 1)) (.num 0) (fun c => .num ((c.headD (0, 0)).1 : ℚ)) (fun _ => 1)
  (1 / 2) 5 2 [1, 2, 3] (.tournament (1 / 5)) .pmx (.interchange (1 / 2)) .weakParent true tickClock ⟨2, 2, 1000⟩ ⟨0, 2, none⟩
  (fun _ _ _ h => (Prod.mk.inj h).1)
end instances

end Ecrs.Props
