import Verif.Props.Numbering
import Verif.Props.Linkage

set_option linter.unusedSectionVars false
set_option linter.unusedVariables false

/-!
# C178 for the genetic operators without position bias
-/

namespace Ecrs.Props
open Ecrs Ecrs.Ga MeasureTheory
open Ecrs.Pso (reorder reorder_length reorder_getElem ext_of_dim)
open Ecrs.Aco (Renumbering)
open scoped ENNReal

section
variable {A : Type} {n : Nat} {p : Nat → Nat}

theorem reorder_perm (hp : Renumbering n p) {x : List A} (hx : x.length = n) : (reorder n p x).Perm x := by
  have h : reorder n id x = x := ext_of_dim (reorder_length (fun i hi => hi) hx) hx fun i hi => reorder_getElem (fun i hi => hi) hx hi
  have e : reorder n p x = ((List.range n).map p).filterMap fun i => x[i]? := by rw [List.filterMap_map]; rfl
  rw [e]
  conv_rhs => rw [← h]
  exact hp.filterMap _

theorem Renumbering.surj (hp : Renumbering n p) {j : Nat} (hj : j < n) : ∃ i, i < n ∧ p i = j := by
  have := hp.symm.subset (List.mem_range.2 hj)
  obtain ⟨i, hi, e⟩ := List.mem_map.1 this
  exact ⟨i, List.mem_range.1 hi, e⟩

theorem reorder_inj (hp : Renumbering n p) {x y : List A} (hx : x.length = n) (hy : y.length = n)
    (h : reorder n p x = reorder n p y) : x = y := by
  refine ext_of_dim hx hy fun j hj => ?_
  obtain ⟨i, hi, rfl⟩ := Renumbering.surj hp hj
  rw [← reorder_getElem (fun i hi => hp.lt hi) hx hi, h, reorder_getElem (fun i hi => hp.lt hi) hy hi]

theorem mix_len : ∀ {m : List Bool} {a b : List A}, m.length = n → a.length = n → b.length = n → (mix m a b).length = n := by
  induction n with
  | zero =>
    intro m a b hm ha hb
    match m, a, b, hm, ha, hb with
    | [], [], [], _, _, _ => rfl
  | succ n ih =>
    intro m a b hm ha hb
    match m, a, b, hm, ha, hb with
    | m :: ms, x :: xs, y :: ys, hm, ha, hb =>
      rw [mix, List.length_cons, ih (by simpa using hm) (by simpa using ha) (by simpa using hb)]

theorem mix_at : ∀ {m : List Bool} {a b : List A} (i : Nat) {t : Bool} {x y : A}, m[i]? = some t → a[i]? = some x → b[i]? = some y →
    (mix m a b)[i]? = some (if t then x else y)
  | t :: _, _ :: _, _ :: _, 0, _, _, _, ht, hx, hy => by
    simp only [List.getElem?_cons_zero, Option.some.injEq] at ht hx hy
    subst ht hx hy
    rfl
  | _ :: ms, _ :: xs, _ :: ys, i + 1, _, _, _, ht, hx, hy => by
    rw [mix, List.getElem?_cons_succ]
    exact mix_at i (by simpa using ht) (by simpa using hx) (by simpa using hy)

theorem mix_reorder (hp : Renumbering n p) {m : List Bool} {a b : List A} (hm : m.length = n) (ha : a.length = n) (hb : b.length = n) :
    mix (reorder n p m) (reorder n p a) (reorder n p b) = reorder n p (mix m a b) := by
  have hl : ∀ i < n, p i < n := fun i hi => hp.lt hi
  refine ext_of_dim (mix_len (reorder_length hl hm) (reorder_length hl ha) (reorder_length hl hb)) (reorder_length hl (mix_len hm ha hb))
    fun i hi => ?_
  have em : m[p i]? = some (m[p i]'(by rw [hm]; exact hl i hi)) := List.getElem?_eq_getElem _
  have ea : a[p i]? = some (a[p i]'(by rw [ha]; exact hl i hi)) := List.getElem?_eq_getElem _
  have eb : b[p i]? = some (b[p i]'(by rw [hb]; exact hl i hi)) := List.getElem?_eq_getElem _
  rw [reorder_getElem hl (mix_len hm ha hb) hi, mix_at (p i) em ea eb,
    mix_at i ((reorder_getElem hl hm hi).trans em) ((reorder_getElem hl ha hi).trans ea) ((reorder_getElem hl hb hi).trans eb)]

/-- The masks of the renumbered parents are the renumbered masks. -/
theorem sum_masks {S : Type} [AddCommMonoid S] (hp : Renumbering n p) {a b : List A} (ha : a.length = n) (hb : b.length = n)
    (Q : List A × List A → Prop) (D : List Bool → Prop) (hD : ∀ m, m.length = n → (D (reorder n p m) ↔ D m)) (w : List Bool → S)
    (hw : ∀ m, m.length = n → w (reorder n p m) = w m) [DecidablePred Q] [DecidablePred D] :
    (∑ m ∈ masks n with D m ∧ Q (mix m (reorder n p a) (reorder n p b), mix m (reorder n p b) (reorder n p a)), w m) =
      ∑ m ∈ masks n with D m ∧ Q (reorder n p (mix m a b), reorder n p (mix m b a)), w m := by
  classical
  have hl : ∀ i < n, p i < n := fun i hi => hp.lt hi
  have hinj : Set.InjOn (reorder n p) (masks n : Set (List Bool)) := fun x hx y hy h =>
    reorder_inj hp (mem_masks.1 hx) (mem_masks.1 hy) h
  have hmaps : ∀ m ∈ masks n, reorder n p m ∈ masks n := fun m hm => mem_masks.2 (reorder_length hl (mem_masks.1 hm))
  have himg : (masks n).image (reorder n p) = masks n :=
    Finset.eq_of_subset_of_card_le (Finset.image_subset_iff.2 hmaps) (by rw [Finset.card_image_of_injOn hinj])
  symm
  refine Finset.sum_nbij (reorder n p) ?_ ?_ ?_ ?_
  · intro m hm
    rw [Finset.mem_filter] at hm ⊢
    refine ⟨hmaps m hm.1, (hD m (mem_masks.1 hm.1)).2 hm.2.1, ?_⟩
    rw [mix_reorder hp (mem_masks.1 hm.1) ha hb, mix_reorder hp (mem_masks.1 hm.1) hb ha]
    exact hm.2.2
  · exact hinj.mono fun m hm => (Finset.mem_filter.1 hm).1
  · intro m' hm'
    have h' := Finset.mem_filter.1 (Finset.mem_coe.1 hm')
    have h1 := h'.1
    rw [← himg, Finset.mem_image] at h1
    obtain ⟨m, hm, rfl⟩ := h1
    refine ⟨m, ?_, rfl⟩
    rw [Finset.mem_coe, Finset.mem_filter]
    refine ⟨hm, (hD m (mem_masks.1 hm)).1 h'.2.1, ?_⟩
    rw [← mix_reorder hp (mem_masks.1 hm) ha hb, ← mix_reorder hp (mem_masks.1 hm) hb ha]
    exact h'.2.2
  · intro m hm
    exact (hw m (mem_masks.1 (Finset.mem_filter.1 hm).1)).symm

end

section
variable {G A : Type} [MeasurableSpace G] {R : Rng G ℝ} {μ : Measure G} {n : Nat} {p : Nat → Nat}

/-- **C178, Uniform crossover.** With the loci numbered differently, the pair of children has the renumbered distribution: every property of
the children of the renumbered parents is as likely as that property of the renumbered children of the parents. -/
theorem C178_uniform (hR : Ideal R μ) (hp : Renumbering n p) {p1 p2 : List A} (h1 : p1.length = n) (h2 : p2.length = n)
    (Q : List A × List A → Prop) [DecidablePred Q] :
    chance μ (uniform R (1 / 2) (reorder n p p1) (reorder n p p2)) Q =
      chance μ (uniform R (1 / 2) p1 p2) fun k => Q (reorder n p k.1, reorder n p k.2) := by
  have hl : ∀ i < n, p i < n := fun i hi => hp.lt hi
  rw [C134_uniform hR (by rw [reorder_length hl h1, reorder_length hl h2]), C134_uniform hR (by rw [h1, h2]), reorder_length hl h1, h1]
  have := sum_masks hp h1 h2 Q (fun _ => True) (fun _ _ => Iff.rfl) (fun _ => (1 : ℕ)) (fun _ _ => rfl)
  simp only [true_and] at this
  rw [Finset.card_eq_sum_ones, Finset.card_eq_sum_ones, this]

/-- **C178, UniformParameterized crossover.** The same for every bias. -/
theorem C178_uniform_parameterized (hR : Ideal R μ) {bias : ℝ} (hb0 : 0 ≤ bias) (hb1 : bias ≤ 1) (hp : Renumbering n p) {p1 p2 : List A}
    (h1 : p1.length = n) (h2 : p2.length = n) (Q : List A × List A → Prop) [DecidablePred Q] :
    chance μ (uniformParameterized R bias (reorder n p p1) (reorder n p p2)) Q =
      chance μ (uniformParameterized R bias p1 p2) fun k => Q (reorder n p k.1, reorder n p k.2) := by
  have hl : ∀ i < n, p i < n := fun i hi => hp.lt hi
  rw [C134_uniform_parameterized hR hb0 hb1 (by rw [reorder_length hl h1, reorder_length hl h2]),
    C134_uniform_parameterized hR hb0 hb1 (by rw [h1, h2]), reorder_length hl h1, h1]
  have := sum_masks hp h1 h2 Q (fun _ => True) (fun _ _ => Iff.rfl)
    (fun m => ENNReal.ofReal (bias ^ m.count true * (1 - bias) ^ m.count false))
    (fun m hm => by rw [(reorder_perm hp hm).count_eq, (reorder_perm hp hm).count_eq])
  simp only [true_and] at this
  exact this

/-- **C178, Shuffle crossover.** The same. -/
theorem C178_shuffle (hR : Ideal R μ) (hp : Renumbering n p) {p1 p2 : List A} (h1 : p1.length = n) (h2 : p2.length = n) (h0 : 0 < n)
    (Q : List A × List A → Prop) [DecidablePred Q] :
    chance μ (shuffle R (reorder n p p1) (reorder n p p2)) Q =
      chance μ (shuffle R p1 p2) fun k => Q (reorder n p k.1, reorder n p k.2) := by
  have hl : ∀ i < n, p i < n := fun i hi => hp.lt hi
  have hr1 := reorder_length hl h1
  have hr2 := reorder_length hl h2
  rw [C134_shuffle hR (by rw [hr1, hr2]) (by rw [hr1]; exact h0), C134_shuffle hR (by rw [h1, h2]) (by rw [h1]; exact h0), hr1, h1]
  exact sum_masks hp h1 h2 Q (fun m => m.count true < n) (fun m hm => by rw [(reorder_perm hp hm).count_eq])
    (fun m => ((n * n.choose (m.count true) : ℕ) : ℝ≥0∞)⁻¹) (fun m hm => by rw [(reorder_perm hp hm).count_eq])

/-- **C178, FlipBit mutation.** The renumbered mutant of the renumbered chromosome is as likely as the mutant of the chromosome. -/
theorem C178_flip_bit (hR : Ideal R μ) {rate : ℝ} (hr0 : 0 ≤ rate) (hr1 : rate ≤ 1) (hp : Renumbering n p) {c d : List Bool}
    (hc : c.length = n) (hd : d.length = n) :
    chance μ (flipBit R rate (reorder n p c)) (· = reorder n p d) = chance μ (flipBit R rate c) (· = d) := by
  have hl : ∀ i < n, p i < n := fun i hi => hp.lt hi
  have hrc := reorder_length hl hc
  have hrd := reorder_length hl hd
  rw [C134_flip_bit hR hr0 hr1 (by rw [hrc, hrd]), C134_flip_bit hR hr0 hr1 (by rw [hc, hd])]
  have hz : (c.zip d).length = n := by rw [List.length_zip, hc, hd, Nat.min_self]
  have e : (reorder n p c).zip (reorder n p d) = reorder n p (c.zip d) := by
    refine ext_of_dim (by rw [List.length_zip, hrc, hrd, Nat.min_self]) (reorder_length hl hz) fun i hi => ?_
    rw [reorder_getElem hl hz hi, List.zip_eq_zipWith, List.zip_eq_zipWith, List.getElem?_zipWith, List.getElem?_zipWith,
      reorder_getElem hl hc hi, reorder_getElem hl hd hi]
  rw [e, (reorder_perm hp hz).countP_eq, (reorder_perm hp hz).countP_eq]

end

/-- The last two of three loci exchanged. -/
def swapLast (i : Nat) : Nat := if i = 1 then 2 else if i = 2 then 1 else i

theorem swapLast_renumbering : Renumbering 3 swapLast := by unfold Renumbering swapLast; decide

/-- **C178, SinglePoint crossover depends on the numbering of the loci.** The parents `000` and `111` do not change when the last two loci
are exchanged, but the children `001` and `110` of theirs have probability one third, and `010` and `101`, the same children before the
exchange, are impossible. -/
theorem C178_single_point_depends {G : Type} [MeasurableSpace G] {R : Rng G ℝ} {μ : Measure G} (hR : Ideal R μ) :
    chance μ (singlePoint R (reorder 3 swapLast [0, 0, 0]) (reorder 3 swapLast [1, 1, 1])) (· = ([0, 0, 1], [1, 1, 0])) = 1 / 3 ∧
    (chance μ (singlePoint R [0, 0, 0] [1, 1, 1]) fun k => (reorder 3 swapLast k.1, reorder 3 swapLast k.2) = ([0, 0, 1], [1, 1, 0])) = 0 := by
  constructor
  · rw [show reorder 3 swapLast [0, 0, 0] = [0, 0, 0] from rfl, show reorder 3 swapLast [1, 1, 1] = [1, 1, 1] from rfl,
      C134_single_point hR (p1 := [0, 0, 0]) (p2 := [1, 1, 1]) rfl (by decide)]
    rw [show (Finset.filter _ _ : Finset ℕ).card = 1 from by decide +kernel]
    norm_num
  · rw [C134_single_point hR (p1 := [0, 0, 0]) (p2 := [1, 1, 1]) rfl (by decide)]
    rw [show (Finset.filter _ _ : Finset ℕ).card = 0 from by decide +kernel]
    norm_num

-- hypotheses of the theorems: three loci turned around
example := C178_uniform tapeRng_ideal Aco.turn_renumbering (p1 := [1, 2, 3]) (p2 := [4, 5, 6]) rfl rfl (· = ([2, 6, 1], [5, 3, 4]))
example := C178_uniform_parameterized tapeRng_ideal (bias := 1 / 4) (by norm_num) (by norm_num) Aco.turn_renumbering (p1 := [1, 2, 3])
  (p2 := [4, 5, 6]) rfl rfl (· = ([2, 6, 1], [5, 3, 4]))
example := C178_shuffle tapeRng_ideal Aco.turn_renumbering (p1 := [1, 2, 3]) (p2 := [4, 5, 6]) rfl rfl (by decide)
  (· = ([2, 6, 1], [5, 3, 4]))
example := C178_flip_bit tapeRng_ideal (rate := 1 / 4) (by norm_num) (by norm_num) Aco.turn_renumbering (c := [true, false, false])
  (d := [false, false, true]) rfl rfl

end Ecrs.Props
