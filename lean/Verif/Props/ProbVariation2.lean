import Verif.Props.ProbVariation
import Verif.Ga.Population
import Mathlib.Data.Finset.Sort

/-!
# C134, continued: Reversing, the crossover operators and the generators
-/

set_option linter.unusedSectionVars false

namespace Ecrs.Props
open Ecrs Ecrs.Ga MeasureTheory
open scoped ENNReal

section
variable {G I A : Type} [MeasurableSpace G] {R : Rng G ℝ} {μ : Measure G}

theorem assert_pure {c : Bool} (h : c = true) (e : Panic) : (M.assert c e : M G Unit) = pure () := by
  unfold M.assert; rw [if_pos h]

/-- The length of a list of independent draws. -/
theorem replicate_length {α : Type} {m : M G α} : ∀ {n : Nat} (g : G) (xs : List α) (g' : G),
    M.replicate n m g = .ok (xs, g') → xs.length = n
  | 0, g, xs, g', h => by
    rw [M.replicate, M.pure_run] at h
    cases h; rfl
  | n + 1, g, xs, g', h => by
    rw [M.replicate] at h
    obtain ⟨y, g1, h1, h2⟩ := M.bind_ok_iff.1 h
    obtain ⟨ys, g2, h3, h4⟩ := M.bind_ok_iff.1 h2
    rw [M.pure_run] at h4
    obtain ⟨rfl, rfl⟩ := Prod.mk.inj (Except.ok.inj h4)
    rw [List.length_cons, replicate_length g1 ys _ h3]

/-! ## Reversing -/

/-- Walk along the genes carrying the gene `x`: where the bit is set the next gene is put in front of the carried one,
else the carried gene is put down and the next one is carried. -/
def carried (x : A) : List A → List Bool → List A
  | y :: ys, true :: bs => y :: carried x ys bs
  | y :: ys, false :: bs => x :: carried y ys bs
  | _, _ => [x]

theorem reversing_eq {rate : ℝ} : ∀ (xs p : List A) (x : A),
    M.fold (reversingStep R rate) (p ++ x :: xs) (List.range' (p.length + 1) xs.length) =
      M.replicate xs.length (R.genUnit >>= fun u => pure (decide (u < rate))) >>= fun bs => pure (p ++ carried x xs bs)
  | [], p, x => by simp only [List.length_nil, List.range'_zero, M.fold, M.replicate, pure_bind, carried]
  | y :: ys, p, x => by
    rw [List.length_cons, List.range'_succ, M.fold, M.replicate]
    unfold reversingStep
    simp only [bind_assoc, pure_bind]
    congr 1
    funext d
    by_cases hd : d < rate
    · rw [if_pos hd, swapIdx_middle, pure_bind]
      have h := reversing_eq (rate := rate) ys (p ++ [y]) x
      simp only [List.append_assoc, List.singleton_append, List.length_append, List.length_cons, List.length_nil] at h
      refine h.trans ?_
      simp only [hd, decide_true, carried]
    · rw [if_neg hd, pure_bind]
      have h := reversing_eq (rate := rate) ys (p ++ [x]) y
      simp only [List.append_assoc, List.singleton_append, List.length_append, List.length_cons, List.length_nil] at h
      refine h.trans ?_
      simp only [hd, decide_false, carried]

/-- **C134, Reversing**: for each of the `n - 1` pairs of neighbouring positions, from the left, the two genes there are
exchanged with probability `rate`, independently of the others. -/
theorem C134_reversing (hR : Ideal R μ) {rate : ℝ} (h0 : 0 ≤ rate) (h1 : rate ≤ 1) (x : A) (xs : List A) (Q : List A → Prop)
    [DecidablePred Q] :
    chance μ (reversing R rate (x :: xs)) Q = ∑ bs ∈ masks xs.length with Q (carried x xs bs),
      ENNReal.ofReal (rate ^ bs.count true * (1 - rate) ^ bs.count false) := by
  have := hR.isProbability
  have e := reversing_eq (R := R) (rate := rate) xs [] x
  simp only [List.nil_append, List.length_nil, Nat.zero_add] at e
  unfold reversing
  rw [List.length_cons, Nat.add_sub_cancel, e]
  exact bits_chance (bits_law h0 h1 (hR.unit_lt h0 h1) xs.length) replicate_length (k := fun bs => carried x xs bs) (fun _ _ => rfl) Q

/-! ## Crossover of loci -/

theorem singlePoint_at {p1 p2 : List A} (hl : p1.length = p2.length) {cut : Nat} (hc : cut < p1.length) :
    (pushLoci p1 p2 0 cut >>= fun s1 => pushLoci p2 p1 cut p1.length >>= fun s2 =>
      pure ((s1 ++ s2).map Prod.fst, (s1 ++ s2).map Prod.snd) : M G (List A × List A)) =
      pure (p1.take cut ++ p2.drop cut, p2.take cut ++ p1.drop cut) := by
  rw [pushLoci_eq (by omega) (by omega), pushLoci_eq (by omega) (by omega)]
  simp only [pure_bind, List.map_append]
  rw [map_fst_zip' (by rw [slice_length, slice_length] <;> omega),
    map_fst_zip' (by rw [slice_length, slice_length] <;> omega),
    map_snd_zip' (by rw [slice_length, slice_length] <;> omega),
    map_snd_zip' (by rw [slice_length, slice_length] <;> omega), slice_zero, slice_zero, slice_full]
  rw [hl, slice_full]

/-- **C134, SinglePoint**: every cut point below the length is equally likely. -/
theorem C134_single_point (hR : Ideal R μ) {p1 p2 : List A} (hl : p1.length = p2.length) (h0 : 0 < p1.length)
    (Q : List A × List A → Prop) [DecidablePred Q] :
    chance μ (singlePoint R p1 p2) Q = (((Finset.range p1.length).filter fun cut =>
      Q (p1.take cut ++ p2.drop cut, p2.take cut ++ p1.drop cut)).card : ℝ≥0∞) / p1.length := by
  unfold singlePoint
  exact index_chance hR h0 (fun cut hc => singlePoint_at hl hc) Q

theorem twoPoint_at {p1 p2 : List A} (hl : p1.length = p2.length) {lo hi : Nat} (hlo : lo ≤ hi) (hhi : hi < p1.length) :
    (pushLoci p1 p2 0 lo >>= fun s1 => pushLoci p2 p1 lo hi >>= fun s2 => pushLoci p1 p2 hi p1.length >>= fun s3 =>
      pure ((s1 ++ s2 ++ s3).map Prod.fst, (s1 ++ s2 ++ s3).map Prod.snd) : M G (List A × List A)) =
      pure (p1.take lo ++ (p2.take hi).drop lo ++ p1.drop hi, p2.take lo ++ (p1.take hi).drop lo ++ p2.drop hi) := by
  rw [pushLoci_eq (by omega) (by omega), pushLoci_eq (by omega) (by omega), pushLoci_eq (by omega) (by omega)]
  simp only [pure_bind, List.map_append]
  rw [map_fst_zip' (by rw [slice_length, slice_length] <;> omega),
    map_fst_zip' (by rw [slice_length, slice_length] <;> omega),
    map_fst_zip' (by rw [slice_length, slice_length] <;> omega),
    map_snd_zip' (by rw [slice_length, slice_length] <;> omega),
    map_snd_zip' (by rw [slice_length, slice_length] <;> omega),
    map_snd_zip' (by rw [slice_length, slice_length] <;> omega), slice_zero, slice_zero, slice_full]
  rw [hl, slice_full]
  rfl

/-- **C134, TwoPoint**: the two cut points are independent, each equally likely to be any position below the length;
the smaller one starts the exchanged segment, the larger one ends it. -/
theorem C134_two_point (hR : Ideal R μ) {p1 p2 : List A} (hl : p1.length = p2.length) (h0 : 0 < p1.length)
    (Q : List A × List A → Prop) [DecidablePred Q] :
    chance μ (twoPoint R p1 p2) Q = (((Finset.range p1.length ×ˢ Finset.range p1.length).filter fun c =>
      Q (p1.take (min c.1 c.2) ++ (p2.take (max c.1 c.2)).drop (min c.1 c.2) ++ p1.drop (max c.1 c.2),
        p2.take (min c.1 c.2) ++ (p1.take (max c.1 c.2)).drop (min c.1 c.2) ++ p2.drop (max c.1 c.2))).card : ℝ≥0∞) / p1.length ^ 2 := by
  have := hR.isProbability
  set kids : Nat → Nat → List A × List A := fun x y =>
    (p1.take (min x y) ++ (p2.take (max x y)).drop (min x y) ++ p1.drop (max x y),
      p2.take (min x y) ++ (p1.take (max x y)).drop (min x y) ++ p2.drop (max x y)) with hk
  have hat : ∀ x < p1.length, ∀ y < p1.length, (let c := if x ≤ y then (x, y) else (y, x)
      pushLoci p1 p2 0 c.1 >>= fun s1 => pushLoci p2 p1 c.1 c.2 >>= fun s2 => pushLoci p1 p2 c.2 p1.length >>= fun s3 =>
      pure ((s1 ++ s2 ++ s3).map Prod.fst, (s1 ++ s2 ++ s3).map Prod.snd) : M G (List A × List A)) = pure (kids x y) := by
    intro x hx y hy
    simp only [hk]
    by_cases h : x ≤ y
    · rw [if_pos h, min_eq_left h, max_eq_right h]
      exact twoPoint_at hl h hy
    · rw [if_neg h, min_eq_right (by omega), max_eq_left (by omega)]
      exact twoPoint_at hl (by omega) hx
  have inner := fun x (hx : x < p1.length) => draw_chance_pure (below_finset hR h0) (below_mem h0) (k := kids x)
    (fun y hy => hat x hx y (Finset.mem_Ico.1 hy).2) Q
  unfold twoPoint
  rw [assert_pure (by simp [hl]), pure_bind]
  refine (draw_chance (below_finset hR h0) (below_mem h0) (fun x hx => (inner x (Finset.mem_Ico.1 hx).2).1) Q
    (fun x hx => (inner x (Finset.mem_Ico.1 hx).2).2)).2.trans ?_
  rw [Nat.card_Ico, Nat.sub_zero, ← Finset.range_eq_Ico, Finset.card_filter, Finset.sum_product]
  simp only [Finset.card_filter]
  push_cast
  rw [sq, ← div_div_ennreal]
  congr 1
  simp only [div_eq_mul_inv]
  rw [← Finset.sum_mul]

/-- **C134, Uniform**: every way of choosing, for each position, from which parent each child gets its gene is equally
likely. -/
theorem C134_uniform (hR : Ideal R μ) {p1 p2 : List A} (hl : p1.length = p2.length) (Q : List A × List A → Prop)
    [DecidablePred Q] :
    chance μ (uniform R (1 / 2) p1 p2) Q =
      (((masks p1.length).filter fun mask => Q (mix mask p1 p2, mix mask p2 p1)).card : ℝ≥0∞) / 2 ^ p1.length := by
  have := hR.isProbability
  have e : (R.genUnit >>= fun v => pure (decide ((1 / 2 : ℝ) ≤ v)) : M G Bool) =
      (R.genUnit >>= fun v => pure (decide (v < 1 / 2))) >>= fun b => pure (!b) := by
    simp only [bind_assoc, pure_bind]
    congr 1
    funext v
    congr 1
    by_cases h : v < 1 / 2
    · rw [decide_eq_true h, decide_eq_false (not_le.2 h)]; rfl
    · rw [decide_eq_false h, decide_eq_true (not_lt.1 h)]; rfl
  have hlaw : Law μ (R.genUnit >>= fun v => pure (decide ((1 / 2 : ℝ) ≤ v))) fun b => ENNReal.ofReal (if b then 1 / 2 else 1 - 1 / 2) := by
    rw [e]
    refine ((hR.unit_lt (r := 1 / 2) (by norm_num) (by norm_num)).map not).congr fun b => ?_
    rw [tsum_bool]
    cases b <;> norm_num
  unfold uniform
  rw [assert_pure (by simp [hl]), pure_bind, hR.onClone_eq]
  have e2 : (M.replicate p1.length R.genUnit >>= fun vals => maskLoci p1 p2 0 (vals.map fun v => decide ((1 / 2 : ℝ) ≤ v)) >>= fun s =>
      pure (s.map Prod.fst, s.map Prod.snd) : M G (List A × List A)) =
      M.replicate p1.length (R.genUnit >>= fun v => pure (decide ((1 / 2 : ℝ) ≤ v))) >>= fun ms => maskLoci p1 p2 0 ms >>= fun s =>
      pure (s.map Prod.fst, s.map Prod.snd) := by
    rw [← replicate_map]
    simp only [bind_assoc, pure_bind]
  rw [e2, bits_chance (bits_law (by norm_num) (by norm_num) hlaw _) replicate_length (k := fun mask => (mix mask p1 p2, mix mask p2 p1)) ?_ Q]
  · rw [Finset.sum_congr rfl (g := fun _ => (2 ^ p1.length : ℝ≥0∞)⁻¹), Finset.sum_const, nsmul_eq_mul, div_eq_mul_inv]
    intro bs hbs
    rw [Finset.mem_filter, mem_masks] at hbs
    have h1 : (1 - 1 / 2 : ℝ) = 1 / 2 := by norm_num
    have h2 : bs.count true + bs.count false = p1.length := by
      rw [← hbs.1]
      clear * -
      induction bs with
      | nil => rfl
      | cons b bs ih => cases b <;> simp <;> omega
    rw [h1, ← pow_add, h2, one_div, inv_pow, ENNReal.ofReal_inv_of_pos (by positivity), ENNReal.ofReal_pow (by norm_num)]
    simp
  · intro ms hms
    rw [maskLoci_eq p1 p2 ms 0 (by omega) hl, pure_bind]
    simp only [List.drop_zero]
    rw [map_fst_zip', map_snd_zip'] <;>
      rw [mix_length _ _ _ hms hl, mix_length _ _ _ (by omega) hl.symm] <;> omega

/-- **C134, UniformParameterized**: at every position, independently, the first child gets the gene of the first parent
with probability `bias`. -/
theorem C134_uniform_parameterized (hR : Ideal R μ) {bias : ℝ} (h0 : 0 ≤ bias) (h1 : bias ≤ 1) {p1 p2 : List A}
    (hl : p1.length = p2.length) (Q : List A × List A → Prop) [DecidablePred Q] :
    chance μ (uniformParameterized R bias p1 p2) Q = ∑ mask ∈ masks p1.length with Q (mix mask p1 p2, mix mask p2 p1),
      ENNReal.ofReal (bias ^ mask.count true * (1 - bias) ^ mask.count false) := by
  have := hR.isProbability
  unfold uniformParameterized
  rw [assert_pure (by simp [hl]), pure_bind, hR.onClone_eq]
  have e2 : (M.replicate p1.length R.genUnit >>= fun vals => maskLoci p1 p2 0 (vals.map fun v => decide (v ≤ bias)) >>= fun s =>
      pure (s.map Prod.fst, s.map Prod.snd) : M G (List A × List A)) =
      M.replicate p1.length (R.genUnit >>= fun v => pure (decide (v ≤ bias))) >>= fun ms => maskLoci p1 p2 0 ms >>= fun s =>
      pure (s.map Prod.fst, s.map Prod.snd) := by
    rw [← replicate_map]
    simp only [bind_assoc, pure_bind]
  rw [e2, bits_chance (bits_law h0 h1 (hR.unit_le h0 h1) _) replicate_length (k := fun mask => (mix mask p1 p2, mix mask p2 p1)) ?_ Q]
  intro ms hms
  rw [maskLoci_eq p1 p2 ms 0 (by omega) hl, pure_bind]
  simp only [List.drop_zero]
  rw [map_fst_zip', map_snd_zip'] <;>
    rw [mix_length _ _ _ hms hl, mix_length _ _ _ (by omega) hl.symm] <;> omega

end

example := C134_reversing tapeRng_ideal (rate := 1 / 4) (by norm_num) (by norm_num) 1 [2, 3] (· = [2, 3, 1])
example := C134_single_point tapeRng_ideal (p1 := [1, 2, 3]) (p2 := [4, 5, 6]) rfl (by decide) (fun c => c.1 = [1, 5, 6])
/-- Three genes: the middle one alone is exchanged for two of the nine pairs of cuts. -/
example : chance tapeLaw (twoPoint tapeRng [1, 2, 3] [4, 5, 6]) (fun c => c.1 = [1, 5, 3]) = 2 / 9 := by
  refine (C134_two_point tapeRng_ideal (p1 := [1, 2, 3]) (p2 := [4, 5, 6]) rfl (by decide) _).trans ?_
  rw [show Finset.card _ = 2 by decide]
  norm_num
example := C134_uniform tapeRng_ideal (p1 := [1, 2, 3]) (p2 := [4, 5, 6]) rfl (fun c => c.1 = [1, 5, 6])
example := C134_uniform_parameterized tapeRng_ideal (bias := 1 / 4) (by norm_num) (by norm_num) (p1 := [1, 2, 3])
  (p2 := [4, 5, 6]) rfl (fun c => c.1 = [1, 5, 6])

end Ecrs.Props
