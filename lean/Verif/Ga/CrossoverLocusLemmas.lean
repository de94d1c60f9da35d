import Verif.Ga.CrossoverLemmas

/-! # Helper lemmas about the locus-wise crossovers -/

namespace Ecrs.Ga
open Ecrs

/-! ## Specification vocabulary for multi-point crossover -/

/-- Alternating segments: from `c :: c' :: …` up to `n`, the segment `[c, c')` has value `flag`, the next
one `!flag`, and so on. -/
def altMask (flag : Bool) (n : Nat) : List Nat → List Bool
  | [] => []
  | [c] => List.replicate (n - c) flag
  | c :: c' :: cs => List.replicate (c' - c) flag ++ altMask (!flag) n (c' :: cs)

/-- The documented multi-point mask: first parent before the first cut, then alternate at every cut. -/
def intendedMask (n : Nat) (cuts : List Nat) : List Bool :=
  List.replicate (cuts.headD n) true ++ altMask false n cuts

/-- The mask the code realises: the parity of the *first cut point* decides who comes second. -/
def actualMask (n : Nat) (cuts : List Nat) : List Bool :=
  List.replicate (cuts.headD n) true ++ altMask (cuts.headD n % 2 == 0) n cuts

section
variable {G A : Type}

theorem mix_flip : ∀ (ms : List Bool) (xs ys : List A), mix (ms.map (!·)) xs ys = mix ms ys xs := by
  intro ms
  induction ms with
  | nil => intro xs ys; cases xs <;> cases ys <;> rfl
  | cons m ms ih =>
    intro xs ys
    cases xs with
    | nil => cases ys <;> rfl
    | cons x xs =>
      cases ys with
      | nil => rfl
      | cons y ys => cases m <;> simp [mix, ih]

theorem altMask_not (n : Nat) : ∀ (cs : List Nat) (flag : Bool),
    altMask (!flag) n cs = (altMask flag n cs).map (!·)
  | [], flag => rfl
  | [c], flag => by simp [altMask]
  | c :: c' :: cs, flag => by
    unfold altMask
    rw [List.map_append, ← altMask_not n (c' :: cs) (!flag)]
    simp

theorem mix_altMask_flip (n : Nat) (cs : List Nat) (flag : Bool) (xs ys : List A) :
    mix (altMask (!flag) n cs) xs ys = mix (altMask flag n cs) ys xs := by
  rw [altMask_not, mix_flip]

theorem altMask_length (n : Nat) : ∀ (cs : List Nat) (c : Nat) (flag : Bool),
    (c :: cs).Pairwise (· < ·) → (∀ x ∈ c :: cs, x < n) → (altMask flag n (c :: cs)).length = n - c
  | [], c, flag, _, _ => by simp [altMask]
  | c' :: cs, c, flag, hp, hx => by
    unfold altMask
    have hlt : c < c' := by
      have := (List.pairwise_cons.1 hp).1 c' (by simp); exact this
    have hc' : c' < n := hx c' (by simp)
    rw [List.length_append, List.length_replicate,
      altMask_length n cs c' (!flag) (List.pairwise_cons.1 hp).2 fun x hx' => hx x (by simp [hx'])]
    omega

theorem multiFirst_eq {p1 p2 : List A} : ∀ (is : List Nat), (∀ i ∈ is, i < p1.length) →
    (∀ i ∈ is, i < p2.length) → ∃ s : List (A × A),
    (multiFirst p1 p2 is : M G _) = pure (s, is.length % 2 == 1) ∧
      s.map (fun x => some x.1) = is.map (fun i => p1[i]?) ∧
      s.map (fun x => some x.2) = is.map (fun i => p2[i]?) := by
  intro is
  induction is with
  | nil => intro _ _; exact ⟨[], rfl, rfl, rfl⟩
  | cons i is ih =>
    intro h1 h2
    obtain ⟨s, hs, hf, hg⟩ := ih (fun j hj => h1 j (by simp [hj])) (fun j hj => h2 j (by simp [hj]))
    have hi1 := h1 i (by simp)
    have hi2 := h2 i (by simp)
    refine ⟨(p1[i], p2[i]) :: s, ?_, ?_, ?_⟩
    · unfold multiFirst
      rw [idx_of_lt hi1, idx_of_lt hi2, hs]
      simp only [pure_bind, List.length_cons]
      congr 2
      rcases Nat.mod_two_eq_zero_or_one is.length with h | h
      · have : (is.length + 1) % 2 = 1 := by omega
        simp [h, this]
      · have : (is.length + 1) % 2 = 0 := by omega
        simp [h, this]
    · simp [hf, hi1]
    · simp [hg, hi2]

theorem map_some_range {B : Type} {f : B → A} {p : List A} {s : List B} {n : Nat} (hn : n ≤ p.length)
    (h : s.map (fun x => some (f x)) = (List.range n).map (fun i => p[i]?)) : s.map f = p.take n := by
  have h' : (s.map f).map some = (p.take n).map some := by
    rw [List.map_map]
    show s.map (fun x => some (f x)) = _
    rw [h]
    apply List.ext_getElem?
    intro i
    simp only [List.getElem?_map, List.getElem?_take]
    by_cases hi : i < n
    · rw [List.getElem?_range hi]
      simp [hi, show i < p.length by omega]
    · rw [List.getElem?_eq_none (by simpa using hi)]; simp [hi]
  exact List.map_injective_iff.2 (Option.some_injective A) h'

theorem drop_slice {l : List A} {c c' : Nat} (h : c ≤ c') (h' : c' ≤ l.length) :
    l.drop c = slice l c c' ++ l.drop c' := by
  unfold slice
  apply List.ext_getElem?
  intro i
  rw [List.getElem?_append]
  simp only [List.length_drop, List.length_take, List.getElem?_drop, List.getElem?_take]
  by_cases hi : i < min c' l.length - c
  · rw [if_pos hi, if_pos (by omega)]
  · rw [if_neg hi]; congr 1; omega

theorem mix_true_of_length {xs ys : List A} {n : Nat} (h : xs.length = n) (h' : ys.length = n) :
    mix (List.replicate n true) xs ys = xs := by
  subst h; exact mix_replicate_true _ _ h'.symm

theorem mix_false_of_length {xs ys : List A} {n : Nat} (h : xs.length = n) (h' : ys.length = n) :
    mix (List.replicate n false) xs ys = ys := by
  subst h; exact mix_replicate_false _ _ h'.symm

theorem multiRest_eq : ∀ (cs : List Nat) (c : Nat) (cur1 cur2 : List A),
    cur1.length = cur2.length → (c :: cs).Pairwise (· < ·) → (∀ x ∈ c :: cs, x < cur1.length) →
    (multiRest cur1 cur2 cur1.length (c :: cs) : M G (List (A × A))) =
      pure ((mix (altMask true cur1.length (c :: cs)) (cur1.drop c) (cur2.drop c)).zip
        (mix (altMask true cur1.length (c :: cs)) (cur2.drop c) (cur1.drop c)))
  | [], c, cur1, cur2, hl, _, hx => by
    have hc := hx c (by simp)
    unfold multiRest altMask
    rw [pushLoci_eq (Nat.le_refl _) (by omega), slice_full,
      mix_true_of_length (by simp) (by simp; omega), mix_true_of_length (by simp; omega) (by simp)]
    rw [hl, slice_full]
  | c' :: cs, c, cur1, cur2, hl, hp, hx => by
    have hc := hx c (by simp)
    have hc' := hx c' (by simp)
    have hlt : c < c' := (List.pairwise_cons.1 hp).1 c' (by simp)
    unfold multiRest altMask
    have ih := multiRest_eq cs c' cur2 cur1 hl.symm (List.pairwise_cons.1 hp).2
      (fun x hx' => by rw [← hl]; exact hx x (by simp [hx']))
    rw [← hl] at ih
    rw [pushLoci_eq (by omega) (by omega), pure_bind, ih, pure_bind]
    have hml := altMask_length cur1.length cs c' true (List.pairwise_cons.1 hp).2
      (fun x hx' => hx x (by simp [hx']))
    have hs1 : (slice cur1 c c').length = c' - c := slice_length (by omega)
    have hs2 : (slice cur2 c c').length = c' - c := slice_length (by omega)
    rw [drop_slice (l := cur1) (Nat.le_of_lt hlt) (by omega),
      drop_slice (l := cur2) (Nat.le_of_lt hlt) (by omega),
      mix_append _ _ _ _ _ _ (by simp [hs1]) (by omega),
      mix_append _ _ _ _ _ _ (by simp [hs2]) (by omega),
      mix_true_of_length hs1 hs2, mix_true_of_length hs2 hs1, mix_altMask_flip, mix_altMask_flip,
      List.zip_append (by omega)]

/-- Exact behaviour of multi-point crossover for sorted distinct in-range cut points. -/
theorem multiPointCuts_eq {p1 p2 : List A} (hl : p1.length = p2.length) {c : Nat} {cs : List Nat}
    (hp : (c :: cs).Pairwise (· < ·)) (hx : ∀ x ∈ c :: cs, x < p1.length) :
    (multiPointCuts p1 p2 (c :: cs) : M G _) =
      pure (mix (actualMask p1.length (c :: cs)) p1 p2, mix (actualMask p1.length (c :: cs)) p2 p1) := by
  have hc : c < p1.length := hx c (by simp)
  obtain ⟨s, hs, hf, hg⟩ := multiFirst_eq (G := G) (p1 := p1) (p2 := p2) (List.range c)
    (fun i hi => by simp at hi; omega) (fun i hi => by simp at hi; omega)
  have hf' : s.map Prod.fst = p1.take c := map_some_range (by omega) hf
  have hg' : s.map Prod.snd = p2.take c := map_some_range (by omega) hg
  unfold multiPointCuts
  rw [idx_of_lt (by simp), pure_bind]
  simp only [List.getElem_cons_zero]
  rw [hs, pure_bind]
  simp only [List.length_range]
  have hml := fun f => altMask_length p1.length cs c f hp hx
  have hmask : ∀ (f : Bool) (xs ys : List A), xs.length = ys.length → xs.length = p1.length →
      mix (List.replicate c true ++ altMask f p1.length (c :: cs)) xs ys =
        xs.take c ++ mix (altMask f p1.length (c :: cs)) (xs.drop c) (ys.drop c) := by
    intro f xs ys h1 h2
    conv_lhs => rw [← List.take_append_drop c xs, ← List.take_append_drop c ys]
    rw [mix_append _ _ _ _ _ _ (by simp; omega) (by simp; omega),
      mix_true_of_length (by simp; omega) (by simp; omega)]
  unfold actualMask
  simp only [List.headD_cons]
  by_cases hodd : c % 2 = 1
  · have e : (c % 2 == 1) = true := by simp [hodd]
    have e' : (c % 2 == 0) = !true := by simp [hodd]
    rw [e, e']
    simp only [if_true]
    have hr := multiRest_eq (G := G) cs c p2 p1 hl.symm hp (by rw [← hl]; exact hx)
    rw [← hl] at hr
    rw [hr, pure_bind, List.map_append, List.map_append, hf', hg',
      map_fst_zip' (by rw [mix_length, mix_length] <;> simp [hml] <;> omega),
      map_snd_zip' (by rw [mix_length, mix_length] <;> simp [hml] <;> omega),
      hmask _ _ _ hl rfl, hmask _ _ _ hl.symm hl.symm, mix_altMask_flip, mix_altMask_flip]
  · have e : (c % 2 == 1) = false := by simp; omega
    have e' : (c % 2 == 0) = true := by simp; omega
    rw [e, e']
    simp only [Bool.false_eq_true, if_false]
    have hr := multiRest_eq (G := G) cs c p1 p2 hl hp hx
    rw [hr, pure_bind, List.map_append, List.map_append, hf', hg',
      map_fst_zip' (by rw [mix_length, mix_length] <;> simp [hml] <;> omega),
      map_snd_zip' (by rw [mix_length, mix_length] <;> simp [hml] <;> omega),
      hmask _ _ _ hl rfl, hmask _ _ _ hl.symm hl.symm]

theorem actualMask_length {n c : Nat} {cs : List Nat} (hp : (c :: cs).Pairwise (· < ·))
    (hx : ∀ x ∈ c :: cs, x < n) : (actualMask n (c :: cs)).length = n := by
  unfold actualMask
  have := hx c (by simp)
  rw [List.length_append, altMask_length n cs c _ hp hx]
  simp; omega

theorem intendedMask_length {n c : Nat} {cs : List Nat} (hp : (c :: cs).Pairwise (· < ·))
    (hx : ∀ x ∈ c :: cs, x < n) : (intendedMask n (c :: cs)).length = n := by
  unfold intendedMask
  have := hx c (by simp)
  rw [List.length_append, altMask_length n cs c _ hp hx]
  simp; omega

/-- Sorting a sample gives strictly increasing in-range indices. -/
theorem sorted_sample {l : List Nat} {k n : Nat} (h : l.length = k ∧ l.Nodup ∧ ∀ i ∈ l, i < n)
    (hk : 1 ≤ k) : ∃ c cs, l.mergeSort (· ≤ ·) = c :: cs ∧ (c :: cs).Pairwise (· < ·) ∧
      (∀ x ∈ c :: cs, x < n) ∧ (c :: cs).length = k := by
  have hperm := List.mergeSort_perm l (· ≤ ·)
  have hsort : (l.mergeSort (· ≤ ·)).Pairwise (fun a b => decide (a ≤ b) = true) :=
    List.pairwise_mergeSort (fun a b c h1 h2 => by simp at *; omega)
      (fun a b => by simp; omega) l
  have hnd : (l.mergeSort (· ≤ ·)).Nodup := hperm.nodup_iff.2 h.2.1
  have hlen : (l.mergeSort (· ≤ ·)).length = k := by rw [hperm.length_eq, h.1]
  cases hm : l.mergeSort (· ≤ ·) with
  | nil => rw [hm] at hlen; simp at hlen; omega
  | cons c cs =>
    rw [hm] at hperm hsort hnd hlen
    refine ⟨c, cs, rfl, ?_, fun x hx => h.2.2 x (hperm.subset hx), hlen⟩
    have h1 : (c :: cs).Pairwise (fun a b => a ≤ b ∧ a ≠ b) :=
      List.Pairwise.and (hsort.imp fun h => by simpa using h) hnd
    exact h1.imp fun h => by omega

theorem setIdx_of_lt {l : List A} {i : Nat} {v : A} (h : i < l.length) :
    (setIdx l i v : M G (List A)) = pure (l.set i v) := by
  unfold setIdx; rw [if_pos h]

theorem fixedPoint_fold {p1 p2 : List A} (hl : p1.length = p2.length) : ∀ (n lo : Nat) (c1 c2 : List A),
    lo + n = p1.length → c1.length = p1.length → c2.length = p1.length →
    (M.fold (fun (c : List A × List A) i => do
      let b ← idx p2 i
      let c1 ← setIdx c.1 i b
      let a ← idx p1 i
      let c2 ← setIdx c.2 i a
      pure (c1, c2)) (c1, c2) (List.range' lo n) : M G (List A × List A)) =
      pure (c1.take lo ++ p2.drop lo, c2.take lo ++ p1.drop lo)
  | 0, lo, c1, c2, h, h1, h2 => by
    simp only [List.range'_zero]
    unfold M.fold
    have e1 : c1.take lo = c1 := List.take_of_length_le (by omega)
    have e2 : c2.take lo = c2 := List.take_of_length_le (by omega)
    have e3 : p2.drop lo = [] := List.drop_of_length_le (by omega)
    have e4 : p1.drop lo = [] := List.drop_of_length_le (by omega)
    rw [e1, e2, e3, e4]; simp
  | n + 1, lo, c1, c2, h, h1, h2 => by
    rw [List.range'_succ]
    unfold M.fold
    rw [idx_of_lt (l := p2) (by omega), pure_bind, setIdx_of_lt (by simp; omega), pure_bind,
      idx_of_lt (l := p1) (by omega), pure_bind, setIdx_of_lt (by simp; omega), pure_bind, pure_bind,
      fixedPoint_fold hl n (lo + 1) _ _ (by omega) (by simp [h1]) (by simp [h2])]
    have key : ∀ (c p : List A) (hc : lo < c.length) (hp : lo < p.length),
        (c.set lo p[lo]).take (lo + 1) ++ p.drop (lo + 1) = c.take lo ++ p.drop lo := by
      intro c p hc hp
      rw [List.take_succ_eq_append_getElem (by simpa using hc), List.take_set_of_le (Nat.le_refl _)]
      simp only [List.getElem_set_self, List.append_assoc, List.singleton_append]
      rw [← List.drop_eq_getElem_cons hp]
    rw [key c1 p2 (by omega) (by omega), key c2 p1 (by omega) (by omega)]

theorem fixedPointCh_eq {p1 p2 : List A} (hl : p1.length = p2.length) (cut : Nat) :
    (fixedPointCh cut p1 p2 : M G (List A × List A)) =
      pure (p1.take cut ++ p2.drop cut, p2.take cut ++ p1.drop cut) := by
  unfold fixedPointCh
  by_cases hc : cut ≤ p1.length
  · exact fixedPoint_fold hl _ cut p1 p2 (by omega) rfl hl.symm
  · rw [show p1.length - cut = 0 by omega]
    simp only [List.range'_zero]
    unfold M.fold
    have e1 : p1.take cut = p1 := List.take_of_length_le (by omega)
    have e2 : p2.take cut = p2 := List.take_of_length_le (by omega)
    have e3 : p2.drop cut = [] := List.drop_of_length_le (by omega)
    have e4 : p1.drop cut = [] := List.drop_of_length_le (by omega)
    rw [e1, e2, e3, e4]; simp

end

section
variable {G U A : Type} [LinearOrder U] [Zero U] [One U] (R : Rng G U)

theorem singlePoint_returns {p1 p2 : List A} (hl : p1.length = p2.length) (h0 : 0 < p1.length) :
    Returns (singlePoint R p1 p2) fun c => ∃ cut, cut < p1.length ∧
      c.1 = p1.take cut ++ p2.drop cut ∧ c.2 = p2.take cut ++ p1.drop cut := by
  unfold singlePoint
  refine Returns.bind (R.genRange_returns h0) fun cut hc => ?_
  rw [pushLoci_eq (by omega) (by omega), pushLoci_eq (by omega) (by omega)]
  simp only [pure_bind]
  apply Returns.pure
  refine ⟨cut, hc.2, ?_, ?_⟩
  · simp only [List.map_append]
    rw [map_fst_zip' (by rw [slice_length, slice_length] <;> omega),
      map_fst_zip' (by rw [slice_length, slice_length] <;> omega), slice_zero]
    rw [hl, slice_full]
  · simp only [List.map_append]
    rw [map_snd_zip' (by rw [slice_length, slice_length] <;> omega),
      map_snd_zip' (by rw [slice_length, slice_length] <;> omega), slice_zero, slice_full]

theorem twoPoint_returns {p1 p2 : List A} (hl : p1.length = p2.length) (h0 : 0 < p1.length) :
    Returns (twoPoint R p1 p2) fun c => ∃ b e, b ≤ e ∧ e < p1.length ∧
      c.1 = p1.take b ++ slice p2 b e ++ p1.drop e ∧
      c.2 = p2.take b ++ slice p1 b e ++ p2.drop e := by
  unfold twoPoint
  refine Returns.bind (Returns.assert (by simp [hl])) fun _ _ => ?_
  refine Returns.bind (R.genRange_returns h0) fun x hx => ?_
  refine Returns.bind (R.genRange_returns h0) fun y hy => ?_
  have hc : (if x ≤ y then (x, y) else (y, x)).1 ≤ (if x ≤ y then (x, y) else (y, x)).2 ∧
      (if x ≤ y then (x, y) else (y, x)).2 < p1.length := by
    split <;> simp <;> omega
  generalize (if x ≤ y then (x, y) else (y, x)) = c at hc
  obtain ⟨b, e⟩ := c
  simp only at hc ⊢
  rw [pushLoci_eq (by omega) (by omega), pushLoci_eq (by omega) (by omega),
    pushLoci_eq (by omega) (by omega)]
  simp only [pure_bind]
  apply Returns.pure
  refine ⟨b, e, hc.1, hc.2, ?_, ?_⟩
  · simp only [List.map_append]
    rw [map_fst_zip' (by rw [slice_length, slice_length] <;> omega),
      map_fst_zip' (by rw [slice_length, slice_length] <;> omega),
      map_fst_zip' (by rw [slice_length, slice_length] <;> omega), slice_zero, slice_full]
  · simp only [List.map_append]
    rw [map_snd_zip' (by rw [slice_length, slice_length] <;> omega),
      map_snd_zip' (by rw [slice_length, slice_length] <;> omega),
      map_snd_zip' (by rw [slice_length, slice_length] <;> omega), slice_zero]
    rw [hl, slice_full]

theorem multiPoint_returns {k : Nat} {p1 p2 : List A} (hl : p1.length = p2.length) (hk : k ≤ p1.length)
    (hk1 : 1 ≤ k) :
    Returns (multiPoint R k p1 p2) fun c => ∃ cuts : List Nat, cuts.length = k ∧
      cuts.Pairwise (· < ·) ∧ (∀ x ∈ cuts, x < p1.length) ∧
      c.1 = mix (actualMask p1.length cuts) p1 p2 ∧ c.2 = mix (actualMask p1.length cuts) p2 p1 := by
  unfold multiPoint
  refine Returns.bind (Returns.assert (by simp [hl])) fun _ _ => ?_
  refine Returns.bind (Returns.assert (by simp [hk])) fun _ _ => ?_
  refine Returns.bind (Returns.assert (by simp [hk1])) fun _ _ => ?_
  refine Returns.bind (R.indexSample_returns hk) fun l h => ?_
  obtain ⟨c, cs, hm, hp, hx, hlen⟩ := sorted_sample h hk1
  rw [hm, multiPointCuts_eq hl hp hx]
  exact Returns.pure ⟨c :: cs, hlen, hp, hx, rfl, rfl⟩

theorem maskOp_pure {G A : Type} {p1 p2 : List A} {mask : List Bool} (hl : p1.length = p2.length)
    (hm : mask.length = p1.length) :
    (maskLoci p1 p2 0 mask >>= fun s => pure (s.map Prod.fst, s.map Prod.snd) :
      M G (List A × List A)) = pure (mix mask p1 p2, mix mask p2 p1) := by
  rw [maskLoci_eq p1 p2 mask 0 (by omega) hl, pure_bind]
  simp only [List.drop_zero]
  rw [map_fst_zip' (by rw [mix_length, mix_length] <;> omega),
    map_snd_zip' (by rw [mix_length, mix_length] <;> omega)]

theorem uniform_returns {half : U} {p1 p2 : List A} (hl : p1.length = p2.length) :
    Returns (uniform R half p1 p2) fun c => ∃ vals : List U, vals.length = p1.length ∧
      (∀ v ∈ vals, 0 ≤ v ∧ v < 1) ∧
      c.1 = mix (vals.map fun v => decide (half ≤ v)) p1 p2 ∧
      c.2 = mix (vals.map fun v => decide (half ≤ v)) p2 p1 := by
  unfold uniform
  refine Returns.bind (Returns.assert (by simp [hl])) fun _ _ => ?_
  refine Returns.bind (R.onClone_returns (Returns.replicate R.genUnit_returns _)) fun vals hv => ?_
  rw [maskOp_pure hl (by simp [hv.1])]
  exact Returns.pure ⟨vals, hv.1, hv.2, rfl, rfl⟩

theorem uniformParameterized_returns {bias : U} {p1 p2 : List A} (hl : p1.length = p2.length) :
    Returns (uniformParameterized R bias p1 p2) fun c => ∃ vals : List U, vals.length = p1.length ∧
      (∀ v ∈ vals, 0 ≤ v ∧ v < 1) ∧
      c.1 = mix (vals.map fun v => decide (v ≤ bias)) p1 p2 ∧
      c.2 = mix (vals.map fun v => decide (v ≤ bias)) p2 p1 := by
  unfold uniformParameterized
  refine Returns.bind (Returns.assert (by simp [hl])) fun _ _ => ?_
  refine Returns.bind (R.onClone_returns (Returns.replicate R.genUnit_returns _)) fun vals hv => ?_
  rw [maskOp_pure hl (by simp [hv.1])]
  exact Returns.pure ⟨vals, hv.1, hv.2, rfl, rfl⟩

theorem count_lt_range (n c : Nat) (h : c ≤ n) :
    ((List.range n).countP fun x => decide (x < c)) = c := by
  induction n generalizing c with
  | zero => simp; omega
  | succ n ih =>
    rw [List.range_succ, List.countP_append]
    by_cases hc : c ≤ n
    · rw [ih c hc]; simp; omega
    · have : c = n + 1 := by omega
      subst this
      have h1 : ((List.range n).countP fun x => decide (x < n + 1)) = n := by
        rw [List.countP_eq_length.2]
        · simp
        · intro a ha; simp at ha; simp; omega
      rw [h1]; simp

theorem shuffle_returns {p1 p2 : List A} (hl : p1.length = p2.length) (h0 : 0 < p1.length) :
    Returns (shuffle R p1 p2) fun c => ∃ mask : List Bool, mask.length = p1.length ∧
      mask.count true < p1.length ∧
      c.1 = mix mask p1 p2 ∧ c.2 = mix mask p2 p1 := by
  unfold shuffle
  refine Returns.bind (R.genRange_returns h0) fun cut hc => ?_
  refine Returns.bind (R.genShuffle_returns p1.length) fun sh hsh => ?_
  have hlen : sh.length = p1.length := by rw [hsh.length_eq]; simp
  rw [maskOp_pure hl (by simp [hlen])]
  refine Returns.pure ⟨_, by simp [hlen], ?_, rfl, rfl⟩
  have : (sh.map fun x => decide (x < cut)).count true = cut := by
    rw [List.count, List.countP_map]
    have h1 : (sh.countP ((fun x => x == true) ∘ fun x => decide (x < cut))) =
        sh.countP fun x => decide (x < cut) := by
      apply List.countP_congr; intro x _; simp
    rw [h1, hsh.countP_eq, count_lt_range _ _ (by omega)]
  rw [this]; omega

end
end Ecrs.Ga
