import Verif.Props.Selection
import Verif.CounterRng

/-!
# C30 and C34 in full: when RouletteWheel selects the requested number, when StochasticUniversalSampling returns
-/

set_option linter.unusedSectionVars false

namespace Ecrs.Ga
open Ecrs

section
variable {G I K : Type} [Field K] [LinearOrder K] [IsStrictOrderedRing K]

/-- Specification: the running fitness sum is at least `t` after some individual. -/
def Reaches (fit : I → K) (pop : List I) (t : K) : Prop :=
  ∃ pre x post, pop = pre ++ x :: post ∧ t ≤ (pre.map fit).sum + fit x

theorem roulettePick_of_reaches (fit : I → K) : ∀ (pre : List I) (x : I) (post : List I) (t s : K),
    t ≤ s + ((pre.map fit).sum + fit x) → ∃ y, roulettePick fit t s (pre ++ x :: post) = some y
  | [], x, post, t, s, h => by
    refine ⟨x, ?_⟩
    rw [List.nil_append, roulettePick, if_pos (by simpa using h)]
  | z :: pre, x, post, t, s, h => by
    rw [List.cons_append, roulettePick]
    by_cases hz : t ≤ s + fit z
    · exact ⟨z, by rw [if_pos hz]⟩
    · rw [if_neg hz]
      exact roulettePick_of_reaches fit pre x post t (s + fit z) (by
        rw [List.map_cons, List.sum_cons] at h
        linarith)

/-- **C30, one spin.** A spin with threshold `t = total · u` selects an individual iff the running sum reaches `t`. -/
theorem C30_spin_selects_iff (fit : I → K) (pop : List I) (t : K) :
    (roulettePick fit t 0 pop).isSome ↔ Reaches fit pop t := by
  constructor
  · intro h
    obtain ⟨x, hx⟩ := Option.isSome_iff_exists.1 h
    obtain ⟨pre, post, h1, h2, -⟩ := roulettePick_some fit pop t 0 x hx
    exact ⟨pre, x, post, h1, by linarith⟩
  · rintro ⟨pre, x, post, rfl, h⟩
    obtain ⟨y, hy⟩ := roulettePick_of_reaches fit pre x post t 0 (by linarith)
    rw [hy]; rfl

/-- A generator whose unit draws are all zero. -/
def zeroRng : Rng Unit K where
  below _ lo _ := (lo, ())
  below_spec _ lo hi h := ⟨le_rfl, h⟩
  upto _ lo _ := (lo, ())
  upto_spec _ lo hi h := ⟨le_rfl, h⟩
  unit _ := (0, ())
  unit_spec _ := ⟨le_rfl, zero_lt_one⟩
  coin _ := (false, ())
  sample _ _ k := (List.range k, ())
  sample_spec _ n k h := ⟨by simp, List.nodup_range, fun i hi => by simp at hi; omega⟩
  shuffle _ n := (List.range n, ())
  shuffle_spec _ n := List.Perm.refl _
  threadBelow _ lo _ := (lo, ())
  threadBelow_spec _ lo hi h := ⟨le_rfl, h⟩
  clonesShareState := false

/-- **C30.** RouletteWheel, asked for at least one individual, returns the requested number *for every generator* iff
the running fitness sum is non-negative somewhere (so always when the first fitness or the total is non-negative, never
when all fitness values are negative). -/
theorem C30_exact_count_iff (fit : I → K) (pop : List I) {count : Nat} (hc : 0 < count) :
    (∀ (G : Type) (R : Rng G K), Returns (selRoulette R fit count pop) fun sel => sel.length = count) ↔
      Reaches fit pop 0 := by
  constructor
  · intro h
    by_contra hr
    have h0 : roulettePick fit ((pop.map fit).sum * 0) 0 pop = none := by
      rw [mul_zero]
      by_contra hne
      exact hr ((C30_spin_selects_iff fit pop 0).1 (Option.isSome_iff_ne_none.2 hne))
    obtain ⟨sel, g', h1, h2⟩ := h Unit zeroRng ()
    have key : ∀ n : Nat, M.replicate n (zeroRng (K := K)).genUnit () = .ok (List.replicate n (0 : K), ()) := by
      intro n
      induction n with
      | zero => rfl
      | succ n ih =>
        have e : (zeroRng (K := K)).genUnit () = .ok ((0 : K), ()) := rfl
        rw [M.replicate, M.bind_of_ok e, M.bind_of_ok ih]
        rfl
    unfold selRoulette at h1
    rw [M.bind_of_ok (key count)] at h1
    have h3 := M.pure_ok_iff.1 h1
    have h4 : sel = (List.replicate count (0 : K)).filterMap fun u =>
        roulettePick fit ((pop.map fit).sum * u) 0 pop := congrArg Prod.fst h3
    have h5 : sel = [] := by
      rw [h4, List.filterMap_eq_nil_iff]
      intro u hu
      rw [List.eq_of_mem_replicate hu]
      exact h0
    rw [h5] at h2
    simp at h2
    omega
  · intro hr G R
    unfold selRoulette
    refine Returns.bind (Returns.replicate R.genUnit_returns count) fun us hus => Returns.pure ?_
    have hall : ∀ u : K, 0 ≤ u → u < 1 → ∃ y, roulettePick fit ((pop.map fit).sum * u) 0 pop = some y := by
      intro u h0 h1
      rcases le_total 0 (pop.map fit).sum with ht | ht
      · obtain ⟨pre, x, post, hp, -⟩ := hr
        exact roulettePick_isSome fit pop _ 0 (by rw [hp]; simp) (by
          rw [zero_add]; nlinarith)
      · refine Option.isSome_iff_exists.1 ((C30_spin_selects_iff fit pop _).2 ?_)
        obtain ⟨pre, x, post, hp, hx⟩ := hr
        exact ⟨pre, x, post, hp, le_trans (by nlinarith) hx⟩
    have : ∀ l : List K, (∀ u ∈ l, 0 ≤ u ∧ u < 1) →
        (l.filterMap fun u => roulettePick fit ((pop.map fit).sum * u) 0 pop).length = l.length := by
      intro l
      induction l with
      | nil => simp
      | cons u l ih =>
        intro hl
        obtain ⟨x, hx⟩ := hall u (hl u (by simp)).1 (hl u (by simp)).2
        rw [List.filterMap_cons_some (f := fun u => roulettePick fit ((pop.map fit).sum * u) 0 pop) hx,
          List.length_cons, List.length_cons, ih fun v hv => hl v (by simp [hv])]
    rw [this us hus.2, hus.1]

/-- Populations of negative fitness never have the guarantee, ones that start with a non-negative fitness always. -/
example : ¬ Reaches (fun x : ℚ => x) [-1, -2] 0 ∧ Reaches (fun x : ℚ => x) [1, -2] 0 := by
  constructor
  · rintro ⟨pre, x, post, h, h2⟩
    match pre, h, h2 with
    | [], h, h2 => simp at h; rw [← h.1] at h2; norm_num at h2
    | [a], h, h2 => simp at h; rw [← h.1, ← h.2.1] at h2; norm_num at h2
    | _ :: _ :: _, h, h2 => simp at h
  · exact ⟨[], 1, [-2], rfl, by norm_num⟩

/-- **C34.** With non-negative fitness values of positive total and `count > 0`, StochasticUniversalSampling returns
`count` individuals for every start pointer except exactly zero, for which it panics. -/
theorem C34_sus_returns_iff (R : FRng G K) (fit : I → K) {count fuel : Nat} {pop : List I} (hf : ∀ y ∈ pop, 0 ≤ fit y)
    (ht : 0 < (pop.map fit).sum) (hcount : 0 < count) (hfuel : count + 2 < fuel) (g : G) :
    (∃ sel g', selSus R fit fuel count pop g = .ok (sel, g') ∧ sel.length = count) ↔
      (R.between g 0 ((pop.map fit).sum / (count : K))).1 ≠ 0 := by
  have hd : 0 < (pop.map fit).sum / (count : K) := div_pos ht (by exact_mod_cast hcount)
  constructor
  · rintro ⟨sel, g', h, -⟩ h0
    have hx := C34_sus_panics_on_zero_draw R fit hf ht hcount hfuel g h0
    rw [h] at hx
    cases hx
  · intro h0
    have hp := R.between_spec g 0 _ hd.le
    exact C34_sus_no_panic R fit hf ht hcount hfuel g (lt_of_le_of_ne hp.1 (Ne.symm h0))

/-- The hypotheses of C34 are met, and both outcomes occur: the counter generator draws zero from even states and the
midpoint of the interval from odd states. -/
example : (∃ sel g', selSus counterFRng (fun x : ℚ => x) 10 2 [1, 3] 1 = .ok (sel, g') ∧ sel.length = 2) ∧
    ¬ ∃ sel g', selSus counterFRng (fun x : ℚ => x) 10 2 [1, 3] 0 = .ok (sel, g') ∧ sel.length = 2 := by
  constructor
  · refine (C34_sus_returns_iff counterFRng _ (by simp) (by norm_num) (by norm_num) (by norm_num) 1).2 ?_
    norm_num [counterFRng]
  · intro h
    refine (C34_sus_returns_iff counterFRng _ (by simp) (by norm_num) (by norm_num) (by norm_num) 0).1 h ?_
    norm_num [counterFRng]

end

example := (C30_spin_selects_iff (fun x : ℚ => x) [1, -2] (1 / 2)).2 ⟨[], 1, [-2], rfl, by norm_num⟩
example := (C30_exact_count_iff (fun x : ℚ => x) [1, -2] (count := 3) (by decide)).2 ⟨[], 1, [-2], rfl, by norm_num⟩

end Ecrs.Ga
