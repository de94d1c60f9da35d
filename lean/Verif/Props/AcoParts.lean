import Mathlib.Data.Rat.Floor
import Mathlib.Algebra.Order.Floor.Semiring
import Verif.Props.AcoRun

set_option linter.unusedSectionVars false

/-!
# C63 (PartFromEvalPU), C92 (builder), C93 (CSV and JSON probes)
-/

namespace Ecrs.Aco
open Ecrs

section general
variable {X K : Type} [LinearOrder K] {A : AcoOps X K}

/-! ## C63 -/

/-- Specification: the solutions whose evaluation falls into part `i` of `k` equal parts of `[lo, hi]`, in order. -/
def part (A : AcoOps X K) (k : Nat) (lo hi : X) (sols : List (Sol X)) (i : Nat) : List (Sol X) :=
  sols.filter fun s => decide (bucket A k lo hi s.fitness = i)

theorem bucket_lt {k : Nat} (hk : 0 < k) (lo hi x : X) : bucket A k lo hi x < k := by
  unfold bucket; omega

theorem fillGroups_ok {k : Nat} {lo hi : X} (hk : 0 < k) : ∀ (sols : List (Sol X)) (gs : List (List (Sol X))), k ≤ gs.length →
    ∃ gs', fillGroups A k lo hi sols gs = .ok gs' ∧ gs'.length = gs.length ∧
      ∀ (i : Nat) g, gs[i]? = some g → gs'[i]? = some (g ++ part A k lo hi sols i) := by
  intro sols
  induction sols with
  | nil => intro gs _; exact ⟨gs, rfl, rfl, fun i g h => by simpa [part] using h⟩
  | cons s sols ih =>
    intro gs hg
    have hb := bucket_lt (A := A) hk lo hi s.fitness
    obtain ⟨gs', h1, h2, h3⟩ := ih (gs.modify (bucket A k lo hi s.fitness) (· ++ [s])) (by simpa using hg)
    refine ⟨gs', ?_, by simpa using h2, fun i g h => ?_⟩
    · rw [fillGroups, if_neg (by omega), if_pos (by omega)]
      exact h1
    · by_cases hi : bucket A k lo hi s.fitness = i
      · have := h3 i (g ++ [s]) (by rw [List.getElem?_modify]; simp [hi, h])
        rw [this]
        unfold part
        rw [List.filter_cons, if_pos (by simpa using hi)]
        simp
      · have := h3 i g (by rw [List.getElem?_modify]; simp [hi, h])
        rw [this]
        unfold part
        rw [List.filter_cons, if_neg (by simpa using hi)]

/-- **C63, the groups.** For `k ≥ 1` pheromones, as many updates, and at least one solution (any arithmetic): update `i`
is applied to pheromone `i` with exactly the solutions of part `i`, where the parts divide the range between the smallest
and the largest fitness found. -/
theorem C63_partition {U : Type} (upd : Upd X U) {us : List U} {phs : List (Mat X)} {sols : List (Sol X)}
    (hk : 0 < phs.length) (hu : us.length = phs.length) (hs : sols ≠ []) :
    ∃ lo hi, findBounds A sols = .ok (lo, hi) ∧
      partFromEval A upd us phs sols =
        zipApply upd us phs ((List.range phs.length).map (part A phs.length lo hi sols)) := by
  cases sols with
  | nil => exact absurd rfl hs
  | cons s ss =>
    obtain ⟨gs', h1, h2, h3⟩ := fillGroups_ok (A := A) (lo := (boundsLoop A (s :: ss) s.fitness s.fitness).1)
      (hi := (boundsLoop A (s :: ss) s.fitness s.fitness).2) hk (s :: ss) (List.replicate us.length []) (by simp [hu])
    refine ⟨_, _, rfl, ?_⟩
    have hgs : gs' = (List.range phs.length).map (part A phs.length (boundsLoop A (s :: ss) s.fitness s.fitness).1
        (boundsLoop A (s :: ss) s.fitness s.fitness).2 (s :: ss)) := by
      apply List.ext_getElem?
      intro i
      rcases Nat.lt_or_ge i phs.length with hi | hi
      · rw [h3 i [] (by rw [List.getElem?_replicate, if_pos (by omega)]), List.getElem?_map, List.getElem?_range hi]
        rfl
      · rw [List.getElem?_eq_none (by rw [h2]; simp; omega), List.getElem?_eq_none (by simpa using hi)]
    unfold partFromEval
    have hb : findBounds A (s :: ss) = .ok (boundsLoop A (s :: ss) s.fitness s.fitness) := rfl
    rw [Exc.bind_of_ok hb]
    show (fillGroups A phs.length (boundsLoop A (s :: ss) s.fitness s.fitness).1 (boundsLoop A (s :: ss) s.fitness s.fitness).2
      (s :: ss) (List.replicate us.length []) >>= _) = _
    rw [Exc.bind_of_ok h1, hgs]
    rfl

theorem count_filter_ite {α : Type} [DecidableEq α] (p : α → Bool) (s : α) (l : List α) :
    (l.filter p).count s = if p s then l.count s else 0 := by
  by_cases h : p s = true
  · rw [if_pos h, List.count_filter h]
  · rw [if_neg h, List.count_eq_zero]
    intro hm
    exact h (List.mem_filter.1 hm).2

theorem flatten_parts_count (f : Sol X → Nat) [DecidableEq (Sol X)] (sols : List (Sol X)) : ∀ (k : Nat) (s : Sol X),
    (((List.range k).map fun i => sols.filter fun s => decide (f s = i)).flatten).count s =
      (sols.filter fun s => decide (f s < k)).count s := by
  intro k s
  induction k with
  | zero => simp
  | succ k ih =>
    rw [List.range_succ, List.map_append, List.flatten_append, List.count_append, ih]
    simp only [List.map_cons, List.map_nil, List.flatten_cons, List.flatten_nil, List.append_nil]
    rw [count_filter_ite, count_filter_ite, count_filter_ite]
    by_cases h1 : f s < k
    · simp [h1, show f s ≠ k by omega, show f s < k + 1 by omega]
    · by_cases h2 : f s = k
      · simp [h2]
      · simp [h1, h2, show ¬ f s < k + 1 by omega]

/-- **C63, every solution in exactly one part.** The parts together are the solutions, each as often as it was given. -/
theorem C63_every_solution_once {k : Nat} (hk : 0 < k) (lo hi : X) (sols : List (Sol X)) :
    (((List.range k).map (part A k lo hi sols)).flatten).Perm sols := by
  classical
  rw [List.perm_iff_count]
  intro s
  have := flatten_parts_count (fun s => bucket A k lo hi s.fitness) sols k s
  unfold part
  rw [this]
  congr 1
  rw [List.filter_eq_self]
  intro t _
  simpa using bucket_lt (A := A) hk lo hi t.fitness

/-- **C63, pointwise.** A returning `PartFromEvalPU` keeps the number of pheromones and updates, and each pheromone is
what its own update makes of it and its part. -/
theorem C63_pointwise {U : Type} (upd : Upd X U) : ∀ {us us' : List U} {phs phs' : List (Mat X)} {gs : List (List (Sol X))},
    us.length = phs.length → gs.length = phs.length → zipApply upd us phs gs = .ok (us', phs') →
    us'.length = us.length ∧ phs'.length = phs.length ∧
    ∀ (i : Nat) u p g, us[i]? = some u → phs[i]? = some p → gs[i]? = some g →
      ∃ u' p', us'[i]? = some u' ∧ phs'[i]? = some p' ∧ upd u g p = .ok (u', p')
  | [], us', [], phs', [], _, _, h => by cases h; exact ⟨rfl, rfl, by simp⟩
  | u :: us, us', p :: phs, phs', g :: gs, h1, h2, h => by
    rw [zipApply] at h
    obtain ⟨⟨u1, p1⟩, e1, h⟩ := Exc.bind_ok.1 h
    obtain ⟨⟨us1, ps1⟩, e2, h⟩ := Exc.bind_ok.1 h
    rw [Exc.pure_ok] at h
    cases h
    obtain ⟨r1, r2, r3⟩ := C63_pointwise upd (by simpa using h1) (by simpa using h2) e2
    refine ⟨by simp [r1], by simp [r2], fun i u' p' g' hu hp hg => ?_⟩
    cases i with
    | zero => simp at hu hp hg; subst hu; subst hp; subst hg; exact ⟨u1, p1, rfl, rfl, e1⟩
    | succ i => simp at hu hp hg; simpa using r3 i u' p' g' hu hp hg
  | [], _, p :: phs, _, _, h1, _, _ => by simp at h1
  | u :: us, _, [], _, _, h1, _, _ => by simp at h1
  | u :: us, _, p :: phs, _, [], _, h2, _ => by simp at h2
  | [], _, [], _, g :: gs, _, h2, _ => by simp at h2

/-- **C63, no solutions.** With no solutions `PartFromEvalPU` panics (so a colony that returns no path stops the run). -/
theorem C63_empty_panics {U : Type} (upd : Upd X U) (us : List U) (phs : List (Mat X)) :
    partFromEval A upd us phs [] = .error .indexOob := rfl

/-- The bounds found are bounds, and attained. -/
theorem boundsLoop_spec : ∀ (sols : List (Sol X)) (lo hi : X), (∀ s ∈ sols, Numeric A s) → (A.view lo).IsNum → (A.view hi).IsNum →
    Fl.Le (A.view (boundsLoop A sols lo hi).1) (A.view lo) ∧ Fl.Le (A.view hi) (A.view (boundsLoop A sols lo hi).2) ∧
    ∀ s ∈ sols, Fl.Le (A.view (boundsLoop A sols lo hi).1) (A.view s.fitness) ∧
      Fl.Le (A.view s.fitness) (A.view (boundsLoop A sols lo hi).2)
  | [], lo, hi, _, hl, hh => ⟨Fl.le_refl hl, Fl.le_refl hh, by simp⟩
  | s :: ss, lo, hi, hn, hl, hh => by
    have hs := hn s (by simp)
    have k1 : Fl.Le (A.view (if A.lt s.fitness lo then s.fitness else lo)) (A.view lo) ∧
        Fl.Le (A.view (if A.lt s.fitness lo then s.fitness else lo)) (A.view s.fitness) := by
      by_cases h : A.lt s.fitness lo = true
      · rw [if_pos h]; exact ⟨Fl.Lt.le (Fl.lt_iff.1 h), Fl.le_refl hs⟩
      · rw [if_neg h]; exact ⟨Fl.le_refl hl, (Fl.not_lt hs hl).1 fun hh => h (Fl.lt_iff.2 hh)⟩
    have k2 : Fl.Le (A.view hi) (A.view (if A.lt hi s.fitness then s.fitness else hi)) ∧
        Fl.Le (A.view s.fitness) (A.view (if A.lt hi s.fitness then s.fitness else hi)) := by
      by_cases h : A.lt hi s.fitness = true
      · rw [if_pos h]; exact ⟨Fl.Lt.le (Fl.lt_iff.1 h), Fl.le_refl hs⟩
      · rw [if_neg h]; exact ⟨Fl.le_refl hh, (Fl.not_lt hh hs).1 fun hh => h (Fl.lt_iff.2 hh)⟩
    obtain ⟨r1, r2, r3⟩ := boundsLoop_spec ss (if A.lt s.fitness lo then s.fitness else lo)
      (if A.lt hi s.fitness then s.fitness else hi) (fun t ht => hn t (by simp [ht])) k1.1.isNum_left k2.1.isNum_right
    rw [boundsLoop]
    refine ⟨Fl.Le.trans r1 k1.1, Fl.Le.trans k2.1 r2, fun t ht => ?_⟩
    rcases List.mem_cons.1 ht with rfl | ht
    · exact ⟨Fl.Le.trans r1 k1.2, Fl.Le.trans k2.2 r2⟩
    · exact r3 t ht

/-- **C63, the range.** If no fitness is NaN, every fitness is between the two bounds the parts are made from. -/
theorem C63_bounds {sols : List (Sol X)} {lo hi : X} (hn : ∀ s ∈ sols, Numeric A s) (h : findBounds A sols = .ok (lo, hi)) :
    ∀ s ∈ sols, Fl.Le (A.view lo) (A.view s.fitness) ∧ Fl.Le (A.view s.fitness) (A.view hi) := by
  cases sols with
  | nil => cases h
  | cons s ss =>
    have h1 := Except.ok.inj h
    have := (boundsLoop_spec (s :: ss) s.fitness s.fitness hn (hn s (by simp)) (hn s (by simp))).2.2
    rw [h1] at this
    exact this

end general

section exact
variable {F : Type} [Field F] [LinearOrder F] [IsStrictOrderedRing F]
variable (sqrt : Ext F → Ext F) (pow : Ext F → Ext F → Ext F) (maxv : F) (floor : F → Nat)

/-- Specification: truncation of non-negative numbers to a natural. -/
def FloorOk (floor : F → Nat) : Prop := ∀ (x : F) (m : Nat), 0 ≤ x → (m ≤ floor x ↔ (m : F) ≤ x)

theorem bucket_exact {k : Nat} (hk : 0 < k) {lo hi x : F} (hlh : lo < hi) :
    bucket (exactOps sqrt pow maxv floor) k (.fin lo) (.fin hi) (.fin x) =
      min (floor ((x - lo) / ((hi - lo) / k))) (k - 1) := by
  have hkF : (0 : F) < k := by exact_mod_cast hk
  have hinc : (hi + -lo) / (k : F) ≠ 0 := by
    rw [← sub_eq_add_neg]
    exact (div_pos (by linarith) hkF).ne'
  unfold bucket
  congr 1
  show (match Ext.div (.fin (x + -lo)) (Ext.div (.fin (hi + -lo)) (.fin (k : F))) with | .fin a => floor a | _ => 0) = _
  have e1 : Ext.div (.fin (hi + -lo)) (.fin (k : F)) = .fin ((hi + -lo) / k) := by
    show (if (k : F) = 0 then _ else Ext.fin ((hi + -lo) / k)) = _
    rw [if_neg hkF.ne']
  have e2 : Ext.div (.fin (x + -lo)) (.fin ((hi + -lo) / (k : F))) = .fin ((x + -lo) / ((hi + -lo) / k)) := by
    show (if (hi + -lo) / (k : F) = 0 then _ else Ext.fin ((x + -lo) / ((hi + -lo) / k))) = _
    rw [if_neg hinc]
  rw [e1, e2]
  simp only [sub_eq_add_neg]

/-- **C63, the parts are graded.** With exact arithmetic and different smallest and largest fitness: part `i` gets the
solutions with `lo + i·step ≤ fitness`, (below `lo + (i+1)·step` except in the last part); the worst is in the first part
and the best in the last; a fitter solution is never in a lower part. -/
theorem C63_graded_parts (hfl : FloorOk floor) {k : Nat} (hk : 0 < k) {lo hi : F} (hlh : lo < hi) :
    bucket (exactOps sqrt pow maxv floor) k (.fin lo) (.fin hi) (.fin lo) = 0 ∧
    bucket (exactOps sqrt pow maxv floor) k (.fin lo) (.fin hi) (.fin hi) = k - 1 ∧
    (∀ x y, lo ≤ x → x ≤ y → bucket (exactOps sqrt pow maxv floor) k (.fin lo) (.fin hi) (.fin x) ≤
      bucket (exactOps sqrt pow maxv floor) k (.fin lo) (.fin hi) (.fin y)) ∧
    ∀ x i, lo ≤ x → i < k → (i ≤ bucket (exactOps sqrt pow maxv floor) k (.fin lo) (.fin hi) (.fin x) ↔
      lo + i * ((hi - lo) / k) ≤ x) := by
  have hkF : (0 : F) < k := by exact_mod_cast hk
  have hinc : 0 < (hi - lo) / (k : F) := div_pos (by linarith) hkF
  have key : ∀ x i, lo ≤ x → i < k → (i ≤ bucket (exactOps sqrt pow maxv floor) k (.fin lo) (.fin hi) (.fin x) ↔
      lo + i * ((hi - lo) / k) ≤ x) := by
    intro x i hx hi'
    rw [bucket_exact sqrt pow maxv floor hk hlh, le_min_iff]
    have h1 : i ≤ k - 1 := by omega
    rw [and_iff_left h1, hfl _ _ (div_nonneg (by linarith) hinc.le), le_div_iff₀ hinc]
    constructor <;> intro h <;> linarith
  refine ⟨?_, ?_, ?_, key⟩
  · by_contra hne
    have hb := bucket_lt (A := exactOps sqrt pow maxv floor) hk (.fin lo) (.fin hi) (.fin lo)
    have := (key lo _ (le_refl _) hb).1 (le_refl _)
    have hp : (0 : F) < (bucket (exactOps sqrt pow maxv floor) k (.fin lo) (.fin hi) (.fin lo) : F) := by
      exact_mod_cast Nat.pos_of_ne_zero hne
    have := mul_pos hp hinc
    linarith
  · have h1 : k - 1 ≤ bucket (exactOps sqrt pow maxv floor) k (.fin lo) (.fin hi) (.fin hi) := by
      rw [key hi (k - 1) hlh.le (by omega)]
      have : ((k - 1 : Nat) : F) * ((hi - lo) / k) ≤ k * ((hi - lo) / k) := by
        apply mul_le_mul_of_nonneg_right _ hinc.le
        exact_mod_cast Nat.sub_le _ _
      rw [mul_div_cancel₀ _ hkF.ne'] at this
      linarith
    have := bucket_lt (A := exactOps sqrt pow maxv floor) hk (.fin lo) (.fin hi) (.fin hi)
    omega
  · intro x y hx hxy
    have hb := bucket_lt (A := exactOps sqrt pow maxv floor) hk (.fin lo) (.fin hi) (.fin x)
    have h1 := (key x _ hx hb).1 (le_refl _)
    exact (key y _ (hx.trans hxy) hb).2 (h1.trans hxy)

/-- **C63, finding:** when all solutions have the same fitness (a converged colony) the division is `0 / 0`, and all of
them go to the first part, the one for the worst solutions. -/
theorem C63_equal_fitness_all_worst {k : Nat} (hk : 0 < k) (lo : F) :
    bucket (exactOps sqrt pow maxv floor) k (.fin lo) (.fin lo) (.fin lo) = 0 := by
  have hkF : (k : F) ≠ 0 := by exact_mod_cast hk.ne'
  unfold bucket
  have e1 : Ext.div (.fin (lo + -lo)) (.fin (k : F)) = .fin 0 := by
    show (if (k : F) = 0 then _ else Ext.fin ((lo + -lo) / k)) = _
    rw [if_neg hkF]; simp
  show min (match Ext.div (.fin (lo + -lo)) (Ext.div (.fin (lo + -lo)) (.fin (k : F))) with | .fin a => floor a | _ => 0) _ = 0
  rw [e1]
  have e2 : Ext.div (.fin (lo + -lo)) (.fin (0 : F)) = (.nan : Ext F) := by
    show (if (0 : F) = 0 then (if lo + -lo = 0 then Ext.nan else _) else _) = _
    simp
  rw [e2]
  simp

end exact

/-- Exact rationals with the real floor. -/
abbrev Qf : AcoOps (Ext ℚ) (WithBot (WithTop ℚ)) := exactOps (fun x => x) (fun x _ => x) 1000 (fun q => (q.num / q.den).toNat)

/-- Six solutions in three parts, computed. -/
example : (match findBounds Qf [⟨[0], .fin 1⟩, ⟨[1], .fin 4⟩, ⟨[2], .fin 2⟩, ⟨[3], .fin (5/2)⟩, ⟨[4], .fin 3⟩, ⟨[5], .fin (7/2)⟩] with
    | .ok b => (List.range 3).map fun i => (part Qf 3 b.1 b.2
        [⟨[0], .fin 1⟩, ⟨[1], .fin 4⟩, ⟨[2], .fin 2⟩, ⟨[3], .fin (5/2)⟩, ⟨[4], .fin 3⟩, ⟨[5], .fin (7/2)⟩] i).map (·.path)
    | .error _ => []) = [[[0]], [[2], [3]], [[1], [4], [5]]] := by decide +kernel

/-! ## C92: the builder -/

section builder
variable {P C G T Pr Ph Args : Type}

/-- Specification: the values a sequence of setter calls gives to each component, in order. -/
def Setter.probe? : Setter P C G T Pr Ph Args → Option Pr | .probe x => some x | _ => none
def Setter.update? : Setter P C G T Pr Ph Args → Option P | .update x => some x | _ => none
def Setter.grader? : Setter P C G T Pr Ph Args → Option G | .grader x => some x | _ => none
def Setter.termination? : Setter P C G T Pr Ph Args → Option T | .termination x => some x | _ => none
def Setter.pheromone? : Setter P C G T Pr Ph Args → Option Ph | .pheromone x => some x | _ => none
def Setter.colony? : Setter P C G T Pr Ph Args → Option C | .colony x => some x | _ => none
def Setter.args? : Setter P C G T Pr Ph Args → Option Args | .args x => some x | _ => none

/-- Specification: the last value given. -/
def last? {α : Type} (f : Setter P C G T Pr Ph Args → Option α) (l : List (Setter P C G T Pr Ph Args)) : Option α :=
  (l.filterMap f).getLast?

theorem last?_append {α : Type} (f : Setter P C G T Pr Ph Args → Option α) (l : List (Setter P C G T Pr Ph Args))
    (s : Setter P C G T Pr Ph Args) : last? f (l ++ [s]) = (f s).or (last? f l) := by
  unfold last?
  rw [List.filterMap_append]
  cases h : f s with
  | none => simp [h]
  | some a => simp [h]

theorem builder_fields (l : List (Setter P C G T Pr Ph Args)) :
    l.foldl Builder.set (Builder.new : Builder P C G T Pr Ph Args) =
      ⟨last? Setter.update? l, last? Setter.grader? l, last? Setter.colony? l, last? Setter.termination? l,
        last? Setter.pheromone? l, last? Setter.probe? l, last? Setter.args? l⟩ := by
  induction l using List.reverseRecOn with
  | nil => rfl
  | append_singleton l s ih =>
    rw [List.foldl_append, List.foldl_cons, List.foldl_nil, ih]
    simp only [last?_append]
    cases s <;> rfl

/-- **C92.** After any sequence of setter calls, in any order and with repetitions, `build` succeeds exactly when every
component has been given, and the algorithm then has the last value given for each. -/
theorem C92_builder (l : List (Setter P C G T Pr Ph Args)) (x : Built P C G T Pr Ph Args) :
    (l.foldl Builder.set (Builder.new : Builder P C G T Pr Ph Args)).build = .ok x ↔
      last? Setter.update? l = some x.pheromoneUpdate ∧ last? Setter.grader? l = some x.grader ∧
      last? Setter.colony? l = some x.colony ∧ last? Setter.termination? l = some x.terminationCond ∧
      last? Setter.pheromone? l = some x.pheromone ∧ last? Setter.probe? l = some x.probe ∧
      last? Setter.args? l = some x.args := by
  rw [builder_fields]
  have hex : ∀ {α : Type} {o : Option α} {a : α}, expect o = .ok a ↔ o = some a := by
    intro α o a
    cases o with
    | none => exact ⟨fun h => (by cases h), fun h => (by cases h)⟩
    | some b => exact ⟨fun h => by cases h; rfl, fun h => by cases h; rfl⟩
  constructor
  · intro h
    unfold Builder.build at h
    obtain ⟨c, h1, h⟩ := Exc.bind_ok.1 h
    obtain ⟨ph, h2, h⟩ := Exc.bind_ok.1 h
    obtain ⟨p, h3, h⟩ := Exc.bind_ok.1 h
    obtain ⟨g, h4, h⟩ := Exc.bind_ok.1 h
    obtain ⟨t, h5, h⟩ := Exc.bind_ok.1 h
    obtain ⟨pr, h6, h⟩ := Exc.bind_ok.1 h
    obtain ⟨a, h7, h⟩ := Exc.bind_ok.1 h
    rw [Exc.pure_ok] at h
    cases h
    exact ⟨hex.1 h3, hex.1 h4, hex.1 h1, hex.1 h5, hex.1 h2, hex.1 h6, hex.1 h7⟩
  · rintro ⟨h1, h2, h3, h4, h5, h6, h7⟩
    unfold Builder.build
    rw [Exc.bind_of_ok (hex.2 h3), Exc.bind_of_ok (hex.2 h5), Exc.bind_of_ok (hex.2 h1), Exc.bind_of_ok (hex.2 h2),
      Exc.bind_of_ok (hex.2 h4), Exc.bind_of_ok (hex.2 h6), Exc.bind_of_ok (hex.2 h7)]
    rfl

/-- **C92, missing component.** If some component was never given, `build` panics in an `expect`. -/
theorem C92_missing_panics (l : List (Setter P C G T Pr Ph Args))
    (h : last? Setter.update? l = none ∨ last? Setter.grader? l = none ∨ last? Setter.colony? l = none ∨
      last? Setter.termination? l = none ∨ last? Setter.pheromone? l = none ∨ last? Setter.probe? l = none ∨
      last? Setter.args? l = none) :
    (l.foldl Builder.set (Builder.new : Builder P C G T Pr Ph Args)).build = .error .unwrapNone := by
  have hk : ∀ b : Builder P C G T Pr Ph Args, (∃ x, b.build = .ok x) ∨ b.build = .error .unwrapNone := by
    rintro ⟨a, b, c, d, e, f, g⟩
    cases c <;> cases e <;> cases a <;> cases b <;> cases d <;> cases f <;> cases g <;>
      first | exact .inr rfl | exact .inl ⟨_, rfl⟩
  rcases hk (l.foldl Builder.set (Builder.new : Builder P C G T Pr Ph Args)) with ⟨x, hb⟩ | hb
  · exfalso
    obtain ⟨h1, h2, h3, h4, h5, h6, h7⟩ := (C92_builder l x).1 hb
    simp_all
  · exact hb

end builder

example : (([.probe 1, .update 2, .grader 3, .termination 4, .pheromone 5, .args 9, .colony 6, .probe 7] :
    List (Setter Nat Nat Nat Nat Nat Nat Nat)).foldl Builder.set Builder.new).build = .ok ⟨6, 5, 2, 3, 4, 7, 9⟩ := rfl

/-! ## C93: the file probes -/

section probes
variable {X K : Type} [LinearOrder K] {A : AcoOps X K}

/-- Specification: the lines of best.csv for the iterations `i, i+1, …` with the given bests. -/
def bestLines : Nat → List (Sol X × Mat X) → List (Nat × Nat × Nat)
  | _, [] => []
  | i, r :: rs => (windows r.1.path).map (fun e => (e.1, e.2, i)) ++ bestLines (i + 1) rs

/-- Specification: the lines of pheromone.csv: every entry of every reported matrix, row by row. -/
def pherLines : Nat → List (Sol X × Mat X) → List (PherRecord X)
  | _, [] => []
  | i, r :: rs => matRecords i r.2 ++ pherLines (i + 1) rs

/-- **C93, CSV.** For a run that reports the records `recs` (see C61), `CsvProbe` writes: to best.csv the edges of the
closed tour of each iteration's best, and to pheromone.csv each entry of each iteration's pheromone, numbered from 1. -/
theorem C93_csv_records (recs : List (Sol X × Mat X)) :
    ((recs.flatMap block ++ [Event.finish] : List (Event X (Mat X))).foldl CsvProbe.on (CsvProbe.new A)).written =
      some (bestLines 1 recs, pherLines 1 recs) := by
  have key : ∀ (recs : List (Sol X × Mat X)) (p : CsvProbe X),
      ((recs.flatMap block ++ [Event.finish] : List (Event X (Mat X))).foldl CsvProbe.on p).written =
        some (p.bestSols ++ bestLines (p.iteration + 1) recs, p.pher ++ pherLines (p.iteration + 1) recs) := by
    intro recs
    induction recs with
    | nil => intro p; simp [bestLines, pherLines, CsvProbe.on]
    | cons r rs ih =>
      intro p
      rw [List.flatMap_cons, List.append_assoc, List.foldl_append, ih]
      simp [block, CsvProbe.on, bestLines, pherLines]
  have := key recs (CsvProbe.new A)
  simpa [CsvProbe.new] using this

/-- **C93, one line per entry.** The lines of a matrix are its entries: `rows · cols` lines, and every entry has one. -/
theorem C93_matrix_lines (it : Nat) (m : Mat X) :
    (matRecords it m).length = m.rows * m.cols ∧
    ∀ i j, i < m.rows → j < m.cols → (⟨i, j, it, m.get i j⟩ : PherRecord X) ∈ matRecords it m := by
  constructor
  · exact flat_length (fun j i => (⟨i, j, it, m.get i j⟩ : PherRecord X)) m.cols m.rows
  · intro i j hi hj
    exact List.mem_flatMap.2 ⟨i, List.mem_range.2 hi, List.mem_map.2 ⟨j, List.mem_range.2 hj, rfl⟩⟩

theorem setLast_append (f : Mat X × Sol X → Mat X × Sol X) (l : List (Mat X × Sol X)) (x : Mat X × Sol X) :
    setLast f (l ++ [x]) = .ok (l ++ [f x]) := by
  unfold setLast
  simp

/-- **C93, JSON.** `JsonProbe` never panics in such a run and writes one record per iteration: the pheromone and the best
solution of that iteration. -/
theorem C93_json_records (recs : List (Sol X × Mat X)) :
    (recs.flatMap block ++ [Event.finish] : List (Event X (Mat X))).foldlM (JsonProbe.on A) ⟨[], none⟩ =
      .ok ⟨recs.map Prod.swap, some (recs.map Prod.swap)⟩ := by
  have key : ∀ (recs : List (Sol X × Mat X)) (l : List (Mat X × Sol X)) (o : Option (List (Mat X × Sol X))),
      (recs.flatMap block ++ [Event.finish] : List (Event X (Mat X))).foldlM (JsonProbe.on A) ⟨l, o⟩ =
        .ok ⟨l ++ recs.map Prod.swap, some (l ++ recs.map Prod.swap)⟩ := by
    intro recs
    induction recs with
    | nil => intro l o; simp [JsonProbe.on]
    | cons r rs ih =>
      intro l o
      rw [List.flatMap_cons, List.append_assoc, List.foldlM_append]
      have h1 : (block r).foldlM (JsonProbe.on A) ⟨l, o⟩ = .ok ⟨l ++ [(r.2, r.1)], o⟩ := by
        have a1 : JsonProbe.on A (⟨l, o⟩ : JsonProbe X) .iterationStart = .ok ⟨l ++ [iterDefault A], o⟩ := rfl
        have a2 : JsonProbe.on A (⟨l ++ [iterDefault A], o⟩ : JsonProbe X) (.currentBest r.1)
            = .ok ⟨l ++ [((iterDefault A).1, r.1)], o⟩ := by
          unfold JsonProbe.on
          simp only
          rw [setLast_append]; rfl
        have a3 : JsonProbe.on A (⟨l ++ [((iterDefault A).1, r.1)], o⟩ : JsonProbe X) (.pheromoneUpdate r.2)
            = .ok ⟨l ++ [(r.2, r.1)], o⟩ := by
          unfold JsonProbe.on
          simp only
          rw [setLast_append]; rfl
        unfold block
        rw [List.foldlM_cons, Exc.bind_of_ok a1, List.foldlM_cons, Exc.bind_of_ok a2, List.foldlM_cons, Exc.bind_of_ok a3]
        rfl
      rw [Exc.bind_of_ok h1, ih]
      simp [Prod.swap]
  simpa using key recs [] none

end probes

example : bestLines 1 [(⟨[0, 2, 1], .fin 1⟩, constMat 3 1), (⟨[1, 0, 2], .fin 2⟩, constMat 3 1)] =
    [(0, 2, 1), (2, 1, 1), (1, 0, 1), (1, 0, 2), (0, 2, 2), (2, 1, 2)] := rfl

/-! ## Every theorem on a concrete case -/

section instances

/-- Four gradings, one below another. -/
def fourSols : List (Sol (Ext ℚ)) := [⟨[0, 1], .fin 5⟩, ⟨[1, 0], .fin 7⟩, ⟨[0, 1], .fin 1⟩, ⟨[1, 0], .fin 2⟩]

theorem fourSols_num : ∀ s ∈ fourSols, Numeric Qf s := by
  intro s hs
  simp only [fourSols, List.mem_cons, List.not_mem_nil, or_false] at hs
  rcases hs with rfl | rfl | rfl | rfl <;> trivial

/-- An inner updater that counts its calls and leaves the matrix alone. -/
def countingUpd : Upd (Ext ℚ) Nat := fun u _ p => .ok (u + 1, p)

theorem ratFloor_ok : FloorOk (F := ℚ) (fun q => Nat.floor q) := fun _ _ hx => Nat.le_floor_iff hx

example := C63_partition (A := Qf) countingUpd (us := [0, 0, 0]) (phs := [constMat 2 1, constMat 2 2, constMat 2 3]) (sols := fourSols)
  (by decide) rfl (by decide)
example := C63_every_solution_once (A := Qf) (k := 3) (by decide) (.fin 1) (.fin 7) fourSols
example := C63_pointwise countingUpd (us := [0, 4]) (us' := [1, 5]) (phs := [constMat 2 1, constMat 2 2])
  (phs' := [constMat 2 1, constMat 2 2]) (gs := [fourSols, []]) rfl rfl rfl
example := C63_bounds (A := Qf) (sols := fourSols) (lo := .fin 1) (hi := .fin 7) fourSols_num rfl
example := C63_graded_parts (fun x => x) (fun x _ => x) 1000 (fun q : ℚ => Nat.floor q) ratFloor_ok (k := 3) (by decide)
  (lo := 1) (hi := 7) (by norm_num)
example := C63_equal_fitness_all_worst (fun x => x) (fun x _ => x) 1000 (fun q : ℚ => Nat.floor q) (k := 3) (by decide) 4

end instances

end Ecrs.Aco
