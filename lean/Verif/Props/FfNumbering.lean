import Verif.Props.Numbering
import Verif.Props.FfSymmetry

set_option linter.unusedSectionVars false
set_option linter.unusedVariables false

/-!
# C178 for fireflies
-/

namespace Ecrs.Ff
open Ecrs
open Ecrs.Pso (reorder reorder_length reorder_getElem ext_of_dim)

/-- The second program returns `h` of what the first returns, or both panic alike; what the first returns satisfies `P`. -/
def Agree {α β : Type} (h : α → β) (P : α → Prop) (a : Except Panic α) (b : Except Panic β) : Prop :=
  b = a.map h ∧ ∀ r, a = .ok r → P r

theorem Agree.pure {α β : Type} {h : α → β} {P : α → Prop} {x : α} {y : β} (e : y = h x) (hx : P x) :
    Agree h P (Pure.pure x : Except Panic α) (Pure.pure y) := ⟨by rw [e]; rfl, fun r hr => by cases hr; exact hx⟩

theorem Agree.ok {α β : Type} {h : α → β} {P : α → Prop} {x : α} {y : β} (e : y = h x) (hx : P x) :
    Agree h P (.ok x : Except Panic α) (.ok y) := Agree.pure e hx

theorem Agree.bind {α β γ δ : Type} {h : α → β} {P : α → Prop} {h' : γ → δ} {Q : γ → Prop} {a : Except Panic α} {b : Except Panic β}
    {k : α → Except Panic γ} {k' : β → Except Panic δ} (h1 : Agree h P a b) (h2 : ∀ x, P x → Agree h' Q (k x) (k' (h x))) :
    Agree h' Q (a >>= k) (b >>= k') := by
  obtain ⟨rfl, hp⟩ := h1
  cases a with
  | error e => exact ⟨rfl, fun r hr => by cases hr⟩
  | ok x => exact h2 x (hp x rfl)

theorem Agree.same {α : Type} (a : Except Panic α) : Agree id (fun _ => True) a a := by
  refine ⟨?_, fun _ _ => trivial⟩
  cases a <;> rfl

section
variable {X K : Type} [LinearOrder K] (A : FloatOps X K)

/-- Specification: the draws for coordinate `i` are those for coordinate `p i`. -/
def Draws.reorder (p : Nat → Nat) (dr : Draws X) : Draws X :=
  ⟨fun g i j d => dr.uni g i j (p d), fun g i j d => dr.dist g i j (p d), fun g i d => dr.brown g i (p d)⟩

/-- Specification: the same state in the other numbering of the coordinates. -/
def St.reorder (dim : Nat) (p : Nat → Nat) (s : St X) : St X := ⟨s.pop.map (Pso.reorder dim p), s.bright, s.alfa, s.best⟩

/-- Specification: the same callback in the other numbering of the coordinates. -/
def Ev.reorder (dim : Nat) (p : Nat → Nat) : Ev X → Ev X
  | .onCurrentBest v x => .onCurrentBest v (Pso.reorder dim p x)
  | e => e

variable {A} {dim : Nat} {p : Nat → Nat} (hp : ∀ i < dim, p i < dim) {c : Cfg X} {f f' : List X → X}
  (hf : ∀ x, x.length = dim → f' (reorder dim p x) = f x) {dist dist' : List X → List X → Except Panic X}
  (hd : ∀ x y, x.length = dim → y.length = dim → dist' (reorder dim p x) (reorder dim p y) = dist x y)

theorem index_agree {pop : List (List X)} (hx : ∀ x ∈ pop, x.length = dim) (i : Nat) :
    Agree (reorder dim p) (fun x => x.length = dim) (index pop i) (index (pop.map (reorder dim p)) i) := by
  refine ⟨index_map _ _ _, fun r hr => hx r ?_⟩
  unfold index at hr
  split at hr
  · next y hy => cases hr; exact List.mem_of_getElem? hy
  · cases hr

theorem moveDims_spec {alfa const1 gen : X} {u s : Nat → X} {target : List X} :
    ∀ {d : Nat} {xs : List X}, d + xs.length ≤ target.length →
      ∃ ys, moveDims A c alfa const1 gen u s target d xs = .ok ys ∧ ys.length = xs.length ∧
        ∀ i x t, xs[i]? = some x → target[d + i]? = some t →
          ys[i]? = some (clamp A c (A.add x (attractStep A c alfa const1 x t (u (d + i)) (s (d + i)) gen)))
  | d, [], _ => ⟨[], rfl, rfl, fun i x t h => by simp at h⟩
  | d, x :: xs, h => by
    obtain ⟨ys, h1, h2, h3⟩ := moveDims_spec (alfa := alfa) (const1 := const1) (gen := gen) (u := u)
      (s := s) (target := target) (d := d + 1) (xs := xs) (by simp at h; omega)
    have hi : index target d = .ok (target[d]'(by simp at h; omega)) := index_ok.2 (List.getElem?_eq_getElem _)
    rw [moveDims, except_bind_of_ok hi, except_bind_of_ok h1]
    refine ⟨_, rfl, by simp [h2], ?_⟩
    intro i y t hy ht
    cases i with
    | zero =>
      rw [Nat.add_zero, index_ok.1 hi] at ht
      rw [List.getElem?_cons_zero] at hy ⊢
      cases hy
      cases ht
      rfl
    | succ i =>
      rw [List.getElem?_cons_succ] at hy ⊢
      rw [show d + (i + 1) = d + 1 + i by omega] at ht ⊢
      exact h3 i y t hy ht

include hp in
theorem moveDims_agree {alfa const1 gen : X} {u s : Nat → X} {x y : List X} (hx : x.length = dim) (hy : y.length = dim) :
    Agree (reorder dim p) (fun x => x.length = dim) (moveDims A c alfa const1 gen u s y 0 x)
      (moveDims A c alfa const1 gen (fun d => u (p d)) (fun d => s (p d)) (reorder dim p y) 0 (reorder dim p x)) := by
  have hx' := reorder_length hp hx
  have hy' := reorder_length hp hy
  obtain ⟨r, h1, h2, h3⟩ := moveDims_spec (A := A) (c := c) (alfa := alfa) (const1 := const1) (gen := gen) (u := u) (s := s)
    (target := y) (d := 0) (xs := x) (by omega)
  obtain ⟨r', h4, h5, h6⟩ := moveDims_spec (A := A) (c := c) (alfa := alfa) (const1 := const1) (gen := gen)
    (u := fun d => u (p d)) (s := fun d => s (p d)) (target := reorder dim p y) (d := 0) (xs := reorder dim p x) (by omega)
  rw [h1, h4]
  refine Agree.ok (ext_of_dim (by omega) (reorder_length hp (by omega)) fun i hi => ?_) (by omega)
  have ex : x[p i]? = some (x[p i]'(by rw [hx]; exact hp i hi)) := List.getElem?_eq_getElem _
  have ey : y[p i]? = some (y[p i]'(by rw [hy]; exact hp i hi)) := List.getElem?_eq_getElem _
  rw [reorder_getElem hp (by omega) hi, h3 (p i) _ _ ex (by rw [Nat.zero_add]; exact ey),
    h6 i _ _ ((reorder_getElem hp hx hi).trans ex) (by rw [Nat.zero_add]; exact (reorder_getElem hp hy hi).trans ey)]
  simp only [Nat.zero_add]

theorem brownian_spec (alfa : X) (b : Nat → X) : ∀ (d : Nat) (xs : List X), (brownian A c alfa b d xs).length = xs.length ∧
    ∀ i, (brownian A c alfa b d xs)[i]? = xs[i]?.map fun x => clamp A c (A.add x (A.mul (A.mul (b (d + i)) (A.sq alfa))
      (A.expo (A.mul (A.mul A.minusOne c.beta0) c.gamma))))
  | _, [] => ⟨rfl, fun i => by simp [brownian]⟩
  | d, x :: xs => by
    obtain ⟨h1, h2⟩ := brownian_spec alfa b (d + 1) xs
    refine ⟨by rw [brownian, List.length_cons, h1, List.length_cons], fun i => ?_⟩
    cases i with
    | zero => rfl
    | succ i =>
      rw [brownian, List.getElem?_cons_succ, List.getElem?_cons_succ, h2 i, show d + 1 + i = d + (i + 1) by omega]

include hp in
theorem brownian_reorder (alfa : X) (b : Nat → X) {x : List X} (hx : x.length = dim) :
    brownian A c alfa (fun d => b (p d)) 0 (reorder dim p x) = reorder dim p (brownian A c alfa b 0 x) := by
  have h1 := brownian_spec (A := A) (c := c) alfa b 0 x
  have h2 := brownian_spec (A := A) (c := c) alfa (fun d => b (p d)) 0 (reorder dim p x)
  refine ext_of_dim (by rw [h2.1, reorder_length hp hx]) (reorder_length hp (by rw [h1.1, hx])) fun i hi => ?_
  rw [h2.2, reorder_getElem hp hx hi, reorder_getElem hp (x := brownian A c alfa b 0 x) (by rw [h1.1, hx]) hi, h1.2]
  simp only [Nat.zero_add]

include hp hd in
theorem considerOne_agree (dr : Draws X) (g i : Nat) (alfa : X) (bright : List X) {pop : List (List X)}
    (hpop : ∀ x ∈ pop, x.length = dim) (j : Nat) {st : List X × Bool} (hst : st.1.length = dim) :
    Agree (fun r : List X × Bool => (reorder dim p r.1, r.2)) (fun r => r.1.length = dim) (considerOne A c dist dr g i alfa bright pop j st)
      (considerOne A c dist' (dr.reorder p) g i alfa bright (pop.map (reorder dim p)) j (reorder dim p st.1, st.2)) := by
  unfold considerOne
  refine (Agree.same (index bright i)).bind fun bi _ => ?_
  refine (Agree.same (index bright j)).bind fun bj _ => ?_
  show Agree _ _ (if A.lt bi bj = true then _ else _) (if A.lt bi bj = true then _ else _)
  cases A.lt bi bj with
  | false => exact Agree.pure rfl hst
  | true =>
    refine (index_agree hpop i).bind fun xi hxi => ?_
    refine (index_agree hpop j).bind fun xj hxj => ?_
    rw [hd xi xj hxi hxj]
    refine (Agree.same (dist xi xj)).bind fun dd _ => ?_
    refine (moveDims_agree hp hxi hxj).bind fun r hr => ?_
    exact Agree.pure rfl hr

include hp hd in
theorem consider_agree (dr : Draws X) (g i : Nat) (alfa : X) (bright : List X) {pop : List (List X)}
    (hpop : ∀ x ∈ pop, x.length = dim) : ∀ (n j : Nat) {st : List X × Bool}, st.1.length = dim →
    Agree (fun r : List X × Bool => (reorder dim p r.1, r.2)) (fun r => r.1.length = dim) (consider A c dist dr g i alfa bright pop j n st)
      (consider A c dist' (dr.reorder p) g i alfa bright (pop.map (reorder dim p)) j n (reorder dim p st.1, st.2))
  | 0, _, _, hst => Agree.ok rfl hst
  | n + 1, j, st, hst => by
    rw [consider, consider]
    exact (considerOne_agree hp hd dr g i alfa bright hpop j hst).bind fun r hr => consider_agree dr g i alfa bright hpop n (j + 1) hr

include hp hd in
theorem moveFirefly_agree (dr : Draws X) (g : Nat) (alfa : X) (bright : List X) {pop : List (List X)}
    (hpop : ∀ x ∈ pop, x.length = dim) (i : Nat) :
    Agree (reorder dim p) (fun x => x.length = dim) (moveFirefly A c dist dr g alfa bright pop i)
      (moveFirefly A c dist' (dr.reorder p) g alfa bright (pop.map (reorder dim p)) i) := by
  unfold moveFirefly
  refine (index_agree hpop i).bind fun x hx => ?_
  refine (consider_agree hp hd dr g i alfa bright hpop c.populationSize 0 (st := (x, false)) hx).bind fun r hr => ?_
  obtain ⟨res, moved⟩ := r
  cases moved with
  | true => exact Agree.pure rfl hr
  | false =>
    refine Agree.pure ?_ (by
      show (brownian A c alfa (dr.brown g i) 0 res).length = dim
      rw [(brownian_spec alfa _ 0 res).1]; exact hr)
    exact brownian_reorder hp alfa (dr.brown g i) hr

include hp hd in
theorem moveAll_agree (dr : Draws X) (g : Nat) (alfa : X) (bright : List X) {pop : List (List X)}
    (hpop : ∀ x ∈ pop, x.length = dim) : ∀ (n i : Nat),
    Agree (List.map (reorder dim p)) (fun xs => ∀ x ∈ xs, x.length = dim) (moveAll A c dist dr g alfa bright pop i n)
      (moveAll A c dist' (dr.reorder p) g alfa bright (pop.map (reorder dim p)) i n)
  | 0, _ => Agree.ok rfl (by simp)
  | n + 1, i => by
    rw [moveAll, moveAll]
    refine (moveFirefly_agree hp hd dr g alfa bright hpop i).bind fun x hx => ?_
    refine (moveAll_agree dr g alfa bright hpop n (i + 1)).bind fun xs hxs => ?_
    refine Agree.pure rfl ?_
    intro y hy
    rcases List.mem_cons.1 hy with rfl | hy
    · exact hx
    · exact hxs y hy

include hf in
theorem brightness_reorder {pop : List (List X)} (hpop : ∀ x ∈ pop, x.length = dim) :
    brightness A f' (pop.map (reorder dim p)) = brightness A f pop := by
  unfold brightness
  rw [List.map_map]
  exact List.map_congr_left fun x hx => by
    show A.div A.one (f' (reorder dim p x)) = _
    rw [hf x (hpop x hx)]

include hp hf hd in
theorem generation_agree (dr : Draws X) (g : Nat) {st : St X} (hst : ∀ x ∈ st.pop, x.length = dim) :
    Agree (fun r : St X × List (Ev X) => (r.1.reorder dim p, r.2.map (Ev.reorder dim p))) (fun r => ∀ x ∈ r.1.pop, x.length = dim)
      (generation A c f dist dr g st) (generation A c f' dist' (dr.reorder p) g (st.reorder dim p)) := by
  unfold generation
  have e : (st.reorder dim p).pop.length = st.pop.length := by unfold St.reorder; rw [List.length_map]
  rw [e]
  refine (moveAll_agree hp hd dr g st.alfa st.bright hst st.pop.length 0).bind fun pop hpop => ?_
  simp only
  rw [brightness_reorder hf hpop]
  refine (index_agree hpop _).bind fun x hx => ?_
  rw [hf x hx]
  exact Agree.pure rfl hpop

include hp hf hd in
theorem generations_agree (dr : Draws X) : ∀ (n g : Nat) {st : St X}, (∀ x ∈ st.pop, x.length = dim) →
    Agree (fun r : List (St X) × List (Ev X) => (r.1.map (St.reorder dim p), r.2.map (Ev.reorder dim p))) (fun _ => True)
      (generations A c f dist dr g n st) (generations A c f' dist' (dr.reorder p) g n (st.reorder dim p))
  | 0, _, _, _ => Agree.ok rfl trivial
  | n + 1, g, st, hst => by
    rw [generations, generations]
    refine (generation_agree hp hf hd dr g hst).bind fun r hr => ?_
    refine (generations_agree dr n (g + 1) hr).bind fun q _ => ?_
    refine Agree.pure ?_ trivial
    rw [List.map_append]
    rfl

include hp hf hd in
/-- **C178, fireflies.** Number the coordinates differently: coordinate `i` of the new vectors is coordinate `p i` of the old ones, the
objective and the distance read the new vectors, and the draws for coordinate `i` are those for `p i`.  Then the run is the old one with
all positions rearranged: the same panic, or the same brightness, randomness and best values in every generation and the same callbacks.
For every arithmetic of the coordinates, rounded or not. -/
theorem C178_firefly (dr : Draws X) {pop : List (List X)} (hpop : ∀ x ∈ pop, x.length = dim) :
    run A c f' dist' (dr.reorder p) (pop.map (reorder dim p)) =
      (run A c f dist dr pop).map fun r => (r.1.map (St.reorder dim p), r.2.map (Ev.reorder dim p)) := by
  unfold run
  have e : initial A c f' (pop.map (reorder dim p)) = (initial A c f pop).reorder dim p := by
    unfold initial St.reorder
    simp only
    rw [brightness_reorder hf hpop]
  rw [e]
  refine ((generations_agree hp hf hd dr c.maxGenerations 0 (st := initial A c f pop) hpop).bind
    (h' := fun r : List (St X) × List (Ev X) => (r.1.map (St.reorder dim p), r.2.map (Ev.reorder dim p))) (Q := fun _ => True)
    fun q _ => ?_).1
  refine Agree.pure ?_ trivial
  show _ = (_, List.map (Ev.reorder dim p) (Ev.onStart :: q.2 ++ [Ev.onEnd]))
  rw [List.map_append, List.map_cons]
  rfl

end

/-- Two dimensions instead of one. -/
def cfgTwo : Cfg (Ext ℚ) := { cfgQ 2 3 1 with dimensions := 2 }

theorem swap_swap : ∀ x : List (Ext ℚ), x.length = 2 → reorder 2 (fun i => 1 - i) (reorder 2 (fun i => 1 - i) x) = x
  | [_, _], _ => rfl

/-- Draws which differ between the coordinates. -/
def drTwo : Draws (Ext ℚ) :=
  { uni := fun _ _ _ d => .fin (1 / (d + 2)), dist := fun _ _ _ _ => .fin (1 / 2), brown := fun g _ d => .fin (g + d) }

-- hypotheses of C178_firefly: two coordinates exchanged, the objective is the first coordinate (second in the new numbering), the
-- distance is the taxi metric
example := C178_firefly (A := AQ) (dim := 2) (p := fun i => 1 - i) (by omega) (c := cfgTwo) (f := absQ)
  (f' := fun x => absQ (reorder 2 (fun i => 1 - i) x)) (fun x hx => by rw [swap_swap x hx]) (dist := taxi AQ)
  (dist' := fun x y => taxi AQ (reorder 2 (fun i => 1 - i) x) (reorder 2 (fun i => 1 - i) y))
  (fun x y hx hy => by rw [swap_swap x hx, swap_swap y hy]) drTwo (pop := [[.fin 3, .fin 1], [.fin 2, .fin (-1)], [.fin 1, .fin 0]])
  (by simp)

-- this run returns
example : (summary (run AQ cfgTwo absQ (taxi AQ) drTwo [[.fin 3, .fin 1], [.fin 2, .fin (-1)], [.fin 1, .fin 0]])).isSome := by
  decide +kernel

end Ecrs.Ff
