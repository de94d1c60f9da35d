import Verif.Aco.Tsp
import Verif.Props.Ff
import Mathlib.Algebra.Order.Field.Basic
import Mathlib.Algebra.Order.Ring.Rat
import Mathlib.Tactic.Linarith
import Mathlib.Data.List.Perm.Subperm
import Mathlib.Data.List.Nodup

set_option linter.unusedSectionVars false

/-!
# Properties of the ants: C55, C56, C88, C89
-/

namespace Ecrs.Aco
open Ecrs

section general
variable {X K : Type} [LinearOrder K] {A : AcoOps X K}

/-! ## Specification -/

/-- Specification: `p` visits every vertex of `0..n` exactly once. -/
def IsTour (n : Nat) (p : List Nat) : Prop := p.Perm (List.range n)

/-- Specification: an ant made for `n` vertices, in any state a sequence of API calls leaves it in (see
`ready_canonical`, `ready_exploiting`, `C55_ant_system_tours`): its set of unvisited vertices is a subset of `0..n`. -/
def Ready (n : Nat) (a : Ant X) : Prop := a.size = n ∧ a.unvisited.Nodup ∧ ∀ v ∈ a.unvisited, v < n

theorem ready_canonical (n : Nat) : Ready n (Ant.canonical n : Ant X) := ⟨rfl, by simp [Ant.canonical], by simp [Ant.canonical]⟩

theorem ready_exploiting {n : Nat} {rate : X} {a : Ant X} (h : Ant.exploiting A n rate = .ok a) : Ready n a := by
  unfold Ant.exploiting at h
  split at h
  · cases h; exact ⟨rfl, by simp, by simp⟩
  · cases h

/-- While building: the vertices of the path and the unvisited ones together are `0..n`, each once; a stuck ant still has
its unvisited vertices in `0..n`. -/
def Building (n : Nat) (a : Ant X) : Prop :=
  Ready n a ∧ a.path ≠ [] ∧ (a.stuck = false → (a.path ++ a.unvisited).Perm (List.range n)) ∧ ∀ v ∈ a.path, v < n

/-! ## Lemmas -/

theorem clear_fold (m : Nat) : ∀ (n : Nat) (u : List Nat), m ≤ n → u.Nodup → (∀ v ∈ u, v < n) →
    ((List.range m).foldl (fun u i => if i ∈ u then u else u ++ [i]) u).Nodup ∧
    (∀ v ∈ (List.range m).foldl (fun u i => if i ∈ u then u else u ++ [i]) u, v < n) ∧
    (∀ v ∈ u, v ∈ (List.range m).foldl (fun u i => if i ∈ u then u else u ++ [i]) u) ∧
    ∀ v < m, v ∈ (List.range m).foldl (fun u i => if i ∈ u then u else u ++ [i]) u := by
  induction m with
  | zero => intro n u _ h1 h2; exact ⟨by simpa using h1, by simpa using h2, by simp, by omega⟩
  | succ m ih =>
    intro n u hm h1 h2
    obtain ⟨a, b, c, d⟩ := ih n u (by omega) h1 h2
    rw [List.range_succ, List.foldl_append, List.foldl_cons, List.foldl_nil]
    generalize (List.range m).foldl (fun u i => if i ∈ u then u else u ++ [i]) u = w at a b c d
    by_cases hmem : m ∈ w
    · rw [if_pos hmem]
      refine ⟨a, b, c, fun v hv => ?_⟩
      rcases Nat.lt_succ_iff_lt_or_eq.1 hv with h | h
      · exact d v h
      · rw [h]; exact hmem
    · rw [if_neg hmem]
      refine ⟨?_, ?_, fun v hv => by simp [c v hv], fun v hv => ?_⟩
      · rw [List.nodup_append]
        refine ⟨a, by simp, fun x hx y hy => ?_⟩
        simp at hy; subst hy
        intro h; subst h; exact hmem hx
      · intro v hv
        rcases List.mem_append.1 hv with h | h
        · exact b v h
        · simp at h; omega
      · rcases Nat.lt_succ_iff_lt_or_eq.1 hv with h | h
        · simp [d v h]
        · simp [h]

theorem perm_range {n : Nat} {l : List Nat} (h1 : l.Nodup) (h2 : ∀ v ∈ l, v < n) (h3 : ∀ v < n, v ∈ l) :
    l.Perm (List.range n) := by
  rw [List.perm_ext_iff_of_nodup h1 List.nodup_range]
  intro a
  rw [List.mem_range]
  exact ⟨h2 a, h3 a⟩

theorem clear_unvisited {n : Nat} {a : Ant X} (h : Ready n a) :
    a.clear.unvisited.Perm (List.range n) ∧ a.clear.size = n ∧ a.clear.path = [] ∧ a.clear.stuck = false ∧
      a.clear.exploit = a.exploit := by
  obtain ⟨hs, h1, h2⟩ := h
  obtain ⟨p, q, -, r⟩ := clear_fold a.size n a.unvisited (by omega) h1 h2
  exact ⟨perm_range p q (by rw [← hs]; exact r), hs, rfl, rfl, rfl⟩

theorem perm_filter_cons {n s : Nat} {u : List Nat} (hu : u.Perm (List.range n)) (hs : s < n) :
    ([s] ++ u.filter (· ≠ s)).Perm (List.range n) := by
  have hn : u.Nodup := hu.nodup_iff.2 List.nodup_range
  refine perm_range ?_ ?_ ?_
  · rw [List.singleton_append, List.nodup_cons]
    exact ⟨by simp, hn.filter _⟩
  · intro v hv
    rcases List.mem_append.1 hv with h | h
    · simp at h; omega
    · have := hu.mem_iff.1 (List.mem_filter.1 h).1; simpa using this
  · intro v hv
    by_cases h : v = s
    · simp [h]
    · have : v ∈ u := hu.mem_iff.2 (by simpa using hv)
      simp [h, this]

theorem start_ok {n s : Nat} {a b : Ant X} (h : Ready n a) (hb : a.clear.start s = .ok b) :
    Building n b ∧ b.stuck = false ∧ b.path.length = 1 ∧ b.exploit = a.exploit := by
  obtain ⟨hu, hs, hp, hst, hex⟩ := clear_unvisited h
  unfold Ant.start at hb
  split at hb
  · cases hb
  · rename_i h0
    cases hb
    have hlt : s % a.clear.size < n := by rw [hs] at h0 ⊢; exact Nat.mod_lt _ (by omega)
    have hperm := perm_filter_cons hu hlt
    refine ⟨⟨⟨hs, ?_, ?_⟩, by simp, ?_, ?_⟩, hst, by simp [hp], hex⟩
    · exact (hu.nodup_iff.2 List.nodup_range).filter _
    · intro v hv
      have := hu.mem_iff.1 (List.mem_filter.1 hv).1; simpa using this
    · intro _
      show ((a.clear.path ++ [s % a.clear.size]) ++ a.clear.unvisited.filter (· ≠ s % a.clear.size)).Perm _
      rw [hp, List.nil_append]; exact hperm
    · intro v hv
      have : v ∈ a.clear.path ++ [s % a.clear.size] := hv
      rw [hp] at this; simp at this; omega

theorem rowSum_ok {g : Mat X} {last : Nat} : ∀ {vs : List Nat} {acc s : X}, rowSum A g last vs acc = .ok s →
    ∀ v ∈ vs, last < g.rows ∧ v < g.cols
  | [], acc, s, _ => by simp
  | v :: vs, acc, s, h => by
    rw [rowSum] at h
    obtain ⟨w, h1, h2⟩ := Exc.bind_ok.1 h
    intro u hu
    rcases List.mem_cons.1 hu with rfl | hu
    · unfold Mat.at' at h1; split at h1
      · assumption
      · cases h1
    · exact rowSum_ok h2 u hu

theorem roulette_mem {g : Mat X} {last : Nat} : ∀ {vs : List Nat} {r : X} {v : Nat},
    roulette A g last vs r = .ok (some v) → v ∈ vs
  | [], r, v, h => by cases h
  | u :: vs, r, v, h => by
    rw [roulette] at h
    obtain ⟨w, h1, h2⟩ := Exc.bind_ok.1 h
    split at h2
    · cases h2; simp
    · exact List.mem_cons_of_mem _ (roulette_mem h2)

theorem bestVertex_mem {g : Mat X} {last : Nat} : ∀ {vs : List Nat} {next : Option Nat} {val : X} {v : Nat},
    bestVertex A g last vs next val = .ok (some v) → next = some v ∨ v ∈ vs
  | [], next, val, v, h => by cases h; exact .inl rfl
  | u :: vs, next, val, v, h => by
    rw [bestVertex] at h
    obtain ⟨w, h1, h2⟩ := Exc.bind_ok.1 h
    split at h2
    · rcases bestVertex_mem h2 with h3 | h3
      · cases h3; exact .inr (by simp)
      · exact .inr (List.mem_cons_of_mem _ h3)
    · rcases bestVertex_mem h2 with h3 | h3
      · exact .inl h3
      · exact .inr (List.mem_cons_of_mem _ h3)

theorem byRoulette_mem {g : Mat X} {last : Nat} {order : List Nat} {d : StepDraw X} {v : Nat}
    (h : byRoulette A g last order d = .ok (some v)) : v ∈ order := by
  unfold byRoulette at h
  obtain ⟨s, -, h⟩ := Exc.bind_ok.1 h
  obtain ⟨r, -, h⟩ := Exc.bind_ok.1 h
  exact roulette_mem h

theorem choose_mem {g : Mat X} {last : Nat} {order : List Nat} {ex : Option X} {d : StepDraw X} {v : Nat}
    (h : choose A g last order ex d = .ok (some v)) : v ∈ order := by
  unfold choose at h
  split at h
  · exact byRoulette_mem h
  · split at h
    · rcases bestVertex_mem h with h | h
      · cases h
      · exact h
    · exact byRoulette_mem h

/-- What one step does. -/
theorem goNext_cases {a b : Ant X} {g : Mat X} {d : StepDraw X} {e : Nat × Nat} (h : a.goNext A g d = .ok (b, e)) :
    ∃ last, a.path.getLast? = some last ∧
      ((a.stuck = true ∧ b = a) ∨
       (a.stuck = false ∧ a.unvisited ≠ [] ∧ ∃ next, (next = last ∨ next ∈ a.unvisited) ∧ e = (last, next) ∧
        b = { a with stuck := next == last, unvisited := a.unvisited.filter (· ≠ next), path := a.path ++ [next] } ∧
        ∃ c, choose A g last (d.ord a.unvisited) a.exploit d = .ok c ∧ next = c.getD last)) := by
  unfold Ant.goNext at h
  cases hl : a.path.getLast? with
  | none => rw [hl] at h; cases h
  | some last =>
    rw [hl] at h
    refine ⟨last, rfl, ?_⟩
    simp only at h
    by_cases hs : a.stuck = true
    · rw [if_pos hs] at h; cases h; exact .inl ⟨hs, rfl⟩
    · rw [if_neg hs] at h
      by_cases hu : a.unvisited = []
      · rw [if_pos hu] at h; cases h
      · rw [if_neg hu] at h
        obtain ⟨c, h1, h2⟩ := Exc.bind_ok.1 h
        rw [Exc.pure_ok] at h2
        cases h2
        refine .inr ⟨by simpa using hs, hu, c.getD last, ?_, rfl, rfl, c, h1, rfl⟩
        cases c with
        | none => exact .inl rfl
        | some v => exact .inr ((d.perm _).mem_iff.1 (choose_mem h1))

theorem goNext_building {n : Nat} {a b : Ant X} {g : Mat X} {d : StepDraw X} {e : Nat × Nat} (ha : Building n a)
    (h : a.goNext A g d = .ok (b, e)) :
    Building n b ∧ b.exploit = a.exploit ∧ (b.stuck = false → a.stuck = false ∧ b.path.length = a.path.length + 1 ∧
      ∃ last next, a.path.getLast? = some last ∧ last ≠ next ∧ b.path = a.path ++ [next] ∧ next < n) := by
  obtain ⟨last, hl, hc⟩ := goNext_cases h
  obtain ⟨⟨hsz, hnd, hlt⟩, hne, hperm, hpl⟩ := ha
  have hlastmem : last ∈ a.path := List.mem_of_getLast? hl
  rcases hc with ⟨hs, rfl⟩ | ⟨hs, hu, next, hnext, -, rfl, -⟩
  · exact ⟨⟨⟨hsz, hnd, hlt⟩, hne, hperm, hpl⟩, rfl, fun h => by rw [hs] at h; cases h⟩
  · have hnlt : next < n := by
      rcases hnext with h | h
      · rw [h]; exact hpl _ hlastmem
      · exact hlt _ h
    refine ⟨⟨⟨hsz, hnd.filter _, fun v hv => hlt v (List.mem_filter.1 hv).1⟩, by simp, ?_, ?_⟩, rfl, ?_⟩
    · intro hst
      have hnl : next ≠ last := by
        intro h; rw [h] at hst; simp at hst
      have hmem := hnext.resolve_left hnl
      have hp := hperm hs
      have hnodup : (a.path ++ a.unvisited).Nodup := hp.nodup_iff.2 List.nodup_range
      refine perm_range ?_ ?_ ?_
      · rw [List.nodup_append] at hnodup ⊢
        obtain ⟨d1, d2, d3⟩ := hnodup
        refine ⟨?_, d2.filter _, ?_⟩
        · rw [List.nodup_append]
          refine ⟨d1, by simp, fun x hx y hy => ?_⟩
          simp at hy; subst hy
          exact d3 x hx y hmem
        · intro x hx y hy
          rcases List.mem_append.1 hx with hx | hx
          · exact d3 x hx y (List.mem_filter.1 hy).1
          · simp at hx; subst hx
            have := (List.mem_filter.1 hy).2
            intro h; subst h; simp at this
      · intro v hv
        rcases List.mem_append.1 hv with hv | hv
        · rcases List.mem_append.1 hv with hv | hv
          · exact hpl v hv
          · simp at hv; omega
        · exact hlt v (List.mem_filter.1 hv).1
      · intro v hv
        have := hp.mem_iff.2 (List.mem_range.2 hv)
        by_cases hvn : v = next
        · simp [hvn]
        · rcases List.mem_append.1 this with h | h
          · simp [h]
          · simp [h, hvn]
    · intro v hv
      rcases List.mem_append.1 hv with hv | hv
      · exact hpl v hv
      · simp at hv; omega
    · intro hst
      refine ⟨hs, by simp, last, next, hl, ?_, rfl, hnlt⟩
      intro h; rw [h] at hst; simp at hst

theorem walk_building {n : Nat} {g : Mat X} {d : Nat → StepDraw X} : ∀ {m k : Nat} {a b : Ant X}, Building n a →
    Ant.walk A g d k m a = .ok b → Building n b ∧ b.exploit = a.exploit ∧
      (b.stuck = false → a.stuck = false ∧ b.path.length = a.path.length + m)
  | 0, k, a, b, ha, h => by cases h; exact ⟨ha, rfl, fun h => ⟨h, rfl⟩⟩
  | m + 1, k, a, b, ha, h => by
    rw [Ant.walk] at h
    obtain ⟨⟨a1, e⟩, h1, h2⟩ := Exc.bind_ok.1 h
    obtain ⟨g1, g2, g3⟩ := goNext_building ha h1
    obtain ⟨k1, k2, k3⟩ := walk_building g1 h2
    refine ⟨k1, k2.trans g2, fun hb => ?_⟩
    obtain ⟨q1, q2⟩ := k3 hb
    obtain ⟨q3, q4, -⟩ := g3 q1
    exact ⟨q3, by rw [q2, q4]; omega⟩

theorem building_full {n : Nat} {a : Ant X} (h : Building n a) (hs : a.stuck = false) (hl : n ≤ a.path.length) :
    IsTour n a.path := by
  have hp := h.2.2.1 hs
  have hlen := hp.length_eq
  rw [List.length_append, List.length_range] at hlen
  have : a.unvisited = [] := List.length_eq_zero_iff.1 (by omega)
  rw [this, List.append_nil] at hp
  exact hp

theorem oneAnt_ok {n m : Nat} {g : Mat X} {d : IterDraws X} {k : Nat} {a b : Ant X} (ha : Ready n a)
    (h : oneAnt A g m d k a = .ok b) : Building n b ∧ b.exploit = a.exploit ∧ (b.stuck = false → n ≤ m → IsTour n b.path) := by
  unfold oneAnt at h
  obtain ⟨a1, h1, h2⟩ := Exc.bind_ok.1 h
  obtain ⟨b1, b2, b3, b4⟩ := start_ok ha h1
  obtain ⟨c1, c2, c3⟩ := walk_building b1 h2
  refine ⟨c1, c2.trans b4, fun hs hm => building_full c1 hs ?_⟩
  have := (c3 hs).2
  omega

/-- **C55, Ant System.** For `n` vertices, ants made for `n` vertices, any arithmetic (with rounding), goodness, draws and
hash set orders: every path returned by `AntSystemAB` visits every vertex exactly once; at most one path per ant; the
pheromone is not touched; the ants can be used again. -/
theorem C55_ant_system_tours {goodness : Mat X → Except Panic (Mat X)} {d : IterDraws X} {ants ants' : List (Ant X)}
    {ph ph' : Mat X} {paths : List (List Nat)} (hr : ∀ a ∈ ants, Ready ph.rows a)
    (h : antSystem A goodness d ants ph = .ok (ants', paths, ph')) :
    (∀ p ∈ paths, IsTour ph.rows p) ∧ paths.length ≤ ants.length ∧ ph' = ph ∧ ants'.length = ants.length ∧
      ∀ a ∈ ants', Ready ph.rows a := by
  unfold antSystem at h
  obtain ⟨g, -, h⟩ := Exc.bind_ok.1 h
  obtain ⟨⟨as, ps⟩, h1, h⟩ := Exc.bind_ok.1 h
  rw [Exc.pure_ok] at h
  cases h
  have key : ∀ (ants : List (Ant X)) (k : Nat) (as : List (Ant X)) (ps : List (List Nat)),
      (∀ a ∈ ants, Ready ph.rows a) → asLoop A g ph.rows d k ants = .ok (as, ps) →
      (∀ p ∈ ps, IsTour ph.rows p) ∧ ps.length ≤ ants.length ∧ as.length = ants.length ∧ ∀ a ∈ as, Ready ph.rows a := by
    intro ants
    induction ants with
    | nil => intro k as ps _ h; cases h; simp
    | cons a ants ih =>
      intro k as ps hr h
      rw [asLoop] at h
      obtain ⟨a', h1, h⟩ := Exc.bind_ok.1 h
      obtain ⟨b1, -, b2⟩ := oneAnt_ok (hr a (by simp)) h1
      by_cases hs : a'.stuck = true
      · rw [if_pos hs] at h
        cases h
        refine ⟨by simp, by simp, by simp, fun x hx => ?_⟩
        rcases List.mem_cons.1 hx with rfl | hx
        · exact b1.1
        · exact hr x (by simp [hx])
      · rw [if_neg hs] at h
        obtain ⟨⟨as2, ps2⟩, h2, h⟩ := Exc.bind_ok.1 h
        rw [Exc.pure_ok] at h
        cases h
        obtain ⟨c1, c2, c3, c4⟩ := ih (k + 1) as2 ps2 (fun x hx => hr x (by simp [hx])) h2
        refine ⟨?_, by simpa using c2, by simpa using c3, ?_⟩
        · intro p hp
          rcases List.mem_cons.1 hp with rfl | hp
          · exact b2 (by simpa using hs) (le_refl _)
          · exact c1 p hp
        · intro x hx
          rcases List.mem_cons.1 hx with rfl | hx
          · exact b1.1
          · exact c4 x hx
  obtain ⟨k1, k2, k3, k4⟩ := key ants 0 _ _ hr h1
  exact ⟨k1, k2, rfl, k3, k4⟩

/-- **C56, what a stuck ant does to the others.** In `AntSystemAB` an ant that gets stuck ends the whole loop: neither it
nor any later ant contributes a path. -/
theorem C56_stuck_ant_drops_the_rest {g : Mat X} {n k : Nat} {d : IterDraws X} {a a' : Ant X} {ants : List (Ant X)}
    (h : oneAnt A g n d k a = .ok a') (hs : a'.stuck = true) :
    asLoop A g n d k (a :: ants) = .ok (a' :: ants, []) := by
  rw [asLoop, Exc.bind_of_ok h, if_pos hs]

/-! ## Ant Colony System -/

theorem startAll_ok {n : Nat} {d : IterDraws X} : ∀ {ants as : List (Ant X)} {k : Nat}, (∀ a ∈ ants, Ready n a) →
    startAll d k ants = .ok as → as.length = ants.length ∧
      ∀ a ∈ as, Building n a ∧ a.stuck = false ∧ a.path.length = 1
  | [], as, k, _, h => by cases h; simp
  | a :: ants, as, k, hr, h => by
    rw [startAll] at h
    obtain ⟨a', h1, h⟩ := Exc.bind_ok.1 h
    obtain ⟨as', h2, h⟩ := Exc.bind_ok.1 h
    rw [Exc.pure_ok] at h
    subst h
    obtain ⟨b1, b2, b3, -⟩ := start_ok (hr a (by simp)) h1
    obtain ⟨c1, c2⟩ := startAll_ok (fun x hx => hr x (by simp [hx])) h2
    refine ⟨by simpa using c1, fun x hx => ?_⟩
    rcases List.mem_cons.1 hx with rfl | hx
    · exact ⟨b1, b2, b3⟩
    · exact c2 x hx

/-- One synchronous step: invariants, and the paths pushed. -/
theorem acsStep_ok {n t : Nat} {g : Mat X} {d : IterDraws X} {L : Nat} : ∀ {ants as : List (Ant X)} {ps : List (List Nat)}
    {k : Nat}, (∀ a ∈ ants, Building n a ∧ (a.stuck = false → a.path.length = L)) →
    acsStep A g d t k ants = .ok (as, ps) → as.length = ants.length ∧ ps.length ≤ ants.length ∧
      (∀ a ∈ as, Building n a ∧ (a.stuck = false → a.path.length = L + 1)) ∧
      (∀ p ∈ ps, p.length = L + 1 ∧ (∀ v ∈ p, v < n) ∧
        ((p.Nodup ∧ ∃ a ∈ as, a.path = p ∧ a.stuck = false) ∨ ∃ q v, p = q ++ [v, v]))
  | [], as, ps, k, _, h => by cases h; simp
  | a :: ants, as, ps, k, hr, h => by
    obtain ⟨ha, hal⟩ := hr a (by simp)
    rw [acsStep] at h
    by_cases hs : a.stuck = true
    · rw [if_pos hs] at h
      obtain ⟨⟨as', ps'⟩, h2, h⟩ := Exc.bind_ok.1 h
      rw [Exc.pure_ok] at h
      cases h
      obtain ⟨c1, c2, c3, c4⟩ := acsStep_ok (fun x hx => hr x (by simp [hx])) h2
      refine ⟨by simpa using c1, by simp; omega, ?_, ?_⟩
      · intro x hx
        rcases List.mem_cons.1 hx with rfl | hx
        · exact ⟨ha, fun h => by rw [hs] at h; cases h⟩
        · exact c3 x hx
      · intro p hp
        obtain ⟨e1, e2, e3⟩ := c4 p hp
        refine ⟨e1, e2, ?_⟩
        rcases e3 with ⟨e4, x, hx, e5⟩ | e3
        · exact .inl ⟨e4, x, by simp [hx], e5⟩
        · exact .inr e3
    · rw [if_neg hs] at h
      obtain ⟨⟨a', e⟩, h1, h⟩ := Exc.bind_ok.1 h
      obtain ⟨⟨as', ps'⟩, h2, h⟩ := Exc.bind_ok.1 h
      rw [Exc.pure_ok] at h
      cases h
      obtain ⟨c1, c2, c3, c4⟩ := acsStep_ok (fun x hx => hr x (by simp [hx])) h2
      obtain ⟨b1, -, b3⟩ := goNext_building ha h1
      have hs' : a.stuck = false := by simpa using hs
      have hL := hal hs'
      refine ⟨by simpa using c1, by simpa using c2, ?_, ?_⟩
      · intro x hx
        rcases List.mem_cons.1 hx with rfl | hx
        · exact ⟨b1, fun h => by rw [(b3 h).2.1, hL]⟩
        · exact c3 x hx
      · intro p hp
        rcases List.mem_cons.1 hp with rfl | hp
        · obtain ⟨last, hl, hc⟩ := goNext_cases h1
          rcases hc with ⟨h3, -⟩ | ⟨-, -, next, -, -, hb, -⟩
          · rw [hs'] at h3; cases h3
          · refine ⟨by rw [hb]; simp [hL], b1.2.2.2, ?_⟩
            by_cases hst : a'.stuck = true
            · right
              have hnl : next = last := by rw [hb] at hst; simpa using hst
              obtain ⟨q, hq⟩ := List.getLast?_eq_some_iff.1 hl
              refine ⟨q, last, ?_⟩
              rw [hb]
              show a.path ++ [next] = _
              rw [hq, hnl]; simp
            · left
              have hst : a'.stuck = false := by simpa using hst
              have hp := b1.2.2.1 hst
              exact ⟨(List.nodup_append.1 (hp.nodup_iff.2 List.nodup_range)).1, a', by simp, rfl, hst⟩
        · obtain ⟨e1, e2, e3⟩ := c4 p hp
          refine ⟨e1, e2, ?_⟩
          rcases e3 with ⟨e4, x, hx, e5⟩ | e3
          · exact .inl ⟨e4, x, by simp [hx], e5⟩
          · exact .inr e3

theorem localRule_shape {l : LocalRule X} : ∀ {ps : List (List Nat)} {ph ph' : Mat X}, l.apply A ps ph = .ok ph' →
    ph'.rows = ph.rows ∧ ph'.cols = ph.cols
  | [], ph, ph', h => by cases h; exact ⟨rfl, rfl⟩
  | p :: ps, ph, ph', h => by
    rw [LocalRule.apply] at h
    obtain ⟨e, -, h⟩ := Exc.bind_ok.1 h
    obtain ⟨o, -, h⟩ := Exc.bind_ok.1 h
    obtain ⟨ph1, h1, h⟩ := Exc.bind_ok.1 h
    have := localRule_shape h
    unfold Mat.set at h1
    split at h1
    · cases h1; exact this
    · cases h1

/-- **C89, tours up to a final repetition.** For any arithmetic, goodness, draws and orders, every path
returned by `AntColonySystemAB` on `n ≥ 2` vertices has length `n`, stays in `0..n`, and either visits every vertex
exactly once or ends with the same vertex twice (its ant got stuck in the last step). -/
theorem C89_acs_paths {goodness : Mat X → Except Panic (Mat X)} {l : LocalRule X} {d : IterDraws X}
    {ants ants' : List (Ant X)} {ph ph' : Mat X} {paths : List (List Nat)} (hr : ∀ a ∈ ants, Ready ph.rows a)
    (h : antColonySystem A goodness l d ants ph = .ok (ants', paths, ph')) :
    paths.length ≤ ants.length ∧ ants'.length = ants.length ∧ (∀ a ∈ ants', Ready ph.rows a) ∧
    ph'.rows = ph.rows ∧ ph'.cols = ph.cols ∧
    ∀ p ∈ paths, p.length = ph.rows ∧ (∀ v ∈ p, v < ph.rows) ∧ (IsTour ph.rows p ∨ ∃ q v, p = q ++ [v, v]) := by
  unfold antColonySystem at h
  obtain ⟨as, h1, h⟩ := Exc.bind_ok.1 h
  obtain ⟨s1, s2⟩ := startAll_ok hr h1
  have key : ∀ (m t L : Nat) (ants : List (Ant X)) (paths0 : List (List Nat)) (ph : Mat X) (ants' : List (Ant X))
      (paths : List (List Nat)) (ph' : Mat X) (n : Nat),
      (∀ a ∈ ants, Building n a ∧ (a.stuck = false → a.path.length = L)) →
      acsLoop A goodness l d t m ants paths0 ph = .ok (ants', paths, ph') →
      ants'.length = ants.length ∧ (∀ a ∈ ants', Building n a) ∧ ph'.rows = ph.rows ∧ ph'.cols = ph.cols ∧
      ((m = 0 ∧ paths = paths0) ∨ (paths.length ≤ ants.length ∧ ∀ p ∈ paths, p.length = L + m ∧ (∀ v ∈ p, v < n) ∧
        ((p.Nodup ∧ ∃ a ∈ ants', a.path = p ∧ a.stuck = false) ∨ ∃ q v, p = q ++ [v, v]))) := by
    intro m
    induction m with
    | zero => intro t L ants paths0 ph ants' paths ph' n hb h; cases h; exact ⟨rfl, fun a ha => (hb a ha).1, rfl, rfl, .inl ⟨rfl, rfl⟩⟩
    | succ m ih =>
      intro t L ants paths0 ph ants' paths ph' n hb h
      rw [acsLoop] at h
      obtain ⟨g, -, h⟩ := Exc.bind_ok.1 h
      obtain ⟨⟨as, ps⟩, h1, h⟩ := Exc.bind_ok.1 h
      obtain ⟨ph1, h2, h⟩ := Exc.bind_ok.1 h
      obtain ⟨b1, b2, b3, b4⟩ := acsStep_ok hb h1
      obtain ⟨c1, c2, c3, c4, c5⟩ := ih (t + 1) (L + 1) as ps ph1 ants' paths ph' n b3 h
      obtain ⟨r1, r2⟩ := localRule_shape h2
      refine ⟨by rw [c1, b1], c2, by rw [c3, r1], by rw [c4, r2], .inr ?_⟩
      rcases c5 with ⟨rfl, rfl⟩ | ⟨c5, c6⟩
      · cases h
        exact ⟨b2, b4⟩
      · refine ⟨by omega, fun p hp => ?_⟩
        obtain ⟨e1, e2, e3⟩ := c6 p hp
        exact ⟨by omega, e2, e3⟩
  obtain ⟨k1, k2, k3, k4, k5⟩ := key (ph.rows - 1) 0 1 as [] ph ants' paths ph' ph.rows
    (fun a ha => ⟨(s2 a ha).1, fun _ => (s2 a ha).2.2⟩) h
  refine ⟨?_, by rw [k1, s1], fun a ha => (k2 a ha).1, k3, k4, ?_⟩
  · rcases k5 with ⟨-, rfl⟩ | ⟨k5, -⟩
    · simp
    · omega
  · rcases k5 with ⟨-, rfl⟩ | ⟨-, k5⟩
    · simp
    · intro p hp
      obtain ⟨e1, e2, e3⟩ := k5 p hp
      have hn : ph.rows ≠ 0 := by
        intro h0
        have : p ≠ [] := by intro hp0; rw [hp0] at e1; simp at e1; omega
        obtain ⟨v, hv⟩ := List.exists_mem_of_ne_nil p this
        have := e2 v hv; omega
      have hlen : p.length = ph.rows := by omega
      refine ⟨hlen, e2, ?_⟩
      rcases e3 with ⟨-, a, ha, rfl, hs⟩ | e3
      · exact .inl (building_full (k2 a ha) hs (by omega))
      · exact .inr e3

end general

/-! ## Exact arithmetic: ants do not get stuck -/

section exact
variable {F : Type} [Field F] [LinearOrder F] [IsStrictOrderedRing F]
variable (sqrt : Ext F → Ext F) (pow : Ext F → Ext F → Ext F) (maxv : F) (floor : F → Nat)

theorem ex_lt {a b : F} : (exactOps sqrt pow maxv floor).lt (.fin a) (.fin b) = true ↔ a < b :=
  Ff.fin_lt_fin (fun _ => .nan) sqrt maxv

theorem ex_lt_pinf {a : F} : (exactOps sqrt pow maxv floor).lt (.fin a) .pinf = true :=
  Ff.fin_lt_pinf (fun _ => .nan) sqrt maxv

theorem ex_notLe {a b : F} : (exactOps sqrt pow maxv floor).notLe (.fin a) (.fin b) = true ↔ b < a := by
  rw [Ff.notLe_iff]
  constructor
  · rintro (h | h | h)
    · cases h
    · cases h
    · exact (ex_lt sqrt pow maxv floor).1 (Fl.lt_iff.2 h)
  · intro h
    exact .inr (.inr (Fl.lt_iff.1 ((ex_lt sqrt pow maxv floor).2 h)))

/-- Specification: an `n × n` matrix with finite positive entries off the diagonal. -/
def PosMat (n : Nat) (m : Mat (Ext F)) : Prop :=
  m.rows = n ∧ m.cols = n ∧ ∀ i j, i < n → j < n → i ≠ j → ∃ x, m.get i j = .fin x ∧ 0 < x

/-- Specification: `gen_range(0.0..=s)` returns a number of the interval. -/
def RangeOk (d : StepDraw (Ext F)) : Prop := ∀ s, 0 ≤ s → ∃ r, d.range (.fin s) = .fin r ∧ 0 ≤ r ∧ r ≤ s

theorem posMat_at {n : Nat} {m : Mat (Ext F)} (h : PosMat n m) {i j : Nat} (hi : i < n) (hj : j < n) (hij : i ≠ j) :
    ∃ x, m.at' i j = .ok (.fin x) ∧ 0 < x := by
  obtain ⟨x, hx, hp⟩ := h.2.2 i j hi hj hij
  exact ⟨x, by unfold Mat.at'; rw [if_pos ⟨by rw [h.1]; exact hi, by rw [h.2.1]; exact hj⟩, hx], hp⟩

/-- The roulette over exact positive goodness: the sum is finite, and every draw up to the sum hits a vertex. -/
theorem roulette_exact {n : Nat} {g : Mat (Ext F)} (hg : PosMat n g) {last : Nat} (hl : last < n) :
    ∀ (vs : List Nat), (∀ v ∈ vs, v < n ∧ last ≠ v) → ∃ s, 0 ≤ s ∧
      (∀ acc, rowSum (exactOps sqrt pow maxv floor) g last vs (.fin acc) = .ok (.fin (acc + s))) ∧
      (vs ≠ [] → 0 < s ∧ ∀ r, r ≤ s → ∃ v, roulette (exactOps sqrt pow maxv floor) g last vs (.fin r) = .ok (some v)) := by
  intro vs
  induction vs with
  | nil => intro _; exact ⟨0, le_refl _, fun acc => by rw [rowSum, add_zero], fun h => absurd rfl h⟩
  | cons v vs ih =>
    intro hv
    obtain ⟨s, hs, h1, h2⟩ := ih fun u hu => hv u (by simp [hu])
    obtain ⟨hvn, hvl⟩ := hv v (by simp)
    obtain ⟨x, hx, hp⟩ := posMat_at hg hl hvn hvl
    refine ⟨x + s, by linarith, fun acc => ?_, fun _ => ⟨by linarith, fun r hr => ?_⟩⟩
    · rw [rowSum, Exc.bind_of_ok hx]
      have : (exactOps sqrt pow maxv floor).add (.fin acc) (.fin x) = .fin (acc + x) := rfl
      rw [this, h1, add_assoc]
    · rw [roulette, Exc.bind_of_ok hx]
      have hsub : (exactOps sqrt pow maxv floor).sub (.fin r) (.fin x) = .fin (r - x) := by
        show Ext.fin (r + -x) = _
        rw [sub_eq_add_neg]
      rw [hsub]
      by_cases hle : r - x ≤ 0
      · have : (exactOps sqrt pow maxv floor).notLe (.fin (r - x)) (exactOps sqrt pow maxv floor).zero = false := by
          cases hc : (exactOps sqrt pow maxv floor).notLe (.fin (r - x)) (exactOps sqrt pow maxv floor).zero with
          | false => rfl
          | true => exact absurd ((ex_notLe sqrt pow maxv floor).1 hc) (not_lt.2 hle)
        rw [this]
        exact ⟨v, rfl⟩
      · have hgt : (exactOps sqrt pow maxv floor).notLe (.fin (r - x)) (exactOps sqrt pow maxv floor).zero = true :=
          (ex_notLe sqrt pow maxv floor).2 (not_le.1 hle)
        rw [hgt]
        have hne : vs ≠ [] := by
          rintro rfl
          have h0 := h1 0
          rw [rowSum] at h0
          have : (0 : F) = 0 + s := Ext.fin.inj (Except.ok.inj h0)
          exact hle (by linarith)
        obtain ⟨u, hu⟩ := (h2 hne).2 (r - x) (by linarith)
        exact ⟨u, by simpa using hu⟩

theorem bestVertex_exact {n : Nat} {g : Mat (Ext F)} (hg : PosMat n g) {last : Nat} (hl : last < n) :
    ∀ (vs : List Nat) (next : Option Nat) (value : F), (∀ v ∈ vs, v < n ∧ last ≠ v) →
      (next.isSome ∨ (vs ≠ [] ∧ value ≤ 0)) →
      ∃ v, bestVertex (exactOps sqrt pow maxv floor) g last vs next (.fin value) = .ok (some v) := by
  intro vs
  induction vs with
  | nil =>
    intro next value _ h
    rcases h with h | ⟨h, -⟩
    · obtain ⟨v, rfl⟩ := Option.isSome_iff_exists.1 h; exact ⟨v, rfl⟩
    · exact absurd rfl h
  | cons v vs ih =>
    intro next value hv h
    obtain ⟨hvn, hvl⟩ := hv v (by simp)
    obtain ⟨x, hx, hp⟩ := posMat_at hg hl hvn hvl
    rw [bestVertex, Exc.bind_of_ok hx]
    by_cases hlt : value < x
    · rw [if_pos ((ex_lt sqrt pow maxv floor).2 hlt)]
      exact ih (some v) x (fun u hu => hv u (by simp [hu])) (.inl rfl)
    · rw [if_neg (fun h => hlt ((ex_lt sqrt pow maxv floor).1 h))]
      refine ih next value (fun u hu => hv u (by simp [hu])) ?_
      rcases h with h | ⟨-, h⟩
      · exact .inl h
      · exact absurd (lt_of_le_of_lt h hp) hlt

theorem choose_exact (hmax : 0 ≤ maxv) {n : Nat} {g : Mat (Ext F)} (hg : PosMat n g) {last : Nat} (hl : last < n)
    {vs : List Nat} (hv : ∀ v ∈ vs, v < n ∧ last ≠ v) (hne : vs ≠ []) (ex : Option (Ext F)) {d : StepDraw (Ext F)}
    (hd : RangeOk d) : ∃ v, choose (exactOps sqrt pow maxv floor) g last vs ex d = .ok (some v) := by
  have hroul : ∃ v, byRoulette (exactOps sqrt pow maxv floor) g last vs d = .ok (some v) := by
    obtain ⟨s, hs, h1, h2⟩ := roulette_exact sqrt pow maxv floor hg hl vs hv
    obtain ⟨hpos, h3⟩ := h2 hne
    obtain ⟨r, hr, -, hrs⟩ := hd s hs
    obtain ⟨v, hv⟩ := h3 r hrs
    refine ⟨v, ?_⟩
    unfold byRoulette
    have e1 := h1 0
    rw [zero_add] at e1
    have e1 : rowSum (exactOps sqrt pow maxv floor) g last vs (exactOps sqrt pow maxv floor).zero = .ok (.fin s) := e1
    rw [Exc.bind_of_ok e1]
    have e2 : genRange (exactOps sqrt pow maxv floor) d (.fin s) = .ok (.fin r) := by
      unfold genRange
      have a1 : (exactOps sqrt pow maxv floor).notLe (exactOps sqrt pow maxv floor).zero (.fin s) = false := by
        cases hc : (exactOps sqrt pow maxv floor).notLe (exactOps sqrt pow maxv floor).zero (.fin s) with
        | false => rfl
        | true => exact absurd ((ex_notLe sqrt pow maxv floor).1 hc) (not_lt.2 hs)
      have a2 : (exactOps sqrt pow maxv floor).lt (.fin s) (exactOps sqrt pow maxv floor).infinity = true :=
        ex_lt_pinf sqrt pow maxv floor
      rw [a1, a2]
      show Except.ok (d.range (.fin s)) = _
      rw [hr]
    rw [Exc.bind_of_ok e2]
    exact hv
  unfold choose
  cases ex with
  | none => exact hroul
  | some rate =>
    simp only
    split
    · exact bestVertex_exact sqrt pow maxv floor hg hl vs none (-maxv) hv (.inr ⟨hne, by linarith⟩)
    · exact hroul

/-- With exact positive goodness a step with unvisited vertices left neither panics nor gets stuck. -/
theorem goNext_exact (hmax : 0 ≤ maxv) {n : Nat} {g : Mat (Ext F)} (hg : PosMat n g) {a : Ant (Ext F)}
    (ha : Building n a) (hs : a.stuck = false) (hu : a.unvisited ≠ []) {d : StepDraw (Ext F)} (hd : RangeOk d) :
    ∃ b e, a.goNext (exactOps sqrt pow maxv floor) g d = .ok (b, e) ∧ b.stuck = false := by
  obtain ⟨last, hl⟩ : ∃ last, a.path.getLast? = some last := by
    cases h : a.path.getLast? with
    | none => exact absurd (List.getLast?_eq_none_iff.1 h) ha.2.1
    | some l => exact ⟨l, rfl⟩
  have hlm : last ∈ a.path := List.mem_of_getLast? hl
  have hnd := (ha.2.2.1 hs).nodup_iff.2 List.nodup_range
  have hdisj : ∀ v ∈ d.ord a.unvisited, v < n ∧ last ≠ v := by
    intro v hv
    have hv := (d.perm _).mem_iff.1 hv
    exact ⟨ha.1.2.2 v hv, (List.nodup_append.1 hnd).2.2 last hlm v hv⟩
  have hne : d.ord a.unvisited ≠ [] := by
    intro h
    have := (d.perm a.unvisited).length_eq
    rw [h] at this
    exact hu (List.length_eq_zero_iff.1 this.symm)
  obtain ⟨v, hv⟩ := choose_exact sqrt pow maxv floor hmax hg (ha.2.2.2 last hlm) hdisj hne a.exploit hd
  refine ⟨{ a with stuck := v == last, unvisited := a.unvisited.filter (· ≠ v), path := a.path ++ [v] }, (last, v), ?_, ?_⟩
  · unfold Ant.goNext
    rw [hl]
    simp only
    rw [if_neg (by rw [hs]; simp), if_neg hu, Exc.bind_of_ok hv]
    rfl
  · have := (hdisj v (choose_mem hv)).2
    simp only [beq_eq_false_iff_ne]
    exact fun h => this h.symm

theorem walk_exact (hmax : 0 ≤ maxv) {n : Nat} {g : Mat (Ext F)} (hg : PosMat n g) {d : Nat → StepDraw (Ext F)}
    (hd : ∀ t, RangeOk (d t)) : ∀ (m k : Nat) (a : Ant (Ext F)), Building n a → a.stuck = false →
      a.path.length + m ≤ n → ∃ b, Ant.walk (exactOps sqrt pow maxv floor) g d k m a = .ok b ∧ b.stuck = false := by
  intro m
  induction m with
  | zero => intro k a _ hs _; exact ⟨a, rfl, hs⟩
  | succ m ih =>
    intro k a ha hs hlen
    have hu : a.unvisited ≠ [] := by
      intro h
      have := (ha.2.2.1 hs).length_eq
      rw [h, List.append_nil, List.length_range] at this
      omega
    obtain ⟨b, e, h1, h2⟩ := goNext_exact sqrt pow maxv floor hmax hg ha hs hu (hd k)
    obtain ⟨c1, -, c3⟩ := goNext_building ha h1
    obtain ⟨-, c4, -⟩ := c3 h2
    obtain ⟨c, hc, hcs⟩ := ih (k + 1) b c1 h2 (by omega)
    refine ⟨c, ?_, hcs⟩
    rw [Ant.walk, Exc.bind_of_ok h1]
    exact hc

theorem start_exact {n s : Nat} (hn : 0 < n) {a : Ant (Ext F)} (ha : Ready n a) :
    ∃ b, a.clear.start s = .ok b := by
  unfold Ant.start
  rw [if_neg (by have := (clear_unvisited ha).2.1; omega)]
  exact ⟨_, rfl⟩

/-- **C56, Ant System.** With exact arithmetic, positive goodness off the diagonal and draws in their ranges, a colony of
ants on `n ≥ 1` vertices neither panics nor gets stuck: `AntSystemAB` returns one complete tour per ant. -/
theorem C56_ant_system_complete (hmax : 0 ≤ maxv) {goodness : Mat (Ext F) → Except Panic (Mat (Ext F))}
    {g : Mat (Ext F)} {d : IterDraws (Ext F)} {ants : List (Ant (Ext F))} {ph : Mat (Ext F)} (hn : 0 < ph.rows)
    (hr : ∀ a ∈ ants, Ready ph.rows a) (hgo : goodness ph = .ok g) (hg : PosMat ph.rows g)
    (hd : ∀ k t, RangeOk (d.step k t)) :
    ∃ ants' paths, antSystem (exactOps sqrt pow maxv floor) goodness d ants ph = .ok (ants', paths, ph) ∧
      paths.length = ants.length ∧ ∀ p ∈ paths, IsTour ph.rows p := by
  have key : ∀ (ants : List (Ant (Ext F))) (k : Nat), (∀ a ∈ ants, Ready ph.rows a) →
      ∃ as ps, asLoop (exactOps sqrt pow maxv floor) g ph.rows d k ants = .ok (as, ps) ∧ ps.length = ants.length := by
    intro ants
    induction ants with
    | nil => intro k _; exact ⟨_, _, rfl, rfl⟩
    | cons a ants ih =>
      intro k hr
      obtain ⟨b, hb⟩ := start_exact (s := d.start k) hn (hr a (by simp))
      obtain ⟨b1, b2, b3, -⟩ := start_ok (hr a (by simp)) hb
      obtain ⟨c, hc, hcs⟩ := walk_exact sqrt pow maxv floor hmax hg (hd k) (ph.rows - 1) 0 b b1 b2 (by omega)
      have h1 : oneAnt (exactOps sqrt pow maxv floor) g ph.rows d k a = .ok c := by
        unfold oneAnt; rw [Exc.bind_of_ok hb]; exact hc
      obtain ⟨as, ps, h2, h3⟩ := ih (k + 1) fun x hx => hr x (by simp [hx])
      refine ⟨c :: as, c.path :: ps, ?_, by simp [h3]⟩
      rw [asLoop, Exc.bind_of_ok h1, if_neg (by rw [hcs]; simp), Exc.bind_of_ok h2]
      rfl
  obtain ⟨as, ps, h1, h2⟩ := key ants 0 hr
  have hrun : antSystem (exactOps sqrt pow maxv floor) goodness d ants ph = .ok (as, ps, ph) := by
    unfold antSystem
    rw [Exc.bind_of_ok hgo, Exc.bind_of_ok h1]
    rfl
  exact ⟨as, ps, hrun, h2, (C55_ant_system_tours hr hrun).1⟩

end exact
end Ecrs.Aco
