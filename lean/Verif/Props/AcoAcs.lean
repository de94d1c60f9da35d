import Verif.Props.AcoAnts

set_option linter.unusedSectionVars false

/-!
# Goodness and the Ant Colony System: C88, C89 with exact arithmetic, and examples for C55, C56, C88, C89
-/

namespace Ecrs.Aco
open Ecrs

/-! ## The goodness matrix -/

section general
variable {X K : Type} [LinearOrder K] {A : AcoOps X K}

theorem flat_length (f : Nat → Nat → X) (r c : Nat) :
    ((List.range c).flatMap fun j => (List.range r).map fun i => f i j).length = c * r := by
  induction c with
  | zero => simp
  | succ c ih =>
    rw [List.range_succ, List.flatMap_append, List.length_append, ih]
    simp [Nat.succ_mul]

theorem flat_get (f : Nat → Nat → X) (r : Nat) : ∀ (c i j : Nat), i < r → j < c →
    ((List.range c).flatMap fun j => (List.range r).map fun i => f i j)[j * r + i]? = some (f i j) := by
  intro c
  induction c with
  | zero => intro i j _ h; omega
  | succ c ih =>
    intro i j hi hj
    rw [List.range_succ, List.flatMap_append]
    rcases Nat.lt_succ_iff_lt_or_eq.1 hj with h | rfl
    · rw [List.getElem?_append_left (by rw [flat_length]; nlinarith)]
      exact ih i j hi h
    · rw [List.getElem?_append_right (by rw [flat_length]; omega), flat_length]
      simp [hi]

theorem elems_length (m : Mat X) : m.elems.length = m.cols * m.rows := flat_length _ _ _

theorem elems_get (m : Mat X) {i j : Nat} (hi : i < m.rows) (hj : j < m.cols) :
    m.elems[j * m.rows + i]? = some (m.get i j) := flat_get _ _ _ i j hi hj

/-- **C88.** For `n × n` pheromone and heuristic matrices `CanonicalGoodness` returns the `n × n` matrix whose entry at
every position `(i, j)` is `pheromone(i, j)^alpha * heuristic(i, j)^beta` (any arithmetic). -/
theorem C88_goodness_entries [Inhabited X] {alpha beta : X} {h ph : Mat X} {n : Nat} (h1 : ph.rows = n) (h2 : ph.cols = n)
    (h3 : h.rows = n) (h4 : h.cols = n) :
    ∃ g, canonicalGoodness A alpha beta h ph = .ok g ∧ g.rows = n ∧ g.cols = n ∧
      ∀ i j, i < n → j < n → g.get i j = A.mul (A.pow (ph.get i j) alpha) (A.pow (h.get i j) beta) := by
  unfold canonicalGoodness Mat.ofElems
  rw [if_pos (by simp only [List.length_zipWith, elems_length]; rw [h1, h2, h3, h4]; simp)]
  refine ⟨_, rfl, h1, h1, fun i j hi hj => ?_⟩
  show (List.zipWith _ ph.elems h.elems).getD _ _ = _
  have e1 := elems_get ph (i := i) (j := j) (by omega) (by omega)
  have e2 := elems_get h (i := i) (j := j) (by omega) (by omega)
  rw [h1] at e1 ⊢; rw [h3] at e2
  rw [List.getD_eq_getElem?_getD, List.getElem?_zipWith, e1, e2]
  rfl

/-- **C88, size mismatch.** A heuristic with fewer than `n²` entries makes `CanonicalGoodness` panic on every `n`-row,
`n`-column pheromone. -/
theorem C88_small_heuristic_panics [Inhabited X] {alpha beta : X} {h ph : Mat X} (h1 : ph.rows = ph.cols)
    (h2 : h.cols * h.rows < ph.rows * ph.rows) : ∃ e, canonicalGoodness A alpha beta h ph = .error e := by
  unfold canonicalGoodness Mat.ofElems
  rw [if_neg (by simp only [List.length_zipWith, elems_length]; rw [← h1]; omega)]
  exact ⟨_, rfl⟩

end general

section exact
variable {F : Type} [Field F] [LinearOrder F] [IsStrictOrderedRing F]
variable (sqrt : Ext F → Ext F) (pow : Ext F → Ext F → Ext F) (maxv : F) (floor : F → Nat)

instance : Inhabited (Ext F) := ⟨.fin 0⟩

/-- Specification: the power of a positive number is positive (and finite) for the exponent `e`. -/
def PowPos (pow : Ext F → Ext F → Ext F) (e : Ext F) : Prop :=
  ∀ x : F, 0 < x → ∃ y, pow (.fin x) e = .fin y ∧ 0 < y

/-- **C88, positivity.** With exact arithmetic, positive pheromone and a positive heuristic off the diagonal give positive
goodness off the diagonal. -/
theorem C88_goodness_positive {alpha beta : Ext F} (ha : PowPos pow alpha) (hb : PowPos pow beta) {n : Nat}
    {h ph : Mat (Ext F)} (hh : PosMat n h) (hp : PosMat n ph) :
    ∃ g, canonicalGoodness (exactOps sqrt pow maxv floor) alpha beta h ph = .ok g ∧ PosMat n g := by
  obtain ⟨g, h1, h2, h3, h4⟩ := C88_goodness_entries (A := exactOps sqrt pow maxv floor) (alpha := alpha) (beta := beta)
    hp.1 hp.2.1 hh.1 hh.2.1
  refine ⟨g, h1, h2, h3, fun i j hi hj hij => ?_⟩
  obtain ⟨x, hx, hx0⟩ := hp.2.2 i j hi hj hij
  obtain ⟨y, hy, hy0⟩ := hh.2.2 i j hi hj hij
  obtain ⟨u, hu, hu0⟩ := ha x hx0
  obtain ⟨v, hv, hv0⟩ := hb y hy0
  refine ⟨u * v, ?_, mul_pos hu0 hv0⟩
  rw [h4 i j hi hj, hx, hy]
  show Ext.mul (pow _ _) (pow _ _) = _
  rw [hu, hv]; rfl

/-! ## Local updates keep the pheromone positive -/

/-- Specification: the constants of a local rule that keep positive pheromone positive. -/
def LocalRule.Positive : LocalRule (Ext F) → Prop
  | .decay r => ∃ x, r = .fin x ∧ 0 < x
  | .decayTo r s => ∃ x y, r = .fin x ∧ s = .fin y ∧ 0 ≤ x ∧ x ≤ 1 ∧ 0 ≤ y ∧ (0 < x ∨ 0 < y)

theorem LocalRule.value_pos {l : LocalRule (Ext F)} (hl : l.Positive) {x : F} (hx : 0 < x) :
    ∃ y, l.value (exactOps sqrt pow maxv floor) (.fin x) = .fin y ∧ 0 < y := by
  cases l with
  | decay r =>
    obtain ⟨q, rfl, hq⟩ := hl
    exact ⟨x * q, rfl, mul_pos hx hq⟩
  | decayTo r s =>
    obtain ⟨q, y, rfl, rfl, h0, h1, hy, hqy⟩ := hl
    refine ⟨x * q + y * (1 + -q), rfl, ?_⟩
    rcases hqy with h | h
    · have := mul_pos hx h
      have := mul_nonneg hy (by linarith : (0 : F) ≤ 1 + -q)
      linarith
    · rcases eq_or_lt_of_le h0 with h2 | h2
      · rw [← h2]; simp; exact h
      · have := mul_pos hx h2
        have := mul_nonneg hy (by linarith : (0 : F) ≤ 1 + -q)
        linarith

theorem posMat_set {n : Nat} {m : Mat (Ext F)} (h : PosMat n m) {i j : Nat} (hi : i < n) (hj : j < n) {x : F} (hx : 0 < x) :
    ∃ m', m.set i j (.fin x) = .ok m' ∧ PosMat n m' ∧ (i ≠ j → ∀ k, m'.get k k = m.get k k) := by
  unfold Mat.set
  rw [if_pos ⟨by rw [h.1]; exact hi, by rw [h.2.1]; exact hj⟩]
  refine ⟨_, rfl, ⟨h.1, h.2.1, fun a b ha hb hab => ?_⟩, fun hij k => ?_⟩
  · show ∃ y, (if a = i ∧ b = j then Ext.fin x else m.get a b) = .fin y ∧ 0 < y
    split
    · exact ⟨x, rfl, hx⟩
    · exact h.2.2 a b ha hb hab
  · show (if k = i ∧ k = j then Ext.fin x else m.get k k) = _
    rw [if_neg (by omega)]

/-- Specification: a partial path whose last edge joins two different vertices of `0..n`. -/
def EndsWell (n : Nat) (p : List Nat) : Prop := ∃ q s r, p = q ++ [s, r] ∧ s ≠ r ∧ s < n ∧ r < n

theorem localRule_pos {n : Nat} {l : LocalRule (Ext F)} (hl : l.Positive) : ∀ (ps : List (List Nat)) (ph : Mat (Ext F)),
    PosMat n ph → (∀ p ∈ ps, EndsWell n p) → ∃ ph', l.apply (exactOps sqrt pow maxv floor) ps ph = .ok ph' ∧ PosMat n ph' ∧
      ∀ k, ph'.get k k = ph.get k k := by
  intro ps
  induction ps with
  | nil => intro ph hp _; exact ⟨ph, rfl, hp, fun _ => rfl⟩
  | cons p ps ih =>
    intro ph hp he
    obtain ⟨q, s, r, rfl, hsr, hs, hr⟩ := he p (by simp)
    obtain ⟨x, hx, hx0⟩ := posMat_at hp hs hr hsr
    obtain ⟨y, hy, hy0⟩ := l.value_pos sqrt pow maxv floor hl hx0
    obtain ⟨ph1, h1, h2, h2d⟩ := posMat_set hp hs hr hy0
    obtain ⟨ph2, h3, h4, h4d⟩ := ih ph1 h2 fun p hp => he p (by simp [hp])
    refine ⟨ph2, ?_, h4, fun k => (h4d k).trans (h2d hsr k)⟩
    have e : lastEdge (q ++ [s, r]) = .ok (s, r) := by simp [lastEdge]
    rw [LocalRule.apply, Exc.bind_of_ok e, Exc.bind_of_ok hx]
    simp only
    rw [hy, Exc.bind_of_ok h1]
    exact h3

theorem startAll_exact {n : Nat} (hn : 0 < n) {d : IterDraws (Ext F)} : ∀ (ants : List (Ant (Ext F))) (k : Nat),
    (∀ a ∈ ants, Ready n a) → ∃ as, startAll d k ants = .ok as := by
  intro ants
  induction ants with
  | nil => intro k _; exact ⟨_, rfl⟩
  | cons a ants ih =>
    intro k hr
    obtain ⟨b, hb⟩ := start_exact (s := d.start k) hn (hr a (by simp))
    obtain ⟨as, has⟩ := ih (k + 1) fun x hx => hr x (by simp [hx])
    refine ⟨b :: as, ?_⟩
    rw [startAll, Exc.bind_of_ok hb, Exc.bind_of_ok has]
    rfl

theorem acsStep_exact (hmax : 0 ≤ maxv) {n t L : Nat} {g : Mat (Ext F)} (hg : PosMat n g) {d : IterDraws (Ext F)}
    (hd : ∀ k t, RangeOk (d.step k t)) (hL : L < n) : ∀ (ants : List (Ant (Ext F))) (k : Nat),
    (∀ a ∈ ants, Building n a ∧ a.stuck = false ∧ a.path.length = L) →
    ∃ as, acsStep (exactOps sqrt pow maxv floor) g d t k ants = .ok (as, as.map (·.path)) ∧ as.length = ants.length ∧
      ∀ a ∈ as, Building n a ∧ a.stuck = false ∧ a.path.length = L + 1 ∧ EndsWell n a.path := by
  intro ants
  induction ants with
  | nil => intro k _; exact ⟨[], rfl, rfl, by simp⟩
  | cons a ants ih =>
    intro k h
    obtain ⟨h1, h2, h3⟩ := h a (by simp)
    have hu : a.unvisited ≠ [] := by
      intro hu
      have := (h1.2.2.1 h2).length_eq
      rw [hu, List.append_nil, List.length_range] at this
      omega
    obtain ⟨b, e, hb, hbs⟩ := goNext_exact sqrt pow maxv floor hmax hg h1 h2 hu (hd k t)
    obtain ⟨c1, -, c3⟩ := goNext_building h1 hb
    obtain ⟨-, c4, last, next, c5, c6, c7, c8⟩ := c3 hbs
    obtain ⟨as, has, hal, hall⟩ := ih (k + 1) fun x hx => h x (by simp [hx])
    refine ⟨b :: as, ?_, by simp [hal], fun x hx => ?_⟩
    · rw [acsStep, if_neg (by rw [h2]; simp), Exc.bind_of_ok hb, Exc.bind_of_ok has]
      rfl
    · rcases List.mem_cons.1 hx with rfl | hx
      · refine ⟨c1, hbs, by omega, ?_⟩
        obtain ⟨q, hq⟩ := List.getLast?_eq_some_iff.1 c5
        refine ⟨q, last, next, by rw [c7, hq]; simp, c6, ?_, c8⟩
        exact h1.2.2.2 last (List.mem_of_getLast? c5)
      · exact hall x hx

/-- **C89, exact arithmetic.** On `n ≥ 2` vertices, if the goodness of a positive pheromone is positive and the local rule
keeps pheromone positive, `AntColonySystemAB` neither panics nor leaves an ant stuck, for all draws in their ranges: it
returns one complete tour per ant, leaves positive pheromone, and the diagonal untouched. -/
theorem C89_acs_complete (hmax : 0 ≤ maxv) {goodness : Mat (Ext F) → Except Panic (Mat (Ext F))} {n : Nat}
    {l : LocalRule (Ext F)} {d : IterDraws (Ext F)} {ants : List (Ant (Ext F))} {ph : Mat (Ext F)} (hn : 2 ≤ n)
    (hph : PosMat n ph) (hr : ∀ a ∈ ants, Ready n a) (hgo : ∀ m, PosMat n m → ∃ g, goodness m = .ok g ∧ PosMat n g)
    (hl : l.Positive) (hd : ∀ k t, RangeOk (d.step k t)) :
    ∃ ants' paths ph', antColonySystem (exactOps sqrt pow maxv floor) goodness l d ants ph = .ok (ants', paths, ph') ∧
      paths.length = ants.length ∧ (∀ p ∈ paths, IsTour n p) ∧ PosMat n ph' ∧ ∀ k, ph'.get k k = ph.get k k := by
  have key : ∀ (m t L : Nat) (ants : List (Ant (Ext F))) (paths0 : List (List Nat)) (ph : Mat (Ext F)),
      PosMat n ph → L + m ≤ n → (∀ a ∈ ants, Building n a ∧ a.stuck = false ∧ a.path.length = L) →
      (0 < m ∨ (paths0 = ants.map (·.path))) →
      ∃ as ph', acsLoop (exactOps sqrt pow maxv floor) goodness l d t m ants paths0 ph = .ok (as, as.map (·.path), ph') ∧
        as.length = ants.length ∧ (∀ a ∈ as, Building n a ∧ a.stuck = false ∧ a.path.length = L + m) ∧ PosMat n ph' ∧
        ∀ k, ph'.get k k = ph.get k k := by
    intro m
    induction m with
    | zero =>
      intro t L ants paths0 ph hp _ h hm
      rcases hm with hm | hm
      · omega
      · exact ⟨ants, ph, by rw [acsLoop, hm], rfl, h, hp, fun _ => rfl⟩
    | succ m ih =>
      intro t L ants paths0 ph hp hL h _
      obtain ⟨g, hg, hgp⟩ := hgo ph hp
      obtain ⟨as, h1, h2, h3⟩ := acsStep_exact sqrt pow maxv floor hmax (t := t) hgp hd (by omega) ants 0 h
      obtain ⟨ph1, h4, h5, h6⟩ := localRule_pos sqrt pow maxv floor hl (as.map (·.path)) ph hp (by
        intro p hp
        obtain ⟨a, ha, rfl⟩ := List.mem_map.1 hp
        exact (h3 a ha).2.2.2)
      obtain ⟨as2, ph2, e1, e2, e3, e4, e5⟩ := ih (t + 1) (L + 1) as (as.map (·.path)) ph1 h5 (by omega)
        (fun a ha => ⟨(h3 a ha).1, (h3 a ha).2.1, (h3 a ha).2.2.1⟩) (.inr rfl)
      refine ⟨as2, ph2, ?_, by rw [e2, h2], fun a ha => ?_, e4, fun k => (e5 k).trans (h6 k)⟩
      · rw [acsLoop, Exc.bind_of_ok hg, Exc.bind_of_ok h1, Exc.bind_of_ok h4]
        exact e1
      · obtain ⟨q1, q2, q3⟩ := e3 a ha
        exact ⟨q1, q2, by omega⟩
  obtain ⟨as, has⟩ := startAll_exact (by omega : 0 < n) ants 0 hr (d := d)
  obtain ⟨s1, s2⟩ := startAll_ok hr has
  obtain ⟨as2, ph2, e1, e2, e3, e4⟩ := key (ph.rows - 1) 0 1 as [] ph hph (by have := hph.1; omega) s2
    (.inl (by have := hph.1; omega))
  refine ⟨as2, as2.map (·.path), ph2, ?_, by rw [List.length_map, e2, s1], ?_, e4⟩
  · unfold antColonySystem
    rw [Exc.bind_of_ok has]
    exact e1
  · intro p hp
    obtain ⟨a, ha, rfl⟩ := List.mem_map.1 hp
    obtain ⟨q1, q2, q3⟩ := e3 a ha
    exact building_full q1 q2 (by have := hph.1; omega)

/-- **C89, one vertex.** On a single vertex `AntColonySystemAB` returns no path at all, whatever the ants (so the best
solution of the iteration does not exist). -/
theorem C89_acs_one_vertex {X K : Type} [LinearOrder K] {A : AcoOps X K} {goodness : Mat X → Except Panic (Mat X)}
    {l : LocalRule X} {d : IterDraws X} {ants ants' : List (Ant X)} {ph ph' : Mat X} {paths : List (List Nat)}
    (h1 : ph.rows = 1) (h : antColonySystem A goodness l d ants ph = .ok (ants', paths, ph')) : paths = [] := by
  unfold antColonySystem at h
  obtain ⟨as, -, h⟩ := Exc.bind_ok.1 h
  rw [h1, acsLoop] at h
  cases h; rfl

end exact

/-! ## Examples and counterexamples -/

/-- Exact rationals; the power function returns its first argument (the exponent 1). -/
abbrev Q : AcoOps (Ext ℚ) (WithBot (WithTop ℚ)) := exactOps (fun x => x) (fun x _ => x) 1000 (fun _ => 0)

/-- Draws: the hash set order reversed, `gen_range` returns its upper end, the unit draw is `u`. -/
def exDraw (u : ℚ) : StepDraw (Ext ℚ) := ⟨List.reverse, fun l => List.reverse_perm l, .fin u, fun s => s⟩

theorem exDraw_ok (u : ℚ) : RangeOk (exDraw u) := fun s hs => ⟨s, rfl, hs, le_refl _⟩

def constMat (n : Nat) (x : ℚ) : Mat (Ext ℚ) := ⟨n, n, fun _ _ => .fin x⟩

theorem constMat_pos (n : Nat) {x : ℚ} (hx : 0 < x) : PosMat n (constMat n x) := ⟨rfl, rfl, fun _ _ _ _ _ => ⟨x, rfl, hx⟩⟩

def exIter (u : ℚ) : IterDraws (Ext ℚ) := ⟨fun k => k, fun _ _ => exDraw u⟩

theorem exGood (m : Mat (Ext ℚ)) {n : Nat} (hm : PosMat n m) :
    ∃ g, canonicalGoodness Q (.fin 1) (.fin 1) (constMat n 1) m = .ok g ∧ PosMat n g :=
  C88_goodness_positive (fun x => x) (fun x _ => x) 1000 (fun _ => 0) (fun x hx => ⟨x, rfl, hx⟩) (fun x hx => ⟨x, rfl, hx⟩)
    (constMat_pos n one_pos) hm

/-- Three ants on four vertices complete their tours in both systems. -/
example : ∃ ants' paths, antSystem Q (canonicalGoodness Q (.fin 1) (.fin 1) (constMat 4 1)) (exIter 0)
    [Ant.canonical 4, Ant.canonical 4, Ant.canonical 4] (constMat 4 2) = .ok (ants', paths, constMat 4 2) ∧
    paths.length = 3 ∧ ∀ p ∈ paths, IsTour 4 p := by
  obtain ⟨g, h1, h2⟩ := exGood (constMat 4 2) (constMat_pos 4 (by norm_num))
  exact C56_ant_system_complete (fun x => x) (fun x _ => x) 1000 (fun _ => 0) (by norm_num) (by decide)
    (by intro a ha; simp at ha; rw [ha]; exact ready_canonical 4) h1 h2 (fun _ _ => exDraw_ok 0)

example : ∃ ants' paths ph', antColonySystem Q (canonicalGoodness Q (.fin 1) (.fin 1) (constMat 4 1))
    (.decayTo (.fin (1/2)) (.fin 1)) (exIter 0) [Ant.canonical 4, ⟨[], [], 4, false, some (.fin (1/2))⟩] (constMat 4 2)
      = .ok (ants', paths, ph') ∧ paths.length = 2 ∧ (∀ p ∈ paths, IsTour 4 p) ∧ PosMat 4 ph' ∧
      ∀ k, ph'.get k k = (constMat 4 2).get k k :=
  C89_acs_complete (fun x => x) (fun x _ => x) 1000 (fun _ => 0) (by norm_num) (by decide) (constMat_pos 4 (by norm_num))
    (by intro a ha; simp at ha; rcases ha with rfl | rfl
        · exact ready_canonical 4
        · exact ⟨rfl, by simp, by simp⟩)
    (fun m hm => exGood m hm) ⟨1/2, 1, rfl, rfl, by norm_num, by norm_num, by norm_num, .inl (by norm_num)⟩
    (fun _ _ => exDraw_ok 0)

/-- The paths of the run above, computed: not just of the right shape, but these. -/
example : (match antSystem Q (canonicalGoodness Q (.fin 1) (.fin 1) (constMat 4 1)) (exIter 0)
    [Ant.canonical 4, Ant.canonical 4, Ant.canonical 4] (constMat 4 2) with
    | .ok r => r.2.1 | .error _ => []) = [[0, 1, 2, 3], [1, 0, 2, 3], [2, 0, 1, 3]] := by decide +kernel

/-- A pheromone with a zero at `(0, 1)`, and a heuristic that is infinite there (the inverse of a tiny distance). -/
def badPh : Mat (Ext ℚ) := ⟨2, 2, fun _ _ => .fin 0⟩
def badHeur : Mat (Ext ℚ) := ⟨2, 2, fun _ _ => .pinf⟩

/-- **C89 is false of the code without the positivity hypothesis:** with zero pheromone on an edge of infinite heuristic
(its goodness is NaN) an exploiting ant gets stuck in its last step, and `AntColonySystemAB` returns its path `[0, 0]`,
which is not a tour; `AntSystemAB` drops the ant and all that follow. -/
theorem C89_acs_returns_non_tour :
    (∃ ants' ph', antColonySystem Q (canonicalGoodness Q (.fin 1) (.fin 1) badHeur) (.decay (.fin (1/2))) (exIter 0)
      [⟨[], [], 2, false, some (.fin (1/2))⟩] badPh = .ok (ants', [[0, 0]], ph')) ∧ ¬ IsTour 2 [0, 0] ∧
    (∃ ants', antSystem Q (canonicalGoodness Q (.fin 1) (.fin 1) badHeur) (exIter 0)
      [⟨[], [], 2, false, some (.fin (1/2))⟩, ⟨[], [], 2, false, some (.fin (1/2))⟩] badPh = .ok (ants', [], badPh)) := by
  refine ⟨?_, by unfold IsTour; decide, ?_⟩
  · have h : (match antColonySystem Q (canonicalGoodness Q (.fin 1) (.fin 1) badHeur) (.decay (.fin (1/2))) (exIter 0)
        [⟨[], [], 2, false, some (.fin (1/2))⟩] badPh with | .ok r => r.2.1 | .error _ => []) = [[0, 0]] := by decide +kernel
    revert h
    cases antColonySystem Q (canonicalGoodness Q (.fin 1) (.fin 1) badHeur) (.decay (.fin (1/2))) (exIter 0)
        [⟨[], [], 2, false, some (.fin (1/2))⟩] badPh with
    | error e => intro h; cases h
    | ok r => intro h; exact ⟨r.1, r.2.2, by rw [← h]⟩
  · have h : (match antSystem Q (canonicalGoodness Q (.fin 1) (.fin 1) badHeur) (exIter 0)
        [⟨[], [], 2, false, some (.fin (1/2))⟩, ⟨[], [], 2, false, some (.fin (1/2))⟩] badPh with
        | .ok r => decide (r.2.1 = []) | .error _ => false) = true := by decide +kernel
    revert h
    cases hh : antSystem Q (canonicalGoodness Q (.fin 1) (.fin 1) badHeur) (exIter 0)
        [⟨[], [], 2, false, some (.fin (1/2))⟩, ⟨[], [], 2, false, some (.fin (1/2))⟩] badPh with
    | error e => intro h; cases h
    | ok r =>
      intro h
      obtain ⟨-, -, h3, -⟩ := C55_ant_system_tours (by
        intro a ha; simp at ha; rw [ha]; exact ⟨rfl, by simp, by simp⟩) hh
      obtain ⟨r1, r2, r3⟩ := r
      simp at h
      subst h
      have h3 : r3 = badPh := h3
      exact ⟨r1, by rw [h3]⟩

/-! ## Every theorem on a concrete case (those of `AcoAnts` included) -/

section instances

theorem twoReady : ∀ a ∈ [Ant.canonical (X := Ext ℚ) 4, ⟨[], [], 4, false, some (.fin (1/2))⟩], Ready (constMat 4 2).rows a := by
  intro a ha; simp at ha; rcases ha with rfl | rfl
  · exact ready_canonical 4
  · exact ⟨rfl, by simp, by simp⟩

example := C88_goodness_entries (A := Q) (alpha := .fin 1) (beta := .fin 2) (h := constMat 3 5) (ph := constMat 3 2) (n := 3) rfl rfl rfl rfl
example := C88_small_heuristic_panics (A := Q) (alpha := .fin 1) (beta := .fin 2) (h := constMat 2 5) (ph := constMat 3 2) rfl (by decide)
/-- On one vertex the ant colony system returns no path. -/
example {ants' : List (Ant (Ext ℚ))} {paths : List (List Nat)} {ph' : Mat (Ext ℚ)}
    (h : antColonySystem Q (canonicalGoodness Q (.fin 1) (.fin 1) (constMat 1 1)) (.decay (.fin (1/2))) (exIter 0)
      [Ant.canonical 1] (constMat 1 2) = .ok (ants', paths, ph')) : paths = [] := C89_acs_one_vertex rfl h
example : (match antColonySystem Q (canonicalGoodness Q (.fin 1) (.fin 1) (constMat 1 1)) (.decay (.fin (1/2))) (exIter 0)
      [Ant.canonical 1] (constMat 1 2) with | .ok r => some r.2.1 | .error _ => none) = some [] := by decide +kernel
/-- Two ants of the ant colony system on four vertices: the hypotheses of `C89_acs_paths`. -/
example {ants' : List (Ant (Ext ℚ))} {paths : List (List Nat)} {ph' : Mat (Ext ℚ)}
    (h : antColonySystem Q (canonicalGoodness Q (.fin 1) (.fin 1) (constMat 4 1)) (.decay (.fin (1/2))) (exIter 0)
      [Ant.canonical 4, ⟨[], [], 4, false, some (.fin (1/2))⟩] (constMat 4 2) = .ok (ants', paths, ph')) : paths.length ≤ 2 :=
  (C89_acs_paths twoReady h).1
/-- A draw that the subtractions never use up (rounding makes this possible, C126): the first ant gets stuck, and the two
behind it are never sent out. -/
def overdrawn : IterDraws (Ext ℚ) := ⟨fun k => k, fun _ _ => ⟨List.reverse, fun l => List.reverse_perm l, .fin 0, fun s => Q.add s s⟩⟩

example {a' : Ant (Ext ℚ)} (h : oneAnt Q (constMat 3 1) 3 overdrawn 0 (Ant.canonical 3) = .ok a') (hs : a'.stuck = true) :
    asLoop Q (constMat 3 1) 3 overdrawn 0 [Ant.canonical 3, Ant.canonical 3, Ant.canonical 3] =
      .ok ([a', Ant.canonical 3, Ant.canonical 3], []) := C56_stuck_ant_drops_the_rest h hs
example : (match oneAnt Q (constMat 3 1) 3 overdrawn 0 (Ant.canonical 3) with | .ok a => a.stuck | .error _ => false) = true := by
  decide +kernel

end instances

end Ecrs.Aco
