import Verif.Props.AcoRun

set_option linter.unusedSectionVars false

/-!
# C131: which tours ants can construct

The outcomes an ant colony can produce, over the outcomes of its generators.  The iteration orders of the hash sets are
*given* (nobody draws them); only the draws of the generators may be chosen.
-/

namespace Ecrs.Aco
open Ecrs

section exact
variable {F : Type} [Field F] [LinearOrder F] [IsStrictOrderedRing F]
variable (sqrt : Ext F → Ext F) (pow : Ext F → Ext F → Ext F) (maxv : F) (floor : F → Nat)

/-! ## Specification -/

/-- Specification: the draws of one step are outcomes a generator can produce, the order of the hash set being `o`:
`gen_range(0.0..=s)` is in `[0, s]` and `gen::<f64>()` in `[0, 1)`. -/
def LegalStep (o : List Nat → List Nat) (s : StepDraw (Ext F)) : Prop :=
  s.ord = o ∧ RangeOk s ∧ ∃ u, s.unit = .fin u ∧ 0 ≤ u ∧ u < 1

/-- Specification: the draws of one iteration on `n` vertices are outcomes the generators can produce, the orders of the
hash sets (for ant `k` in step `t`) being `o k t`. -/
def LegalDraws (n : Nat) (o : Nat → Nat → List Nat → List Nat) (d : IterDraws (Ext F)) : Prop :=
  ∀ k, d.start k < n ∧ ∀ t, LegalStep (o k t) (d.step k t)

/-- Specification: hash set orders are permutations. -/
def Orders (o : Nat → Nat → List Nat → List Nat) : Prop := ∀ k t l, (o k t l).Perm l

/-- Specification: an ant made for `n` vertices, canonical or with an exploitation rate below 1 (what its constructor
demands), in any state calls leave it in. -/
def Able (n : Nat) (a : Ant (Ext F)) : Prop := Ready n a ∧ ∀ r, a.exploit = some r → ∃ q, r = .fin q ∧ q < 1

theorem able_canonical (n : Nat) : Able n (Ant.canonical n : Ant (Ext F)) := ⟨ready_canonical n, by simp [Ant.canonical]⟩

theorem able_exploiting {n : Nat} {q : F} {a : Ant (Ext F)}
    (h : Ant.exploiting (exactOps sqrt pow maxv floor) n (.fin q) = .ok a) : Able n a := by
  refine ⟨ready_exploiting h, fun r hr => ?_⟩
  unfold Ant.exploiting at h
  split at h
  · rename_i hc
    cases h
    cases hr
    rw [Bool.and_eq_true] at hc
    exact ⟨q, rfl, (ex_lt sqrt pow maxv floor).1 hc.2⟩
  · cases h

/-! ## Lemmas -/

theorem roulette_hits {n : Nat} {g : Mat (Ext F)} (hg : PosMat n g) {last : Nat} (hl : last < n) {v : Nat} :
    ∀ (vs : List Nat), (∀ u ∈ vs, u < n ∧ last ≠ u) → v ∈ vs → ∃ s r, 0 < r ∧ r ≤ s ∧
      (∀ acc, rowSum (exactOps sqrt pow maxv floor) g last vs (.fin acc) = .ok (.fin (acc + s))) ∧
      roulette (exactOps sqrt pow maxv floor) g last vs (.fin r) = .ok (some v) := by
  intro vs
  induction vs with
  | nil => intro _ h; simp at h
  | cons u vs ih =>
    intro hv hmem
    obtain ⟨hun, hul⟩ := hv u (by simp)
    obtain ⟨x, hx, hp⟩ := posMat_at hg hl hun hul
    obtain ⟨s0, hs0, hsum0, -⟩ := roulette_exact sqrt pow maxv floor hg hl vs fun w hw => hv w (by simp [hw])
    have hsum : ∀ acc, rowSum (exactOps sqrt pow maxv floor) g last (u :: vs) (.fin acc) = .ok (.fin (acc + (x + s0))) := by
      intro acc
      rw [rowSum, Exc.bind_of_ok hx]
      have : (exactOps sqrt pow maxv floor).add (.fin acc) (.fin x) = .fin (acc + x) := rfl
      rw [this, hsum0, add_assoc]
    have hstep : ∀ r : F, roulette (exactOps sqrt pow maxv floor) g last (u :: vs) (.fin r)
        = if r - x ≤ 0 then .ok (some u) else roulette (exactOps sqrt pow maxv floor) g last vs (.fin (r - x)) := by
      intro r
      rw [roulette, Exc.bind_of_ok hx]
      have hsub : (exactOps sqrt pow maxv floor).sub (.fin r) (.fin x) = .fin (r - x) := by
        show Ext.fin (r + -x) = _
        rw [sub_eq_add_neg]
      rw [hsub]
      by_cases hle : r - x ≤ 0
      · have : (exactOps sqrt pow maxv floor).notLe (.fin (r - x)) (exactOps sqrt pow maxv floor).zero = false := by
          cases hc : (exactOps sqrt pow maxv floor).notLe (.fin (r - x)) (exactOps sqrt pow maxv floor).zero with
          | false => rfl
          | true => exact absurd ((ex_notLe sqrt pow maxv floor).1 hc) (not_lt.2 hle)
        rw [this, if_pos hle]; rfl
      · have hgt : (exactOps sqrt pow maxv floor).notLe (.fin (r - x)) (exactOps sqrt pow maxv floor).zero = true :=
          (ex_notLe sqrt pow maxv floor).2 (not_le.1 hle)
        rw [hgt, if_neg hle]; rfl
    by_cases huv : v = u
    · subst huv
      exact ⟨x + s0, x, hp, by linarith, hsum, by rw [hstep, if_pos (by linarith)]⟩
    · obtain ⟨s, r, h1, h2, h3, h4⟩ := ih (fun w hw => hv w (by simp [hw])) ((List.mem_cons.1 hmem).resolve_left huv)
      have hs : s = s0 := by
        have a := h3 0
        rw [hsum0 0] at a
        have := Ext.fin.inj (Except.ok.inj a)
        linarith
      refine ⟨x + s0, x + r, by linarith, by linarith, hsum, ?_⟩
      rw [hstep, if_neg (by linarith), show x + r - x = r by ring]
      exact h4

theorem legalStep_exists {o : List Nat → List Nat} (ho : ∀ l, (o l).Perm l) : ∃ s : StepDraw (Ext F), LegalStep o s :=
  ⟨⟨o, ho, .fin 0, id⟩, rfl, fun s hs => ⟨s, rfl, hs, le_refl _⟩, 0, rfl, le_refl _, zero_lt_one⟩

/-- One step can go to any unvisited vertex. -/
theorem step_hits {n : Nat} {g : Mat (Ext F)} (hg : PosMat n g) {a : Ant (Ext F)} (ha : Building n a)
    (hs : a.stuck = false) (hab : Able n a) {v : Nat} (hv : v ∈ a.unvisited) {o : List Nat → List Nat}
    (ho : ∀ l, (o l).Perm l) :
    ∃ s, LegalStep o s ∧ ∃ b e, a.goNext (exactOps sqrt pow maxv floor) g s = .ok (b, e) ∧ b.stuck = false ∧
      b.path = a.path ++ [v] ∧ Able n b ∧ Building n b ∧ EndsWell n b.path := by
  obtain ⟨last, hl⟩ : ∃ last, a.path.getLast? = some last := by
    cases h : a.path.getLast? with
    | none => exact absurd (List.getLast?_eq_none_iff.1 h) ha.2.1
    | some l => exact ⟨l, rfl⟩
  have hlm : last ∈ a.path := List.mem_of_getLast? hl
  have hnd := (ha.2.2.1 hs).nodup_iff.2 List.nodup_range
  have hdisj : ∀ u ∈ o a.unvisited, u < n ∧ last ≠ u := by
    intro u hu
    have hu := (ho _).mem_iff.1 hu
    exact ⟨ha.1.2.2 u hu, (List.nodup_append.1 hnd).2.2 last hlm u hu⟩
  have hvm : v ∈ o a.unvisited := (ho _).mem_iff.2 hv
  obtain ⟨s, r, r0, rs, hsum, hrou⟩ := roulette_hits sqrt pow maxv floor hg (ha.2.2.2 last hlm) (o a.unvisited) hdisj hvm
  have hs0 : 0 ≤ s := by linarith
  obtain ⟨u, hu0, hu1, hun⟩ : ∃ u : F, 0 ≤ u ∧ u < 1 ∧ ∀ q, a.exploit = some q →
      (exactOps sqrt pow maxv floor).lt (.fin u) q = false := by
    cases hex : a.exploit with
    | none => exact ⟨0, le_refl _, zero_lt_one, by simp⟩
    | some q =>
      obtain ⟨q', rfl, hq⟩ := hab.2 q hex
      refine ⟨max 0 q', le_max_left _ _, max_lt zero_lt_one hq, ?_⟩
      intro q2 hq2
      cases hq2
      cases hc : (exactOps sqrt pow maxv floor).lt (.fin (max 0 q')) (.fin q') with
      | false => rfl
      | true => exact absurd ((ex_lt sqrt pow maxv floor).1 hc) (not_lt.2 (le_max_right _ _))
  let d : StepDraw (Ext F) := ⟨o, ho, .fin u, fun x => match x with | .fin x => .fin (min x r) | _ => .nan⟩
  have hd : LegalStep o d :=
    ⟨rfl, fun x hx => ⟨min x r, rfl, le_min hx r0.le, min_le_left _ _⟩, u, rfl, hu0, hu1⟩
  have hby : byRoulette (exactOps sqrt pow maxv floor) g last (o a.unvisited) d = .ok (some v) := by
    unfold byRoulette
    have e1 := hsum 0
    rw [zero_add] at e1
    have e1 : rowSum (exactOps sqrt pow maxv floor) g last (o a.unvisited) (exactOps sqrt pow maxv floor).zero
      = .ok (.fin s) := e1
    rw [Exc.bind_of_ok e1]
    have e2 : genRange (exactOps sqrt pow maxv floor) d (.fin s) = .ok (.fin r) := by
      unfold genRange
      have a1 : (exactOps sqrt pow maxv floor).notLe (exactOps sqrt pow maxv floor).zero (.fin s) = false := by
        cases hc : (exactOps sqrt pow maxv floor).notLe (exactOps sqrt pow maxv floor).zero (.fin s) with
        | false => rfl
        | true => exact absurd ((ex_notLe sqrt pow maxv floor).1 hc) (not_lt.2 hs0)
      have a2 : (exactOps sqrt pow maxv floor).lt (.fin s) (exactOps sqrt pow maxv floor).infinity = true :=
        ex_lt_pinf sqrt pow maxv floor
      rw [a1, a2]
      show Except.ok (Ext.fin (min s r)) = _
      rw [min_eq_right rs]
    rw [Exc.bind_of_ok e2]
    exact hrou
  have hch : choose (exactOps sqrt pow maxv floor) g last (o a.unvisited) a.exploit d = .ok (some v) := by
    unfold choose
    cases hex : a.exploit with
    | none => exact hby
    | some q =>
      simp only
      rw [if_neg (by rw [show d.unit = .fin u from rfl, hun q hex]; simp)]
      exact hby
  have hvl : v ≠ last := fun h => (hdisj v hvm).2 h.symm
  have hgo : a.goNext (exactOps sqrt pow maxv floor) g d
      = .ok ({ a with stuck := v == last, unvisited := a.unvisited.filter (· ≠ v), path := a.path ++ [v] }, (last, v)) := by
    unfold Ant.goNext
    rw [hl]
    simp only
    rw [if_neg (by rw [hs]; simp), if_neg (by rintro h; rw [h] at hv; simp at hv), Exc.bind_of_ok hch]
    rfl
  obtain ⟨b1, b2, -⟩ := goNext_building ha hgo
  refine ⟨d, hd, _, _, hgo, by simpa using hvl, rfl, ⟨b1.1, fun r hr => hab.2 r (by rw [← b2]; exact hr)⟩, b1, ?_⟩
  obtain ⟨q, hq⟩ := List.getLast?_eq_some_iff.1 hl
  exact ⟨q, last, v, by show a.path ++ [v] = _; rw [hq]; simp, fun h => hvl h.symm, ha.2.2.2 last hlm, (hdisj v hvm).1⟩

theorem next_unvisited {n : Nat} {a : Ant (Ext F)} (ha : Building n a) (hs : a.stuck = false) {v : Nat} {vs : List Nat}
    (hp : IsTour n (a.path ++ v :: vs)) : v ∈ a.unvisited := by
  have h1 := ha.2.2.1 hs
  have hnd : (a.path ++ v :: vs).Nodup := hp.nodup_iff.2 List.nodup_range
  have hv : v ∈ a.path ++ a.unvisited := h1.mem_iff.2 (hp.mem_iff.1 (by simp))
  rcases List.mem_append.1 hv with h | h
  · exact absurd rfl ((List.nodup_append.1 hnd).2.2 v h v (by simp))
  · exact h

/-- Draws for a walk along the rest of a tour; they matter only from step `k` on. -/
theorem walk_hits {n : Nat} {g : Mat (Ext F)} (hg : PosMat n g) {o : Nat → List Nat → List Nat}
    (ho : ∀ t l, (o t l).Perm l) : ∀ (vs : List Nat) (k : Nat) (a : Ant (Ext F)), Building n a → a.stuck = false → Able n a →
    IsTour n (a.path ++ vs) → ∃ D : Nat → StepDraw (Ext F), (∀ t, LegalStep (o t) (D t)) ∧
      ∀ D', (∀ t, k ≤ t → D' t = D t) → ∃ b, Ant.walk (exactOps sqrt pow maxv floor) g D' k vs.length a = .ok b ∧
        b.stuck = false ∧ b.path = a.path ++ vs ∧ Able n b := by
  intro vs
  induction vs with
  | nil =>
    intro k a _ hs hab _
    exact ⟨fun t => (legalStep_exists (ho t)).choose, fun t => (legalStep_exists (ho t)).choose_spec,
      fun D' _ => ⟨a, rfl, hs, by simp, hab⟩⟩
  | cons v vs ih =>
    intro k a ha hs hab hp
    obtain ⟨s, hleg, b, e, h1, h2, h3, h4, h5, -⟩ := step_hits sqrt pow maxv floor hg ha hs hab
      (next_unvisited ha hs hp) (ho k)
    obtain ⟨D, hD, hwalk⟩ := ih (k + 1) b h5 h2 h4 (by rw [h3]; simpa using hp)
    refine ⟨fun t => if t = k then s else D t, fun t => ?_, fun D' hD' => ?_⟩
    · simp only
      split
      · rename_i h; rw [h]; exact hleg
      · exact hD t
    · obtain ⟨c, c1, c2, c3, c4⟩ := hwalk D' fun t ht => by
        have := hD' t (by omega)
        beta_reduce at this; rw [if_neg (by omega)] at this
        exact this
      refine ⟨c, ?_, c2, by rw [c3, h3]; simp, c4⟩
      have hk := hD' k (le_refl _)
      beta_reduce at hk; rw [if_pos rfl] at hk
      rw [List.length_cons, Ant.walk, hk, Exc.bind_of_ok h1]
      exact c1

/-- Draws for one ant of `AntSystemAB`. -/
theorem oneAnt_hits {n : Nat} (hn : 0 < n) {g : Mat (Ext F)} (hg : PosMat n g) {o : Nat → List Nat → List Nat}
    (ho : ∀ t l, (o t l).Perm l) {a : Ant (Ext F)} (hab : Able n a) {t : List Nat} (ht : IsTour n t) :
    ∃ (v : Nat) (D : Nat → StepDraw (Ext F)), v < n ∧ (∀ i, LegalStep (o i) (D i)) ∧
      ∀ (d : IterDraws (Ext F)) (k : Nat), d.start k = v → d.step k = D →
        ∃ b, oneAnt (exactOps sqrt pow maxv floor) g n d k a = .ok b ∧ b.stuck = false ∧ b.path = t ∧ Able n b := by
  cases t with
  | nil =>
    have := ht.length_eq
    simp at this; omega
  | cons v vs =>
    have hv : v < n := List.mem_range.1 (ht.mem_iff.1 (by simp))
    obtain ⟨b, hb⟩ := start_exact (s := v) hn hab.1
    obtain ⟨b1, b2, b3, b4⟩ := start_ok hab.1 hb
    have hpath : b.path = [v] := by
      unfold Ant.start at hb
      obtain ⟨-, c2, c3, -⟩ := clear_unvisited hab.1
      rw [c2, if_neg (by omega)] at hb
      cases hb
      show a.clear.path ++ [v % n] = [v]
      rw [c3, Nat.mod_eq_of_lt hv]; rfl
    have hlen : vs.length = n - 1 := by
      have := ht.length_eq
      rw [List.length_range, List.length_cons] at this; omega
    obtain ⟨D, hD, hw⟩ := walk_hits sqrt pow maxv floor hg ho vs 0 b b1 b2 ⟨b1.1, fun r hr => hab.2 r (by rw [← b4]; exact hr)⟩
      (by rw [hpath]; exact ht)
    refine ⟨v, D, hv, hD, fun d k hd1 hd2 => ?_⟩
    obtain ⟨c, c1, c2, c3, c4⟩ := hw (d.step k) fun t _ => by rw [hd2]
    refine ⟨c, ?_, c2, by rw [c3, hpath]; rfl, c4⟩
    unfold oneAnt
    rw [hd1, Exc.bind_of_ok hb, ← hlen]
    exact c1

theorem legalDraws_exists {n : Nat} (hn : 0 < n) {o : Nat → Nat → List Nat → List Nat} (ho : Orders o) :
    ∃ d : IterDraws (Ext F), LegalDraws n o d :=
  ⟨⟨fun _ => 0, fun k t => (legalStep_exists (ho k t)).choose⟩,
    fun k => ⟨hn, fun t => (legalStep_exists (ho k t)).choose_spec⟩⟩

theorem asLoop_hits {n : Nat} (hn : 0 < n) {g : Mat (Ext F)} (hg : PosMat n g) {o : Nat → Nat → List Nat → List Nat}
    (ho : Orders o) : ∀ (ants : List (Ant (Ext F))) (ts : List (List Nat)) (k : Nat), (∀ a ∈ ants, Able n a) →
    ts.length = ants.length → (∀ t ∈ ts, IsTour n t) → ∃ d0 : IterDraws (Ext F), LegalDraws n o d0 ∧
      ∀ d : IterDraws (Ext F), (∀ j, k ≤ j → d.start j = d0.start j ∧ d.step j = d0.step j) →
        ∃ as, asLoop (exactOps sqrt pow maxv floor) g n d k ants = .ok (as, ts) ∧ as.length = ants.length ∧
          ∀ a ∈ as, Able n a := by
  intro ants
  induction ants with
  | nil =>
    intro ts k _ hl _
    obtain ⟨d0, hd0⟩ := legalDraws_exists (F := F) hn ho
    rw [List.length_nil] at hl
    rw [List.length_eq_zero_iff.1 hl]
    exact ⟨d0, hd0, fun d _ => ⟨[], rfl, rfl, by simp⟩⟩
  | cons a ants ih =>
    intro ts k hab hl ht
    cases ts with
    | nil => simp at hl
    | cons t ts =>
      obtain ⟨v, D, hv, hD, hone⟩ := oneAnt_hits sqrt pow maxv floor hn hg (ho k) (hab a (by simp)) (ht t (by simp))
      obtain ⟨d0, hd0, hrest⟩ := ih ts (k + 1) (fun x hx => hab x (by simp [hx])) (by simpa using hl)
        (fun x hx => ht x (by simp [hx]))
      refine ⟨⟨fun j => if j = k then v else d0.start j, fun j => if j = k then D else d0.step j⟩, fun j => ?_, fun d hd => ?_⟩
      · simp only
        by_cases hj : j = k
        · rw [if_pos hj, if_pos hj, hj]; exact ⟨hv, hD⟩
        · rw [if_neg hj, if_neg hj]; exact hd0 j
      · obtain ⟨e1, e2⟩ := hd k (le_refl _)
        simp only [if_true] at e1 e2
        obtain ⟨b, h1, h2, h3, h4⟩ := hone d k e1 e2
        obtain ⟨as, g1, g2, g3⟩ := hrest d fun j hj => by
          have := hd j (by omega)
          simp only [if_neg (show j ≠ k by omega)] at this
          exact this
        refine ⟨b :: as, ?_, by simp [g2], fun x hx => ?_⟩
        · rw [asLoop, Exc.bind_of_ok h1, if_neg (by rw [h2]; simp), Exc.bind_of_ok g1, h3]; rfl
        · rcases List.mem_cons.1 hx with rfl | hx
          · exact h4
          · exact g3 x hx

/-- **C131, Ant System.** With exact arithmetic and positive goodness off the diagonal, whatever the iteration orders of
the hash sets: for *every* list of tours, one per ant, the generators have outcomes with which `AntSystemAB` returns
exactly these tours. -/
theorem C131_ant_system_tours {goodness : Mat (Ext F) → Except Panic (Mat (Ext F))} {g ph : Mat (Ext F)} {n : Nat}
    (hn : 0 < n) (hrows : ph.rows = n) (hgo : goodness ph = .ok g) (hg : PosMat n g) {o : Nat → Nat → List Nat → List Nat}
    (ho : Orders o) {ants : List (Ant (Ext F))} (hab : ∀ a ∈ ants, Able n a) {tours : List (List Nat)}
    (hlen : tours.length = ants.length) (htours : ∀ t ∈ tours, IsTour n t) :
    ∃ d, LegalDraws n o d ∧ ∃ ants', antSystem (exactOps sqrt pow maxv floor) goodness d ants ph = .ok (ants', tours, ph) ∧
      ants'.length = ants.length ∧ ∀ a ∈ ants', Able n a := by
  obtain ⟨d, hd, hrest⟩ := asLoop_hits sqrt pow maxv floor hn hg ho ants tours 0 hab hlen htours
  obtain ⟨as, h1, h2, h3⟩ := hrest d fun j _ => ⟨rfl, rfl⟩
  refine ⟨d, hd, as, ?_, h2, h3⟩
  unfold antSystem
  rw [Exc.bind_of_ok hgo, hrows, Exc.bind_of_ok h1]
  rfl

/-! ## Ant Colony System -/

/-- An ant on its way along a tour, with `m` vertices left. -/
def OnWay (n m : Nat) (a : Ant (Ext F)) (t : List Nat) : Prop :=
  Building n a ∧ a.stuck = false ∧ Able n a ∧ IsTour n t ∧ ∃ vs, t = a.path ++ vs ∧ vs.length = m

theorem acsStep_hits {n m t : Nat} {g : Mat (Ext F)} (hg : PosMat n g) {o : Nat → List Nat → List Nat}
    (ho : ∀ k l, (o k l).Perm l) : ∀ (ants : List (Ant (Ext F))) (ts : List (List Nat)) (k : Nat),
    List.Forall₂ (OnWay n (m + 1)) ants ts → ∃ (S : Nat → StepDraw (Ext F)) (as : List (Ant (Ext F))),
      (∀ j, LegalStep (o j) (S j)) ∧ List.Forall₂ (OnWay n m) as ts ∧ (∀ p ∈ as.map (·.path), EndsWell n p) ∧
      ∀ d : IterDraws (Ext F), (∀ j, k ≤ j → d.step j t = S j) →
        acsStep (exactOps sqrt pow maxv floor) g d t k ants = .ok (as, as.map (·.path)) := by
  intro ants
  induction ants with
  | nil =>
    intro ts k h
    cases h
    exact ⟨fun j => (legalStep_exists (ho j)).choose, [], fun j => (legalStep_exists (ho j)).choose_spec, .nil, by simp,
      fun d _ => rfl⟩
  | cons a ants ih =>
    intro ts k h
    cases h with
    | @cons _ T _ ts h hs =>
      obtain ⟨h1, h2, h3, h4, vs, h5, h6⟩ := h
      cases vs with
      | nil => simp at h6
      | cons v vs =>
        obtain ⟨s, hleg, b, e, g1, g2, g3, g4, g5, g6⟩ := step_hits sqrt pow maxv floor hg h1 h2 h3
          (next_unvisited h1 h2 (by rw [← h5]; exact h4)) (ho k)
        obtain ⟨S, as, hS, q2, q3, hrest⟩ := ih ts (k + 1) hs
        refine ⟨fun j => if j = k then s else S j, b :: as, fun j => ?_, .cons ⟨g5, g2, g4, h4, vs, ?_, ?_⟩ q2, ?_,
          fun d hd => ?_⟩
        · simp only
          split
          · rename_i hj; rw [hj]; exact hleg
          · exact hS j
        · rw [g3, h5]; simp
        · simpa using h6
        · intro p hp
          rw [List.map_cons] at hp
          rcases List.mem_cons.1 hp with rfl | hp
          · exact g6
          · exact q3 p hp
        · have q1 := hrest d fun j hj => by
            have := hd j (by omega)
            beta_reduce at this; rw [if_neg (by omega)] at this
            exact this
          have hk := hd k (le_refl _)
          beta_reduce at hk; rw [if_pos rfl] at hk
          rw [acsStep, if_neg (by rw [h2]; simp), hk, Exc.bind_of_ok g1, Exc.bind_of_ok q1]
          rfl

theorem onWay_zero {n : Nat} : ∀ {as : List (Ant (Ext F))} {ts : List (List Nat)}, List.Forall₂ (OnWay n 0) as ts →
    as.map (·.path) = ts ∧ as.length = ts.length ∧ ∀ a ∈ as, Able n a
  | [], _, h => by cases h; simp
  | a :: as, _, h => by
    cases h with
    | cons h hs =>
      obtain ⟨c1, c2, c3⟩ := onWay_zero hs
      obtain ⟨-, -, h3, -, vs, h5, h6⟩ := h
      rw [List.length_eq_zero_iff.1 h6, List.append_nil] at h5
      refine ⟨by rw [List.map_cons, c1, h5], by simp [c2], fun x hx => ?_⟩
      rcases List.mem_cons.1 hx with rfl | hx
      · exact h3
      · exact c3 x hx

theorem acsLoop_hits {n : Nat} {goodness : Mat (Ext F) → Except Panic (Mat (Ext F))}
    (hgo : ∀ m, PosMat n m → ∃ g, goodness m = .ok g ∧ PosMat n g) {l : LocalRule (Ext F)} (hl : l.Positive)
    {o : Nat → Nat → List Nat → List Nat} (ho : Orders o) : ∀ (m t : Nat) (ants : List (Ant (Ext F)))
    (ts paths : List (List Nat)) (ph : Mat (Ext F)), PosMat n ph → List.Forall₂ (OnWay n m) ants ts → (m = 0 → paths = ts) →
    ∃ S : Nat → Nat → StepDraw (Ext F), (∀ k i, LegalStep (o k i) (S k i)) ∧
      ∀ d : IterDraws (Ext F), (∀ k i, t ≤ i → d.step k i = S k i) →
        ∃ as ph', acsLoop (exactOps sqrt pow maxv floor) goodness l d t m ants paths ph = .ok (as, ts, ph') ∧
          as.length = ants.length ∧ (∀ a ∈ as, Able n a) ∧ PosMat n ph' ∧ ∀ k, ph'.get k k = ph.get k k := by
  intro m
  induction m with
  | zero =>
    intro t ants ts paths ph hp h h0
    rw [h0 rfl]
    exact ⟨fun k i => (legalStep_exists (ho k i)).choose, fun k i => (legalStep_exists (ho k i)).choose_spec,
      fun d _ => ⟨ants, ph, rfl, rfl, (onWay_zero h).2.2, hp, fun _ => rfl⟩⟩
  | succ m ih =>
    intro t ants ts paths ph hp h _
    obtain ⟨g, hg1, hg2⟩ := hgo ph hp
    obtain ⟨S0, as, hS0, q2, q3, hstep⟩ := acsStep_hits sqrt pow maxv floor (t := t) hg2 (fun k l => ho k t l) ants ts 0 h
    obtain ⟨ph1, p1, p2, p3⟩ := localRule_pos sqrt pow maxv floor hl (as.map (·.path)) ph hp q3
    obtain ⟨S, hS, hrest⟩ := ih (t + 1) as ts (as.map (·.path)) ph1 p2 q2 fun h0 => by subst h0; exact (onWay_zero q2).1
    refine ⟨fun k i => if i = t then S0 k else S k i, fun k i => ?_, fun d hd => ?_⟩
    · simp only
      split
      · rename_i hi; rw [hi]; exact hS0 k
      · exact hS k i
    · have h1 := hstep d fun j _ => by
        have := hd j t (le_refl _)
        beta_reduce at this; rw [if_pos rfl] at this; exact this
      obtain ⟨as2, ph2, r1, r2, r3, r4, r5⟩ := hrest d fun k i hi => by
        have := hd k i (by omega)
        beta_reduce at this; rw [if_neg (by omega)] at this; exact this
      refine ⟨as2, ph2, ?_, ?_, r3, r4, fun k => (r5 k).trans (p3 k)⟩
      · rw [acsLoop, Exc.bind_of_ok hg1, Exc.bind_of_ok h1]
        simp only
        rw [Exc.bind_of_ok p1]
        exact r1
      · rw [r2, q2.length_eq, h.length_eq]

theorem startAll_hits {n : Nat} (hn : 0 < n) : ∀ (ants : List (Ant (Ext F))) (ts : List (List Nat)) (k : Nat),
    (∀ a ∈ ants, Able n a) → ts.length = ants.length → (∀ t ∈ ts, IsTour n t) →
    ∃ (st : Nat → Nat) (as : List (Ant (Ext F))), (∀ j, st j < n) ∧ List.Forall₂ (OnWay n (n - 1)) as ts ∧
      ∀ d : IterDraws (Ext F), (∀ j, k ≤ j → d.start j = st j) → startAll d k ants = .ok as := by
  intro ants
  induction ants with
  | nil =>
    intro ts k _ hl _
    rw [List.length_nil] at hl
    rw [List.length_eq_zero_iff.1 hl]
    exact ⟨fun _ => 0, [], fun _ => hn, .nil, fun _ _ => rfl⟩
  | cons a ants ih =>
    intro ts k hab hl ht
    cases ts with
    | nil => simp at hl
    | cons t ts =>
      obtain ⟨st, as, hst, hon, hrest⟩ := ih ts (k + 1) (fun x hx => hab x (by simp [hx])) (by simpa using hl)
        (fun x hx => ht x (by simp [hx]))
      have htt := ht t (by simp)
      have haa := hab a (by simp)
      cases t with
      | nil =>
        have := htt.length_eq
        simp at this; omega
      | cons v vs =>
        have hv : v < n := List.mem_range.1 (htt.mem_iff.1 (by simp))
        obtain ⟨b, hb⟩ := start_exact (s := v) hn haa.1
        obtain ⟨b1, b2, b3, b4⟩ := start_ok haa.1 hb
        have hpath : b.path = [v] := by
          have hb' := hb
          unfold Ant.start at hb'
          obtain ⟨-, c2, c3, -⟩ := clear_unvisited haa.1
          rw [c2, if_neg (by omega)] at hb'
          cases hb'
          show a.clear.path ++ [v % n] = [v]
          rw [c3, Nat.mod_eq_of_lt hv]; rfl
        have hlen : vs.length = n - 1 := by
          have := htt.length_eq
          rw [List.length_range, List.length_cons] at this; omega
        refine ⟨fun j => if j = k then v else st j, b :: as, fun j => ?_,
          .cons ⟨b1, b2, ⟨b1.1, fun r hr => haa.2 r (by rw [← b4]; exact hr)⟩, htt, vs, by rw [hpath]; rfl, hlen⟩ hon,
          fun d hd => ?_⟩
        · simp only
          split
          · exact hv
          · exact hst j
        · have hk := hd k (le_refl _)
          beta_reduce at hk; rw [if_pos rfl] at hk
          have := hrest d fun j hj => by
            have := hd j (by omega)
            beta_reduce at this; rw [if_neg (by omega)] at this; exact this
          rw [startAll, hk, Exc.bind_of_ok hb, Exc.bind_of_ok this]
          rfl

/-- **C131, Ant Colony System.** Likewise for `AntColonySystemAB` on `n ≥ 2` vertices, whose local updates change the
pheromone between the steps: every list of tours, one per ant, is a possible result. -/
theorem C131_acs_tours {goodness : Mat (Ext F) → Except Panic (Mat (Ext F))} {ph : Mat (Ext F)} {n : Nat}
    (hn : 2 ≤ n) (hph : PosMat n ph) (hgo : ∀ m, PosMat n m → ∃ g, goodness m = .ok g ∧ PosMat n g)
    {l : LocalRule (Ext F)} (hl : l.Positive) {o : Nat → Nat → List Nat → List Nat} (ho : Orders o)
    {ants : List (Ant (Ext F))} (hab : ∀ a ∈ ants, Able n a) {tours : List (List Nat)}
    (hlen : tours.length = ants.length) (htours : ∀ t ∈ tours, IsTour n t) :
    ∃ d, LegalDraws n o d ∧ ∃ ants' ph', antColonySystem (exactOps sqrt pow maxv floor) goodness l d ants ph
        = .ok (ants', tours, ph') ∧ ants'.length = ants.length ∧ (∀ a ∈ ants', Able n a) ∧ PosMat n ph' ∧
        ∀ k, ph'.get k k = ph.get k k := by
  obtain ⟨st, as, hst, hon, hs⟩ := startAll_hits (by omega : 0 < n) ants tours 0 hab hlen htours
  obtain ⟨S, hS, hloop⟩ := acsLoop_hits sqrt pow maxv floor hgo hl ho (n - 1) 0 as tours [] ph hph hon (by omega)
  obtain ⟨as', ph', h1, h2, h3, h4, h5⟩ := hloop ⟨st, S⟩ fun _ _ _ => rfl
  refine ⟨⟨st, S⟩, fun k => ⟨hst k, hS k⟩, as', ph', ?_, ?_, h3, h4, h5⟩
  · unfold antColonySystem
    rw [Exc.bind_of_ok (hs ⟨st, S⟩ fun _ _ => rfl), hph.1]
    exact h1
  · rw [h2, hon.length_eq, hlen]

/-! ## Runs -/

theorem runLoop_hits {X K : Type} [LinearOrder K] {A : AcoOps X K} {Ph C G U T : Type} {Dr : Type}
    (al : (Nat → Dr) → Algo X Ph C G U) (check : T → Ph → T × Bool) (Legal : Nat → Dr → Prop)
    (hlegal : ∀ i, ∃ x, Legal i x) (Inv : Nat → RunState Ph C G U → Prop) (P : Nat → Sol X → Prop)
    (hstep : ∀ i s, Inv i s → ∃ x, Legal i x ∧ ∃ b s', Inv (i + 1) s' ∧ P i b ∧
      ∀ d : Nat → Dr, d i = x → iterate A (al d) s = ([.currentBest b, .pheromoneUpdate s'.ph], .ok s')) :
    ∀ (m fuel : Nat) (t : T) (i : Nat) (s : RunState Ph C G U), m < fuel → StopsAt check m t → Inv i s →
      ∃ d0 : Nat → Dr, (∀ j, Legal j (d0 j)) ∧ ∀ d : Nat → Dr, (∀ j, i ≤ j → d j = d0 j) →
        ∃ recs : List (Sol X × Ph), recs.length = m ∧
          runLoop A (al d) check fuel t s = (recs.flatMap block ++ [.finish], .done) ∧
          ∀ j (hj : j < recs.length), P (i + j) (recs[j].1) := by
  intro m
  induction m with
  | zero =>
    intro fuel t i s hf hs _
    obtain ⟨f, rfl⟩ : ∃ f, fuel = f + 1 := ⟨fuel - 1, by omega⟩
    refine ⟨fun j => (hlegal j).choose, fun j => (hlegal j).choose_spec, fun d _ => ⟨[], rfl, ?_, ?_⟩⟩
    · rw [runLoop, if_pos (hs s.ph)]; rfl
    · intro j hj; simp at hj
  | succ m ih =>
    intro fuel t i s hf hs hi
    obtain ⟨f, rfl⟩ : ∃ f, fuel = f + 1 := ⟨fuel - 1, by omega⟩
    obtain ⟨t', ht, hs'⟩ := hs
    obtain ⟨x, hx, b, s', h1, h2, h3⟩ := hstep i s hi
    obtain ⟨d0, g1, g2⟩ := ih f t' (i + 1) s' (by omega) hs' h1
    refine ⟨fun j => if j = i then x else d0 j, fun j => ?_, fun d hd => ?_⟩
    · simp only
      split
      · rename_i hj; rw [hj]; exact hx
      · exact g1 j
    · have hdi := hd i (le_refl _)
      beta_reduce at hdi; rw [if_pos rfl] at hdi
      obtain ⟨recs, q1, q2, q3⟩ := g2 d fun j hj => by
        have := hd j (by omega)
        beta_reduce at this; rw [if_neg (by omega)] at this; exact this
      refine ⟨(b, s'.ph) :: recs, by simp [q1], ?_, ?_⟩
      · rw [runLoop, ht, if_neg (by simp), h3 d hdi]
        simp only
        rw [q2]
        simp [block]
      · intro j hj
        cases j with
        | zero => exact h2
        | succ j =>
          have := q3 j (by simpa using hj)
          rw [List.getElem_cons_succ, show i + (j + 1) = i + 1 + j by omega]
          exact this

/-- Specification: `b` is a shortest of the tours, graded with the inverse of its length. -/
def ShortestOf (n : Nat) (f : Nat → Nat → F) (tours : List (List Nat)) (b : Sol (Ext F)) : Prop :=
  GradedTour n f b ∧ b.path ∈ tours ∧ ∀ t ∈ tours, tourLength f b.path ≤ tourLength f t

/-- **C131, runs of Ant System.** For every instance with positive distances and every history of tours - `tours i` for
iteration `i`, one tour per ant - there are outcomes of the generators for which the run reports, in every iteration `i`, a
shortest of the tours `tours i`: the pheromone never rules out a tour, however long the run. -/
theorem C131_ant_system_histories {n : Nat} {w : Mat (Ext F)} {f : Nat → Nat → F} (hi : Instance n w f)
    {goodness : Mat (Ext F) → Except Panic (Mat (Ext F))} (hgo : ∀ m, PosMat n m → ∃ g, goodness m = .ok g ∧ PosMat n g)
    {rho : F} (h1 : rho < 1) (ants : List (Ant (Ext F))) (hants : ants ≠ []) (hr : ∀ a ∈ ants, Able n a)
    (ph : Mat (Ext F)) (hph : AllPos n ph) (hsym : Sym n ph) (best0 : Sol (Ext F)) (limit fuel : Nat) (hf : limit < fuel)
    (o : Nat → Nat → Nat → List Nat → List Nat) (ho : ∀ i, Orders (o i))
    (tours : Nat → List (List Nat)) (hlen : ∀ i, (tours i).length = ants.length) (ht : ∀ i, ∀ t ∈ tours i, IsTour n t) :
    ∃ d : Draws (Ext F), (∀ i, LegalDraws n (o i) (d i)) ∧
      ∃ recs : List (Sol (Ext F) × Mat (Ext F)), recs.length = limit ∧
        runIterations (exactOps sqrt pow maxv floor) (tspAntSystem (exactOps sqrt pow maxv floor) goodness d w (.fin rho)) fuel
          ⟨0, limit⟩ ⟨(0, ants), (), best0, ph⟩ = (recs.flatMap block ++ [.finish], .done) ∧
        ∀ i (h : i < recs.length), ShortestOf n f (tours i) (recs[i].1) := by
  have hn : 0 < n := by have := hi.two; omega
  obtain ⟨d, hd, hrun⟩ := runLoop_hits (A := exactOps sqrt pow maxv floor)
    (al := fun d => tspAntSystem (exactOps sqrt pow maxv floor) goodness d w (.fin rho))
    (check := IterationCond.check) (Legal := fun i => LegalDraws n (o i)) (fun i => legalDraws_exists (F := F) hn (ho i))
    (Inv := fun i s => s.colony.1 = i ∧ s.colony.2.length = ants.length ∧ (∀ a ∈ s.colony.2, Able n a) ∧ AllPos n s.ph ∧
      Sym n s.ph) (P := fun i b => ShortestOf n f (tours i) b) (by
      rintro i ⟨⟨j, as⟩, gs, u, m⟩ ⟨rfl, hk, hab, hp, hsy⟩
      simp only at hk hab hp hsy ⊢
      have hrows : m.rows = n := hsy.1
      obtain ⟨g, hg1, hg2⟩ := hgo m (allPos_posMat hp)
      obtain ⟨x, hx, as', e1, e2, e3⟩ := C131_ant_system_tours sqrt pow maxv floor hn hrows hg1 hg2 (ho j) hab
        (tours := tours j) (by rw [hlen, hk]) (ht j)
      have hne : tours j ≠ [] := by
        intro h
        exact hants (List.length_eq_zero_iff.1 (by rw [← hlen j, h]; rfl))
      have hbuild : ∀ d : Draws (Ext F), d j = x →
          (tspAntSystem (exactOps sqrt pow maxv floor) goodness d w (.fin rho)).build (j, as) m
          = .ok ((j + 1, as'), tours j, m) := by
        intro d hdj
        show asColony _ goodness d (j, as) m = _
        unfold asColony
        simp only
        rw [hdj, Exc.bind_of_ok e1]; rfl
      obtain ⟨sols, b, b1, b2, b3, b4, b5⟩ := buildGrade_tours sqrt pow maxv floor hi
        (tspAntSystem (exactOps sqrt pow maxv floor) goodness (fun _ => x) w (.fin rho)) rfl ⟨(j, as), gs, u, m⟩
        (hbuild (fun _ => x) rfl) hne (ht j)
      obtain ⟨ph', c1, c2⟩ := (C58_ant_system_nonneg sqrt pow maxv floor h1.le (sols := sols)
        fun s hs => graded_good (b2 s hs)).2 hp h1
      obtain ⟨ph2, c3, c4⟩ := C57_ant_system_symmetric (A := exactOps sqrt pow maxv floor) (rate := .fin rho) hsy
        (fun s hs => (graded_good (b2 s hs)).1)
      rw [c1] at c3
      cases c3
      refine ⟨x, hx, b, ⟨(j + 1, as'), (), u, ph'⟩, ⟨rfl, by simp [e2, hk], e3, c2, c4⟩, ⟨b2 b b3, ?_, ?_⟩, fun d hdj => ?_⟩
      · rw [← b4]; exact List.mem_map_of_mem b3
      · intro t ht'
        rw [← b4] at ht'
        obtain ⟨s, hs, rfl⟩ := List.mem_map.1 ht'
        exact b5 s hs
      · have b1' : buildGrade (exactOps sqrt pow maxv floor)
            (tspAntSystem (exactOps sqrt pow maxv floor) goodness d w (.fin rho)) ⟨(j, as), gs, u, m⟩
            = .ok (⟨(j + 1, as'), (), u, m⟩, sols, b) := by
          rw [← b1]
          unfold buildGrade
          simp only
          rw [hbuild d hdj, hbuild (fun _ => x) rfl]
          rfl
        unfold iterate
        rw [b1']
        simp only
        have hup : (tspAntSystem (exactOps sqrt pow maxv floor) goodness d w (.fin rho)).update u sols m = .ok (u, ph') := by
          show asUpdate _ _ u sols m = _
          unfold asUpdate
          rw [Exc.bind_of_ok c1]; rfl
        rw [hup])
    limit fuel ⟨0, limit⟩ 0 ⟨(0, ants), (), best0, ph⟩ hf (stopsAt_iteration 0 limit limit (by omega))
    ⟨rfl, rfl, hr, hph, hsym⟩
  obtain ⟨recs, q1, q2, q3⟩ := hrun d fun _ _ => rfl
  refine ⟨d, hd, recs, q1, q2, fun i h => ?_⟩
  have := q3 i h
  rwa [Nat.zero_add] at this

/-- **C131, every sequence of tours can be reported.** For every sequence of tours (say, the optimal one again and again, or
the worst) there are outcomes of the generators for which the bests reported by the Ant System run are exactly these. -/
theorem C131_ant_system_reports {n : Nat} {w : Mat (Ext F)} {f : Nat → Nat → F} (hi : Instance n w f)
    {goodness : Mat (Ext F) → Except Panic (Mat (Ext F))} (hgo : ∀ m, PosMat n m → ∃ g, goodness m = .ok g ∧ PosMat n g)
    {rho : F} (h1 : rho < 1) (ants : List (Ant (Ext F))) (hants : ants ≠ []) (hr : ∀ a ∈ ants, Able n a)
    (ph : Mat (Ext F)) (hph : AllPos n ph) (hsym : Sym n ph) (best0 : Sol (Ext F)) (limit fuel : Nat) (hf : limit < fuel)
    (o : Nat → Nat → Nat → List Nat → List Nat) (ho : ∀ i, Orders (o i)) (tour : Nat → List Nat)
    (ht : ∀ i, IsTour n (tour i)) :
    ∃ d : Draws (Ext F), (∀ i, LegalDraws n (o i) (d i)) ∧
      ∃ recs : List (Sol (Ext F) × Mat (Ext F)), recs.length = limit ∧
        runIterations (exactOps sqrt pow maxv floor) (tspAntSystem (exactOps sqrt pow maxv floor) goodness d w (.fin rho)) fuel
          ⟨0, limit⟩ ⟨(0, ants), (), best0, ph⟩ = (recs.flatMap block ++ [.finish], .done) ∧
        ∀ i (h : i < recs.length), recs[i].1 = ⟨tour i, .fin (1 / tourLength f (tour i))⟩ := by
  obtain ⟨d, hd, recs, q1, q2, q3⟩ := C131_ant_system_histories sqrt pow maxv floor hi hgo h1 ants hants hr ph hph hsym best0
    limit fuel hf o ho (fun i => List.replicate ants.length (tour i)) (fun i => List.length_replicate)
    (fun i t h => by rw [List.eq_of_mem_replicate h]; exact ht i)
  refine ⟨d, hd, recs, q1, q2, fun i h => ?_⟩
  obtain ⟨⟨-, e1, -⟩, e2, -⟩ := q3 i h
  have e3 := List.eq_of_mem_replicate e2
  rw [e3] at e1
  rw [← e1, ← e3]

theorem allPos_of_diagonal {n : Nat} {m m' : Mat (Ext F)} (hp : AllPos n m) (e4 : PosMat n m')
    (e5 : ∀ k, m'.get k k = m.get k k) : AllPos n m' := by
  obtain ⟨f0, k1, k2⟩ := hp
  have hall : ∀ i j, i < n → j < n → ∃ x, m'.get i j = .fin x ∧ 0 < x := by
    intro i j hi hj
    by_cases hij : i = j
    · subst hij
      exact ⟨f0 i i, by rw [e5, k1.2.2 i i hi hi], k2 i i hi hi⟩
    · exact e4.2.2 i j hi hj hij
  refine ⟨fun i j => match m'.get i j with | .fin x => x | _ => 0, ⟨e4.1, e4.2.1, fun i j hi hj => ?_⟩, fun i j hi hj => ?_⟩
  · obtain ⟨x, hx, -⟩ := hall i j hi hj
    simp only
    rw [hx]
  · obtain ⟨x, hx, hx0⟩ := hall i j hi hj
    simp only
    rw [hx]; exact hx0

/-- **C131, runs of Ant Colony System.** Likewise, for every positivity preserving local rule, any best policy and a rate in
`[0, 1)`: for every instance with positive distances and every history of tours - `tours i` for
iteration `i`, one tour per ant - there are outcomes of the generators for which the run reports, in every iteration `i`, a
shortest of the tours `tours i`: the pheromone never rules out a tour, however long the run. -/
theorem C131_acs_histories {n : Nat} {w : Mat (Ext F)} {f : Nat → Nat → F} (hi : Instance n w f)
    {goodness : Mat (Ext F) → Except Panic (Mat (Ext F))} (hgo : ∀ m, PosMat n m → ∃ g, goodness m = .ok g ∧ PosMat n g)
    {l : LocalRule (Ext F)} (hl : l.Positive) {policy : Sol (Ext F) → List (Sol (Ext F)) → Sol (Ext F)} (hpol : Picks policy)
    {rho : F} (h0 : 0 ≤ rho) (h1 : rho < 1) (ants : List (Ant (Ext F))) (hants : ants ≠ []) (hr : ∀ a ∈ ants, Able n a)
    (ph : Mat (Ext F)) (hph : AllPos n ph) (best0 : Sol (Ext F)) (hb0 : GoodSol n best0) (limit fuel : Nat) (hf : limit < fuel)
    (o : Nat → Nat → Nat → List Nat → List Nat) (ho : ∀ i, Orders (o i))
    (tours : Nat → List (List Nat)) (hlen : ∀ i, (tours i).length = ants.length) (ht : ∀ i, ∀ t ∈ tours i, IsTour n t) :
    ∃ d : Draws (Ext F), (∀ i, LegalDraws n (o i) (d i)) ∧
      ∃ recs : List (Sol (Ext F) × Mat (Ext F)), recs.length = limit ∧
        runIterations (exactOps sqrt pow maxv floor) (tspAcs (exactOps sqrt pow maxv floor) goodness l d w (.fin rho) policy) fuel
          ⟨0, limit⟩ ⟨(0, ants), (), best0, ph⟩ = (recs.flatMap block ++ [.finish], .done) ∧
        ∀ i (h : i < recs.length), ShortestOf n f (tours i) (recs[i].1) := by
  have hn : 0 < n := by have := hi.two; omega
  obtain ⟨d, hd, hrun⟩ := runLoop_hits (A := exactOps sqrt pow maxv floor)
    (al := fun d => tspAcs (exactOps sqrt pow maxv floor) goodness l d w (.fin rho) policy)
    (check := IterationCond.check) (Legal := fun i => LegalDraws n (o i)) (fun i => legalDraws_exists (F := F) hn (ho i))
    (Inv := fun i s => s.colony.1 = i ∧ s.colony.2.length = ants.length ∧ (∀ a ∈ s.colony.2, Able n a) ∧ AllPos n s.ph ∧
      GoodSol n s.upd) (P := fun i b => ShortestOf n f (tours i) b) (by
      rintro i ⟨⟨j, as⟩, gs, u, m⟩ ⟨rfl, hk, hab, hp, hu⟩
      simp only at hk hab hp hu ⊢
      obtain ⟨x, hx, as', m', e1, e2, e3, e4, e5⟩ := C131_acs_tours sqrt pow maxv floor hi.two (allPos_posMat hp) hgo hl
        (ho j) hab (tours := tours j) (by rw [hlen, hk]) (ht j)
      have hpm := allPos_of_diagonal hp e4 e5
      have hne : tours j ≠ [] := by
        intro h
        exact hants (List.length_eq_zero_iff.1 (by rw [← hlen j, h]; rfl))
      have hbuild : ∀ d : Draws (Ext F), d j = x →
          (tspAcs (exactOps sqrt pow maxv floor) goodness l d w (.fin rho) policy).build (j, as) m
          = .ok ((j + 1, as'), tours j, m') := by
        intro d hdj
        show acsColony _ goodness l d (j, as) m = _
        unfold acsColony
        simp only
        rw [hdj, Exc.bind_of_ok e1]; rfl
      obtain ⟨sols, b, b1, b2, b3, b4, b5⟩ := buildGrade_tours sqrt pow maxv floor hi
        (tspAcs (exactOps sqrt pow maxv floor) goodness l (fun _ => x) w (.fin rho) policy) rfl ⟨(j, as), gs, u, m⟩
        (hbuild (fun _ => x) rfl) hne (ht j)
      have hgood : ∀ s ∈ sols, GoodSol n s := fun s hs => graded_good (b2 s hs)
      obtain ⟨ph', c1, c2⟩ := acsPU_pos sqrt pow maxv floor h0 h1 hpol hu hgood hpm
      refine ⟨x, hx, b, ⟨(j + 1, as'), (), policy u sols, ph'⟩, ⟨rfl, by simp [e2, hk], e3, c2, picks_good hpol hu hgood⟩,
        ⟨b2 b b3, ?_, ?_⟩, fun d hdj => ?_⟩
      · rw [← b4]; exact List.mem_map_of_mem b3
      · intro t ht'
        rw [← b4] at ht'
        obtain ⟨s, hs, rfl⟩ := List.mem_map.1 ht'
        exact b5 s hs
      · have b1' : buildGrade (exactOps sqrt pow maxv floor)
            (tspAcs (exactOps sqrt pow maxv floor) goodness l d w (.fin rho) policy) ⟨(j, as), gs, u, m⟩
            = .ok (⟨(j + 1, as'), (), u, m'⟩, sols, b) := by
          rw [← b1]
          unfold buildGrade
          simp only
          rw [hbuild d hdj, hbuild (fun _ => x) rfl]
          rfl
        unfold iterate
        rw [b1']
        simp only
        have hup : (tspAcs (exactOps sqrt pow maxv floor) goodness l d w (.fin rho) policy).update u sols m'
            = .ok (policy u sols, ph') := by
          show acsUpdate _ _ policy u sols m' = _
          unfold acsUpdate
          rw [Exc.bind_of_ok c1]; rfl
        rw [hup])
    limit fuel ⟨0, limit⟩ 0 ⟨(0, ants), (), best0, ph⟩ hf (stopsAt_iteration 0 limit limit (by omega))
    ⟨rfl, rfl, hr, hph, hb0⟩
  obtain ⟨recs, q1, q2, q3⟩ := hrun d fun _ _ => rfl
  refine ⟨d, hd, recs, q1, q2, fun i h => ?_⟩
  have := q3 i h
  rwa [Nat.zero_add] at this

/-! ## What cannot happen -/

/-- **C131, edges without goodness.** A roulette with a positive draw never moves along an edge of goodness zero or less
(all goodness finite): positivity is what makes all tours possible. -/
theorem C131_no_goodness_no_move {n : Nat} {g : Mat (Ext F)} {f : Nat → Nat → F} (hg : FinMat n g f)
    {last v : Nat} (hl : last < n) : ∀ (vs : List Nat), (∀ u ∈ vs, u < n) → ∀ (r : F), 0 < r →
    roulette (exactOps sqrt pow maxv floor) g last vs (.fin r) = .ok (some v) → 0 < f last v := by
  intro vs
  induction vs with
  | nil => intro _ r _ h; cases h
  | cons u vs ih =>
    intro hv r hr h
    have hu := hv u (by simp)
    have hx : g.at' last u = .ok (.fin (f last u)) := by
      unfold Mat.at'
      rw [if_pos ⟨by rw [hg.1]; exact hl, by rw [hg.2.1]; exact hu⟩, hg.2.2 last u hl hu]
    rw [roulette, Exc.bind_of_ok hx] at h
    have hsub : (exactOps sqrt pow maxv floor).sub (.fin r) (.fin (f last u)) = .fin (r - f last u) := by
      show Ext.fin (r + -f last u) = _
      rw [sub_eq_add_neg]
    rw [hsub] at h
    by_cases hle : r - f last u ≤ 0
    · have : (exactOps sqrt pow maxv floor).notLe (.fin (r - f last u)) (exactOps sqrt pow maxv floor).zero = false := by
        cases hc : (exactOps sqrt pow maxv floor).notLe (.fin (r - f last u)) (exactOps sqrt pow maxv floor).zero with
        | false => rfl
        | true => exact absurd ((ex_notLe sqrt pow maxv floor).1 hc) (not_lt.2 hle)
      rw [this] at h
      cases h
      linarith
    · have hgt : (exactOps sqrt pow maxv floor).notLe (.fin (r - f last u)) (exactOps sqrt pow maxv floor).zero = true :=
        (ex_notLe sqrt pow maxv floor).2 (not_le.1 hle)
      rw [hgt] at h
      exact ih (fun w hw => hv w (by simp [hw])) _ (not_le.1 hle) (by simpa using h)

end exact

/-- C131 on a concrete colony: a canonical and an exploiting ant on four vertices can return these two tours, the hash sets
being iterated in reverse order. -/
example : ∃ d, LegalDraws 4 (fun _ _ => List.reverse) d ∧ ∃ ants', antSystem Q
    (canonicalGoodness Q (.fin 1) (.fin 1) (constMat 4 1)) d [Ant.canonical 4, ⟨[], [], 4, false, some (.fin (1/2))⟩]
    (constMat 4 2) = .ok (ants', [[2, 0, 3, 1], [0, 2, 1, 3]], constMat 4 2) ∧ ants'.length = 2 ∧ ∀ a ∈ ants', Able 4 a := by
  obtain ⟨g, h1, h2⟩ := exGood (constMat 4 2) (constMat_pos 4 (by norm_num))
  refine C131_ant_system_tours (fun x => x) (fun x _ => x) 1000 (fun _ => 0) (by decide) rfl h1 h2
    (fun _ _ l => List.reverse_perm l) ?_ rfl ?_
  · intro a ha
    simp at ha
    rcases ha with rfl | rfl
    · exact able_canonical 4
    · exact ⟨⟨rfl, by simp, by simp⟩, fun r hr => by cases hr; exact ⟨_, rfl, by norm_num⟩⟩
  · intro t ht
    simp at ht
    rcases ht with rfl | rfl <;> (unfold IsTour; decide)

/-! ## Every theorem on a concrete case -/

section instances

/-- A canonical ant and one that exploits half of the time. -/
def twoAble : List (Ant (Ext ℚ)) := [Ant.canonical 5, ⟨[], [], 5, false, some (.fin (1/2))⟩]

theorem twoAble_able : ∀ a ∈ twoAble, Able 5 a := by
  intro a ha
  simp only [twoAble, List.mem_cons, List.not_mem_nil, or_false] at ha
  rcases ha with rfl | rfl
  · exact able_canonical 5
  · exact ⟨⟨rfl, by simp, by simp⟩, fun r hr => by cases hr; exact ⟨_, rfl, by norm_num⟩⟩

theorem twoTours : ∀ t ∈ [[2, 0, 4, 3, 1], [0, 2, 1, 4, 3]], IsTour 5 t := by
  intro t ht
  simp only [List.mem_cons, List.not_mem_nil, or_false] at ht
  rcases ht with rfl | rfl <;> (unfold IsTour; decide)

theorem halfDecay_positive : (LocalRule.decayTo (.fin (1/2)) (.fin 1) : LocalRule (Ext ℚ)).Positive :=
  ⟨1/2, 1, rfl, rfl, by norm_num, by norm_num, by norm_num, .inl (by norm_num)⟩

example := C131_acs_tours (fun x => x) (fun x _ => x) 1000 (fun _ => 0) (by decide) (constMat_pos 5 (x := 2) (by norm_num))
  (fun m hm => exGood m hm) halfDecay_positive (o := fun _ _ => List.reverse) (fun _ _ l => List.reverse_perm l) twoAble_able
  (tours := [[2, 0, 4, 3, 1], [0, 2, 1, 4, 3]]) rfl twoTours
example := C131_ant_system_histories (fun x => x) (fun x _ => x) 1000 (fun _ => 0) lineMat_instance (fun m hm => exGood m hm)
  (rho := 1/2) (by norm_num) twoAble (by decide) twoAble_able _ onesMat_pos ⟨rfl, rfl, fun _ _ _ _ => rfl⟩ ⟨[], .fin 0⟩ 7 10 (by decide)
  (fun _ _ _ => List.reverse) (fun _ _ _ l => List.reverse_perm l) (fun _ => [[2, 0, 4, 3, 1], [0, 2, 1, 4, 3]]) (fun _ => rfl)
  (fun _ => twoTours)
example := C131_ant_system_reports (fun x => x) (fun x _ => x) 1000 (fun _ => 0) lineMat_instance (fun m hm => exGood m hm)
  (rho := 1/2) (by norm_num) twoAble (by decide) twoAble_able _ onesMat_pos ⟨rfl, rfl, fun _ _ _ _ => rfl⟩ ⟨[], .fin 0⟩ 7 10 (by decide)
  (fun _ _ _ => List.reverse) (fun _ _ _ l => List.reverse_perm l) (fun _ => [2, 0, 4, 3, 1]) (fun _ => twoTours _ (by simp))
example := C131_acs_histories (fun x => x) (fun x _ => x) 1000 (fun _ => 0) lineMat_instance (fun m hm => exGood m hm)
  halfDecay_positive (policy := fun b ss => ss.headD b) (fun b ss => by cases ss <;> simp) (rho := 1/2) (by norm_num) (by norm_num)
  twoAble (by decide) twoAble_able _ onesMat_pos ⟨[], .fin 0⟩ ⟨by simp [InRange], 0, rfl, le_refl _⟩ 7 10 (by decide)
  (fun _ _ _ => List.reverse) (fun _ _ _ l => List.reverse_perm l) (fun _ => [[2, 0, 4, 3, 1], [0, 2, 1, 4, 3]]) (fun _ => rfl)
  (fun _ => twoTours)
/-- Only vertex 2 has any goodness: a positive draw cannot lead to vertex 1. -/
example := C131_no_goodness_no_move (fun x => x) (fun x _ => x) 1000 (fun _ => 0) (n := 3) (g := ⟨3, 3, fun _ j => .fin (if j = 2 then 1 else 0)⟩)
  (f := fun _ j => if j = 2 then (1 : ℚ) else 0) ⟨rfl, rfl, fun _ _ _ _ => rfl⟩ (last := 0) (v := 2) (by decide) [1, 2] (by decide) (1/2)
  (by norm_num) (by decide +kernel)

end instances

end Ecrs.Aco
