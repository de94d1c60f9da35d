import Verif.Props.Symmetry
import Verif.Props.ProbAco

set_option linter.unusedSectionVars false
set_option linter.unusedVariables false

/-!
# C178: the numbering of coordinates and cities does not matter
-/

namespace Ecrs.Pso
open Ecrs

section
variable {X K : Type} [Add X] [Sub X] [Mul X] [Neg X] [LinearOrder K]

/-- Specification: the vector whose coordinate `i` is the coordinate `p i` of `x`. -/
def reorder (dim : Nat) (p : Nat → Nat) (x : List X) : List X := (List.range dim).filterMap fun i => x[p i]?

/-- Specification: the same particle in the other numbering of the coordinates. -/
def Particle.reorder (dim : Nat) (p : Nat → Nat) (q : Particle X K) : Particle X K :=
  ⟨Pso.reorder dim p q.position, Pso.reorder dim p q.velocity, Pso.reorder dim p q.bestPosition, q.value, q.bestValue⟩

/-- Specification: the same swarm in the other numbering of the coordinates. -/
def Swarm.reorder (dim : Nat) (p : Nat → Nat) (s : Swarm X K) : Swarm X K :=
  ⟨s.particles.map (Particle.reorder dim p), Pso.reorder dim p s.bestPosition, s.bestValue⟩

variable {dim : Nat} {p : Nat → Nat} (hp : ∀ i < dim, p i < dim)

omit [Add X] [Sub X] [Mul X] [Neg X] in
include hp in
theorem map_some_reorder {x : List X} (hx : x.length = dim) :
    (reorder dim p x).map some = (List.range dim).map fun i => x[p i]? := by
  have : ∀ l : List Nat, (∀ i ∈ l, i < dim) → (l.filterMap fun i => x[p i]?).map some = l.map fun i => x[p i]? := by
    intro l
    induction l with
    | nil => intro _; rfl
    | cons i l ih =>
      intro h
      have h1 : p i < x.length := by rw [hx]; exact hp i (h i (by simp))
      rw [List.filterMap_cons_some (f := fun i => x[p i]?) (List.getElem?_eq_getElem h1), List.map_cons, List.map_cons,
        ih fun j hj => h j (by simp [hj]), List.getElem?_eq_getElem h1]
  exact this _ fun i hi => List.mem_range.1 hi

omit [Add X] [Sub X] [Mul X] [Neg X] in
include hp in
theorem reorder_length {x : List X} (hx : x.length = dim) : (reorder dim p x).length = dim := by
  have := congrArg List.length (map_some_reorder hp hx)
  simpa using this

omit [Add X] [Sub X] [Mul X] [Neg X] in
include hp in
theorem reorder_getElem {x : List X} (hx : x.length = dim) {i : Nat} (hi : i < dim) : (reorder dim p x)[i]? = x[p i]? := by
  have h := congrArg (·[i]?) (map_some_reorder hp hx)
  simp only [List.getElem?_map] at h
  rw [List.getElem?_range hi, Option.map_some] at h
  cases h1 : (reorder dim p x)[i]? with
  | none => rw [h1] at h; cases h
  | some y => rw [h1] at h; exact Option.some.inj h

omit [Add X] [Sub X] [Mul X] [Neg X] in
theorem ext_of_dim {x y : List X} (hx : x.length = dim) (hy : y.length = dim) (h : ∀ i < dim, x[i]? = y[i]?) : x = y := by
  refine List.ext_getElem? fun i => ?_
  by_cases hi : i < dim
  · exact h i hi
  · rw [List.getElem?_eq_none (by omega), List.getElem?_eq_none (by omega)]

omit [Add X] [Sub X] [Mul X] [Neg X] in
include hp in
theorem reorder_map_range (h : Nat → X) : reorder dim p ((List.range dim).map h) = (List.range dim).map fun i => h (p i) := by
  refine ext_of_dim (reorder_length hp (by simp)) (by simp) fun i hi => ?_
  rw [reorder_getElem hp (by simp) hi, List.getElem?_map, List.getElem?_map, List.getElem?_range hi, List.getElem?_range (hp i hi)]
  rfl

include hp in
theorem velocityFrom_reorder (c : Coeffs X) (draw : Nat → X × X) {v x b g : List X} (hv : v.length = dim) (hx : x.length = dim)
    (hb : b.length = dim) (hg : g.length = dim) :
    velocityFrom c (fun d => draw (p d)) 0 (reorder dim p v) (reorder dim p x) (reorder dim p b) (reorder dim p g) =
      reorder dim p (velocityFrom c draw 0 v x b g) := by
  have hl := velocityFrom_length c draw dim 0 v x b g hv hx hb hg
  refine ext_of_dim (velocityFrom_length c _ dim 0 _ _ _ _ (reorder_length hp hv) (reorder_length hp hx) (reorder_length hp hb)
    (reorder_length hp hg)) (reorder_length hp hl) fun i hi => ?_
  have e : ∀ {l : List X}, l.length = dim → ∃ y, l[p i]? = some y := fun h =>
    ⟨_, List.getElem?_eq_getElem (by rw [h]; exact hp i hi)⟩
  obtain ⟨v1, ev⟩ := e hv
  obtain ⟨x1, ex⟩ := e hx
  obtain ⟨b1, eb⟩ := e hb
  obtain ⟨g1, eg⟩ := e hg
  rw [reorder_getElem hp hl hi, velocityFrom_getElem? c draw (p i) 0 _ _ _ _ _ _ _ _ ev ex eb eg,
    velocityFrom_getElem? c _ i 0 _ _ _ _ _ _ _ _ ((reorder_getElem hp hv hi).trans ev) ((reorder_getElem hp hx hi).trans ex)
      ((reorder_getElem hp hb hi).trans eb) ((reorder_getElem hp hg hi).trans eg), Nat.zero_add, Nat.zero_add]

variable {f f' : List X → Fl K} (hf : ∀ x, x.length = dim → f' (reorder dim p x) = f x)

include hp in
theorem zipAdd_reorder {x v : List X} (hx : x.length = dim) (hv : v.length = dim) :
    List.zipWith (fun x v => x + v) (reorder dim p x) (reorder dim p v) = reorder dim p (List.zipWith (fun x v => x + v) x v) := by
  have hl : (List.zipWith (fun x v => x + v) x v).length = dim := by rw [List.length_zipWith, hx, hv, Nat.min_self]
  refine ext_of_dim (by rw [List.length_zipWith, reorder_length hp hx, reorder_length hp hv, Nat.min_self]) (reorder_length hp hl)
    fun i hi => ?_
  rw [reorder_getElem hp hl hi, List.getElem?_zipWith, List.getElem?_zipWith, reorder_getElem hp hx hi, reorder_getElem hp hv hi]

include hp hf in
theorem updatePosition_reorder {q : Particle X K} (hx : q.position.length = dim) (hv : q.velocity.length = dim) :
    (q.reorder dim p).updatePosition f' = (q.updatePosition f).reorder dim p := by
  unfold Particle.updatePosition
  have h : List.zipWith (fun x v => x + v) (q.reorder dim p).position (q.reorder dim p).velocity =
    reorder dim p (List.zipWith (fun x v => x + v) q.position q.velocity) := zipAdd_reorder hp hx hv
  simp only
  rw [h, hf _ (by rw [List.length_zipWith, hx, hv, Nat.min_self])]
  show (if Fl.lt (f (List.zipWith (fun x v => x + v) q.position q.velocity)) q.bestValue = true then _ else _) =
    Particle.reorder dim p
      (if Fl.lt (f (List.zipWith (fun x v => x + v) q.position q.velocity)) q.bestValue = true then _ else _)
  cases Fl.lt (f (List.zipWith (fun x v => x + v) q.position q.velocity)) q.bestValue <;> rfl

include hf in
theorem initialBest_reorder : ∀ (best : List X) (qs : List (Particle X K)), best.length = dim → (∀ q ∈ qs, q.position.length = dim) →
    initialBest f' (reorder dim p best) (qs.map (Particle.reorder dim p)) = reorder dim p (initialBest f best qs)
  | _, [], _, _ => rfl
  | best, q :: qs, hb, hq => by
    rw [List.map_cons, initialBest, initialBest]
    show (if Fl.lt (f' (reorder dim p q.position)) (f' (reorder dim p best)) = true then
      initialBest _ (reorder dim p q.position) _ else initialBest _ (reorder dim p best) _) = _
    have h1 := hq q (by simp)
    have h2 : ∀ q ∈ qs, q.position.length = dim := fun q h => hq q (by simp [h])
    rw [hf _ h1, hf _ hb, initialBest_reorder q.position qs h1 h2, initialBest_reorder best qs hb h2]
    split <;> rfl

include hf in
theorem foldBest_reorder : ∀ (qs : List (Particle X K)) (r : List X × Fl K), r.1.length = dim →
    (∀ q ∈ qs, q.bestPosition.length = dim) →
    (qs.map (Particle.reorder dim p)).foldl (bestStep f') (reorder dim p r.1, r.2) =
      (reorder dim p (qs.foldl (bestStep f) r).1, (qs.foldl (bestStep f) r).2)
  | [], _, _, _ => rfl
  | q :: qs, r, hr, hq => by
    have h1 := hq q (by simp)
    have h2 : (bestStep f r q).1.length = dim := by
      unfold bestStep
      split
      · exact h1
      · exact hr
    rw [List.map_cons, List.foldl_cons, List.foldl_cons,
      ← foldBest_reorder qs (bestStep f r q) h2 fun q h => hq q (by simp [h])]
    congr 1
    unfold bestStep
    show (if Fl.lt (f' (reorder dim p q.bestPosition)) (f' (reorder dim p r.1)) = true then _ else _) =
      (reorder dim p (if Fl.lt (f q.bestPosition) (f r.1) = true then _ else _ : List X × Fl K).1,
        (if Fl.lt (f q.bestPosition) (f r.1) = true then _ else _ : List X × Fl K).2)
    rw [hf _ h1, hf _ hr]
    cases Fl.lt (f q.bestPosition) (f r.1) <;> rfl

include hp hf in
theorem iterate_reorder (c : Coeffs X) (draw : Nat → Nat → X × X) {s : Swarm X K} (hs : HasDim dim s) :
    (s.reorder dim p).iterate c f' (fun j d => draw j (p d)) = (s.iterate c f draw).reorder dim p := by
  have hnew := (C49_dimension_invariant c f draw hs).1
  unfold Swarm.iterate Swarm.updateBest Swarm.updatePositions Swarm.updateVelocities at hnew
  unfold Swarm.iterate Swarm.updateBest Swarm.updatePositions Swarm.updateVelocities Swarm.reorder
  have h : List.map (Particle.updatePosition f')
      (List.mapIdx (fun j q => Particle.updateVelocity c (fun d => draw j (p d)) (reorder dim p s.bestPosition) q)
        (s.particles.map (Particle.reorder dim p))) =
      (List.map (Particle.updatePosition f)
        (List.mapIdx (fun j q => Particle.updateVelocity c (draw j) s.bestPosition q) s.particles)).map
        (Particle.reorder dim p) := by
    rw [List.mapIdx_eq_zipIdx_map, List.mapIdx_eq_zipIdx_map, List.zipIdx_map, List.map_map, List.map_map, List.map_map,
      List.map_map]
    refine List.map_congr_left fun r hr => ?_
    obtain ⟨h1, h2, h3⟩ := hs.2 r.1 (List.fst_mem_of_mem_zipIdx hr)
    show ((r.1.reorder dim p).updateVelocity c (fun d => draw r.2 (p d)) (reorder dim p s.bestPosition)).updatePosition f' =
      ((r.1.updateVelocity c (draw r.2) s.bestPosition).updatePosition f).reorder dim p
    rw [← updatePosition_reorder (q := r.1.updateVelocity c (draw r.2) s.bestPosition) hp hf h1
      (velocityFrom_length c (draw r.2) dim 0 _ _ _ _ h2 h1 h3 hs.1)]
    congr 1
    unfold Particle.updateVelocity Particle.reorder
    simp only
    rw [velocityFrom_reorder hp c (draw r.2) h2 h1 h3 hs.1]
  simp only
  rw [h]
  have := foldBest_reorder (p := p) hf (List.map (Particle.updatePosition f)
    (List.mapIdx (fun j q => Particle.updateVelocity c (draw j) s.bestPosition q) s.particles)) (s.bestPosition, s.bestValue) hs.1
    fun q hq => (hnew.2 q hq).2.2
  simp only at this
  rw [this]

include hp hf in
theorem loop_reorder {W : Type} (isMet isMet' : Term W X K)
    (ht : ∀ g s, isMet' g (s.reorder dim p) = isMet g s) (c : Coeffs X)
    (draw : Nat → Nat → Nat → X × X) : ∀ (fuel i : Nat) (s : Swarm X K), HasDim dim s →
    loop isMet' c f' (fun i j d => draw i j (p d)) fuel i (s.reorder dim p) =
      (fun r => (r.1.reorder dim p, r.2.map (Ev.map (Swarm.reorder dim p)))) <$> loop isMet c f draw fuel i s
  | 0, _, _, _ => rfl
  | fuel + 1, i, s, hs => by
    rw [map_eq_pure_bind]
    unfold loop
    rw [ht, bind_assoc]
    congr 1
    funext stop
    cases stop with
    | true => rfl
    | false =>
      simp only [Bool.false_eq_true, if_false]
      rw [iterate_reorder hp hf c (draw (i + 1)) hs,
        loop_reorder isMet isMet' ht c draw fuel (i + 1) _ (C49_dimension_invariant c f (draw (i + 1)) hs).1,
        map_eq_pure_bind, bind_assoc, bind_assoc]
      rfl

include hp hf in
/-- **C178, particle swarms.** Number the coordinates differently: coordinate `i` of the new vectors is coordinate `p i` of the old ones,
the objective `f'` reads the new vectors, and the draws for coordinate `i` are those for `p i`.  Then the swarm built is the old one with
its vectors rearranged, and so is every swarm of the run; all values, the number of iterations and the stopping are the same.  For every
arithmetic of the coordinates, rounded or not. -/
theorem C178_pso {W : Type} (abs : X → X) (count : Nat) (lo hi : X) (draw0 : Nat → Nat → X × X)
    (isMet isMet' : Term W X K) (ht : ∀ g s, isMet' g (s.reorder dim p) = isMet g s) (c : Coeffs X)
    (draw : Nat → Nat → Nat → X × X) (fuel : Nat) :
    Swarm.generate abs count dim lo hi f' (fun j d => draw0 j (p d)) =
      (Swarm.generate abs count dim lo hi f draw0).map (Swarm.reorder dim p) ∧
    ∀ s : Swarm X K, HasDim dim s → run isMet' c f' (fun i j d => draw i j (p d)) fuel (s.reorder dim p) =
      (fun r => (r.1.reorder dim p, r.2.map (Ev.map (Swarm.reorder dim p)))) <$> run isMet c f draw fuel s := by
  constructor
  · unfold Swarm.generate
    have hg : ∀ d : Nat → X × X, Particle.generate abs dim lo hi f' (fun i => d (p i)) =
        (Particle.generate abs dim lo hi f d).reorder dim p := by
      intro d
      unfold Particle.generate Particle.reorder
      simp only
      rw [reorder_map_range hp fun i => scaled lo hi (d i).1,
        reorder_map_range hp fun i => scaled (-(abs (hi - lo))) (abs (hi - lo)) (d i).2,
        ← hf _ (by simp : ((List.range dim).map fun i => scaled lo hi (d i).1).length = dim),
        reorder_map_range hp fun i => scaled lo hi (d i).1]
    have h : ((List.range count).map fun j => Particle.generate abs dim lo hi f' fun d => draw0 j (p d)) =
        ((List.range count).map fun j => Particle.generate abs dim lo hi f (draw0 j)).map (Particle.reorder dim p) := by
      rw [List.map_map]
      exact List.map_congr_left fun j _ => hg _
    rw [h]
    have hd : ∀ q ∈ (List.range count).map fun j => Particle.generate abs dim lo hi f (draw0 j), q.position.length = dim ∧
        q.bestPosition.length = dim := by
      intro q hq
      obtain ⟨j, -, rfl⟩ := List.mem_map.1 hq
      simp [Particle.generate]
    revert hd
    cases (List.range count).map fun j => Particle.generate abs dim lo hi f (draw0 j) with
    | nil => intro _; rfl
    | cons q qs =>
      intro hd
      have hb := initialBest_reorder (p := p) hf q.bestPosition (q :: qs) (hd q (by simp)).2 fun q hq => (hd q hq).1
      have hl : (initialBest f q.bestPosition (q :: qs)).length = dim := by
        rcases (initialBest_spec f (q :: qs) q.bestPosition).1 with h5 | ⟨r, hr, h5⟩
        · rw [h5]; exact (hd q (by simp)).2
        · rw [h5]; exact (hd r hr).1
      rw [List.map_cons] at hb
      show Except.ok (⟨q.reorder dim p :: qs.map (Particle.reorder dim p),
        initialBest f' (reorder dim p q.bestPosition) (q.reorder dim p :: qs.map (Particle.reorder dim p)),
        f' (initialBest f' (reorder dim p q.bestPosition) (q.reorder dim p :: qs.map (Particle.reorder dim p)))⟩ : Swarm X K) = _
      rw [hb, hf _ hl]; rfl
  · intro s hs
    rw [map_eq_pure_bind]
    unfold run
    rw [loop_reorder hp hf isMet isMet' ht c draw fuel 0 s hs, map_eq_pure_bind, bind_assoc, bind_assoc]
    rfl

end
end Ecrs.Pso

namespace Ecrs.Aco
open Ecrs
open scoped ENNReal

section
variable {n : Nat} {π : Nat → Nat}

theorem ruleStep_renamed {q : ℝ} {f f' : Nat → Nat → ℝ} {last v : Nat} {candidates : List Nat}
    (hf : ∀ u ∈ candidates, f' (π last) (π u) = f last u) (hv : v ∈ candidates) :
    ruleStep q f' (π last) (candidates.map π) (π v) = ruleStep q f last candidates v := by
  unfold ruleStep
  have h1 : (∀ u ∈ candidates.map π, f' (π last) u ≤ f' (π last) (π v)) ↔ ∀ u ∈ candidates, f last u ≤ f last v := by
    rw [List.forall_mem_map]
    refine forall₂_congr fun u hu => ?_
    rw [hf u hu, hf v hv]
  have h2 : (candidates.map π).map (f' (π last)) = candidates.map (f last) := by
    rw [List.map_map]
    exact List.map_congr_left fun u hu => hf u hu
  rw [h2]
  by_cases h : ∀ u ∈ candidates, f last u ≤ f last v
  · rw [if_pos h, if_pos (h1.2 h), hf v hv]
  · rw [if_neg h, if_neg (h1.not.2 h), hf v hv]

theorem tourProb_renamed {q : ℝ} {f f' : Nat → Nat → ℝ} (hf : ∀ i j, i < n → j < n → f' (π i) (π j) = f i j) :
    ∀ (vs : List Nat) (last : Nat), last < n → (∀ v ∈ vs, v < n) → tourProb q f' (π last) (vs.map π) = tourProb q f last vs
  | [], _, _, _ => rfl
  | v :: vs, last, hl, hv => by
    rw [List.map_cons, tourProb, tourProb, tourProb_renamed hf vs v (hv v (by simp)) fun u hu => hv u (by simp [hu]),
      ← List.map_cons, ruleStep_renamed (fun u hu => hf last u hl (hv u hu)) (by simp)]

/-- The names of the cities do not matter to the probability of a tour. -/
theorem tourChance_renamed {q : ℝ} {f f' : Nat → Nat → ℝ} (hf : ∀ i j, i < n → j < n → f' (π i) (π j) = f i j) {tour : List Nat}
    (ht : ∀ v ∈ tour, v < n) : tourChance n q f' (tour.map π) = tourChance n q f tour := by
  cases tour with
  | nil => rfl
  | cons s vs =>
    rw [List.map_cons, tourChance, tourChance, tourProb_renamed hf vs s (ht s (by simp)) fun u hu => ht u (by simp [hu])]

/-- Specification: `π` gives the cities `0..n` other numbers among `0..n`. -/
def Renumbering (n : Nat) (π : Nat → Nat) : Prop := ((List.range n).map π).Perm (List.range n)

theorem Renumbering.lt (h : Renumbering n π) {i : Nat} (hi : i < n) : π i < n :=
  List.mem_range.1 (h.subset (List.mem_map_of_mem (List.mem_range.2 hi)))

theorem Renumbering.inj (h : Renumbering n π) {i j : Nat} (hi : i < n) (hj : j < n) (e : π i = π j) : i = j :=
  List.inj_on_of_nodup_map (h.nodup_iff.2 List.nodup_range) (List.mem_range.2 hi) (List.mem_range.2 hj) e

theorem Renumbering.surj (h : Renumbering n π) {j : Nat} (hj : j < n) : ∃ i < n, π i = j := by
  obtain ⟨i, hi, e⟩ := List.mem_map.1 (h.symm.subset (List.mem_range.2 hj))
  exact ⟨i, List.mem_range.1 hi, e⟩

theorem Renumbering.tour (h : Renumbering n π) {t : List Nat} (ht : IsTour n t) : IsTour n (t.map π) := (ht.map π).trans h

end

section
variable {G : Type} [MeasurableSpace G] {R : Rng G ℝ} {μ : MeasureTheory.Measure G}
variable (sqrt : Ext ℝ → Ext ℝ) (pow : Ext ℝ → Ext ℝ → Ext ℝ) (maxv : ℝ) (floor : ℝ → Nat)

local notation "A0" => exactOps sqrt pow maxv floor

/-- **C178, Ant System.** Give the cities other numbers.  Under ideal draws, an iteration on the renumbered goodness matrix makes the
renumbered tours with exactly the probability with which the iteration on the old matrix makes the old tours – for canonical and
exploiting ants, and in whatever orders the two programs walk through their sets of unvisited cities. -/
theorem C178_ant_system (hR : Ideal R μ) (hmax : 0 ≤ maxv) {goodness goodness' : Mat (Ext ℝ) → Except Panic (Mat (Ext ℝ))}
    {ph ph' g g' : Mat (Ext ℝ)} {n : Nat} {f f' : Nat → Nat → ℝ} (hrows : ph.rows = n) (hrows' : ph'.rows = n)
    (hgo : goodness ph = .ok g) (hgo' : goodness' ph' = .ok g') (hg : FinMat n g f) (hg' : FinMat n g' f')
    {π : Nat → Nat} (hπ : Renumbering n π) (hff : ∀ i j, i < n → j < n → f' (π i) (π j) = f i j)
    (hf : ∀ i j, i < n → j < n → i ≠ j → 0 < f i j) (hn : 0 < n) {o o' : Nat → Nat → List Nat → List Nat}
    (ho : ∀ k t l, (o k t l).Perm l) (ho' : ∀ k t l, (o' k t l).Perm l) {ants : List (Ant (Ext ℝ))} {qs : List ℝ}
    (hc : Colony n ants qs) (hties : (∃ q ∈ qs, q ≠ 0) → NoTies n f)
    {tours : List (List Nat)} (hl : tours.length = ants.length) (ht : ∀ t ∈ tours, IsTour n t) :
    chance μ (antSystemM R A0 goodness' o' ho' ants ph') (fun r => r.2.1 = tours.map (List.map π)) =
      chance μ (antSystemM R A0 goodness o ho ants ph) (fun r => r.2.1 = tours) := by
  have hlt : ∀ t ∈ tours, ∀ v ∈ t, v < n := fun t h v hv => List.mem_range.1 ((ht t h).mem_iff.1 hv)
  rw [C136_ant_system sqrt pow maxv floor hR hmax hrows hgo hg hf hn ho hc hties hl ht,
    C136_ant_system sqrt pow maxv floor hR hmax hrows' hgo' hg' (f := f') (qs := qs) (tours := tours.map (List.map π)) ?_ hn ho' hc ?_
      (by rw [List.length_map, hl]) ?_]
  · congr 1
    rw [List.zipWith_map_right]
    clear hc hl hties
    induction tours generalizing qs with
    | nil => simp
    | cons t ts ih =>
      cases qs with
      | nil => rfl
      | cons q qs =>
        rw [List.zipWith_cons_cons, List.zipWith_cons_cons, tourChance_renamed hff (hlt t (by simp)),
          ih (fun t h => ht t (by simp [h])) fun t h => hlt t (by simp [h])]
  · intro i' j' hi hj hij
    obtain ⟨i, h1, rfl⟩ := hπ.surj hi
    obtain ⟨j, h2, rfl⟩ := hπ.surj hj
    rw [hff i j h1 h2]
    exact hf i j h1 h2 fun e => hij (by rw [e])
  · intro hq i' j' k' hi hj hk hij hik hjk
    obtain ⟨i, h1, rfl⟩ := hπ.surj hi
    obtain ⟨j, h2, rfl⟩ := hπ.surj hj
    obtain ⟨k, h3, rfl⟩ := hπ.surj hk
    rw [hff i j h1 h2, hff i k h1 h3]
    exact hties hq i j k h1 h2 h3 (fun e => hij (by rw [e])) (fun e => hik (by rw [e])) fun e => hjk (by rw [e])
  · intro t' h
    obtain ⟨t, h1, rfl⟩ := List.mem_map.1 h
    exact hπ.tour (ht t h1)

end

section
variable {F : Type} [Field F] [LinearOrder F] [IsStrictOrderedRing F]
variable (sqrt : Ext F → Ext F) (pow : Ext F → Ext F → Ext F) (maxv : F) (floor : F → Nat)
variable {n : Nat} {π : Nat → Nat}

theorem windows_map (π : Nat → Nat) (p : List Nat) : windows (p.map π) = (windows p).map (Prod.map π π) := by
  unfold windows
  rw [← List.map_tail, ← List.map_take, ← List.map_append, List.zip_map]

theorem uses_renamed (hπ : Renumbering n π) {p : List Nat} (hp : ∀ v ∈ p, v < n) {a b : Nat} (ha : a < n) (hb : b < n) :
    uses (p.map π) (π a) (π b) = uses p a b := by
  have key : ∀ {a b : Nat}, a < n → b < n → ∀ l : List (Nat × Nat), (∀ e ∈ l, e.1 < n ∧ e.2 < n) →
      (l.map (Prod.map π π)).count (π a, π b) = l.count (a, b) := by
    intro a b ha hb l
    induction l with
    | nil => intro _; rfl
    | cons e l ih =>
      intro h
      obtain ⟨h1, h2⟩ := h e (by simp)
      rw [List.map_cons, List.count_cons, List.count_cons, ih fun e he => h e (by simp [he])]
      congr 1
      by_cases he : e = (a, b)
      · subst he; simp
      · have : Prod.map π π e ≠ (π a, π b) := by
          intro h3
          obtain ⟨h4, h5⟩ := Prod.mk.inj h3
          exact he (Prod.ext (hπ.inj h1 ha h4) (hπ.inj h2 hb h5))
        simp [he, this]
  have hw : ∀ e ∈ windows p, e.1 < n ∧ e.2 < n := fun e he => ⟨hp _ (windows_mem he).1, hp _ (windows_mem he).2⟩
  unfold uses
  rw [windows_map, key ha hb _ hw, key hb ha _ hw]

theorem deposit_renamed (hπ : Renumbering n π) : ∀ (ps : List (List Nat × F)), (∀ s ∈ ps, ∀ v ∈ s.1, v < n) → ∀ {a b : Nat}, a < n →
    b < n → deposit (ps.map fun s => (s.1.map π, s.2)) (π a) (π b) = deposit ps a b
  | [], _, _, _, _, _ => rfl
  | s :: ss, hs, a, b, ha, hb => by
    rw [List.map_cons, deposit, deposit, deposit_renamed hπ ss (fun s h => hs s (by simp [h])) ha hb, uses_renamed hπ (hs s (by simp)) ha hb]

/-- **C178, pheromones.** The pheromone update of Ant System, given the renumbered pheromones and the renumbered tours, makes the
renumbered pheromones. -/
theorem C178_pheromones (hπ : Renumbering n π) {rho : F} {ps : List (List Nat × F)} {ph ph' : Mat (Ext F)} {f f' : Nat → Nat → F}
    (hp : FinMat n ph f) (hp' : FinMat n ph' f') (hff : ∀ i j, i < n → j < n → f' (π i) (π j) = f i j)
    (hs : ∀ s ∈ ps, ∀ v ∈ s.1, v < n) :
    ∃ new new' h h', antSystemPU (exactOps sqrt pow maxv floor) (.fin rho) (ofPairs ps) ph = .ok new ∧
      antSystemPU (exactOps sqrt pow maxv floor) (.fin rho) (ofPairs (ps.map fun s => (s.1.map π, s.2))) ph' = .ok new' ∧
      FinMat n new h ∧ FinMat n new' h' ∧ ∀ i j, i < n → j < n → h' (π i) (π j) = h i j := by
  have hs' : ∀ s ∈ ps.map fun s => (s.1.map π, s.2), ∀ v ∈ s.1, v < n := by
    intro s h v hv
    obtain ⟨t, ht, rfl⟩ := List.mem_map.1 h
    obtain ⟨u, hu, rfl⟩ := List.mem_map.1 hv
    exact hπ.lt (hs t ht u hu)
  obtain ⟨new, e1, e2⟩ := C90_ant_system_formula sqrt pow maxv floor (rho := rho) hp hs
  obtain ⟨new', e3, e4⟩ := C90_ant_system_formula sqrt pow maxv floor (rho := rho) hp' hs'
  refine ⟨new, new', _, _, e1, e3, e2, e4, fun i j hi hj => ?_⟩
  rw [hff i j hi hj, deposit_renamed hπ ps hs hi hj]

end

/-! ## Concrete cases -/

/-- Cities 0, 1, 2 become 1, 2, 0. -/
def turn (i : Nat) : Nat := (i + 1) % 3

theorem turn_renumbering : Renumbering 3 turn := by unfold Renumbering turn; decide

/-- The goodness `i + j` in the new numbering. -/
def turnedG : Mat (Ext ℝ) := ⟨3, 3, fun i j => .fin (((i + 2) % 3 + (j + 2) % 3 : Nat) : ℝ)⟩

example := C178_ant_system (fun x => x) (fun x _ => x) 1000 (fun _ => 0) tapeRng_ideal (by norm_num) (goodness := fun ph => .ok ph)
  (goodness' := fun ph => .ok ph) (n := 3) (ph := exG) (ph' := turnedG) rfl rfl rfl rfl exG_fin
  (f' := fun i j => (((i + 2) % 3 + (j + 2) % 3 : Nat) : ℝ)) ⟨rfl, rfl, fun _ _ _ _ => rfl⟩ turn_renumbering
  (by
    intro i j hi hj
    have h : ∀ i, i < 3 → (turn i + 2) % 3 = i := by unfold turn; omega
    rw [h i hi, h j hj])
  exG_pos (by decide : 0 < 3) (o := fun _ _ => List.reverse) (o' := fun _ _ => id) (fun _ _ l => List.reverse_perm l)
  (fun _ _ l => .refl _) (ants := [Ant.canonical 3, Ant.canonical 3]) (qs := [0, 0])
  (.cons ⟨ready_canonical 3, .inl ⟨rfl, rfl⟩⟩ (.cons ⟨ready_canonical 3, .inl ⟨rfl, rfl⟩⟩ .nil)) (fun _ => exG_ties)
  (tours := [[2, 0, 1], [0, 1, 2]]) rfl (by
    intro t ht
    simp only [List.mem_cons, List.not_mem_nil, or_false] at ht
    rcases ht with rfl | rfl <;> (unfold IsTour; decide))

example := C178_pheromones (fun x => x) (fun x _ => x) (1000 : ℚ) (fun _ => 0) turn_renumbering (rho := 1 / 2)
  (ps := [([2, 0, 1], 3), ([0, 1, 2], 4)]) (ph := ⟨3, 3, fun _ _ => .fin 1⟩) (ph' := ⟨3, 3, fun _ _ => .fin 1⟩)
  (f := fun _ _ => 1) (f' := fun _ _ => 1) ⟨rfl, rfl, fun _ _ _ _ => rfl⟩ ⟨rfl, rfl, fun _ _ _ _ => rfl⟩ (fun _ _ _ _ => rfl)
  (by
    intro s hs
    simp only [List.mem_cons, List.not_mem_nil, or_false] at hs
    rcases hs with rfl | rfl <;> simp)

end Ecrs.Aco

namespace Ecrs.Pso
open Ecrs

/-- Two coordinates exchanged: the objective `x + 2y` becomes `2x + y`. -/
def firstPlus (a b : ℤ) (x : List ℤ) : Fl ℤ := match x with
  | [x, y] => .num (a * x + b * y)
  | _ => .nan

example := C178_pso (X := ℤ) (dim := 2) (p := fun i => 1 - i) (by omega) (f := firstPlus 1 2) (f' := firstPlus 2 1)
  (fun x hx => by
    match x, hx with
    | [a, b], _ =>
      show Fl.num (2 * b + 1 * a) = Fl.num (1 * a + 2 * b)
      congr 1
      ring)
  (W := Unit) (fun x => |x|) 3 (-1) 1 (fun j d => ((j : ℤ), (d : ℤ))) (generationLimit 4) (generationLimit 4) (fun _ _ => rfl)
  ⟨1, 2, 3⟩ (fun i j d => ((i + j : ℤ), (d : ℤ))) 10

end Ecrs.Pso
