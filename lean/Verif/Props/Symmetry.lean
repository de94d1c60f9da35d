import Verif.Props.OrderInvariance
import Verif.Props.Pso2

set_option linter.unusedSectionVars false
set_option linter.unusedVariables false

/-!
# C145 for particle swarms, C146: searches do not depend on the units of the coordinates
-/

namespace Ecrs.Pso
open Ecrs

/-! ## Transformed objective values -/

section order
variable {X K L : Type} [Add X] [Sub X] [Mul X] [Neg X] [LinearOrder K] [LinearOrder L]

/-- The same particle with the transformed values. -/
def Particle.relabel (φ : K → L) (q : Particle X K) : Particle X L :=
  ⟨q.position, q.velocity, q.bestPosition, q.value.map φ, q.bestValue.map φ⟩

/-- The same swarm with the transformed values. -/
def Swarm.relabel (φ : K → L) (s : Swarm X K) : Swarm X L :=
  ⟨s.particles.map (Particle.relabel φ), s.bestPosition, s.bestValue.map φ⟩

/-- The same callback with the transformed swarm. -/
def Ev.map {Y : Type} (h : Swarm X K → Swarm Y L) : Ev X K → Ev Y L
  | .onBegin s => .onBegin (h s)
  | .onNewGeneration s g => .onNewGeneration (h s) g
  | .onEnd s g => .onEnd (h s) g

variable {φ : K → L} (hφ : StrictMono φ)
include hφ

theorem updatePosition_relabel (f : List X → Fl K) (q : Particle X K) :
    (q.relabel φ).updatePosition (fun x => (f x).map φ) = (q.updatePosition f).relabel φ := by
  unfold Particle.updatePosition
  show (if Fl.lt ((f (List.zipWith (fun x v => x + v) q.position q.velocity)).map φ) (q.bestValue.map φ) = true then _
    else _) = Particle.relabel φ (if Fl.lt (f (List.zipWith (fun x v => x + v) q.position q.velocity)) q.bestValue = true
      then _ else _)
  rw [Fl.lt_map hφ]
  cases Fl.lt (f (List.zipWith (fun x v => x + v) q.position q.velocity)) q.bestValue <;> rfl

theorem initialBest_relabel (f : List X → Fl K) : ∀ (best : List X) (qs : List (Particle X K)),
    initialBest (fun x => (f x).map φ) best (qs.map (Particle.relabel φ)) = initialBest f best qs
  | _, [] => rfl
  | best, q :: qs => by
    rw [List.map_cons, initialBest, initialBest]
    show (if Fl.lt ((f q.position).map φ) ((f best).map φ) = true then
      initialBest _ q.position _ else initialBest _ best _) = _
    rw [Fl.lt_map hφ, initialBest_relabel f q.position qs, initialBest_relabel f best qs]

theorem foldBest_relabel (f : List X → Fl K) : ∀ (qs : List (Particle X K)) (b : List X × Fl K),
    (qs.map (Particle.relabel φ)).foldl (bestStep fun x => (f x).map φ) (b.1, b.2.map φ) =
      ((qs.foldl (bestStep f) b).1, (qs.foldl (bestStep f) b).2.map φ)
  | [], _ => rfl
  | q :: qs, b => by
    rw [List.map_cons, List.foldl_cons, List.foldl_cons, ← foldBest_relabel f qs (bestStep f b q)]
    congr 1
    unfold bestStep
    show (if Fl.lt ((f q.bestPosition).map φ) ((f b.1).map φ) = true then _ else _) =
      ((if Fl.lt (f q.bestPosition) (f b.1) = true then _ else _ : List X × Fl K).1,
        Fl.map φ (if Fl.lt (f q.bestPosition) (f b.1) = true then _ else _ : List X × Fl K).2)
    rw [Fl.lt_map hφ]
    cases Fl.lt (f q.bestPosition) (f b.1) <;> rfl

theorem iterate_relabel (c : Coeffs X) (f : List X → Fl K) (draw : Nat → Nat → X × X) (s : Swarm X K) :
    (s.relabel φ).iterate c (fun x => (f x).map φ) draw = (s.iterate c f draw).relabel φ := by
  unfold Swarm.iterate Swarm.updateBest Swarm.updatePositions Swarm.updateVelocities Swarm.relabel
  have h : List.map (Particle.updatePosition fun x => (f x).map φ)
      (List.mapIdx (fun j q => Particle.updateVelocity c (draw j) s.bestPosition q) (s.particles.map (Particle.relabel φ))) =
      (List.map (Particle.updatePosition f)
        (List.mapIdx (fun j q => Particle.updateVelocity c (draw j) s.bestPosition q) s.particles)).map
        (Particle.relabel φ) := by
    rw [List.mapIdx_eq_zipIdx_map, List.mapIdx_eq_zipIdx_map, List.zipIdx_map, List.map_map, List.map_map, List.map_map,
      List.map_map]
    refine List.map_congr_left fun a _ => ?_
    exact updatePosition_relabel hφ f (a.1.updateVelocity c (draw a.2) s.bestPosition)
  simp only
  rw [h]
  have := foldBest_relabel hφ f (List.map (Particle.updatePosition f)
    (List.mapIdx (fun j q => Particle.updateVelocity c (draw j) s.bestPosition q) s.particles)) (s.bestPosition, s.bestValue)
  simp only at this
  rw [this]

theorem loop_relabel {W : Type} (isMet : Term W X K) (isMet' : Term W X L)
    (ht : ∀ g s, isMet' g (s.relabel φ) = isMet g s) (c : Coeffs X) (f : List X → Fl K)
    (draw : Nat → Nat → Nat → X × X) : ∀ (fuel i : Nat) (s : Swarm X K),
    loop isMet' c (fun x => (f x).map φ) draw fuel i (s.relabel φ) =
      (fun r => (r.1.relabel φ, r.2.map (Ev.map (Swarm.relabel φ)))) <$> loop isMet c f draw fuel i s
  | 0, _, _ => rfl
  | fuel + 1, i, s => by
    rw [map_eq_pure_bind]
    unfold loop
    rw [ht, bind_assoc]
    congr 1
    funext stop
    cases stop with
    | true => rfl
    | false =>
      simp only [Bool.false_eq_true, if_false]
      rw [iterate_relabel hφ, loop_relabel isMet isMet' ht c f draw fuel (i + 1), map_eq_pure_bind, bind_assoc, bind_assoc]
      rfl

/-- **C145** (particle swarms).  Replace the objective `f` by `φ ∘ f` with `φ` strictly increasing.  With the same random
draws (and the same clock) the algorithm builds the same swarm and performs the same run: positions, velocities, personal
and swarm best positions and the callbacks are the same, and every value `v` now reads `φ v` (NaN stays NaN).  Coordinates
have arbitrary arithmetic, so rounding does not matter; `isMet` is any stopping rule that does not look at the values. -/
theorem C145_pso {W : Type} (abs : X → X) (count dim : Nat) (lo hi : X) (f : List X → Fl K)
    (draw0 : Nat → Nat → X × X) (isMet : Term W X K) (isMet' : Term W X L)
    (ht : ∀ g s, isMet' g (s.relabel φ) = isMet g s) (c : Coeffs X) (draw : Nat → Nat → Nat → X × X) (fuel : Nat) :
    Swarm.generate abs count dim lo hi (fun x => (f x).map φ) draw0 =
      (Swarm.generate abs count dim lo hi f draw0).map (Swarm.relabel φ) ∧
    ∀ s : Swarm X K, run isMet' c (fun x => (f x).map φ) draw fuel (s.relabel φ) =
      (fun r => (r.1.relabel φ, r.2.map (Ev.map (Swarm.relabel φ)))) <$> run isMet c f draw fuel s := by
  constructor
  · unfold Swarm.generate
    have h : ((List.range count).map fun j => Particle.generate abs dim lo hi (fun x => (f x).map φ) (draw0 j)) =
        ((List.range count).map fun j => Particle.generate abs dim lo hi f (draw0 j)).map (Particle.relabel φ) := by
      rw [List.map_map]; rfl
    rw [h]
    cases (List.range count).map fun j => Particle.generate abs dim lo hi f (draw0 j) with
    | nil => rfl
    | cons q qs =>
      show Except.ok _ = Except.ok _
      have hb := initialBest_relabel hφ f q.bestPosition (q :: qs)
      rw [List.map_cons] at hb
      show Except.ok (⟨q.relabel φ :: qs.map (Particle.relabel φ),
        initialBest (fun x => (f x).map φ) q.bestPosition (q.relabel φ :: qs.map (Particle.relabel φ)),
        (f (initialBest (fun x => (f x).map φ) q.bestPosition (q.relabel φ :: qs.map (Particle.relabel φ)))).map φ⟩ :
          Swarm X L) = _
      rw [hb]; rfl
  · intro s
    rw [map_eq_pure_bind]
    unfold run
    rw [loop_relabel hφ isMet isMet' ht, map_eq_pure_bind, bind_assoc, bind_assoc]
    rfl

end order

/-- Both shipped stopping rules qualify. -/
theorem generationLimit_blind {W X K L : Type} [LinearOrder K] [LinearOrder L] (φ : K → L) (limit g : Nat)
    (s : Swarm X K) : (generationLimit limit : Term W X L) g (s.relabel φ) = (generationLimit limit : Term W X K) g s := rfl

/-- Both shipped stopping rules qualify. -/
theorem timeLimit_blind {W X K L : Type} [LinearOrder K] [LinearOrder L] (φ : K → L) (now : M W Nat)
    (created limit g : Nat) (s : Swarm X K) :
    (timeLimit now created limit : Term W X L) g (s.relabel φ) = (timeLimit now created limit : Term W X K) g s := rfl

/-! ## Transformed coordinates -/

section affine
variable {X K : Type} [Field X] [LinearOrder X] [IsStrictOrderedRing X] [LinearOrder K]

/-- The particle in the units `a * x + b`: positions are transformed, velocities (differences of positions) scaled, values
unchanged. -/
def Particle.transport (a b : X) (q : Particle X K) : Particle X K :=
  ⟨q.position.map fun x => a * x + b, q.velocity.map fun v => a * v, q.bestPosition.map fun x => a * x + b,
    q.value, q.bestValue⟩

/-- The swarm in the units `a * x + b`. -/
def Swarm.transport (a b : X) (s : Swarm X K) : Swarm X K :=
  ⟨s.particles.map (Particle.transport a b), s.bestPosition.map fun x => a * x + b, s.bestValue⟩

variable (a b : X) {f f' : List X → Fl K} (hf : ∀ x, f' (x.map fun t => a * t + b) = f x)

theorem velocityFrom_transport (c : Coeffs X) (draw : Nat → X × X) : ∀ (k : Nat) (vs xs ps gs : List X),
    velocityFrom c draw k (vs.map fun v => a * v) (xs.map fun x => a * x + b) (ps.map fun x => a * x + b)
      (gs.map fun x => a * x + b) = (velocityFrom c draw k vs xs ps gs).map fun v => a * v
  | k, v :: vs, x :: xs, p :: ps, g :: gs => by
    simp only [List.map_cons, velocityFrom]
    rw [velocityFrom_transport c draw (k + 1) vs xs ps gs]
    congr 1
    unfold velocityAt
    ring
  | _, [], _, _, _ => by simp [velocityFrom]
  | _, _ :: _, [], _, _ => by simp [velocityFrom]
  | _, _ :: _, _ :: _, [], _ => by simp [velocityFrom]
  | _, _ :: _, _ :: _, _ :: _, [] => by simp [velocityFrom]

theorem zipAdd_transport : ∀ (xs vs : List X),
    List.zipWith (fun x v => x + v) (xs.map fun x => a * x + b) (vs.map fun v => a * v) =
      (List.zipWith (fun x v => x + v) xs vs).map fun x => a * x + b
  | [], _ => by simp
  | _ :: _, [] => by simp
  | x :: xs, v :: vs => by
    simp only [List.map_cons, List.zipWith_cons_cons]
    rw [zipAdd_transport xs vs]
    congr 1
    ring

include hf

theorem updatePosition_transport (q : Particle X K) :
    (q.transport a b).updatePosition f' = (q.updatePosition f).transport a b := by
  unfold Particle.updatePosition
  have h : List.zipWith (fun x v => x + v) (q.transport a b).position (q.transport a b).velocity =
    (List.zipWith (fun x v => x + v) q.position q.velocity).map fun x => a * x + b := zipAdd_transport a b _ _
  simp only
  rw [h, hf]
  show (if Fl.lt (f (List.zipWith (fun x v => x + v) q.position q.velocity)) q.bestValue = true then _ else _) =
    Particle.transport a b
      (if Fl.lt (f (List.zipWith (fun x v => x + v) q.position q.velocity)) q.bestValue = true then _ else _)
  cases Fl.lt (f (List.zipWith (fun x v => x + v) q.position q.velocity)) q.bestValue <;> rfl

theorem initialBest_transport : ∀ (best : List X) (qs : List (Particle X K)),
    initialBest f' (best.map fun x => a * x + b) (qs.map (Particle.transport a b)) =
      (initialBest f best qs).map fun x => a * x + b
  | _, [] => rfl
  | best, q :: qs => by
    rw [List.map_cons, initialBest, initialBest]
    show (if Fl.lt (f' (q.position.map fun x => a * x + b)) (f' (best.map fun x => a * x + b)) = true then
      initialBest _ (q.position.map fun x => a * x + b) _ else initialBest _ (best.map fun x => a * x + b) _) = _
    rw [hf, hf, initialBest_transport q.position qs, initialBest_transport best qs]
    split <;> rfl

theorem foldBest_transport : ∀ (qs : List (Particle X K)) (r : List X × Fl K),
    (qs.map (Particle.transport a b)).foldl (bestStep f') (r.1.map fun x => a * x + b, r.2) =
      ((qs.foldl (bestStep f) r).1.map fun x => a * x + b, (qs.foldl (bestStep f) r).2)
  | [], _ => rfl
  | q :: qs, r => by
    rw [List.map_cons, List.foldl_cons, List.foldl_cons, ← foldBest_transport qs (bestStep f r q)]
    congr 1
    unfold bestStep
    show (if Fl.lt (f' (q.bestPosition.map fun x => a * x + b)) (f' (r.1.map fun x => a * x + b)) = true then _ else _) =
      (List.map (fun x => a * x + b) (if Fl.lt (f q.bestPosition) (f r.1) = true then _ else _ : List X × Fl K).1,
        (if Fl.lt (f q.bestPosition) (f r.1) = true then _ else _ : List X × Fl K).2)
    rw [hf, hf]
    cases Fl.lt (f q.bestPosition) (f r.1) <;> rfl

theorem iterate_transport (c : Coeffs X) (draw : Nat → Nat → X × X) (s : Swarm X K) :
    (s.transport a b).iterate c f' draw = (s.iterate c f draw).transport a b := by
  unfold Swarm.iterate Swarm.updateBest Swarm.updatePositions Swarm.updateVelocities Swarm.transport
  have h : List.map (Particle.updatePosition f')
      (List.mapIdx (fun j q => Particle.updateVelocity c (draw j) (s.bestPosition.map fun x => a * x + b) q)
        (s.particles.map (Particle.transport a b))) =
      (List.map (Particle.updatePosition f)
        (List.mapIdx (fun j q => Particle.updateVelocity c (draw j) s.bestPosition q) s.particles)).map
        (Particle.transport a b) := by
    rw [List.mapIdx_eq_zipIdx_map, List.mapIdx_eq_zipIdx_map, List.zipIdx_map, List.map_map, List.map_map, List.map_map,
      List.map_map]
    refine List.map_congr_left fun r _ => ?_
    show ((r.1.transport a b).updateVelocity c (draw r.2) (s.bestPosition.map fun x => a * x + b)).updatePosition f' =
      ((r.1.updateVelocity c (draw r.2) s.bestPosition).updatePosition f).transport a b
    rw [← updatePosition_transport a b hf]
    congr 1
    unfold Particle.updateVelocity Particle.transport
    simp only
    rw [velocityFrom_transport]
  simp only
  rw [h]
  have := foldBest_transport a b hf (List.map (Particle.updatePosition f)
    (List.mapIdx (fun j q => Particle.updateVelocity c (draw j) s.bestPosition q) s.particles)) (s.bestPosition, s.bestValue)
  simp only at this
  rw [this]

theorem loop_transport {W : Type} (isMet isMet' : Term W X K)
    (ht : ∀ g s, isMet' g (s.transport a b) = isMet g s) (c : Coeffs X)
    (draw : Nat → Nat → Nat → X × X) : ∀ (fuel i : Nat) (s : Swarm X K),
    loop isMet' c f' draw fuel i (s.transport a b) =
      (fun r => (r.1.transport a b, r.2.map (Ev.map (Swarm.transport a b)))) <$> loop isMet c f draw fuel i s
  | 0, _, _ => rfl
  | fuel + 1, i, s => by
    rw [map_eq_pure_bind]
    unfold loop
    rw [ht, bind_assoc]
    congr 1
    funext stop
    cases stop with
    | true => rfl
    | false =>
      simp only [Bool.false_eq_true, if_false]
      rw [iterate_transport a b hf, loop_transport isMet isMet' ht c draw fuel (i + 1), map_eq_pure_bind, bind_assoc,
        bind_assoc]
      rfl

/-- **C146** (particle swarms).  Express the problem in other units: coordinates `a * x + b` with `a > 0`, the box
transformed accordingly and the objective `f'` reading the transformed coordinates (`f' (a * x + b) = f x`).  In exact
arithmetic, with the same draws and the same coefficients, the algorithm builds the transformed swarm and performs the
transformed run: every position `x` becomes `a * x + b`, every velocity `v` becomes `a * v`, all values, bests, callbacks
and the number of iterations are the same. -/
theorem C146_pso {W : Type} (ha : 0 < a) (count dim : Nat) (lo hi : X) (draw0 : Nat → Nat → X × X)
    (isMet isMet' : Term W X K) (ht : ∀ g s, isMet' g (s.transport a b) = isMet g s) (c : Coeffs X)
    (draw : Nat → Nat → Nat → X × X) (fuel : Nat) :
    Swarm.generate (fun x => |x|) count dim (a * lo + b) (a * hi + b) f' draw0 =
      (Swarm.generate (fun x => |x|) count dim lo hi f draw0).map (Swarm.transport a b) ∧
    ∀ s : Swarm X K, run isMet' c f' draw fuel (s.transport a b) =
      (fun r => (r.1.transport a b, r.2.map (Ev.map (Swarm.transport a b)))) <$> run isMet c f draw fuel s := by
  constructor
  · unfold Swarm.generate
    have hd : a * hi + b - (a * lo + b) = a * (hi - lo) := by ring
    have hg : ∀ d : Nat → X × X, Particle.generate (fun x => |x|) dim (a * lo + b) (a * hi + b) f' d =
        (Particle.generate (fun x => |x|) dim lo hi f d).transport a b := by
      intro d
      have hp : ((List.range dim).map fun i => scaled (a * lo + b) (a * hi + b) (d i).1) =
          ((List.range dim).map fun i => scaled lo hi (d i).1).map fun x => a * x + b := by
        rw [List.map_map]
        refine List.map_congr_left fun i _ => ?_
        show scaled _ _ _ = a * scaled _ _ _ + b
        unfold scaled; ring
      have hv : ((List.range dim).map fun i => scaled (-|a * hi + b - (a * lo + b)|) |a * hi + b - (a * lo + b)| (d i).2) =
          ((List.range dim).map fun i => scaled (-|hi - lo|) |hi - lo| (d i).2).map fun v => a * v := by
        rw [List.map_map]
        refine List.map_congr_left fun i _ => ?_
        show scaled _ _ _ = a * scaled _ _ _
        rw [hd, abs_mul, abs_of_pos ha]
        unfold scaled; ring
      unfold Particle.generate Particle.transport
      simp only
      rw [hp, hv, hf]
    have h : ((List.range count).map fun j => Particle.generate (fun x => |x|) dim (a * lo + b) (a * hi + b) f' (draw0 j)) =
        ((List.range count).map fun j => Particle.generate (fun x => |x|) dim lo hi f (draw0 j)).map
          (Particle.transport a b) := by
      rw [List.map_map]
      exact List.map_congr_left fun j _ => hg _
    rw [h]
    cases (List.range count).map fun j => Particle.generate (fun x => |x|) dim lo hi f (draw0 j) with
    | nil => rfl
    | cons q qs =>
      have hb := initialBest_transport a b hf q.bestPosition (q :: qs)
      rw [List.map_cons] at hb
      show Except.ok (⟨q.transport a b :: qs.map (Particle.transport a b),
        initialBest f' (q.bestPosition.map fun x => a * x + b) (q.transport a b :: qs.map (Particle.transport a b)),
        f' (initialBest f' (q.bestPosition.map fun x => a * x + b)
          (q.transport a b :: qs.map (Particle.transport a b)))⟩ : Swarm X K) = _
      rw [hb, hf]; rfl
  · intro s
    rw [map_eq_pure_bind]
    unfold run
    rw [loop_transport a b hf isMet isMet' ht, map_eq_pure_bind, bind_assoc, bind_assoc]
    rfl

end affine

/-- Given the units, the transformed objective exists: every problem can be restated. -/
theorem restated_objective {X K : Type} [Field X] (a b : X) (ha : a ≠ 0) (f : List X → Fl K) :
    ∀ x, (fun y : List X => f (y.map fun t => (t - b) / a)) (x.map fun t => a * t + b) = f x := by
  intro x
  show f _ = f x
  rw [List.map_map]
  congr 1
  conv_rhs => rw [← List.map_id x]
  refine List.map_congr_left fun t _ => ?_
  show (a * t + b - b) / a = t
  rw [add_sub_cancel_right, mul_div_cancel_left₀ _ ha]

/-! ## Concrete cases -/

/-- A swarm minimising `x²` on [0, 8], and the same problem in the units `2 x + 10` on [10, 26]. -/
example :
    let f : List ℚ → Fl ℚ := fun x => .num (x.map fun t => t * t).sum
    let f' : List ℚ → Fl ℚ := fun y => .num (y.map fun t => (t - 10) / 2 * ((t - 10) / 2)).sum
    let d0 : Nat → Nat → ℚ × ℚ := fun j _ => (if j = 0 then (1 / 4, 1 / 2) else (3 / 4, 3 / 8))
    let c : Coeffs ℚ := ⟨1 / 2, 1, 1⟩
    let d : Nat → Nat → Nat → ℚ × ℚ := fun _ _ _ => (1 / 2, 1 / 2)
    (Swarm.generate (fun x => |x|) 2 1 0 8 f d0).map
        (fun s => ((s.iterate c f (d 1)).iterate c f (d 2)).particles.map Particle.position) = .ok [[2], [1]] ∧
    (Swarm.generate (fun x => |x|) 2 1 10 26 f' d0).map
        (fun s => ((s.iterate c f' (d 1)).iterate c f' (d 2)).particles.map Particle.position) = .ok [[14], [12]] := by
  decide +kernel

section instances
example := C145_pso (W := Unit) (X := ℚ) (φ := fun t : ℚ => 2 * t + 1) (fun s t h => by show 2 * s + 1 < 2 * t + 1; linarith) (fun x => |x|) 2 1 0 8
  (fun x => .num (x.map fun t => t * t).sum) (fun _ _ => (1 / 4, 1 / 2)) (generationLimit 5) (generationLimit 5) (fun _ _ => rfl)
  ⟨1 / 2, 1, 1⟩ (fun _ _ _ => (1 / 2, 1 / 2)) 6
example := C146_pso (W := Unit) (2 : ℚ) 10 (f := fun x => .num (x.map fun t => t * t).sum)
  (f' := fun y => .num (y.map fun t => (t - 10) / 2 * ((t - 10) / 2)).sum)
  (fun x => by simp [List.map_map, Function.comp_def]) (by norm_num) 2 1 0 8 (fun _ _ => (1 / 4, 1 / 2)) (generationLimit 5) (generationLimit 5)
  (fun _ _ => rfl) ⟨1 / 2, 1, 1⟩ (fun _ _ _ => (1 / 2, 1 / 2)) 6
end instances

end Ecrs.Pso
