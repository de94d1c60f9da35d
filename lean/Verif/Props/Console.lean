import Verif.Console
import Verif.Props.Ff2
import Verif.Props.Pso
import Verif.Props.AcoRun

set_option linter.unusedSectionVars false
set_option linter.unusedVariables false

/-!
# C148: what the console shows
-/

namespace Ecrs.Ff
open Ecrs

section
variable {X K : Type} [LinearOrder K] {A : FloatOps X K} (num : X → String)

theorem coordLines_get : ∀ (xs : List X) (d k : Nat),
    (coordLines num d xs)[k]? = xs[k]?.map fun x => s!"X{d + k}: {num x}"
  | [], d, k => by simp [coordLines]
  | x :: xs, d, 0 => by simp [coordLines]
  | x :: xs, d, k + 1 => by
    rw [coordLines, List.getElem?_cons_succ, List.getElem?_cons_succ, coordLines_get xs (d + 1) k,
      show d + 1 + k = d + (k + 1) by omega]

theorem coordLines_length (xs : List X) (d : Nat) : (coordLines num d xs).length = xs.length := by
  induction xs generalizing d with
  | nil => rfl
  | cons x xs ih => simp [coordLines, ih]

/-- Blocks of equal length: where the lines of block `k` are. -/
theorem flatMap_get {α β : Type} (f : α → List β) (m : Nat) : ∀ (l : List α), (∀ a ∈ l, (f a).length = m) →
    ∀ (k j : Nat) (a : α), l[k]? = some a → j < m → (l.flatMap f)[k * m + j]? = (f a)[j]?
  | [], _, k, j, a, h, _ => by simp at h
  | x :: l, hl, 0, j, a, h, hj => by
    simp at h
    subst h
    rw [List.flatMap_cons, Nat.zero_mul, Nat.zero_add, List.getElem?_append_left (by rw [hl x (by simp)]; exact hj)]
  | x :: l, hl, k + 1, j, a, h, hj => by
    rw [List.flatMap_cons, List.getElem?_append_right (by rw [hl x (by simp), Nat.succ_mul]; omega), hl x (by simp),
      show (k + 1) * m + j - m = k * m + j by rw [Nat.succ_mul]; omega]
    exact flatMap_get f m l (fun a ha => hl a (by simp [ha])) k j a (by simpa using h) hj

theorem flatMap_len {α β : Type} (f : α → List β) (m : Nat) (l : List α) (hl : ∀ a ∈ l, (f a).length = m) :
    (l.flatMap f).length = l.length * m := by
  induction l with
  | nil => simp
  | cons x l ih =>
    rw [List.flatMap_cons, List.length_append, hl x (by simp), ih fun a ha => hl a (by simp [ha]), List.length_cons,
      Nat.succ_mul, Nat.add_comm]

/-- **C148, firefly.** What a run of `max_generations` generations in `dim` dimensions prints: `START`, then exactly
`dim + 3` lines per generation, then `END`; nothing else.  The lines of generation `k` (counted from 0) are its header,
the value reported for it (the best seen so far, `C53`), the coordinates of one firefly of that generation, numbered from
0, and the rule. -/
theorem C148_firefly_console {c : Cfg X} {f : List X → X} {dist : List X → List X → Except Panic X} {dr : Draws X}
    {pop : List (List X)} {sts : List (St X)} {evs : List (Ev X)} {dim : Nat}
    (h : run A c f dist dr pop = .ok (sts, evs)) (hd : ∀ x ∈ pop, x.length = dim) :
    (console num evs).length = c.maxGenerations * (dim + 3) + 2 ∧
    (console num evs)[0]? = some "START" ∧
    (console num evs)[c.maxGenerations * (dim + 3) + 1]? = some "END" ∧
    ∀ (k : Nat) (s : St X), sts[k]? = some s → ∃ x ∈ s.pop,
      (console num evs)[k * (dim + 3) + 1]? = some s!"--- ITERATION {k} ---" ∧
      (console num evs)[k * (dim + 3) + 2]? = some s!"Iteration best: {num s.best}" ∧
      (∀ (d : Nat) (a : X), x[d]? = some a → (console num evs)[k * (dim + 3) + 3 + d]? = some s!"X{d}: {num a}") ∧
      (console num evs)[k * (dim + 3) + dim + 3]? = some "################################" := by
  obtain ⟨ps, hl1, hl2, hev, hmem, -⟩ := C80_callbacks h
  have hshape := C52_shape h
  -- every reported position has `dim` coordinates
  have hdim : ∀ (k : Nat) (s : St X) (x : List X), sts[k]? = some s → ps[k]? = some x → x.length = dim := by
    intro k s x hs hx
    have h1 := hmem k s x hs hx
    have h2 := hshape s (List.mem_of_getElem? hs)
    have : x.length ∈ s.pop.map List.length := List.mem_map.2 ⟨x, h1, rfl⟩
    rw [h2] at this
    obtain ⟨y, hy, he⟩ := List.mem_map.1 this
    rw [← he]; exact hd y hy
  let blk : Nat × St X × List X → List String := fun e =>
    s!"--- ITERATION {e.1} ---" :: s!"Iteration best: {num e.2.1.best}" ::
      (coordLines num 0 e.2.2 ++ ["################################"])
  have hcon : console num evs = "START" ::
      (((List.range c.maxGenerations).zip (sts.zip ps)).flatMap blk ++ ["END"]) := by
    rw [hev]
    unfold console
    rw [List.flatMap_append, List.flatMap_append, List.flatMap_assoc]
    simp only [List.flatMap_cons, List.flatMap_nil, List.append_nil]
    show ["START"] ++ _ ++ ["END"] = _
    rw [List.append_assoc, List.singleton_append]
    congr 2
  have hlz : ((List.range c.maxGenerations).zip (sts.zip ps)).length = c.maxGenerations := by simp [hl1, hl2]
  have hget : ∀ (k : Nat) (e : Nat × St X × List X), ((List.range c.maxGenerations).zip (sts.zip ps))[k]? = some e →
      e.1 = k ∧ sts[k]? = some e.2.1 ∧ ps[k]? = some e.2.2 := by
    intro k e he
    rw [List.getElem?_zip_eq_some, List.getElem?_zip_eq_some] at he
    obtain ⟨h1, h2, h3⟩ := he
    refine ⟨?_, h2, h3⟩
    rw [List.getElem?_range] at h1
    · exact (Option.some.inj h1).symm
    · by_contra hc
      rw [List.getElem?_eq_none (by simp; omega)] at h1
      cases h1
  have hblk : ∀ e ∈ (List.range c.maxGenerations).zip (sts.zip ps), (blk e).length = dim + 3 := by
    intro e he
    obtain ⟨k, hk⟩ := List.getElem?_of_mem he
    obtain ⟨-, h2, h3⟩ := hget k e hk
    have := hdim k _ _ h2 h3
    simp [blk, coordLines_length, this]
  have hflen := flatMap_len blk (dim + 3) _ hblk
  rw [hlz] at hflen
  rw [hcon]
  refine ⟨by simp [hflen], rfl, ?_, fun k s hs => ?_⟩
  · rw [List.getElem?_cons_succ, List.getElem?_append_right (by rw [hflen]), hflen]
    simp
  · have hk : k < c.maxGenerations := by
      have := (List.getElem?_eq_some_iff.1 hs).1
      omega
    have hx : ps[k]? = some (ps[k]'(by omega)) := List.getElem?_eq_getElem _
    generalize hxe : ps[k]'(by omega) = x at hx
    have he : ((List.range c.maxGenerations).zip (sts.zip ps))[k]? = some (k, s, x) := by
      rw [List.getElem?_zip_eq_some, List.getElem?_zip_eq_some]
      exact ⟨by simp [hk], hs, hx⟩
    have hlx := hdim k s x hs hx
    have hcell : ∀ j, j < dim + 3 → (("START" ::
        (((List.range c.maxGenerations).zip (sts.zip ps)).flatMap blk ++ ["END"])) : List String)[k * (dim + 3) + j + 1]? =
        (blk (k, s, x))[j]? := by
      intro j hj
      have hlt : k * (dim + 3) + j < c.maxGenerations * (dim + 3) := by
        have : (k + 1) * (dim + 3) ≤ c.maxGenerations * (dim + 3) := Nat.mul_le_mul_right _ hk
        rw [Nat.succ_mul] at this
        omega
      rw [List.getElem?_cons_succ, List.getElem?_append_left (by rw [hflen]; exact hlt)]
      exact flatMap_get blk (dim + 3) _ hblk k j _ he hj
    refine ⟨x, hmem k s x hs hx, ?_, ?_, fun d a ha => ?_, ?_⟩
    · have := hcell 0 (by omega)
      rw [Nat.add_zero] at this
      rw [this]; rfl
    · rw [hcell 1 (by omega)]; rfl
    · have hdl := (List.getElem?_eq_some_iff.1 ha).1
      have := hcell (d + 2) (by omega)
      rw [show k * (dim + 3) + 3 + d = k * (dim + 3) + (d + 2) + 1 by omega, this]
      show (coordLines num 0 x ++ ["################################"])[d]? = _
      rw [List.getElem?_append_left (by rw [coordLines_length]; exact hdl), coordLines_get, ha]
      simp
    · have := hcell (dim + 2) (by omega)
      rw [show k * (dim + 3) + dim + 3 = k * (dim + 3) + (dim + 2) + 1 by omega, this]
      show (coordLines num 0 x ++ ["################################"])[dim]? = _
      rw [List.getElem?_append_right (by rw [coordLines_length]; omega), coordLines_length]
      simp [hlx]

end

/-- The hypotheses are met by the example run of C52, which returns, and whose fireflies have one coordinate. -/
example : (summary (run AQ (cfgQ 2 3 1) absQ (taxi AQ) drQ [[.fin 3], [.fin 2], [.fin 1]])).isSome = true ∧
    ∀ x ∈ [[Ext.fin (3 : ℚ)], [.fin 2], [.fin 1]], x.length = 1 := ⟨by rw [example_run]; rfl, by simp⟩

/-- The callbacks of that run on the console. -/
example : console (fun x : Ext ℚ => if x = Ext.fin 1 then "1" else "2") [.onStart, .onIterationStart 0,
      .onCurrentBest (.fin 1) [.fin 1], .onIterationEnd 0, .onIterationStart 1, .onCurrentBest (.fin 1) [.fin 2],
      .onIterationEnd 1, .onEnd] =
    ["START", "--- ITERATION 0 ---", "Iteration best: 1", "X0: 1", "################################",
      "--- ITERATION 1 ---", "Iteration best: 1", "X0: 2", "################################", "END"] := by
  decide +kernel

end Ecrs.Ff

namespace Ecrs.Pso
open Ecrs

section
variable {X K : Type} [Add X] [Sub X] [Mul X] [Neg X] [LinearOrder K] (num : X → String) (val : Fl K → String)

/-- Specification: a vector on the console. -/
def shown (l : List String) : String := "[" ++ String.intercalate ", " l ++ "]"

/-- Specification: the three lines that describe a swarm. -/
def swarmLines (s : Swarm X K) : List String :=
  ["Particles: " ++ shown (s.particles.map fun p => "Position: " ++ shown (p.position.map num) ++ ", velocity: " ++
      shown (p.velocity.map num) ++ ", best position: " ++ shown (p.bestPosition.map num) ++ ", value: " ++ val p.value ++
      ", best position value: " ++ val p.bestValue),
   "Best swarm position: " ++ shown (s.bestPosition.map num),
   "Best position value: " ++ val s.bestValue]

theorem lines_eq (s : Swarm X K) : s.lines num val = swarmLines num val s := by
  unfold Swarm.lines swarmLines shown
  rw [C76_print_vector, C76_print_vector]
  congr 4
  refine congrArg _ (List.map_congr_left fun p _ => ?_)
  unfold Particle.text
  rw [C76_print_vector, C76_print_vector, C76_print_vector]

/-- **C148, swarm.** A run of `n` iterations prints exactly: the initial swarm, the swarm after each of the iterations
`1, …, n` (`generation` in the singular for the first), and the final swarm (the one after iteration `n`, so it is printed
twice); each is preceded by an empty line, except the first. -/
theorem C148_swarm_console {W : Type} {isMet : Term W X K} {c : Coeffs X} {f : List X → Fl K}
    {draw : Nat → Nat → Nat → X × X} {fuel : Nat} {s s' : Swarm X K} {evs : List (Ev X K)} {w w' : W}
    (hr : run isMet c f draw fuel s w = .ok ((s', evs), w')) :
    ∃ n, s' = swarmAfter c f draw s n ∧ (console num val evs).length = 9 + 5 * n ∧
      console num val evs = ["Swarm at the start:"] ++ swarmLines num val s ++
        ((List.range' 1 n).flatMap fun k => ["", s!"Swarm after {k} {if k = 1 then "generation" else "generations"}:"] ++
          swarmLines num val (swarmAfter c f draw s k)) ++
        ["", "Swarm at the end:"] ++ swarmLines num val (swarmAfter c f draw s n) := by
  obtain ⟨n, h1, h2, -, -⟩ := C48_callbacks hr
  have hcon : console num val evs = ["Swarm at the start:"] ++ swarmLines num val s ++
        ((List.range' 1 n).flatMap fun k => ["", s!"Swarm after {k} {if k = 1 then "generation" else "generations"}:"] ++
          swarmLines num val (swarmAfter c f draw s k)) ++
        ["", "Swarm at the end:"] ++ swarmLines num val (swarmAfter c f draw s n) := by
    rw [h2, h1]
    unfold console
    rw [List.flatMap_append, List.flatMap_append, List.flatMap_map]
    simp only [List.flatMap_cons, List.flatMap_nil, List.append_nil, consoleLines, lines_eq]
    simp only [List.cons_append, List.nil_append, List.append_assoc]
  refine ⟨n, h1, ?_, hcon⟩
  have hl : ∀ s : Swarm X K, (swarmLines num val s).length = 3 := fun _ => rfl
  have hb : ((List.range' 1 n).flatMap fun k => ["", s!"Swarm after {k} {if k = 1 then "generation" else "generations"}:"] ++
          swarmLines num val (swarmAfter c f draw s k)).length = n * 5 := by
    rw [List.length_flatMap]
    simp [hl]
  rw [hcon]
  simp only [List.length_append, hl, hb, List.length_cons, List.length_nil]
  omega

/-- **C148, swarm behind an interval.** Behind `GenerationInterval::new(interval)` the console shows the initial swarm,
the generations divisible by `interval` and the last one, and the final swarm. -/
theorem C148_swarm_console_interval {W : Type} {isMet : Term W X K} {c : Coeffs X} {f : List X → Fl K}
    {draw : Nat → Nat → Nat → X × X} {fuel : Nat} {s s' : Swarm X K} {evs : List (Ev X K)} {w w' : W}
    (hr : run isMet c f draw fuel s w = .ok ((s', evs), w')) (interval : Nat) (hi : 0 < interval) :
    ∃ n received st, s' = swarmAfter c f draw s n ∧
      policyDriven (generationInterval interval) 0 evs () = .ok ((received, st), ()) ∧
      console num val received = ["Swarm at the start:"] ++ swarmLines num val s ++
        (((List.range' 1 n).filter fun g => decide (g % interval = 0 ∨ g = n)).flatMap fun k =>
          ["", s!"Swarm after {k} {if k = 1 then "generation" else "generations"}:"] ++
            swarmLines num val (swarmAfter c f draw s k)) ++
        ["", "Swarm at the end:"] ++ swarmLines num val (swarmAfter c f draw s n) := by
  obtain ⟨n, st, h1, -, h2⟩ := C51_generation_interval hr interval hi ()
  refine ⟨n, _, st, h1, h2, ?_⟩
  rw [h1]
  unfold console
  rw [List.flatMap_append, List.flatMap_append, List.flatMap_map]
  simp only [List.flatMap_cons, List.flatMap_nil, List.append_nil, consoleLines, lines_eq]
  simp only [List.cons_append, List.nil_append, List.append_assoc]

end

/-- Hypotheses of the two theorems: a run of three generations. -/
example : ∃ s' evs, run (generationLimit 3) (⟨1, 1, 1⟩ : Coeffs Int) (fun x => Fl.num (x.headD 0)) (fun _ _ _ => (1, 1)) 9
    (⟨[⟨[1], [0], [1], .num 1, .num 1⟩], [1], .num 1⟩ : Swarm Int Int) () = .ok ((s', evs), ()) :=
  ⟨_, _, C48_generation_limit 3 _ _ _ 9 (by decide) _ _⟩

example : swarmLines (fun x : Int => toString x) (fun _ => "v") (⟨[⟨[1, 2], [0, 0], [1, 2], .num 1, .num 1⟩], [1, 2], .num 1⟩ : Swarm Int Int) =
    ["Particles: [Position: [1, 2], velocity: [0, 0], best position: [1, 2], value: v, best position value: v]",
      "Best swarm position: [1, 2]", "Best position value: v"] := by decide +kernel

end Ecrs.Pso

namespace Ecrs.Aco
open Ecrs

section
variable {X K Ph C G U : Type} [LinearOrder K] {A : AcoOps X K} (num : X → String)

/-- Specification: the lines of complete iterations reporting the bests `bs`, numbered from `i`. -/
def iterationLines (i : Nat) (bs : List (Sol X)) : List String :=
  (bs.zipIdx i).flatMap fun b => [s!"--- ITERATION {b.2} ---", s!"Iteration best fitness: {num b.1.fitness}",
    "################################"]

theorem consoleFrom_blocks : ∀ (recs : List (Sol X × Ph)) (i : Nat) (es : List (Event X Ph)),
    consoleFrom num i (recs.flatMap block ++ es) =
      iterationLines num (i + 1) (recs.map Prod.fst) ++ consoleFrom num (i + recs.length) es
  | [], i, es => by simp [iterationLines]
  | r :: recs, i, es => by
    rw [List.flatMap_cons, List.append_assoc]
    have ih := consoleFrom_blocks recs (i + 1) es
    simp only [block, List.cons_append, List.nil_append, consoleFrom, consoleStep] at ih ⊢
    rw [ih]
    simp [iterationLines, List.zipIdx_cons, Nat.add_assoc, Nat.add_comm 1]

/-- **C148, ants.** A run of `limit` iterations prints three lines per iteration, numbered from 1, each with the fitness
of the best solution of that iteration, and then `END`; if it panics, it has printed the complete iterations before and
the header of the one that panicked, possibly with its best. -/
theorem C148_ant_console (al : Algo X Ph C G U) (limit curr fuel : Nat) (hf : limit < fuel) (s : RunState Ph C G U) :
    let r := runIterations A al fuel ⟨curr, limit⟩ s
    ∃ bs : List (Sol X),
      (r.2 = .done ∧ bs.length = limit ∧ console num r.1 = iterationLines num 1 bs ++ ["END"] ∧
        (console num r.1).length = 3 * limit + 1) ∨
      ∃ e, r.2 = .panicked e ∧ bs.length < limit ∧
        (console num r.1 = iterationLines num 1 bs ++ [s!"--- ITERATION {bs.length + 1} ---"] ∨
          ∃ b : Sol X, console num r.1 = iterationLines num 1 bs ++ [s!"--- ITERATION {bs.length + 1} ---",
            s!"Iteration best fitness: {num b.fitness}"]) := by
  intro r
  obtain ⟨recs, h⟩ := C61_run_iterations (A := A) al limit curr fuel hf s
  refine ⟨recs.map Prod.fst, ?_⟩
  rcases h with ⟨h1, h2, h3⟩ | ⟨e, h1, h2, h3⟩
  · left
    have hc : console num r.1 = iterationLines num 1 (recs.map Prod.fst) ++ ["END"] := by
      show consoleFrom num 0 r.1 = _
      rw [show r.1 = _ from h3, consoleFrom_blocks]
      rfl
    refine ⟨h1, by simp [h2], hc, ?_⟩
    rw [hc]
    unfold iterationLines
    rw [List.length_append, List.length_flatMap]
    simp [h2]
    omega
  · right
    refine ⟨e, h1, by simpa using h2, ?_⟩
    rw [List.length_map]
    rcases h3 with h3 | ⟨b, h3⟩
    · left
      show consoleFrom num 0 r.1 = _
      rw [show r.1 = _ from h3, consoleFrom_blocks]
      simp [consoleFrom, consoleStep]
    · right
      refine ⟨b, ?_⟩
      show consoleFrom num 0 r.1 = _
      rw [show r.1 = _ from h3, consoleFrom_blocks]
      simp [consoleFrom, consoleStep]

end

example : iterationLines (fun x : Nat => toString x) 1 [⟨[0, 1], 5⟩, ⟨[1, 0], 7⟩] =
    ["--- ITERATION 1 ---", "Iteration best fitness: 5", "################################",
     "--- ITERATION 2 ---", "Iteration best fitness: 7", "################################"] := by decide +kernel

end Ecrs.Aco

namespace Ecrs.Ff

/-- `C148_firefly_console` applied to the example run of C52. -/
example {sts : List (St (Ext ℚ))} {evs : List (Ev (Ext ℚ))}
    (h : run AQ (cfgQ 2 3 1) absQ (taxi AQ) drQ [[.fin 3], [.fin 2], [.fin 1]] = .ok (sts, evs)) :=
  C148_firefly_console (fun _ => "x") h (dim := 1) (by simp)

end Ecrs.Ff
