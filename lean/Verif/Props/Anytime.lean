import Verif.Props.GaSolver
import Verif.Props.Pso
import Verif.Props.AcoRun
import Verif.Props.BlackBox
import Verif.Props.Waiting

/-!
# C176: a larger budget only continues a run

The same object, started from the same random state, with a larger generation limit and a larger time limit does everything the run with
the smaller limits does, and then goes on.
-/

set_option linter.unusedSectionVars false
set_option linter.unusedVariables false

namespace Ecrs.Ga
open Ecrs MeasureTheory
open scoped ENNReal

section
variable {W I C K : Type} [LinearOrder K] (T : IndTrait I C K) (ops : Ops W I K)

/-- Specification: `b` is `a`, or strictly fitter. -/
def Improves (a b : I) : Prop := b = a ∨ Fl.Lt (T.fitness b) (T.fitness a)

theorem Improves.refl (a : I) : Improves T a a := .inl rfl

theorem Improves.trans {a b c : I} (h1 : Improves T a b) (h2 : Improves T b c) : Improves T a c := by
  rcases h1 with rfl | h1
  · exact h2
  · rcases h2 with rfl | h2
    · exact .inr h1
    · exact .inr (h2.trans_le h1.le)

/-- The state `s'` continues `s`. -/
def Continues (s s' : St I) : Prop := (∃ rest, s'.trace = s.trace ++ rest) ∧ Improves T s.best s'.best

theorem Continues.refl (s : St I) : Continues T s s := ⟨⟨[], (List.append_nil _).symm⟩, Improves.refl T _⟩

theorem Continues.trans {s1 s2 s3 : St I} (h1 : Continues T s1 s2) (h2 : Continues T s2 s3) : Continues T s1 s3 := by
  obtain ⟨⟨r1, e1⟩, h1⟩ := h1
  obtain ⟨⟨r2, e2⟩, h2⟩ := h2
  exact ⟨⟨r1 ++ r2, by rw [e2, e1, List.append_assoc]⟩, h1.trans T h2⟩

theorem iteration_continues {p : GAParams} {g : Nat} {s s' : St I} {stop : Bool} {w w' : W}
    (h : iteration T ops p g s w = .ok ((s', stop), w')) : Continues T s s' := by
  obtain ⟨d, wa, m, pop, wb, pool, wc, crossed, wd, mutated, we, children, wf, replaced, wg, m', wh,
    b, d', wi, -, -, -, -, -, -, -, -, -, -, -, -, -, hbest, -, -, htr⟩ := iteration_ok T ops p h
  rw [List.append_assoc, List.append_assoc] at htr
  refine ⟨⟨_, htr⟩, ?_⟩
  rw [hbest]
  split
  · next hl => exact .inr (Fl.lt_iff.1 hl)
  · exact .inl rfl

theorem loop_continues {p : GAParams} : ∀ {n g : Nat} {s s' : St I} {w w' : W}, loop T ops p n g s w = .ok (s', w') → Continues T s s'
  | 0, _, _, _, _, _, h => by
    obtain ⟨rfl, -⟩ := Prod.mk.inj (M.pure_ok_iff.1 h)
    exact Continues.refl T _
  | n + 1, _, _, _, _, _, h => by
    rw [loop] at h
    obtain ⟨⟨s1, stop⟩, w1, h1, h2⟩ := M.bind_ok_iff.1 h
    have c1 := iteration_continues T ops h1
    cases stop with
    | true =>
      obtain ⟨rfl, -⟩ := Prod.mk.inj (M.pure_ok_iff.1 h2)
      exact c1
    | false => exact c1.trans T (loop_continues h2)

/-- One generation does not depend on the limits; a larger time limit only stops later. -/
theorem iteration_budget {p q : GAParams} (hn : p.populationSize = q.populationSize) (hd : p.maxDuration ≤ q.maxDuration) {g : Nat}
    {s s' : St I} {stop : Bool} {w w' : W} (h : iteration T ops q g s w = .ok ((s', stop), w')) :
    ∃ stop', iteration T ops p g s w = .ok ((s', stop'), w') ∧ (stop = true → stop' = true) := by
  unfold iteration at h ⊢
  rw [← hn] at h
  simp only [M.bind_ok_iff, M.pure_ok_iff, M.assert_ok_iff, M.ofExcept_ok_iff] at h ⊢
  obtain ⟨d, wa, h1, pop, wb, h2, pool, wc, h3, crossed, wd, h4, mutated, we, h5, children, wf, h6,
    replaced, wg, h7, u, w8, h8, pop', wh, h9, b, w10, h10, d', wi, h11, hr⟩ := h
  obtain ⟨⟨rfl, rfl⟩, rfl⟩ := (by simpa only [Prod.mk.injEq] using hr :
    (s' = _ ∧ stop = decide (q.maxDuration ≤ d')) ∧ w' = wi)
  refine ⟨decide (p.maxDuration ≤ d'), ⟨d, wa, h1, pop, wb, h2, pool, wc, h3, crossed, wd, h4, mutated, we, h5, children, wf, h6,
    replaced, wg, h7, u, w8, h8, pop', wh, h9, b, w10, h10, d', _, h11, rfl⟩, fun h => ?_⟩
  exact decide_eq_true (hd.trans (of_decide_eq_true h))

theorem loop_budget {p q : GAParams} (hn : p.populationSize = q.populationSize) (hd : p.maxDuration ≤ q.maxDuration) :
    ∀ {k n g : Nat} {s s' : St I} {w w' : W}, k ≤ n → loop T ops q n g s w = .ok (s', w') →
      ∃ s0 w0, loop T ops p k g s w = .ok (s0, w0) ∧ Continues T s0 s'
  | 0, _, _, s, _, w, _, _, h => ⟨s, w, rfl, loop_continues T ops h⟩
  | k + 1, 0, _, _, _, _, _, hk, _ => absurd hk (by omega)
  | k + 1, n + 1, g, s, s', w, w', hk, h => by
    rw [loop] at h
    obtain ⟨⟨s1, stop⟩, w1, h1, h2⟩ := M.bind_ok_iff.1 h
    obtain ⟨stop', h3, h4⟩ := iteration_budget T ops hn hd h1
    simp only [loop]
    cases stop' with
    | true =>
      refine ⟨s1, w1, M.bind_ok_iff.2 ⟨_, _, h3, rfl⟩, ?_⟩
      cases stop with
      | true =>
        obtain ⟨rfl, -⟩ := Prod.mk.inj (M.pure_ok_iff.1 h2)
        exact Continues.refl T _
      | false => exact loop_continues T ops h2
    | false =>
      cases stop with
      | true => exact absurd (h4 rfl) (by decide)
      | false =>
        obtain ⟨s0, w0, h5, h6⟩ := loop_budget hn hd (Nat.le_of_succ_le_succ hk) h2
        exact ⟨s0, w0, M.bind_ok_iff.2 ⟨_, _, h3, h5⟩, h6⟩

/-- **C176, genetic algorithms.** With the same operators, population size and random state, a run with a larger generation limit and a
larger time limit first does everything that the run with the smaller limits does – all callbacks and operator calls up to the final
`on_end` – and then goes on.  What it returns is what the shorter run returns, or strictly fitter. -/
theorem C176_ga {p q : GAParams} (hn : p.populationSize = q.populationSize) (hg : p.generationLimit ≤ q.generationLimit)
    (hd : p.maxDuration ≤ q.maxDuration) (hel : Returns ops.elapsed fun _ => True) {m0 : Metrics} {best : I} {tr : List (Ev I)} {w w' : W}
    (h : run T ops q m0 w = .ok ((best, tr), w')) :
    ∃ best0 short m pop w0 rest, run T ops p m0 w = .ok ((best0, short ++ [.onEnd m pop best0]), w0) ∧ tr = short ++ rest ∧
      (best = best0 ∨ Fl.Lt (T.fitness best) (T.fitness best0)) := by
  unfold run at h ⊢
  obtain ⟨s, w1, h1, h⟩ := M.bind_ok_iff.1 h
  obtain ⟨s', w2, h2, h⟩ := M.bind_ok_iff.1 h
  obtain ⟨d, w3, h3, h⟩ := M.bind_ok_iff.1 h
  obtain ⟨e, -⟩ := Prod.mk.inj (M.pure_ok_iff.1 h)
  obtain ⟨rfl, rfl⟩ := Prod.mk.inj e
  obtain ⟨s0, w0, h4, ⟨rest, h5⟩, h6⟩ := loop_budget T ops hn hd hg h2
  obtain ⟨d0, w00, h7, -⟩ := hel w0
  refine ⟨s0.best, s0.trace, { s0.metrics with totalDur := some d0 }, s0.pop, w00,
    rest ++ [.onEnd { s'.metrics with totalDur := some d } s'.pop s'.best], ?_, by rw [h5, List.append_assoc], h6⟩
  refine M.bind_ok_iff.2 ⟨s, w1, ?_, M.bind_ok_iff.2 ⟨s0, w0, h4, M.bind_ok_iff.2 ⟨d0, w00, h7, rfl⟩⟩⟩
  unfold prologue at h1 ⊢
  rw [hn]; exact h1

end

section
variable {G I C K : Type} [LinearOrder K] [MeasurableSpace G] {μ : Measure G} (T : IndTrait I C K) (ops : Ops G I K)

/-- Once a run from a state is good enough, longer runs from that state are. -/
theorem fails_down {p : GAParams} (hel : Returns ops.elapsed fun _ => True) {m0 : Metrics} {Q : I → Prop}
    (hQ : ∀ a b, Q a → Fl.Lt (T.fitness b) (T.fitness a) → Q b) {k n : Nat} (hk : k ≤ n) {w : G}
    (h : ∃ r w', run T ops { p with generationLimit := n } m0 w = .ok (r, w') ∧ ¬ Q r.1) :
    ∃ r w', run T ops { p with generationLimit := k } m0 w = .ok (r, w') ∧ ¬ Q r.1 := by
  obtain ⟨⟨best, tr⟩, w', h1, h2⟩ := h
  obtain ⟨b0, short, m, pop, w0, rest, h3, -, h4⟩ := C176_ga T ops (p := { p with generationLimit := k })
    (q := { p with generationLimit := n }) rfl hk le_rfl hel h1
  refine ⟨_, _, h3, fun hq => h2 ?_⟩
  rcases h4 with h4 | h4
  · show Q best
    rw [h4]; exact hq
  · exact hQ _ _ hq h4

/-- **C176, waiting times.** Hence the average waiting time of C175 is exactly the sum, over `k`, of the probabilities that a run of `k`
generations is not yet good enough (for any goal that fitter individuals reach too). -/
theorem C176_average_waiting [IsProbabilityMeasure μ] {p : GAParams} (hl : LawOps μ ops) (hel : Returns ops.elapsed fun _ => True)
    {m0 : Metrics} {Q : I → Prop} (hQ : ∀ a b, Q a → Fl.Lt (T.fitness b) (T.fitness a) → Q b)
    (hr : ∀ k, Returns (run T ops { p with generationLimit := k } m0) fun _ => True) :
    ∫⁻ g, (waiting (fun generations => run T ops { p with generationLimit := generations } m0) (fun r => Q r.1) g : ℝ≥0∞) ∂μ =
      ∑' k, chance μ (run T ops { p with generationLimit := k } m0) fun r => ¬ Q r.1 := by
  classical
  refine le_antisymm (average_waiting_le hr) ?_
  set m : Nat → M G (I × List (Ev I)) := fun k => run T ops { p with generationLimit := k } m0 with hm
  set E : Nat → Set G := fun k => {g | ∃ a g', m k g = .ok (a, g') ∧ ¬ Q a.1} with hE
  have hmeas : ∀ k, MeasurableSet (E k) := fun k => (hl.run (T := T) (p := { p with generationLimit := k }) m0).measurable _
  have hc : ∀ k, chance μ (m k) (fun a => ¬ Q a.1) = ∫⁻ g, (E k).indicator (fun _ => (1 : ℝ≥0∞)) g ∂μ := fun k =>
    (lintegral_indicator_one (hmeas k)).symm
  show ∑' k, chance μ (m k) (fun r => ¬ Q r.1) ≤ _
  simp only [hc]
  rw [← lintegral_tsum fun k => (measurable_const.indicator (hmeas k)).aemeasurable]
  refine lintegral_mono fun g => ?_
  refine ENNReal.tsum_le_of_sum_range_le fun n => ?_
  have hk : ∀ k, g ∈ E k → ((k + 1 : Nat) : ℕ∞) ≤ waiting m (fun r => Q r.1) g := by
    intro k hgk
    refine le_iInf₂ fun j ⟨a, g', h1, h2⟩ => ?_
    have : k < j := by
      by_contra hle
      obtain ⟨a', g'', h3, h4⟩ := fails_down T ops hel hQ (not_lt.1 hle) hgk
      have h5 : m j g = .ok (a', g'') := h3
      rw [h1] at h5
      obtain ⟨rfl, -⟩ := Prod.mk.inj (Except.ok.inj h5)
      exact h4 h2
    exact_mod_cast this
  rcases e : waiting m (fun r => Q r.1) g with _ | v
  · exact le_top
  · calc ∑ k ∈ Finset.range n, (E k).indicator (fun _ => (1 : ℝ≥0∞)) g ≤ ∑ k ∈ Finset.range n, if k < v then 1 else 0 := by
          refine Finset.sum_le_sum fun k _ => ?_
          by_cases hg : g ∈ E k
          · have := hk k hg
            rw [e] at this
            rw [if_pos (show k < v from ENat.natCast_le_natCast.1 this), Set.indicator_of_mem hg]
          · rw [Set.indicator_of_notMem hg]; exact zero_le
      _ = ((Finset.range n).filter (· < v)).card := by rw [Finset.sum_ite, Finset.sum_const_zero, add_zero]; simp
      _ ≤ (v : ℝ≥0∞) := by
          have : ((Finset.range n).filter (· < v)).card ≤ v := by
            refine (Finset.card_le_card (t := Finset.range v) fun x hx => ?_).trans (Finset.card_range v).le
            exact Finset.mem_range.2 (Finset.mem_filter.1 hx).2
          exact_mod_cast this

end

section
variable {G F : Type} [LinearOrder F] [MeasurableSpace G] {R : Rng G ℝ} {μ : Measure G}

/-- **C176, needles.** Together with C168: for every `m` up to `2 ^ dim / n` some needle makes the bit-string preset wait, on average, at
least `(m - 1) / 2` generations. -/
theorem C176_needle (hR : Ideal R μ) (worst : Fl F) {f : List Bool → Fl F} (hf : ∀ c, (f c).IsNum) {b v : Fl F} (hv : v.IsNum)
    (hb : ∀ c, ¬ Fl.Lt (f c) b) {dim n : Nat} (hd : 0 < dim) (hn : 0 < n) (he : n % 2 = 0) {elapsed : M G Nat}
    (hlaw : HasLaw μ elapsed) (hel : Returns elapsed fun _ => True) {p : GAParams} (hp : p.populationSize = n) (m0 : Metrics)
    {m : Nat} (hm : n * m ≤ 2 ^ dim) :
    ∃ t : List Bool, t.length = dim ∧ (m : ℝ≥0∞) ≤ 2 * ∫⁻ g, (waiting (fun generations =>
      run (Individual.trait (List Bool) F) (bscOps R (oneGenerator G) worst (needle f v t) dim n elapsed)
        { p with generationLimit := generations } m0) (fun r => Fl.Lt r.1.fitness b) g : ℝ≥0∞) ∂μ + 1 := by
  have := hR.isProbability
  obtain ⟨t, ht, h⟩ := C168_bit_string_waiting hR worst hf hv hb hd hn he hlaw hel hp m0 hm
  refine ⟨t, ht, h.trans (add_le_add_left (mul_le_mul_right ?_ _) _)⟩
  rw [C176_average_waiting (Individual.trait (List Bool) F) _ (Q := fun i => Fl.Lt i.fitness b) (bscOps_lawOps hR worst (needle f v t) dim n hlaw) hel
    (fun _ _ h1 h2 => h2.trans_le h1.le)
    fun k => ((bscOps_total R (oneGenerator G) worst (f := needle f v t) (needle_isNum hf hv t) hd hn he hel).run
      { p with generationLimit := k } hn hp m0).mono fun _ _ => trivial]
  exact ENNReal.sum_le_tsum _

end

end Ecrs.Ga

namespace Ecrs.Pso
open Ecrs

section
variable {X K W : Type} [Add X] [Sub X] [Mul X] [Neg X] [LinearOrder K]

theorem loop_budget {stop stop' : Term W X K} (hs : ∀ i s w b w', stop' i s w = .ok (b, w') → ∃ b', stop i s w = .ok (b', w') ∧ (b = true → b' = true))
    {c : Coeffs X} {f : List X → Fl K} {draw : Nat → Nat → Nat → X × X} :
    ∀ {fuel i : Nat} {s s' : Swarm X K} {evs : List (Ev X K)} {w w' : W} {h : List (Swarm X K)}, History c f h s →
      loop stop' c f draw fuel i s w = .ok ((s', evs), w') →
      ∃ s0 g short w0 rest, loop stop c f draw fuel i s w = .ok ((s0, short ++ [.onEnd s0 g]), w0) ∧ evs = short ++ rest ∧
        (s'.bestValue = s0.bestValue ∨ Fl.Lt s'.bestValue s0.bestValue)
  | 0, _, _, _, _, _, _, _, _, h => by simp [loop] at h
  | fuel + 1, i, s, s', evs, w, w', hist, hh, h => by
    have hbest := (loop_best (fuel + 1) h hh).1
    have hend : ∀ {fuel i : Nat} {s s' : Swarm X K} {evs : List (Ev X K)} {w w' : W},
        loop stop' c f draw fuel i s w = .ok ((s', evs), w') → ∃ g, Ev.onEnd s' g ∈ evs := by
      intro fuel
      induction fuel with
      | zero => intro i s s' evs w w' h; simp [loop] at h
      | succ fuel ih =>
        intro i s s' evs w w' h
        rcases loop_ok h with ⟨rfl, rfl, -⟩ | ⟨evs', w1, rfl, -, fuel', hf, h'⟩
        · exact ⟨i, by simp⟩
        · cases hf
          obtain ⟨g, hg⟩ := ih h'
          exact ⟨g, List.mem_cons_of_mem _ hg⟩
    obtain ⟨ge, hge⟩ := hend h
    have hlast := hbest _ hge
    simp only [loop]
    rw [loop] at h
    obtain ⟨b, w1, h1, h2⟩ := M.bind_ok_iff.1 h
    obtain ⟨b', h3, h4⟩ := hs _ _ _ _ _ h1
    cases b' with
    | true => exact ⟨s, i, [], w1, evs, M.bind_ok_iff.2 ⟨_, _, h3, rfl⟩, rfl, hlast⟩
    | false =>
      cases b with
      | true => exact absurd (h4 rfl) (by decide)
      | false =>
        rw [if_neg (by decide)] at h2
        obtain ⟨⟨r, es⟩, w2, h5, h6⟩ := M.bind_ok_iff.1 h2
        obtain ⟨e1, -⟩ := Prod.mk.inj (M.pure_ok_iff.1 h6)
        obtain ⟨rfl, rfl⟩ := Prod.mk.inj e1
        obtain ⟨s0, g, short, w0, rest, h7, rfl, h8⟩ := loop_budget hs (History.step hist s (draw (i + 1)) hh) h5
        refine ⟨s0, g, .onNewGeneration (s.iterate c f (draw (i + 1))) (i + 1) :: short, w0, rest, ?_, rfl, h8⟩
        refine M.bind_ok_iff.2 ⟨_, _, h3, ?_⟩
        rw [if_neg (by decide)]
        exact M.bind_ok_iff.2 ⟨_, _, h7, rfl⟩

theorem run_budget {stop stop' : Term W X K} (hs : ∀ i s w b w', stop' i s w = .ok (b, w') → ∃ b', stop i s w = .ok (b', w') ∧ (b = true → b' = true))
    {c : Coeffs X} {f : List X → Fl K} {draw : Nat → Nat → Nat → X × X} {fuel : Nat} {s s' : Swarm X K} {evs : List (Ev X K)} {w w' : W}
    {h : List (Swarm X K)} (hh : History c f h s) (hr : run stop' c f draw fuel s w = .ok ((s', evs), w')) :
    ∃ s0 g short w0 rest, run stop c f draw fuel s w = .ok ((s0, short ++ [.onEnd s0 g]), w0) ∧ evs = short ++ rest ∧
      (s'.bestValue = s0.bestValue ∨ Fl.Lt s'.bestValue s0.bestValue) := by
  unfold run at hr ⊢
  obtain ⟨⟨r, es⟩, w1, h1, h2⟩ := M.bind_ok_iff.1 hr
  obtain ⟨e1, -⟩ := Prod.mk.inj (M.pure_ok_iff.1 h2)
  obtain ⟨rfl, rfl⟩ := Prod.mk.inj e1
  obtain ⟨s0, g, short, w0, rest, h3, rfl, h4⟩ := loop_budget hs hh h1
  exact ⟨s0, g, .onBegin s :: short, w0, rest, M.bind_ok_iff.2 ⟨_, _, h3, rfl⟩, rfl, h4⟩

/-- **C176, particle swarms, generations.** A swarm run with a larger generation limit shows what the run with the smaller limit shows up
to its `on_end`, and goes on; its best value is the same or strictly smaller. -/
theorem C176_pso_generations {limit limit' : Nat} (hl : limit ≤ limit') {c : Coeffs X} {f : List X → Fl K} {draw : Nat → Nat → Nat → X × X}
    {fuel : Nat} {s s' : Swarm X K} {evs : List (Ev X K)} {w w' : W} {h : List (Swarm X K)} (hh : History c f h s)
    (hr : run (generationLimit limit') c f draw fuel s w = .ok ((s', evs), w')) :
    ∃ s0 g short w0 rest, run (generationLimit limit) c f draw fuel s w = .ok ((s0, short ++ [.onEnd s0 g]), w0) ∧ evs = short ++ rest ∧
      (s'.bestValue = s0.bestValue ∨ Fl.Lt s'.bestValue s0.bestValue) := by
  refine run_budget (fun i s w b w' hb => ?_) hh hr
  obtain ⟨rfl, rfl⟩ := Prod.mk.inj (M.pure_ok_iff.1 hb)
  exact ⟨_, rfl, fun hb => decide_eq_true (hl.trans (of_decide_eq_true hb))⟩

/-- **C176, particle swarms, time.** The same for a larger time limit, on the same clock. -/
theorem C176_pso_time {now : M W Nat} {created limit limit' : Nat} (hl : limit ≤ limit') {c : Coeffs X} {f : List X → Fl K}
    {draw : Nat → Nat → Nat → X × X} {fuel : Nat} {s s' : Swarm X K} {evs : List (Ev X K)} {w w' : W} {h : List (Swarm X K)}
    (hh : History c f h s) (hr : run (timeLimit now created limit') c f draw fuel s w = .ok ((s', evs), w')) :
    ∃ s0 g short w0 rest, run (timeLimit now created limit) c f draw fuel s w = .ok ((s0, short ++ [.onEnd s0 g]), w0) ∧
      evs = short ++ rest ∧ (s'.bestValue = s0.bestValue ∨ Fl.Lt s'.bestValue s0.bestValue) := by
  refine run_budget (fun i s w b w' hb => ?_) hh hr
  obtain ⟨t, w1, h1, h2⟩ := M.bind_ok_iff.1 hb
  obtain ⟨rfl, rfl⟩ := Prod.mk.inj (M.pure_ok_iff.1 h2)
  exact ⟨_, M.bind_ok_iff.2 ⟨t, _, h1, rfl⟩, fun hb => decide_eq_true (hl.trans (of_decide_eq_true hb))⟩

end
end Ecrs.Pso

namespace Ecrs.Aco
open Ecrs

section
variable {X K Ph C G U : Type} [LinearOrder K] (A : AcoOps X K)

/-- Specification: `long` does what `short` does up to its `end`, or both are the same (a panic interrupts both). -/
def Extends (short long : List (Event X Ph) × Outcome) : Prop :=
  (short.2 = .done ∧ ∃ common rest, short.1 = common ++ [.finish] ∧ long.1 = common ++ rest) ∨ long = short

theorem runLoop_budget {S S' : Type} (al : Algo X Ph C G U) {check : S → Ph → S × Bool} {check' : S' → Ph → S' × Bool} {R : S → S' → Prop}
    (hR : ∀ t t' ph, R t t' → R (check t ph).1 (check' t' ph).1 ∧ ((check' t' ph).2 = true → (check t ph).2 = true)) :
    ∀ (fuel : Nat) {t : S} {t' : S'} (s : RunState Ph C G U), R t t' → Extends (runLoop A al check fuel t s) (runLoop A al check' fuel t' s)
  | 0, _, _, _, _ => .inr rfl
  | fuel + 1, t, t', s, ht => by
    obtain ⟨h1, h2⟩ := hR t t' s.ph ht
    rw [runLoop, runLoop]
    by_cases hc : (check t s.ph).2 = true
    · rw [if_pos hc]
      exact .inl ⟨rfl, [], _, rfl, rfl⟩
    · rw [if_neg hc, if_neg fun h => hc (h2 h)]
      rcases e : iterate A al s with ⟨es, _ | s'⟩
      · exact .inr rfl
      · rcases runLoop_budget al hR fuel s' h1 with ⟨g1, common, rest, g2, g3⟩ | g
        · refine .inl ⟨g1, .iterationStart :: es ++ .iterationEnd :: common, rest, ?_, ?_⟩
          · simp only [g2, List.append_assoc, List.cons_append]
          · simp only [g3, List.append_assoc, List.cons_append]
        · right
          simp only [g]

/-- **C176, ant colonies, iterations.** An ant colony run with a larger iteration limit shows what the run with the smaller limit shows up
to its `end`, and goes on (or the same panic interrupts both). -/
theorem C176_aco_iterations (al : Algo X Ph C G U) (fuel : Nat) {curr curr' limit limit' : Nat} (hl : limit ≤ limit') (s : RunState Ph C G U) :
    Extends (runIterations A al fuel ⟨curr, limit⟩ s) (runIterations A al fuel ⟨curr', limit'⟩ s) := by
  refine runLoop_budget A al (R := fun t t' => t.curr = t'.curr ∧ t.limit ≤ t'.limit) ?_ fuel s ⟨rfl, hl⟩
  rintro t t' ph ⟨h1, h2⟩
  refine ⟨⟨by show t.curr + 1 = t'.curr + 1; rw [h1], h2⟩, fun h => ?_⟩
  have h3 : t'.limit < t'.curr + 1 := of_decide_eq_true h
  exact decide_eq_true (by show t.limit < t.curr + 1; omega)

/-- **C176, ant colonies, time.** The same for a longer duration, on the same clock. -/
theorem C176_aco_time (al : Algo X Ph C G U) (fuel : Nat) (clock : Nat → Nat) {duration duration' : Nat} (hl : duration ≤ duration')
    (s : RunState Ph C G U) : Extends (runTime A al fuel clock duration s) (runTime A al fuel clock duration' s) := by
  refine runLoop_budget A al (R := fun t t' => t = t') ?_ fuel s rfl
  rintro t t' ph rfl
  refine ⟨rfl, fun h => ?_⟩
  have h3 : duration' < clock (t + 1) - clock 0 := of_decide_eq_true h
  exact decide_eq_true (by show duration < clock (t + 1) - clock 0; omega)

end
end Ecrs.Aco

/-! ## Non-vacuity -/

namespace Ecrs.Ga
open Ecrs

/-- One generation against three, and three against a run that the clock stops. -/
example : ∃ best tr w', run (Individual.trait Int Int) exampleOps ⟨2, 3, 100⟩ (initialMetrics ⟨2, 3, 100⟩) 0 = .ok ((best, tr), w') ∧
    best = ⟨1, .num 1⟩ ∧ (∃ best0 short m pop w0 rest,
      run (Individual.trait Int Int) exampleOps ⟨2, 0, 100⟩ (initialMetrics ⟨2, 3, 100⟩) 0 = .ok ((best0, short ++ [.onEnd m pop best0]), w0) ∧
      tr = short ++ rest ∧ (best = best0 ∨ Fl.Lt best.fitness best0.fitness)) ∧
    ∃ best0 tr0 w0, run (Individual.trait Int Int) exampleOps ⟨2, 0, 100⟩ (initialMetrics ⟨2, 3, 100⟩) 0 = .ok ((best0, tr0), w0) ∧
      best0 = ⟨3, .num 9⟩ :=
  ⟨_, _, _, rfl, by decide, C176_ga (Individual.trait Int Int) exampleOps (p := ⟨2, 0, 100⟩) (q := ⟨2, 3, 100⟩) rfl (by decide) (by decide)
    (fun w => ⟨w, w + 1, rfl, trivial⟩) rfl, _, _, _, rfl, by decide⟩

/-- Eight bits, two individuals, `m = 128`. -/
example := C176_needle tapeRng_ideal (.num 0) (f := fun _ => .num 1) (fun _ => trivial) (b := .num 1) (v := .num 0) trivial
    (fun _ h => absurd h (lt_irrefl (1 : Nat))) (dim := 8) (n := 2) (by decide) (by decide) (by decide) (.pure 0)
    (Returns.pure trivial) (p := ⟨2, 0, 5⟩) rfl ⟨0, 2, none⟩ (m := 128) (by decide)

end Ecrs.Ga

namespace Ecrs.Pso
open Ecrs

example := C176_pso_generations (limit := 1) (limit' := 3) (by decide) demo_history
    (C48_generation_limit 3 demoCoeffs demoF demoDraw 4 (by decide) demoSwarm ())

end Ecrs.Pso

namespace Ecrs.Aco
open Ecrs

/-- Five cities on a line: two iterations against four; the shorter run ends by itself. -/
example : Extends
    (runIterations Q (tspAntSystem Q (canonicalGoodness Q (.fin 1) (.fin 1) (constMat 5 1)) (fun _ => exIter 0)
      ⟨5, 5, fun i j => .fin (lineF i j)⟩ (.fin (1/2))) 100 ⟨0, 2⟩
      ⟨(0, [Ant.canonical 5, Ant.canonical 5, ⟨[], [], 5, false, some (.fin (1/2))⟩]), (), Sol.default Q, constMat 5 1⟩)
    (runIterations Q (tspAntSystem Q (canonicalGoodness Q (.fin 1) (.fin 1) (constMat 5 1)) (fun _ => exIter 0)
      ⟨5, 5, fun i j => .fin (lineF i j)⟩ (.fin (1/2))) 100 ⟨0, 4⟩
      ⟨(0, [Ant.canonical 5, Ant.canonical 5, ⟨[], [], 5, false, some (.fin (1/2))⟩]), (), Sol.default Q, constMat 5 1⟩) :=
  C176_aco_iterations Q _ 100 (by decide) _

end Ecrs.Aco
