import Verif.Ga.Assemble
import Verif.Ga.Closed
import Verif.Props.CrossoverPerm
import Verif.Props.CrossoverLocus
import Verif.Props.Mutation
import Verif.Props.Selection
import Verif.Props.Replacement
import Verif.Props.Population
import Verif.CounterRng

/-!
# Properties C39, C41, C42, C69: whole runs of GAs assembled from shipped operators
-/

set_option linter.unusedSectionVars false

namespace Ecrs.Ga
open Ecrs

section slot
variable {W G α : Type} (s : Slot W G)

theorem Slot.run_returns {m : M G α} {Q : α → Prop} (h : Returns m Q) : Returns (s.run m) Q := by
  intro w
  obtain ⟨a, g, h1, h2⟩ := h (s.get w)
  exact ⟨a, s.put g w, by unfold Slot.run; rw [h1], h2⟩

theorem Slot.run_ifReturns {m : M G α} {Q : α → Prop} (h : IfReturns m Q) : IfReturns (s.run m) Q := by
  intro w a w' hw
  unfold Slot.run at hw
  cases hm : m (s.get w) with
  | error e => rw [hm] at hw; cases hw
  | ok r =>
    obtain ⟨b, g⟩ := r
    rw [hm] at hw
    cases hw
    exact h _ _ _ hm

theorem Slot.run_panics {m : M G α} (h : Panics m) : Panics (s.run m) := by
  intro w
  obtain ⟨e, he⟩ := h (s.get w)
  exact ⟨e, by unfold Slot.run; rw [he]⟩

end slot

section
variable {G K I C F : Type} [Field K] [LinearOrder K] [IsStrictOrderedRing K] [FloorSemiring K] [LinearOrder F]

theorem susGo_members {fit : I → K} {d : K} {fuel : Nat} : ∀ (pop : List I) (sum ptr : K),
    IfReturns (susGo fit d fuel sum ptr pop : M G _) fun sel => ∀ x ∈ sel, x ∈ pop
  | [], _, _ => IfReturns.pure (by simp)
  | x :: xs, sum, ptr => by
    unfold susGo
    refine IfReturns.bind IfReturns.trivial fun r _ => ?_
    obtain ⟨k, ptr'⟩ := r
    refine IfReturns.bind (susGo_members xs _ _) fun rest hr => IfReturns.pure ?_
    intro y hy
    rcases List.mem_append.1 hy with h | h
    · rw [(List.mem_replicate.1 h).2]; simp
    · simp [hr y h]

theorem ofExcept_findMax_mem {T : IndTrait I C F} {l : List I} :
    IfReturns (M.ofExcept (findMax T l) : M G I) fun m => m ∈ l := by
  refine IfReturns.ofExcept fun a ha => ?_
  have key : ∀ (xs : List I) (b a : I), maxFrom T b xs = .ok a → a = b ∨ a ∈ xs := by
    intro xs
    induction xs with
    | nil => intro b a h; cases h; exact .inl rfl
    | cons x xs ih =>
      intro b a h
      unfold maxFrom at h
      split at h
      · cases h
      · rcases ih _ _ h with rfl | h
        · exact .inl rfl
        · exact .inr (by simp [h])
      · rcases ih _ _ h with rfl | h
        · exact .inr (by simp)
        · exact .inr (by simp [h])
  cases l with
  | nil => cases ha
  | cons x xs =>
    rcases key xs x a ha with rfl | h
    · simp
    · simp [h]

/-- **C28, all eight operators.** Whenever a shipped selection operator returns, everything it returns is a
member of the population (no assumption on fitness values, sizes or draws). -/
theorem C28_members (R : FRng G K) (T : IndTrait I C F) (fit : I → K) (fuel count : Nat)
    (op : Selection K I) (m : Metrics) (pop : List I) :
    IfReturns (op.apply R T fit fuel count m pop) fun sel => ∀ x ∈ sel, x ∈ pop := by
  have idxs : ∀ is : List Nat, IfReturns (M.forEach (idx pop) is : M G (List I)) fun sel =>
      ∀ x ∈ sel, x ∈ pop := fun is => forEach_idx_ifReturns.mono fun sel hs => hs.mem
  have idx1 : ∀ i : Nat, IfReturns (idx pop i : M G I) fun x => x ∈ pop := fun i =>
    idx_ifReturns.mono fun x hx => List.mem_of_getElem? hx
  cases op with
  | roulette => exact (C29_roulette R.toRng fit).ifReturns.mono fun sel h x hx => (h.2 x hx).1
  | random =>
    refine IfReturns.bind IfReturns.trivial fun _ _ => ?_
    exact IfReturns.bind IfReturns.trivial fun is _ => idxs is
  | uniqueRandom => exact IfReturns.bind IfReturns.trivial fun is _ => idxs is
  | rank =>
    refine (IfReturns.replicate (Q := fun x => x ∈ pop) ?_ count).mono fun _ h => h.2
    refine IfReturns.bind IfReturns.trivial fun i _ => IfReturns.bind (idx1 i) fun p hp => ?_
    refine IfReturns.bind IfReturns.trivial fun j _ => IfReturns.bind (idx1 j) fun q hq => ?_
    exact IfReturns.pure (by split <;> assumption)
  | rankR r =>
    refine IfReturns.bind IfReturns.trivial fun _ _ => ?_
    refine (IfReturns.replicate (Q := fun x => x ∈ pop) ?_ count).mono fun _ h => h.2
    refine IfReturns.bind IfReturns.trivial fun i _ => IfReturns.bind (idx1 i) fun p hp => ?_
    refine IfReturns.bind IfReturns.trivial fun j _ => IfReturns.bind (idx1 j) fun q hq => ?_
    refine IfReturns.bind IfReturns.trivial fun u _ => ?_
    exact IfReturns.pure (by split <;> assumption)
  | tournament factor =>
    refine (IfReturns.replicate (Q := fun x => x ∈ pop) ?_ count).mono fun _ h => h.2
    refine IfReturns.bind IfReturns.trivial fun is _ => ?_
    refine IfReturns.bind (idxs is) fun cs hcs => ?_
    exact ofExcept_findMax_mem.mono fun x hx => hcs x hx
  | sus =>
    refine IfReturns.bind IfReturns.trivial fun _ _ => ?_
    refine IfReturns.bind IfReturns.trivial fun ptr _ => ?_
    refine IfReturns.bind (susGo_members pop 0 ptr) fun sel hs => ?_
    exact IfReturns.bind IfReturns.trivial fun _ _ => IfReturns.pure hs
  | boltzmann weight => exact IfReturns.bind IfReturns.trivial fun is _ => idxs is

/-! ## C39 -/

variable {A : Type} [DecidableEq A]

/-- The three permutation crossovers. -/
def Crossover.isPerm {U : Type} : Crossover U → Bool
  | .ordered | .pmx | .ppx => true
  | _ => false

theorem pairsRel_all {Q : I → I → I → I → Prop} {P : I → Prop} {sel out : List I} (h : PairsRel Q sel out)
    (hs : ∀ i ∈ sel, P i) (hq : ∀ a b c d, P a → P b → Q a b c d → P c ∧ P d) : ∀ i ∈ out, P i := by
  induction h with
  | nil => simp
  | cons h1 _ ih =>
    have h2 := hq _ _ _ _ (hs _ (by simp)) (hs _ (by simp)) h1
    intro i hi
    simp only [List.mem_cons] at hi
    rcases hi with rfl | rfl | hi
    · exact h2.1
    · exact h2.2
    · exact ih (fun j hj => hs j (by simp [hj])) i hi

theorem permCross_closed (R : Rng G K) (X : ChromOps I A) {half : K} {fuel : Nat} {genes : List A}
    (hn : genes.Nodup) (h0 : 0 < genes.length) (hfuel : genes.length ≤ fuel) {cr : Crossover K}
    (hcr : cr.isPerm = true) {pool : List I} (hp : ∀ i ∈ pool, (X.ch i).Perm genes)
    (he : pool.length % 2 = 0) :
    Returns (cr.apply R X half fuel pool) fun out => out.length = pool.length ∧
      ∀ i ∈ out, (X.ch i).Perm genes := by
  have hpp : Pairs (PermParents X) pool := Pairs.of_forall pool he fun a ha b hb =>
    ⟨(hp a ha).nodup_iff.2 hn, (hp a ha).trans (hp b hb).symm, by rw [(hp a ha).length_eq]; exact h0⟩
  have hpf : Pairs (fun a b => PermParents X a b ∧ (X.ch a).length ≤ fuel) pool :=
    Pairs.of_forall pool he fun a ha b hb =>
      ⟨⟨(hp a ha).nodup_iff.2 hn, (hp a ha).trans (hp b hb).symm, by rw [(hp a ha).length_eq]; exact h0⟩,
        by rw [(hp a ha).length_eq]; exact hfuel⟩
  have fin : ∀ out, PairsRel (fun a _ c d => (X.ch c).Perm (X.ch a) ∧ (X.ch d).Perm (X.ch a)) pool out →
      out.length = pool.length ∧ ∀ i ∈ out, (X.ch i).Perm genes := fun out h =>
    ⟨h.length, pairsRel_all h hp fun a b c d ha _ h => ⟨h.1.trans ha, h.2.trans ha⟩⟩
  cases cr with
  | ordered => exact (C17_ordered_permutation R X hpp).mono fin
  | pmx => exact (C19_pmx_permutation R X hpf).mono fin
  | ppx =>
    have hpq : Pairs (fun a b => (X.ch a).Nodup ∧ (X.ch a).Perm (X.ch b)) pool :=
      Pairs.of_forall pool he fun a ha b hb =>
        ⟨(hp a ha).nodup_iff.2 hn, (hp a ha).trans (hp b hb).symm⟩
    exact (C21_ppx_permutation R X hpq).mono fin
  | _ => cases hcr

theorem permOps_closed {W : Type} (R : FRng G K) (T : IndTrait I C F) (X : ChromOps I A)
    (hset : ∀ i x, X.ch (T.setFitness i x) = X.ch i)
    (S : Slots W G) (f : C → Fl F) (fit : I → K) (half : K) {fuel : Nat} (count : Nat) {genes : List A}
    (sel : Selection K I) {cr : Crossover K} (mu : Mutation K) (re : Replacement) (debug : Bool)
    (elapsed : M W Nat) (hn : genes.Nodup) (h0 : 0 < genes.length) (hfuel : genes.length ≤ fuel)
    (hcr : cr.isPerm = true) :
    Closed T (permOps R T X S f fit half fuel count genes sel cr mu re debug elapsed)
      (fun i => (X.ch i).Perm genes) where
  set i x h := by rw [hset]; exact h
  gen n := S.gen.run_ifReturns ((C38_random_permutations R.toRng X genes n).ifReturns.mono fun _ h => h.2)
  fit i h := IfReturns.pure h
  sel m pop h := S.sel.run_ifReturns ((C28_members R T fit fuel count sel m pop).mono
    fun pool hp i hi => h i (hp i hi))
  cross m pool h := by
    refine S.cross.run_ifReturns ?_
    by_cases he : pool.length % 2 = 0
    · exact (permCross_closed R.toRng X hn h0 hfuel hcr h he).ifReturns.mono fun _ h => h.2
    · intro g a g' hg
      obtain ⟨e, hpan⟩ := C09_crossover_odd_panics R.toRng X cr half fuel
        (sel := pool) (by omega) g
      rw [hpan] at hg; cases hg
  mutate m i h := S.mutate.run_ifReturns
    ((C25_reordering_mutations R.toRng X mu i).mono fun i' hi' => hi'.trans h)
  replace m pop children hp hc := (replacement_members T re debug pop children).mono
    fun out ho i hi => (ho i hi).elim (hp i) (hc i)

/-- **C39.** In every returning run of a GA made of RandomPermutations (of a non-empty duplicate-free gene
vector), one of the permutation crossovers, one of Identity/Interchange/Reversing/Inversion, any shipped
selection and any shipped replacement, the returned individual and every individual in every population,
mating pool and set of children ever shown or replaced is a permutation of the genes. -/
theorem C39_permutation_ga {W : Type} (R : FRng G K) (T : IndTrait I C F) (X : ChromOps I A)
    (hset : ∀ i x, X.ch (T.setFitness i x) = X.ch i)
    (S : Slots W G) (f : C → Fl F) (fit : I → K) (half : K) {fuel : Nat} (count : Nat) {genes : List A}
    (sel : Selection K I) {cr : Crossover K} (mu : Mutation K) (re : Replacement) (debug : Bool)
    (elapsed : M W Nat) (hn : genes.Nodup) (h0 : 0 < genes.length) (hfuel : genes.length ≤ fuel)
    (hcr : cr = .ordered ∨ cr = .pmx ∨ cr = .ppx) (p : GAParams) {m0 : Metrics} {best : I}
    {tr : List (Ev I)} {w w' : W}
    (h : run T (permOps R T X S f fit half fuel count genes sel cr mu re debug elapsed) p m0 w =
      .ok ((best, tr), w')) :
    (X.ch best).Perm genes ∧ ∀ e ∈ tr, EvAll (fun i => (X.ch i).Perm genes) e :=
  (permOps_closed R T X hset S f fit half count sel mu re debug elapsed hn h0 hfuel
    (by rcases hcr with rfl | rfl | rfl <;> rfl)).run p h

/-- **C39, evaluation.** The fitness function of such a GA is never called on anything but a permutation of
the genes: replacing it by one that panics on every non-permutation changes no run (returning or
panicking). -/
theorem C39_only_permutations_evaluated {W : Type} (R : FRng G K) (T : IndTrait I C F) (X : ChromOps I A)
    (hset : ∀ i x, X.ch (T.setFitness i x) = X.ch i)
    (S : Slots W G) (f : C → Fl F) (fit : I → K) (half : K) {fuel : Nat} (count : Nat) {genes : List A}
    (sel : Selection K I) {cr : Crossover K} (mu : Mutation K) (re : Replacement) (debug : Bool)
    (elapsed : M W Nat) (hn : genes.Nodup) (h0 : 0 < genes.length) (hfuel : genes.length ≤ fuel)
    (hcr : cr = .ordered ∨ cr = .pmx ∨ cr = .ppx) (p : GAParams) (m0 : Metrics) :
    let ops := permOps R T X S f fit half fuel count genes sel cr mu re debug elapsed
    run T { ops with fitnessFn := guarded (fun i => (X.ch i).Perm genes) ops.fitnessFn } p m0 =
      run T ops p m0 :=
  (permOps_closed R T X hset S f fit half count sel mu re debug elapsed hn h0 hfuel
    (by rcases hcr with rfl | rfl | rfl <;> rfl)).run_guarded p m0

/-- **C39, no panic.** With Tournament selection (factor `≤ 1`) of as many individuals as the even, positive
population size, any of the three replacements and a NaN-free fitness function, such a GA never panics. -/
theorem C39_permutation_ga_returns {W : Type} (R : FRng G K) (T : IndTrait I C F) (X : ChromOps I A)
    (hset : ∀ i x, X.ch (T.setFitness i x) = X.ch i) (heval : ∀ i, T.requiresEval i = true)
    (S : Slots W G) {f : C → Fl F} (hf : ∀ c, (f c).IsNum) (fit : I → K) (half : K) {fuel n : Nat}
    {genes : List A} {factor : K} (hfac : factor ≤ 1) {cr : Crossover K} (mu : Mutation K)
    (re : Replacement) (debug : Bool)
    {elapsed : M W Nat} (hel : Returns elapsed fun _ => True) (hn : genes.Nodup) (h0 : 0 < genes.length)
    (hfuel : genes.length ≤ fuel) (hcr : cr = .ordered ∨ cr = .pmx ∨ cr = .ppx) {p : GAParams}
    (hp : p.populationSize = n) (hpos : 0 < n) (heven : n % 2 = 0) (m0 : Metrics) :
    Returns (run T (permOps R T X S f fit half fuel n genes (.tournament factor) cr mu re debug elapsed)
      p m0) fun r => (X.ch r.1).Perm genes := by
  have hcr' : cr.isPerm = true := by rcases hcr with rfl | rfl | rfl <;> rfl
  have ht : TotalOps T (permOps R T X S f fit half fuel n genes (.tournament factor) cr mu re debug elapsed)
      (fun i => (X.ch i).Perm genes) n :=
    { eval := heval
      set := fun i x h => by rw [hset]; exact h
      gen := S.gen.run_returns (C38_random_permutations R.toRng X genes n)
      fit := fun i h => Returns.pure ⟨h, hf _⟩
      sel := fun m pop hl hP hnum => S.sel.run_returns
        ((C28_tournament R.toRng T hfac (by omega) hnum).mono fun pool hpool =>
          ⟨hpool.1, fun i hi => hP i (hpool.2 i hi)⟩)
      cross := fun m pool hl hP => S.cross.run_returns
        ((permCross_closed R.toRng X hn h0 hfuel hcr' hP (by omega)).mono fun out h =>
          ⟨by rw [h.1, hl], h.2⟩)
      mutate := fun m i h => S.mutate.run_returns
        ((C25_reordering_mutations_return R.toRng X mu i (by rw [h.length_eq]; exact h0)).mono
          fun i' hi' => hi'.trans h)
      replace := fun m pop children hl1 hl2 hp1 hp2 hn1 hn2 => by
        cases re with
        | bothParents => exact Returns.pure ⟨hl2, hp2⟩
        | noop => exact Returns.pure ⟨hl1, hp1⟩
        | weakParent =>
          intro w
          obtain ⟨out, w', h1, h2⟩ := C35_weak_parent (W := W) T (debug := debug) (pop := pop)
            (children := children) (by omega) (by omega) (by omega) hn1 (hn2 rfl) w
          refine ⟨out, w', h1, by rw [h2.1, hl1], ?_⟩
          intro i hi
          rcases (C35_weak_parent_members T w out w' h1).2 i hi with h | h
          · exact hp1 i h
          · exact hp2 i h
      elapsed := hel }
  intro w
  obtain ⟨⟨best, tr⟩, w', h1, -⟩ := ht.run p hpos hp m0 w
  exact ⟨(best, tr), w', h1, (C39_permutation_ga R T X hset S f fit half n _ mu re debug elapsed hn h0 hfuel
    hcr p h1).1⟩

end

/-! ## Every theorem on a concrete case: ordered crossover and interchange on permutations of five genes -/

section instances
/-- One generator for all four operators. -/
def fourShared : Slots Nat Nat := ⟨⟨id, fun g _ => g⟩, ⟨id, fun g _ => g⟩, ⟨id, fun g _ => g⟩, ⟨id, fun g _ => g⟩⟩

/-- The operators of a GA on permutations of 1…5, population size 4. -/
def exPermOps := permOps counterFRng (Individual.trait (List Nat) ℚ) (Individual.chromOps Nat (.num 0)) fourShared
  (fun c => .num (c.headD 0 : ℚ)) (fun _ => 1) (1 / 2) 5 4 [1, 2, 3, 4, 5] (.tournament (1 / 5)) .ordered (.interchange (1 / 2))
  .weakParent true (pure 0)

example := C39_permutation_ga_returns counterFRng (Individual.trait (List Nat) ℚ) (Individual.chromOps Nat (.num 0)) (fun _ _ => rfl)
  (fun _ => rfl) fourShared (f := fun c => .num (c.headD 0 : ℚ)) (fun _ => trivial) (fun _ => 1) (1 / 2) (fuel := 5) (n := 4)
  (genes := [1, 2, 3, 4, 5]) (factor := 1 / 5) (by norm_num) (cr := .ordered) (.interchange (1 / 2)) .weakParent true
  (elapsed := pure 0) (Returns.pure trivial) (by decide) (by decide) (by decide) (.inl rfl) (p := ⟨4, 20, 1000⟩) rfl (by decide) (by decide)
  ⟨0, 4, none⟩
example {best : Individual (List Nat) ℚ} {tr : List (Ev (Individual (List Nat) ℚ))} {w' : Nat}
    (h : run (Individual.trait (List Nat) ℚ) exPermOps ⟨4, 20, 1000⟩ ⟨0, 4, none⟩ 0 = .ok ((best, tr), w')) :=
  C39_permutation_ga counterFRng (Individual.trait (List Nat) ℚ) (Individual.chromOps Nat (.num 0)) (fun _ _ => rfl) fourShared _ _ _ _ _ _ _ _ _
    (by decide) (by decide) (by decide) (.inl rfl) _ h
example := C39_only_permutations_evaluated counterFRng (Individual.trait (List Nat) ℚ) (Individual.chromOps Nat (.num 0)) (fun _ _ => rfl)
  fourShared (fun c => .num (c.headD 0 : ℚ)) (fun _ => 1) (1 / 2) (fuel := 5) 4 (genes := [1, 2, 3, 4, 5]) (.roulette) (cr := .pmx)
  (.reversing (1 / 2)) .bothParents true (pure 0) (by decide) (by decide) (by decide) (.inr (.inl rfl)) ⟨4, 20, 1000⟩ ⟨0, 4, none⟩
end instances

end Ecrs.Ga
