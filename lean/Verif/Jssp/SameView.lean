import Verif.Jssp.Decode
import Verif.Jssp.Arises

/-!
# Chromosomes that the decoder cannot tell apart

The decoder looks at the priorities only to find the first largest one, and at the delays only to compare them with differences of
times.  A proof device, not part of the model.
-/

set_option linter.unusedSectionVars false
set_option linter.unusedVariables false

namespace Ecrs.Jssp
open Ecrs

section
variable {X : Type} {E : EvalOps X} {S : Shop}

/-- A later priority beats an earlier one in both chromosomes or in none, and the delays allow the same operations. -/
structure SameView (E : EvalOps X) (n md : Nat) (ch ch' : List X) : Prop where
  len : ch.length = 2 * n
  len' : ch'.length = 2 * n
  prio : ∀ i j p q p' q', i < j → j < n → ch[i]? = some p → ch[j]? = some q → ch'[i]? = some p' → ch'[j]? = some q' → E.gt q p = E.gt q' p'
  late : ∀ k x x', n ≤ k → ch[k]? = some x → ch'[k]? = some x' → ∀ f t, E.late f (some t) (E.delay x md) = E.late f (some t) (E.delay x' md)

theorem feas_same (hS : S.WF) {md : Nat} {ch ch' : List X} (hv : SameView E S.n md ch ch') {ft : Nat → Option Nat} {k : Nat} {x x' : X} {t : Nat}
    (hk : S.n ≤ k) (hx : ch[k]? = some x) (hx' : ch'[k]? = some x') {f f' : Feas X}
    (h : FeasSpec S E ch ft (E.delay x md) t (S.n + 2) f) (h' : FeasSpec S E ch' ft (E.delay x' md) t (S.n + 2) f') :
    (f.feasibles = [] ↔ f'.feasibles = []) ∧ (f.feasibles ≠ [] → f.best = f'.best) := by
  have hel : ∀ v, El S E ft (E.delay x md) t v ↔ El S E ft (E.delay x' md) t v := by
    intro v
    unfold El
    rw [hv.late k x x' hk hx hx']
  have he : f.feasibles = [] ↔ f'.feasibles = [] := by
    constructor
    · intro h1
      by_contra h2
      obtain ⟨h3, h4, -⟩ := h'.el h2
      exact (h.empty h1).2 _ h3 ((hel _).2 h4)
    · intro h1
      by_contra h2
      obtain ⟨h3, h4, -⟩ := h.el h2
      exact (h'.empty h1).2 _ h3 ((hel _).1 h4)
  refine ⟨he, fun hne => ?_⟩
  have hne' : f'.feasibles ≠ [] := fun h => hne (he.2 h)
  obtain ⟨b1, b2, b3⟩ := h.el hne
  obtain ⟨c1, c2, c3⟩ := h'.el hne'
  have r1 := b2.1
  have r2 := c2.1
  have get : ∀ (l : List X) (v : Nat), l.length = 2 * S.n → S.Reg v → ∃ p, l[v - 1]? = some p := by
    intro l v hl hr
    have := hr.1
    have := hr.2
    exact ⟨l[v - 1]'(by omega), List.getElem?_eq_getElem _⟩
  rcases Nat.lt_trichotomy f.best f'.best with hlt | heq | hgt
  · exfalso
    obtain ⟨q, hq⟩ := get ch f'.best hv.len r2
    obtain ⟨p', hp'⟩ := get ch' f.best hv.len' r1
    have d1 := (h.best hne _ q c1 ((hel _).2 c2) hq).1
    have d2 := (h'.best hne' _ p' b1 ((hel _).1 b2) hp').2 hlt
    have := hv.prio (f.best - 1) (f'.best - 1) _ _ _ _ (by have := r1.1; omega) (by have := r2.1; have := r2.2; omega) b3 hq hp' c3
    rw [d1, d2] at this
    cases this
  · exact heq
  · exfalso
    obtain ⟨q, hq⟩ := get ch f'.best hv.len r2
    obtain ⟨p', hp'⟩ := get ch' f.best hv.len' r1
    have d1 := (h.best hne _ q c1 ((hel _).2 c2) hq).2 hgt
    have d2 := (h'.best hne' _ p' b1 ((hel _).1 b2) hp').1
    have := hv.prio (f'.best - 1) (f.best - 1) _ _ _ _ (by have := r2.1; omega) (by have := r1.1; have := r1.2; omega) hq b3 c3 hp'
    rw [d1, d2] at this
    cases this

theorem innerLoop_same (hS : S.WF) {md : Nat} {ch ch' : List X} (hv : SameView E S.n md ch ch') (hE : E.Sane ch) (hO : E.Ordered ch)
    (hE' : E.Sane ch') (hO' : E.Ordered ch') {t : Nat} :
    ∀ (fuel : Nat) (f f' : Feas X) (s s1 : Sched) (x x' : X), Inv S s → s.g ≤ S.n → ch[S.n + s.g - 1]? = some x → ch'[S.n + s.g - 1]? = some x' →
      FeasSpec S E ch s.ft.get (E.delay x md) t (S.n + 2) f → FeasSpec S E ch' s.ft.get (E.delay x' md) t (S.n + 2) f' →
      innerLoop E ch S.n md (some t) fuel f s = .ok s1 → innerLoop E ch' S.n md (some t) fuel f' s = .ok s1 := by
  intro fuel
  induction fuel with
  | zero => intro f f' s s1 x x' _ _ _ _ _ _ h; cases h
  | succ fuel ih =>
    intro f f' s s1 x x' hs hg hx hx' hf hf' h
    have hxm := List.mem_of_getElem? hx
    have hgl := hs.g_le
    obtain ⟨e1, e2⟩ := feas_same hS hv (by omega) hx hx' hf hf'
    rw [innerLoop] at h ⊢
    by_cases he : f.feasibles = []
    · rw [if_pos he] at h
      rw [if_pos (e1.1 he)]
      exact h
    · rw [if_neg he] at h
      rw [if_neg (fun hh => he (e1.2 hh)), ← e2 he]
      obtain ⟨hb0, hb1, hb2⟩ := hf.el he
      obtain ⟨a, hb3⟩ := hb1.pred hE hxm
      have hs' := hs
      obtain ⟨order, pos, cnt, rk, ms, mp, hi⟩ := hs'
      obtain ⟨s2, hs2, hg2, pos', cnt', rk', ms', mp', hi2⟩ := scheduleOp_ok hS hi hb1.1 hb1.2.1 hb3
      have hI2 : Inv S s2 := ⟨_, _, _, _, _, _, hi2⟩
      rw [Exc.bind_of_ok hs2] at h ⊢
      by_cases hn : S.n < s2.g
      · rw [if_pos hn] at h ⊢
        exact h
      · rw [if_neg hn] at h ⊢
        obtain ⟨y, g, h0, h0', h1, h2, h3⟩ := delayFeasibles_spec hS hE hO hv.len hI2 (by omega) md t
        obtain ⟨y', g', k0, k0', k1, k2, k3⟩ := delayFeasibles_spec hS hE' hO' hv.len' hI2 (by omega) md t
        rw [Exc.bind_of_ok h1, Exc.bind_of_ok h2] at h
        rw [Exc.bind_of_ok k1, Exc.bind_of_ok k2]
        exact ih g g' s2 s1 y y' hI2 (by omega) h0 k0 h3 k3 h

theorem outerLoop_same (hS : S.WF) {md : Nat} {ch ch' : List X} (hv : SameView E S.n md ch ch') (hE : E.Sane ch) (hO : E.Ordered ch)
    (hE' : E.Sane ch') (hO' : E.Ordered ch') :
    ∀ (fuel t : Nat) (s s' : Sched), Inv S s → outerLoop E ch S.n md fuel (some t) s = .ok s' →
      outerLoop E ch' S.n md fuel (some t) s = .ok s' := by
  intro fuel
  induction fuel with
  | zero => intro t s s' _ h; cases h
  | succ fuel ih =>
    intro t s s' hs h
    have hcg : s.count = s.g := by obtain ⟨_, _, _, _, _, _, h⟩ := hs; exact h.count
    have hgl := hs.g_le
    rw [outerLoop] at h ⊢
    by_cases hc : s.count < S.n + 1
    · rw [if_pos hc] at h ⊢
      obtain ⟨x, f, h0, hxm, h1, h2, h3⟩ := delayFeasibles_spec hS hE hO hv.len hs (by omega) md t
      obtain ⟨x', f', k0, kxm, k1, k2, k3⟩ := delayFeasibles_spec hS hE' hO' hv.len' hs (by omega) md t
      rw [Exc.bind_of_ok h1, Exc.bind_of_ok h2] at h
      rw [Exc.bind_of_ok k1, Exc.bind_of_ok k2]
      obtain ⟨s1, h4, h⟩ := Exc.bind_ok.1 h
      obtain ⟨tg, h5, h⟩ := Exc.bind_ok.1 h
      rw [Exc.bind_of_ok (innerLoop_same hS hv hE hO hE' hO' _ f f' s s1 x x' hs (by omega) h0 k0 h3 k3 h4), Exc.bind_of_ok h5]
      obtain ⟨h6, h7, -⟩ := innerLoop_trace hS hE hO hv.len _ _ _ _ _ hs (by omega) h0 h3 h4
      have hgl1 := h6.g_le
      have hI := h6
      obtain ⟨order, pos, cnt, rk, ms, mp, hi⟩ := hI
      by_cases hg1 : s1.g ≤ S.n
      · obtain ⟨y, hy, hym, hno⟩ := h7 hg1
        obtain ⟨v, a, hvr, hn, ha⟩ := minUnscheduled hS hi.ft_zero (h6.unscheduled hg1)
        have hla : E.late (some a) (some t) (E.delay y md) = true := by
          have := hno v
          cases hl : E.late (some a) (some t) (E.delay y md) with
          | true => rfl
          | false => exact absurd ⟨hvr, hn, by rw [ha]; exact hl⟩ this
        have hta := hE.finished y hym md a t hla
        have hdl := hS.dp_lt v hvr
        obtain ⟨z, h9, h10⟩ := nextTime_ok (t := t) (by rw [hi.ft_size]; exact Nat.lt_succ_self _) hi.ft_sink
        obtain ⟨w, b, hw, hwb, htb, rfl⟩ := h10 ⟨S.dp v, a, by rw [hi.ft_size]; have := hvr.2; omega, ha, hta⟩
        rw [h5] at h9
        obtain rfl := Except.ok.inj h9
        exact ih b s1 s' h6 h
      · cases fuel with
        | zero => cases h
        | succ fuel =>
          rw [outerLoop, if_neg (by have := hi.count; omega)] at h ⊢
          exact h
    · rw [if_neg hc] at h ⊢
      exact h

theorem schedule_same (hS : S.WF) {i : Individual X} {ch' : List X} (h : Ready S i.operations i.machines) {md : Nat}
    (hmd : maxDuration (initialSched i).ops = .ok md) (hv : SameView E S.n md i.chromosome ch') (hE : E.Sane i.chromosome) (hO : E.Ordered i.chromosome)
    (hE' : E.Sane ch') (hO' : E.Ordered ch') {fuel : Nat} {s : Sched} (hs : schedule E fuel i = .ok s) :
    schedule E fuel { i with chromosome := ch' } = .ok s := by
  have hsz := h.fits.size
  unfold schedule at hs ⊢
  simp only at hs ⊢
  rw [if_neg (by omega)] at hs ⊢
  obtain ⟨ops, h1, hs⟩ := Exc.bind_ok.1 hs
  obtain ⟨md', h2, hs⟩ := Exc.bind_ok.1 hs
  rw [Exc.bind_of_ok h1, Exc.bind_of_ok h2]
  rw [Arr.modify_ok _ (by omega)] at h1
  cases h1
  rw [show i.operations.size - 2 = S.n by omega] at hs ⊢
  have e : initialSched i = ⟨{ i.operations with get := fun k => if k = 0 then { i.operations.get 0 with finishTime := some 0 } else i.operations.get k },
      i.machines, ⟨S.n + 2, fun k => if k = 0 then some 0 else none⟩, 1, 1, 0⟩ := by unfold initialSched; rw [hsz]
  rw [e] at hmd
  rw [hmd] at h2
  obtain rfl := Except.ok.inj h2
  rw [← e] at hs ⊢
  exact outerLoop_same hS hv hE hO hE' hO' fuel 0 _ s (ready_inv hS h) hs

/-- Both chromosomes have the same value. -/
theorem fresh_same {jobs : Jobs} {nM worst : Nat} (h : jobs.Proper nM) (hA : jobs.Alternates) (hD : jobs.Positive)
    {ops : List Operation} (ho : provider ⟨loaded 0 jobs, nM⟩ = .ok ops) {ch ch' : List X} {md : Nat}
    (hmd : maxDuration (initialSched (freshIndividual ops nM worst ch)).ops = .ok md)
    (hv : SameView E jobs.total md ch ch') (hE : E.Sane ch) (hO : E.Ordered ch) (hE' : E.Sane ch') (hO' : E.Ordered ch') {i' : Individual X} {r : Nat}
    (he : Evaluates E (freshIndividual ops nM worst ch) i' r) : Evaluates E (freshIndividual ops nM worst ch') { i' with chromosome := ch' } r := by
  have hb := fresh_base h ho
  have hready : Ready (jobs.shop nM) (freshIndividual ops nM worst ch).prepare.operations (freshIndividual ops nM worst ch).prepare.machines :=
    (SimTo.fresh (X := X) hb rfl rfl rfl).ready hb
  obtain ⟨F, hF⟩ := he
  refine ⟨F, fun fuel hf => ?_⟩
  have h1 := hF fuel hf
  unfold evaluate at h1 ⊢
  obtain ⟨s, h2, h3⟩ := Exc.bind_ok.1 h1
  have h4 := schedule_same (S := jobs.shop nM) (shop_wf h) hready hmd hv hE hO hE' hO' h2
  have h5 : schedule E fuel (freshIndividual ops nM worst ch').prepare = .ok s := h4
  rw [Exc.bind_of_ok h5]
  obtain ⟨p, h6, h7⟩ := Exc.bind_ok.1 h3
  rw [Exc.bind_of_ok h6]
  have h8 := Prod.mk.inj (Exc.pure_ok.1 h7)
  show Except.ok _ = Except.ok _
  rw [← h8.1, ← h8.2]
  rfl

end
end Ecrs.Jssp
