import Verif.Jssp.Graph

/-!
# Exchanging two adjacent operations of a machine
-/

namespace Ecrs.Jssp
open Ecrs

/-- Function update. -/
def upd {β : Type} (f : Nat → β) (a : Nat) (b : β) : Nat → β := fun x => if x = a then b else f x

theorem upd_same {β : Type} (f : Nat → β) (a : Nat) (b : β) : upd f a b a = b := if_pos rfl

theorem upd_ne {β : Type} (f : Nat → β) {a x : Nat} (b : β) (h : x ≠ a) : upd f a b x = f x := if_neg h

/-- The effect of changing the edges and the machine predecessor of one operation. -/
theorem Fits.update {S : Shop} {ops ms mp} (hf : Fits S ops ms mp) {v : Nat} (hv : v ≤ S.n + 1)
    (es : List Edge) (m' s' : Option Nat) (hes : es = S.je v ++ (s'.toList.map fun w => (⟨w, .machineSucc⟩ : Edge))) :
    Fits S ⟨ops.size, fun k => if k = v then { ops.get v with edgesOut := es, machinePred := m' } else ops.get k⟩
      (upd ms v s') (upd mp v m') := by
  refine ⟨hf.size, ?_, ?_, ?_, ?_, ?_, ?_, ?_, ?_, ?_⟩
  · intro w hw; have := hf.id w hw; simp only; split <;> simp_all
  · intro w hw; have := hf.dur w hw; simp only; split <;> simp_all
  · intro w hw; have := hf.mach w hw; simp only; split <;> simp_all
  · intro w hw; have := hf.last w hw; simp only; split <;> simp_all
  · intro w hw; have := hf.sink_mem w hw; simp only; split <;> simp_all
  · intro w hw; refine hf.sink_le w ?_; simp only at hw; split at hw <;> simp_all
  · intro w hw
    by_cases h : w = v
    · subst h; rw [upd_same, ← hes]; simp
    · rw [upd_ne _ _ h, ← hf.edges w hw]; simp [h]
  · intro w hw
    by_cases h : w = v
    · subst h; rw [upd_same]; simp
    · rw [upd_ne _ _ h, ← hf.mpred w hw]; simp [h]
  · have := hf.sink_cpe; simp only; split <;> simp_all

theorem Fits.update_mpred {S : Shop} {ops ms mp} (hf : Fits S ops ms mp) {v : Nat} (hv : v ≤ S.n + 1) (m' : Option Nat) :
    ∃ ops', ops.modify v (fun o => { o with machinePred := m' }) = .ok ops' ∧ Fits S ops' ms (upd mp v m') ∧
      Keeps S ops ops' := by
  refine ⟨_, Arr.modify_ok _ (by rw [hf.size]; omega), ?_, ?_⟩
  · have := hf.update hv (ops.get v).edgesOut m' (ms v) (hf.edges v hv)
    rw [show upd ms v (ms v) = ms by funext x; unfold upd; split <;> simp_all] at this
    exact this
  · intro k
    refine ⟨?_, fun hk => if_neg (by omega)⟩
    by_cases hkv : k = v
    · subst hkv; simp [static]
    · simp [hkv]

theorem Fits.update_edges {S : Shop} {ops ms mp} (hf : Fits S ops ms mp) {v : Nat} (hv : v ≤ S.n + 1) (s' : Option Nat)
    (f : Operation → Operation)
    (h : f (ops.get v) = { ops.get v with edgesOut := S.je v ++ (s'.toList.map fun w => (⟨w, .machineSucc⟩ : Edge)) }) :
    ∃ ops', ops.modify v f = .ok ops' ∧ Fits S ops' (upd ms v s') mp ∧
      Keeps S ops ops' := by
  refine ⟨_, Arr.modify_ok _ (by rw [hf.size]; omega), ?_, ?_⟩
  · have := hf.update hv _ (mp v) s' rfl
    rw [show upd mp v (mp v) = mp by funext x; unfold upd; split <;> simp_all] at this
    rw [h]
    have h2 := hf.mpred v hv
    rw [← h2] at this
    exact this
  · intro k
    refine ⟨?_, fun hk => if_neg (by omega)⟩
    by_cases hkv : k = v
    · subst hkv; simp [h, static]
    · simp [hkv]

theorem setSecond_ok {S : Shop} (hS : S.WF) {ops ms mp} (hf : Fits S ops ms mp) {v y : Nat} (hv : S.Reg v)
    (hy : ms v = some y) (x : Nat) :
    ∃ ops', setSecond ops v x = .ok ops' ∧ Fits S ops' (upd ms v (some x)) mp ∧
      Keeps S ops ops' := by
  have hvn := hv.2
  obtain ⟨w, hw, -⟩ := hS.je_mid v hv
  have he := hf.edges v (by omega)
  rw [hw, hy] at he
  have he' : (ops.get v).edgesOut = [⟨w, .jobSucc⟩, ⟨y, .machineSucc⟩] := he
  unfold setSecond
  rw [Exc.bind_of_ok (Arr.at'_ok (by rw [hf.size]; omega)), he']
  exact hf.update_edges (by omega) (some x) _ (by rw [hw]; rfl)

theorem dropEdge_ok {S : Shop} {ops ms mp} (hf : Fits S ops ms mp) {v y : Nat} (hv : S.Reg v)
    (hy : ms v = some y) :
    ∃ ops', ops.modify v (fun o => { o with edgesOut := o.edgesOut.dropLast }) = .ok ops' ∧ Fits S ops' (upd ms v none) mp ∧
      Keeps S ops ops' := by
  have hvn := hv.2
  refine hf.update_edges (by omega) none _ ?_
  have he := hf.edges v (by omega)
  rw [hy] at he
  rw [he]
  simp

theorem addEdge_ok {S : Shop} {ops ms mp} (hf : Fits S ops ms mp) {v : Nat} (hv : S.Reg v)
    (hy : ms v = none) (x : Nat) :
    ∃ ops', ops.modify v (fun o => { o with edgesOut := o.edgesOut ++ [⟨x, .machineSucc⟩] }) = .ok ops' ∧
      Fits S ops' (upd ms v (some x)) mp ∧ Keeps S ops ops' := by
  have hvn := hv.2
  refine hf.update_edges (by omega) (some x) _ ?_
  have he := hf.edges v (by omega)
  rw [hy] at he
  rw [he]
  simp

/-- The machine successors after the exchange of `u` and its successor `v`. -/
def swapMs (ms mp : Nat → Option Nat) (u v : Nat) : Nat → Option Nat :=
  let ms1 := upd (upd ms u (ms v)) v (some u)
  match mp u with
  | some p => upd ms1 p (some v)
  | none => ms1

/-- The machine predecessors after the exchange. -/
def swapMp (ms mp : Nat → Option Nat) (u v : Nat) : Nat → Option Nat :=
  let mp1 := match ms v with
    | some q => upd mp q (some u)
    | none => mp
  upd (upd mp1 v (mp u)) u (some v)

theorem swapOps_ok {S : Shop} (hS : S.WF) {ops ms mp pos} (hp : Sel S pos ms mp) (hf : Fits S ops ms mp) {u v : Nat}
    (huv : ms u = some v) :
    ∃ ops', swapOps ops u v = .ok ops' ∧ Fits S ops' (swapMs ms mp u v) (swapMp ms mp u v) ∧
      Keeps S ops ops' := by
  obtain ⟨hu, hv, hm, hpos⟩ := (hp.msucc u v).1 huv
  have hun := hu.2
  have hvn := hv.2
  have hne : u ≠ v := by rintro rfl; omega
  have hsucc : ∃ ops1, swapSucc ops u v = .ok ops1 ∧ Fits S ops1 (upd (upd ms u (ms v)) v (some u))
      (match ms v with | some q => upd mp q (some u) | none => mp) ∧ Keeps S ops ops1 := by
    obtain ⟨w, hw, -⟩ := hS.je_mid v hv
    have he := hf.edges v (by omega)
    rw [hw] at he
    unfold swapSucc
    rw [Exc.bind_of_ok (Arr.at'_ok (by rw [hf.size]; omega)), he]
    cases hq : ms v with
    | some q =>
      have hqr := ((hp.msucc v q).1 hq).2.1
      have hqn := hqr.2
      obtain ⟨o1, h1, h2, h3⟩ := setSecond_ok hS hf hu huv q
      obtain ⟨o2, h4, h5, h6⟩ := h2.update_mpred (v := q) (by omega) (some u)
      obtain ⟨o3, h7, h8, h9⟩ := setSecond_ok hS h5 hv (y := q) (by rw [upd_ne _ _ hne.symm]; exact hq) u
      refine ⟨o3, ?_, h8, (h3.trans h6).trans h9⟩
      show (setSecond ops u q >>= _) = _
      rw [Exc.bind_of_ok h1]
      show (o1.modify q _ >>= _) = _
      rw [Exc.bind_of_ok h4]; exact h7
    | none =>
      obtain ⟨o1, h1, h2, h3⟩ := dropEdge_ok hf hu huv
      obtain ⟨o2, h4, h5, h6⟩ := addEdge_ok h2 hv (by rw [upd_ne _ _ hne.symm]; exact hq) u
      refine ⟨o2, ?_, h5, h3.trans h6⟩
      show (ops.modify u _ >>= _) = _
      rw [Exc.bind_of_ok h1]; exact h4
  obtain ⟨o1, h1, h2, h3⟩ := hsucc
  -- the predecessor entry of `u` is untouched so far
  have hmpu : (match ms v with | some q => upd mp q (some u) | none => mp) u = mp u := by
    cases hq : ms v with
    | none => rfl
    | some q =>
      have hqp := ((hp.msucc v q).1 hq).2.2.2
      show upd mp q (some u) u = _
      rw [upd_ne]
      rintro rfl; omega
  have hpred : ∃ o2, swapPred o1 u v = .ok o2 ∧ Fits S o2 (swapMs ms mp u v)
      (upd (match ms v with | some q => upd mp q (some u) | none => mp) v (mp u)) ∧
      Keeps S ops o2 := by
    unfold swapPred
    rw [Exc.bind_of_ok (Arr.at'_ok (by rw [h2.size]; omega)), h2.mpred u (by omega), hmpu]
    unfold swapMs
    cases hpu : mp u with
    | none =>
      obtain ⟨o2, h4, h5, h6⟩ := h2.update_mpred (v := v) (by omega) none
      exact ⟨o2, h4, h5, h3.trans h6⟩
    | some p =>
      have hpm := (hp.mpred p u).1 hpu
      obtain ⟨hpr, -, -, hpp⟩ := (hp.msucc p u).1 hpm
      have hpu' : p ≠ u := by rintro rfl; omega
      have hpv' : p ≠ v := by rintro rfl; omega
      obtain ⟨o2, h4, h5, h6⟩ := setSecond_ok hS h2 hpr (y := u) (by rw [upd_ne _ _ hpv', upd_ne _ _ hpu']; exact hpm) v
      obtain ⟨o3, h7, h8, h9⟩ := h5.update_mpred (v := v) (by omega) (some p)
      refine ⟨o3, ?_, h8, (h3.trans h6).trans h9⟩
      show (setSecond o1 p v >>= _) = _
      rw [Exc.bind_of_ok h4]; exact h7
  obtain ⟨o2, h4, h5, h6⟩ := hpred
  obtain ⟨o3, h7, h8, h9⟩ := h5.update_mpred (v := u) (by omega) (some v)
  refine ⟨o3, ?_, h8, h6.trans h9⟩
  unfold swapOps
  rw [Exc.bind_of_ok h1, Exc.bind_of_ok h4]
  exact h7

/-- The positions after the exchange. -/
def swapPos (pos : Nat → Nat) (u v : Nat) : Nat → Nat := upd (upd pos u (pos v)) v (pos u)

theorem swapMs_iff {S : Shop} {ms mp pos} (hp : Sel S pos ms mp) {u v : Nat} (huv : ms u = some v) (x y : Nat) :
    swapMs ms mp u v x = some y ↔ S.Reg x ∧ S.Reg y ∧ S.mach x = S.mach y ∧ swapPos pos u v y = swapPos pos u v x + 1 := by
  obtain ⟨hu, hv, hm, hpos⟩ := (hp.msucc u v).1 huv
  have hne : u ≠ v := by rintro rfl; omega
  have h1 : ∀ y, swapMs ms mp u v u = some y ↔ ms v = some y := by
    intro y
    unfold swapMs
    cases hpu : mp u with
    | none => simp only; rw [upd_ne _ _ hne, upd_same]
    | some p =>
      have hpm := (hp.mpred p u).1 hpu
      obtain ⟨hpr, -, -, hpp⟩ := (hp.msucc p u).1 hpm
      have hpu' : u ≠ p := by rintro rfl; omega
      simp only; rw [upd_ne _ _ hpu', upd_ne _ _ hne, upd_same]
  have h2 : swapMs ms mp u v v = some u := by
    unfold swapMs
    cases hpu : mp u with
    | none => simp only; rw [upd_same]
    | some p =>
      have hpm := (hp.mpred p u).1 hpu
      obtain ⟨hpr, -, -, hpp⟩ := (hp.msucc p u).1 hpm
      have hpu' : v ≠ p := by rintro rfl; omega
      simp only; rw [upd_ne _ _ hpu', upd_same]
  have h3 : ∀ x, x ≠ u → x ≠ v → ms x = some u → swapMs ms mp u v x = some v := by
    intro x hxu hxv hx
    have hpu := (hp.mpred x u).2 hx
    unfold swapMs
    rw [hpu]
    simp only; rw [upd_same]
  have h4 : ∀ x, x ≠ u → x ≠ v → ms x ≠ some u → swapMs ms mp u v x = ms x := by
    intro x hxu hxv hx
    unfold swapMs
    cases hpu : mp u with
    | none => simp only; rw [upd_ne _ _ hxv, upd_ne _ _ hxu]
    | some p =>
      have hpm := (hp.mpred p u).1 hpu
      have hxp : x ≠ p := by rintro rfl; exact hx hpm
      simp only; rw [upd_ne _ _ hxp, upd_ne _ _ hxv, upd_ne _ _ hxu]
  have hinj := hp.inj
  have hms := hp.msucc
  have e1 : swapPos pos u v u = pos v := by unfold swapPos; rw [upd_ne _ _ hne, upd_same]
  have e2 : swapPos pos u v v = pos u := by unfold swapPos; rw [upd_same]
  have e3 : ∀ x, x ≠ u → x ≠ v → swapPos pos u v x = pos x := by
    intro x h1 h2; unfold swapPos; rw [upd_ne _ _ h2, upd_ne _ _ h1]
  by_cases hxu : x = u
  · subst hxu
    rw [h1, hms, e1]
    constructor
    · rintro ⟨-, b1, b2, b3⟩
      have hyx : y ≠ x := by rintro rfl; omega
      have hyv : y ≠ v := by rintro rfl; omega
      exact ⟨hu, b1, hm.trans b2, by rw [e3 y hyx hyv]; exact b3⟩
    · rintro ⟨-, b1, b2, b3⟩
      have hyx : y ≠ x := by rintro rfl; omega
      have hyv : y ≠ v := by rintro rfl; omega
      rw [e3 y hyx hyv] at b3
      exact ⟨hv, b1, hm.symm.trans b2, b3⟩
  · by_cases hxv : x = v
    · subst hxv
      rw [h2, e2]
      constructor
      · intro h
        obtain rfl := Option.some.inj h
        exact ⟨hv, hu, hm.symm, by rw [e1]; exact hpos⟩
      · rintro ⟨-, b1, b2, b3⟩
        by_cases hyu : y = u
        · rw [hyu]
        · have hyv : y ≠ x := by rintro rfl; omega
          rw [e3 y hyu hyv] at b3
          exact absurd (hinj y x b1 hv b2.symm (by omega)) hyv
    · rw [e3 x hxu hxv]
      by_cases hx : ms x = some u
      · obtain ⟨b1, b2, b3, b4⟩ := (hms x u).1 hx
        rw [h3 x hxu hxv hx]
        constructor
        · intro h
          obtain rfl := Option.some.inj h
          exact ⟨b1, hv, b3.trans hm, by rw [e2]; exact b4⟩
        · rintro ⟨-, c1, c2, c3⟩
          by_cases hyv : y = v
          · rw [hyv]
          · by_cases hyu : y = u
            · rw [hyu, e1] at c3; omega
            · rw [e3 y hyu hyv] at c3
              exact absurd (hinj y u c1 hu (c2.symm.trans b3) (by omega)) hyu
      · rw [h4 x hxu hxv hx, hms]
        constructor
        · rintro ⟨b1, b2, b3, b4⟩
          have hyu : y ≠ u := by
            rintro rfl
            exact hx ((hms _ _).2 ⟨b1, b2, b3, b4⟩)
          have hyv : y ≠ v := by
            rintro rfl
            exact hxu (hinj x u b1 hu (b3.trans hm.symm) (by omega))
          exact ⟨b1, b2, b3, by rw [e3 y hyu hyv]; exact b4⟩
        · rintro ⟨b1, b2, b3, b4⟩
          by_cases hyu : y = u
          · subst hyu
            rw [e1] at b4
            exact absurd (hinj x y b1 b2 b3 (by omega)) hxu
          · by_cases hyv : y = v
            · subst hyv
              rw [e2] at b4
              exact absurd ((hms x u).2 ⟨b1, hu, b3.trans hm.symm, b4⟩) hx
            · rw [e3 y hyu hyv] at b4
              exact ⟨b1, b2, b3, b4⟩

theorem swapMp_iff {S : Shop} {ms mp pos} (hp : Sel S pos ms mp) {u v : Nat} (huv : ms u = some v) (x y : Nat) :
    swapMp ms mp u v y = some x ↔ swapMs ms mp u v x = some y := by
  rw [swapMs_iff hp huv]
  obtain ⟨hu, hv, hm, hpos⟩ := (hp.msucc u v).1 huv
  have hne : u ≠ v := by rintro rfl; omega
  have hinj := hp.inj
  have hms := hp.msucc
  have hmp := hp.mpred
  have e1 : swapPos pos u v u = pos v := by unfold swapPos; rw [upd_ne _ _ hne, upd_same]
  have e2 : swapPos pos u v v = pos u := by unfold swapPos; rw [upd_same]
  have e3 : ∀ x, x ≠ u → x ≠ v → swapPos pos u v x = pos x := by
    intro x h1 h2; unfold swapPos; rw [upd_ne _ _ h2, upd_ne _ _ h1]
  by_cases hyu : y = u
  · subst hyu
    have : swapMp ms mp y v y = some v := by unfold swapMp; rw [upd_same]
    rw [this, e1]
    constructor
    · intro h
      obtain rfl := Option.some.inj h
      exact ⟨hv, hu, hm.symm, by rw [e2]; exact hpos⟩
    · rintro ⟨b1, -, b2, b3⟩
      by_cases hxv : x = v
      · rw [hxv]
      · have hxy : x ≠ y := by rintro rfl; omega
        rw [e3 x hxy hxv] at b3
        exact absurd (hinj x y b1 hu b2 (by omega)) hxy
  · by_cases hyv : y = v
    · subst hyv
      have : swapMp ms mp u y y = mp u := by unfold swapMp; rw [upd_ne _ _ hyu, upd_same]
      rw [this, e2, hmp, hms]
      constructor
      · rintro ⟨b1, b2, b3, b4⟩
        have hxu : x ≠ u := by rintro rfl; omega
        have hxv : x ≠ y := by rintro rfl; omega
        exact ⟨b1, hv, b3.trans hm, by rw [e3 x hxu hxv]; exact b4⟩
      · rintro ⟨b1, b2, b3, b4⟩
        have hxu : x ≠ u := by rintro rfl; omega
        have hxv : x ≠ y := by rintro rfl; omega
        rw [e3 x hxu hxv] at b4
        exact ⟨b1, hu, b3.trans hm.symm, b4⟩
    · rw [e3 y hyu hyv]
      have h1 : swapMp ms mp u v y = (if ms v = some y then some u else mp y) := by
        unfold swapMp
        rw [upd_ne _ _ hyu, upd_ne _ _ hyv]
        cases hq : ms v with
        | none => simp
        | some q =>
          by_cases hqy : y = q
          · subst hqy; simp [upd]
          · simp only
            rw [upd_ne _ _ hqy, if_neg]
            intro hc; exact hqy (Option.some.inj hc).symm
      rw [h1]
      by_cases hvy : ms v = some y
      · rw [if_pos hvy]
        obtain ⟨c1, c2, c3, c4⟩ := (hms v y).1 hvy
        constructor
        · intro h
          obtain rfl := Option.some.inj h
          exact ⟨hu, c2, hm.trans c3, by rw [e1]; exact c4⟩
        · rintro ⟨b1, -, b2, b3⟩
          by_cases hxu : x = u
          · rw [hxu]
          · by_cases hxv : x = v
            · rw [hxv, e2] at b3; omega
            · rw [e3 x hxu hxv] at b3
              exact absurd (hinj x v b1 hv (b2.trans c3.symm) (by omega)) hxv
      · rw [if_neg hvy, hmp, hms]
        constructor
        · rintro ⟨b1, b2, b3, b4⟩
          have hxu : x ≠ u := by
            rintro rfl
            exact hyv (hinj y v b2 hv (b3.symm.trans hm) (by omega))
          have hxv : x ≠ v := by
            rintro rfl
            exact hvy ((hms _ _).2 ⟨b1, b2, b3, b4⟩)
          exact ⟨b1, b2, b3, by rw [e3 x hxu hxv]; exact b4⟩
        · rintro ⟨b1, b2, b3, b4⟩
          by_cases hxu : x = u
          · subst hxu
            rw [e1] at b4
            exact absurd ((hms v y).2 ⟨hv, b2, hm.symm.trans b3, b4⟩) hvy
          · by_cases hxv : x = v
            · subst hxv
              rw [e2] at b4
              exact absurd (hinj y x b2 b1 b3.symm (by omega)) hyv
            · rw [e3 x hxu hxv] at b4
              exact ⟨b1, b2, b3, b4⟩

theorem swap_sel {S : Shop} {ms mp pos} (hp : Sel S pos ms mp) {u v : Nat} (huv : ms u = some v) :
    Sel S (swapPos pos u v) (swapMs ms mp u v) (swapMp ms mp u v) := by
  obtain ⟨hu, hv, hm, hpos⟩ := (hp.msucc u v).1 huv
  have hne : u ≠ v := by rintro rfl; omega
  have e1 : swapPos pos u v u = pos v := by unfold swapPos; rw [upd_ne _ _ hne, upd_same]
  have e2 : swapPos pos u v v = pos u := by unfold swapPos; rw [upd_same]
  have e3 : ∀ x, x ≠ u → x ≠ v → swapPos pos u v x = pos x := by
    intro x h1 h2; unfold swapPos; rw [upd_ne _ _ h2, upd_ne _ _ h1]
  -- the exchange as a permutation of the operations of the machine
  let σ : Nat → Nat := fun x => if x = u then v else if x = v then u else x
  have hσ : ∀ x, swapPos pos u v x = pos (σ x) := by
    intro x
    by_cases h1 : x = u
    · rw [h1, e1]; simp [σ]
    · by_cases h2 : x = v
      · rw [h2, e2]; simp [σ, hne.symm]
      · rw [e3 x h1 h2]; simp [σ, h1, h2]
  have hσσ : ∀ x, σ (σ x) = x := by
    intro x; simp only [σ]; split <;> split <;> simp_all
  have hσr : ∀ x, S.Reg x → S.Reg (σ x) := by
    intro x hx; simp only [σ]; split
    · exact hv
    · split
      · exact hu
      · exact hx
  have hσm : ∀ x, S.mach (σ x) = S.mach x := by
    intro x; simp only [σ]; split
    · simp_all
    · split <;> simp_all
  refine ⟨?_, ?_, swapMs_iff hp huv, fun x y => swapMp_iff hp huv x y⟩
  · intro x y hx hy hxy h
    rw [hσ, hσ] at h
    have := hp.inj (σ x) (σ y) (hσr x hx) (hσr y hy) (by rw [hσm, hσm]; exact hxy) h
    rw [← hσσ x, this, hσσ]
  · intro x hx k hk
    rw [hσ] at hk
    obtain ⟨w, h1, h2, h3⟩ := hp.dense (σ x) (hσr x hx) k hk
    exact ⟨σ w, hσr w h1, by rw [hσm, h2, hσm], by rw [hσ, hσσ]; exact h3⟩

theorem Sel.unique {S : Shop} {ms mp ms' mp' pos} (h : Sel S pos ms mp) (h' : Sel S pos ms' mp') : ms = ms' ∧ mp = mp' := by
  have h1 : ms = ms' := by
    funext x
    have : ∀ y, ms x = some y ↔ ms' x = some y := by intro y; rw [h.msucc, h'.msucc]
    exact Option.ext this
  refine ⟨h1, ?_⟩
  funext y
  refine Option.ext fun x => ?_
  rw [h.mpred, h'.mpred, h1]

/-- Exchanging twice restores the order. -/
theorem swap_swap {S : Shop} {ms mp pos} (hp : Sel S pos ms mp) {u v : Nat} (huv : ms u = some v) :
    swapMs ms mp u v v = some u ∧
    swapMs (swapMs ms mp u v) (swapMp ms mp u v) v u = ms ∧ swapMp (swapMs ms mp u v) (swapMp ms mp u v) v u = mp := by
  obtain ⟨hu, hv, hm, hpos⟩ := (hp.msucc u v).1 huv
  have hne : u ≠ v := by rintro rfl; omega
  have h1 := swap_sel hp huv
  have hvu : swapMs ms mp u v v = some u := by
    rw [swapMs_iff hp huv]
    refine ⟨hv, hu, hm.symm, ?_⟩
    unfold swapPos
    rw [upd_same, upd_ne _ _ hne, upd_same]; exact hpos
  have h2 := swap_sel h1 hvu
  have h3 : swapPos (swapPos pos u v) v u = pos := by
    funext x
    unfold swapPos
    by_cases h : x = u
    · subst h; rw [upd_same, upd_same]
    · rw [upd_ne _ _ h]
      by_cases h' : x = v
      · subst h'; rw [upd_same, upd_ne _ _ hne, upd_same]
      · rw [upd_ne _ _ h', upd_ne _ _ h', upd_ne _ _ h]
  rw [h3] at h2
  exact ⟨hvu, h2.unique hp⟩

/-- Two consecutive operations of a job use different machines. -/
def Shop.Alternating (S : Shop) : Prop := ∀ v, S.Reg v → S.Reg (S.dp v) → S.mach (S.dp v) ≠ S.mach v

open Classical in
/-- Exchanging the ends of a critical machine edge creates no cycle. -/
theorem swap_rank {S : Shop} (hS : S.WF) (hA : S.Alternating) (hD : ∀ v, S.Reg v → 0 < S.dur v)
    {ms mp pos} (hp : Sel S pos ms mp) {rk N} (hr : Rank S ms rk N) {cd : Nat → Nat}
    (hcd : ∀ x y, x ≤ S.n → Adj S ms x y → S.dur x + cd y ≤ cd x) {u v : Nat} (huv : ms u = some v)
    (hcrit : ∀ w, Adj S ms u w → cd w ≤ cd v) : ∃ rk' N', Rank S (swapMs ms mp u v) rk' N' := by
  obtain ⟨hu, hv, hm, hpos⟩ := (hp.msucc u v).1 huv
  have hu1 := hu.1
  have hv1 := hv.1
  have hne : u ≠ v := by rintro rfl; omega
  let P : Nat → Prop := fun x => x ≠ u ∧ (x = 0 ∨ x = v ∨ cd v < cd x)
  let rk' : Nat → Nat := fun x => if P x then rk x else N + 1 + rk x
  have hstep : ∀ x y, x ≤ S.n + 1 → rk x < rk y → (P y → P x) → rk' x < rk' y := by
    intro x y hx hlt himp
    have hle := hr.le x hx
    simp only [rk']
    by_cases h1 : P y
    · rw [if_pos h1, if_pos (himp h1)]; exact hlt
    · rw [if_neg h1]
      split <;> omega
  have e1 : swapPos pos u v u = pos v := by unfold swapPos; rw [upd_ne _ _ hne, upd_same]
  have e2 : swapPos pos u v v = pos u := by unfold swapPos; rw [upd_same]
  have e3 : ∀ x, x ≠ u → x ≠ v → swapPos pos u v x = pos x := by
    intro x h1 h2; unfold swapPos; rw [upd_ne _ _ h2, upd_ne _ _ h1]
  -- old edges other than `u → v`
  have hold : ∀ x y, x ≤ S.n + 1 → Adj S ms x y → ¬(x = u ∧ y = v) → (x = 0 ∨ S.Reg x) →
      rk' x < rk' y := by
    intro x y hx ha hnot hxr
    have hxn : x ≤ S.n := by
      rcases hxr with h | h
      · omega
      · exact h.2
    refine hstep x y hx (hr.lt x y hx ha) ?_
    rintro ⟨hyu, hy⟩
    have hcdxy := hcd x y hxn ha
    rcases hy with rfl | rfl | hy
    · -- nothing precedes 0
      exfalso
      rcases ha with ⟨e, he, he0⟩ | ha
      · obtain ⟨-, -, h2⟩ := hS.je_cases hx he
        rcases h2 with h2 | h2
        · omega
        · have := h2.1.1; omega
      · have := ((hp.msucc _ _).1 ha).2.1.1; omega
    · have hxu : x ≠ u := fun hc => hnot ⟨hc, rfl⟩
      refine ⟨hxu, ?_⟩
      rcases hxr with h | h
      · exact .inl h
      · have := hD x h
        exact .inr (.inr (by omega))
    · have hxu : x ≠ u := by
        rintro rfl
        have := hcrit y ha
        omega
      exact ⟨hxu, .inr (.inr (by omega))⟩
  refine ⟨rk', 2 * N + 1, ?_, ?_⟩
  · intro x y hx ha
    rcases ha with ⟨e, he, rfl⟩ | ha
    · obtain ⟨h1, -, h2⟩ := hS.je_cases hx he
      have hxr : x = 0 ∨ S.Reg x := by
        by_cases h0 : x = 0
        · exact .inl h0
        · exact .inr ⟨by omega, h1⟩
      refine hold x e.neigh hx (.inl ⟨e, he, rfl⟩) ?_ hxr
      rintro ⟨rfl, hev⟩
      rcases h2 with h2 | ⟨h2, h3⟩
      · have := hv.2; omega
      · refine hA e.neigh h2 (by rw [h3]; exact hu) ?_
        rw [h3, hev]; exact hm
    · obtain ⟨b1, b2, b3, b4⟩ := (swapMs_iff hp huv x y).1 ha
      have hcuv := hcd u v hu.2 (.inr huv)
      have hdu := hD u hu
      have hdv := hD v hv
      have hrkuv := hr.lt u v (by have := hu.2; omega) (.inr huv)
      by_cases hxu : x = u
      · -- u → the old successor of v
        subst hxu
        have hyu : y ≠ x := by rintro rfl; omega
        have hyv : y ≠ v := by rintro rfl; rw [e1, e2] at b4; omega
        rw [e1, e3 y hyu hyv] at b4
        have hvy : ms v = some y := (hp.msucc v y).2 ⟨hv, b2, hm.symm.trans b3, b4⟩
        have hrk2 := hr.lt v y (by have := hv.2; omega) (.inr hvy)
        have hc2 := hcd v y hv.2 (.inr hvy)
        refine hstep x y hx (by omega) ?_
        rintro ⟨-, hy⟩
        exfalso
        rcases hy with h | h | h
        · have := b2.1; omega
        · exact hyv h
        · omega
      · by_cases hxv : x = v
        · -- v → u
          subst hxv
          have hyu : y = u := by
            by_contra hc
            have hyx : y ≠ x := by rintro rfl; omega
            rw [e2, e3 y hc hyx] at b4
            exact hyx (hp.inj y x b2 b1 b3.symm (by omega))
          subst hyu
          have h1 : P x := ⟨hne.symm, .inr (.inl rfl)⟩
          have h2 : ¬ P y := fun hc => hc.1 rfl
          simp only [rk']
          rw [if_pos h1, if_neg h2]
          have := hr.le x hx
          omega
        · rw [e3 x hxu hxv] at b4
          by_cases hyv : y = v
          · -- the old predecessor of u → v
            subst hyv
            rw [e2] at b4
            have hxu' : ms x = some u := (hp.msucc x u).2 ⟨b1, hu, b3.trans hm.symm, b4⟩
            have hrk2 := hr.lt x u hx (.inr hxu')
            have hc2 := hcd x u b1.2 (.inr hxu')
            refine hstep x y hx (by omega) ?_
            intro _
            exact ⟨hxu, .inr (.inr (by omega))⟩
          · by_cases hyu : y = u
            · exfalso
              subst hyu
              rw [e1] at b4
              exact hxu (hp.inj x y b1 b2 b3 (by omega))
            · rw [e3 y hyu hyv] at b4
              exact hold x y hx (.inr ((hp.msucc x y).2 ⟨b1, b2, b3, b4⟩)) (fun hc => hyv hc.2) (.inr b1)
  · intro x hx
    have := hr.le x hx
    simp only [rk']
    split <;> omega

end Ecrs.Jssp
