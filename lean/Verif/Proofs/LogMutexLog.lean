import Verif.Proofs.LogMutexCli
/-
The steps of the logging thread, the calls, and executions.
-/
namespace Falcon.LogM
open Falcon.Log (Str Addr LId Msg Rx Lst Op Ev Stage Mtx LPc CPc St Act Exec setHeap setLst threshold checkCategory notify init Mem step cHolds lHolds)

variable {rx : Rx}

/-- What the invariant needs when the logging thread moves. -/
theorem Inv.moveL {f f' : FSt} (hI : Inv f) (hcl : f'.cl = f.cl) (hown : Own f'.mtx f'.cl (lholds f'.lt))
    (hp : f'.pool = f.pool ∨ lholds f.lt = some .pool)
    (hpop : ∀ w, f'.lt = .pop w → f'.queue ≠ [] ∧ f'.terminated = false)
    (hpush : ∀ a, f'.lt = .dPush a → f'.pool.length < threshold)
    (hold : ∀ a, doomed f'.lt = some a → a < f'.next ∧ ∃ m, f'.heap a = some m) : Inv f' := by
  refine ⟨hown, ?_, hpop, hpush, hold⟩
  intro i m hi
  rw [hcl] at hi
  rcases hp with h | h
  · rw [h]; exact hI.pool i m hi
  · have h1 := (hI.own.at hi .pool).2 rfl
    have h2 := (hI.own.log .pool).2 h
    rw [h1] at h2; cases h2

theorem sim_acqL {f f' : FSt} {x : Mtx} {p : FLt} {e : Option Ev} (h : acquireL f x p = some (f', e)) (hI : Inv f) (hl : lholds f.lt = none)
    (hp : lholds p = some x) (ha : ∀ n, tDue n p = tDue n f.lt) (h1 : dDue p = dDue f.lt) (h2 : rDue p = rDue f.lt) (h3 : ∀ q, pDue p q = pDue f.lt q)
    (h4 : doomed p = none) (h4' : doomed f.lt = none) (h5 : ∀ w, p ≠ .pop w) (h6 : ∀ a, p ≠ .dPush a) : Inv f' ∧ Sim rx f f' e := by
  unfold acquireL at h
  split at h
  · cases h
  · rename_i hx
    cases h
    have ho := hI.own
    rw [hl] at ho
    refine ⟨hI.moveL rfl (by show Own _ _ (lholds p); rw [hp]; exact ho.acqL hx) (.inl rfl) (fun w e => absurd e (h5 w)) (fun w e => absurd e (h6 w))
      (fun a e => by rw [show doomed p = _ from e] at h4; cases h4), .inl ⟨rfl, still (due_acqL hx) ?_⟩⟩
    have h7 : hDue p f.heap = hDue f.lt f.heap := by unfold hDue; rw [h4, h4']
    simp only [abs, absWith, ha, h1, h2, h3, h7]

theorem sim_relL {f f' : FSt} {x : Mtx} {p : FLt} {e : Option Ev} (h : releaseL f x p = some (f', e)) (hI : Inv f) (hl : lholds f.lt = some x)
    (hp : lholds p = none) (ha : ∀ n, tDue n p = tDue n f.lt) (h1 : dDue p = dDue f.lt) (h2 : rDue p = rDue f.lt) (h3 : ∀ q, pDue p q = pDue f.lt q)
    (h4 : doomed p = doomed f.lt) (h5 : ∀ w, p ≠ .pop w) (h6 : ∀ a, p ≠ .dPush a) : Inv f' ∧ Sim rx f f' e := by
  unfold releaseL at h
  cases h
  have ho := hI.own
  rw [hl] at ho
  refine ⟨hI.moveL rfl (by show Own _ _ (lholds p); rw [hp]; exact ho.relL) (.inl rfl) (fun w e => absurd e (h5 w)) (fun w e => absurd e (h6 w))
    (fun a e => hI.old a (by rw [← h4]; exact e)), .inl ⟨rfl, still (due_relL ((hI.own.log x).2 hl)) ?_⟩⟩
  have h7 : hDue p f.heap = hDue f.lt f.heap := by unfold hDue; rw [h4]
  simp only [abs, absWith, ha, h1, h2, h3, h7]

theorem tD (n : Bool) {p q : FLt} (hp : ∀ w, p ≠ .sleep w) (hq : ∀ w, q ≠ .sleep w) (h : tabs p = tabs q) : tDue n p = tDue n q := by
  rw [tDue_eq hp, tDue_eq hq, h]

theorem sim_log {f f' : FSt} {e : Option Ev} {es : List Ev} (hI : Inv f) (hm : Mem (abs f) es)
    (h : logStepF rx f = some (f', e)) : Inv f' ∧ Sim rx f f' e := by
  have free : ∀ {x} {i : Nat} {pc : FPc}, lholds f.lt = some x → f.cl[i]? = some pc → holds pc ≠ some x := by
    intro x i pc h1 h2 h3
    have h4 := (hI.own.at h2 x).2 h3
    have h5 := (hI.own.log x).2 h1
    rw [h4] at h5; cases h5
  have quiet : lholds f.lt = some .message → (due f.mtx f.cl).max = false ∧ (due f.mtx f.cl).note = false := by
    intro h1
    have := (hI.own.log .message).2 h1
    simp [due, work_log this]
  have alive : ∀ {a}, lHolds a (abs f).lt = 1 → ∃ m, f.heap a = some m ∧ (abs f).heap a = some m ∧ doomed f.lt ≠ some a := by
    intro a h1
    obtain ⟨m, h2⟩ := hm.lt_alive h1
    have h3 : hDue f.lt f.heap a = some m := h2
    exact ⟨m, (hDue_get h3).1, h2, (hDue_get h3).2⟩
  unfold logStepF at h
  cases hl : f.lt with
  | none => simp only [hl] at h; cases h
  | exited => simp only [hl] at h; cases h
  | top =>
    simp only [hl] at h
    exact sim_acqL h hI (by rw [hl]; rfl) rfl (fun n => by rw [hl]; exact tD n (by simp) (by simp) rfl) (by rw [hl]; rfl) (by rw [hl]; rfl) (fun q => by rw [hl]; rfl)
      rfl (by rw [hl]; rfl) (by simp) (by simp)
  | sleep w =>
    cases w with
    | false => simp only [hl] at h; cases h
    | true =>
      simp only [hl] at h
      exact sim_acqL h hI (by rw [hl]; rfl) rfl (fun n => by rw [hl]; cases n <;> rfl) (by rw [hl]; rfl) (by rw [hl]; rfl) (fun q => by rw [hl]; rfl)
        rfl (by rw [hl]; rfl) (by simp) (by simp)
  | test w =>
    obtain ⟨d1, d2⟩ := quiet (by rw [hl]; rfl)
    have hl' : (abs f).lt = if w then .wait true else .top := by simp only [abs, absWith, hl]; rw [tDue_eq (by simp)]; rfl
    have hgo : step rx (abs f) .log = some (Falcon.Log.head (abs f)) := by
      cases w <;> simp only [step, Falcon.Log.logStep, hl'] <;> rfl
    simp only [hl] at h
    split at h
    · rename_i ht
      cases h
      refine ⟨hI.moveL rfl (by have := hI.own; rw [hl] at this; exact this) (.inl rfl) (by simp) (by simp) (by simp [doomed]), .inr ⟨.log, _, rfl, ?_⟩⟩
      refine commit rfl ?_
      rw [hgo]
      have : (abs f).terminated = true := ht
      simp only [Falcon.Log.head, this]
      simp only [abs, absWith, hl, ht]
      rw [tDue_eq (p := .exit) (by simp)]
      rfl
    · rename_i ht hq
      cases h
      have ho := hI.own
      rw [hl] at ho
      refine ⟨hI.moveL rfl (Own.relL (x := .message) ho) (.inl rfl) (by simp) (by simp) (by simp [doomed]), .inr ⟨.log, _, rfl, ?_⟩⟩
      refine commit (due_relL ((hI.own.log .message).2 (by rw [hl]; rfl))) ?_
      rw [hgo]
      have h1 : (abs f).terminated = false := ht
      have h2 : (abs f).queue = [] := hq
      simp only [Falcon.Log.head, h1, h2]
      simp only [abs, absWith, hl, ht, hq, d2, tDue]
      rfl
    · rename_i a q ht hq
      cases h
      refine ⟨hI.moveL rfl (by have := hI.own; rw [hl] at this; exact this) (.inl rfl) (fun _ _ => ⟨by simp [hq], ht⟩) (by simp) (by simp [doomed]), .inl ⟨rfl, still rfl ?_⟩⟩
      simp only [abs, absWith, hl]
      rw [tD _ (p := .pop w) (q := .test w) (by simp) (by simp) rfl]
      rfl
  | pop w =>
    obtain ⟨hne, ht⟩ := hI.pop w hl
    obtain ⟨d1, d2⟩ := quiet (by rw [hl]; rfl)
    have hl' : (abs f).lt = if w then .wait true else .top := by simp only [abs, absWith, hl]; rw [tDue_eq (by simp)]; rfl
    have hgo : step rx (abs f) .log = some (Falcon.Log.head (abs f)) := by
      cases w <;> simp only [step, Falcon.Log.logStep, hl'] <;> rfl
    simp only [hl] at h
    split at h
    · rename_i hq; exact absurd hq hne
    · rename_i a q hq
      cases h
      refine ⟨hI.moveL rfl (by have := hI.own; rw [hl] at this; exact this) (.inl rfl) (by simp) (by simp) (by simp [doomed]), .inr ⟨.log, _, rfl, ?_⟩⟩
      refine commit rfl ?_
      rw [hgo]
      have h1 : (abs f).terminated = false := ht
      have h2 : (abs f).queue = a :: q := hq
      simp only [Falcon.Log.head, h1, h2]
      simp only [abs, absWith, hl, ht, hq, d1, Bool.false_eq_true, false_and, if_false]
      rw [tDue_eq (p := .taken a) (by simp)]
      rfl
  | exit =>
    simp only [hl] at h
    exact sim_relL h hI (by rw [hl]; rfl) rfl (fun n => by rw [hl]; exact tD n (by simp) (by simp) rfl) (by rw [hl]; rfl) (by rw [hl]; rfl) (fun q => by rw [hl]; rfl)
      (by rw [hl]; rfl) (by simp) (by simp)
  | taken a =>
    simp only [hl] at h
    exact sim_relL h hI (by rw [hl]; rfl) rfl (fun n => by rw [hl]; exact tD n (by simp) (by simp) rfl) (by rw [hl]; rfl) (by rw [hl]; rfl) (fun q => by rw [hl]; rfl)
      (by rw [hl]; rfl) (by simp) (by simp)
  | got a =>
    simp only [hl] at h
    exact sim_acqL h hI (by rw [hl]; rfl) rfl (fun n => by rw [hl]; exact tD n (by simp) (by simp) rfl) (by rw [hl]; rfl) (by rw [hl]; rfl) (fun q => by rw [hl]; rfl)
      rfl (by rw [hl]; rfl) (by simp) (by simp)
  | nCopy a =>
    have hl' : (abs f).lt = .got a := by simp only [abs, absWith, hl]; rw [tDue_eq (by simp)]; rfl
    obtain ⟨m, h1, h2, -⟩ := alive (a := a) (by rw [hl']; simp [lHolds])
    simp only [hl, h1] at h
    cases h
    refine ⟨hI.moveL rfl (by have := hI.own; rw [hl] at this; exact this) (.inl rfl) (by simp) (by simp) (by simp [doomed]), .inr ⟨.log, _, rfl, ?_⟩⟩
    refine commit rfl ?_
    simp only [step, Falcon.Log.logStep, hl', h2]
    simp only [abs, absWith, hl]
    rw [tDue_eq (p := .nClear a _) (by simp)]
    rfl
  | nClear a ls =>
    simp only [hl] at h
    cases h
    refine ⟨hI.moveL rfl (by have := hI.own; rw [hl] at this; exact this) (.inl rfl) (by simp) (by simp) (by simp [doomed]), .inl ⟨rfl, still rfl ?_⟩⟩
    simp only [abs, absWith, hl]
    rw [tD _ (p := .nUnlock a ls) (q := .nClear a ls) (by simp) (by simp) rfl]
    rfl
  | nUnlock a ls =>
    simp only [hl] at h
    exact sim_relL h hI (by rw [hl]; rfl) rfl (fun n => by rw [hl]; exact tD n (by simp) (by simp) rfl) (by rw [hl]; rfl) (by rw [hl]; rfl) (fun q => by rw [hl]; rfl)
      (by rw [hl]; rfl) (by simp) (by simp)
  | recv a ls =>
    simp only [hl] at h
    cases h
    refine ⟨hI.moveL rfl (by have := hI.own; rw [hl] at this; exact this) (.inl rfl) (by simp) (by simp) (by simp [doomed]), .inl ⟨rfl, still rfl ?_⟩⟩
    simp only [abs, absWith, hl]
    rw [tD _ (p := .send a ls) (q := .recv a ls) (by simp) (by simp) rfl]
    rfl
  | send a rem =>
    have hl' : (abs f).lt = .send a rem := by simp only [abs, absWith, hl]; rw [tDue_eq (by simp)]; rfl
    cases rem with
    | cons l rem =>
      simp only [hl] at h
      cases h
      refine ⟨hI.moveL rfl (by have := hI.own; rw [hl] at this; exact this) (.inl rfl) (by simp) (by simp) (by simp [doomed]), .inr ⟨.log, _, rfl, ?_⟩⟩
      refine commit rfl ?_
      simp only [step, Falcon.Log.logStep, hl']
      simp only [abs, absWith, hl]
      rw [tDue_eq (p := .probe a l .enabled rem) (by simp)]
      rfl
    | nil =>
      obtain ⟨m, h1, h2, -⟩ := alive (a := a) (by rw [hl']; simp [lHolds])
      simp only [hl, h1] at h
      cases h
      refine ⟨hI.moveL rfl (by have := hI.own; rw [hl] at this; exact this) (.inl rfl) (by simp) (by simp) (by simp [doomed]), .inr ⟨.log, _, rfl, ?_⟩⟩
      refine commit rfl ?_
      simp only [step, Falcon.Log.logStep, hl', h2]
      simp only [abs, absWith, hl]
      rw [tDue_eq (p := .clean a [] f.active) (by simp)]
      rfl
  | probe a l st rem =>
    have hl' : (abs f).lt = .test a l st rem := by simp only [abs, absWith, hl]; rw [tDue_eq (by simp)]; rfl
    obtain ⟨m, h1, h2, -⟩ := alive (a := a) (by rw [hl']; simp [lHolds])
    have le : ((abs f).lst l).enabled = (f.lst l).enabled := by
      simp only [abs, absWith, lDue]; split <;> rfl
    have ll : ((abs f).lst l).level = (f.lst l).level := by
      simp only [abs, absWith, lDue]; split <;> rfl
    simp only [hl, h1] at h
    cases st with
    | enabled =>
      simp only at h
      cases h
      refine ⟨hI.moveL rfl ?_ (.inl rfl) ?_ ?_ ?_, .inr ⟨.log, _, rfl, ?_⟩⟩
      · have := hI.own; rw [hl] at this
        show Own _ _ (lholds (if _ then _ else _))
        cases (f.lst l).enabled <;> exact this
      · intro w; show (if _ then _ else _) = _ → _; cases (f.lst l).enabled <;> simp
      · intro w; show (if _ then _ else _) = _ → _; cases (f.lst l).enabled <;> simp
      · intro w; show doomed (if _ then _ else _) = _ → _; cases (f.lst l).enabled <;> simp [doomed]
      · refine commit rfl ?_
        simp only [step, Falcon.Log.logStep, hl', h2, le]
        simp only [abs, absWith, hl]
        cases (f.lst l).enabled
        · simp only [Bool.false_eq_true, if_false]; rw [tDue_eq (p := .send a rem) (by simp)]; rfl
        · simp only [if_true]; rw [tDue_eq (p := .probe a l .level rem) (by simp)]; rfl
    | level =>
      simp only at h
      cases h
      refine ⟨hI.moveL rfl ?_ (.inl rfl) ?_ ?_ ?_, .inr ⟨.log, _, rfl, ?_⟩⟩
      · have := hI.own; rw [hl] at this
        show Own _ _ (lholds (if _ then _ else _))
        split <;> exact this
      · intro w; show (if _ then _ else _) = _ → _; split <;> simp
      · intro w; show (if _ then _ else _) = _ → _; split <;> simp
      · intro w; show doomed (if _ then _ else _) = _ → _; split <;> simp [doomed]
      · refine commit rfl ?_
        simp only [step, Falcon.Log.logStep, hl', h2, ll]
        simp only [abs, absWith, hl]
        by_cases hc : (f.lst l).level ≥ m.level
        · simp only [if_pos hc]; rw [tDue_eq (p := .probe a l .category rem) (by simp)]; rfl
        · simp only [if_neg hc]; rw [tDue_eq (p := .send a rem) (by simp)]; rfl
    | category =>
      simp only at h
      split at h
      · rename_i hc
        cases h
        refine ⟨hI.moveL rfl (by have := hI.own; rw [hl] at this; exact this) (.inl rfl) (by simp) (by simp) (by simp [doomed]), .inr ⟨.log, _, rfl, ?_⟩⟩
        refine commit rfl ?_
        have hck : checkCategory rx ((abs f).lst l) m.cat = true := by simp [checkCategory, hc]
        simp only [step, Falcon.Log.logStep, hl', h2, hck, if_true]
        simp only [abs, absWith, hl]
        rw [tDue_eq (p := .probe a l .call rem) (by simp)]
        rfl
      · exact sim_acqL h hI (by rw [hl]; rfl) rfl (fun n => by rw [hl]; exact tD n (by simp) (by simp) rfl) (by rw [hl]; rfl) (by rw [hl]; rfl) (fun q => by rw [hl]; rfl)
          rfl (by rw [hl]; rfl) (by simp) (by simp)
    | call =>
      simp only at h
      cases h
      refine ⟨hI.moveL rfl (by have := hI.own; rw [hl] at this; exact this) (.inl rfl) (by simp) (by simp) (by simp [doomed]), .inr ⟨.log, _, rfl, ?_⟩⟩
      refine commit rfl ?_
      simp only [step, Falcon.Log.logStep, hl', h2]
      simp only [abs, absWith, hl]
      rw [tDue_eq (p := .send a rem) (by simp)]
      rfl
  | cHold a l rem =>
    have hl' : (abs f).lt = .test a l .category rem := by simp only [abs, absWith, hl]; rw [tDue_eq (by simp)]; rfl
    obtain ⟨m, h1, h2, -⟩ := alive (a := a) (by rw [hl']; simp [lHolds])
    have hs : (abs f).lst l = f.lst l := by
      have h3 := (hI.own.log (.category l)).2 (by rw [hl]; rfl)
      have h4 : (due f.mtx f.cl).text l = none := by simp [due, work_log h3]
      simp only [abs, absWith, h4, lDue]
    simp only [hl, h1] at h
    cases h
    refine ⟨hI.moveL rfl (by have := hI.own; rw [hl] at this; exact this) (.inl rfl) (by simp) (by simp) (by simp [doomed]), .inr ⟨.log, _, rfl, ?_⟩⟩
    refine commit rfl ?_
    simp only [step, Falcon.Log.logStep, hl', h2, hs]
    simp only [abs, absWith, hl]
    rw [tDue_eq (p := .cUnl a l _ rem) (by simp)]
    cases checkCategory rx (f.lst l) m.cat <;> rfl
  | cUnl a l b rem =>
    simp only [hl] at h
    cases b <;>
      exact sim_relL h hI (by rw [hl]; rfl) rfl (fun n => by rw [hl]; exact tD n (by simp) (by simp) rfl) (by rw [hl]; rfl) (by rw [hl]; rfl) (fun q => by rw [hl]; rfl)
        (by rw [hl]; rfl) (by simp) (by simp)
  | clean a kept rest =>
    have hl' : (abs f).lt = .clean a kept rest := by simp only [abs, absWith, hl]; rw [tDue_eq (by simp)]; rfl
    cases rest with
    | cons l rest =>
      have ld : ((abs f).lst l).detached = (f.lst l).detached := by
        simp only [abs, absWith, lDue]; split <;> rfl
      simp only [hl] at h
      cases h
      refine ⟨hI.moveL rfl (by have := hI.own; rw [hl] at this; exact this) (.inl rfl) (by simp) (by simp) (by simp [doomed]), .inr ⟨.log, _, rfl, ?_⟩⟩
      refine commit rfl ?_
      simp only [step, Falcon.Log.logStep, hl', ld]
      simp only [abs, absWith, hl]
      rw [tDue_eq (p := .clean a _ rest) (by simp)]
      rfl
    | nil =>
      simp only [hl] at h
      cases h
      refine ⟨hI.moveL rfl (by have := hI.own; rw [hl] at this; exact this) (.inl rfl) (by simp) (by simp) (by simp [doomed]), .inr ⟨.log, _, rfl, ?_⟩⟩
      refine commit rfl ?_
      simp only [step, Falcon.Log.logStep, hl']
      simp only [abs, absWith, hl]
      rw [tDue_eq (p := .disp a) (by simp)]
      rfl
  | disp a =>
    simp only [hl] at h
    exact sim_acqL h hI (by rw [hl]; rfl) rfl (fun n => by rw [hl]; exact tD n (by simp) (by simp) rfl) (by rw [hl]; rfl) (by rw [hl]; rfl) (fun q => by rw [hl]; rfl)
      rfl (by rw [hl]; rfl) (by simp) (by simp)
  | dTest a =>
    have hl' : (abs f).lt = .dispose a := by simp only [abs, absWith, hl]; rw [tDue_eq (by simp)]; rfl
    obtain ⟨m, h1, h2, -⟩ := alive (a := a) (by rw [hl']; simp [lHolds])
    simp only [hl] at h
    split at h
    · rename_i hp
      cases h
      refine ⟨hI.moveL rfl (by have := hI.own; rw [hl] at this; exact this) (.inl rfl) (by simp) (fun _ _ => hp) (by simp [doomed]), .inl ⟨rfl, still rfl ?_⟩⟩
      simp only [abs, absWith, hl]
      rw [tD _ (p := .dPush a) (q := .dTest a) (by simp) (by simp) rfl]
      rfl
    · rename_i hp
      cases h
      have hfr : a < f.next := hm.fresh a (by rw [h2]; rfl)
      refine ⟨hI.moveL rfl (by have := hI.own; rw [hl] at this; exact this) (.inl rfl) (by simp) (by simp) ?_, .inr ⟨.log, _, rfl, ?_⟩⟩
      · intro b hb
        cases hb
        exact ⟨hfr, m, h1⟩
      · refine commit rfl ?_
        have hp' : ¬ (abs f).pool.length < threshold := hp
        simp only [step, Falcon.Log.logStep, hl', Falcon.Log.dispose, h2]
        rw [if_neg hp']
        simp only [abs, absWith, hl]
        rw [tDue_eq (p := .dUnlF a) (by simp)]
        rfl
  | dPush a =>
    have hl' : (abs f).lt = .dispose a := by simp only [abs, absWith, hl]; rw [tDue_eq (by simp)]; rfl
    have hp := hI.push a hl
    simp only [hl] at h
    cases h
    refine ⟨hI.moveL rfl (by have := hI.own; rw [hl] at this; exact this) (.inr (by rw [hl]; rfl)) (by simp) (by simp) (by simp [doomed]), .inr ⟨.log, _, rfl, ?_⟩⟩
    refine commit rfl ?_
    have hp' : (abs f).pool.length < threshold := hp
    simp only [step, Falcon.Log.logStep, hl', Falcon.Log.dispose]
    rw [if_pos hp']
    simp only [abs, absWith, hl]
    rw [tDue_eq (p := .dUnl) (by simp)]
    rfl
  | dUnl =>
    simp only [hl] at h
    exact sim_relL h hI (by rw [hl]; rfl) rfl (fun n => by rw [hl]; exact tD n (by simp) (by simp) rfl) (by rw [hl]; rfl) (by rw [hl]; rfl) (fun q => by rw [hl]; rfl)
      (by rw [hl]; rfl) (by simp) (by simp)
  | dUnlF a =>
    simp only [hl] at h
    exact sim_relL h hI (by rw [hl]; rfl) rfl (fun n => by rw [hl]; exact tD n (by simp) (by simp) rfl) (by rw [hl]; rfl) (by rw [hl]; rfl) (fun q => by rw [hl]; rfl)
      (by rw [hl]; rfl) (by simp) (by simp)
  | dInc a =>
    simp only [hl] at h
    cases h
    refine ⟨hI.moveL rfl (by have := hI.own; rw [hl] at this; exact this) (.inl rfl) (by simp) (by simp) (fun b hb => hI.old b (by rw [hl]; exact hb)), .inl ⟨rfl, still rfl ?_⟩⟩
    simp only [abs, absWith, hl]
    rw [tD _ (p := .dDel a) (q := .dInc a) (by simp) (by simp) rfl]
    rfl
  | dDel a =>
    obtain ⟨h1, m, h2⟩ := hI.old a (by rw [hl]; rfl)
    simp only [hl, h2] at h
    cases h
    refine ⟨hI.moveL rfl (by have := hI.own; rw [hl] at this; exact this) (.inl rfl) (by simp) (by simp) (by simp [doomed]), .inl ⟨rfl, still rfl ?_⟩⟩
    simp only [abs, absWith, hl]
    rw [tD _ (p := .top) (q := .dDel a) (by simp) (by simp) rfl]
    rfl

end Falcon.LogM
