import Verif.Proofs.LogMutexRun
/-
Reading the state of the log system with explicit mutexes; no deadlock.
-/
namespace Falcon.LogM
open Falcon.Log (Str Addr LId Msg Rx Lst Op Ev Stage Mtx LPc CPc St Act Exec setHeap setLst threshold checkCategory notify init Mem step cHolds lHolds Wake exec_wake exec_mem)

variable {rx : Rx} {f : FSt}

theorem still_work (hI : Inv f) {x : Mtx} (h : Still f x) : work f.mtx f.cl x = .idle ∨ work f.mtx f.cl x = .qHold x := by
  rcases h with h | ⟨i, -, h2⟩
  · exact .inl (work_free h)
  · exact .inr (work_at hI.own h2 rfl)

theorem still_log (hI : Inv f) {x : Mtx} (h : Still f x) : lholds f.lt ≠ some x := by
  intro e
  have := (hI.own.log x).2 e
  rcases h with h | ⟨i, h, -⟩ <;> rw [h] at this <;> cases this

theorem agrees (hI : Inv f) : Agrees f (abs f) where
  level := rfl
  queue := rfl
  terminated := rfl
  pool := rfl
  active := rfl
  external := rfl
  maxQ := fun h => by
    have : (due f.mtx f.cl).max = false := by
      rcases still_work hI h with h | h <;> simp only [due, h]
    simp only [abs, absWith, this, Bool.false_eq_true, false_and, if_false]
  pending := fun h => by
    have := still_log hI h
    show pDue f.lt f.pending = _
    cases hl : f.lt <;> first | rfl | (rw [hl] at this; exact absurd rfl this)
  lst := fun l h => by
    have : (due f.mtx f.cl).text l = none := by
      rcases still_work hI h with h | h <;> simp only [due, h]
    simp only [abs, absWith, this, lDue]
  opts := fun l => by
    show (lDue _ _).enabled = _ ∧ (lDue _ _).level = _ ∧ (lDue _ _).detached = _
    cases (due f.mtx f.cl).text l <;> exact ⟨rfl, rfl, rfl⟩
  clients := by simp [abs, absWith]
  idle := fun i h => cl_get h
  counters := fun h p hp => by
    have hw : ∀ x, work f.mtx f.cl x = .idle := by
      intro x
      unfold work
      rcases f.mtx x with _ | _ | i
      · rfl
      · rfl
      · dsimp only
        cases hc : f.cl[i]? with
        | none => rfl
        | some pc => exact h pc (List.mem_iff_getElem?.2 ⟨i, hc⟩)
    have hd : due f.mtx f.cl = ⟨false, false, fun _ => none, none⟩ := by simp only [due, hw]
    have hc : f.cl.countP isInc = 0 := by
      rw [List.countP_eq_zero]; intro a ha; rw [h a ha]; simp [isInc]
    simp only [abs, hd, absWith, hc]
    cases hl : f.lt <;> rw [hl] at hp <;> cases hp <;> simp [dDue, rDue, hDue, tDue, doomed, tabs]

/-! ### Who can move -/

theorem holder_cli {i : Nat} {pc : FPc} {x : Mtx} (hi : f.cl[i]? = some pc) (hp : holds pc = some x)
    (hj : pc ≠ .sJoin) : Moves rx f (some i) := by
  simp only [Moves, fstep, hi]
  cases pc <;> first
    | (cases hp; done)
    | exact absurd rfl hj
    | (simp only [resumeF, release]; exact ⟨_, rfl⟩)
    | skip
  · simp only [resumeF]; split <;> exact ⟨_, rfl⟩
  · simp only [resumeF]; split <;> exact ⟨_, rfl⟩
  · simp only [resumeF]; split <;> exact ⟨_, rfl⟩
  · simp only [resumeF]; split <;> exact ⟨_, rfl⟩
  · simp only [resumeF]; split <;> exact ⟨_, rfl⟩

theorem holder_log {x : Mtx} (hp : lholds f.lt = some x) : Moves rx f none := by
  simp only [Moves, fstep, logStepF]
  cases hl : f.lt <;> rw [hl] at hp <;> first
    | (cases hp; done)
    | exact ⟨_, rfl⟩
    | skip
  · dsimp only; split <;> exact ⟨_, rfl⟩
  · dsimp only; split <;> exact ⟨_, rfl⟩
  · dsimp only; split <;> exact ⟨_, rfl⟩
  · dsimp only; split <;> exact ⟨_, rfl⟩
  · dsimp only; split <;> exact ⟨_, rfl⟩

/-- who has a mutex other than that of the thread pointer can move -/
theorem holder_moves {x : Mtx} {t : Tid} (hI : Inv f) (h : f.mtx x = some t) (hx : x ≠ .thread) : Moves rx f t := by
  cases t with
  | none => exact holder_log ((hI.own.log x).1 h)
  | some i =>
    obtain ⟨pc, h1, h2⟩ := (hI.own.cli x i).1 h
    refine holder_cli h1 h2 ?_
    rintro rfl
    cases h2; exact hx rfl

/-- the logging thread can move, or waits for a thread that can, or sleeps, or is not there -/
theorem log_moves (hI : Inv f) (h1 : f.lt ≠ .none) (h2 : f.lt ≠ .exited) (h3 : f.lt ≠ .sleep false) :
    ∃ t, Moves rx f t := by
  have acq : ∀ x p, x ≠ .thread → logStepF rx f = acquireL f x p → ∃ t, Moves rx f t := by
    intro x p hx he
    cases hf : f.mtx x with
    | some t => exact ⟨t, holder_moves hI hf hx⟩
    | none => exact ⟨none, by simp only [Moves, fstep, he, acquireL, hf]; exact ⟨_, rfl⟩⟩
  have any : (∃ r, logStepF rx f = some r) → ∃ t, Moves rx f t := fun h => ⟨none, h⟩
  cases hl : f.lt with
  | none => exact absurd hl h1
  | exited => exact absurd hl h2
  | top => exact acq .message (.test false) (by simp) (by simp only [logStepF, hl])
  | sleep w =>
    cases w with
    | false => exact absurd hl h3
    | true => exact acq .message (.test true) (by simp) (by simp only [logStepF, hl])
  | got a => exact acq .listeners (.nCopy a) (by simp) (by simp only [logStepF, hl])
  | disp a => exact acq .pool (.dTest a) (by simp) (by simp only [logStepF, hl])
  | probe a l st rem =>
    cases hh : f.heap a with
    | none => exact any ⟨_, by simp only [logStepF, hl, hh]; rfl⟩
    | some m =>
      cases st with
      | category =>
        by_cases hc : m.cat = []
        · exact any ⟨_, by simp only [logStepF, hl, hh, if_pos hc]; rfl⟩
        · exact acq (.category l) (.cHold a l rem) (by simp) (by simp only [logStepF, hl, hh, if_neg hc])
      | enabled => exact any ⟨_, by simp only [logStepF, hl, hh]; rfl⟩
      | level => exact any ⟨_, by simp only [logStepF, hl, hh]; rfl⟩
      | call => exact any ⟨_, by simp only [logStepF, hl, hh]; rfl⟩
  | recv a ls => exact any ⟨_, by simp only [logStepF, hl]; rfl⟩
  | send a ls =>
    cases ls with
    | nil => apply any; simp only [logStepF, hl]; split <;> exact ⟨_, rfl⟩
    | cons l ls => exact any ⟨_, by simp only [logStepF, hl]; rfl⟩
  | clean a kept rest =>
    cases rest with
    | nil => exact any ⟨_, by simp only [logStepF, hl]; rfl⟩
    | cons l ls => exact any ⟨_, by simp only [logStepF, hl]; rfl⟩
  | dInc a => exact any ⟨_, by simp only [logStepF, hl]; rfl⟩
  | dDel a => apply any; simp only [logStepF, hl]; split <;> exact ⟨_, rfl⟩
  | _ => exact ⟨none, holder_log (by rw [hl]; rfl)⟩

theorem someone_moves {i : Nat} {pc : FPc} (hI : Inv f) (hw : Wake (abs f)) (hi : f.cl[i]? = some pc) (hp : pc ≠ .idle) :
    ∃ t, Moves rx f t := by
  have join : ∀ j : Nat, f.cl[j]? = some .sJoin → ∃ t, Moves rx f t := by
    intro j hj
    by_cases h2 : f.lt = .exited
    · exact ⟨some j, by simp only [Moves, fstep, hj, resumeF, h2]; exact ⟨_, rfl⟩⟩
    have hjc : (abs f).cl[j]? = some .stopJoin := cl_get hj
    by_cases h1 : f.lt = .none
    · have : (abs f).mtxThread = some j := (hw.holder j).1 hjc
      have h3 := hw.joinable (by rw [this]; simp)
      have : (abs f).lt = .none := by
        show tDue _ f.lt = _
        rw [h1]; exact tDue_none _
      exact absurd this h3
    by_cases h3 : f.lt = .sleep false
    · cases hn : (due f.mtx f.cl).note with
      | true =>
        have : ∃ k : Nat, ∃ p : FPc, f.cl[k]? = some p ∧ (p = .eMax ∨ p = .eNotify) := by
          simp only [due, work] at hn
          cases hmx : f.mtx .message with
          | none => simp [hmx] at hn
          | some t =>
            cases t with
            | none => simp [hmx] at hn
            | some k =>
              simp only [hmx] at hn
              cases hk : f.cl[k]? with
              | none => simp [hk] at hn
              | some p =>
                refine ⟨k, p, hk, ?_⟩
                rw [hk] at hn
                cases p <;> simp at hn ⊢
        obtain ⟨k, p, hk, hp⟩ := this
        refine ⟨some k, ?_⟩
        rcases hp with rfl | rfl
        · exact holder_cli hk rfl (by simp)
        · exact holder_cli hk rfl (by simp)
      | false =>
        have hlt : (abs f).lt = .wait false := by
          show tDue (due f.mtx f.cl).note f.lt = _
          rw [hn, h3]; rfl
        obtain ⟨k, hk⟩ := hw.term hlt (hw.stopping j _ hjc (.inr (.inr rfl)))
        have : ∃ p : FPc, f.cl[k]? = some p ∧ cabs p = .stopNotify := by
          have hk : (f.cl.map cabs)[k]? = some .stopNotify := hk
          rw [List.getElem?_map] at hk
          cases hc : f.cl[k]? with
          | none => rw [hc] at hk; cases hk
          | some p => rw [hc] at hk; exact ⟨p, rfl, Option.some.inj hk⟩
        obtain ⟨p, hp1, hp2⟩ := this
        refine ⟨some k, ?_⟩
        have : p = .sUnlock ∨ p = .sNotify := by cases p <;> simp [cabs] at hp2 ⊢
        rcases this with rfl | rfl
        · exact holder_cli hp1 rfl (by simp)
        · simp only [Moves, fstep, hp1, resumeF]; exact ⟨_, rfl⟩
    · exact log_moves hI h1 h2 h3
  have acq : ∀ x p, resumeF rx f i pc = acquire f i x p → ∃ t, Moves rx f t := by
    intro x p he
    cases hx : f.mtx x with
    | none => exact ⟨some i, by simp only [Moves, fstep, hi, he, acquire, hx]; exact ⟨_, rfl⟩⟩
    | some t =>
      by_cases hxt : x = .thread
      · subst hxt
        cases t with
        | none => exact ⟨none, holder_log ((hI.own.log _).1 hx)⟩
        | some j =>
          obtain ⟨p', h1, h2⟩ := (hI.own.cli _ j).1 hx
          by_cases hj : p' = .sJoin
          · subst hj; exact join j h1
          · exact ⟨some j, holder_cli h1 h2 hj⟩
      · exact ⟨t, holder_moves hI hx hxt⟩
  have any : (∃ r, resumeF rx f i pc = some r) → ∃ t, Moves rx f t := by
    intro h
    exact ⟨some i, by simp only [Moves, fstep, hi]; exact h⟩
  cases pc with
  | idle => exact absurd rfl hp
  | sJoin => exact join i hi
  | aLock m => exact acq _ _ rfl
  | eLock m a => exact acq _ _ rfl
  | sLock => exact acq _ _ rfl
  | sTLock => exact acq _ _ rfl
  | lLock l => exact acq _ _ rfl
  | cLock l re => exact acq _ _ rfl
  | tLock => exact acq _ _ rfl
  | qLock x => exact acq _ _ rfl
  | check m => apply any; simp only [resumeF]; split <;> exact ⟨_, rfl⟩
  | aInc m a => exact any ⟨_, rfl⟩
  | construct m a => apply any; simp only [resumeF]; split <;> exact ⟨_, rfl⟩
  | extNew m => exact any ⟨_, rfl⟩
  | sNotify => exact any ⟨_, rfl⟩
  | _ => exact ⟨some i, holder_cli hi rfl (by simp)⟩

end Falcon.LogM
