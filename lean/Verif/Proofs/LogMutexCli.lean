import Verif.Proofs.LogMutexSim
/-
The steps of the clients.
-/
namespace Falcon.LogM
open Falcon.Log (Str Addr LId Msg Rx Lst Op Ev Stage Mtx LPc CPc St Act Exec setHeap setLst threshold checkCategory notify init Mem step cHolds lHolds)

variable {rx : Rx}

theorem commit {f f' : FSt} {a : Act} {v : Ev} (hd : due f'.mtx f'.cl = due f.mtx f.cl)
    (h : step rx (abs f) a = some (absWith f' (due f.mtx f.cl), v)) : step rx (abs f) a = some (abs f', v) := by
  rw [h]; unfold abs; rw [hd]

theorem still {f f' : FSt} (hd : due f'.mtx f'.cl = due f.mtx f.cl)
    (h : absWith f' (due f.mtx f.cl) = abs f) : abs f' = abs f := by
  rw [← h]; unfold abs; rw [hd]

theorem due_max_off {f : FSt} {i : Nat} {pc : FPc} (hI : Inv f) (hi : f.cl[i]? = some pc) (hp : holds pc = some .message) (hm : plain pc = true) :
    (due f.mtx f.cl).max = false ∧ (due f.mtx f.cl).note = false := by
  simp only [due, work_at hI.own hi hp]
  cases pc <;> first | (cases hm; done) | exact ⟨rfl, rfl⟩

theorem due_ext {d d' : Due} (h1 : d.max = d'.max) (h2 : d.note = d'.note) (h3 : ∀ l, d.text l = d'.text l) (h4 : d.join = d'.join) : d = d' := by
  cases d; cases d'; simp only [Due.mk.injEq]; exact ⟨h1, h2, funext h3, h4⟩

theorem sim_cli {f f' : FSt} {i : Nat} {pc : FPc} {e : Option Ev} {es : List Ev} (hI : Inv f) (hm : Mem (abs f) es) (hi : f.cl[i]? = some pc)
    (h : resumeF rx f i pc = some (f', e)) : Inv f' ∧ Sim rx f f' e := by
  have hlt := (List.getElem?_eq_some_iff.1 hi).1
  have hg := cl_get hi
  have self : ∀ a, a < f.next → (∃ m, f.heap a = some m) → a < f.next ∧ ∃ m, f.heap a = some m := fun a h1 h2 => ⟨h1, h2⟩
  cases pc with
  | idle => cases h
  | check m =>
    simp only [resumeF] at h
    split at h
    · rename_i hl
      cases h
      refine ⟨hI.move hi rfl (hI.own.same hi rfl) (by simp) (.inl rfl) (.inl rfl) id (.inl rfl) self, .inr ⟨.cli i, _, rfl, ?_⟩⟩
      refine commit (due_same hI.own hi rfl rfl) ?_
      simp only [step, hg, cabs, Falcon.Log.resume]
      rw [if_pos (show m.level > (abs f).level from hl)]
      simp only [abs, absWith, List.map_set, cabs, inc_keep hi (pc' := .idle) rfl]
    · rename_i hl
      cases h
      refine ⟨hI.move hi rfl (hI.own.same hi rfl) (by simp) (.inl rfl) (.inl rfl) id (.inl rfl) self, .inr ⟨.cli i, _, rfl, ?_⟩⟩
      refine commit (due_same hI.own hi rfl rfl) ?_
      simp only [step, hg, cabs, Falcon.Log.resume]
      rw [if_neg (show ¬ m.level > (abs f).level from hl)]
      simp only [abs, absWith, List.map_set, cabs, inc_keep hi (pc' := .aLock m) rfl]
  | aLock m => simp only [resumeF] at h; exact sim_acq h hI hi rfl rfl rfl rfl rfl (by simp)
  | aTest m =>
    simp only [resumeF] at h
    split at h
    · rename_i hp
      cases h
      refine ⟨hI.move hi rfl (hI.own.same hi rfl) (by simp) (.inl rfl) (.inl rfl) id (.inl rfl) ?_, .inr ⟨.cli i, _, rfl, ?_⟩⟩
      · rintro a h1 ⟨m', h2⟩
        refine ⟨Nat.lt_succ_of_lt h1, m', ?_⟩
        show setHeap f.heap f.next _ a = _
        rw [Falcon.Log.setHeap_ne _ _ (Nat.ne_of_lt h1)]; exact h2
      · refine commit (due_same hI.own hi rfl rfl) ?_
        simp only [step, hg, cabs, Falcon.Log.resume, Falcon.Log.allocate]
        have hd : doomed f.lt ≠ some f.next := fun e => absurd (hI.old _ e).1 (Nat.lt_irrefl _)
        have hc := inc_to (pc' := .aUnlockE m f.next) hi
        simp only [isInc, Bool.false_eq_true, if_false, if_true] at hc
        simp only [abs, absWith, hp, List.getLast?_nil, List.map_set, cabs, hDue_set _ hd]
        have : f.unpooled + f.cl.countP isInc + 1 = f.unpooled + (f.cl.set i (.aUnlockE m f.next)).countP isInc := by omega
        rw [this]
    · rename_i hp
      cases h
      exact ⟨hI.move hi rfl (hI.own.same hi rfl) (fun _ _ => by simp [hp]) (.inl rfl) (.inl rfl) id (.inl rfl) self,
        .inl ⟨rfl, abs_keep hi (due_same hI.own hi rfl rfl) rfl rfl⟩⟩
  | aPop m =>
    have hne := hI.pool i m hi
    obtain ⟨a, ha⟩ : ∃ a, f.pool.getLast? = some a := by
      cases hx : f.pool.getLast? with
      | none => rw [List.getLast?_eq_none_iff] at hx; exact absurd hx hne
      | some a => exact ⟨a, rfl⟩
    simp only [resumeF, ha] at h
    cases h
    refine ⟨hI.move hi rfl (hI.own.same hi rfl) (by simp) (.inr rfl) (.inl rfl) id (.inl rfl) self, .inr ⟨.cli i, _, rfl, ?_⟩⟩
    refine commit (due_same hI.own hi rfl rfl) ?_
    simp only [step, hg, cabs, Falcon.Log.resume, Falcon.Log.allocate]
    simp only [abs, absWith, ha, List.map_set, cabs, inc_keep hi (pc' := .aUnlock m a) rfl]
  | aUnlock m a => simp only [resumeF] at h; exact sim_rel h hI hi rfl rfl rfl rfl rfl (by simp)
  | aUnlockE m a => simp only [resumeF] at h; exact sim_rel h hI hi rfl rfl rfl rfl rfl (by simp)
  | aInc m a =>
    simp only [resumeF] at h
    cases h
    refine ⟨hI.move hi rfl (hI.own.same hi rfl) (by simp) (.inl rfl) (.inl rfl) id (.inl rfl) self, .inl ⟨rfl, ?_⟩⟩
    refine still (due_same hI.own hi rfl rfl) ?_
    have hc := inc_to (pc' := .construct m a) hi
    simp only [isInc, Bool.false_eq_true, if_false, if_true] at hc
    have : f.unpooled + 1 + (f.cl.set i (.construct m a)).countP isInc = f.unpooled + f.cl.countP isInc := by omega
    simp only [abs, absWith, cl_keep hi (pc' := .construct m a) rfl, this]
  | construct m a =>
    obtain ⟨x, hx⟩ := (hm.notqueue_of_cl (a := a) hg (by simp [cHolds, cabs])).2.2.1
    have hx' : hDue f.lt f.heap a = some x := hx
    obtain ⟨h1, h2⟩ := hDue_get hx'
    simp only [resumeF, h1] at h
    cases h
    refine ⟨hI.move hi rfl (hI.own.same hi rfl) (by simp) (.inl rfl) (.inl rfl) id (.inl rfl) ?_, .inr ⟨.cli i, _, rfl, ?_⟩⟩
    · rintro b h3 ⟨m', h4⟩
      refine ⟨h3, ?_⟩
      show ∃ y, setHeap f.heap a _ b = _
      by_cases hb : b = a
      · subst hb; exact ⟨m, by simp [setHeap]⟩
      · exact ⟨m', by simp [setHeap, hb, h4]⟩
    · refine commit (due_same hI.own hi rfl rfl) ?_
      simp only [step, hg, cabs, Falcon.Log.resume, hx]
      simp only [abs, absWith, List.map_set, cabs, inc_keep hi (pc' := .eLock m a) rfl, hDue_set _ h2]
  | extNew m =>
    simp only [resumeF] at h
    cases h
    have hd : doomed f.lt ≠ some f.next := fun e => absurd (hI.old _ e).1 (Nat.lt_irrefl _)
    refine ⟨hI.move hi rfl (hI.own.same hi rfl) (by simp) (.inl rfl) (.inl rfl) id (.inl rfl) ?_, .inr ⟨.cli i, _, rfl, ?_⟩⟩
    · rintro a h1 ⟨m', h2⟩
      refine ⟨Nat.lt_succ_of_lt h1, m', ?_⟩
      show setHeap f.heap f.next _ a = _
      rw [Falcon.Log.setHeap_ne _ _ (Nat.ne_of_lt h1)]; exact h2
    · refine commit (due_same hI.own hi rfl rfl) ?_
      simp only [step, hg, cabs, Falcon.Log.resume]
      simp only [abs, absWith, List.map_set, cabs, inc_keep hi (pc' := .eLock m f.next) rfl, hDue_set _ hd]
  | eLock m a => simp only [resumeF] at h; exact sim_acq h hI hi rfl rfl rfl rfl rfl (by simp)
  | ePush m a =>
    simp only [resumeF] at h
    cases h
    refine ⟨hI.move hi rfl (hI.own.same hi rfl) (by simp) (.inl rfl) (.inl rfl) (by simp) (.inl rfl) self, .inr ⟨.cli i, _, rfl, ?_⟩⟩
    obtain ⟨d1, d2⟩ := due_max_off hI hi rfl rfl
    have hd : due f.mtx (f.cl.set i .eMax) = { due f.mtx f.cl with max := true, note := true } := by
      apply due_ext
      · simp [due, work_same hI.own hi, holds]
      · simp [due, work_same hI.own hi, holds]
      · intro l; simp [due, work_same hI.own hi, holds]
      · simp [due, work_same hI.own hi, holds]
    simp only [step, hg, cabs, Falcon.Log.resume]
    simp only [abs, absWith, hd, d1, d2, List.map_set, cabs, inc_keep hi (pc' := .eMax) rfl, tDue, Bool.false_eq_true, false_and, true_and, if_false, if_true]
  | eMax =>
    simp only [resumeF] at h
    cases h
    refine ⟨hI.move hi rfl (hI.own.same hi rfl) (by simp) (.inl rfl) (.inl rfl) id (.inl rfl) self, .inl ⟨rfl, ?_⟩⟩
    have d1 : (due f.mtx f.cl).max = true := by simp [due, work_at hI.own hi rfl]
    have hd : due f.mtx (f.cl.set i .eNotify) = { due f.mtx f.cl with max := false } := by
      apply due_ext
      · simp [due, work_same hI.own hi, holds]
      · simp [due, work_same hI.own hi, holds, work_at hI.own hi rfl]
      · intro l; simp [due, work_same hI.own hi, holds]
      · simp [due, work_same hI.own hi, holds]
    simp only [abs, absWith, hd, d1, cl_keep hi (pc' := .eNotify) rfl, inc_keep hi (pc' := .eNotify) rfl, Bool.false_eq_true, false_and, true_and, if_false]
  | eNotify =>
    simp only [resumeF] at h
    cases h
    refine ⟨hI.move hi rfl (by show Own _ _ (lholds (wake f.lt)); rw [lholds_wake]; exact hI.own.same hi rfl) (by simp) (.inl rfl) (.inr (.inl rfl)) id (.inl rfl) self, .inl ⟨rfl, ?_⟩⟩
    have d1 : (due f.mtx f.cl).note = true := by simp [due, work_at hI.own hi rfl]
    have d2 : (due f.mtx f.cl).max = false := by simp [due, work_at hI.own hi rfl]
    have hd : due f.mtx (f.cl.set i .eUnlock) = { due f.mtx f.cl with note := false } := by
      apply due_ext
      · simp [due, work_same hI.own hi, holds, work_at hI.own hi rfl]
      · simp [due, work_same hI.own hi, holds]
      · intro l; simp [due, work_same hI.own hi, holds]
      · simp [due, work_same hI.own hi, holds]
    simp only [abs, absWith, hd, d1, cl_keep hi (pc' := .eUnlock) rfl, inc_keep hi (pc' := .eUnlock) rfl, dDue_wake, rDue_wake, pDue_wake, hDue_wake, tDue, tabs_wake, Bool.false_eq_true, if_false, if_true]
  | eUnlock => simp only [resumeF] at h; exact sim_rel h hI hi rfl rfl rfl rfl rfl (by simp)
  | sLock => simp only [resumeF] at h; exact sim_acq h hI hi rfl rfl rfl rfl rfl (by simp)
  | sSet =>
    simp only [resumeF] at h
    cases h
    refine ⟨hI.move hi rfl (hI.own.same hi rfl) (by simp) (.inl rfl) (.inl rfl) id (.inr rfl) self, .inr ⟨.cli i, _, rfl, ?_⟩⟩
    refine commit (due_same hI.own hi rfl rfl) ?_
    simp only [step, hg, cabs, Falcon.Log.resume]
    simp only [abs, absWith, List.map_set, cabs, inc_keep hi (pc' := .sUnlock) rfl]
  | sUnlock => simp only [resumeF] at h; exact sim_rel h hI hi rfl rfl rfl rfl rfl (by simp)
  | sNotify =>
    simp only [resumeF] at h
    cases h
    refine ⟨hI.move hi rfl (by show Own _ _ (lholds (wake f.lt)); rw [lholds_wake]; exact hI.own.same hi rfl) (by simp) (.inl rfl) (.inr (.inl rfl)) id (.inl rfl) self, .inr ⟨.cli i, _, rfl, ?_⟩⟩
    refine commit (due_same hI.own hi rfl rfl) ?_
    simp only [step, hg, cabs, Falcon.Log.resume]
    simp only [abs, absWith, List.map_set, cabs, inc_keep hi (pc' := .sTLock) rfl, dDue_wake, rDue_wake, pDue_wake, hDue_wake, tDue_wake]
  | sTLock => simp only [resumeF] at h; exact sim_acq h hI hi rfl rfl rfl rfl rfl (by simp)
  | sTTest =>
    have hj : (abs f).mtxThread = none := by simp [abs, absWith, due, work_at hI.own hi rfl]
    have hj2 : (due f.mtx f.cl).join = none := hj
    simp only [resumeF] at h
    split at h
    · rename_i hl
      cases h
      refine ⟨hI.move hi rfl (hI.own.same hi rfl) (by simp) (.inl rfl) (.inl rfl) id (.inl rfl) self, .inr ⟨.cli i, _, rfl, ?_⟩⟩
      refine commit (due_same hI.own hi rfl rfl) ?_
      have hl' : (abs f).lt = .none := by simp [abs, absWith, hl, tDue_none]
      simp only [step, hg, cabs, Falcon.Log.resume, hj, hl']
      simp only [abs, absWith, List.map_set, cabs, inc_keep hi (pc' := .sTUnlock) rfl, hj2, hl, tDue_none]
    · rename_i hl
      cases h
      refine ⟨hI.move hi rfl (hI.own.same hi rfl) (by simp) (.inl rfl) (.inl rfl) id (.inl rfl) self, .inr ⟨.cli i, _, rfl, ?_⟩⟩
      have hl' : (abs f).lt ≠ .none := tDue_ne_none hl
      have hd : due f.mtx (f.cl.set i .sJoin) = { due f.mtx f.cl with join := some i } := by
        apply due_ext
        · simp [due, work_same hI.own hi, holds]
        · simp [due, work_same hI.own hi, holds]
        · intro l; simp [due, work_same hI.own hi, holds]
        · simp [due, work_same hI.own hi, holds, (hI.own.at hi .thread).2 rfl]
      simp only [step, hg, cabs, Falcon.Log.resume, hj]
      have goal : (some ({ abs f with mtxThread := some i, cl := (abs f).cl.set i .stopJoin }, Ev.tau) : Option (St × Ev)) =
          some (abs { f with cl := f.cl.set i .sJoin }, Ev.tau) := by
        simp only [abs, absWith, hd, List.map_set, cabs, inc_keep hi (pc' := .sJoin) rfl]
      rw [← goal]
  | sJoin =>
    simp only [resumeF] at h
    split at h
    · rename_i hl
      cases h
      refine ⟨hI.move hi rfl (by have := hI.own.same (pc' := .sTUnlock) hi rfl; rw [hl] at this; exact this) (by simp) (.inl rfl) (.inr (.inr (.inl rfl))) id (.inl rfl) self, .inr ⟨.cli i, _, rfl, ?_⟩⟩
      have hl' : (abs f).lt = .exited := by simp [abs, absWith, hl, tDue_exited]
      have hd : due f.mtx (f.cl.set i .sTUnlock) = { due f.mtx f.cl with join := none } := by
        apply due_ext
        · simp [due, work_same hI.own hi, holds]
        · simp [due, work_same hI.own hi, holds]
        · intro l; simp [due, work_same hI.own hi, holds]
        · simp [due, work_same hI.own hi, holds]
      simp only [step, hg, cabs, Falcon.Log.resume, hl']
      simp only [abs, absWith, hd, List.map_set, cabs, inc_keep hi (pc' := .sTUnlock) rfl, hl, tDue_none]
      rfl
    · cases h
  | sTUnlock => simp only [resumeF] at h; exact sim_rel h hI hi rfl rfl rfl rfl rfl (by simp)
  | lLock l => simp only [resumeF] at h; exact sim_acq h hI hi rfl rfl rfl rfl rfl (by simp)
  | lPush l =>
    simp only [resumeF] at h
    cases h
    refine ⟨hI.move hi rfl (hI.own.same hi rfl) (by simp) (.inl rfl) (.inl rfl) id (.inl rfl) self, .inr ⟨.call i (.addListener l), _, rfl, ?_⟩⟩
    refine commit (due_same hI.own hi rfl rfl) ?_
    simp only [step, hg, cabs, Falcon.Log.beginCall]
    have hp : ∀ q, pDue f.lt q = q := by
      intro q
      cases hl : f.lt with
      | nClear a ls =>
        have h1 := (hI.own.at hi .listeners).2 rfl
        have h2 := (hI.own.log .listeners).2 (by rw [hl]; rfl)
        rw [h1] at h2; cases h2
      | _ => rfl
    simp only [abs, absWith, cl_keep hi (pc' := .lUnlock) rfl, inc_keep hi (pc' := .lUnlock) rfl, hp]
  | lUnlock => simp only [resumeF] at h; exact sim_rel h hI hi rfl rfl rfl rfl rfl (by simp)
  | cLock l re => simp only [resumeF] at h; exact sim_acq h hI hi rfl rfl rfl rfl rfl (by simp)
  | cRegex l re =>
    have ht : (due f.mtx f.cl).text l = none := by simp [due, work_at hI.own hi rfl]
    simp only [resumeF] at h
    split at h
    · rename_i hv
      cases h
      refine ⟨hI.move hi rfl (hI.own.same hi rfl) (by simp) (.inl rfl) (.inl rfl) id (.inl rfl) self, .inr ⟨.call i (.category l re), _, rfl, ?_⟩⟩
      have hd : due f.mtx (f.cl.set i (.cText l re)) = { due f.mtx f.cl with text := fun k => if k = l then some re else (due f.mtx f.cl).text k } := by
        apply due_ext
        · simp [due, work_same hI.own hi, holds]
        · simp [due, work_same hI.own hi, holds]
        · intro k
          by_cases hk : k = l
          · subst hk; simp [due, work_same hI.own hi, holds]
          · simp [due, work_same hI.own hi, holds, hk, Ne.symm hk]
        · simp [due, work_same hI.own hi, holds]
      simp only [step, hg, cabs, Falcon.Log.beginCall, Falcon.Log.setCategory]
      rw [if_pos hv]
      have hlst : setLst (abs f).lst l { (abs f).lst l with regex := some re, category := re } =
          fun k => lDue (if k = l then some re else (due f.mtx f.cl).text k) (setLst f.lst l { f.lst l with regex := some re } k) := by
        funext k
        by_cases hk : k = l
        · subst hk; simp [setLst, abs, absWith, ht, lDue]
        · simp [setLst, abs, absWith, hk]
      simp only [hlst]
      simp only [abs, absWith, hd, cl_keep hi (pc' := .cText l re) rfl, inc_keep hi (pc' := .cText l re) rfl]
    · rename_i hv
      cases h
      refine ⟨hI.move hi rfl (hI.own.same hi rfl) (by simp) (.inl rfl) (.inl rfl) id (.inl rfl) self, .inr ⟨.call i (.category l re), _, rfl, ?_⟩⟩
      refine commit (due_same hI.own hi rfl rfl) ?_
      simp only [step, hg, cabs, Falcon.Log.beginCall, Falcon.Log.setCategory]
      rw [if_neg hv]
      simp only [abs, absWith, cl_keep hi (pc' := .cUnlock l) rfl, inc_keep hi (pc' := .cUnlock l) rfl]
  | cText l re =>
    simp only [resumeF] at h
    cases h
    refine ⟨hI.move hi rfl (hI.own.same hi rfl) (by simp) (.inl rfl) (.inl rfl) id (.inl rfl) self, .inl ⟨rfl, ?_⟩⟩
    have ht : (due f.mtx f.cl).text l = some re := by simp [due, work_at hI.own hi rfl]
    have hd : due f.mtx (f.cl.set i (.cUnlock l)) = { due f.mtx f.cl with text := fun k => if k = l then none else (due f.mtx f.cl).text k } := by
      apply due_ext
      · simp [due, work_same hI.own hi, holds]
      · simp [due, work_same hI.own hi, holds]
      · intro k
        by_cases hk : k = l
        · subst hk; simp [due, work_same hI.own hi, holds]
        · simp [due, work_same hI.own hi, holds, hk, Ne.symm hk]
      · simp [due, work_same hI.own hi, holds]
    have hlst : (fun k => lDue (if k = l then none else (due f.mtx f.cl).text k) (setLst f.lst l { f.lst l with category := re } k)) =
        fun k => lDue ((due f.mtx f.cl).text k) (f.lst k) := by
      funext k
      by_cases hk : k = l
      · subst hk; simp [setLst, ht, lDue]
      · simp [setLst, hk]
    simp only [abs, absWith, hd, cl_keep hi (pc' := .cUnlock l) rfl, inc_keep hi (pc' := .cUnlock l) rfl, hlst]
  | cUnlock l => simp only [resumeF] at h; exact sim_rel h hI hi rfl rfl rfl rfl rfl (by simp)
  | tLock => simp only [resumeF] at h; exact sim_acq h hI hi rfl rfl rfl rfl rfl (by simp)
  | tTest =>
    have hj : (abs f).mtxThread = none := by simp [abs, absWith, due, work_at hI.own hi rfl]
    have hj2 : (due f.mtx f.cl).join = none := hj
    simp only [resumeF] at h
    split at h
    · rename_i hl
      cases h
      refine ⟨hI.move hi rfl (by have := hI.own.same (pc' := .tUnlock) hi rfl; rw [hl] at this; exact this) (by simp) (.inl rfl) (.inr (.inr (.inr rfl))) id (.inl rfl) self, .inr ⟨.call i .start, _, rfl, ?_⟩⟩
      refine commit (due_same hI.own hi rfl rfl) ?_
      have hl' : (abs f).lt = .none := by simp [abs, absWith, hl, tDue_none]
      simp only [step, hg, cabs, Falcon.Log.beginCall, hj, hl']
      simp only [abs, absWith, cl_keep hi (pc' := .tUnlock) rfl, inc_keep hi (pc' := .tUnlock) rfl, hl, tDue_top, hj2]
      rfl
    · rename_i hl
      cases h
      refine ⟨hI.move hi rfl (hI.own.same hi rfl) (by simp) (.inl rfl) (.inl rfl) id (.inl rfl) self, .inr ⟨.call i .start, _, rfl, ?_⟩⟩
      have hl' : (abs f).lt ≠ .none := tDue_ne_none hl
      simp only [step, hg, cabs, Falcon.Log.beginCall, hj]
      rw [abs_keep (pc' := .tUnlock) hi (due_same hI.own hi rfl rfl) rfl rfl]
  | tUnlock => simp only [resumeF] at h; exact sim_rel h hI hi rfl rfl rfl rfl rfl (by simp)
  | qLock x => simp only [resumeF] at h; exact sim_acq h hI hi rfl rfl rfl rfl rfl (by simp)
  | qHold x => simp only [resumeF] at h; exact sim_rel h hI hi rfl (by cases x <;> rfl) rfl (by cases x <;> rfl) (by cases x <;> rfl) (by intro m; cases x <;> simp [afterQuery])

end Falcon.LogM
