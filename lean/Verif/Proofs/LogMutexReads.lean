import Verif.Model.LogMutex
import Verif.Spec.LogMutex
/- What a step reads, with explicit mutexes. -/
namespace Falcon.LogM
open Falcon.Log (Str Addr LId Msg Rx Lst Op Ev Stage Mtx LPc CPc setHeap setLst threshold checkCategory Loc rd wr ard awr)

set_option linter.unusedSimpArgs false in
/-- A step depends on nothing but the places of the threads and what it accesses. -/
theorem reads {rx : Rx} {f g f' : FSt} {a : FAct} {e : Option Ev} (hc : FCtl f g) (hf : ∀ acc ∈ ffoot f a, FSame f g acc.loc) (h : fstep rx f a = some (f', e)) :
    ∃ g', fstep rx g a = some (g', e) ∧ FCtl f' g' ∧ ∀ acc ∈ ffoot f a, FSame f' g' acc.loc := by
  obtain ⟨c1, c2, c3, c4⟩ := hc
  cases a with
  | spurious =>
    simp only [fstep, c2] at h ⊢
    split at h
    · cases h; exact ⟨_, rfl, ⟨c1, rfl, c3, c4⟩, by simp [ffoot]⟩
    · cases h
  | diags i =>
    simp only [fstep, c1] at h ⊢
    split at h
    · cases h; exact ⟨_, rfl, ⟨rfl, c2, c3, c4⟩, by simp [ffoot]⟩
    · cases h
  | categ i l =>
    simp only [fstep, c1] at h ⊢
    split at h
    · cases h; exact ⟨_, rfl, ⟨rfl, c2, c3, c4⟩, by simp [ffoot]⟩
    · cases h
  | call i op =>
    simp only [fstep, c1] at h ⊢
    split at h
    · cases op <;> simp only [beginF] at h ⊢ <;> cases h <;>
        (refine ⟨_, rfl, ⟨by simp [c1], c2, c3, c4⟩, ?_⟩; simp [ffoot, fcall, awr, FSame, setLst])
    · cases h
  | cli i =>
    simp only [fstep, c1] at h ⊢
    simp only [ffoot] at hf ⊢
    split at h
    · rename_i pc hi
      simp only [hi] at hf ⊢
      cases pc <;> simp only [resumeF, acquire, release, fcli, rd, wr, ard, awr, List.mem_cons, List.not_mem_nil, or_false, forall_eq_or_imp, forall_eq, FSame, c1, c2, c3, c4] at h hf ⊢
      all_goals
        repeat' split at h
        all_goals
          first
          | (cases h; done)
          | (cases h; simp_all [FCtl, setLst, setHeap, wake]; done)
          | (rename_i hh; cases h; simp only [hf]; rw [if_neg hh]; exact ⟨_, rfl, ⟨rfl, rfl, rfl, rfl⟩, rfl⟩)
          | (cases h; simp_all [FCtl, setLst, setHeap, wake, FSame]; omega)
          | (cases h; simp_all [FCtl, setLst, setHeap, wake, FSame]; done)
    · cases h
  | log =>
    have h : logStepF rx f = some (f', e) := h
    show ∃ g', logStepF rx g = some (g', e) ∧ _
    simp only [ffoot] at hf ⊢
    unfold logStepF at h ⊢
    simp only [acquireL, releaseL, c2, c3] at h ⊢
    split at h
    all_goals
      rename_i hl
      simp only [hl, flog, rd, wr, ard, awr, List.mem_cons, List.not_mem_nil, or_false, forall_eq_or_imp, forall_eq, FSame] at hf ⊢
      repeat' split at h
      all_goals
        first
        | (cases h; done)
        | (cases h; simp_all [FCtl, setLst, setHeap]; done)
        | (cases h; cases ‹Stage› <;> simp_all [FCtl, flog, rd, ard, FSame]; done)
        | (cases h; simp_all [FCtl, setLst, setHeap, FSame, checkCategory]; done)
        | (rename_i hh; cases h; simp only [hf, c1, c4]; rw [if_neg hh]; exact ⟨_, rfl, ⟨rfl, rfl, rfl, rfl⟩, rfl⟩)

end Falcon.LogM
