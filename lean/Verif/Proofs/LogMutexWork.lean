import Verif.Proofs.LogMutexRest
import Verif.Spec.LogMutexWork
/-
The work the log system does altogether.
-/
namespace Falcon.LogM
open Falcon.Log (Str Addr LId Msg Rx Lst Op Ev Stage Mtx LPc CPc Exec init exec_mem exec_wake)

variable {rx : Rx} {f f' : FSt}

/-- As `rest`, for at most `L` listeners. -/
def restL (L : Nat) (f : FSt) : Nat := sumOf crank f.cl + que f * (20 + 8 * L) + lrank L f.lt

/-- Something was done, and no message and no listener came in. -/
def Less (f' f : FSt) : Prop := que f' ≤ que f ∧ lis f' ≤ lis f ∧ ∀ L, lis f ≤ L → restL L f' < restL L f

/-- A client's step. -/
theorem less_cli {i : Nat} {pc : FPc} {e : Option Ev} (hi : f.cl[i]? = some pc) (h : resumeF rx f i pc = some (f', e)) (hu : ∀ u, e ≠ some (.fault u)) :
    Less f' f := by
  have key : ∀ (p : FPc), f'.cl = f.cl.set i p → f'.queue.length + enq p ≤ f.queue.length + enq pc →
      act f'.lt f'.active + pend f'.lt f'.pending + addr p ≤ act f.lt f.active + pend f.lt f.pending + addr pc →
      (∀ L, crank p + lrank L f'.lt < crank pc + lrank L f.lt) → Less f' f := by
    intro p h1 h2 h3 h4
    have s1 := sumOf_set (w := crank) hi p
    have s2 := sumOf_set (w := enq) hi p
    have s3 := sumOf_set (w := addr) hi p
    have hL : lis f' ≤ lis f := by simp only [lis, h1]; omega
    have hQ : que f' ≤ que f := by simp only [que, h1]; omega
    refine ⟨hQ, hL, fun L hLL => ?_⟩
    have h5 := h4 L
    have h6 : que f' * (20 + 8 * L) ≤ que f * (20 + 8 * L) := Nat.mul_le_mul hQ (Nat.le_refl _)
    unfold restL
    rw [h1]; omega
  have plain : ∀ (p : FPc), f'.cl = f.cl.set i p → f'.queue.length + enq p ≤ f.queue.length + enq pc → f'.lt = f.lt → f'.active = f.active →
      pend f.lt f'.pending + addr p ≤ pend f.lt f.pending + addr pc → crank p < crank pc → Less f' f := by
    intro p h1 h2 h3 h4 h5 h6
    refine key p h1 h2 (by rw [h3, h4]; omega) (fun L => by rw [h3]; omega)
  cases pc with
  | idle => cases h
  | eNotify =>
    cases h
    refine key .eUnlock rfl (by simp [enq]) (by simp only [wake_act, wake_pend, addr]; omega) (fun L => ?_)
    have := wake_lrank f.lt L
    simp only [crank]; omega
  | sNotify =>
    cases h
    refine key .sTLock rfl (by simp [enq]) (by simp only [wake_act, wake_pend, addr]; omega) (fun L => ?_)
    have := wake_lrank f.lt L
    simp only [crank]; omega
  | sJoin =>
    simp only [resumeF] at h
    split at h
    · rename_i hl
      cases h
      refine key .sTUnlock rfl (by simp [enq]) (by simp [hl, act, pend, addr]) (fun L => by simp [hl, lrank, crank])
    · cases h
  | tTest =>
    simp only [resumeF] at h
    split at h
    · rename_i hl
      cases h
      refine key .tUnlock rfl (by simp [enq]) (by simp [hl, act, pend, addr]) (fun L => by simp [hl, lrank, crank])
    · cases h
      exact plain .tUnlock rfl (by simp [enq]) rfl rfl (by simp [addr]) (by simp [crank])
  | lPush l =>
    cases h
    refine plain .lUnlock rfl (by simp [enq]) rfl rfl ?_ (by simp [crank])
    cases f.lt <;> simp [pend, addr]
  | qLock x =>
    simp only [resumeF, acquire] at h
    split at h <;> cases h
    refine plain (.qHold x) rfl (by simp [enq]) rfl rfl (by simp [addr]) ?_
    cases x <;> simp [crank]
  | qHold x =>
    simp only [resumeF, release] at h
    cases h
    refine plain (afterQuery x) rfl ?_ rfl rfl ?_ ?_ <;> cases x <;> simp [afterQuery, crank, enq, addr]
  | _ =>
    simp only [resumeF, acquire, release] at h
    repeat' split at h
    all_goals
      first
      | (cases h; done)
      | (cases h; exact absurd rfl (hu _))
      | (cases h; exact plain _ rfl (by simp [enq]) rfl rfl (by simp [addr]) (by simp [crank]))
/-- A step of the logging thread. -/
theorem less_log {e : Option Ev} (h : logStepF rx f = some (f', e)) (hu : ∀ u, e ≠ some (.fault u)) : Less f' f := by
  have hcl := log_frame h
  have key : f'.queue.length ≤ f.queue.length → act f'.lt f'.active + pend f'.lt f'.pending ≤ act f.lt f.active + pend f.lt f.pending →
      (∀ L, act f.lt f.active + pend f.lt f.pending ≤ L → lrank L f'.lt < lrank L f.lt) → Less f' f := by
    intro h2 h3 h4
    have hL : lis f' ≤ lis f := by simp only [lis, hcl]; omega
    have hQ : que f' ≤ que f := by simp only [que, hcl]; omega
    refine ⟨hQ, hL, fun L hLL => ?_⟩
    have h5 := h4 L (by simp only [lis] at hLL; omega)
    have h6 : que f' * (20 + 8 * L) ≤ que f * (20 + 8 * L) := Nat.mul_le_mul hQ (Nat.le_refl _)
    unfold restL
    rw [hcl]; omega
  cases hl : f.lt with
  | pop w =>
    simp only [logStepF, hl] at h
    split at h
    · cases h; exact absurd rfl (hu _)
    · rename_i a q hq
      cases h
      have e1 : que f = que { f with queue := q, lt := .taken a } + 1 := by simp only [que, hq, List.length_cons]; omega
      have e2 : lis { f with queue := q, lt := .taken a } = lis f := by simp only [lis, hl, act, pend]
      refine ⟨by omega, by omega, fun L _ => ?_⟩
      unfold restL
      rw [e1, Nat.add_mul, hl]
      simp only [lrank]
      omega
  | sleep w =>
    cases w with
    | false => simp only [logStepF, hl] at h; cases h
    | true =>
      simp only [logStepF, hl, acquireL] at h
      split at h <;> cases h
      exact key (by simp) (by simp [hl, act, pend]) (fun L _ => by simp [hl, lrank])
  | test w =>
    simp only [logStepF, hl] at h
    split at h <;> cases h <;> exact key (by simp) (by simp [hl, act, pend]) (fun L _ => by simp [hl, lrank])
  | nCopy a =>
    simp only [logStepF, hl] at h
    split at h
    · cases h; exact absurd rfl (hu _)
    · cases h
      refine key (by simp) (by simp [hl, act, pend]) (fun L hL => ?_)
      simp only [hl, act, pend] at hL
      simp only [hl, lrank, List.length_append]; omega
  | nClear a ls =>
    simp only [logStepF, hl] at h
    cases h
    exact key (by simp) (by simp [hl, act, pend]) (fun L _ => by simp [hl, lrank])
  | send a rem =>
    cases rem with
    | nil =>
      simp only [logStepF, hl] at h
      split at h
      · cases h; exact absurd rfl (hu _)
      · cases h
        refine key (by simp) (by simp [hl, act, pend]) (fun L hL => ?_)
        simp only [hl, act, pend] at hL
        simp only [hl, lrank, List.length_nil]; omega
    | cons l rem =>
      simp only [logStepF, hl] at h
      cases h
      refine key (by simp) (by simp [hl, act, pend]) (fun L _ => ?_)
      simp only [hl, lrank, List.length_cons]; omega
  | probe a l st rem =>
    simp only [logStepF, hl] at h
    split at h
    · cases h; exact absurd rfl (hu _)
    · cases st with
      | enabled =>
        cases h
        by_cases hq : (f.lst l).enabled = true
        · simp only [hq, if_true] at key ⊢
          exact key (by simp) (by simp [hl, act, pend]) (fun L _ => by simp only [hl, lrank]; omega)
        · simp only [hq, Bool.false_eq_true, if_false] at key ⊢
          exact key (by simp) (by simp [hl, act, pend]) (fun L _ => by simp only [hl, lrank]; omega)
      | level =>
        cases h
        rename_i m _
        by_cases hq : (f.lst l).level ≥ m.level
        · simp only [hq, if_true] at key ⊢
          exact key (by simp) (by simp [hl, act, pend]) (fun L _ => by simp only [hl, lrank]; omega)
        · simp only [hq, if_false] at key ⊢
          exact key (by simp) (by simp [hl, act, pend]) (fun L _ => by simp only [hl, lrank]; omega)
      | category =>
        simp only [acquireL] at h
        repeat' split at h
        all_goals
          first
          | (cases h; done)
          | (cases h; exact key (by simp) (by simp [hl, act, pend]) (fun L _ => by simp only [hl, lrank]; omega))
      | call =>
        cases h
        exact key (by simp) (by simp [hl, act, pend]) (fun L _ => by simp only [hl, lrank]; omega)
  | cUnl a l v rem =>
    simp only [logStepF, hl, releaseL] at h
    cases h
    cases v
    · exact key (by simp) (by simp [hl, act, pend]) (fun L _ => by simp [hl, lrank])
    · exact key (by simp) (by simp [hl, act, pend]) (fun L _ => by simp [hl, lrank])
  | clean a kept rst =>
    cases rst with
    | nil =>
      simp only [logStepF, hl] at h
      cases h
      exact key (by simp) (by simp [hl, act, pend]) (fun L _ => by simp [hl, lrank])
    | cons l rst =>
      simp only [logStepF, hl] at h
      cases h
      refine key (by simp) ?_ (fun L _ => by simp [hl, lrank])
      simp only [hl, act, pend, List.length_cons]
      split <;> simp <;> omega
  | _ =>
    simp only [logStepF, hl, acquireL, releaseL] at h
    repeat' split at h
    all_goals
      first
      | (cases h; done)
      | (cases h; exact absurd rfl (hu _))
      | (cases h; exact key (by simp) (by simp [hl, act, pend]) (fun L _ => by simp [hl, lrank]))


/-- A call begins. -/
theorem began {a : FAct} {e : Option Ev} (ha : isCall a = true) (h : fstep rx f a = some (f', e)) :
    lis f' ≤ lis f + adds [a] ∧ ∀ L, 1 + restL L f' ≤ restL L f + budget L a := by
  have key : ∀ (i : Nat) (p : FPc), f.cl[i]? = some .idle → f'.cl = f.cl.set i p → f'.queue = f.queue → f'.lt = f.lt → f'.active = f.active → f'.pending = f.pending →
      lis f' = lis f + addr p ∧ ∀ L, restL L f' = restL L f + crank p + enq p * (20 + 8 * L) := by
    intro i p hi h1 h2 h3 h4 h5
    have s1 := sumOf_set (w := crank) hi p
    have s2 := sumOf_set (w := enq) hi p
    have s3 := sumOf_set (w := addr) hi p
    have z1 : crank .idle = 0 := rfl
    have z2 : enq .idle = 0 := rfl
    have z3 : addr .idle = 0 := rfl
    rw [z1, Nat.add_zero] at s1
    rw [z2, Nat.add_zero] at s2
    rw [z3, Nat.add_zero] at s3
    refine ⟨by simp only [lis, h1, h3, h4, h5, s3]; omega, fun L => ?_⟩
    have : que f' = que f + enq p := by simp only [que, h1, h2, s2]; omega
    unfold restL
    rw [this, h1, h3, Nat.add_mul, s1]; omega
  have same : f'.cl = f.cl → f'.queue = f.queue → f'.lt = f.lt → f'.active = f.active → f'.pending = f.pending →
      lis f' = lis f ∧ ∀ L, restL L f' = restL L f := by
    intro h1 h2 h3 h4 h5
    exact ⟨by simp only [lis, h1, h3, h4, h5], fun L => by simp only [restL, que, h1, h2, h3]⟩
  cases a with
  | call i op =>
    simp only [fstep] at h
    split at h
    · rename_i hi
      cases op
      all_goals simp only [beginF] at h
      case log m =>
        cases h
        obtain ⟨k1, k2⟩ := key i (.check m) hi rfl rfl rfl rfl rfl
        exact ⟨by rw [k1]; simp [addr, adds], fun L => by rw [k2]; simp only [crank, enq, budget]; omega⟩
      case logPtr m =>
        cases h
        obtain ⟨k1, k2⟩ := key i (.extNew m) hi rfl rfl rfl rfl rfl
        exact ⟨by rw [k1]; simp [addr, adds], fun L => by rw [k2]; simp only [crank, enq, budget]; omega⟩
      case stop =>
        cases h
        obtain ⟨k1, k2⟩ := key i .sLock hi rfl rfl rfl rfl rfl
        exact ⟨by rw [k1]; simp [addr, adds], fun L => by rw [k2]; simp only [crank, enq, budget]; omega⟩
      case addListener l =>
        cases h
        obtain ⟨k1, k2⟩ := key i (.lLock l) hi rfl rfl rfl rfl rfl
        exact ⟨by rw [k1]; simp [addr, adds], fun L => by rw [k2]; simp only [crank, enq, budget]; omega⟩
      case category l re =>
        cases h
        obtain ⟨k1, k2⟩ := key i (.cLock l re) hi rfl rfl rfl rfl rfl
        exact ⟨by rw [k1]; simp [addr, adds], fun L => by rw [k2]; simp only [crank, enq, budget]; omega⟩
      case start =>
        cases h
        obtain ⟨k1, k2⟩ := key i .tLock hi rfl rfl rfl rfl rfl
        exact ⟨by rw [k1]; simp [addr, adds], fun L => by rw [k2]; simp only [crank, enq, budget]; omega⟩
      all_goals
        cases h
        obtain ⟨k1, k2⟩ := same rfl rfl rfl rfl rfl
        exact ⟨by rw [k1]; simp [adds], fun L => by rw [k2]; simp only [budget]; omega⟩
    · cases h
  | diags i =>
    simp only [fstep] at h
    split at h <;> cases h
    rename_i hi
    obtain ⟨k1, k2⟩ := key i (.qLock .message) hi rfl rfl rfl rfl rfl
    exact ⟨by rw [k1]; simp [addr, adds], fun L => by rw [k2]; simp only [crank, enq, budget]; omega⟩
  | categ i l =>
    simp only [fstep] at h
    split at h <;> cases h
    rename_i hi
    obtain ⟨k1, k2⟩ := key i (.qLock (.category l)) hi rfl rfl rfl rfl rfl
    exact ⟨by rw [k1]; simp [addr, adds], fun L => by rw [k2]; simp only [crank, enq, budget]; omega⟩
  | _ => cases ha

theorem adds_cons (a : FAct) (as : List FAct) : adds (a :: as) = adds [a] + adds as := by
  simp only [adds, List.countP_cons, List.countP_nil]; omega

/-- The account of a run. -/
theorem run_work {as : List FAct} {n : Nat} {t b : Bool} {g : FSt} {es0 es : List Ev} {L : Nat} (hI : Inv f) (h0 : Exec rx (init n t b) (abs f) es0)
    (hL : lis f + adds as ≤ L) (h : frun rx f as = some (g, es)) :
    as.length + restL L g ≤ restL L f + (as.map (budget L)).sum ∧ lis g ≤ L := by
  induction as generalizing f es es0 with
  | nil => simp only [frun] at h; cases h; simp [adds] at hL ⊢; exact hL
  | cons a as ih =>
    simp only [frun] at h
    split at h
    · cases h
    · rename_i f1 e hs
      split at h
      · cases h
      · rename_i g2 es2 hr
        obtain ⟨rfl, rfl⟩ := Prod.mk.inj (Option.some.inj h)
        obtain ⟨hI1, hsim⟩ := sim_step hI (exec_mem h0) hs
        have nofault : ∀ u, e ≠ some (.fault u) := by
          rintro u rfl
          rcases hsim with ⟨h, -⟩ | ⟨a', v, hv, hst⟩
          · cases h
          · rcases hv with hv | ⟨hv, -⟩
            · cases hv
              exact (exec_mem (h0.snoc hst)).nofault u (by simp)
            · cases hv
        have ⟨es1, h1⟩ : ∃ es1, Exec rx (init n t b) (abs f1) es1 := by
          rcases hsim with ⟨-, h⟩ | ⟨a', v, -, hst⟩
          · exact ⟨es0, h ▸ h0⟩
          · exact ⟨_, h0.snoc hst⟩
        rw [adds_cons] at hL
        have step : lis f1 ≤ lis f + adds [a] ∧ 1 + restL L f1 ≤ restL L f + budget L a := by
          by_cases hc : isCall a = true
          · exact ⟨(began hc hs).1, (began hc hs).2 L⟩
          · cases a with
            | log =>
              obtain ⟨-, k1, k2⟩ := less_log hs nofault
              have := k2 L (by omega)
              exact ⟨by omega, by omega⟩
            | cli i =>
              simp only [fstep] at hs
              split at hs
              · rename_i pc hi
                obtain ⟨-, k1, k2⟩ := less_cli hi hs nofault
                have := k2 L (by omega)
                exact ⟨by omega, by omega⟩
              · cases hs
            | spurious =>
              simp only [fstep] at hs
              split at hs
              · rename_i hl
                cases hs
                simp only [restL, que, lis, hl, act, pend, lrank, budget]
                exact ⟨by omega, by omega⟩
              · cases hs
            | _ => exact absurd rfl hc
        have := ih hI1 h1 (by omega) hr
        rw [List.length_cons, List.map_cons, List.sum_cons]
        exact ⟨by omega, this.2⟩

end Falcon.LogM
