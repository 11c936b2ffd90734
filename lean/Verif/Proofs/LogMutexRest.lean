import Verif.Proofs.LogMutexHold
import Verif.Spec.LogMutexRest
/-
The log system with explicit mutexes comes to rest.
-/
namespace Falcon.LogM
open Falcon.Log (Str Addr LId Msg Rx Lst Op Ev Stage Mtx LPc CPc Exec init exec_mem exec_wake)

variable {rx : Rx} {f f' : FSt}

/-- What a client's call costs from here. -/
def crank : FPc → Nat
  | .idle => 0
  | .check _ => 15 | .aLock _ => 14 | .aTest _ => 13 | .aPop _ => 12 | .aUnlock _ _ => 11 | .aUnlockE _ _ => 12 | .aInc _ _ => 11
  | .construct _ _ => 10 | .extNew _ => 10 | .eLock _ _ => 9 | .ePush _ _ => 8 | .eMax => 7 | .eNotify => 6 | .eUnlock => 1
  | .sLock => 12 | .sSet => 11 | .sUnlock => 10 | .sNotify => 9 | .sTLock => 4 | .sTTest => 3 | .sJoin => 2 | .sTUnlock => 1
  | .lLock _ => 3 | .lPush _ => 2 | .lUnlock => 1
  | .cLock _ _ => 4 | .cRegex _ _ => 3 | .cText _ _ => 2 | .cUnlock _ => 1
  | .tLock => 7 | .tTest => 6 | .tUnlock => 1
  | .qLock .message => 6 | .qHold .message => 5 | .qLock .pool => 4 | .qHold .pool => 3 | .qLock _ => 2 | .qHold _ => 1

/-- The client will put a message in the queue. -/
def enq : FPc → Nat
  | .check _ | .aLock _ | .aTest _ | .aPop _ | .aUnlock _ _ | .aUnlockE _ _ | .aInc _ _ | .construct _ _ | .extNew _ | .eLock _ _ | .ePush _ _ => 1
  | _ => 0

/-- The client will add a listener. -/
def addr : FPc → Nat
  | .lLock _ | .lPush _ => 1
  | _ => 0

def act (p : FLt) (active : List LId) : Nat :=
  match p with
  | .clean _ kept rest => kept.length + rest.length
  | _ => active.length

def pend (p : FLt) (pending : List LId) : Nat :=
  match p with
  | .nClear _ _ => 0
  | _ => pending.length

/-- What the logging thread still has to do with its message. -/
def lrank (L : Nat) : FLt → Nat
  | .none | .exited | .sleep false => 0
  | .exit => 1 | .pop _ => 1 | .test _ => 2 | .top => 3 | .sleep true => 3
  | .dUnl => 4 | .dDel _ => 4 | .dPush _ => 5 | .dInc _ => 5 | .dUnlF _ => 6 | .dTest _ => 7 | .disp _ => 8
  | .clean _ _ rest => 9 + rest.length
  | .send _ rem => 10 + L + 7 * rem.length
  | .probe _ _ .call rem => 11 + L + 7 * rem.length
  | .cUnl _ _ _ rem => 12 + L + 7 * rem.length
  | .cHold _ _ rem => 13 + L + 7 * rem.length
  | .probe _ _ .category rem => 14 + L + 7 * rem.length
  | .probe _ _ .level rem => 15 + L + 7 * rem.length
  | .probe _ _ .enabled rem => 16 + L + 7 * rem.length
  | .recv _ ls => 11 + L + 7 * ls.length
  | .nUnlock _ ls => 12 + L + 7 * ls.length
  | .nClear _ ls => 13 + L + 7 * ls.length
  | .nCopy _ => 14 + 8 * L
  | .got _ => 15 + 8 * L
  | .taken _ => 16 + 8 * L

def sumOf (w : FPc → Nat) (cl : List FPc) : Nat := (cl.map w).sum

theorem sumOf_set {w : FPc → Nat} {cl : List FPc} {i : Nat} {pc : FPc} (hi : cl[i]? = some pc) (p : FPc) :
    sumOf w (cl.set i p) + w pc = sumOf w cl + w p := by
  induction cl generalizing i with
  | nil => simp at hi
  | cons c cl ih =>
    cases i with
    | zero => simp at hi; subst hi; simp [sumOf]; omega
    | succ i =>
      have := ih (i := i) (by simpa using hi)
      simp only [sumOf, List.set_cons_succ, List.map_cons, List.sum_cons] at this ⊢
      omega

/-- Listeners there may be. -/
def lis (f : FSt) : Nat := act f.lt f.active + pend f.lt f.pending + sumOf addr f.cl
/-- Messages still to be taken from the queue. -/
def que (f : FSt) : Nat := f.queue.length + sumOf enq f.cl
def rest (f : FSt) : Nat := sumOf crank f.cl + que f * (20 + 8 * lis f) + lrank (lis f) f.lt

theorem lrank_mono (p : FLt) {L L' : Nat} (h : L' ≤ L) : lrank L' p ≤ lrank L p := by
  cases p <;> simp only [lrank] <;> (try omega)
  case sleep w => cases w <;> simp
  case probe a l st rem => cases st <;> simp only <;> omega

/-- How the pieces combine. -/
theorem rest_lt {C C' Q Q' L L' r r' : Nat} (hQ : Q' ≤ Q) (hL : L' ≤ L) (h : C' + r' < C + r) :
    C' + Q' * (20 + 8 * L') + r' < C + Q * (20 + 8 * L) + r := by
  have : Q' * (20 + 8 * L') ≤ Q * (20 + 8 * L) := Nat.mul_le_mul hQ (by omega)
  omega

theorem wake_act (p : FLt) (l : List LId) : act (wake p) l = act p l := by cases p <;> rfl
theorem wake_pend (p : FLt) (l : List LId) : pend (wake p) l = pend p l := by cases p <;> rfl
theorem wake_lrank (p : FLt) (L : Nat) : lrank L (wake p) ≤ lrank L p + 3 := by
  cases p <;> simp only [wake] <;> (try omega)
  simp [lrank]

/-- A client's step. -/
theorem rest_cli {i : Nat} {pc : FPc} {e : Option Ev} (hi : f.cl[i]? = some pc) (h : resumeF rx f i pc = some (f', e)) (hu : ∀ u, e ≠ some (.fault u)) :
    rest f' < rest f := by
  have key : ∀ (p : FPc), f'.cl = f.cl.set i p → f'.queue.length + enq p ≤ f.queue.length + enq pc →
      act f'.lt f'.active + pend f'.lt f'.pending + addr p ≤ act f.lt f.active + pend f.lt f.pending + addr pc →
      (∀ L, crank p + lrank L f'.lt < crank pc + lrank L f.lt) → rest f' < rest f := by
    intro p h1 h2 h3 h4
    have s1 := sumOf_set (w := crank) hi p
    have s2 := sumOf_set (w := enq) hi p
    have s3 := sumOf_set (w := addr) hi p
    have hL : lis f' ≤ lis f := by simp only [lis, h1]; omega
    have hQ : que f' ≤ que f := by simp only [que, h1]; omega
    refine rest_lt hQ hL ?_
    have := h4 (lis f)
    have := lrank_mono f'.lt hL
    rw [h1]; omega
  have plain : ∀ (p : FPc), f'.cl = f.cl.set i p → f'.queue.length + enq p ≤ f.queue.length + enq pc → f'.lt = f.lt → f'.active = f.active →
      pend f.lt f'.pending + addr p ≤ pend f.lt f.pending + addr pc → crank p < crank pc → rest f' < rest f := by
    intro p h1 h2 h3 h4 h5 h6
    refine key p h1 h2 (by rw [h3, h4]; omega) (fun L => by rw [h3]; omega)
  cases pc with
  | idle => cases h
  | eNotify =>
    cases h
    refine key .eUnlock rfl (by simp [enq]) (by simp only [wake_act, wake_pend, addr]; omega) (fun L => ?_)
    have := wake_lrank f.lt L
    simp only [crank]; omega
  | sNotify =>
    cases h
    refine key .sTLock rfl (by simp [enq]) (by simp only [wake_act, wake_pend, addr]; omega) (fun L => ?_)
    have := wake_lrank f.lt L
    simp only [crank]; omega
  | sJoin =>
    simp only [resumeF] at h
    split at h
    · rename_i hl
      cases h
      refine key .sTUnlock rfl (by simp [enq]) (by simp [hl, act, pend, addr]) (fun L => by simp [hl, lrank, crank])
    · cases h
  | tTest =>
    simp only [resumeF] at h
    split at h
    · rename_i hl
      cases h
      refine key .tUnlock rfl (by simp [enq]) (by simp [hl, act, pend, addr]) (fun L => by simp [hl, lrank, crank])
    · cases h
      exact plain .tUnlock rfl (by simp [enq]) rfl rfl (by simp [addr]) (by simp [crank])
  | lPush l =>
    cases h
    refine plain .lUnlock rfl (by simp [enq]) rfl rfl ?_ (by simp [crank])
    cases f.lt <;> simp [pend, addr]
  | qLock x =>
    simp only [resumeF, acquire] at h
    split at h <;> cases h
    refine plain (.qHold x) rfl (by simp [enq]) rfl rfl (by simp [addr]) ?_
    cases x <;> simp [crank]
  | qHold x =>
    simp only [resumeF, release] at h
    cases h
    refine plain (afterQuery x) rfl ?_ rfl rfl ?_ ?_ <;> cases x <;> simp [afterQuery, crank, enq, addr]
  | _ =>
    simp only [resumeF, acquire, release] at h
    repeat' split at h
    all_goals
      first
      | (cases h; done)
      | (cases h; exact absurd rfl (hu _))
      | (cases h; exact plain _ rfl (by simp [enq]) rfl rfl (by simp [addr]) (by simp [crank]))
/-- A step of the logging thread. -/
theorem rest_log {e : Option Ev} (h : logStepF rx f = some (f', e)) (hu : ∀ u, e ≠ some (.fault u)) : rest f' < rest f := by
  have hcl := log_frame h
  have key : f'.queue.length ≤ f.queue.length → act f'.lt f'.active + pend f'.lt f'.pending ≤ act f.lt f.active + pend f.lt f.pending →
      (∀ L, act f.lt f.active + pend f.lt f.pending ≤ L → lrank L f'.lt < lrank L f.lt) → rest f' < rest f := by
    intro h2 h3 h4
    have hL : lis f' ≤ lis f := by simp only [lis, hcl]; omega
    have hQ : que f' ≤ que f := by simp only [que, hcl]; omega
    refine rest_lt hQ hL ?_
    have := h4 (lis f) (by simp only [lis]; omega)
    have := lrank_mono f'.lt hL
    rw [hcl]; omega
  cases hl : f.lt with
  | pop w =>
    simp only [logStepF, hl] at h
    split at h
    · cases h; exact absurd rfl (hu _)
    · rename_i a q hq
      cases h
      have e1 : que f = que { f with queue := q, lt := .taken a } + 1 := by simp only [que, hq, List.length_cons]; omega
      have e2 : lis { f with queue := q, lt := .taken a } = lis f := by simp only [lis, hl, act, pend]
      unfold rest
      rw [e1, e2, Nat.add_mul, hl]
      simp only [lrank]
      omega
  | sleep w =>
    cases w with
    | false => simp only [logStepF, hl] at h; cases h
    | true =>
      simp only [logStepF, hl, acquireL] at h
      split at h <;> cases h
      exact key (by simp) (by simp [hl, act, pend]) (fun L _ => by simp [hl, lrank])
  | test w =>
    simp only [logStepF, hl] at h
    split at h <;> cases h <;> exact key (by simp) (by simp [hl, act, pend]) (fun L _ => by simp [hl, lrank])
  | nCopy a =>
    simp only [logStepF, hl] at h
    split at h
    · cases h; exact absurd rfl (hu _)
    · cases h
      refine key (by simp) (by simp [hl, act, pend]) (fun L hL => ?_)
      simp only [hl, act, pend] at hL
      simp only [hl, lrank, List.length_append]; omega
  | nClear a ls =>
    simp only [logStepF, hl] at h
    cases h
    exact key (by simp) (by simp [hl, act, pend]) (fun L _ => by simp [hl, lrank])
  | send a rem =>
    cases rem with
    | nil =>
      simp only [logStepF, hl] at h
      split at h
      · cases h; exact absurd rfl (hu _)
      · cases h
        refine key (by simp) (by simp [hl, act, pend]) (fun L hL => ?_)
        simp only [hl, act, pend] at hL
        simp only [hl, lrank, List.length_nil]; omega
    | cons l rem =>
      simp only [logStepF, hl] at h
      cases h
      refine key (by simp) (by simp [hl, act, pend]) (fun L _ => ?_)
      simp only [hl, lrank, List.length_cons]; omega
  | probe a l st rem =>
    simp only [logStepF, hl] at h
    split at h
    · cases h; exact absurd rfl (hu _)
    · cases st with
      | enabled =>
        cases h
        by_cases hq : (f.lst l).enabled = true
        · simp only [hq, if_true] at key ⊢
          exact key (by simp) (by simp [hl, act, pend]) (fun L _ => by simp only [hl, lrank]; omega)
        · simp only [hq, Bool.false_eq_true, if_false] at key ⊢
          exact key (by simp) (by simp [hl, act, pend]) (fun L _ => by simp only [hl, lrank]; omega)
      | level =>
        cases h
        rename_i m _
        by_cases hq : (f.lst l).level ≥ m.level
        · simp only [hq, if_true] at key ⊢
          exact key (by simp) (by simp [hl, act, pend]) (fun L _ => by simp only [hl, lrank]; omega)
        · simp only [hq, if_false] at key ⊢
          exact key (by simp) (by simp [hl, act, pend]) (fun L _ => by simp only [hl, lrank]; omega)
      | category =>
        simp only [acquireL] at h
        repeat' split at h
        all_goals
          first
          | (cases h; done)
          | (cases h; exact key (by simp) (by simp [hl, act, pend]) (fun L _ => by simp only [hl, lrank]; omega))
      | call =>
        cases h
        exact key (by simp) (by simp [hl, act, pend]) (fun L _ => by simp only [hl, lrank]; omega)
  | cUnl a l v rem =>
    simp only [logStepF, hl, releaseL] at h
    cases h
    cases v
    · exact key (by simp) (by simp [hl, act, pend]) (fun L _ => by simp [hl, lrank])
    · exact key (by simp) (by simp [hl, act, pend]) (fun L _ => by simp [hl, lrank])
  | clean a kept rst =>
    cases rst with
    | nil =>
      simp only [logStepF, hl] at h
      cases h
      exact key (by simp) (by simp [hl, act, pend]) (fun L _ => by simp [hl, lrank])
    | cons l rst =>
      simp only [logStepF, hl] at h
      cases h
      refine key (by simp) ?_ (fun L _ => by simp [hl, lrank])
      simp only [hl, act, pend, List.length_cons]
      split <;> simp <;> omega
  | _ =>
    simp only [logStepF, hl, acquireL, releaseL] at h
    repeat' split at h
    all_goals
      first
      | (cases h; done)
      | (cases h; exact absurd rfl (hu _))
      | (cases h; exact key (by simp) (by simp [hl, act, pend]) (fun L _ => by simp [hl, lrank]))

/-- What the logging thread has copied is no longer than the list. -/
def Fits (f : FSt) : Prop :=
  match f.lt with
  | .nClear _ ls | .nUnlock _ ls | .recv _ ls | .send _ ls | .probe _ _ _ ls | .cHold _ _ ls | .cUnl _ _ _ ls => ls.length ≤ f.active.length
  | .clean _ kept rst => kept.length + rst.length ≤ f.active.length
  | _ => True

theorem fits_init (n : Nat) (t b : Bool) : Fits (finit n t b) := by cases b <;> trivial

theorem fits_lt (h : f'.lt = f.lt) (h' : f'.active = f.active) (hf : Fits f) : Fits f' := by unfold Fits; rw [h, h']; exact hf

theorem fits_wake (h : f'.lt = wake f.lt) (h' : f'.active = f.active) (hf : Fits f) : Fits f' := by
  unfold Fits at hf ⊢; rw [h, h']; cases hl : f.lt <;> rw [hl] at hf <;> first | trivial | exact hf

theorem fits_step {a : FAct} {e : Option Ev} (hf : Fits f) (h : fstep rx f a = some (f', e)) : Fits f' := by
  cases a with
  | call i op =>
    simp only [fstep] at h
    split at h
    · cases op <;> simp only [beginF] at h <;> cases h <;> exact fits_lt (f := f) rfl rfl hf
    · cases h
  | diags i =>
    simp only [fstep] at h
    split at h <;> cases h
    exact fits_lt (f := f) rfl rfl hf
  | categ i l =>
    simp only [fstep] at h
    split at h <;> cases h
    exact fits_lt (f := f) rfl rfl hf
  | spurious =>
    simp only [fstep] at h
    split at h <;> cases h
    trivial
  | cli i =>
    simp only [fstep] at h
    split at h
    · rename_i pc hi
      cases pc <;> simp only [resumeF, acquire, release] at h
      all_goals
        repeat' split at h
        all_goals
          first
          | (cases h; done)
          | (cases h; first | exact fits_lt (f := f) rfl rfl hf | exact fits_wake (f := f) rfl rfl hf | trivial)
    · cases h
  | log =>
    simp only [fstep] at h
    unfold Fits at hf
    cases hl : f.lt <;> rw [hl] at hf
    case probe a l st rem =>
      have hf : rem.length ≤ f.active.length := hf
      cases st <;> simp only [logStepF, hl, acquireL] at h
      all_goals
        repeat' split at h
        all_goals
          first
          | (cases h; done)
          | (cases h; unfold Fits; simp only [hl]; exact hf)
          | (cases h; unfold Fits; exact hf)
          | (cases h; unfold Fits; dsimp only; split <;> (rename_i hq; split at hq <;> first | (cases hq; done) | (injection hq; subst_vars; exact hf) | trivial))
    case send a rem =>
      cases rem with
      | nil =>
        simp only [logStepF, hl] at h
        split at h
        · cases h; unfold Fits; simp only [hl]; exact hf
        · cases h; simp [Fits]
      | cons l rem =>
        simp only [logStepF, hl] at h
        cases h
        have hf : (l :: rem).length ≤ f.active.length := hf
        simp only [Fits]
        simp at hf; omega
    case clean a kept rst =>
      cases rst with
      | nil => simp only [logStepF, hl] at h; cases h; trivial
      | cons l rst =>
        simp only [logStepF, hl] at h
        cases h
        have hf : kept.length + (l :: rst).length ≤ f.active.length := hf
        simp only [Fits]
        simp only [List.length_cons] at hf
        split <;> simp <;> omega
    case cUnl a l v rem =>
      simp only [logStepF, hl, releaseL] at h
      cases h
      have hf : rem.length ≤ f.active.length := hf
      cases v <;> exact hf
    case sleep w => cases w <;> simp only [logStepF, hl, acquireL] at h <;> repeat' split at h
                    all_goals first | (cases h; done) | (cases h; trivial)
    all_goals
      simp only [logStepF, hl, acquireL, releaseL] at h
      repeat' split at h
      all_goals
        first
        | (cases h; done)
        | (cases h; first | trivial | exact hf | (unfold Fits; simp only [hl]; done) | (unfold Fits; simp only [hl]; exact hf) | (simp [Fits]; done))

theorem sum_le {w : FPc → Nat} {k : Nat} (hw : ∀ p, w p ≤ k) (cl : List FPc) : sumOf w cl ≤ k * cl.length := by
  induction cl with
  | nil => simp [sumOf]
  | cons c cl ih =>
    have := hw c
    simp only [sumOf, List.map_cons, List.sum_cons, List.length_cons] at ih ⊢
    rw [Nat.mul_add]; omega

theorem rest_le (hf : Fits f) : rest f ≤ stepsLeft f := by
  have h1 : sumOf crank f.cl ≤ 15 * f.cl.length := sum_le (fun p => by cases p <;> simp [crank] <;> split <;> omega) _
  have h2 : sumOf enq f.cl ≤ f.cl.length := by have := sum_le (w := enq) (k := 1) (fun p => by cases p <;> simp [enq]) f.cl; omega
  have h3 : sumOf addr f.cl ≤ f.cl.length := by have := sum_le (w := addr) (k := 1) (fun p => by cases p <;> simp [addr]) f.cl; omega
  have hp : pend f.lt f.pending ≤ f.pending.length := by cases f.lt <;> simp [pend]
  have ha : act f.lt f.active ≤ f.active.length := by
    unfold Fits at hf
    cases hl : f.lt <;> rw [hl] at hf <;> simp only [act] <;> first | exact hf | omega
  have hL : lis f ≤ f.active.length + f.pending.length + f.cl.length := by simp only [lis]; omega
  have hQ : que f ≤ f.queue.length + f.cl.length := by simp only [que]; omega
  have hr : lrank (lis f) f.lt ≤ 20 + 8 * (f.active.length + f.pending.length + f.cl.length) := by
    unfold Fits at hf
    cases hl : f.lt <;> rw [hl] at hf <;> simp only [lrank] <;> (try omega)
    case sleep w => cases w <;> simp <;> omega
    case probe a l st rem =>
      have hf : rem.length ≤ f.active.length := hf
      cases st <;> simp only <;> omega
    all_goals (simp only at hf; omega)
  have hm : que f * (20 + 8 * lis f) ≤ (f.queue.length + f.cl.length) * (20 + 8 * (f.active.length + f.pending.length + f.cl.length)) :=
    Nat.mul_le_mul hQ (by omega)
  unfold rest stepsLeft
  rw [Nat.add_mul]
  omega

/-- No new calls: so many steps, and three more for each wake-up without reason. -/
theorem run_short {bs : List FAct} {n : Nat} {t b : Bool} {g : FSt} {es0 es : List Ev} (hI : Inv f) (h0 : Exec rx (init n t b) (abs f) es0)
    (hb : NoCalls bs) (h : frun rx f bs = some (g, es)) : bs.length + rest g ≤ rest f + 4 * bs.count .spurious := by
  induction bs generalizing f es es0 with
  | nil => simp only [frun] at h; cases h; simp
  | cons a bs ih =>
    simp only [frun] at h
    split at h
    · cases h
    · rename_i f1 e hs
      split at h
      · cases h
      · rename_i g2 es2 hr
        obtain ⟨rfl, rfl⟩ := Prod.mk.inj (Option.some.inj h)
        obtain ⟨hI1, hsim⟩ := sim_step hI (exec_mem h0) hs
        have nofault : ∀ u, e ≠ some (.fault u) := by
          rintro u rfl
          rcases hsim with ⟨h, -⟩ | ⟨a', v, hv, hst⟩
          · cases h
          · rcases hv with hv | ⟨hv, -⟩
            · cases hv
              exact (exec_mem (h0.snoc hst)).nofault u (by simp)
            · cases hv
        have ⟨es1, h1⟩ : ∃ es1, Exec rx (init n t b) (abs f1) es1 := by
          rcases hsim with ⟨-, h⟩ | ⟨a', v, -, hst⟩
          · exact ⟨es0, h ▸ h0⟩
          · exact ⟨_, h0.snoc hst⟩
        have := ih hI1 h1 (fun x hx => hb x (List.mem_cons_of_mem _ hx)) hr
        rw [List.length_cons, List.count_cons]
        rcases hb a (List.mem_cons_self ..) with rfl | rfl | ⟨i, rfl⟩
        · have := rest_log hs nofault
          simp; omega
        · have : rest f1 = rest f + 3 := by
            simp only [fstep] at hs
            split at hs
            · rename_i hl
              cases hs
              simp only [rest, que, lis, hl, act, pend, lrank]
            · cases hs
          simp; omega
        · simp only [fstep] at hs
          split at hs
          · rename_i pc hi
            have := rest_cli hi hs nofault
            simp; omega
          · cases hs

theorem fits_run {as : List FAct} {g : FSt} {es : List Ev} (hf : Fits f) (h : frun rx f as = some (g, es)) : Fits g := by
  induction as generalizing f es with
  | nil => simp only [frun] at h; cases h; exact hf
  | cons a as ih =>
    simp only [frun] at h
    split at h
    · cases h
    · rename_i f1 e hs
      split at h
      · cases h
      · rename_i g2 es2 hr
        obtain ⟨rfl, rfl⟩ := Prod.mk.inj (Option.some.inj h)
        exact ih (fits_step hf hs) hr

end Falcon.LogM
