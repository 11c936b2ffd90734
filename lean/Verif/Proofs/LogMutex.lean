import Verif.Model.LogMutex
import Verif.Proofs.LogProto
import Verif.Proofs.LogRun
/-
The log system with explicit mutexes does what the one with atomic critical sections does.
-/
namespace Falcon.LogM
open Falcon.Log (Str Addr LId Msg Rx Lst Op Ev Stage Mtx LPc CPc St Act Exec setHeap setLst threshold checkCategory notify init)

/-- The mutex a client has at this point. -/
def holds : FPc → Option Mtx
  | .aTest _ | .aPop _ | .aUnlock _ _ | .aUnlockE _ _ => some .pool
  | .ePush _ _ | .eMax | .eNotify | .eUnlock => some .message
  | .sSet | .sUnlock => some .message
  | .sTTest | .sJoin | .sTUnlock => some .thread
  | .lPush _ | .lUnlock => some .listeners
  | .cRegex l _ | .cText l _ | .cUnlock l => some (.category l)
  | .tTest | .tUnlock => some .thread
  | .qHold x => some x
  | _ => none

/-- The mutex the logging thread has at this point. -/
def lholds : FLt → Option Mtx
  | .test _ | .pop _ | .taken _ | .exit => some .message
  | .nCopy _ | .nClear _ _ | .nUnlock _ _ => some .listeners
  | .cHold _ l _ | .cUnl _ l _ _ => some (.category l)
  | .dTest _ | .dPush _ | .dUnl | .dUnlF _ => some .pool
  | _ => none

/-- Everyone has the mutexes the program says. -/
structure Own (mtx : Mtx → Option Tid) (cl : List FPc) (h : Option Mtx) : Prop where
  cli : ∀ (x : Mtx) (i : Nat), mtx x = some (some i) ↔ ∃ pc, cl[i]? = some pc ∧ holds pc = some x
  log : ∀ x : Mtx, mtx x = some none ↔ h = some x

theorem Own.at {mtx : Mtx → Option Tid} {cl : List FPc} {h : Option Mtx} (o : Own mtx cl h) {i : Nat} {pc : FPc} (hi : cl[i]? = some pc) (x : Mtx) :
    mtx x = some (some i) ↔ holds pc = some x := by
  rw [o.cli]
  constructor
  · rintro ⟨pc', h1, h2⟩; rw [hi] at h1; cases h1; exact h2
  · intro h; exact ⟨pc, hi, h⟩

theorem Own.same {mtx : Mtx → Option Tid} {cl : List FPc} {h : Option Mtx} (o : Own mtx cl h) {i : Nat} {pc pc' : FPc} (hi : cl[i]? = some pc)
    (hp : holds pc' = holds pc) : Own mtx (cl.set i pc') h := by
  have hlt := (List.getElem?_eq_some_iff.1 hi).1
  refine ⟨fun x j => ?_, o.log⟩
  by_cases hj : i = j
  · subst hj
    rw [o.at hi x, ← hp]
    simp [hlt]
  · rw [o.cli, List.getElem?_set_ne hj]

theorem Own.acq {mtx : Mtx → Option Tid} {cl : List FPc} {h : Option Mtx} (o : Own mtx cl h) {i : Nat} {pc pc' : FPc} {x : Mtx} (hi : cl[i]? = some pc)
    (hp : holds pc = none) (hx : mtx x = none) (hp' : holds pc' = some x) : Own (setM mtx x (some (some i))) (cl.set i pc') h := by
  have hlt := (List.getElem?_eq_some_iff.1 hi).1
  refine ⟨fun y j => ?_, fun y => ?_⟩
  · by_cases hj : i = j
    · subst hj
      by_cases hy : y = x
      · subst hy; simp [setM, hlt, hp']
      · have h1 : mtx y ≠ some (some i) := by rw [Ne, o.at hi y, hp]; simp
        simp only [setM, if_neg hy]
        constructor
        · intro h2; exact absurd h2 h1
        · rintro ⟨pc2, h2, h3⟩
          simp only [List.getElem?_set_self hlt] at h2
          cases h2; rw [hp'] at h3; exact absurd (Option.some.inj h3).symm hy
    · rw [List.getElem?_set_ne hj, ← o.cli]
      by_cases hy : y = x
      · subst hy; simp [setM, hx, hj]
      · simp [setM, hy]
  · rw [← o.log]
    by_cases hy : y = x
    · subst hy; simp [setM, hx]
    · simp [setM, hy]

theorem Own.rel {mtx : Mtx → Option Tid} {cl : List FPc} {h : Option Mtx} (o : Own mtx cl h) {i : Nat} {pc pc' : FPc} {x : Mtx} (hi : cl[i]? = some pc)
    (hp : holds pc = some x) (hp' : holds pc' = none) : Own (setM mtx x none) (cl.set i pc') h := by
  have hlt := (List.getElem?_eq_some_iff.1 hi).1
  have hx := (o.at hi x).2 hp
  refine ⟨fun y j => ?_, fun y => ?_⟩
  · by_cases hj : i = j
    · subst hj
      by_cases hy : y = x
      · subst hy; simp [setM, hlt, hp']
      · simp only [setM, if_neg hy]
        rw [o.at hi y, hp]
        constructor
        · intro h2; exact absurd (Option.some.inj h2).symm hy
        · rintro ⟨pc2, h2, h3⟩
          simp only [List.getElem?_set_self hlt] at h2
          cases h2; rw [hp'] at h3; cases h3
    · rw [List.getElem?_set_ne hj, ← o.cli]
      by_cases hy : y = x
      · subst hy; simp [setM, hx, hj]
      · simp [setM, hy]
  · rw [← o.log]
    by_cases hy : y = x
    · subst hy; simp [setM, hx]
    · simp [setM, hy]

theorem Own.acqL {mtx : Mtx → Option Tid} {cl : List FPc} {x : Mtx} (o : Own mtx cl none) (hx : mtx x = none) :
    Own (setM mtx x (some none)) cl (some x) := by
  refine ⟨fun y j => ?_, fun y => ?_⟩
  · rw [← o.cli]
    by_cases hy : y = x
    · subst hy; simp [setM, hx]
    · simp [setM, hy]
  · by_cases hy : y = x
    · subst hy; simp [setM]
    · simp only [setM, if_neg hy, o.log]
      simp [Ne.symm hy]

theorem Own.relL {mtx : Mtx → Option Tid} {cl : List FPc} {x : Mtx} (o : Own mtx cl (some x)) :
    Own (setM mtx x none) cl none := by
  have hx := (o.log x).2 rfl
  refine ⟨fun y j => ?_, fun y => ?_⟩
  · rw [← o.cli]
    by_cases hy : y = x
    · subst hy; simp [setM, hx]
    · simp [setM, hy]
  · by_cases hy : y = x
    · subst hy; simp [setM]
    · simp only [setM, if_neg hy, o.log]
      simp [Ne.symm hy]

/-- What the client that has the mutex is doing. -/
def work (mtx : Mtx → Option Tid) (cl : List FPc) (x : Mtx) : FPc :=
  match mtx x with
  | some (some i) => cl[i]?.getD .idle
  | _ => .idle

/-- What is still to be done in the critical sections that are open. -/
structure Due where
  max  : Bool
  note : Bool
  text : LId → Option Str
  join : Option Nat

def due (mtx : Mtx → Option Tid) (cl : List FPc) : Due :=
  { max := match work mtx cl .message with | .eMax => true | _ => false,
    note := match work mtx cl .message with | .eMax | .eNotify => true | _ => false,
    text := fun l => match work mtx cl (.category l) with | .cText _ re => some re | _ => none,
    join := match work mtx cl .thread with | .sJoin => (mtx .thread).join | _ => none }

/-- Nothing is left to do. -/
def plain : FPc → Bool
  | .eMax | .eNotify | .cText _ _ | .sJoin => false
  | _ => true

theorem due_congr {mtx mtx' : Mtx → Option Tid} {cl cl' : List FPc}
    (h : ∀ x, (work mtx' cl' x = work mtx cl x ∧ mtx' x = mtx x) ∨ (plain (work mtx' cl' x) = true ∧ plain (work mtx cl x) = true)) :
    due mtx' cl' = due mtx cl := by
  have p1 : ∀ {pc}, plain pc = true → (match pc with | .eMax => true | _ => false) = false := by intro pc h; cases pc <;> first | rfl | cases h
  have p2 : ∀ {pc}, plain pc = true → (match pc with | .eMax | .eNotify => true | _ => false) = false := by intro pc h; cases pc <;> first | rfl | cases h
  have p3 : ∀ {pc : FPc}, plain pc = true → (match pc with | .cText _ re => some re | _ => none) = none := by intro pc h; cases pc <;> first | rfl | cases h
  have p4 : ∀ {pc : FPc} {o : Option Nat}, plain pc = true → (match pc with | .sJoin => o | _ => none) = none := by intro pc o h; cases pc <;> first | rfl | cases h
  unfold due
  congr 1
  · rcases h .message with ⟨h1, -⟩ | ⟨h1, h2⟩
    · rw [h1]
    · rw [p1 h1, p1 h2]
  · rcases h .message with ⟨h1, -⟩ | ⟨h1, h2⟩
    · rw [h1]
    · rw [p2 h1, p2 h2]
  · funext l
    rcases h (.category l) with ⟨h1, -⟩ | ⟨h1, h2⟩
    · rw [h1]
    · rw [p3 h1, p3 h2]
  · rcases h .thread with ⟨h1, h2⟩ | ⟨h1, h2⟩
    · rw [h1, h2]
    · rw [p4 h1, p4 h2]

section
variable {mtx : Mtx → Option Tid} {cl : List FPc} {h : Option Mtx} {i : Nat} {pc pc' : FPc} {x : Mtx}

theorem work_at (o : Own mtx cl h) (hi : cl[i]? = some pc) (hp : holds pc = some x) : work mtx cl x = pc := by
  unfold work; rw [(o.at hi x).2 hp]; simp [hi]

theorem work_same (o : Own mtx cl h) (hi : cl[i]? = some pc) (y : Mtx) :
    work mtx (cl.set i pc') y = if holds pc = some y then pc' else work mtx cl y := by
  have hlt := (List.getElem?_eq_some_iff.1 hi).1
  unfold work
  by_cases hy : holds pc = some y
  · rw [if_pos hy, (o.at hi y).2 hy]; simp [hlt]
  · rw [if_neg hy]
    have h1 : mtx y ≠ some (some i) := fun e => hy ((o.at hi y).1 e)
    rcases hm : mtx y with _ | _ | j
    · rfl
    · rfl
    · have : i ≠ j := by rintro rfl; exact h1 hm
      simp only [List.getElem?_set_ne this]

theorem work_free (hx : mtx x = none) : work mtx cl x = .idle := by unfold work; rw [hx]
theorem work_log (hx : mtx x = some none) : work mtx cl x = .idle := by unfold work; rw [hx]

theorem due_same (o : Own mtx cl h) (hi : cl[i]? = some pc) (hp : plain pc = true) (hp' : plain pc' = true) :
    due mtx (cl.set i pc') = due mtx cl := by
  apply due_congr
  intro y
  rw [work_same o hi]
  by_cases hy : holds pc = some y
  · rw [if_pos hy, work_at o hi hy]; exact .inr ⟨hp', hp⟩
  · rw [if_neg hy]; exact .inl ⟨rfl, rfl⟩

theorem due_acq (o : Own mtx cl h) (hi : cl[i]? = some pc) (hp : holds pc = none) (hx : mtx x = none) (hp' : plain pc' = true) :
    due (setM mtx x (some (some i))) (cl.set i pc') = due mtx cl := by
  have hlt := (List.getElem?_eq_some_iff.1 hi).1
  apply due_congr
  intro y
  by_cases hy : y = x
  · subst hy
    right
    rw [work_free hx]
    refine ⟨?_, rfl⟩
    simp [work, setM, hlt, hp']
  · left
    have : work (setM mtx x (some (some i))) (cl.set i pc') y = work mtx (cl.set i pc') y := by simp [work, setM, hy]
    rw [this, work_same o hi, hp]
    simp [setM, hy]

theorem due_rel (o : Own mtx cl h) (hi : cl[i]? = some pc) (hp : holds pc = some x) (hpl : plain pc = true) :
    due (setM mtx x none) (cl.set i pc') = due mtx cl := by
  apply due_congr
  intro y
  by_cases hy : y = x
  · subst hy
    right
    rw [work_at o hi hp]
    refine ⟨?_, hpl⟩
    simp [work, setM, plain]
  · left
    have : work (setM mtx x none) (cl.set i pc') y = work mtx (cl.set i pc') y := by simp [work, setM, hy]
    rw [this, work_same o hi, hp]
    simp [setM, hy, Ne.symm hy]

theorem due_acqL (hx : mtx x = none) : due (setM mtx x (some none)) cl = due mtx cl := by
  apply due_congr
  intro y
  by_cases hy : y = x
  · subst hy; right; rw [work_free hx]; simp [work, setM, plain]
  · left; simp [work, setM, hy]

theorem due_relL (hx : mtx x = some none) : due (setM mtx x none) cl = due mtx cl := by
  apply due_congr
  intro y
  by_cases hy : y = x
  · subst hy; right; rw [work_log hx]; simp [work, setM, plain]
  · left; simp [work, setM, hy]
end

/-! ### The state with all open critical sections completed -/

def cabs : FPc → CPc
  | .idle => .idle
  | .check m => .check m
  | .aLock m | .aTest m | .aPop m => .alloc m
  | .aUnlock m a | .aUnlockE m a | .aInc m a | .construct m a => .construct m a
  | .extNew m => .extNew m
  | .eLock m a | .ePush m a => .enqueue m a
  | .eMax | .eNotify | .eUnlock => .idle
  | .sLock | .sSet => .stopSet
  | .sUnlock | .sNotify => .stopNotify
  | .sTLock | .sTTest => .stopLock
  | .sJoin => .stopJoin
  | _ => .idle

def tabs : FLt → LPc
  | .none => .none
  | .top => .top
  | .test w | .pop w => if w then .wait true else .top
  | .sleep w => .wait w
  | .taken a | .got a | .nCopy a => .got a
  | .exit | .exited => .exited
  | .nClear a ls | .nUnlock a ls | .recv a ls | .send a ls => .send a ls
  | .probe a l st rem => .test a l st rem
  | .cHold a l rem => .test a l .category rem
  | .cUnl a l b rem => if b then .test a l .call rem else .send a rem
  | .clean a kept rest => .clean a kept rest
  | .disp a | .dTest a | .dPush a => .dispose a
  | .dUnl | .dUnlF _ | .dInc _ | .dDel _ => .top

/-- about to count an object that was created -/
def isInc : FPc → Bool
  | .aUnlockE _ _ | .aInc _ _ => true
  | _ => false

/-- about to delete this object -/
def doomed : FLt → Option Addr
  | .dUnlF a | .dInc a | .dDel a => some a
  | _ => none

def dDue : FLt → Nat
  | .dUnlF _ | .dInc _ => 1
  | _ => 0

def rDue : FLt → Nat
  | .nClear _ _ | .nUnlock _ _ | .recv _ _ => 1
  | _ => 0

def pDue : FLt → List LId → List LId
  | .nClear _ _, _ => []
  | _, p => p

def hDue (p : FLt) (h : Addr → Option Msg) : Addr → Option Msg :=
  match doomed p with
  | some a => setHeap h a none
  | none => h

def tDue (note : Bool) (p : FLt) : LPc := if note then notify (tabs p) else tabs p

def lDue (t : Option Str) (l : Lst) : Lst :=
  match t with
  | some re => { l with category := re }
  | none => l

def absWith (f : FSt) (d : Due) : St :=
  { level := f.level, unpooled := f.unpooled + f.cl.countP isInc, destroyed := f.destroyed + dDue f.lt,
    maxQ := if d.max = true ∧ f.queue.length > f.maxQ then f.queue.length else f.maxQ,
    received := f.received + rDue f.lt, queue := f.queue, terminated := f.terminated, pool := f.pool,
    pending := pDue f.lt f.pending, active := f.active, mtxThread := d.join, lt := tDue d.note f.lt,
    cl := f.cl.map cabs, lst := fun l => lDue (d.text l) (f.lst l), heap := hDue f.lt f.heap,
    next := f.next, external := f.external }

def abs (f : FSt) : St := absWith f (due f.mtx f.cl)

/-- Invariant. -/
structure Inv (f : FSt) : Prop where
  own  : Own f.mtx f.cl (lholds f.lt)
  pool : ∀ (i : Nat) (m : Msg), f.cl[i]? = some (.aPop m) → f.pool ≠ []
  pop  : ∀ w, f.lt = .pop w → f.queue ≠ [] ∧ f.terminated = false
  push : ∀ a, f.lt = .dPush a → f.pool.length < threshold
  old  : ∀ a, doomed f.lt = some a → a < f.next ∧ ∃ m, f.heap a = some m

theorem inv_init (n : Nat) (t b : Bool) : Inv (finit n t b) := by
  have hl : (finit n t b).lt = .top ∨ (finit n t b).lt = .none := by cases b <;> simp [finit]
  refine ⟨⟨fun x i => ?_, fun x => ?_⟩, ?_, ?_, ?_, ?_⟩
  · simp only [finit]
    constructor
    · intro h; cases h
    · rintro ⟨pc, h, h1⟩
      rw [List.getElem?_replicate] at h
      split at h <;> cases h
      cases h1
  · rcases hl with h | h <;> rw [h] <;> simp [finit, lholds]
  · intro i m h
    simp only [finit, List.getElem?_replicate] at h
    split at h <;> cases h
  · intro w h; rcases hl with h' | h' <;> rw [h'] at h <;> cases h
  · intro w h; rcases hl with h' | h' <;> rw [h'] at h <;> cases h
  · intro w h; rcases hl with h' | h' <;> rw [h'] at h <;> cases h

theorem due_free (cl : List FPc) : due (fun _ => none) cl = ⟨false, false, fun _ => none, none⟩ := rfl

theorem abs_init (n : Nat) (t b : Bool) : abs (finit n t b) = init n t b := by
  have h1 : (List.replicate n FPc.idle).countP isInc = 0 := by
    rw [List.countP_eq_zero]; intro a ha; rw [List.eq_of_mem_replicate ha]; simp [isInc]
  unfold abs
  show absWith (finit n t b) (due (fun _ => none) _) = _
  rw [due_free]
  cases b <;> simp [absWith, finit, init, h1, dDue, rDue, pDue, hDue, tDue, lDue, doomed, cabs, tabs]

end Falcon.LogM
