import Verif.Proofs.LogMutexLive
/-
Every run of the log system with atomic critical sections is one of the log system with explicit mutexes.
-/
namespace Falcon.LogM
open Falcon.Log (Str Addr LId Msg Rx Lst Op Ev Stage Mtx LPc CPc St Act Exec setHeap setLst threshold checkCategory notify init Mem step cHolds lHolds exec_mem)

variable {rx : Rx} {f f1 f2 : FSt}

def cup : CPc → FPc
  | .idle => .idle
  | .check m => .check m
  | .alloc m => .aLock m
  | .construct m a => .construct m a
  | .enqueue m a => .eLock m a
  | .extNew m => .extNew m
  | .stopSet => .sLock
  | .stopNotify => .sNotify
  | .stopLock => .sTLock
  | .stopJoin => .sJoin

def lup : LPc → FLt
  | .none => .none
  | .top => .top
  | .wait w => .sleep w
  | .got a => .got a
  | .send a rem => .send a rem
  | .test a l st rem => .probe a l st rem
  | .clean a kept rest => .clean a kept rest
  | .dispose a => .disp a
  | .exited => .exited

def mup (h : Option Nat) : Mtx → Option Tid := fun x => if x = .thread then h.map some else none

/-- The state with explicit mutexes in which no critical section is open (but join()). -/
def lift (s : St) : FSt :=
  { level := s.level, unpooled := s.unpooled, destroyed := s.destroyed, maxQ := s.maxQ, received := s.received, queue := s.queue,
    terminated := s.terminated, pool := s.pool, pending := s.pending, active := s.active, mtx := mup s.mtxThread, lt := lup s.lt,
    cl := s.cl.map cup, lst := s.lst, heap := s.heap, next := s.next, external := s.external }

theorem lift_init (n : Nat) (t b : Bool) : lift (init n t b) = finit n t b := by
  have hm : mup none = fun _ => none := by funext x; simp [mup]
  cases b <;> simp [lift, init, finit, cup, lup, hm]

theorem goN {i : Nat} {pc : FPc} {as : List FAct} {es : List Ev} (hi : f.cl[i]? = some pc) (h : resumeF rx f i pc = some (f1, none))
    (h2 : frun rx f1 as = some (f2, es)) : frun rx f (.cli i :: as) = some (f2, es) := by
  simp only [frun, fstep, hi, h, h2]; rfl

theorem goS {i : Nat} {pc : FPc} {v : Ev} {as : List FAct} {es : List Ev} (hi : f.cl[i]? = some pc) (h : resumeF rx f i pc = some (f1, some v))
    (h2 : frun rx f1 as = some (f2, es)) : frun rx f (.cli i :: as) = some (f2, v :: es) := by
  simp only [frun, fstep, hi, h, h2]; rfl

theorem goLN {as : List FAct} {es : List Ev} (h : logStepF rx f = some (f1, none)) (h2 : frun rx f1 as = some (f2, es)) :
    frun rx f (.log :: as) = some (f2, es) := by
  simp only [frun, fstep, h, h2]; rfl

theorem goLS {v : Ev} {as : List FAct} {es : List Ev} (h : logStepF rx f = some (f1, some v)) (h2 : frun rx f1 as = some (f2, es)) :
    frun rx f (.log :: as) = some (f2, v :: es) := by
  simp only [frun, fstep, h, h2]; rfl

theorem goCN {i : Nat} {op : Op} {as : List FAct} {es : List Ev} (hi : f.cl[i]? = some .idle) (h : beginF f i op = (f1, none))
    (h2 : frun rx f1 as = some (f2, es)) : frun rx f (.call i op :: as) = some (f2, es) := by
  simp only [frun, fstep, hi, h, h2]; rfl

theorem goCS {i : Nat} {op : Op} {v : Ev} {as : List FAct} {es : List Ev} (hi : f.cl[i]? = some .idle) (h : beginF f i op = (f1, some v))
    (h2 : frun rx f1 as = some (f2, es)) : frun rx f (.call i op :: as) = some (f2, v :: es) := by
  simp only [frun, fstep, hi, h, h2]; rfl

theorem stop_ (h : f = f2) : frun rx f [] = some (f2, []) := by rw [h]; rfl

theorem acq_ok {i : Nat} {x : Mtx} {pc : FPc} (h : f.mtx x = none) :
    acquire f i x pc = some ({ f with mtx := setM f.mtx x (some (some i)), cl := f.cl.set i pc }, none) := by
  simp only [acquire, h]

theorem acqL_ok {x : Mtx} {p : FLt} (h : f.mtx x = none) :
    acquireL f x p = some ({ f with mtx := setM f.mtx x (some none), lt := p }, none) := by
  simp only [acquireL, h]

theorem goLock {i : Nat} {x : Mtx} {p0 p1 : FPc} {as : List FAct} {es : List Ev} (hlt : i < f.cl.length) (hm : f.mtx x = none)
    (hr : ∀ g, resumeF rx g i p0 = acquire g i x p1)
    (h2 : frun rx { f with mtx := setM f.mtx x (some (some i)), cl := f.cl.set i p1 } as = some (f2, es)) :
    frun rx { f with cl := f.cl.set i p0 } (.cli i :: as) = some (f2, es) := by
  refine goN (f1 := { f with mtx := setM f.mtx x (some (some i)), cl := f.cl.set i p1 }) (pc := p0) (List.getElem?_set_self hlt) ?_ h2
  rw [hr]
  simp only [acquire, hm, List.set_set]

theorem set_back {M : Mtx → Option Tid} {x : Mtx} {o : Option Tid} (h : M x = none) : setM (setM M x o) x none = M := by
  funext y; by_cases hy : y = x
  · subst hy; simp [setM, h]
  · simp [setM, hy]

theorem mup_free {h : Option Nat} {x : Mtx} (hx : x ≠ .thread) : mup h x = none := by simp [mup, hx]

theorem set_thread {h : Option Nat} (o : Option Nat) : setM (mup h) .thread (o.map some) = mup o := by
  funext y; by_cases hy : y = .thread
  · subst hy; simp [setM, mup]
  · simp [setM, mup, hy]

theorem lup_notify (p : LPc) : lup (notify p) = wake (lup p) := by cases p <;> rfl

theorem lst_set2 {ls : LId → Lst} {l : LId} {v w : Lst} : setLst (setLst ls l v) l w = setLst ls l w := by
  funext k; by_cases hk : k = l <;> simp [setLst, hk]

theorem lift_get {s : St} {i : Nat} {pc : CPc} (hi : s.cl[i]? = some pc) : (lift s).cl[i]? = some (cup pc) := by
  simp [lift, hi]

/-- One atomic step, in several. -/
theorem lift_step {s s' : St} {a : Act} {v : Ev} (hv : ∀ u, v ≠ .fault u) (h : step rx s a = some (s', v)) :
    ∃ as es, frun rx (lift s) as = some (lift s', es) ∧ visible es = visible [v] := by
  cases a with
  | spurious =>
    simp only [step] at h
    split at h
    · rename_i hl
      cases h
      refine ⟨[.spurious], [], ?_, rfl⟩
      simp only [frun, fstep, lift, hl, lup]; rfl
    · cases h
  | call i op =>
    simp only [step] at h
    split at h
    · rename_i hi
      have hf := lift_get hi
      have hlt : i < (lift s).cl.length := (List.getElem?_eq_some_iff.1 hf).1
      have hset : ∀ p, ((lift s).cl.set i p)[i]? = some p := fun p => List.getElem?_set_self hlt
      have hback : (lift s).cl.set i .idle = (lift s).cl := set_same hf
      have free : ∀ {x : Mtx}, x ≠ .thread → (lift s).mtx x = none := fun hx => mup_free hx
      cases op with
      | log m => simp only [Falcon.Log.beginCall] at h; cases h; exact ⟨[.call i (.log m)], [.call i (.log m)], goCS hf rfl (stop_ (by simp [lift, List.map_set, cup])), rfl⟩
      | logPtr m => simp only [Falcon.Log.beginCall] at h; cases h; exact ⟨[.call i (.logPtr m)], [.call i (.logPtr m)], goCS hf rfl (stop_ (by simp [lift, List.map_set, cup])), rfl⟩
      | stop => simp only [Falcon.Log.beginCall] at h; cases h; exact ⟨[.call i .stop], [.call i .stop], goCS hf rfl (stop_ (by simp [lift, List.map_set, cup])), rfl⟩
      | level n => simp only [Falcon.Log.beginCall] at h; cases h; exact ⟨[.call i (.level n)], [.did i (.level n)], goCS hf rfl (stop_ rfl), rfl⟩
      | enable l b => simp only [Falcon.Log.beginCall] at h; cases h; exact ⟨[.call i (.enable l b)], [.did i (.enable l b)], goCS hf rfl (stop_ rfl), rfl⟩
      | detach l => simp only [Falcon.Log.beginCall] at h; cases h; exact ⟨[.call i (.detach l)], [.did i (.detach l)], goCS hf rfl (stop_ rfl), rfl⟩
      | llevel l n => simp only [Falcon.Log.beginCall] at h; cases h; exact ⟨[.call i (.llevel l n)], [.did i (.llevel l n)], goCS hf rfl (stop_ rfl), rfl⟩
      | addListener l =>
        simp only [Falcon.Log.beginCall] at h; cases h
        have hm : (lift s).mtx .listeners = none := free (by simp)
        refine ⟨[.call i (.addListener l), .cli i, .cli i, .cli i], [.did i (.addListener l)], ?_, rfl⟩
        refine goCN hf (f1 := { lift s with cl := (lift s).cl.set i (.lLock l) }) rfl ?_
        refine goLock hlt hm (fun _ => rfl) ?_
        refine goS (hset _) rfl ?_
        try dsimp only
        rw [List.set_set]
        refine goN (hset _) rfl (stop_ ?_)
        try dsimp only
        rw [List.set_set, hback, set_back hm]
        rfl
      | category l re =>
        simp only [Falcon.Log.beginCall, Falcon.Log.setCategory] at h
        have hm : (lift s).mtx (.category l) = none := free (by simp)
        by_cases hr : rx.valid re
        · simp only [hr, if_true] at h
          cases h
          refine ⟨[.call i (.category l re), .cli i, .cli i, .cli i, .cli i], [.did i (.category l re)], ?_, rfl⟩
          refine goCN hf (f1 := { lift s with cl := (lift s).cl.set i (.cLock l re) }) rfl ?_
          refine goLock hlt hm (fun _ => rfl) ?_
          refine goS (hset _) (by simp only [resumeF, hr, if_true]; rfl) ?_
          try dsimp only
          rw [List.set_set]
          refine goN (hset _) rfl ?_
          try dsimp only
          rw [List.set_set]
          refine goN (hset _) rfl (stop_ ?_)
          try dsimp only
          rw [List.set_set, hback, set_back hm, lst_set2]
          simp [lift, setLst]
        · simp only [hr, Bool.false_eq_true, if_false] at h
          cases h
          refine ⟨[.call i (.category l re), .cli i, .cli i, .cli i], [.threw i (.category l re)], ?_, rfl⟩
          refine goCN hf (f1 := { lift s with cl := (lift s).cl.set i (.cLock l re) }) rfl ?_
          refine goLock hlt hm (fun _ => rfl) ?_
          refine goS (hset _) (by simp only [resumeF, hr, Bool.false_eq_true, if_false]; rfl) ?_
          try dsimp only
          rw [List.set_set]
          refine goN (hset _) rfl (stop_ ?_)
          try dsimp only
          rw [List.set_set, hback, set_back hm]
      | start =>
        simp only [Falcon.Log.beginCall] at h
        cases hmt : s.mtxThread with
        | some k => rw [hmt] at h; cases h
        | none =>
          simp only [hmt] at h
          have hm : (lift s).mtx .thread = none := by simp [lift, mup, hmt]
          refine ⟨[.call i .start, .cli i, .cli i, .cli i], [.did i .start], ?_, ?_⟩
          · refine goCN hf (f1 := { lift s with cl := (lift s).cl.set i .tLock }) rfl ?_
            refine goLock hlt hm (fun _ => rfl) ?_
            by_cases hl : s.lt = .none
            · have hl' : (lift s).lt = .none := by simp [lift, hl, lup]
              simp only [hl] at h
              cases h
              refine goS (hset _) (by simp only [resumeF, hl']; rfl) ?_
              try dsimp only
              rw [List.set_set]
              refine goN (hset _) rfl (stop_ ?_)
              try dsimp only
              rw [List.set_set, hback, set_back hm]
              simp [lift, lup, hmt]
            · have hl' : (lift s).lt ≠ .none := by simp only [lift]; cases hq : s.lt <;> simp [lup]; exact hl hq
              have : s' = s := by
                split at h
                · rename_i hq; exact absurd hq hl
                · cases h; rfl
              subst this
              refine goS (hset _) (f1 := { lift s' with mtx := setM (lift s').mtx .thread (some (some i)), cl := (lift s').cl.set i .tUnlock })
                (by
                  simp only [resumeF]
                  first
                  | (split
                     · rename_i hq; exact absurd hq hl'
                     · rw [List.set_set])
                  | rw [List.set_set]) ?_
              refine goN (hset _) rfl (stop_ ?_)
              try dsimp only
              rw [List.set_set, hback, set_back hm]
          · have : v = .did i .start := by split at h <;> cases h <;> rfl
            rw [this]
    · cases h
  | cli i =>
    simp only [step] at h
    cases hi : s.cl[i]? with
    | none => rw [hi] at h; cases h
    | some pc =>
      simp only [hi] at h
      have hf := lift_get hi
      have hlt : i < (lift s).cl.length := (List.getElem?_eq_some_iff.1 hf).1
      have hset : ∀ p, ((lift s).cl.set i p)[i]? = some p := fun p => List.getElem?_set_self hlt
      have free : ∀ {x : Mtx}, x ≠ .thread → (lift s).mtx x = none := fun hx => mup_free hx
      cases pc with
      | idle => cases h
      | check m =>
        simp only [Falcon.Log.resume] at h
        split at h
        · rename_i hl
          cases h
          exact ⟨[.cli i], [.reject i m], goS hf (by simp only [cup, resumeF]; rw [if_pos (show m.level > (lift s).level from hl)]) (stop_ (by simp [lift, List.map_set, cup])), rfl⟩
        · rename_i hl
          cases h
          exact ⟨[.cli i], [.pass i m], goS hf (by simp only [cup, resumeF]; rw [if_neg (show ¬ m.level > (lift s).level from hl)]) (stop_ (by simp [lift, List.map_set, cup])), rfl⟩
      | alloc m =>
        simp only [Falcon.Log.resume, Falcon.Log.allocate] at h
        have hm := free (x := .pool) (by simp)
        cases hp : s.pool.getLast? with
        | some a =>
          simp only [hp] at h
          cases h
          refine ⟨[.cli i, .cli i, .cli i, .cli i], [.tau], ?_, rfl⟩
          refine goN hf (acq_ok hm) ?_
          have hne : (lift s).pool ≠ [] := by rintro e; have e : s.pool = [] := e; rw [e] at hp; cases hp
          refine goN (hset _) (f1 := { lift s with mtx := setM (lift s).mtx .pool (some (some i)), cl := (lift s).cl.set i (.aPop m) }) ?_ ?_
          · simp only [resumeF]
            split
            · rename_i hq; exact absurd hq hne
            · rw [List.set_set]
          refine goS (hset _) (f1 := { lift s with mtx := setM (lift s).mtx .pool (some (some i)), pool := s.pool.dropLast, cl := (lift s).cl.set i (.aUnlock m a) }) ?_ ?_
          · simp only [resumeF]
            rw [show (lift s).pool.getLast? = some a from hp]
            try dsimp only
            rw [List.set_set]; rfl
          refine goN (hset _) rfl (stop_ ?_)
          try dsimp only
          rw [List.set_set, set_back hm]
          simp [lift, List.map_set, cup]
        | none =>
          simp only [hp] at h
          cases h
          have hpe : (lift s).pool = [] := List.getLast?_eq_none_iff.1 hp
          refine ⟨[.cli i, .cli i, .cli i, .cli i], [.tau], ?_, rfl⟩
          refine goN hf (acq_ok hm) ?_
          refine goS (hset _) (by simp only [resumeF, hpe]; rfl) ?_
          try dsimp only
          rw [List.set_set]
          refine goN (hset _) rfl ?_
          try dsimp only
          rw [List.set_set, set_back hm]
          refine goN (hset _) rfl (stop_ ?_)
          try dsimp only
          rw [List.set_set]
          simp [lift, List.map_set, cup, List.getLast?_eq_none_iff.1 hp]
      | construct m a =>
        simp only [Falcon.Log.resume] at h
        cases hh : s.heap a with
        | none => simp only [hh] at h; cases h; exact absurd rfl (hv _)
        | some m' =>
          simp only [hh] at h
          cases h
          exact ⟨[.cli i], [.tau], goS hf (by simp only [cup, resumeF, show (lift s).heap a = some m' from hh]; rfl) (stop_ (by simp [lift, List.map_set, cup])), rfl⟩
      | extNew m =>
        simp only [Falcon.Log.resume] at h
        cases h
        exact ⟨[.cli i], [.tau], goS hf rfl (stop_ (by simp [lift, List.map_set, cup])), rfl⟩
      | enqueue m a =>
        simp only [Falcon.Log.resume] at h
        cases h
        have hm := free (x := .message) (by simp)
        refine ⟨[.cli i, .cli i, .cli i, .cli i, .cli i], [.accept i m], ?_, rfl⟩
        refine goN hf (acq_ok hm) ?_
        refine goS (hset _) rfl ?_
        try dsimp only
        rw [List.set_set]
        refine goN (hset _) rfl ?_
        try dsimp only
        rw [List.set_set]
        refine goN (hset _) rfl ?_
        try dsimp only
        rw [List.set_set]
        refine goN (hset _) rfl (stop_ ?_)
        try dsimp only
        rw [List.set_set, set_back hm]
        simp [lift, List.map_set, cup, lup_notify]
      | stopSet =>
        simp only [Falcon.Log.resume] at h
        cases h
        have hm := free (x := .message) (by simp)
        refine ⟨[.cli i, .cli i, .cli i], [.tau], ?_, rfl⟩
        refine goN hf (acq_ok hm) ?_
        refine goS (hset _) rfl ?_
        try dsimp only
        rw [List.set_set]
        refine goN (hset _) rfl (stop_ ?_)
        try dsimp only
        rw [List.set_set, set_back hm]
        simp [lift, List.map_set, cup]
      | stopNotify =>
        simp only [Falcon.Log.resume] at h
        cases h
        exact ⟨[.cli i], [.tau], goS hf rfl (stop_ (by simp [lift, List.map_set, cup, lup_notify])), rfl⟩
      | stopLock =>
        simp only [Falcon.Log.resume] at h
        cases hmt : s.mtxThread with
        | some k => rw [hmt] at h; cases h
        | none =>
          simp only [hmt] at h
          have hm : (lift s).mtx .thread = none := by simp [lift, mup, hmt]
          by_cases hl : s.lt = .none
          · have hl' : (lift s).lt = .none := by simp [lift, hl, lup]
            simp only [hl] at h
            cases h
            refine ⟨[.cli i, .cli i, .cli i], [.stopped i], ?_, rfl⟩
            refine goN hf (acq_ok hm) ?_
            refine goS (hset _) (by simp only [resumeF, hl']; rfl) ?_
            try dsimp only
            rw [List.set_set]
            refine goN (hset _) rfl (stop_ ?_)
            try dsimp only
            rw [List.set_set, set_back hm]
            simp [lift, List.map_set, cup, hl, hmt, lup]
          · have hl' : (lift s).lt ≠ .none := by simp only [lift]; cases hq : s.lt <;> simp [lup]; exact hl hq
            have h' : s' = { s with mtxThread := some i, cl := s.cl.set i .stopJoin } ∧ v = .tau := by
              split at h
              · rename_i hq; exact absurd hq hl
              · cases h; exact ⟨by simp, rfl⟩
            obtain ⟨rfl, rfl⟩ := h'
            refine ⟨[.cli i, .cli i], [.tau], ?_, rfl⟩
            refine goN hf (acq_ok hm) ?_
            refine goS (hset _) (f1 := { lift s with mtx := setM (lift s).mtx .thread (some (some i)), cl := (lift s).cl.set i .sJoin }) ?_ (stop_ ?_)
            · simp only [resumeF]
              first
              | (split
                 · rename_i hq; exact absurd hq hl'
                 · rw [List.set_set])
              | rw [List.set_set]
            · have := set_thread (h := s.mtxThread) (some i)
              simp only [lift, List.map_set, cup]
              rw [← this]; rfl
      | stopJoin =>
        simp only [Falcon.Log.resume] at h
        split at h
        · rename_i hl
          cases h
          have hl' : (lift s).lt = .exited := by simp [lift, hl, lup]
          refine ⟨[.cli i, .cli i], [.stopped i], ?_, rfl⟩
          refine goS hf (by simp only [cup, resumeF, hl']; rfl) ?_
          refine goN (hset _) rfl (stop_ ?_)
          try dsimp only
          rw [List.set_set]
          have := set_thread (h := s.mtxThread) none
          simp only [lift, List.map_set, cup, lup]
          rw [← this]; rfl
        · cases h
  | log =>
    simp only [step] at h
    have free : ∀ {x : Mtx}, x ≠ .thread → (lift s).mtx x = none := fun hx => mup_free hx
    have hhead : ∀ w, logStepF rx (lift s) = acquireL (lift s) .message (.test w) → some (Falcon.Log.head s) = some (s', v) →
        ∃ as es, frun rx (lift s) as = some (lift s', es) ∧ visible es = visible [v] := by
      intro w h0 h
      have hm := free (x := .message) (by simp)
      have h1 : logStepF rx (lift s) = some ({ lift s with mtx := setM (lift s).mtx .message (some none), lt := .test w }, none) := by
        rw [h0]; exact acqL_ok hm
      simp only [Falcon.Log.head] at h
      cases ht : s.terminated with
      | true =>
        simp only [ht] at h
        cases h
        refine ⟨[.log, .log, .log], [.exit], goLN h1 (goLS (by simp only [logStepF, show (lift s).terminated = true from ht]; rfl) (goLN rfl (stop_ ?_))), rfl⟩
        try dsimp only
        rw [set_back hm]; simp [lift, lup, ht]
      | false =>
        cases hq : s.queue with
        | nil =>
          simp only [ht, hq] at h
          cases h
          refine ⟨[.log, .log], [.sleep], goLN h1 (goLS (by simp only [logStepF, show (lift s).terminated = false from ht, show (lift s).queue = [] from hq]; rfl) (stop_ ?_)), rfl⟩
          rw [set_back hm]; simp [lift, lup, ht, hq]
        | cons a q =>
          simp only [ht, hq] at h
          cases h
          refine ⟨[.log, .log, .log, .log], [.take], goLN h1 (goLN (by simp only [logStepF, show (lift s).terminated = false from ht, show (lift s).queue = a :: q from hq]; rfl)
            (goLS (by simp only [logStepF, show (lift s).queue = a :: q from hq]; rfl) (goLN rfl (stop_ ?_)))), rfl⟩
          try dsimp only
          rw [set_back hm]; simp [lift, lup, ht]
    simp only [Falcon.Log.logStep] at h
    cases hl : s.lt with
    | none => simp only [hl] at h; cases h
    | exited => simp only [hl] at h; cases h
    | top => simp only [hl] at h; exact hhead false (by simp only [logStepF, show (lift s).lt = .top by simp [lift, hl, lup]]) h
    | wait w =>
      cases w with
      | true => simp only [hl] at h; exact hhead true (by simp only [logStepF, show (lift s).lt = .sleep true by simp [lift, hl, lup]]) h
      | false => simp only [hl] at h; cases h
    | got a =>
      simp only [hl] at h
      have hl' : (lift s).lt = .got a := by simp [lift, hl, lup]
      have hm := free (x := .listeners) (by simp)
      have h1 : logStepF rx (lift s) = some ({ lift s with mtx := setM (lift s).mtx .listeners (some none), lt := .nCopy a }, none) := by
        simp only [logStepF, hl']; exact acqL_ok hm
      cases hh : s.heap a with
      | none => simp only [hh] at h; cases h; exact absurd rfl (hv _)
      | some m =>
        simp only [hh] at h
        cases h
        refine ⟨[.log, .log, .log, .log, .log], [.dispatch m (s.active ++ s.pending)], goLN h1 (goLS (by simp only [logStepF, show (lift s).heap a = some m from hh]; rfl) (goLN rfl (goLN rfl (goLN rfl (stop_ ?_))))), rfl⟩
        try dsimp only
        rw [set_back hm]; simp [lift, lup]
    | send a ls =>
      have hl' : (lift s).lt = .send a ls := by simp [lift, hl, lup]
      cases ls with
      | nil =>
        simp only [hl] at h
        cases hh : s.heap a with
        | none => simp only [hh] at h; cases h; exact absurd rfl (hv _)
        | some m =>
          simp only [hh] at h
          cases h
          exact ⟨[.log], [.done m], goLS (by simp only [logStepF, hl', show (lift s).heap a = some m from hh]; rfl) (stop_ (by simp [lift, lup])), rfl⟩
      | cons l ls =>
        simp only [hl] at h
        cases h
        exact ⟨[.log], [.tau], goLS (by simp only [logStepF, hl']; rfl) (stop_ (by simp [lift, lup])), rfl⟩
    | test a l st rem =>
      have hl' : (lift s).lt = .probe a l st rem := by simp [lift, hl, lup]
      simp only [hl] at h
      cases hh : s.heap a with
      | none => simp only [hh] at h; cases h; exact absurd rfl (hv _)
      | some m =>
        have hh' : (lift s).heap a = some m := hh
        simp only [hh] at h
        cases st with
        | enabled =>
          cases h
          refine ⟨[.log], [.tested l m .enabled (s.lst l).enabled], goLS (by simp only [logStepF, hl', hh']; rfl) (stop_ ?_), rfl⟩
          by_cases hq : (s.lst l).enabled = true <;> simp [lift, hq, lup]
        | level =>
          cases h
          refine ⟨[.log], [.tested l m .level (decide ((s.lst l).level ≥ m.level))], goLS (by simp only [logStepF, hl', hh']; rfl) (stop_ ?_), rfl⟩
          simp only [lift]
          by_cases hq : (s.lst l).level ≥ m.level <;> simp [hq, lup]
        | category =>
          by_cases hc : m.cat = []
          · cases h
            have hcc : checkCategory rx (s.lst l) m.cat = true := by simp [checkCategory, hc]
            rw [hcc]
            refine ⟨[.log], [.tested l m .category true], goLS (by simp only [logStepF, hl', hh', if_pos hc]; rfl) (stop_ ?_), rfl⟩
            simp [lift, lup]
          · cases h
            have hm := free (x := .category l) (by simp)
            have h1 : logStepF rx (lift s) = some ({ lift s with mtx := setM (lift s).mtx (.category l) (some none), lt := .cHold a l rem }, none) := by
              simp only [logStepF, hl', hh', if_neg hc]; exact acqL_ok hm
            refine ⟨[.log, .log, .log], [.tested l m .category (checkCategory rx (s.lst l) m.cat)], goLN h1 (goLS (by simp only [logStepF, hh']; rfl) (goLN rfl (stop_ ?_))), rfl⟩
            try dsimp only
            rw [set_back hm]
            by_cases hq : checkCategory rx (s.lst l) m.cat = true <;> simp [lift, hq, lup]
        | call =>
          cases h
          exact ⟨[.log], [.deliver l m], goLS (by simp only [logStepF, hl', hh']; rfl) (stop_ (by simp [lift, lup])), rfl⟩
    | clean a kept rest =>
      have hl' : (lift s).lt = .clean a kept rest := by simp [lift, hl, lup]
      cases rest with
      | nil =>
        simp only [hl] at h
        cases h
        exact ⟨[.log], [.tau], goLS (by simp only [logStepF, hl']; rfl) (stop_ (by simp [lift, lup])), rfl⟩
      | cons l ls =>
        simp only [hl] at h
        cases h
        exact ⟨[.log], [.tau], goLS (by simp only [logStepF, hl']; rfl) (stop_ (by by_cases hq : (s.lst l).detached = true <;> simp [lift, lup, hq])), rfl⟩
    | dispose a =>
      have hl' : (lift s).lt = .disp a := by simp [lift, hl, lup]
      have hm := free (x := .pool) (by simp)
      have h1 : logStepF rx (lift s) = some ({ lift s with mtx := setM (lift s).mtx .pool (some none), lt := .dTest a }, none) := by
        simp only [logStepF, hl']; exact acqL_ok hm
      simp only [hl, Falcon.Log.dispose] at h
      by_cases hp : s.pool.length < threshold
      · simp only [if_pos hp] at h
        cases h
        refine ⟨[.log, .log, .log, .log], [.tau], goLN h1 (goLN (by simp only [logStepF, if_pos (show (lift s).pool.length < threshold from hp)]; rfl) (goLS rfl (goLN rfl (stop_ ?_)))), rfl⟩
        try dsimp only
        rw [set_back hm]; simp [lift, lup]
      · simp only [if_neg hp] at h
        cases hh : s.heap a with
        | none => simp only [hh] at h; cases h; exact absurd rfl (hv _)
        | some m =>
          simp only [hh] at h
          cases h
          refine ⟨[.log, .log, .log, .log, .log], [.tau], goLN h1 (goLS (by simp only [logStepF, if_neg (show ¬ (lift s).pool.length < threshold from hp)]; rfl)
            (goLN rfl (goLN rfl (goLN (by simp only [logStepF, show (lift s).heap a = some m from hh]; rfl) (stop_ ?_))))), rfl⟩
          try dsimp only
          rw [set_back hm]; simp [lift, lup]

theorem frun_append {as bs : List FAct} {f1 f2 f3 : FSt} {es es' : List Ev} (h1 : frun rx f1 as = some (f2, es)) (h2 : frun rx f2 bs = some (f3, es')) :
    frun rx f1 (as ++ bs) = some (f3, es ++ es') := by
  induction as generalizing f1 es with
  | nil => simp only [frun] at h1; cases h1; exact h2
  | cons a as ih =>
    simp only [frun] at h1
    split at h1
    · cases h1
    · rename_i g e hs
      split at h1
      · cases h1
      · rename_i g2 es2 hr
        cases h1
        simp only [List.cons_append, frun, hs, ih hr, List.append_assoc]

theorem lift_exec {n : Nat} {t b : Bool} {s : St} {es : List Ev} (h : Exec rx (init n t b) s es) :
    ∃ as es', frun rx (finit n t b) as = some (lift s, es') ∧ visible es' = visible es := by
  induction h with
  | nil => exact ⟨[], [], by rw [lift_init]; rfl, rfl⟩
  | snoc h hs ih =>
    obtain ⟨as, es', h1, h2⟩ := ih
    obtain ⟨bs, es2, h3, h4⟩ := lift_step (fun u e => (exec_mem (h.snoc hs)).nofault u (by simp [e])) hs
    exact ⟨as ++ bs, es' ++ es2, frun_append h1 h3, by rw [visible_append, visible_append, h2, h4]⟩

end Falcon.LogM
