import Verif.Model.LogSystem
/-
`LogSystem::getDiags` (logsystem.cpp 253-274) as what it is: a call that reads one number after the
other while the other threads go on.  Any number of observer threads, each calling getDiags() again
and again, beside the system of Model/LogSystem.lean.

Simplification: a thread that both logs and calls getDiags() is a client and an observer that never
overlap, so its executions are among those of the model.  That the plain reads of 257-260 race with
the logging thread is C134; here a list that changed under the loop of 258-259 is undefined behaviour
and everything else is read as it is at that moment.
-/
namespace Falcon.Log

/-- The points between the reads of getDiags, logsystem.cpp 255-273. -/
inductive DStage where
  | created                          -- before 255
  | discarded                        -- before 256
  | active                           -- before 257
  | begin                            -- before begin()/end() of 258
  | each (all rest : List LId)       -- in the loop of 258-259: the list it runs through, what remains
  | received                         -- before 260
  | maxQ                             -- before the critical section 262-265
  | pool                             -- 266-269
  | pending                          -- 270-273
  deriving DecidableEq, Repr

/-- The system, and for each observer the call it is in (`none`: in none) with the caller's `Diags`,
logsystem.h 238-248. -/
structure DSt where
  base : St
  obs  : List (Option (DStage × Diags))

/-- Not in the code: who does what in logsystem.cpp 56-274. -/
inductive DAct where
  | base (a : Act)
  | call (j : Nat) (d : Diags)      -- observer j calls getDiags(d)
  | obs (j : Nat)                   -- observer j goes on
  deriving DecidableEq, Repr

/-- What can be observed. Not in the code: logsystem.cpp 56-274. -/
inductive DEv where
  | ev (e : Ev)
  | call (j : Nat)
  | read (j : Nat)
  | ret (j : Nat) (d : Diags)       -- the call returns, `d` is what it filled in
  | fault (j : Nat) (u : UB)
  deriving DecidableEq, Repr

/-- The next read of getDiags, logsystem.cpp 253-274: the next point and what is filled in; `none`: the
list the loop runs through is no longer there. -/
def dread (s : St) : DStage → Diags → Option (Option DStage × Diags)
  | .created, d   => some (some .discarded, { d with msgsCreated := s.unpooled })
  | .discarded, d => some (some .active, { d with msgsDiscarded := s.destroyed })
  | .active, d    => some (some .begin, { d with activeListeners := s.active.length })
  | .begin, d     => some (some (.each s.active s.active), { d with enabledListeners := 0 })
  | .each _ [], d => some (some .received, d)
  | .each all (l :: rest), d =>
    if s.active = all then
      some (some (.each all rest), { d with enabledListeners := d.enabledListeners + if (s.lst l).enabled then 1 else 0 })
    else none
  | .received, d  => some (some .maxQ, { d with msgReceived := s.received })
  | .maxQ, d      => some (some .pool, { d with maxMsgQueueSize := s.maxQ })
  | .pool, d      => some (some .pending, { d with poolSize := s.pool.length })
  | .pending, d   => some (none, { d with pendingListeners := s.pending.length })

/-- One step. logsystem.cpp 56-274. -/
def dstep (rx : Rx) (w : DSt) : DAct → Option (DSt × DEv)
  | .base a =>
    match step rx w.base a with
    | some (s', e) => some ({ w with base := s' }, .ev e)
    | none         => none
  | .call j d =>
    match w.obs[j]? with
    | some none => some ({ w with obs := w.obs.set j (some (.created, d)) }, .call j)
    | _         => none
  | .obs j =>
    match w.obs[j]? with
    | some (some (st, d)) =>
      match dread w.base st d with
      | none                  => some (w, .fault j .useAfterFree)
      | some (some st', d')   => some ({ w with obs := w.obs.set j (some (st', d')) }, .read j)
      | some (none, d')       => some ({ w with obs := w.obs.set j none }, .ret j d')
    | _ => none

/-- Executions. Not in the code: a schedule of logsystem.cpp 56-274. -/
inductive DExec (rx : Rx) (w0 : DSt) : DSt → List DEv → Prop where
  | nil : DExec rx w0 w0 []
  | snoc {w w' es a e} : DExec rx w0 w es → dstep rx w a = some (w', e) → DExec rx w0 w' (es ++ [e])

/-- A schedule, executed. Not in the code: logsystem.cpp 56-274. -/
def drun (rx : Rx) : DSt → List DAct → Option (DSt × List DEv)
  | w, []      => some (w, [])
  | w, a :: as =>
    match dstep rx w a with
    | none => none
    | some (w', e) =>
      match drun rx w' as with
      | none => none
      | some (w'', es) => some (w'', e :: es)

/-- Constructor 21-37, with `n` clients and `k` observers. -/
def dinit (n k : Nat) (term0 startNow : Bool) : DSt := { base := init n term0 startNow, obs := List.replicate k none }

end Falcon.Log
