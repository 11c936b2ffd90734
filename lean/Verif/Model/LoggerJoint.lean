import Verif.Model.Logger
/-
Threads that execute LOG statements, together with the log system that takes the messages: the composition of
`Model/Logger.lean` and `Model/LogSystem.lean`. A message that a statement emits is a call of `LogSystem::log`
(logger.h 277-287), and the thread goes on with its statements when that call has returned.

Simplifications: those of the two models. `Model/Logger.lean` tests the level of a message again when it is
committed, as `LogSystem::log` does (logsystem.cpp 88); a message that fails this test is not passed on here.
-/
namespace Falcon.LoggerJoint
open Falcon.Log (St Ev Act Rx Msg)
open Falcon.Logger (W)

/-- Who moves: a thread in its statements, or the log system (its thread, a thread inside one of its calls, or a
thread that calls something other than `log`). Not in the code: the scheduler, for logger.h 265-432 and
logsystem.cpp 56-240. -/
inductive JAct where
  | compose (i : Nat)
  | system (a : Act)
  deriving DecidableEq, Repr

/-- `log` is called by LOG statements only (logger.h 277-287). -/
def callsLog : Act → Bool
  | .call _ (.log _)    => true
  | .call _ (.logPtr _) => true
  | _                   => false

/-- One step. A thread composes only while it is not inside a call of the log system; a commit that emits a message
calls `LogSystem::log` with it (logger.h 277-287). -/
def jstep (rx : Rx) (min : Int) (w : W) (s : St) : JAct → Option (W × St × List Ev)
  | .compose i =>
    match s.cl[i]? with
    | some .idle =>
      let w' := Falcon.Logger.step min w i
      match w'.out.drop w.out.length with
      | []          => some (w', s, [])
      | (_, m) :: _ =>
        match Falcon.Log.step rx s (.call i (.log m)) with
        | none        => none
        | some (s, e) => some (w', s, [e])
    | _ => none
  | .system a =>
    if callsLog a = true then none
    else match Falcon.Log.step rx s a with
      | none        => none
      | some (s, e) => some (w, s, [e])

/-- A schedule. Not in the code: the threads that use logger.h 265-432. -/
def jrun (rx : Rx) (min : Int) (w : W) (s : St) : List JAct → Option (W × St × List Ev)
  | []      => some (w, s, [])
  | a :: as =>
    match jstep rx min w s a with
    | none           => none
    | some (w, s, e) =>
      match jrun rx min w s as with
      | none            => none
      | some (w, s, es) => some (w, s, e ++ es)

end Falcon.LoggerJoint
