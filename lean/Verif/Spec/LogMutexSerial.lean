import Verif.Model.LogMutexReact
/-
What a listener is seen doing in onMessage.
-/
namespace Falcon.LogM
open Falcon.Log (Op Ev)

/-- Observed of the loop of the logging thread: taking a message, serving it, testing and calling a listener, sleeping, ending. -/
def LoopEv : Ev → Bool
  | .take | .sleep | .dispatch _ _ | .tested _ _ _ _ | .deliver _ _ | .done _ | .exit => true
  | _ => false

/-- The modifying calls made by thread `i`, in the order in which they took place: every call of one of the functions is seen once, when it starts
(log, stop), when it is done or when it throws (the others). -/
def callsBy (i : Nat) (es : List Ev) : List Op :=
  es.filterMap (fun e => match e with
    | .call k o | .did k o | .threw k o => if k = i then some o else none
    | _ => none)

/-- The modifying calls among the calls a listener makes. -/
def opsOf (qs : List Req) : List Op := qs.filterMap (fun q => match q with | .op o => some o | _ => none)

end Falcon.LogM
