import Verif.Spec.LogMutexRest
/- Vocabulary: the work done by the log system, against what it was asked to do. -/
namespace Falcon.LogM
open Falcon.Log (Str Addr LId Msg Rx Lst Op Ev Stage Mtx LPc CPc)

/-- A thread begins a call. -/
def isCall : FAct → Bool
  | .call _ _ | .diags _ | .categ _ _ => true
  | _ => false

/-- How many listeners are added. -/
def adds (as : List FAct) : Nat := as.countP fun a => match a with | .call _ (.addListener _) => true | _ => false

/-- The steps that may be done, by whatever thread, on account of this event when there are never more than `L` listeners: a log call costs
a constant and 8 steps for each listener, every other call a constant; nothing is done on account of a step. -/
def budget (L : Nat) : FAct → Nat
  | .call _ (.log _) => 36 + 8 * L
  | .call _ (.logPtr _) => 31 + 8 * L
  | .call _ .stop => 13
  | .call _ .start => 8
  | .call _ (.addListener _) => 4
  | .call _ (.category _ _) => 5
  | .call _ _ => 1
  | .diags _ => 7
  | .categ _ _ => 3
  | .spurious => 4
  | .cli _ => 0
  | .log => 0

end Falcon.LogM
