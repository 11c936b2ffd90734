import Verif.Spec.LogMutexReact
/- Vocabulary: how much listeners that use the log system can keep it busy. -/
namespace Falcon.LogM
open Falcon.Log (Str Addr LId Msg Rx Lst Op Ev Stage Mtx)

/-- How often log was called, by the program's threads and by listeners, as observed. -/
def logCalls (es : List Ev) : Nat := es.countP fun e => match e with | .call _ (.log _) | .call _ (.logPtr _) => true | _ => false

/-- How many calls of any kind the program's threads have begun. -/
def asks (as : List FRAct) : Nat := as.countP fun a => match a with | .req _ _ => true | _ => false

/-- How many of these add a listener. -/
def asksToAdd (as : List FRAct) : Nat := as.countP fun a => match a with | .req _ (.op (.addListener _)) => true | _ => false

/-- No call of onMessage makes more than `q` calls on the log system. -/
def Brief (q : Nat) (as : List FRAct) : Prop := ∀ d, .log d ∈ as → d.reqs.length ≤ q

/-- The listeners there can be at most after `M` messages if the program adds `A` of them, and each one adds `q` at every message. -/
def listenersAtMost (q M A : Nat) : Nat := A * (1 + q) ^ M

end Falcon.LogM
