import Verif.Spec.LogMutex
/- Vocabulary: the log system comes to rest. -/
namespace Falcon.LogM
open Falcon.Log (Str Addr LId Msg Rx Lst Op Ev Stage Mtx LPc CPc)

/-- No new call is made. -/
def NoCalls (bs : List FAct) : Prop := ∀ a ∈ bs, a = .log ∨ a = .spurious ∨ ∃ i, a = .cli i

/-- Nobody can go on. -/
def AtRest (rx : Rx) (f : FSt) : Prop := ∀ o, ¬ Moves rx f o

/-- How many steps can be left: per message in the queue or on its way there a constant, and a constant for each listener there is or will be. -/
def stepsLeft (f : FSt) : Nat :=
  (f.queue.length + f.cl.length + 1) * (20 + 8 * (f.active.length + f.pending.length + f.cl.length)) + 15 * f.cl.length

end Falcon.LogM
