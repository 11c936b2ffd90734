import Verif.Model.LogMutexReact
import Verif.Spec.LogMutexWork
/- Vocabulary: listeners that use the log system, with explicit mutexes. -/
namespace Falcon.LogM
open Falcon.Log (Str Addr LId Msg Rx Lst Op Ev Stage Mtx)

/-- The listener neither throws nor starts or stops the system. -/
def Doing.Mild (d : Doing) : Prop := d.throws = false ∧ Req.op .start ∉ d.reqs ∧ Req.op .stop ∉ d.reqs

/-- All listeners behave in this way. -/
def AllMild (as : List FRAct) : Prop := ∀ d, .log d ∈ as → d.Mild

/-- Thread `o` (`none`: the logging thread) can make its next step, now that listeners may be at work. -/
def Proceeds (rx : Rx) (self : Nat) (r : FRst) : Tid → Prop
  | some i => ∃ x, frstep rx self r (.cli i) = some x
  | none   => ∀ d, ∃ x, frstep rx self r (.log d) = some x

/-- The mutexes held by the logging thread, in its loop or inside onMessage. -/
def LoggerHolds (self : Nat) (r : FRst) (x : Mtx) : Prop := r.base.mtx x = some none ∨ r.base.mtx x = some (some self)

end Falcon.LogM
