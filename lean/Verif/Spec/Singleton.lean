import Verif.Model.Singleton
/- Specification of singletons, over the observable events only. -/
namespace Falcon.Singleton

/-- The type an event is about, the instance it touches, and the value there afterwards. -/
def Ev.ty : Ev → Nat
  | .built t _ _ | .read t _ _ _ _ | .wrote t _ _ _ _ => t
def Ev.inst : Ev → Nat
  | .built _ i _ | .read _ _ _ i _ | .wrote _ _ _ i _ => i
def Ev.value : Ev → Nat
  | .built _ _ v | .read _ _ _ _ v | .wrote _ _ _ _ v => v
def Ev.isBuilt : Ev → Bool
  | .built .. => true
  | _ => false
def Ev.isRead : Ev → Bool
  | .read .. => true
  | _ => false

/-- The last event before `pre` ends that set the value of type `ty`'s instance. -/
def lastSet (ty : Nat) (pre : List Ev) : Option Nat := (pre.filter (fun e => e.ty == ty && !e.isRead)).getLast?.map Ev.value

end Falcon.Singleton
