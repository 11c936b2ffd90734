import Verif.Model.PSLoop
import Verif.Spec.StackSync
/-
Vocabulary of C140: executions of a sync-iterator loop beside other threads.
-/
namespace Falcon.PagedStack
variable {α : Type}

/-- The call does not use or destroy iterator `i` (which belongs to the looping thread). -/
def SOp.LeavesAlone (i : Nat) : SOp α → Prop
  | .drop j | .get j | .inc j | .dec j => j ≠ i
  | _ => True

/-- The looping thread has not left its loop. -/
def LPc.running : LPc → Bool
  | .ended | .threw => false
  | _ => true

/-- The step may be taken: another thread calls what the sync-iterator properties allow and keeps
its hands off the two iterators of the looping thread; the looping thread runs until its
loop is over. -/
def LOk (ps : Nat) (w : Walk α) : LAct α → Prop
  | .other op => Allowed ps w.y op ∧ op.LeavesAlone w.me ∧ ∀ e, w.fin = some e → op.LeavesAlone e
  | .mine     => w.pc.running = true

/-- One entry of the record of an execution: whether it was the looping thread's step, what the
stack held at that moment (top first), and the value visited, if any. -/
structure LRec (α : Type) where
  mine  : Bool
  now   : List α
  visit : Option α

/-- Executions: any interleaving of the two kinds of steps, from one state to another. -/
inductive LExec (ps : Nat) : Walk α → List (LRec α) → Walk α → Prop where
  | refl (w) : LExec ps w [] w
  | step {w w' w'' : Walk α} {v tr} (a : LAct α) : LOk ps w a → lstep w a = .ok (w', v) →
      LExec ps w' tr w'' →
      LExec ps w (⟨(match a with | .mine => true | .other _ => false), contents w.y.st, v⟩ :: tr) w''

/-- The state of a thread that has just called sync_begin() in the state `y`, which became `y1`. -/
def startLoop (y y1 : Sys α) : Walk α := ⟨y1, y.its.length, none, .callEnd⟩

/-- What the loop visited, in order, each with the contents of the stack at that moment. -/
def visits (tr : List (LRec α)) : List (List α × α) :=
  tr.filterMap fun r => r.visit.map fun v => (r.now, v)

/-- The values the loop visited, in order. -/
def visited (tr : List (LRec α)) : List α := tr.filterMap LRec.visit

/-- Each visited value was, at the moment of its visit, the element at the given height (counted
from the bottom, 0 for the bottom element). -/
def SeenAt : List (List α × α) → List Nat → Prop
  | [], []                   => True
  | (now, v) :: vs, p :: ps  => now.reverse[p]? = some v ∧ SeenAt vs ps
  | _, _                     => False

/-- All through the execution the lowest elements of the stack are those of `base`
(bottom first). -/
def Stays (base : List α) (tr : List (LRec α)) : Prop := ∀ r ∈ tr, base <+: r.now.reverse

end Falcon.PagedStack
