import Verif.Model.PSSync
import Verif.Spec.StackObs
/-
Vocabulary of the sync-iterator statements (C16-C19).
-/
namespace Falcon.PagedStack
variable {α : Type}

/-- A program step that the sync-iterator properties range over: any stack call and any
creation, destruction and use of sync iterators, but no copy of one (C19), and pop_reverse
only where C07 holds. -/
def Allowed (ps : Nat) (y : Sys α) : SOp α → Prop
  | .call op      => op ≠ .syncNew ∧ op ≠ .syncDrop
  | .popReverse n => 1 ≤ n ∧ n ≤ (contents y.st).length ∧ cleanRemainder ps ((contents y.st).length - n)
  | .copy _       => False
  | _             => True

/-- Program states reachable from a fresh stack by such steps. -/
inductive SReach (ps al : Nat) : Sys α → Prop where
  | init : SReach ps al ⟨init ps al, []⟩
  | step {y y' o} (op : SOp α) : SReach ps al y → Allowed ps y op → sstep y op = .ok (y', o) →
      SReach ps al y'

/-- is this call shrink_to_fit()? -/
def SOp.isShrink : SOp α → Bool
  | .call .shrink => true
  | _ => false

/-- A stretch of execution during which at least one sync iterator is alive all the time;
`asked` tells whether shrink_to_fit() was called in it. -/
inductive Busy (ps : Nat) : Sys α → Bool → Sys α → Prop where
  | refl (y) : y.its ≠ [] → Busy ps y false y
  | step {y asked y' y'' o} (op : SOp α) : Busy ps y asked y' → Allowed ps y' op →
      sstep y' op = .ok (y'', o) → y''.its ≠ [] → Busy ps y (asked || op.isShrink) y''

/-- The iterator compares equal to sync_end(). -/
def SIter.atEnd (it : SIter) : Prop := it.page = 0 ∧ it.off = -1

/-- Depth, counted from the bottom of the stack, of the place the iterator designates. -/
def SIter.fromBottom (ps : Nat) (it : SIter) : Nat := it.page * ps + it.off.toNat

end Falcon.PagedStack
