import Verif.Spec.StackObs
/-
Specification: histories that leave one element of an ideal stack alone.

Elements are named by their height: the number of elements below them.
-/
namespace Falcon.StackSpec
open Falcon.PagedStack (Op)
variable {α : Type}

/-- Every call of the history meets its precondition; the element at height `h` is never removed
and never overwritten by `top(v)`; and at least `pages` pages stay allocated throughout. -/
def Undisturbed (ps al h pages : Nat) : St α → List (Op α) → Prop
  | _, []        => True
  | t, op :: ops => ∃ t' o, step ps al t op = some (t', o) ∧ h < t'.items.length ∧
      (∀ y, op = .setTop y → h + 1 < t.items.length) ∧ pages ≤ t'.blocks ∧
      Undisturbed ps al h pages t' ops

end Falcon.StackSpec

namespace Falcon.PagedStack

/-- The ideal stack a stack stands for. -/
def ideal {α : Type} (s : PS α) : StackSpec.St α :=
  { items := contents s, blocks := s.base.length, iters := s.syncCount.toNat, pending := s.shrinkReq }

end Falcon.PagedStack
