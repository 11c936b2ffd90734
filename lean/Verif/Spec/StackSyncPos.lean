import Verif.Spec.StackSync
import Verif.Spec.StackLoop
/-
Vocabulary of C141 and of the exact part of C17: where a sync iterator stands.
-/
namespace Falcon.PagedStack
variable {α : Type}

/-- The live iterator `i` designates height `k`, counted from the bottom (0 for the bottom
element), whether or not that height is in use now; no call on it has thrown. -/
def Stands (ps : Nat) (y : Sys α) (i k : Nat) : Prop :=
  ∃ it, y.its[i]? = some it ∧ it.threw = false ∧ ¬ it.atEnd ∧ it.fromBottom ps = k

/-- The live iterator `i` is at the end position; no call on it has thrown. -/
def StandsAtEnd (y : Sys α) (i : Nat) : Prop :=
  ∃ it, y.its[i]? = some it ∧ it.threw = false ∧ it.atEnd

/-- Any calls on the stack and on other iterators, during which iterator `i` (whose number is `i'`
afterwards) is neither used nor destroyed. -/
inductive Meanwhile (ps : Nat) : Sys α → Nat → Sys α → Nat → Prop where
  | refl (y i) : Meanwhile ps y i y i
  | step {y i y' i' y'' o} (op : SOp α) : Meanwhile ps y i y' i' → Allowed ps y' op → op.LeavesAlone i' →
      sstep y' op = .ok (y'', o) → Meanwhile ps y i y'' (renumber op i')

end Falcon.PagedStack
