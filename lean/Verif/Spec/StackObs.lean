import Verif.Model.PagedStack
import Verif.Spec.Stack
/-
Vocabulary of the PagedStack property statements: contents of a stack, reachable stacks,
"behaves like an ideal stack holding these items".
-/
namespace Falcon.PagedStack
variable {α : Type}

/-- The elements of the stack, top first: everything on the pages up to the current one.
(`contents_observable` in Props shows that this is what popping everything returns.) -/
def contents (s : PS α) : List α := ((s.base.take (s.cur + 1)).flatten).reverse

/-- Remaining size after which an iterator-based discard leaves the page structure intact. -/
def cleanRemainder (ps r : Nat) : Prop := r = 0 ∨ r % ps ≠ 0

/-- Stacks a program can have: constructed, then modified by any calls that returned normally.
Destruction of a sync iterator needs a live one.  `pop_reverse` and `discard(iterator)` are
included as long as the number of elements left is not a positive multiple of the page size
(C07 and C08 prove that this is exactly the case in which they work). -/
inductive Reach (ps al : Nat) : PS α → Prop where
  | init : Reach ps al (init ps al)
  | call {s s' o} (op : Op α) : Reach ps al s → (op = .syncDrop → 0 < s.syncCount) →
      step s op = .ok (s', o) → Reach ps al s'
  | clear {s s'} : Reach ps al s → clear s = .ok s' → Reach ps al s'
  | popReverse {s s' vs} (n : Nat) : Reach ps al s → 1 ≤ n → n ≤ (contents s).length →
      cleanRemainder ps ((contents s).length - n) → popReverse s n = .ok (s', vs) → Reach ps al s'

/-- Under every later history of calls whose preconditions hold for an ideal stack holding
`items`, every returned value is the ideal one. -/
def BehavesLike (ps al : Nat) (s : PS α) (items : List α) : Prop :=
  ∀ (ops : List (Op α)) t os,
    StackSpec.run ps al { items := items, blocks := s.base.length, iters := s.syncCount.toNat,
                          pending := s.shrinkReq } ops = some (t, os) →
    ∃ s', run s ops = .ok (s', os) ∧ contents s' = t.items

end Falcon.PagedStack
