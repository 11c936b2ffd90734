import Verif.Model.PagedStack
/-
The life of the element objects of a `PagedStack`: the calls of `Model/PagedStack.lean` once more, with
the constructor, assignment and destructor calls that `std::vector` and `std::list` make on the elements.

Simplifications: as in `Model/PagedStack.lean`; page size and preallocation are positive and memory does
not run out, so that a page never exceeds the capacity reserved for it and no vector moves its elements
(pagedstack.h 69-76; `Props/PSAlloc.lean` treats the other case); element operations do not throw.
-/
namespace Falcon.PagedStack

variable {M α V : Type}

/-- What the element type does. `M` is everything outside the stack that element operations touch, `V`
the argument type of the calls. Used by the vectors of pagedstack.h 54-66. -/
structure Elem (M α V : Type) where
  make    : M → V → Res (M × α)
  assign  : M → α → V → Res (M × α)
  destroy : M → α → Res M

/-- Destroys a range of elements, front to back: `vector::clear`, `vector::resize`, `~vector`.
Used by pagedstack.h 105-146, 496-533. -/
def destroyAll (E : Elem M α V) : M → List α → Res M
  | m, []      => .ok m
  | m, x :: xs => do destroyAll E (← E.destroy m x) xs

/-- `internal_push` 127-130, `push_emplace` 456-462: the element is constructed in its page. -/
def pushL (E : Elem M α V) (m : M) (s : PS α) (v : V) : Res (M × PS α) := do
  let s ← advance s
  let p ← s.page s.cur
  let (m, x) ← E.make m v
  .ok (m, s.setPage s.cur (p ++ [x]))

/-- variadic `internal_push` 132-137. -/
def pushManyL (E : Elem M α V) (m : M) (s : PS α) (v : V) : List V → Res (M × PS α)
  | []      => pushL E m s v
  | w :: ws => do
      let (m, s) ← pushL E m s v
      pushManyL E m s w ws

/-- `top(value)` 434. -/
def setTopL (E : Elem M α V) (m : M) (s : PS α) (v : V) : Res (M × PS α) := do
  let p ← s.page s.cur
  match p.getLast? with
  | none   => .error (.ub .emptyBack)
  | some x => do
      let (m, y) ← E.assign m x v
      .ok (m, s.setPage s.cur (p.dropLast ++ [y]))

/-- `internal_pop_one` 96-101: `pop_back` destroys the element. -/
def popOneL (E : Elem M α V) (m : M) (s : PS α) : Res (M × PS α) := do
  let p ← s.page s.cur
  match p.getLast? with
  | none   => .error (.ub .emptyPopBack)
  | some x => do
      let m ← E.destroy m x
      let s' := s.setPage s.cur p.dropLast
      if p.dropLast = [] ∧ s.cur ≠ 0 then .ok (m, { s' with cur := s.cur - 1 })
      else .ok (m, s')

/-- `pop(v1..vn)` 89-94, 482-487; returns what the variables are assigned from. -/
def popManyL (E : Elem M α V) : M → PS α → Nat → Res (M × PS α × List α)
  | m, s, 0     => .ok (m, s, [])
  | m, s, n + 1 => do
      let v ← top s
      let (m, s) ← popOneL E m s
      let (m, s, vs) ← popManyL E m s n
      .ok (m, s, v :: vs)

/-- Loop of `discard(size_t)` 499-507; `clear()` and `resize()` destroy elements. -/
def discardLoopL (E : Elem M α V) (base : List (List α)) : M → Nat → Nat → Res (M × List (List α) × Nat)
  | m, 0, count =>
    match base[0]? with
    | none   => .error (.ub .derefListEnd)
    | some p =>
      if count ≥ p.length then do
        let m ← destroyAll E m p
        .ok (m, base.set 0 [], 0)
      else do
        let m ← destroyAll E m (p.drop (p.length - count))
        .ok (m, base.set 0 (p.take (p.length - count)), 0)
  | m, c + 1, count =>
    match base[c + 1]? with
    | none   => .error (.ub .derefListEnd)
    | some p =>
      if count ≥ p.length then do
        let m ← destroyAll E m p
        discardLoopL E (base.set (c + 1) []) m c (count - p.length)
      else do
        let m ← destroyAll E m (p.drop (p.length - count))
        .ok (m, base.set (c + 1) (p.take (p.length - count)), c + 1)

/-- `discard(size_t count)` 496-508. -/
def discardL (E : Elem M α V) (m : M) (s : PS α) (count : Nat) : Res (M × PS α) := do
  let (m, b, c) ← discardLoopL E s.base m s.cur count
  .ok (m, { s with base := b, cur := c })

/-- Loop of `clear` 529-532. -/
def clearLoopL (E : Elem M α V) (base : List (List α)) : M → Nat → Res (M × List (List α))
  | m, 0     => .ok (m, base)
  | m, c + 1 =>
    match base[c + 1]? with
    | none   => .error (.ub .derefListEnd)
    | some p => do
      let m ← destroyAll E m p
      clearLoopL E (base.set (c + 1) []) m c

/-- `clear` 526-533. -/
def clearL (E : Elem M α V) (m : M) (s : PS α) : Res (M × PS α) := do
  let (m, b) ← clearLoopL E s.base m s.cur
  .ok (m, { s with base := b, cur := 0 })

/-- First loop of `internal_discard` 108-111. -/
def discardToLoopL (E : Elem M α V) (base : List (List α)) (iBase : Nat) : M → Nat → Res (M × List (List α))
  | m, 0     => if 0 = iBase then .ok (m, base) else .error (.ub .decListBegin)
  | m, c + 1 =>
    if c + 1 = iBase then .ok (m, base)
    else match base[c + 1]? with
      | none   => .error (.ub .derefListEnd)
      | some p => do
        let m ← destroyAll E m p
        discardToLoopL E (base.set (c + 1) []) iBase m c

/-- `internal_discard` 105-125. At the begin of a page that is not the first (114-117) nothing is
destroyed. -/
def internalDiscardL (E : Elem M α V) (m : M) (s : PS α) (iBase : Nat) (iData : Int) : Res (M × PS α) := do
  let (m, b) ← discardToLoopL E s.base iBase m s.cur
  let s := { s with base := b, cur := iBase }
  let p ← s.page iBase
  if iData = 0 then
    if iBase ≠ 0 then .ok (m, { s with cur := iBase - 1 })
    else do
      let m ← destroyAll E m p
      .ok (m, s.setPage 0 [])
  else if iData < 0 ∨ iData > p.length then .error (.ub .ptrRange)
  else do
    let m ← destroyAll E m (p.drop iData.toNat)
    .ok (m, s.setPage iBase (p.take iData.toNat))

/-- `pop_reverse(v1..vn)` 676-685; returns what the variables are assigned from. -/
def popReverseL (E : Elem M α V) (m : M) (s : PS α) (n : Nat) : Res (M × PS α × List α) := do
  let pos ← fromTop s n
  let vs ← distribute s (revInc s) n pos
  let (m, s) ← internalDiscardL E m s pos.page pos.off
  .ok (m, s, vs)

/-- `internal_shrink_to_fit` 139-146: erasing a page destroys its elements. -/
def internalShrinkL (E : Elem M α V) (m : M) (s : PS α) : Res (M × PS α) := do
  let m ← destroyAll E m (s.base.drop (s.cur + 1)).flatten
  .ok (m, { s with base := s.base.take (s.cur + 1) })

/-- `shrink_to_fit` 541-548. -/
def shrinkToFitL (E : Elem M α V) (m : M) (s : PS α) : Res (M × PS α) :=
  if s.syncCount > 0 then .ok (m, { s with shrinkReq := true }) else internalShrinkL E m s

/-- `removeSyncIterator` 148-154. -/
def syncDropL (E : Elem M α V) (m : M) (s : PS α) : Res (M × PS α) :=
  let s := { s with syncCount := s.syncCount - 1 }
  if s.syncCount = 0 ∧ s.shrinkReq = true then internalShrinkL E m { s with shrinkReq := false }
  else .ok (m, s)

/-- The implicit destructor of the stack: `m_base` (61) destroys its pages. -/
def destructL (E : Elem M α V) (m : M) (s : PS α) : Res M := destroyAll E m s.base.flatten

/-- The calls that change the stack. pagedstack.h 423-721. -/
inductive LOp (V : Type) where
  | push (v : V)
  | pushMany (v : V) (vs : List V)
  | pop
  | popMany (n : Nat)
  | setTop (v : V)
  | discard (n : Nat)
  | discardAt (it : Iter)          -- discard(iterator)
  | popReverse (n : Nat)
  | clear
  | shrink
  | syncNew
  | syncDrop
  deriving DecidableEq, Repr

/-- One call; returns what variables of the caller are assigned from. pagedstack.h 423-721, by the
functions above. -/
def lifeStep (E : Elem M α V) (m : M) (s : PS α) : LOp V → Res (M × PS α × List α)
  | .push v        => do let (m, s) ← pushL E m s v; .ok (m, s, [])
  | .pushMany v vs => do let (m, s) ← pushManyL E m s v vs; .ok (m, s, [])
  | .pop           => do let (m, s) ← popOneL E m s; .ok (m, s, [])
  | .popMany n     => popManyL E m s n
  | .setTop v      => do let (m, s) ← setTopL E m s v; .ok (m, s, [])
  | .discard n     => do let (m, s) ← discardL E m s n; .ok (m, s, [])
  | .discardAt it  => do let (m, s) ← internalDiscardL E m s it.page it.off; .ok (m, s, [])
  | .popReverse n  => popReverseL E m s n
  | .clear         => do let (m, s) ← clearL E m s; .ok (m, s, [])
  | .shrink        => do let (m, s) ← shrinkToFitL E m s; .ok (m, s, [])
  | .syncNew       => .ok (m, syncNew s, [])
  | .syncDrop      => do let (m, s) ← syncDropL E m s; .ok (m, s, [])

/-- A history of calls. Not in the code: a history of calls of pagedstack.h 423-721. -/
def lifeRun (E : Elem M α V) (m : M) (s : PS α) : List (LOp V) → Res (M × PS α)
  | []      => .ok (m, s)
  | o :: os => do
      let (m, s, _) ← lifeStep E m s o
      lifeRun E m s os

end Falcon.PagedStack
