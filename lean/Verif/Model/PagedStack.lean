import Verif.Basic
/-
Model of `falcon::PagedStack` (src/include/falcon/engine/pagedstack.h).

A page (`std::vector<_T>` with reserved capacity) is a list, its last element being the most
recently pushed one.  `m_base` (a `std::list` of pages) is a list of pages; the list iterator
`m_curBase` is the index of the page it designates (`base.length` stands for `m_base.end()`).
Simplifications: `size_t` is unbounded, allocation succeeds, the mutex is handled in
`Model/Futex.lean` (here every public call is one sequential operation), assertions are
compiled out, allocators are irrelevant.
-/
namespace Falcon.PagedStack

/-- Fields of `PagedStack`: pagedstack.h 59-66 (`m_dataAllocator`, `m_mutex` left out). -/
structure PS (α : Type) where
  pageSize  : Nat
  allocSize : Nat
  base      : List (List α)
  cur       : Nat
  syncCount : Int
  shrinkReq : Bool
  deriving DecidableEq, Repr

variable {α : Type}

/-- `*iter` for a `std::list<page>` iterator; dereferencing `end()` is undefined. pagedstack.h 423-721. -/
def PS.page (s : PS α) (i : Nat) : Res (List α) :=
  match s.base[i]? with
  | some p => .ok p
  | none   => .error (.ub .derefListEnd)

/-- Overwrite the page designated by the index. pagedstack.h 423-721. -/
def PS.setPage (s : PS α) (i : Nat) (p : List α) : PS α := { s with base := s.base.set i p }

/-- `growBase`, pagedstack.h 69-76: append `m_allocSize` empty pages. -/
def growBase (s : PS α) : PS α :=
  { s with base := s.base ++ List.replicate s.allocSize [] }

/-- Constructor, pagedstack.h 423-432. -/
def init (pageSize prealloc : Nat) : PS α :=
  growBase { pageSize := pageSize, allocSize := prealloc, base := [], cur := 0,
             syncCount := 0, shrinkReq := false }

/-- `advance`, pagedstack.h 78-87. -/
def advance (s : PS α) : Res (PS α) := do
  let p ← s.page s.cur
  if p.length = s.pageSize then
    if s.cur + 1 = s.base.length then
      let s' := growBase s
      .ok { s' with cur := s'.cur + 1 }
    else
      .ok { s with cur := s.cur + 1 }
  else
    .ok s

/-- `m_curBase->push_back(data)` / `emplace_back`. pagedstack.h 129, 135, 461. -/
def pushBack (s : PS α) (x : α) : Res (PS α) := do
  let p ← s.page s.cur
  .ok (s.setPage s.cur (p ++ [x]))

/-- `internal_push(data)` 127-130 (also body of `push` 437-440 and `push_emplace` 456-462). -/
def push (s : PS α) (x : α) : Res (PS α) := do
  let s ← advance s
  pushBack s x

/-- variadic `internal_push` 132-137 / `push(data, args...)` 447-451:
push the first argument, recurse on the rest (the recursion ends with one argument). -/
def pushMany (s : PS α) (x : α) : List α → Res (PS α)
  | []      => push s x
  | y :: ys => do
      let s ← advance s
      let s ← pushBack s x
      pushMany s y ys

/-- `push_emplace` 456-462; the constructed value is `x`. -/
def pushEmplace (s : PS α) (x : α) : Res (PS α) := do
  let s ← advance s
  pushBack s x

/-- `push` whose element copy throws: `advance()` (129) has already happened when
`push_back` throws (with the strong guarantee, i.e. the page is unchanged). -/
def pushThrowing (s : PS α) : Res (PS α × Exn) := do
  let s ← advance s
  let _ ← s.page s.cur
  .ok (s, .elementCopy)

/-- `top() const` 435. -/
def top (s : PS α) : Res α := do
  let p ← s.page s.cur
  match p.getLast? with
  | some x => .ok x
  | none   => .error (.ub .emptyBack)

/-- `top(value)` 434. -/
def setTop (s : PS α) (x : α) : Res (PS α) := do
  let p ← s.page s.cur
  if p = [] then .error (.ub .emptyBack)
  else .ok (s.setPage s.cur (p.dropLast ++ [x]))

/-- `internal_pop_one` 96-101 (body of `pop()` 469-473). -/
def popOne (s : PS α) : Res (PS α) := do
  let p ← s.page s.cur
  if p = [] then .error (.ub .emptyPopBack)
  else
    let s' := s.setPage s.cur p.dropLast
    if p.dropLast = [] ∧ s.cur ≠ 0 then
      .ok { s' with cur := s.cur - 1 }
    else .ok s'

/-- `pop(v1,...,vn)`, pagedstack.h 89-94, 103, 482-487: returns the values stored in
`v1..vn`. -/
def popMany : PS α → Nat → Res (PS α × List α)
  | s, 0     => .ok (s, [])
  | s, n + 1 => do
      let v ← top s
      let s ← popOne s
      let (s, vs) ← popMany s n
      .ok (s, v :: vs)

/-- Loop of `discard(size_t)` 499-507, `c` is `m_curBase`. -/
def discardLoop (base : List (List α)) : Nat → Nat → Res (List (List α) × Nat)
  | 0, count =>
    match base[0]? with
    | none   => .error (.ub .derefListEnd)
    | some p =>
      if count ≥ p.length then .ok (base.set 0 [], 0)
      else .ok (base.set 0 (p.take (p.length - count)), 0)
  | c + 1, count =>
    match base[c + 1]? with
    | none   => .error (.ub .derefListEnd)
    | some p =>
      if count ≥ p.length then discardLoop (base.set (c + 1) []) c (count - p.length)
      else .ok (base.set (c + 1) (p.take (p.length - count)), c + 1)

/-- `discard(size_t count)` 496-508. -/
def discard (s : PS α) (count : Nat) : Res (PS α) := do
  let (b, c) ← discardLoop s.base s.cur count
  .ok { s with base := b, cur := c }

/-- Loop of `clear` 529-532. -/
def clearLoop (base : List (List α)) : Nat → List (List α)
  | 0     => base
  | c + 1 => clearLoop (base.set (c + 1) []) c

/-- `clear` 526-533. -/
def clear (s : PS α) : Res (PS α) := do
  let _ ← s.page s.cur
  .ok { s with base := clearLoop s.base s.cur, cur := 0 }

/-- `internal_shrink_to_fit` 139-146: erase every page after the current one. -/
def internalShrink (s : PS α) : PS α := { s with base := s.base.take (s.cur + 1) }

/-- `shrink_to_fit` 541-548. -/
def shrinkToFit (s : PS α) : PS α :=
  if s.syncCount > 0 then { s with shrinkReq := true } else internalShrink s

/-- `empty` 555-558. -/
def isEmpty (s : PS α) : Res Bool :=
  if s.cur = 0 then do
    let p ← s.page s.cur
    .ok p.isEmpty
  else .ok false

/-- `size` 693-703 (`iter` walks from the first page up to `m_curBase`). -/
def size (s : PS α) : Res Nat := do
  let p ← s.page s.cur
  .ok (((s.base.take s.cur).map List.length).sum + p.length)

/-- Result of `getStats`. pagedstack.h 710-721. -/
structure Stats where
  blocks   : Nat
  depth    : Nat
  curBlock : Nat
  curData  : Nat
  deriving DecidableEq, Repr

/-- `getStats` 710-721 (`curBlock` starts at 1 and counts the pages before `m_curBase`). -/
def getStats (s : PS α) : Res Stats := do
  let p ← s.page s.cur
  .ok { blocks := s.base.length, depth := s.pageSize, curBlock := 1 + s.cur, curData := p.length }

/-- Creation of a sync iterator, 350-361: the live-iterator count is incremented. -/
def syncNew (s : PS α) : PS α := { s with syncCount := s.syncCount + 1 }

/-- `removeSyncIterator` 148-154, called by the destructor of a sync iterator 345-347. -/
def syncDrop (s : PS α) : PS α :=
  let s := { s with syncCount := s.syncCount - 1 }
  if s.syncCount = 0 ∧ s.shrinkReq = true then
    internalShrink { s with shrinkReq := false }
  else s

/-! ### Iterators -/

/-- State of an iterator: the designated page, the offset of the data pointer in that page
(`-1` is the `begin()-1` mark), and the page bound captured at construction
(`m_iBaseBegin`, resp. `m_iBaseEnd`). pagedstack.h 156-297. -/
structure Iter where
  page  : Nat
  off   : Int
  bound : Nat
  deriving DecidableEq, Repr

/-- `operator==` 163-165, 236-238, 312-315 (the bound is not compared). -/
def Iter.eqv (a b : Iter) : Bool := a.page == b.page && a.off == b.off

/-- `operator*` 159-161, 232-234. -/
def Iter.deref (s : PS α) (it : Iter) : Res α := do
  let p ← s.page it.page
  if it.off < 0 then .error (.ub .derefData)
  else match p[it.off.toNat]? with
    | some x => .ok x
    | none   => .error (.ub .derefData)

/-- Decrement of a data pointer; below `begin()-1` is out of range. pagedstack.h 156-297. -/
def ptrDec (off : Int) : Res Int :=
  if off < 0 then .error (.ub .ptrRange) else .ok (off - 1)

/-- Increment of a data pointer; past `end()` is out of range. pagedstack.h 156-297. -/
def ptrInc (p : List α) (off : Int) : Res Int :=
  if off < p.length then .ok (off + 1) else .error (.ub .ptrRange)

/-- forward `operator++`, 266-273. -/
def fwdInc (s : PS α) (it : Iter) : Res Iter := do
  let _ ← s.page it.page
  if it.off = 0 ∧ it.page ≠ it.bound then
    if it.page = 0 then .error (.ub .decListBegin)
    else
      let q ← s.page (it.page - 1)
      let o ← ptrDec q.length
      .ok { it with page := it.page - 1, off := o }
  else
    let o ← ptrDec it.off
    .ok { it with off := o }

/-- forward `operator--`, 275-282. -/
def fwdDec (s : PS α) (it : Iter) : Res Iter := do
  let p ← s.page it.page
  let o ← ptrInc p it.off
  if o = p.length then
    let _ ← s.page (it.page + 1)
    .ok { it with page := it.page + 1, off := 0 }
  else .ok { it with off := o }

/-- reverse `operator++`, 203-210. -/
def revInc (s : PS α) (it : Iter) : Res Iter := do
  let p ← s.page it.page
  let o ← ptrInc p it.off
  if o = p.length ∧ it.page ≠ it.bound then
    let _ ← s.page (it.page + 1)
    .ok { it with page := it.page + 1, off := 0 }
  else .ok { it with off := o }

/-- reverse `operator--`, 194-201. -/
def revDec (s : PS α) (it : Iter) : Res Iter := do
  let _ ← s.page it.page
  if it.off = 0 then
    if it.page = 0 then .error (.ub .decListBegin)
    else
      let q ← s.page (it.page - 1)
      let o ← ptrDec q.length
      .ok { it with page := it.page - 1, off := o }
  else
    let o ← ptrDec it.off
    .ok { it with off := o }

/-- `operator+=` / `operator-=` 171-179, 244-252: `n` single steps. -/
def stepN (f : Iter → Res Iter) : Nat → Iter → Res Iter
  | 0,     it => .ok it
  | n + 1, it => do stepN f n (← f it)

/-- `begin` 560-562: `--m_curBase->end()`. -/
def begin_ (s : PS α) : Res Iter := do
  let p ← s.page s.cur
  .ok { page := s.cur, off := (p.length : Int) - 1, bound := 0 }

/-- `end` 564-566: `--m_base.front().begin()`. -/
def end_ (s : PS α) : Res Iter := do
  let _ ← s.page 0
  .ok { page := 0, off := -1, bound := 0 }

/-- `rbegin` 568-570: the bound is `--m_base.end()`, the last *allocated* page. -/
def rbegin (s : PS α) : Res Iter := do
  let _ ← s.page 0
  .ok { page := 0, off := 0, bound := s.base.length - 1 }

/-- `rend` 572-574. -/
def rend (s : PS α) : Res Iter := do
  let p ← s.page s.cur
  .ok { page := s.cur, off := p.length, bound := s.cur }

/-- Loop of `internal_from_top` 585-602, `c` is `iBase`. -/
def fromTopLoop (s : PS α) : Nat → Nat → Res (Nat × Nat)
  | 0, depth =>
    match s.base[0]? with
    | none   => .error (.ub .derefListEnd)
    | some p =>
      if depth > p.length then .error (.ub .decListBegin) else .ok (0, p.length - depth)
  | c + 1, depth =>
    match s.base[c + 1]? with
    | none   => .error (.ub .derefListEnd)
    | some p =>
      if depth > p.length then fromTopLoop s c (depth - p.length)
      else .ok (c + 1, p.length - depth)

/-- `internal_from_top` / `from_top` 585-619. -/
def fromTop (s : PS α) (depth : Nat) : Res Iter := do
  let (c, o) ← fromTopLoop s s.cur depth
  .ok { page := c, off := o, bound := s.cur }

/-- `distribute` (distribute.h 21-48) into `n+1` targets: read, step, recurse; the last target
is read without a step.  The zero-target form does not exist in C++. -/
def distribute (s : PS α) (step : Iter → Res Iter) : Nat → Iter → Res (List α)
  | 0,     _  => .ok []
  | 1,     it => do .ok [← it.deref s]
  | n + 2, it => do
      let v ← it.deref s
      let it ← step it
      let vs ← distribute s step (n + 1) it
      .ok (v :: vs)

/-- `peek(v1..vn)` 626-632. -/
def peek (s : PS α) (n : Nat) : Res (List α) := do
  let it ← begin_ s
  distribute s (fwdInc s) n it

/-- `peek_depth(d, v1..vn)` 643-650. -/
def peekDepth (s : PS α) (d n : Nat) : Res (List α) := do
  let it ← fromTop s d
  distribute s (revInc s) n it

/-- `peek_reverse(v1..vn)` 658-664. -/
def peekReverse (s : PS α) (n : Nat) : Res (List α) := do
  let it ← fromTop s n
  distribute s (revInc s) n it

/-- First loop of `internal_discard` 108-111: clear pages until `m_curBase == iBase`. -/
def discardToLoop (base : List (List α)) (iBase : Nat) : Nat → Res (List (List α))
  | 0     => if 0 = iBase then .ok base else .error (.ub .decListBegin)
  | c + 1 => if c + 1 = iBase then .ok base
             else discardToLoop (base.set (c + 1) []) iBase c

/-- `internal_discard` 105-125.  Note 112-117: when the data position is the begin of a page
that is not the first, the page is left as it is and only `m_curBase` moves down. -/
def internalDiscard (s : PS α) (iBase : Nat) (iData : Int) : Res (PS α) := do
  let b ← discardToLoop s.base iBase s.cur
  let s := { s with base := b, cur := iBase }
  let p ← s.page iBase
  if iData = 0 then
    if iBase ≠ 0 then .ok { s with cur := iBase - 1 }
    else .ok (s.setPage 0 [])
  else if iData < 0 ∨ iData > p.length then .error (.ub .ptrRange)
  else .ok (s.setPage iBase (p.take iData.toNat))

/-- `discard(iterator)` 515-524, for both iterator classes. -/
def discardIter (s : PS α) (it : Iter) : Res (PS α) := internalDiscard s it.page it.off

/-- `pop_reverse(v1..vn)` 676-685. -/
def popReverse (s : PS α) (n : Nat) : Res (PS α × List α) := do
  let pos ← fromTop s n
  let vs ← distribute s (revInc s) n pos
  let s ← internalDiscard s pos.page pos.off
  .ok (s, vs)

/-- The user's loop `for(it = b; it != e; ++it) visit(*it)` with a step bound: `none` means
that the bound was reached before the loop ended. Not in the code: a loop using pagedstack.h 156-297. -/
def loop (s : PS α) (step : Iter → Res Iter) (e : Iter) : Nat → Iter → Res (Option (List α))
  | 0,        _  => .ok none
  | fuel + 1, it =>
    if it.eqv e then .ok (some [])
    else do
      let v ← it.deref s
      let it ← step it
      match ← loop s step e fuel it with
      | none    => .ok none
      | some vs => .ok (some (v :: vs))

/-- `for(auto it = s.begin(); it != s.end(); ++it) visit(*it);` Not in the code: a loop using pagedstack.h 156-297. -/
def forEach (s : PS α) (fuel : Nat) : Res (Option (List α)) := do
  let b ← begin_ s
  let e ← end_ s
  loop s (fwdInc s) e fuel b

/-- `for(auto it = s.rbegin(); it != s.rend(); ++it) visit(*it);`
Not in the code: a loop using pagedstack.h 156-297. -/
def forEachReverse (s : PS α) (fuel : Nat) : Res (Option (List α)) := do
  let b ← rbegin s
  let e ← rend s
  loop s (revInc s) e fuel b

/-- `for(auto it = s.from_top(d); it != s.rend(); ++it) visit(*it);`
Not in the code: a loop using pagedstack.h 156-297. -/
def forEachFrom (s : PS α) (d fuel : Nat) : Res (Option (List α)) := do
  let b ← fromTop s d
  let e ← rend s
  loop s (revInc s) e fuel b

/-! ### The call interface -/

/-- Public calls that the history properties range over. pagedstack.h 423-721. -/
inductive Op (α : Type) where
  | push (x : α)
  | pushMany (x : α) (xs : List α)
  | pushEmplace (x : α)
  | pop
  | popMany (n : Nat)          -- pop(v1..vn)
  | top
  | setTop (x : α)
  | discard (n : Nat)
  | peek (n : Nat)
  | peekReverse (n : Nat)
  | peekDepth (d n : Nat)
  | empty
  | size
  | stats
  | shrink
  | syncNew
  | syncDrop
  deriving DecidableEq, Repr

/-- What a call returns to the caller. pagedstack.h 423-721. -/
inductive Out (α : Type) where
  | unit
  | val (x : α)
  | vals (xs : List α)
  | bool (b : Bool)
  | nat (n : Nat)
  | stats (st : Stats)
  deriving DecidableEq, Repr

/-- One public call. pagedstack.h 423-721, by the functions above. -/
def step (s : PS α) : Op α → Res (PS α × Out α)
  | .push x         => do .ok (← push s x, .unit)
  | .pushMany x xs  => do .ok (← pushMany s x xs, .unit)
  | .pushEmplace x  => do .ok (← pushEmplace s x, .unit)
  | .pop            => do .ok (← popOne s, .unit)
  | .popMany n      => do let (s, vs) ← popMany s n; .ok (s, .vals vs)
  | .top            => do .ok (s, .val (← top s))
  | .setTop x       => do .ok (← setTop s x, .unit)
  | .discard n      => do .ok (← discard s n, .unit)
  | .peek n         => do .ok (s, .vals (← peek s n))
  | .peekReverse n  => do .ok (s, .vals (← peekReverse s n))
  | .peekDepth d n  => do .ok (s, .vals (← peekDepth s d n))
  | .empty          => do .ok (s, .bool (← isEmpty s))
  | .size           => do .ok (s, .nat (← size s))
  | .stats          => do .ok (s, .stats (← getStats s))
  | .shrink         => .ok (shrinkToFit s, .unit)
  | .syncNew        => .ok (syncNew s, .unit)
  | .syncDrop       => .ok (syncDrop s, .unit)

/-- A history of calls: final state and everything that was returned.
Not in the code: a history of calls of pagedstack.h 423-721. -/
def run (s : PS α) : List (Op α) → Res (PS α × List (Out α))
  | []        => .ok (s, [])
  | op :: ops => do
      let (s, o) ← step s op
      let (s, os) ← run s ops
      .ok (s, o :: os)

end Falcon.PagedStack
