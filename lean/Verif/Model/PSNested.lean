import Verif.Model.PagedStack
/-
Calls of a `PagedStack` made by the element type itself: from the copy constructor of an element that is
being pushed, and from the destructor of an element that is being popped.

The elements live in `std::vector` pages. libstdc++ (stl_vector.h) constructs the new element behind the
last one and then raises the end pointer (`push_back`), and lowers the end pointer and then destroys the
element (`pop_back`); a call made in between finds the page in that state. Storage in which an element is
being constructed or destroyed is *busy*: constructing another element there is undefined.

Simplifications: page size and preallocation are positive and memory does not run out (as in
`Model/PagedStack.lean`); element operations do not throw; of the calls that take arguments only the
single-element ones are covered; `shrink_to_fit`, `discard` and `clear` are not called by elements.
-/
namespace Falcon.PSNested
open Falcon.PagedStack

variable {V : Type}

/-- A call together with the calls that the element's own code makes while it runs: for `push` in the copy
constructor of the element pushed, for `pop` in the destructor of the element popped.
pagedstack.h 435, 437-440, 469-473, 552-555, 693-703. -/
inductive Call (V : Type) where
  | push (v : V) (during : List (Call V))
  | pop (during : List (Call V))
  | top
  | empty
  | size

/-- What a call returns. pagedstack.h 435, 552-555, 693-703. -/
inductive Out (V : Type) where
  | top (v : V)
  | empty (b : Bool)
  | size (n : Nat)
  deriving DecidableEq, Repr

/-- How it can go wrong. pagedstack.h 96-101, 127-130. -/
inductive Bad where
  | plain (f : Fault)   -- undefined as it would be outside an element operation
  | overlap             -- an element is constructed where another one is being constructed or destroyed
  | hole                -- a destroyed element is counted in: it will be destroyed once more
  | hang                -- the mutex is already held by the calling thread
  deriving DecidableEq, Repr

/-- The outcome of a plain operation. pagedstack.h 423-721. -/
def plain {β : Type} : Res β → Except Bad β
  | .ok x    => .ok x
  | .error f => .error (.plain f)

/-- A place in the stack: page and index in the page. pagedstack.h 54-66. -/
abbrev Slot := Nat × Nat

/-- `std::lock_guard<_Mutex> guard(m_mutex)`, first thing in every call (434-440, 469-473, 552-555, 696).
`locks = false`: `dummy_mutex` (33-37), the default. `locks = true`: `Futex` or `std::mutex`, which the
calling thread cannot take twice; it is held exactly while an element operation of an outer call runs. -/
def enter (locks : Bool) (busy : List Slot) : Except Bad Unit :=
  if locks = true ∧ busy ≠ [] then .error .hang else .ok ()

mutual
/-- One call. `busy`: places in which elements are being constructed or destroyed by enclosing calls.
`push` 437-440, 127-130: `advance()`, construct at the end pointer of the current page (calls `during`),
raise the end pointer *of that page*. `pop` 469-473, 96-101: lower the end pointer, destroy (calls
`during`), then step back if the page that is *now* current is empty. -/
def call (locks : Bool) (busy : List Slot) (s : PS V) : Call V → Except Bad (PS V × List (Out V))
  | .push v during => do
      enter locks busy
      let s ← plain (advance s)
      let p ← plain (s.page s.cur)
      if (s.cur, p.length) ∈ busy then .error .overlap
      else do
        let (t, os) ← calls locks ((s.cur, p.length) :: busy) s during
        let q ← plain (t.page s.cur)
        if q.length = p.length then .ok (t.setPage s.cur (q ++ [v]), os)
        else .error .hole
  | .pop during => do
      enter locks busy
      let p ← plain (s.page s.cur)
      if p = [] then .error (.plain (.ub .emptyPopBack))
      else do
        let (t, os) ← calls locks ((s.cur, p.length - 1) :: busy) (s.setPage s.cur p.dropLast) during
        let q ← plain (t.page t.cur)
        if q = [] ∧ t.cur ≠ 0 then .ok ({ t with cur := t.cur - 1 }, os)
        else .ok (t, os)
  | .top => do
      enter locks busy
      let v ← plain (top s)
      .ok (s, [.top v])
  | .empty => do
      enter locks busy
      let b ← plain (isEmpty s)
      .ok (s, [.empty b])
  | .size => do
      enter locks busy
      let n ← plain (size s)
      .ok (s, [.size n])

/-- Calls one after the other. pagedstack.h 423-721. -/
def calls (locks : Bool) (busy : List Slot) (s : PS V) : List (Call V) → Except Bad (PS V × List (Out V))
  | []      => .ok (s, [])
  | c :: cs => do
      let (s, o) ← call locks busy s c
      let (s, os) ← calls locks busy s cs
      .ok (s, o ++ os)
end

end Falcon.PSNested
