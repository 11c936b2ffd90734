import Verif.Model.PagedStack
/-
Model of threads that use one mutex-protected PagedStack
(src/include/falcon/engine/pagedstack.h): producers call `push(x)`, consumers run
`if(!s.empty()) { s.pop(v); use(v); }` over and over.  Every call is one atomic step (C32: calls
under the mutex are linearizable); the check and the pop are two calls, other threads may run in
between.  The same gap exists inside `pop` itself: its `assert(!empty())` (470, 483) is evaluated
before the lock is taken.
-/
namespace Falcon.PSGuard
open Falcon.PagedStack
variable {α : Type}

/-- The stack, which consumers have seen it non-empty and not popped yet, and - for the
statements only - what was pushed and what was popped so far. pagedstack.h 437-440, 482-487, 555-558. -/
structure G (α : Type) where
  s      : PS α
  saw    : Nat → Bool
  pushed : List α
  got    : List α

/-- What happens next. pagedstack.h 437-440 (`push`), 555-558 (`check`), 482-487 (`pop`). -/
inductive Ev (α : Type) where
  | push (x : α)
  | check (i : Nat)
  | pop (i : Nat)
  deriving DecidableEq, Repr

/-- Start: an empty stack. pagedstack.h 423-432. -/
def start (ps al : Nat) : G α := { s := PagedStack.init ps al, saw := fun _ => false, pushed := [], got := [] }

/-- One step; `none`: a consumer pops only after its check said that the stack is not empty.
pagedstack.h 437-440, 555-558, 482-487. -/
def gstep (g : G α) : Ev α → Option (Res (G α))
  | .push x  =>
    match push g.s x with
    | .ok s    => some (.ok { g with s := s, pushed := x :: g.pushed })
    | .error e => some (.error e)
  | .check i =>
    if g.saw i = true then none
    else match isEmpty g.s with
    | .ok b    => some (.ok { g with saw := fun k => if k = i then !b else g.saw k })
    | .error e => some (.error e)
  | .pop i   =>
    if g.saw i = true then
      match popMany g.s 1 with
      | .ok (s, vs) => some (.ok { g with s := s, saw := fun k => if k = i then false else g.saw k,
                                          got := vs ++ g.got })
      | .error e    => some (.error e)
    else none

/-- A schedule. Not in the code: a sequence of the steps above. -/
def grun (g : G α) : List (Ev α) → Option (Res (G α))
  | []      => some (.ok g)
  | e :: es =>
    match gstep g e with
    | none            => none
    | some (.error f) => some (.error f)
    | some (.ok g')   => grun g' es

/-! ### `pop(v1..vn)` and `push(x1..xn)` when an element operation throws -/

/-- `pop(v1..vn)` 89-94, 482-487 where the assignment `v_k = m_curBase->back()` may throw:
`throws` says which of the assignments do.  `value = m_curBase->back()` precedes
`internal_pop_one()`, so the element whose assignment throws stays on the stack.  Result: the
stack, the values stored so far, and whether an exception left the call. -/
def popThrow : PS α → List Bool → Res (PS α × List α × Bool)
  | s, []            => .ok (s, [], false)
  | s, throws :: ts  => do
      let v ← top s
      if throws = true then .ok (s, [], true)
      else
        let s ← popOne s
        let (s, vs, e) ← popThrow s ts
        .ok (s, v :: vs, e)

/-- `push(x1..xn)` 132-137, 447-451 where copying an element may throw: `some x` is copied,
`none` throws.  `advance()` precedes every copy. -/
def pushThrow : PS α → List (Option α) → Res (PS α × Bool)
  | s, []           => .ok (s, false)
  | s, none :: _    => do
      let (s, _) ← pushThrowing s
      .ok (s, true)
  | s, some x :: xs => do
      let s ← push s x
      pushThrow s xs

end Falcon.PSGuard
