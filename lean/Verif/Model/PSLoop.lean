import Verif.Model.PSSync
/-
A loop over a stack with sync iterators while other threads use the same stack
(pagedstack.h 302-401, 576-581, and every other call of the class for the other threads).
-/
namespace Falcon.PagedStack
variable {α : Type}

/-- Where a thread running
`for(auto it = s.sync_begin(), e = s.sync_end(); it != e; ++it) { it.get(v); visit(v); }`
stands, from just after its sync_begin() call.  Not in the code: a loop using
pagedstack.h 302-401, 576-581. -/
inductive LPc where
  | callEnd      -- about to call sync_end()
  | test         -- about to compare
  | get          -- about to call get()
  | inc          -- about to call ++
  | ended        -- the comparison said equal: the loop is over
  | threw        -- get() or ++ threw: the loop is over
  deriving DecidableEq, Repr

/-- The stack with all live sync iterators, the place in that list of the looping thread's
iterator and of its end iterator, and where the thread stands.  Not in the code. -/
structure Walk (α : Type) where
  y   : Sys α
  me  : Nat
  fin : Option Nat
  pc  : LPc
  deriving DecidableEq, Repr

/-- Who takes the next step: another thread, with any call, or the looping thread.  Each call
holds the stack's mutex all along (pagedstack.h 302-401, 423-721). -/
inductive LAct (α : Type) where
  | other (op : SOp α)
  | mine
  deriving DecidableEq, Repr

/-- Destroying iterator `j` removes it from the list of live ones: the later ones move up by one
place.  Not in the code: naming of iterators in the model. -/
def renumber (op : SOp α) (i : Nat) : Nat :=
  match op with
  | .drop j => if j < i then i - 1 else i
  | _       => i

/-- One step; the second component is the value the looping thread visits, if any.
pagedstack.h 306-331 (get, ++), 312-319 (==, !=), 576-581 (sync_end). -/
def lstep (w : Walk α) : LAct α → Res (Walk α × Option α)
  | .other op => do
      let (y, _) ← sstep w.y op
      .ok ({ w with y := y, me := renumber op w.me, fin := w.fin.map (renumber op) }, none)
  | .mine =>
    match w.pc, w.fin with
    | .callEnd, _ => do
        let (y, _) ← sstep w.y .newEnd
        .ok ({ w with y := y, fin := some w.y.its.length, pc := .test }, none)
    | .test, some e => do
        let (y, o) ← sstep w.y (.eq w.me e)
        match o with
        | .bool true => .ok ({ w with y := y, pc := .ended }, none)
        | _          => .ok ({ w with y := y, pc := .get }, none)
    | .get, _ => do
        let (y, o) ← sstep w.y (.get w.me)
        match o with
        | .val v => .ok ({ w with y := y, pc := .inc }, some v)
        | _      => .ok ({ w with y := y, pc := .threw }, none)
    | .inc, _ => do
        let (y, o) ← sstep w.y (.inc w.me)
        match o with
        | .threw => .ok ({ w with y := y, pc := .threw }, none)
        | _      => .ok ({ w with y := y, pc := .test }, none)
    | _, _ => .ok (w, none)

end Falcon.PagedStack
