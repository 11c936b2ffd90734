import Verif.Model.Item
import Verif.Model.PSLife
/-
Items on a PagedStack: `PagedStack<Item>`, pagedstack.h with item.h 24-101. Item has a destructor (72-74)
and the copy constructor and assignment the compiler makes, which copy the pointer; it has no move
operations of its own. The simplifications of `Model/Item.lean` and `Model/PSLife.lean` apply.
-/
namespace Falcon.ItemStack
open Falcon.Item (Item Heap Val make makeNil destroy)
open Falcon.PagedStack

/-- Argument of push (pagedstack.h 437: an Item to copy) and push_emplace (456: a constructor argument). -/
inductive Arg where
  | copy (i : Item)
  | emplace (v : Val)
  deriving DecidableEq, Repr

/-- Item as an element type: implicit copy and assignment, constructor item.h 31-70, destructor 72-74.
`top(value)` takes an Item (pagedstack.h 434); the emplace case of `assign` is not used. -/
def itemElem (cs : Bool) : Elem Heap Item Arg where
  make h
    | .copy i    => .ok (h, i)
    | .emplace v => .ok ((make cs h v).2, (make cs h v).1)
  assign h x
    | .copy i    => .ok (h, i)
    | .emplace _ => .ok (h, x)
  destroy h x := destroy h x.handler x.data

/-- A program with item variables and one stack; a variable is its position among those in scope.
Not in the code: a user of item.h and pagedstack.h 423-721. -/
structure St where
  heap : Heap := {}
  vars : List Item := []
  st   : PS Item

/-- What such a program does. Not in the code: a user of item.h 24-101 and pagedstack.h 423-721. -/
inductive IOp where
  | new (v : Val)             -- Item x(v)
  | newNil                    -- Item x
  | del (k : Nat)             -- end of the k-th variable's life
  | use (k : Nat)             -- x.toString()
  | push (k : Nat)            -- s.push(x)
  | pushTemp (v : Val)        -- s.push(Item(v)), or s.push(v) with an implicit conversion
  | emplace (v : Val)         -- s.push_emplace(v)
  | pop                       -- s.pop()
  | popInto (ks : List Nat)   -- s.pop(x1..xn)
  | discard (n : Nat)         -- s.discard(n)
  | clear                     -- s.clear()
  | shrink                    -- s.shrink_to_fit()
  | setTop (k : Nat)          -- s.top(x)
  | useNth (n : Nat)          -- it = s.begin(); it += n; it->toString()
  | copyTop                   -- Item x(s.top())
  deriving DecidableEq, Repr

/-- The stack holds at least `n` elements: the documented preconditions, pagedstack.h 464-497. -/
def enough (s : PS Item) (n : Nat) : Bool :=
  match size s with
  | .ok m => decide (n ≤ m)
  | _     => false

/-- `value = back()` for each variable, pagedstack.h 91. -/
def assignAll (vars : List Item) : List Nat → List Item → List Item
  | k :: ks, v :: vs => assignAll (vars.set k v) ks vs
  | _, _             => vars

/-- One statement; `none`: not a program, or a documented precondition of the stack does not hold.
Each case runs the members of item.h 24-101 and pagedstack.h 423-721 it names. -/
def exec (cs : Bool) (s : St) : IOp → Option (Res St)
  | .new v => some (.ok { s with heap := (make cs s.heap v).2, vars := s.vars ++ [(make cs s.heap v).1] })
  | .newNil => some (.ok { s with vars := s.vars ++ [makeNil] })
  | .del k => match s.vars[k]? with
    | none   => none
    | some i => some (do
        let h ← destroy s.heap i.handler i.data
        .ok { s with heap := h, vars := s.vars.eraseIdx k })
  | .use k => match s.vars[k]? with
    | none   => none
    | some i => some (do
        let _ ← Item.toString (fun _ => []) (fun _ => []) s.heap i
        .ok s)
  | .push k => match s.vars[k]? with
    | none   => none
    | some i => some (do
        let (h, p) ← pushL (itemElem cs) s.heap s.st (.copy i)
        .ok { s with heap := h, st := p })
  | .pushTemp v => some (do
        let (i, h) := make cs s.heap v
        let (h, p) ← pushL (itemElem cs) h s.st (.copy i)
        let h ← destroy h i.handler i.data
        .ok { s with heap := h, st := p })
  | .emplace v => some (do
        let (h, p) ← pushL (itemElem cs) s.heap s.st (.emplace v)
        .ok { s with heap := h, st := p })
  | .pop => if enough s.st 1 then some (do
        let (h, p) ← popOneL (itemElem cs) s.heap s.st
        .ok { s with heap := h, st := p }) else none
  | .popInto ks => if enough s.st ks.length && ks.all (· < s.vars.length) then some (do
        let (h, p, vs) ← popManyL (itemElem cs) s.heap s.st ks.length
        .ok { heap := h, st := p, vars := assignAll s.vars ks vs }) else none
  | .discard n => if enough s.st n then some (do
        let (h, p) ← discardL (itemElem cs) s.heap s.st n
        .ok { s with heap := h, st := p }) else none
  | .clear => some (do
        let (h, p) ← clearL (itemElem cs) s.heap s.st
        .ok { s with heap := h, st := p })
  | .shrink => some (do
        let (h, p) ← shrinkToFitL (itemElem cs) s.heap s.st
        .ok { s with heap := h, st := p })
  | .setTop k => match s.vars[k]? with
    | none   => none
    | some i => if enough s.st 1 then some (do
        let (h, p) ← setTopL (itemElem cs) s.heap s.st (.copy i)
        .ok { s with heap := h, st := p }) else none
  | .useNth n => if enough s.st (n + 1) then some (do
        let it ← stepN (fwdInc s.st) n (← begin_ s.st)
        let x ← it.deref s.st
        let _ ← Item.toString (fun _ => []) (fun _ => []) s.heap x
        .ok s) else none
  | .copyTop => if enough s.st 1 then some (do
        let x ← top s.st
        .ok { s with vars := s.vars ++ [x] }) else none

/-- Not in the code: a sequence of statements of a user of item.h and pagedstack.h. -/
def run (cs : Bool) (s : St) : List IOp → Option (Res St)
  | []      => some (.ok s)
  | o :: os => match exec cs s o with
    | none            => none
    | some (.error e) => some (.error e)
    | some (.ok s')   => run cs s' os

/-- The end of the scope: the destructors of the stack (pagedstack.h 61) and of the variables (item.h 72-74). -/
def finish (cs : Bool) (s : St) : Res Heap := do
  let h ← destructL (itemElem cs) s.heap s.st
  destroyAll (itemElem cs) h s.vars

end Falcon.ItemStack
