import Verif.Model.PagedStack
/-
Specification: an ideal stack.  `items` is the content, top first.  `blocks` is the number of
pages, `iters` the number of live sync iterators, `pending` whether a shrink was requested
while some were alive.  Only the vocabulary of calls and results is shared with the model.
-/
namespace Falcon.StackSpec
open Falcon.PagedStack (Op Out Stats)
variable {α : Type}

structure St (α : Type) where
  items   : List α
  blocks  : Nat
  iters   : Nat
  pending : Bool
  deriving DecidableEq, Repr

/-- pages needed for `n` elements, at least one -/
def pagesFor (ps n : Nat) : Nat := max 1 ((n + ps - 1) / ps)

/-- elements on the topmost page in use -/
def onTopPage (ps n : Nat) : Nat := n - (pagesFor ps n - 1) * ps

/-- push: a full stack of pages grows by `al` pages -/
def push (ps al : Nat) (t : St α) (x : α) : St α :=
  { t with items := x :: t.items,
           blocks := if t.items.length = t.blocks * ps then t.blocks + al else t.blocks }

/-- One call on the ideal stack; `none` when the documented precondition does not hold. -/
def step (ps al : Nat) (t : St α) : Op α → Option (St α × Out α)
  | .push x        => some (push ps al t x, .unit)
  | .pushMany x xs => some ((x :: xs).foldl (push ps al) t, .unit)
  | .pushEmplace x => some (push ps al t x, .unit)
  | .pop           => match t.items with
                      | []      => none
                      | _ :: xs => some ({ t with items := xs }, .unit)
  | .popMany n     => if n ≤ t.items.length
                      then some ({ t with items := t.items.drop n }, .vals (t.items.take n))
                      else none
  | .top           => match t.items with
                      | []      => none
                      | x :: _  => some (t, .val x)
  | .setTop y      => match t.items with
                      | []      => none
                      | _ :: xs => some ({ t with items := y :: xs }, .unit)
  | .discard n     => if n ≤ t.items.length
                      then some ({ t with items := t.items.drop n }, .unit) else none
  | .peek n        => if n ≤ t.items.length
                      then some (t, .vals (t.items.take n)) else none
  | .peekReverse n => if n ≤ t.items.length
                      then some (t, .vals (t.items.take n).reverse) else none
  | .peekDepth d n => if n ≤ d ∧ d ≤ t.items.length
                      then some (t, .vals ((t.items.take d).reverse.take n)) else none
  | .empty         => some (t, .bool (t.items.length == 0))
  | .size          => some (t, .nat t.items.length)
  | .stats         => some (t, .stats { blocks := t.blocks, depth := ps,
                                        curBlock := pagesFor ps t.items.length,
                                        curData := onTopPage ps t.items.length })
  | .shrink        => if 0 < t.iters then some ({ t with pending := true }, .unit)
                      else some ({ t with blocks := pagesFor ps t.items.length }, .unit)
  | .syncNew       => some ({ t with iters := t.iters + 1 }, .unit)
  | .syncDrop      => if t.iters = 0 then none
                      else if t.iters = 1 ∧ t.pending = true then
                        some ({ t with iters := 0, pending := false,
                                       blocks := pagesFor ps t.items.length }, .unit)
                      else some ({ t with iters := t.iters - 1 }, .unit)

def init (al : Nat) : St α := { items := [], blocks := al, iters := 0, pending := false }

def run (ps al : Nat) (t : St α) : List (Op α) → Option (St α × List (Out α))
  | []        => some (t, [])
  | op :: ops => do
      let (t, o) ← step ps al t op
      let (t, os) ← run ps al t ops
      some (t, o :: os)

end Falcon.StackSpec
