import Verif.Model.PSLife
/-
Vocabulary for the life of element objects. Every element object gets a number when it is constructed;
destructor calls are written down.
-/
namespace Falcon.PagedStack

/-- An element object: its number and its present value. -/
structure Obj (V : Type) where
  id  : Nat
  val : V
  deriving DecidableEq, Repr

/-- How many objects were constructed, and which ones were destroyed, in order. A second destructor call
on the same object would show as a second entry. -/
structure Books where
  made : Nat := 0
  dead : List Nat := []
  deriving DecidableEq, Repr

/-- Element type with book-keeping. Assignment changes the value of an object, not its identity. -/
def objects (V : Type) : Elem Books (Obj V) V where
  make b v     := .ok ({ b with made := b.made + 1 }, ⟨b.made, v⟩)
  assign b x v := .ok (b, { x with val := v })
  destroy b x  := .ok { b with dead := b.dead ++ [x.id] }

/-- The object exists: it was constructed and not destroyed. -/
def Books.Alive (b : Books) (i : Nat) : Prop := i < b.made ∧ i ∉ b.dead

/-- An ideal stack of objects, top first. -/
structure Ideal (V : Type) where
  made  : Nat := 0
  items : List (Obj V) := []
  iters : Nat := 0          -- live sync iterators
  deriving DecidableEq, Repr

variable {V : Type}

/-- push on the ideal stack: a new object on top. -/
def Ideal.push (t : Ideal V) (v : V) : Ideal V :=
  { t with made := t.made + 1, items := ⟨t.made, v⟩ :: t.items }

/-- One call on the ideal stack; `none` when the documented precondition does not hold. The argument `ps`
only serves to leave out those pop_reverse calls that leave a full number of pages (see C07); clear and
discard(iterator) are left out and treated by theorems of their own. -/
def Ideal.step (ps : Nat) (t : Ideal V) : LOp V → Option (Ideal V)
  | .push v        => some (t.push v)
  | .pushMany v vs => some ((v :: vs).foldl Ideal.push t)
  | .pop           => if 1 ≤ t.items.length then some { t with items := t.items.drop 1 } else none
  | .popMany n     => if n ≤ t.items.length then some { t with items := t.items.drop n } else none
  | .setTop v      => match t.items with
                      | []      => none
                      | x :: xs => some { t with items := { x with val := v } :: xs }
  | .discard n     => if n ≤ t.items.length then some { t with items := t.items.drop n } else none
  | .popReverse n  => if 1 ≤ n ∧ n ≤ t.items.length ∧ (n = t.items.length ∨ (t.items.length - n) % ps ≠ 0)
                      then some { t with items := t.items.drop n } else none
  | .shrink        => some t
  | .syncNew       => some { t with iters := t.iters + 1 }
  | .syncDrop      => if 1 ≤ t.iters then some { t with iters := t.iters - 1 } else none
  | .clear         => none
  | .discardAt _   => none

/-- A history on the ideal stack. -/
def Ideal.run (ps : Nat) (t : Ideal V) : List (LOp V) → Option (Ideal V)
  | []      => some t
  | o :: os => t.step ps o >>= fun t => t.run ps os

end Falcon.PagedStack
