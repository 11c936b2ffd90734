import Verif.Model.PSRemove
/-
What the destructors find. `b` is the content of the stack before the call, bottom first; elements are
named by their height (0 is the bottom).
-/
namespace Falcon.PSRemove

variable {V : Type}

/-- The destructor of the element at height i, run as on an ideal stack popped one by one: it finds the
elements below it and nothing else. -/
def FindsRest (b : List V) (i : Nat) (g : Glimpse V) : Prop :=
  b[i]? = some g.elem ∧ g.size = .ok i ∧ g.empty = .ok (decide (i = 0)) ∧ ∀ j, i = j + 1 → ∃ t, b[j]? = some t ∧ g.top = .ok t

/-- The height of the topmost element of the page that the element at height i is on, plus one. -/
def pageEnd (ps : Nat) (b : List V) (i : Nat) : Nat := min b.length ((i / ps + 1) * ps)

/-- The destructor of the element at height i finds its whole page still there: the elements destroyed
before it, itself and those to be destroyed next. -/
def FindsPage (ps : Nat) (b : List V) (i : Nat) (g : Glimpse V) : Prop :=
  b[i]? = some g.elem ∧ g.size = .ok (pageEnd ps b i) ∧ g.empty = .ok false ∧
    ∃ t, b[pageEnd ps b i - 1]? = some t ∧ g.top = .ok t

/-- Pages from the top down, the elements of a page from its bottom up. -/
def Before (ps i j : Nat) : Prop := j / ps < i / ps ∨ (j / ps = i / ps ∧ i < j)

/-- What each destructor found, in the order in which they ran: they belonged to the elements at the heights `is`. -/
inductive Ran (P : Nat → Glimpse V → Prop) : List Nat → List (Glimpse V) → Prop
  | nil : Ran P [] []
  | cons {i g is gs} : P i g → Ran P is gs → Ran P (i :: is) (g :: gs)

end Falcon.PSRemove
