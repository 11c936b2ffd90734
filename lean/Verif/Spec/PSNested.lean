import Verif.Model.PSNested
/-
What to expect when an element's code uses the stack it is put on or taken from, and what is permitted.
The stack is a list, top first.
-/
namespace Falcon.PSNested

variable {V : Type}

mutual
/-- What one expects: the copy constructor runs before the element is on the stack, the destructor runs
after it has left; in both, the stack works as usual. `none`: top or pop of an empty stack. -/
def expect (l : List V) : Call V → Option (List V × List (Out V))
  | .push v during => do
      let (l, os) ← expects l during
      some (v :: l, os)
  | .pop during => match l with
      | []     => none
      | _ :: l => expects l during
  | .top => match l with
      | []     => none
      | v :: _ => some (l, [.top v])
  | .empty => some (l, [.empty l.isEmpty])
  | .size => some (l, [.size l.length])

/-- Several calls. -/
def expects (l : List V) : List (Call V) → Option (List V × List (Out V))
  | []      => some (l, [])
  | c :: cs => do
      let (l, o) ← expect l c
      let (l, os) ← expects l cs
      some (l, o ++ os)
end

mutual
/-- What is permitted, for pages of `ps` elements. `at?` is the height of the stack when the innermost
element operation started (`none` outside of any):
* push needs a stack lower than that, and the copy constructor must leave the stack as high as it was;
* pop and top need a stack that is not empty, and if it is still as high as that, not a multiple of the
  page size. -/
def permitted (ps : Nat) (at? : Option Nat) (l : List V) : Call V → Option (List V × List (Out V))
  | .push v during =>
      if at? = some l.length then none
      else match permits ps (some l.length) l during with
        | none          => none
        | some (l', os) => if l'.length = l.length then some (v :: l', os) else none
  | .pop during =>
      if at? = some l.length ∧ l.length % ps = 0 then none
      else match l with
        | []     => none
        | _ :: l => permits ps (some l.length) l during
  | .top =>
      if at? = some l.length ∧ l.length % ps = 0 then none
      else match l with
        | []     => none
        | v :: _ => some (l, [.top v])
  | .empty => some (l, [.empty l.isEmpty])
  | .size => some (l, [.size l.length])

/-- Several calls. -/
def permits (ps : Nat) (at? : Option Nat) (l : List V) : List (Call V) → Option (List V × List (Out V))
  | []      => some (l, [])
  | c :: cs =>
      match permitted ps at? l c with
      | none        => none
      | some (l, o) =>
        match permits ps at? l cs with
        | none         => none
        | some (l, os) => some (l, o ++ os)
end

/-- Only `empty()` and `size()` are called. -/
def Asks : Call V → Prop
  | .empty => True
  | .size  => True
  | _      => False

/-- The call's element operation calls nothing. -/
def Silent : Call V → Prop
  | .push _ d => d = []
  | .pop d    => d = []
  | _         => True

end Falcon.PSNested
