import Verif.Model.ValueMem
/- Specification vocabulary for values when memory runs out. -/
namespace Falcon.Mem

/-- One of the next `n` allocations is refused (`o` says which are granted). -/
def Refused (n : Nat) (o : List Bool) : Prop := false ∈ o.take n

/-- How much memory `Item x(v)` asks for, if a text of at most `sso` characters needs none of its own: nothing for the values kept in the item
itself; an object for a BigNum; an object, and its text if that is long, for a C string (up to its end); an object and two texts (the argument is
passed by value) for a string. -/
def wanted (sso : Nat) : Falcon.Item.Val → Nat
  | .cstring s => if (s.takeWhile (· ≠ '\x00')).length ≤ sso then 1 else 2
  | .string s => if s.length ≤ sso then 1 else 3
  | .bignum _ => 1
  | .bool _ | .char _ | .byte _ | .int32 _ | .uint32 _ | .int64 _ | .uint64 _ | .numeric _ => 0

/-- The statements that did not end with std::bad_alloc. -/
def survivors {α : Type} : List α → List Outcome → List α
  | op :: ops, r :: rs => if r = .badAlloc then survivors ops rs else op :: survivors ops rs
  | _, _ => []

/-- What `n` statements that convert to text show: the texts returned, in order. -/
def texts (rs : List Outcome) : List Str := rs.filterMap fun r => match r with | .text t => some t | _ => none

end Falcon.Mem
