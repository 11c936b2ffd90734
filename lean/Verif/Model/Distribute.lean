import Verif.Basic
/-
Model of src/include/falcon/engine/distribute.h. Memory is a map from addresses to values; a sequence
is the list of the addresses of its elements; an iterator is a position in it; targets are addresses
(they may be elements of the sequence). Values are of one type (conversions are not modelled).
-/
namespace Falcon.Distribute

/-- The variables passed by reference to distribute.h 21-48. -/
abbrev Mem := Nat → Nat

/-- `tgt = *iter`, distribute.h 24 and 45. Position `seq.length` is end(). -/
def assign (seq : List Nat) (i : Nat) (m : Mem) (tgt : Nat) : Res Mem :=
  match seq[i]? with
  | none => .error (.ub .derefListEnd)
  | some a => .ok (fun b => if b = tgt then m a else m b)

/-- distribute(iter, tgt, args...), distribute.h: 21-25 with one target, 42-48 with more. Returns the memory and the
position of the caller's iterator if it was passed as an lvalue. -/
def distribute (seq : List Nat) (i : Nat) (m : Mem) : (tgt : Nat) → (args : List Nat) → Res (Mem × Nat)
  | tgt, [] => match assign seq i m tgt with
    | .ok m' => .ok (m', i)
    | .error e => .error e
  | tgt, t :: ts => match assign seq i m tgt with
    | .ok m' => distribute seq (i + 1) m' t ts
    | .error e => .error e

end Falcon.Distribute
