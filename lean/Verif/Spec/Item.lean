import Verif.Model.Item
/- Specification vocabulary for items. -/
namespace Falcon.Item

/-- The mathematical value of a C++ integer. -/
def Val.intVal (charSigned : Bool) : Val → Option Int
  | .char c   => some (if charSigned then c.toInt else (c.toNat : Int))
  | .byte c   => some (c.toNat : Int)
  | .int32 n  => some n.toInt
  | .uint32 n => some (n.toNat : Int)
  | .int64 n  => some n.toInt
  | .uint64 n => some (n.toNat : Int)
  | _         => none

/-- `t` is the decimal representation of `n`: a minus sign iff negative, then decimal digits, no
superfluous leading zero, of value |n|. -/
def IsDecimal (n : Int) (t : Str) : Prop :=
  ∃ ds, t = (if n < 0 then '-' :: ds else ds) ∧ ds ≠ [] ∧ (∀ c ∈ ds, c.isDigit = true) ∧
    (ds.head? = some '0' → ds = ['0']) ∧
    ds.foldl (fun v c => 10 * v + (c.toNat - '0'.toNat)) 0 = n.natAbs

/-- The text `s` begins with a number (blanks, an optional sign, at least one digit, not followed by
another digit) whose value `v` fits 64 bits. -/
def BeginsWithNumber (s : Str) (v : Int) : Prop :=
  ∃ ws sg ds rest, s = ws ++ sg ++ ds ++ rest ∧ (∀ c ∈ ws, c ∈ [' ', '\t', '\n', '\x0b', '\x0c', '\r']) ∧ (sg = [] ∨ sg = ['+'] ∨ sg = ['-']) ∧
    ds ≠ [] ∧ (∀ c ∈ ds, c.isDigit = true) ∧ (∀ c r, rest = c :: r → c.isDigit = false) ∧
    v = (if sg = ['-'] then -(Nat.ofDigitChars 10 ds 0 : Int) else (Nat.ofDigitChars 10 ds 0 : Int)) ∧
    -9223372036854775808 ≤ v ∧ v ≤ 9223372036854775807

/-- `r` is the value of the double, rounded toward zero: |r| <= |x| < |r|+1, same sign. The comparison
is made with both sides multiplied by a power of two. -/
def IsTrunc (neg : Bool) (m : Nat) (e : Int) (r : Int) : Prop :=
  r.natAbs * 2 ^ (-e).toNat ≤ m * 2 ^ e.toNat ∧ m * 2 ^ e.toNat < (r.natAbs + 1) * 2 ^ (-e).toNat ∧
  (neg = false → 0 ≤ r) ∧ (neg = true → r ≤ 0)

/-- Items whose data is not on the heap. -/
def Item.Flat (i : Item) : Prop := i.handler ≠ .string ∧ i.handler ≠ .bignum

/-- In this history, copies and assignments only involve items without heap data. -/
def FlatCopies (cs : Bool) (s : St) : List Op → Prop
  | [] => True
  | o :: os =>
    (match o with
     | .copy _ y => ∀ i, s.var y = some i → i.Flat
     | .assign x y => (∀ i, s.var y = some i → i.Flat) ∧ (∀ i, s.var x = some i → i.Flat)
     | _ => True) ∧
    ∀ s', exec cs s o = some (.ok s') → FlatCopies cs s' os

end Falcon.Item
