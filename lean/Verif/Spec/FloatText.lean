import Mathlib.Algebra.Order.Field.Rat
/-
Reading a decimal number, written independently of the model: what number a text such as "-12.5",
"1.67772e+07" stands for.
-/
namespace Falcon.FloatText

/-- Digits as a number. -/
def digitsVal (ds : List Char) : Nat := ds.foldl (fun n c => 10 * n + (c.toNat - 48)) 0

/-- Nothing, or an exponent with a sign. -/
def readExp : List Char → Option Int
  | [] => some 0
  | 'e' :: '+' :: ds => if ds ≠ [] ∧ ds.all Char.isDigit then some (digitsVal ds) else none
  | 'e' :: '-' :: ds => if ds ≠ [] ∧ ds.all Char.isDigit then some (-(digitsVal ds : Int)) else none
  | _ => none

/-- Digits, a point and more digits if there is one, an exponent if there is one. -/
def readPos (t : List Char) : Option ℚ :=
  let i := t.takeWhile Char.isDigit
  let r := t.dropWhile Char.isDigit
  if i = [] then none else
  match r with
  | '.' :: r =>
    let f := r.takeWhile Char.isDigit
    if f = [] then none else
    (readExp (r.dropWhile Char.isDigit)).map (fun e => ((digitsVal i : ℚ) + (digitsVal f : ℚ) / 10 ^ f.length) * 10 ^ e)
  | r => (readExp r).map (fun e => (digitsVal i : ℚ) * 10 ^ e)

/-- The number a text stands for; `none` if it is not a number. -/
def readDec : List Char → Option ℚ
  | '-' :: t => (readPos t).map (fun q => -q)
  | t => readPos t

/-- q is a decimal number of at most `p` significant digits. -/
def IsDec (p : Nat) (q : ℚ) : Prop := ∃ (n j : Int), |n| < 10 ^ p ∧ q = n * 10 ^ j

/-- q is a decimal number of at most `p` significant digits, and none is closer to v. -/
def Nearest (p : Nat) (v q : ℚ) : Prop := IsDec p q ∧ ∀ d, IsDec p d → |q - v| ≤ |d - v|

end Falcon.FloatText

namespace Falcon.Fut

/-- A status line of the test runner: the number of the test right-aligned in three columns, the first 50 characters of
the name, the seconds (exact to the millisecond) in 10 columns, the result in four; all fields but the first
filled with blanks at the end. -/
def IsStatusLine (count : Nat) (name result : List Char) (ms : Int) (line : List Char) : Prop :=
  ∃ num nm tm rs : List Char,
    line = "[".toList ++ num ++ ": ".toList ++ nm ++ tm ++ " ".toList ++ rs ++ "]\n".toList ∧
    num.length = 3 ∧ nm.length = 50 ∧ tm.length = 10 ∧ rs.length = 4 ∧
    (∃ k ds, num = List.replicate k ' ' ++ ds ∧ ds ≠ [] ∧ (∀ c ∈ ds, c.isDigit = true) ∧ FloatText.digitsVal ds = count) ∧
    (∃ k, nm = name.take 50 ++ List.replicate k ' ') ∧
    (∃ k t, tm = t ++ "s".toList ++ List.replicate k ' ' ∧ FloatText.readDec t = some ((ms : ℚ) / 1000)) ∧
    (∃ k, rs = result ++ List.replicate k ' ')

end Falcon.Fut
