import Mathlib.Data.Rat.Floor
import Mathlib.Data.Int.Log
import Verif.Basic
/-
Model of EXPECT_FLOAT_EQ and EXPECT_FLOAT_NE: src/include/falcon/fut/fut.h 88-93.

Doubles are rational numbers or a special value; the product with the literal 10000.0 is rounded by a
function `rnd`. `rne` is rounding to nearest, ties to even, of binary64 (with gradual underflow), which
is what compiled code does; the theorems hold for every `Rounding`. An argument of type float, or an
integer of at most 53 bits, is converted to double without change.
-/
namespace Falcon.Fut

/-- A value of type double. The type of `_ARG_*10000.0` in fut.h 88-93. -/
inductive Dbl where
  | fin (x : ℚ)
  | inf (neg : Bool)
  | nan
  deriving DecidableEq

/-- The integer nearest to z, of two the even one. Floating point arithmetic of fut.h 88-93. -/
def roundEven (z : ℚ) : ℤ :=
  if z - ⌊z⌋ < 1 / 2 then ⌊z⌋
  else if 1 / 2 < z - ⌊z⌋ then ⌊z⌋ + 1
  else if ⌊z⌋ % 2 = 0 then ⌊z⌋ else ⌊z⌋ + 1

/-- The exponent of the last place of the doubles around x: 52 below the leading bit, at least -1074. -/
def lastPlace (x : ℚ) : ℤ := max (Int.log 2 |x| - 52) (-1074)

/-- Rounding to the nearest double (the range is dealt with in `Dbl.scale`).
Floating point arithmetic of fut.h 88-93. -/
def rne (x : ℚ) : ℚ := roundEven (x / 2 ^ lastPlace x) * 2 ^ lastPlace x

/-- `_ARG_*10000.0`, fut.h 89-90: the product, rounded; infinite from 2^1024 on. -/
def Dbl.scale (rnd : ℚ → ℚ) : Dbl → Dbl
  | .fin x => if 2 ^ 1024 ≤ |rnd (x * 10000)| then .inf (rnd (x * 10000) < 0) else .fin (rnd (x * 10000))
  | d => d

/-- Towards zero. The conversion in fut.h 88-93. -/
def trunc (x : ℚ) : ℤ := if 0 ≤ x then ⌊x⌋ else ⌈x⌉

/-- `static_cast<::falcon::int64>`, fut.h 89-90: undefined when the integer part does not fit. -/
def Dbl.toInt64 : Dbl → Res Int
  | .fin x => if -9223372036854775808 ≤ trunc x ∧ trunc x ≤ 9223372036854775807 then .ok (trunc x) else .error (.ub .castRange)
  | _ => .error (.ub .castRange)

/-- The two sides of the comparison, fut.h 88-93: both are evaluated, whatever the outcome. -/
def floatCells (rnd : ℚ → ℚ) (expected actual : Dbl) : Res (Int × Int) :=
  match (expected.scale rnd).toInt64, (actual.scale rnd).toInt64 with
  | .ok a, .ok b => .ok (a, b)
  | .error e, _ => .error e
  | _, .error e => .error e

/-- EXPECT_FLOAT_EQ, fut.h 88-90 and 54-60: whether the check passes. -/
def floatEq (rnd : ℚ → ℚ) (expected actual : Dbl) : Res Bool :=
  match floatCells rnd expected actual with
  | .ok (a, b) => .ok (decide (a = b))
  | .error e => .error e

/-- EXPECT_FLOAT_NE, fut.h 91-93. -/
def floatNe (rnd : ℚ → ℚ) (expected actual : Dbl) : Res Bool :=
  match floatCells rnd expected actual with
  | .ok (a, b) => .ok (decide (a ≠ b))
  | .error e => .error e

/-- EXPECT_FLOAT_EQ(x + y, actual), fut.h 87-89: the macro pastes its argument without parentheses, so it
computes `x + y*10000.0`. -/
def floatEqSum (rnd : ℚ → ℚ) (x y : ℚ) (actual : Dbl) : Res Bool :=
  match (Dbl.fin (rnd (x + rnd (y * 10000)))).toInt64, (actual.scale rnd).toInt64 with
  | .ok a, .ok b => .ok (decide (a = b))
  | .error e, _ => .error e
  | _, .error e => .error e

end Falcon.Fut
