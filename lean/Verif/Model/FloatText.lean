import Verif.Model.FloatEq
/-
Model of the text of a floating point number on a std::ostream with default floatfield, as used by
FloatHandler::toString (floathandler.h 29-33, default precision 6), by the XML report (unittest.cpp 426,
434, 439, default precision 6) and by the summary (unittest.cpp 249 with precision 3, 254 with precision 4).

The standard library is not part of /repo: [facet.num.put.virtuals] maps this output to printf's `%.*g`,
and the definitions below follow the description of `%g` in C11 7.21.6.1, with correct rounding of the
exact value (to nearest, ties to even) as C libraries do it.
-/
namespace Falcon.FloatText
open Falcon.Fut (roundEven)

/-- A text. `std::ostringstream::str()`, floathandler.h 32. -/
abbrev Str := List Char

/-- C11 7.21.6.1/8, conversion e with `p` significant digits, of x > 0 (floathandler.h 31): the digits as a
number and the exponent of the first digit. When rounding gives a digit more, the exponent is one higher. -/
def sci (p : Nat) (x : ℚ) : Nat × Int :=
  let k := Int.log 10 x
  let s := (roundEven (x / 10 ^ (k - p + 1))).toNat
  if s = 10 ^ p then (10 ^ (p - 1), k + 1) else (s, k)

/-- `%g` removes trailing zeros from the fraction, and a decimal point with nothing behind it (floathandler.h 31). -/
def withFrac (i f : Str) : Str :=
  match (f.reverse.dropWhile (fun c => c == '0')).reverse with
  | [] => i
  | f => i ++ '.' :: f

/-- The exponent has a sign and at least two digits (floathandler.h 31). -/
def expText (k : Int) : Str :=
  'e' :: (if k < 0 then '-' else '+') :: (if k.natAbs < 10 then ['0'] else []) ++ Nat.toDigits 10 k.natAbs

/-- `%g` of x > 0 with `p` > 0 significant digits (floathandler.h 31): fixed notation if the exponent k satisfies
p > k ≥ -4, scientific notation otherwise. -/
def posText (p : Nat) (x : ℚ) : Str :=
  match sci p x with
  | (s, k) =>
    let ds := Nat.toDigits 10 s
    if -4 ≤ k ∧ k < p then
      if 0 ≤ k then withFrac (ds.take (k.toNat + 1)) (ds.drop (k.toNat + 1))
      else withFrac ['0'] (List.replicate ((-k).toNat - 1) '0' ++ ds)
    else withFrac (ds.take 1) (ds.drop 1) ++ expText k

/-- A finite number given by its sign bit and magnitude (floathandler.h 31). -/
def text (p : Nat) (neg : Bool) (x : ℚ) : Str :=
  (if neg then ['-'] else []) ++ (if x = 0 then ['0'] else posText p x)

/-- The last `d` digits of n, with leading zeros (unittest.cpp 204, 208). -/
def lastDigits : (d : Nat) → Nat → Str
  | 0, _ => []
  | d + 1, n => lastDigits d (n / 10) ++ [Nat.digitChar (n % 10)]

/-- `%.*f`: x ≥ 0 with `d` > 0 digits behind the point, `std::fixed` (unittest.cpp 204, 208). -/
def fixedText (d : Nat) (x : ℚ) : Str :=
  let n := (roundEven (x * 10 ^ d)).toNat
  Nat.toDigits 10 (n / 10 ^ d) ++ '.' :: lastDigits d n

/-- `ms / 1000.0` for an int64 (unittest.cpp 192, 249, 254, 426, 434, 439): ms is converted to double, the
quotient is rounded to double. -/
def seconds (ms : Int) : ℚ := Falcon.Fut.rne (Falcon.Fut.rne ms / 1000)

end Falcon.FloatText
