import Verif.Model.FloatEq
/- What is assumed of floating point rounding, and what EXPECT_FLOAT_EQ is supposed to decide. -/
namespace Falcon.Fut

/-- A rounding of binary64: it keeps the order and leaves alone what has a 53 bit mantissa and no bit
below 2^-1074. -/
structure Rounding (rnd : ℚ → ℚ) : Prop where
  mono : ∀ x y, x ≤ y → rnd x ≤ rnd y
  exact : ∀ m e : ℤ, |m| ≤ 9007199254740992 → -1074 ≤ e → rnd (m * 2 ^ e) = m * 2 ^ e

/-- The tolerance comparison: the numbers differ by less than 0.0001. -/
def Close (a b : ℚ) : Prop := |a - b| < 1 / 10000

end Falcon.Fut
