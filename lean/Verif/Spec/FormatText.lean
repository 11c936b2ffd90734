import Verif.Model.FutFormat
/-
Specification: what a sequence of `<<` shows, as a relation, for any format of the stream. A text, a number or
a time is shown as its body, filled up to the width; the width holds for one of them only.
-/
namespace Falcon.Fut.FormatText

/-- `v` is `b` filled up to `width` characters: nothing is cut, the body stands at one end, everything else is the
fill character. -/
def Filled (width : Nat) (fill : Char) (left : Bool) (b v : Str) : Prop :=
  v.length = max width b.length ∧
  (left = true → ∃ r, v = b ++ r ∧ ∀ c ∈ r, c = fill) ∧
  (left = false → ∃ r, v = r ++ b ∧ ∀ c ∈ r, c = fill)

/-- The sign in front of a number: `-` for the negative ones, `+` for the others if that is asked for. -/
def sign (plus : Bool) (n : Int) : Str := if n < 0 then ['-'] else if plus then ['+'] else []

/-- The body of one item. In base 8 and 16 a negative int appears as the unsigned int of the same bits. -/
inductive Body (f : Format) : Tok → Str → Prop where
  | text (s : Str) : Body f (.text s) s
  | dec (n : Int) (h : f.base = 10) : Body f (.int n) (sign f.plus n ++ Nat.toDigits 10 n.natAbs)
  | bits (n : Int) (u : Nat) (h : f.base ≠ 10) (hu : u < 2 ^ 32) (he : ∃ k : Int, n = u + k * 2 ^ 32) :
      Body f (.int n) (Nat.toDigits f.base u)
  | fixed (ms : Int) (h : f.fixed = true) :
      Body f (.secs ms) (sign f.plus ms ++ FloatText.fixedText f.prec |FloatText.seconds ms|)
  | general (ms : Int) (h : f.fixed = false) :
      Body f (.secs ms) (sign f.plus ms ++ FloatText.text f.prec false |FloatText.seconds ms|)

/-- In the format `f` these items show `w` and leave the format `f'`. -/
inductive Writes : Format → List Tok → Str → Format → Prop where
  | done (f : Format) : Writes f [] [] f
  | prec {f f' : Format} {n : Nat} {xs : List Tok} {w : Str} (h : Writes { f with prec := n } xs w f') :
      Writes f (.prec n :: xs) w f'
  | item {f f' : Format} {x : Tok} {xs : List Tok} {b v w : Str} (hb : Body f x b)
      (hv : Filled f.width f.fill f.left b v) (h : Writes { f with width := 0 } xs w f') :
      Writes f (x :: xs) (v ++ w) f'

end Falcon.Fut.FormatText
