import Verif.Model.LogStreamFail
import Verif.Spec.LogStream
/-
Vocabulary of C149: what is in the file when the stream fails now and then.
-/
namespace Falcon.LogStream
open Falcon.Log (Str Msg)

/-- The line of a message: what it writes on a new stream that does not fail. -/
def lineOf (sep : Char) (t : Tm) (m : Msg) : Str := (onMessage sep {} t m).text

/-- What the events add to the file: a line is written if the stream is good, as far as there is room; if there is not
enough room the stream is bad until repaired. -/
def added (sep : Char) (room : Option Nat) (bad : Bool) : List FEv → Str
  | []              => []
  | .msg t m :: es  =>
    if bad then added sep room bad es
    else match room with
      | none   => lineOf sep t m ++ added sep room false es
      | some n => (lineOf sep t m).take n ++ added sep (some (n - (lineOf sep t m).length)) (decide (n < (lineOf sep t m).length)) es
  | .device r :: es => added sep r bad es
  | .repair :: es   => added sep room false es

/-- Does the stream fail: is a message written on a bad stream, or one too long for the room left? -/
def fails (sep : Char) (room : Option Nat) (bad : Bool) : List FEv → Bool
  | []              => false
  | .msg t m :: es  =>
    bad || match room with
      | none   => fails sep room bad es
      | some n => decide (n < (lineOf sep t m).length) || fails sep (some (n - (lineOf sep t m).length)) bad es
  | .device r :: es => fails sep r bad es
  | .repair :: es   => fails sep room false es

/-- The times are ordinary. -/
def FEv.Small : FEv → Prop
  | .msg t _ => t.Small
  | _        => True

/-- `ln`, which ends in a newline, is a line of `file`. -/
def IsLineOf (ln file : Str) : Prop := ∃ pre post, file = pre ++ ln ++ post ∧ (pre = [] ∨ ∃ p, pre = p ++ ['\n'])

end Falcon.LogStream
