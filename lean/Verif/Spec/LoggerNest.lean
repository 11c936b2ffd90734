import Verif.Spec.LoggerThrow
/-
Nested LOG statements: the order in which statements begin, pieces are inserted, and statements end - and what is emitted.
-/
namespace Falcon.Logger
open Falcon.Log (Str Msg)

/-- What can be heard of nested LOG statements as they are executed. -/
inductive Tok where
  | opened (file : Str) (line lvl : Int)
  | piece (p : Piece)
  | cat (c : Str)
  | closed
  deriving DecidableEq, Repr

/-- The tokens of a nest of LOG statements: a statement that is admitted begins, its operands follow in order, nested
statements between them, and it ends; of a statement that is not admitted only what the statements nested in it make is
left. `act`: the statement around is admitted. -/
def tape (min lv : Int) : Bool → Prog → List Tok
  | act, .seq a b => tape min lv act a ++ tape min lv act b
  | act, .put p => if act then [.piece p] else []
  | act, .cat c => if act then [.cat c] else []
  | _, .log f l lvl parts =>
    if lvl ≤ min ∧ lvl ≤ lv then .opened f l lvl :: (tape min lv true parts ++ [.closed]) else tape min lv false parts
  | _, _ => []

/-- Only LOG statements and their operands, nested to any depth; no manipulators and null strings. -/
def Prog.nest : Prog → Bool
  | .skip        => true
  | .seq a b     => a.nest && b.nest
  | .put p       => p.isPlain
  | .cat _       => true
  | .log _ _ _ p => p.nest
  | _            => false

/-- The tokens behind the last end of a statement. -/
def sinceClosed (pre : List Tok) : List Tok := (pre.reverse.takeWhile (fun t => t != .closed)).reverse

/-- The inserted piece, if it is one. -/
def Tok.piece? : Tok → Option Piece
  | .piece p => some p
  | _ => none

/-- The category, if it is one. -/
def Tok.cat? : Tok → Option Str
  | .cat c => some c
  | _ => none

/-- The pieces among them, as text. -/
def heard (pre : List Tok) : Str := plainText ((sinceClosed pre).filterMap Tok.piece?)

/-- The statement that began last, ended or not. -/
def lastOpened : List Tok → Option (Str × Int × Int)
  | [] => none
  | .opened f l lvl :: ts => some ((lastOpened ts).getD (f, l, lvl))
  | _ :: ts => lastOpened ts

/-- The last category given behind the last end of a statement (the empty one is none). -/
def lastCat (pre : List Tok) : Str :=
  (((sinceClosed pre).filterMap Tok.cat?).getLast?).getD []

/-- What is emitted when a statement ends behind the tokens `pre`: the pieces inserted since the last end of any statement,
under the file, line and level of the statement that began last. -/
def emitted (cat : Str) (pre : List Tok) : Msg :=
  let o := (lastOpened pre).getD ([], 0, 0)
  { file := o.1, line := o.2.1, level := o.2.2, cat := if lastCat pre = [] then cat else lastCat pre, text := heard pre }

/-- One message for every end of a statement. -/
def emittedAll (cat : Str) : List Tok → List Tok → List Msg
  | _, [] => []
  | pre, .closed :: ts => emitted cat pre :: emittedAll cat (pre ++ [.closed]) ts
  | pre, t :: ts => emittedAll cat (pre ++ [t]) ts

end Falcon.Logger
