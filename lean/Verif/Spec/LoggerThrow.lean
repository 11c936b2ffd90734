import Verif.Model.LoggerThrow
import Verif.Spec.Logger
/-
What log statements are supposed to do when something throws, said without the thread-local machinery.
-/
namespace Falcon.Logger
open Falcon.Log (Str Msg)

/-- One after the other. -/
def Prog.ofList : List Prog → Prog
  | []      => .skip
  | p :: ps => .seq p (ofList ps)

/-- The source form of a statement, `q` standing behind its last operand or behind the last statement of the block. -/
def Stm.withEnd (q : Prog) : Stm → Prog
  | .log f l lvl none ps     => .log f l lvl (.ofList (ps.map Prog.put ++ [q]))
  | .log f l lvl (some c) ps => .log f l lvl (.ofList (Prog.cat c :: ps.map Prog.put ++ [q]))
  | .block f l lvl ps        => .block f l lvl (.ofList (ps.map Prog.lput ++ [q]))
  | .category c              => .setCategory c
  | .level n                 => .level n

/-- The source form of a statement. -/
def Stm.toProg : Stm → Prog := Stm.withEnd .skip

/-- What a program does apart from logging: the general level it leaves and the exception it throws. A block that is
not admitted is not executed; the operands of a LOG statement are always evaluated. -/
def flow (min : Int) : Prog → Int → Int × Option Nat
  | .seq a b, lv => match flow min a lv with
    | (lv, none) => flow min b lv
    | r => r
  | .log _ _ _ parts, lv => flow min parts lv
  | .block _ _ lvl body, lv => if lvl ≤ min ∧ lvl ≤ lv then flow min body lv else (lv, none)
  | .level n, _ => (n, none)
  | .thrw e, lv => (lv, some e)
  | .tryc body handler, lv => match flow min body lv with
    | (lv, some _) => flow min handler lv
    | r => r
  | _, lv => (lv, none)

/-- The end of a program that throws `e` or nothing. -/
def endOf : Option Nat → End
  | none   => .done
  | some e => .threw (some e)

/-- No exception leaves the fragment: whatever is thrown is thrown inside a `try`, and handlers do not throw. -/
def Prog.calm : Prog → Bool
  | .seq a b     => a.calm && b.calm
  | .log _ _ _ p => p.calm
  | .block _ _ _ b => b.calm
  | .thrw _      => false
  | .tryc _ h    => h.calm
  | _            => true

/-- Programs as they are meant to be written: `LOGGER <<` only in LOG_BLOCKs; no exception leaves a LOG_BLOCK; no
manipulators and null strings. Exceptions may leave LOG statements. `inBlock`: the fragment is (part of) the body of a
block, `inLog`: of the operands of a LOG statement. -/
def Prog.tidy (inBlock inLog : Bool) : Prog → Bool
  | .seq a b       => a.tidy inBlock inLog && b.tidy inBlock inLog
  | .put p         => inLog && p.isPlain
  | .cat _         => inLog
  | .lput p        => inBlock && p.isPlain
  | .log _ _ _ p   => p.tidy false true
  | .block _ _ _ b => b.calm && b.tidy true false
  | .tryc b h      => b.tidy inBlock inLog && h.tidy inBlock inLog
  | _              => true

/-- No exceptions at all. -/
def Prog.quiet : Prog → Bool
  | .seq a b       => a.quiet && b.quiet
  | .log _ _ _ p   => p.quiet
  | .block _ _ _ b => b.quiet
  | .thrw _ | .tryc _ _ => false
  | _              => true

/-- The same program in the vocabulary of the threads of Model/Logger (only for programs without exceptions). -/
def Prog.ops : Prog → List Op
  | .seq a b           => a.ops ++ b.ops
  | .put p             => [.put p]
  | .cat c             => [.putCat c]
  | .log f l lvl p     => [.log f l lvl p.ops]
  | .block f l lvl b   => [.block f l lvl b.ops false]
  | .lput p            => [.lput p]
  | .setCategory c     => [.setCategory c]
  | .level n           => [.level n]
  | _                  => []

end Falcon.Logger
