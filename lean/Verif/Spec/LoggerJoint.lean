import Verif.Model.LoggerJoint
import Verif.Spec.LogFile
import Verif.Spec.Logger
/-
From statements to lines: what a file must show for the statements that threads execute.
-/
namespace Falcon.LoggerJoint
open Falcon.Log (St Ev Rx Msg Str LId)
open Falcon.Logger (W Stm emitsAll)

/-- The threads at their start: thread `i` has the statements `prog i` before it, nothing is composed, nothing was
emitted; the general level is `lv`. -/
def start (lv : Int) (prog : Nat → List Stm) : W :=
  { level := lv, th := fun i => { todo := (prog i).map Stm.toOp } }

/-- The statements are LOG, LOG_BLOCK and category statements with plain operands; the level is not changed. -/
def Program (ss : List Stm) : Prop := ∀ s ∈ ss, s.isPlain = true ∧ ∀ n, s ≠ .level n

/-- What the statements of a thread must show in a file written by a listener that wants the messages `wants`: one line for
every statement that the compile-time level and the general level let through and that the listener wants. -/
def linesOf (sep : Char) (min lv : Int) (wants : Msg → Bool) (ss : List Stm) : List LogStream.Seen :=
  ((emitsAll min lv [] ss).filter wants).map (LogStream.shouldSee sep)

/-- `all` consists of the lists `part 0, ..., part (n-1)`, each complete and in order: every entry can be given the
number of the list it comes from. -/
def Shuffle {β : Type} (n : Nat) (part : Nat → List β) (all : List β) : Prop :=
  ∃ tagged : List (Nat × β), tagged.map Prod.snd = all ∧ (∀ p ∈ tagged, p.1 < n) ∧
    ∀ i, i < n → (tagged.filter fun p => p.1 = i).map Prod.snd = part i

/-- The same, with a beginning of each list only. -/
def ShuffleOfPrefixes {β : Type} (n : Nat) (part : Nat → List β) (all : List β) : Prop :=
  ∃ part' : Nat → List β, (∀ i, i < n → part' i <+: part i) ∧ Shuffle n part' all

end Falcon.LoggerJoint
