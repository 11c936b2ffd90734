import Verif.Spec.UnitTest
import Verif.Spec.FloatText
/-
Specification vocabulary for what a test run shows on the console: the outcome of each performed test, and the
text that reports it. Nothing here refers to the runner's printing functions.
-/
namespace Falcon.Fut

/-- What became of one performed test. -/
structure Outcome where
  number : Nat           -- its number in the run
  test   : Nat
  status : Status
  direct : Str           -- what it wrote to standard output itself, unless that was captured
  directErr : Str        -- and to standard error
  out    : Str           -- its captured standard output
  err    : Str           -- its captured standard error
  desc   : Str           -- the message of its failure
  file   : Str           -- where it failed
  line   : Option Int
  millis : Int           -- elapsed time

/-- The outcome of a test with number n that did what `sc` says, read off the test case when it was ended. -/
def outcomeOf (capture : Bool) (n t : Nat) (sc : Script) (c : Tc) : Outcome :=
  { number := n, test := t, status := c.status, direct := if capture then [] else outText sc.done,
    directErr := if capture then [] else errText sc.done, out := c.outStr, err := c.errStr,
    desc := c.failDesc, file := c.failFile, line := c.failLine, millis := c.lapse.elapsed }

/-- The elapsed time is not negative and below 35000 years. -/
def Outcome.inTime (o : Outcome) : Prop := 0 ≤ o.millis ∧ o.millis ≤ 1125899906842624

/-- Tests were performed one after the other, from `w` to `w'`, the first with number n+1: each was begun, run and
ended, with the given outcome. In between, the runner only added text to standard output and read the clock. -/
inductive Conducted (env : Env) (defs : Nat → TestDef) (capture loud : Bool) : Nat → World → List Outcome → World → Prop
  | done {n w w'} : Aside loud w w' → Conducted env defs capture loud n w [] w'
  | test {n w w1 w2 w3 t rest} : Aside loud w w1 → endTest capture t (run env (defs t) t (beginTest capture t w1)) = .ok w2 →
      Conducted env defs capture loud (n + 1) w2 rest w3 →
      Conducted env defs capture loud n w (outcomeOf capture (n + 1) t ((defs t).script (w1.tc t).runs) (w2.tc t) :: rest) w3

namespace Console

def text (s : String) : Str := s.toList

/-- A decimal number. -/
def number (n : Nat) : Str := Nat.toDigits 10 n
def integer : Int → Str
  | .ofNat n => number n
  | .negSucc n => '-' :: number (n + 1)

/-- Filled up with blanks to n columns. -/
def left (n : Nat) (s : Str) : Str := s ++ List.replicate (n - s.length) ' '
def right (n : Nat) (s : Str) : Str := List.replicate (n - s.length) ' ' ++ s

/-- Milliseconds as seconds with three digits. -/
def seconds (ms : Nat) : Str := number (ms / 1000) ++ text "." ++ number (ms / 100 % 10) ++ number (ms / 10 % 10) ++ number (ms % 10)

/-- One line for a test: its number, the first 50 characters of its name, a time and a word. -/
def line (n : Nat) (name time word : Str) : Str :=
  text "[" ++ right 3 (number n) ++ text ": " ++ left 50 (name.take 50) ++ left 10 time ++ text " " ++ left 4 word ++ text "]\n"

def bar : Str := List.replicate 70 '='

/-- What a text shows on the console: it ends at the first NUL. -/
def shown (s : Str) : Str := s.takeWhile (fun c => decide (c ≠ '\x00'))

/-- A captured stream. -/
def stream (title name s : Str) : Str := text "\n" ++ bar ++ text "\n" ++ title ++ text " " ++ name ++ text "\n" ++ bar ++ text "\n" ++ shown s ++ text "\n"

/-- The verdict on a test. -/
def verdict (v : Nat) (name : Str) (o : Outcome) : Str :=
  match o.status with
  | .error => if v = 0 then [] else text "\n" ++ bar ++ text "\nUncaught error in Case " ++ number o.number ++ text ": " ++ name ++ text "\n" ++ o.desc ++ text "\n"
  | .fail => if v = 0 then [] else text "\n" ++ bar ++ text "\nFailure in case " ++ number o.number ++ text ": " ++ name ++ text " at " ++ o.file ++ text ": " ++
      integer (o.line.getD 0) ++ text "\n" ++ o.desc ++ text "\n"
  | .success => if v < 2 then [] else line o.number name (seconds o.millis.toNat ++ text "s") (text "OK")
  | _ => if v < 2 then [] else line o.number name (seconds o.millis.toNat ++ text "s") (text "FAIL")

/-- Everything on standard output about one test, with verbosity v. -/
def told (v : Nat) (name : Str) (o : Outcome) : Str :=
  (if v < 3 then [] else line o.number name (text "-1.000000") (text "GO")) ++
  o.direct ++
  (if shown o.out ≠ [] ∧ (5 ≤ v ∨ (1 ≤ v ∧ o.status ≠ .success)) then stream (text "STDOUT") name o.out else []) ++
  (if shown o.err ≠ [] ∧ (4 ≤ v ∨ (1 ≤ v ∧ o.status ≠ .success)) then stream (text "STDERR") name o.err else []) ++
  verdict v name o

/-- The names of the failed tests. -/
def failedCases : List Str → Str
  | [] => []
  | n :: ns => text "\n" ++ bar ++ text "\nFailed cases: " ++ n ++ ns.flatMap (fun m => text ", " ++ m) ++ text "\n" ++ bar ++ text "\n"

/-- A line of the summary. -/
def total (what name time : Str) (passed : Bool) : Str := what ++ name ++ text " (elapsed " ++ time ++ text "s) " ++ (if passed then text "Passed\n" else text "FAILED \n")

/-- The summary: failed cases, the components (name, time, passed) if there are several, the whole run. -/
def summary (v : Nat) (failed : List Str) (comps : List (Str × Str × Bool)) (name time : Str) (passed : Bool) : Str :=
  if v = 0 then []
  else (if passed then [] else failedCases failed) ++
    (if comps.length < 2 then [] else comps.flatMap (fun c => total (text "  Component ") c.1 c.2.1 c.2.2)) ++
    total (text "Unit Test ") name time passed

end Console
/-- The entry of the log that belongs to an outcome. -/
def entry (o : Outcome) : Nat × Nat × Bool := (o.number, o.test, decide (o.status = .success))

/-- The buffers of the two streams differ from each other and are not those of a test. -/
structure Sane (w : World) : Prop where
  ne   : w.cout ≠ w.cerr
  out  : ∀ t, w.cout ≠ .capOut t ∧ w.cout ≠ .capErr t
  err  : ∀ t, w.cerr ≠ .capOut t ∧ w.cerr ≠ .capErr t

end Falcon.Fut
