import Verif.Model.UnitTest
import Verif.Spec.TestCase
/-
Specification vocabulary for test runs: what was performed with which verdict, in which order, which
command lines are valid. Nothing here refers to the runner's loops, counters or maps.
-/
namespace Falcon.Fut

/-- Between two tests the runner may only add text to standard output (none if not `loud`) and read the
clock. -/
structure Aside (loud : Bool) (w w' : World) : Prop where
  cout : w'.cout = w.cout
  cerr : w'.cerr = w.cerr
  tc   : w'.tc = w.tc
  tr   : w'.tr = w.tr
  text : ∃ s, (loud = false → s = []) ∧ ∀ b, w'.content b = if b = w.cout then w.content b ++ s else w.content b

/-- Tests were performed one after the other, from `w` to `w'`: each was begun, run and ended, and had
the given status when it was ended. -/
inductive Performed (env : Env) (defs : Nat → TestDef) (capture loud : Bool) : World → List (Nat × Status) → World → Prop
  | done {w w'} : Aside loud w w' → Performed env defs capture loud w [] w'
  | test {w w1 w2 w3 t rest} : Aside loud w w1 → endTest capture t (run env (defs t) t (beginTest capture t w1)) = .ok w2 →
      Performed env defs capture loud w2 rest w3 → Performed env defs capture loud w ((t, (w2.tc t).status) :: rest) w3

/-- The verdicts with the numbers shown, starting behind n. -/
def numbered (n : Nat) : List (Nat × Status) → Log
  | [] => []
  | (t, s) :: rest => (n + 1, t, decide (s = .success)) :: numbered (n + 1) rest

/-- How many tests did not pass. -/
def failures (vs : List (Nat × Status)) : Nat := (vs.filter (fun v => v.2 ≠ .success)).length

/-- The selected tests by component, `k` times each within the component: components in ascending order, within a
component the order of selection. -/
def Grouped (component : Nat → Str) (k : Nat) (sel order : List Nat) : Prop :=
  ∃ cs : List Str, cs.Pairwise (· < ·) ∧ (∀ c, c ∈ cs ↔ ∃ t ∈ sel, component t = c) ∧
    order = cs.flatMap (fun c => (List.replicate k (sel.filter (fun t => component t = c))).flatten)

/-- The status of a test's last performance. -/
def lastVerdict (t : Nat) (vs : List (Nat × Status)) : Option Status := ((vs.filter (fun v => v.1 = t)).map Prod.snd).getLast?

/-- The tests that were entered, read off the trace. -/
def entered (tr : List Ev) : List Nat := tr.filterMap fun e => match e with | .setUp t => some t | _ => none

/-- A test program: these tests registered, in this order, with a fresh runner. -/
def registered (defs : Nat → TestDef) (ts : List Nat) : UT := ts.foldl (addTestCase defs) {}

/-! Command lines -/

/-- An option with its argument; for -v also the number that is read from it. -/
inductive Opt where
  | quiet | noCapture | errFail
  | level (a : Str) (l : Nat) | test (name : Str) | xml (file : Str) | name (n : Str) | ident (i : Str)
  deriving DecidableEq, Repr

/-- How it is written. -/
def Opt.words : Opt → List Str
  | .quiet => ["-q".toList]
  | .noCapture => ["-c".toList]
  | .errFail => ["-e".toList]
  | .level a _ => ["-v".toList, a]
  | .test n => ["-t".toList, n]
  | .xml f => ["-x".toList, f]
  | .name n => ["-n".toList, n]
  | .ident i => ["-i".toList, i]

/-- White space in the C locale. -/
def White (c : Char) : Prop := c ∈ [' ', '\t', '\n', '\x0b', '\x0c', '\r']

/-- Reading an `int` with `>>` from this text stores `l`: white space, a sign or none, digits (perhaps none: then 0 is stored),
something that does not begin with a digit; the number is limited to the range of `int`. Not if there is nothing but white
space: then nothing is stored. -/
def Stores (a : Str) (l : Int) : Prop :=
  ∃ bl sign ds rest : Str, a = bl ++ sign ++ ds ++ rest ∧ (∀ c ∈ bl, White c) ∧ (sign = [] ∨ sign = ['+'] ∨ sign = ['-']) ∧
    (∀ c ∈ ds, c.isDigit = true) ∧ (∀ c, rest.head? = some c → c.isDigit = false) ∧
    (sign = [] → ds = [] → ∃ c, rest.head? = some c ∧ ¬ White c ∧ c ≠ '+' ∧ c ≠ '-') ∧
    l = max (-2147483648) (min 2147483647 (if sign = ['-'] then -(Nat.ofDigitChars 10 ds 0 : Int) else Nat.ofDigitChars 10 ds 0))

/-- It is acceptable to a runner that knows these test names. -/
def Opt.valid (known : Str → Option Nat) : Opt → Prop
  | .level a l => Stores a l ∧ l ≤ 5
  | .test n => (known n).isSome
  | _ => True

/-- The last setting made by these options. -/
def lastSome {α : Type} (f : Opt → Option α) (os : List Opt) (d : α) : α := ((os.filterMap f).getLast?).getD d

def Opt.setsVerbosity : Opt → Option Nat
  | .quiet => some 0
  | .level _ l => some l
  | _ => none
def Opt.setsXml : Opt → Option Str
  | .xml f => some f
  | _ => none
def Opt.setsName : Opt → Option Str
  | .name f => some f
  | _ => none
def Opt.setsId : Opt → Option Str
  | .ident f => some f
  | _ => none
def Opt.selects (known : Str → Option Nat) : Opt → Option Nat
  | .test n => known n
  | _ => none

/-- The settings after a list of options. -/
def configured (u : UT) (os : List Opt) : UT :=
  { u with
    verbosity := lastSome Opt.setsVerbosity os u.verbosity
    xmlReport := lastSome Opt.setsXml os u.xmlReport
    name := lastSome Opt.setsName os u.name
    id := lastSome Opt.setsId os u.id
    capture := u.capture && !os.contains .noCapture
    erroutIsFail := u.erroutIsFail || os.contains .errFail
    toPerform := u.toPerform ++ os.filterMap (Opt.selects (findByName u)) }

end Falcon.Fut
