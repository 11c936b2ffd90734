import Verif.Model.FutThreads
import Verif.Spec.DataRace
/-
What a user of checks in threads relies on.
-/
namespace Falcon.FutThreads
open Falcon.Fut (Str Status Exc)

/-- The failing checks a thread's function makes. -/
def fails : List TOp → List Chk
  | []              => []
  | .throws :: _    => []
  | .check c :: r   => if c.ok = true then fails r else if c.stops = true then [c] else c :: fails r

/-- An exception leaves the thread's function. -/
def escapes : List TOp → Bool
  | []              => false
  | .throws :: _    => true
  | .check c :: r   => if c.ok = false ∧ c.stops = true then false else escapes r

/-- The statements that test() executes when `n` threads have been started and `J` were joined, and the exception that leaves it. -/
def path (n : Nat) (J : List Nat) : List MOp → List MOp × Option Exc
  | []             => ([], none)
  | .throws e :: _ => ([], some e)
  | .check c :: r  => if c.ok = false ∧ c.stops = true then ([.check c], none) else (.check c :: (path n J r).1, (path n J r).2)
  | .spawn b :: r  => (.spawn b :: (path (n + 1) J r).1, (path (n + 1) J r).2)
  | .join k :: r   => if k < n ∧ k ∉ J then (.join k :: (path n (k :: J) r).1, (path n (k :: J) r).2) else ([], some sysError)

/-- The statements test() executes. -/
def executed (prog : List MOp) : List MOp := (path 0 [] prog).1

/-- The exception that leaves test(). -/
def thrown (prog : List MOp) : Option Exc := (path 0 [] prog).2

/-- How many threads were started. -/
def spawned : List MOp → Nat
  | []            => 0
  | .spawn _ :: r => spawned r + 1
  | _ :: r        => spawned r

/-- While a thread that makes a failing check has been started and was not joined yet, another such thread is started, or
the test's own thread makes a failing check. -/
def Conflict (ops : List MOp) : Prop :=
  ∃ pre b mid x post, ops = pre ++ .spawn b :: (mid ++ x :: post) ∧ fails b ≠ [] ∧ .join (spawned pre) ∉ mid ∧
    ((∃ b', x = .spawn b' ∧ fails b' ≠ []) ∨ ∃ c, x = .check c ∧ c.ok = false)

/-- Every thread that was started was joined. -/
def AllJoined (ops : List MOp) : Prop := ∀ k, k < spawned ops → .join k ∈ ops

/-- No exception leaves a thread's function. -/
def NoEscape (ops : List MOp) : Prop := ∀ b, .spawn b ∈ ops → escapes b = false

/-- A failed check: the record of the test case says so. -/
def Chk.report (c : Chk) (_ : Rec) : Rec := { status := .fail, desc := c.desc, line := c.line, file := c.file }

/-- The record after the statements, if a thread's function were called like any function where the thread is started. -/
def inOrder (r : Rec) : List MOp → Rec
  | []              => r
  | .check c :: ops => inOrder (if c.ok = true then r else c.report r) ops
  | .spawn b :: ops => inOrder ((fails b).foldl (fun r c => c.report r) r) ops
  | _ :: ops        => inOrder r ops

/-- The verdict of a test that left the record `r`: an exception that leaves test() makes it an error with the text of the
exception, whatever was checked before; otherwise the test fails if a check failed and succeeds if none did. -/
def verdictOf (r : Rec) : Option Exc → Rec
  | none             => if r.status = .fail then r else { r with status := .success }
  | some (.std what) => { r with status := .error, desc := what }
  | some .other      => { r with status := .error, desc := "Unknown error caught by falcon::testing framework".toList }

/-- A failing check is made, in whatever thread. -/
def SomeFails (ops : List MOp) : Prop := ∃ x ∈ ops, (∃ c, x = .check c ∧ c.ok = false) ∨ ∃ b, x = .spawn b ∧ fails b ≠ []

/-- The accesses a thread (`none`: the test's own) is about to make to the members of the test case. -/
def accesses (s : St) : Option Nat → List (Race.Access Field Unit)
  | none =>
    match s.phase with
    | .done           => []
    | .leave none     => [⟨.status, true, false, []⟩]
    | .leave (some _) => [⟨.status, true, false, []⟩, ⟨.desc, true, false, []⟩]
    | .test           => (s.writes.take 1).map fun w => ⟨w.field, true, false, []⟩
  | some k => match s.ths[k]? with
    | none   => []
    | some t => (t.writes.take 1).map fun w => ⟨w.field, true, false, []⟩

/-- Two threads are about to make conflicting accesses. -/
def Racy (s : St) : Prop :=
  s.dead = false ∧ ∃ a b, a ≠ b ∧ ∃ x ∈ accesses s a, ∃ y ∈ accesses s b, Race.Clash x y

end Falcon.FutThreads
