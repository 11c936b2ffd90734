import Verif.Model.FutRunners
import Verif.Spec.UnitTest
/-
Specification vocabulary for programs with several test runners, in terms of the calls made and what they gave back.
Nothing here refers to the state of the runners.
-/
namespace Falcon.Fut

/-- A runner with this address was handed out. -/
def Given (h : List (ROp × ROut)) (u : Nat) : Prop := ∃ op, (op, ROut.runner u) ∈ h

/-- main() was called on it or it was deleted. -/
def Over (h : List (ROp × ROut)) (u : Nat) : Prop := (∃ argv out, (.main u argv, out) ∈ h) ∨ ∃ out, (.dropUnit u, out) ∈ h

/-- The test case was deleted by the program. -/
def Deleted (h : List (ROp × ROut)) (t : Nat) : Prop := ∃ out, (.dropTest t, out) ∈ h

/-- The registrations made with runner `u`, in order: full name and test. -/
def regs (h : List (ROp × ROut)) (u : Nat) : List (Str × Nat) :=
  h.filterMap fun e => match e.1 with | .add v c n t => if v = u then some (c ++ "::".toList ++ n, t) else none | _ => none

/-- Its tests. -/
def testsOfUnit (h : List (ROp × ROut)) (u : Nat) : List Nat := (regs h u).map Prod.snd

/-- The test that is known to runner `u` under a name: the first one registered there with this name. -/
def knownAs (h : List (ROp × ROut)) (u : Nat) (name : Str) : Option Nat := ((regs h u).find? (fun e => decide (e.1 = name))).map Prod.snd

/-- All registrations of test `t`, with any runner: component and case name. -/
def namings (h : List (ROp × ROut)) (t : Nat) : List (Str × Str) :=
  h.filterMap fun e => match e.1 with | .add _ c n v => if v = t then some (c, n) else none | _ => none

/-- The call uses only objects that exist: the runner was handed out and not used up by main() or delete, the tests it goes through
(and the test that is registered) were not deleted; nothing is deleted twice. `accepts`: main() accepts its command line. -/
def Sound (h : List (ROp × ROut)) (accepts : Nat → List Str → Prop) : ROp → Prop
  | .make => True
  | .singleton => True
  | .add u _ _ t => (Given h u ∧ ¬ Over h u) ∧ ¬ Deleted h t
  | .verbosity u _ => Given h u ∧ ¬ Over h u
  | .options u _ => Given h u ∧ ¬ Over h u
  | .perform u => (Given h u ∧ ¬ Over h u) ∧ ∀ t ∈ testsOfUnit h u, ¬ Deleted h t
  | .performTest u _ => (Given h u ∧ ¬ Over h u) ∧ ∀ t ∈ testsOfUnit h u, ¬ Deleted h t
  | .main u argv => (Given h u ∧ ¬ Over h u) ∧ (accepts u argv → ∀ t ∈ testsOfUnit h u, ¬ Deleted h t)
  | .dropUnit u => Given h u ∧ ¬ Over h u
  | .dropTest t => ¬ Deleted h t

/-- main(argv) on runner `u` goes on to run tests: what follows the program name is options, each known with its argument if it takes one,
and -t names a test known to this runner. -/
def Accepts (h : List (ROp × ROut)) (u : Nat) (argv : List Str) : Prop :=
  argv = [] ∨ ∃ exe, ∃ os : List Opt, argv = exe :: os.flatMap Opt.words ∧ ∀ o ∈ os, o.valid (knownAs h u)

/-- The call is none of runner `u`'s business. Making runners and deleting tests is everybody's. -/
def ROp.foreign (u : Nat) : ROp → Bool
  | .add v _ _ _ | .verbosity v _ | .options v _ | .perform v | .performTest v _ | .main v _ | .dropUnit v => v != u
  | _ => false

/-- The history without the calls on other runners. -/
def alone (u : Nat) (h : List (ROp × ROut)) : List (ROp × ROut) := h.filter fun e => !e.1.foreign u

/-- No test of runner `u` is registered with another one. -/
def Exclusive (h : List (ROp × ROut)) (u : Nat) : Prop := ∀ t ∈ testsOfUnit h u, ∀ v, t ∈ testsOfUnit h v → v = u

/-- The tests with the names they were last given, by whichever runner. -/
def named (scripts : Nat → Nat → Script) (h : List (ROp × ROut)) (t : Nat) : TestDef :=
  ⟨((namings h t).getLast?.getD ([], [])).1, ((namings h t).getLast?.getD ([], [])).2, scripts t⟩

/-- No runner has been asked to run `u`'s tests or told which to select. -/
def Unused (h : List (ROp × ROut)) (u : Nat) : Prop := ∀ e ∈ h, e.1 ≠ .perform u ∧ ∀ args, e.1 ≠ .options u args

end Falcon.Fut
