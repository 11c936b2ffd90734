import Verif.Model.UTSingleton
/- Specification vocabulary for UnitTest::singleton() and threads, over what can be seen. -/
namespace Falcon.UTS

/-- The runners that were made, in order. -/
def makes (tr : List Ev) : List Nat := tr.filterMap fun e => match e with | .made _ u => some u | _ => none

/-- The runners that were handed out. -/
def results (tr : List Ev) : List (Option Nat) := tr.filterMap fun e => match e with | .returned _ u => some u | _ => none

/-- How many calls were begun. -/
def calls (tr : List Ev) : Nat := tr.countP fun e => match e with | .called _ => true | _ => false

/-- Some call has returned. -/
def Returned (tr : List Ev) : Prop := ∃ i u, Ev.returned i u ∈ tr

/-- No call is under way. -/
def Quiet (s : St) : Prop := ∀ i, s.pc i = .out

/-- Thread i is about to store the runner it made. -/
def Stores (s : St) (i : Nat) : Prop := ∃ u, s.pc i = .store u

/-- Thread i is about to read the pointer: to test it, or to return what it points to. -/
def Reads (s : St) (i : Nat) : Prop := s.pc i = .test ∨ s.pc i = .read

/-- Two threads are about to make accesses that are a data race. -/
def Clashes (s : St) (i j : Nat) : Prop := i ≠ j ∧ ∃ x ∈ access s i, ∃ y ∈ access s j, Race.Clash x y

end Falcon.UTS
