import Verif.Check.LogTests
import Verif.Model.UnitTest
import Verif.Model.Checks
import Verif.Model.FloatEq
/-
Validation of the model against the project's own tests of FUT, not part of any proof:
src/test/fut/fut_smoke.cpp, fut_checks.cpp, fut_fixture.cpp, fut_verbosity.cpp and fut_timing.cpp, transcribed and
run on the model.
-/
namespace Falcon.Check
open Falcon.Fut

/-- a test with one body, always the same -/
def test (comp name : String) (body : List Act) : TestDef :=
  { component := comp.toList, caseName := name.toList, script := fun _ => { body := body } }

/-- the tests of a program, registered in the order of their definition -/
def defsOf (ts : List TestDef) : Nat → TestDef := fun n => ts.getD n { component := [], caseName := [], script := fun _ => {} }
def registered (ts : List TestDef) : UT := (List.range ts.length).foldl (addTestCase (defsOf ts)) {}

/-- FALCON_TEST_MAIN without arguments: exit code and which tests passed -/
def runMain (ts : List TestDef) : Option (Int × List (Nat × Nat × Bool)) :=
  (main {} ⟨fun _ => [], fun _ => [], fun _ => []⟩ true (defsOf ts) (registered ts) {} ["./test".toList]).toOption.map (fun r => (r.code, r.log))

/-! ### fut_smoke.cpp -/

example : runMain [test "FUT" "smoke" [.out "Hello world!\n".toList]] = some (0, [(1, 0, true)]) := by decide +kernel

/-! ### fut_checks.cpp: the checks of BasicPositive, ThrowPositive, StringEquality all pass -/

def passing (n : Nat) : List Act := List.replicate n (.check true "fut_checks.cpp".toList 26 [] [])
def something : Exc := .std "Something".toList

example : runMain [
    test "EXPECT" "BasicPositive" (passing 10),
    test "EXPECT" "ThrowPositive"
      [.expectThrow (some something) true "fut_checks.cpp".toList 45 "std::runtime_error".toList,
       .expectAnyThrow (some something) "fut_checks.cpp".toList 51, .out "1\n".toList, .expectNoThrow none "fut_checks.cpp".toList 55],
    test "EXPECT" "StringEquality" (passing 2)] = some (0, [(1, 0, true), (2, 1, true), (3, 2, true)]) := by decide +kernel

/-- FloatEquality, with the binary64 values of the literals and of `100.0/3.0` -/
example : (floatEq rne (.fin (rne (33333333 / 1000000))) (.fin (rne (100 / 3)))).toOption = some true := by decide +kernel
example : (floatNe rne (.fin (rne (33334 / 1000))) (.fin (rne (100 / 3)))).toOption = some true := by decide +kernel

/-! ### fut_fixture.cpp: SetUp, the test and TearDown run in this order -/

/-- the member `m_v` is what the last mark says -/
def fixture : TestDef :=
  { component := "MyTest".toList, caseName := "SetUpCalled".toList,
    script := fun _ => { setUp := [.step 1], body := [.check true [] 0 [] [], .step 2], tearDown := [.step 3] } }

example : ((performTest {} (defsOf [fixture]) (registered [fixture]) {} "MyTest::SetUpCalled".toList).toOption.map (fun r => (r.2.1.tr, r.2.2))) =
    some ([.setUp 0, .step 0 1, .body 0, .step 0 2, .tearDown 0, .step 0 3], 0) := by decide +kernel

/-! ### fut_verbosity.cpp -/

def verbosity : List TestDef := [
  test "Verbosity" "onCerr" [.out "A sentence on COUT\n".toList, .err "An error written on cerr\n".toList],
  test "Verbosity" "TestFail" [.out "A sentence on COUT\n".toList, .check false "fut_verbosity.cpp".toList 35 "10 == 20".toList [] ],
  test "Verbosity" "ExplicitFail" [.failNow "fut_verbosity.cpp".toList 39 "Explicit failure!".toList],
  test "Verbosity" "ExplicitThrow" [.thrw (.std "Explicit throw!".toList)]]

/-- `doTest`: one after the other in one process, each with its verbosity; what cout and cerr of the process get from each, and the
result of performTest -/
def doTests : UT → World → List (Nat × String) → List (List Char × List Char × Int)
  | _, _, [] => []
  | u, w, (v, n) :: rest =>
    match performTest {} (defsOf verbosity) { u with verbosity := v } { w with cout := .other 0, cerr := .other 1, content := fun b => if b = .other 0 ∨ b = .other 1 then [] else w.content b }
        ("Verbosity::" ++ n).toList with
    | .ok (u', w', r) => (w'.content (.other 0), w'.content (.other 1), r) :: doTests u' w' rest
    | .error _ => []

def results : List (List Char × List Char × Int) :=
  doTests (registered verbosity) {} [(0, "ExplicitFail"), (1, "ExplicitFail"), (2, "TestFail"), (4, "onCerr"), (5, "onCerr")]

def has (s : String) (t : List Char) : Bool := (find s.toList t).isSome

/-- all five were meant to fail and fail; nothing is ever printed on cerr -/
example : results.map (fun r => (r.2.1, r.2.2)) = List.replicate 5 ([], -1) := by decide +kernel
/-- 1: nothing on cout -/
example : (results[0]?).map (·.1) = some [] := by decide +kernel
/-- 2: the failure -/
example : (results[1]?).map (fun r => has "Explicit failure!" r.1) = some true := by decide +kernel
/-- 4, 5: both sentences -/
example : (results[3]?).map (fun r => (has "A sentence on COUT\n" r.1, has "An error written on cerr\n" r.1)) = some (true, true) := by decide +kernel
example : (results[4]?).map (fun r => (has "A sentence on COUT\n" r.1, has "An error written on cerr\n" r.1)) = some (true, true) := by decide +kernel
example : (results[2]?).map (fun r => (has "A sentence on COUT\n" r.1)) = some true := by decide +kernel

/-! ### fut_timing.cpp: the clock is read before the test and, in the test, by elapsedTimeNow() -/

/-- the checks of TIMETEST pass when usleep lasts between the time asked for and 250 ms more, at any time of the day -/
example (t0 t late : Int) (h0 : 0 ≤ late) (h1 : late < 250) (ht : 0 ≤ t) :
    t - 50 < Lapse.elapsedNow { begin := t0 } (t0 + t + late) ∧ t + 250 > Lapse.elapsedNow { begin := t0 } (t0 + t + late) := by
  unfold Lapse.elapsedNow
  dsimp only
  split <;> omega

/-- 200 ms in microseconds -/
example : (waitUnix 200).toOption = some 200000 := by decide

/-- the nine tests in three components: the report has a line for each component -/
def timing : List TestDef := (["CAT1", "CAT2", "CAT3", "CAT1", "CAT2", "CAT3", "CAT1", "CAT2", "CAT3"].zip
  ["Time1", "Time1", "Time1", "Time2", "Time2", "Time2", "Time3", "Time3", "Time3"]).map (fun p => test p.1 p.2 (passing 2))

example : runMain timing = some (0, [(1, 0, true), (2, 3, true), (3, 6, true), (4, 1, true), (5, 4, true), (6, 7, true), (7, 2, true), (8, 5, true), (9, 8, true)]) := by
  decide +kernel

end Falcon.Check
