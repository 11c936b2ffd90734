import Verif.Model.TestCase
/-
Model of the expansion of the check macros with effects, src/include/falcon/fut/fut.h 54-60 and 71-85, and of
waitTime, src/fut/marktime-unix.c++ 34-36 and src/fut/marktime-win.c++ 32-34.
-/
namespace Falcon.Fut

/-- An expression in a test: it may change the state of the program when it is evaluated.
Not in the code: the macro arguments `_EXPECTED_`, `_ACTUAL_` of fut.h 54-93. -/
abbrev Ex (σ V : Type) := σ → V × σ

/-- What a check does: whether it passed, the value shown in the failure description and the state after it.
The effects of fut.h 54-60 and 71-85. -/
structure Checked (σ V : Type) where
  passed   : Bool
  shown    : Option V
  state    : σ

/-- The comparison in FALCON_TEST_CHECK_LOGIC, fut.h 55. C++ does not fix which operand is evaluated first: `rev`
means the right one. -/
def compared {σ V : Type} (rev : Bool) (expected actual : Ex σ V) (s : σ) : V × V × σ :=
  if rev then
    let (b, s) := actual s
    let (a, s) := expected s
    (a, b, s)
  else
    let (a, s) := expected s
    let (b, s) := actual s
    (a, b, s)

/-- FALCON_TEST_CHECK_LOGIC, fut.h 54-60: when the comparison fails the actual expression is evaluated again to
print it. -/
def checkLogic {σ V : Type} (rev : Bool) (cmp : V → V → Bool) (expected actual : Ex σ V) (s : σ) : Checked σ V :=
  match compared rev expected actual s with
  | (a, b, s) =>
    if cmp a b then { passed := true, shown := none, state := s }
    else match actual s with
      | (v, s) => { passed := false, shown := some v, state := s }

/-- EXPECT_TRUE and EXPECT_FALSE (`want`), fut.h 71-85; `truth` is the conversion to bool. -/
def checkTruth {σ V : Type} (want : Bool) (truth : V → Bool) (actual : Ex σ V) (s : σ) : Checked σ V :=
  match actual s with
  | (b, s) =>
    if truth b = want then { passed := true, shown := none, state := s }
    else match actual s with
      | (v, s) => { passed := false, shown := some v, state := s }

/-- waitTime on unix, marktime-unix.c++ 34-36: the microseconds asked of usleep. The product is computed as int64, the
argument of usleep is an unsigned 32 bit number. -/
def waitUnix (ms : Int) : Res Int :=
  if -9223372036854775808 ≤ ms * 1000 ∧ ms * 1000 ≤ 9223372036854775807 then .ok (ms * 1000 % 4294967296) else .error (.ub .castRange)

/-- waitTime on Windows, marktime-win.c++ 32-34: the milliseconds asked of Sleep, a DWORD; 0xFFFFFFFF is INFINITE. -/
def waitWin (ms : Int) : Res Int :=
  if ms % 4294967296 = 4294967295 then .error .hang else .ok (ms % 4294967296)

end Falcon.Fut
