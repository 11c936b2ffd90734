import Verif.Model.UnitTest
/-
Model of a program with several test runners: src/fut/unittest.cpp, src/include/falcon/fut/unittest.h, src/fut/testcase.cpp.

UnitTest objects can be made freely (unittest.h 45), test cases are not owned by them and may be registered with several
(unittest.h 28-31), main() deletes the runner it is called on (unittest.cpp 487), singleton() keeps the first one it made (270-277).
Runners and test cases are numbered by address; a number is not used again (simplification: an allocator may reuse the
address of a deleted object).  One thread; tests do not call runners (Model/FutNested has that).
-/
namespace Falcon.Fut

/-- The UnitTest and TestCase objects of a program. unittest.cpp 49-76, 270-277; testcase.cpp 27-49. -/
structure RS where
  units  : Nat → Option UT                                       -- the runners that are alive
  made   : Nat                                                   -- how many were made
  defs   : Nat → TestDef                                         -- the test cases, with the names they have now
  freed  : Nat → Bool                                            -- deleted test cases
  single : Option Nat                                            -- the static variable theTest
  w      : World

/-- A program before it made any runner; `ts` gives what the tests do, their names are "Undefined" (testcase.cpp 52-57). -/
def rstart (scripts : Nat → Nat → Script) (w : World) : RS :=
  { units := fun _ => none, made := 0, defs := fun t => ⟨[], [], scripts t⟩, freed := fun _ => false, single := none, w := w }

/-- The calls a program makes. unittest.h 45-68, testcase.h 40-43. -/
inductive ROp where
  | make                                                         -- new UnitTest
  | singleton                                                    -- UnitTest::singleton()
  | add (u : Nat) (component caseName : Str) (t : Nat)           -- u->addTestCase(component, caseName, t)
  | verbosity (u n : Nat)                                        -- u->setVerbosity(n)
  | options (u : Nat) (args : List Str)                          -- u->parseParams
  | perform (u : Nat)                                            -- u->performUnitTests()
  | performTest (u : Nat) (name : Str)                           -- u->performTest(name)
  | main (u : Nat) (argv : List Str)                             -- u->main(argc, argv)
  | dropUnit (u : Nat)                                           -- delete u
  | dropTest (t : Nat)                                           -- delete t
  deriving DecidableEq, Repr

/-- What a call gives back. unittest.cpp 270-323, 473-489. `log`: number shown, test, passed. -/
inductive ROut where
  | done
  | runner (u : Nat)
  | code (c : Int) (log : Log)
  | threw
  deriving DecidableEq, Repr

/-- unittest.cpp 79-88, 487: a runner comes, changes or goes. -/
def setUnit (f : Nat → Option UT) (u : Nat) (x : Option UT) : Nat → Option UT := fun v => if v = u then x else f v

/-- TestCase::setName, testcase.cpp 80-84. -/
def setName (defs : Nat → TestDef) (t : Nat) (component caseName : Str) : Nat → TestDef :=
  fun v => if v = t then ⟨component, caseName, (defs t).script⟩ else defs v

/-- `new UnitTest`, unittest.cpp 79-82. -/
def RS.new (s : RS) : RS := { s with units := setUnit s.units s.made (some {}), made := s.made + 1 }

/-- init() goes through all registered tests, unittest.cpp 104-106: one of them was deleted. -/
def touchesFreed (s : RS) (x : UT) : Bool := x.tests.any s.freed

/-- performUnitTests on a live runner, unittest.cpp 280-295; it starts with init(). -/
def runUnits (env : Env) (fmt : Fmt) (canOpen : Bool) (s : RS) (x : UT) (w : World) : Res Done :=
  if touchesFreed s x then .error (.ub .useAfterFree) else performUnitTests env fmt canOpen s.defs x w

/-- Its parameters as main() reads them, unittest.cpp 475-480. -/
def readArgv (sep : Char) (x : UT) (w : World) : List Str → Res (UT × World × Int)
  | [] => .ok (x, w, 0)
  | exe :: args => parseParams (detectTestName sep x exe) w args

/-- One call. unittest.cpp 79-107, 260-330, 332-394, 473-489; testcase.cpp 60-63, 80-84, 173-182 (TestCase::destroy does nothing). -/
def rstep (env : Env) (fmt : Fmt) (canOpen : Bool) (s : RS) : ROp → Res (RS × ROut)
  | .make => .ok (s.new, .runner s.made)
  | .singleton => match s.single with
    | some u => .ok (s, .runner u)
    | none => .ok ({ s.new with single := some s.made }, .runner s.made)
  | .add u c n t => match s.units u with
    | none => .error (.ub .useAfterFree)
    | some x =>
      if s.freed t then .error (.ub .useAfterFree)
      else .ok ({ s with defs := setName s.defs t c n, units := setUnit s.units u (some (addTestCase (setName s.defs t c n) x t)) }, .done)
  | .verbosity u n => match s.units u with
    | none => .error (.ub .useAfterFree)
    | some x => .ok ({ s with units := setUnit s.units u (some { x with verbosity := n }) }, .done)
  | .options u args => match s.units u with
    | none => .error (.ub .useAfterFree)
    | some x => match parseParams x s.w args with
      | .error e => .error e
      | .ok (x, w, c) => .ok ({ s with units := setUnit s.units u (some x), w := w }, .code c [])
  | .perform u => match s.units u with
    | none => .error (.ub .useAfterFree)
    | some x => match runUnits env fmt canOpen s x s.w with
      | .error e => .error e
      | .ok d => .ok ({ s with units := setUnit s.units u (some d.u), w := d.w }, .code d.u.status d.log)
  | .performTest u name => match s.units u with
    | none => .error (.ub .useAfterFree)
    | some x =>
      if touchesFreed s x then .error (.ub .useAfterFree)
      else match findByName x name with
        | none => .ok ({ s with units := setUnit s.units u (some (init x s.w).1), w := (init x s.w).2 }, .threw)
        | some t => match Fut.performTest env s.defs x s.w name with
          | .error e => .error e
          | .ok (x, w, c) => .ok ({ s with units := setUnit s.units u (some x), w := w }, .code c [(1, t, decide (c = 0))])
  | .main u argv => match s.units u with
    | none => .error (.ub .useAfterFree)
    | some x => match readArgv env.sep x s.w argv with
      | .error e => .error e
      | .ok (x, w, c) =>
        if c ≠ 0 then .ok ({ s with units := setUnit s.units u none, w := w }, .code c [])
        else match runUnits env fmt canOpen s x w with
          | .error e => .error e
          | .ok d => .ok ({ s with units := setUnit s.units u none, w := d.w }, .code d.u.status d.log)
  | .dropUnit u => match s.units u with
    | none => .error (.ub .doubleFree)
    | some _ => .ok ({ s with units := setUnit s.units u none }, .done)
  | .dropTest t => if s.freed t then .error (.ub .doubleFree) else .ok ({ s with freed := fun v => if v = t then true else s.freed v }, .done)

/-- A history: calls with what they gave back. unittest.cpp 79-107, 260-330, 473-489. -/
inductive RExec (env : Env) (fmt : Fmt) (canOpen : Bool) : RS → List (ROp × ROut) → RS → Prop
  | nil {s} : RExec env fmt canOpen s [] s
  | cons {s s1 s' op out h} : rstep env fmt canOpen s op = .ok (s1, out) → RExec env fmt canOpen s1 h s' →
      RExec env fmt canOpen s ((op, out) :: h) s'

/-- The same as a function of the calls. unittest.cpp 79-107, 260-330, 473-489. -/
def rrun (env : Env) (fmt : Fmt) (canOpen : Bool) : RS → List ROp → Res (RS × List ROut)
  | s, [] => .ok (s, [])
  | s, op :: ops => match rstep env fmt canOpen s op with
    | .error e => .error e
    | .ok (s, o) => match rrun env fmt canOpen s ops with
      | .error e => .error e
      | .ok (s, os) => .ok (s, o :: os)

end Falcon.Fut
