import Verif.Model.UnitTest
/-
Model of tests that themselves call the test runner: src/fut/unittest.cpp 100-148, 298-328 and
src/fut/testcase.cpp 209-235, with `UnitTest::singleton()->performTest(name)` and `->setVerbosity(v)` as
statements of SetUp(), test() and TearDown().

The runner is one object: a call from inside a test works on the same members as the run that is under way.
`perf` is what a call of performTest does; `performAt n` allows calls nested n deep, the call nested deeper does
not return (a test that performs itself without end overflows the stack).
Not modelled: performUnitTests called from inside a test (it appends to the vectors the run under way iterates
over), names with a NUL.
-/
namespace Falcon.Fut

/-- A statement of a test. fut.h 54-125; unittest.cpp 298-328. -/
inductive NAct where
  | act (a : Act)
  | verbosity (v : Nat)                                         -- UnitTest::singleton()->setVerbosity(v)
  | perform (name : Str)                                        -- UnitTest::singleton()->performTest(name)
  | performEq (name : Str) (want : Int) (file : Str) (line : Int) (expr : Str)
      -- int r = UnitTest::singleton()->performTest(name); EXPECT_EQ(r, want)
  deriving DecidableEq, Repr

/-- The bodies SetUp, test and TearDown of fut.h 27-47, testcase.h 67-72. -/
structure NScript where
  setUp    : List NAct := []
  body     : List NAct := []
  tearDown : List NAct := []
  deriving DecidableEq, Repr

/-- A registered test. fut.h 27-47. -/
structure NDef where
  component : Str
  caseName  : Str
  script    : Nat → NScript

/-- The names of a test, testcase.cpp 80-84. -/
def NDef.label (d : NDef) : TestDef := ⟨d.component, d.caseName, fun _ => {}⟩

/-- What happens in a run, in the order of time. Not in the code: ghost record of unittest.cpp 100-148, 298-323.
`nested`: the test is performed by performTest, not by the loop of runAllTests. -/
inductive FEv where
  | reset                                       -- init() 100-107 was called
  | verbose (v : Nat)                           -- setVerbosity(v) 325-328 was called by a test
  | began (nested : Bool) (t : Nat)             -- beginTest
  | ended (nested : Bool) (t : Nat) (passed : Bool)   -- endTest, and what hasPassed says after it
  deriving DecidableEq, Repr

/-- The runner, the process and the record. unittest.cpp 49-76. -/
structure NSt where
  u   : UT
  w   : World
  evs : List FEv := []

/-- What `performTest(name)` does: `none` if it throws std::runtime_error (304-308), else its value. unittest.cpp 298-323. -/
abbrev Perf := NSt → Str → Res (NSt × Option Int)

/-- 305-307: the text of the exception. -/
def txtTest : Str := "Test '".toList
/-- 305-307: the text of the exception. -/
def txtNotFound : Str := "' not found".toList

/-- One statement of test `t`. fut.h 54-125, unittest.cpp 298-328. -/
def nact (env : Env) (perf : Perf) (t : Nat) (s : NSt) : NAct → Res (NSt × Next)
  | .act a => .ok ({ s with w := (act env t s.w a).1 }, (act env t s.w a).2)
  | .verbosity v => .ok ({ s with u := { s.u with verbosity := v }, evs := s.evs ++ [.verbose v] }, .go)
  | .perform name => match perf s name with
    | .error e => .error e
    | .ok (s, none) => .ok (s, .thr (.std (txtTest ++ name ++ txtNotFound)))
    | .ok (s, some _) => .ok (s, .go)
  | .performEq name want file line expr => match perf s name with
    | .error e => .error e
    | .ok (s, none) => .ok (s, .thr (.std (txtTest ++ name ++ txtNotFound)))
    | .ok (s, some r) =>
      if r = want then .ok (s, .go)
      else .ok ({ s with w := s.w.setTc t (checkFail env (s.w.tc t) file line expr (showInt r)) }, .ret)

/-- A function body: the exception it throws, if any. Not in the code: a body called by testcase.cpp 209-234. -/
def nexec (env : Env) (perf : Perf) (t : Nat) (s : NSt) : List NAct → Res (NSt × Option Exc)
  | [] => .ok (s, none)
  | a :: as => match nact env perf t s a with
    | .error e => .error e
    | .ok (s', .go) => nexec env perf t s' as
    | .ok (s', .ret) => .ok (s', none)
    | .ok (s', .thr e) => .ok (s', some e)

/-- TestCase::run, testcase.cpp 209-235. -/
def nrun (env : Env) (perf : Perf) (d : NDef) (t : Nat) (s : NSt) : Res NSt :=
  let sc := d.script (s.w.tc t).runs
  let w := s.w.setTc t { s.w.tc t with status := .none, runs := (s.w.tc t).runs + 1 }
  match nexec env perf t { s with w := enter w (.setUp t) } sc.setUp with
  | .error e => .error e
  | .ok (s, some e) => .ok { s with w := caught env s.w t e }
  | .ok (s, none) =>
    match nexec env perf t { s with w := enter (markBegin env s.w t) (.body t) } sc.body with
    | .error e => .error e
    | .ok (s, some e) => .ok { s with w := caught env s.w t e }
    | .ok (s, none) =>
      match nexec env perf t { s with w := enter (conclude (markEnd env s.w t) t) (.tearDown t) } sc.tearDown with
      | .error e => .error e
      | .ok (s, some e) => .ok { s with w := caught env s.w t e }
      | .ok (s, none) => .ok s

/-- UnitTest::performTest 298-323. 313, 315: `p->lapse` is written at once, so a call from inside the test is seen. -/
def performWith (env : Env) (perf : Perf) (defs : Nat → NDef) (s : NSt) (name : Str) : Res (NSt × Option Int) :=
  let s := { s with u := (init s.u s.w).1, w := (init s.u s.w).2, evs := s.evs ++ [.reset] }
  match findByName s.u name with
  | none => .ok (s, none)
  | some t =>
    let w := utBegin (fun t => (defs t).label) s.u 1 t s.w
    let u := { s.u with lapse := { s.u.lapse with begin := (readClock env w).1 } }
    match nrun env perf (defs t) t ⟨u, (readClock env w).2, s.evs ++ [.began true t]⟩ with
    | .error e => .error e
    | .ok s =>
      let u := { s.u with lapse := { s.u.lapse with «end» := (readClock env s.w).1 } }
      match utEnd (fun t => (defs t).label) u 1 t (readClock env s.w).2 with
      | .error e => .error e
      | .ok w =>
        if hasPassed u w t then .ok (⟨u, w, s.evs ++ [.ended true t true]⟩, some 0)
        else .ok (⟨{ u with status := -1 }, w, s.evs ++ [.ended true t false]⟩, some (-1))

/-- performTest with calls nested at most `n` deep: 298-323, called by a test from testcase.cpp 211-222. -/
def performAt (env : Env) (defs : Nat → NDef) : Nat → Perf
  | 0 => fun _ _ => .error .hang
  | n + 1 => performWith env (performAt env defs n) defs

/-- Body of the inner loop, 131-141. Returns whether the test failed. -/
def nperformOne (env : Env) (perf : Perf) (defs : Nat → NDef) (s : NSt) (n t : Nat) : Res (NSt × Bool) :=
  match nrun env perf (defs t) t ⟨s.u, utBegin (fun t => (defs t).label) s.u n t s.w, s.evs ++ [.began false t]⟩ with
  | .error e => .error e
  | .ok s =>
    match utEnd (fun t => (defs t).label) s.u n t s.w with
    | .error e => .error e
    | .ok w =>
      if hasPassed s.u w t then .ok (⟨s.u, w, s.evs ++ [.ended false t true]⟩, false)
      else .ok (⟨{ s.u with status := -1, failedCount := s.u.failedCount.map (· + 1) }, w, s.evs ++ [.ended false t false]⟩, true)

/-- The inner loop over the tests of a component, 131-142: the count afterwards, the failures added. -/
def nperformTests (env : Env) (perf : Perf) (defs : Nat → NDef) (s : NSt) (n : Nat) : List Nat → Res (NSt × Nat × Nat)
  | [] => .ok (s, n, 0)
  | t :: ts => match nperformOne env perf defs s (n + 1) t with
    | .error e => .error e
    | .ok (s', f) => match nperformTests env perf defs s' (n + 1) ts with
      | .error e => .error e
      | .ok (s'', m, k) => .ok (s'', m, (if f then 1 else 0) + k)

/-- The outer loop, 127-145. -/
def nperformComps (env : Env) (perf : Perf) (defs : Nat → NDef) (s : NSt) (n : Nat) : List Comp → Res (NSt × List Comp)
  | [] => .ok (s, [])
  | c :: cs =>
    match nperformTests env perf defs { s with w := (readClock env s.w).2 } n c.tests with
    | .error e => .error e
    | .ok (s', m, k) =>
      match nperformComps env perf defs { s' with w := (readClock env s'.w).2 } m cs with
      | .error e => .error e
      | .ok (s'', cs') =>
        .ok (s'', { c with failures := c.failures + k, lapse := ⟨(readClock env s.w).1, (readClock env s'.w).1⟩ } :: cs')

/-- UnitTest::runAllTests 109-148. -/
def nrunAllTests (env : Env) (perf : Perf) (defs : Nat → NDef) (s : NSt) : Res NSt :=
  let u := { s.u with lapse := { s.u.lapse with begin := (readClock env s.w).1 } }
  match nperformComps env perf defs ⟨u, (readClock env s.w).2, s.evs⟩ 0 (groupTests (fun t => (defs t).label) s.u.comps s.u.toPerform) with
  | .error e => .error e
  | .ok (s, cs) =>
    .ok ⟨{ s.u with comps := cs, lapse := { s.u.lapse with «end» := (readClock env s.w).1 } }, (readClock env s.w).2, s.evs⟩

/-- Result of performUnitTests. `xml`: the text written to the report file, if any. unittest.cpp 280-295, 413-454. -/
structure NDone where
  u   : UT
  w   : World
  evs : List FEv
  xml : Option Str

/-- UnitTest::performUnitTests 280-295. It returns `u.status`. -/
def nperformUnitTests (env : Env) (fmt : Fmt) (canOpen : Bool) (depth : Nat) (defs : Nat → NDef) (u : UT) (w : World) : Res NDone :=
  let w := (init u w).2
  let u := (init u w).1
  let u := if u.toPerform = [] then { u with toPerform := u.tests } else u
  match nrunAllTests env (performAt env defs depth) defs ⟨u, w, [.reset]⟩ with
  | .error e => .error e
  | .ok s =>
    let w := report fmt (fun t => (defs t).label) s.u s.w
    if s.u.xmlReport = [] then .ok ⟨s.u, w, s.evs, none⟩
    else if canOpen then
      match xmlText fmt (fun t => (defs t).label) s.u w with
      | .error e => .error e
      | .ok x => .ok ⟨s.u, w, s.evs, some x⟩
    else .ok ⟨s.u, w.put w.cerr (txtCannotSave ++ s.u.xmlReport), s.evs, none⟩

end Falcon.Fut
