import Verif.Basic
/-
Model of one FUT test case: src/fut/testcase.cpp, src/include/falcon/fut/{testcase,fut,timelapse}.h.

A test is a script: the statements SetUp(), test() and TearDown() execute, given for every run (the k-th
run of a test may behave differently). The statements are those that concern the framework; all other
statements of a test are `step`s, which only leave a mark in the trace.
Not modelled: tests that crash, hang or exit the process, failure of gettimeofday, tests that replace
the framework's own buffers. Tests that call the runner: Model/FutNested.
-/
namespace Falcon.Fut

/-- `std::string` in testcase.cpp 28-49. -/
abbrev Str := List Char

/- Literal texts: fut.h 103, 111, 120, 124; testcase.cpp 146-148, 233. -/
def txtExpected : Str := "Expected exception of type ".toList
/-- fut.h 103. -/
def txtNotThrown : Str := " wasn't thrown".toList
/-- fut.h 103, the end of the text. -/
def txtNoThrow : Str := "No throw when any throw was expected".toList
/-- fut.h 120. -/
def txtExc : Str := "Exception thrown: \" ".toList
/-- fut.h 120. -/
def txtQuote : Str := "\"".toList
/-- fut.h 124. -/
def txtUnknown : Str := "Unknown exception thrown".toList
/-- testcase.cpp 146-148. -/
def txtActually : Str := " (Actually \"".toList
/-- testcase.cpp 146-148. -/
def txtClose : Str := "\")".toList
/-- testcase.cpp 225-234. -/
def txtUncaught : Str := "Unknown error caught by falcon::testing framework".toList

/-- Stream buffers: the terminal ones, the ostringstreams of a test case (testcase.cpp 35-36), others. -/
inductive Buf where
  | stdout | stderr
  | capOut (t : Nat) | capErr (t : Nat)
  | other (n : Nat)
  deriving DecidableEq, Repr

/-- TestCase::t_status, testcase.h 37-44. -/
inductive Status where
  | none | success | fail | error | outOnError
  deriving DecidableEq, Repr

/-- What an exception is to `catch(std::exception&)`; what() is a C string. fut.h 99-125, testcase.cpp 225-234. -/
inductive Exc where
  | std (what : Str)
  | other
  deriving DecidableEq, Repr

/-- A statement of a test. fut.h 54-125 and what a test writes itself. -/
inductive Act where
  | step (n : Nat)                                              -- any other statement
  | out (s : Str)                                               -- std::cout << s
  | err (s : Str)                                               -- std::cerr << s
  | redirOut (b : Buf)                                          -- std::cout.rdbuf(b)
  | redirErr (b : Buf)
  | check (ok : Bool) (file : Str) (line : Int) (expr actual : Str)  -- EXPECT_EQ, ... EXPECT_TRUE, EXPECT_FALSE, EXPECT_FLOAT_*: fut.h 54-93
  | failNow (file : Str) (line : Int) (msg : Str)               -- FAIL: 95-96
  | expectThrow (o : Option Exc) (caught : Bool) (file : Str) (line : Int) (ty : Str)  -- EXPECT_THROW: 99-105; `o`: what the expression throws, `caught`: it is of the given type
  | expectAnyThrow (o : Option Exc) (file : Str) (line : Int)   -- 108-112
  | expectNoThrow (o : Option Exc) (file : Str) (line : Int)    -- 115-125
  | setStatus (s : Status)                                      -- this->status(s)
  | failCall (file : Str) (line : Int) (reason : Str)           -- this->fail(file, line, reason)
  | thrw (e : Exc)                                              -- throw
  | ret                                                         -- return
  deriving DecidableEq, Repr

/-- The bodies SetUp, test and TearDown of fut.h 27-47, testcase.h 67-72. -/
structure Script where
  setUp    : List Act := []
  body     : List Act := []
  tearDown : List Act := []
  deriving DecidableEq, Repr

/-- A registered test. `script k` is what it does when it is run for the k-th time (from 0). fut.h 27-47. -/
structure TestDef where
  component : Str
  caseName  : Str
  script    : Nat → Script

/-- Marks of what was executed. Not in the code: ghost record of the execution of testcase.cpp 173-234. -/
inductive Ev where
  | setUp (t : Nat) | body (t : Nat) | tearDown (t : Nat)       -- the function was entered
  | step (t n : Nat)
  deriving DecidableEq, Repr

/-- TimeLapse, timelapse.h 24-61. -/
structure Lapse where
  begin : Int := 0
  «end» : Int := 0
  deriving DecidableEq, Repr

/-- MSECS_IN_A_DAY, timelapse.h 27. -/
def msecsInADay : Int := 60 * 60 * 24 * 1000

/-- TimeLapse::elapsed, timelapse.h 36-40. -/
def Lapse.elapsed (l : Lapse) : Int := if l.begin > l.end then l.end - l.begin + msecsInADay else l.end - l.begin

/-- TimeLapse::elapsedNow, timelapse.h 48-54. -/
def Lapse.elapsedNow (l : Lapse) (now : Int) : Int := if l.begin > now then now - l.begin + msecsInADay else now - l.begin

/-- markTime on Unix, marktime-unix.c++ 24-32: from seconds and microseconds. -/
def markUnix (sec usec : Int) : Int := sec * 1000 + usec.tdiv 1000

/-- markTime on Windows, marktime-win.c++ 22-30. -/
def markWin (h m s ms : Int) : Int := h * 3600 * 1000 + m * 60 * 1000 + s * 1000 + ms

/-- TestCase::Private, testcase.cpp 27-49. `none` is an uninitialised member. -/
structure Tc where
  status   : Status := .none
  outStr   : Str := []
  errStr   : Str := []
  outbuf   : Option Buf := none
  errbuf   : Option Buf := none
  failDesc : Str := []
  failLine : Option Int := none
  failFile : Str := []
  lapse    : Lapse := {}
  runs     : Nat := 0              -- how often run() was called
  deriving DecidableEq, Repr

/-- The process as far as tests see it. `tick` counts the clock readings made.
testcase.cpp 28-49, 184-207; timelapse.h 25-59. -/
structure World where
  cout    : Buf := .stdout
  cerr    : Buf := .stderr
  content : Buf → Str := fun _ => []
  tc      : Nat → Tc := fun _ => {}
  tr      : List Ev := []
  tick    : Nat := 0

/-- The environment: the clock, by number of the reading, and the directory separator (setup.h 92). -/
structure Env where
  clock : Nat → Int := fun _ => 0
  sep   : Char := '/'

/-- Not in the code: output of a test run by testcase.cpp 209-234. -/
def World.put (w : World) (b : Buf) (s : Str) : World := { w with content := fun c => if c = b then w.content c ++ s else w.content c }
/-- A write to TestCase::Private, testcase.cpp 28-49. -/
def World.setTc (w : World) (t : Nat) (c : Tc) : World := { w with tc := fun u => if u = t then c else w.tc u }

/-- What comes after the last separator: `s.substr(s.rfind(sep)+1)`, or all of it. testcase.cpp 103-109. -/
def baseName (sep : Char) (s : Str) : Str := (s.reverse.takeWhile (· ≠ sep)).reverse

/-- A text handed on as a C string: up to its first NUL. fut.h 58, 75, 83 (`ss.str().c_str()`), unittest.cpp 221-257. -/
def cstr (s : Str) : Str := s.takeWhile (· ≠ '\x00')

/-- TestCase::checkFail, testcase.cpp 142-159. `actual` is the text of the value; it is passed as a C string.
Simplification: `expected` and `file` are literals or texts without NUL. -/
def checkFail (env : Env) (c : Tc) (file : Str) (line : Int) (expected actual : Str) : Tc :=
  { c with
    failDesc := if cstr actual = [] then expected else expected ++ txtActually ++ cstr actual ++ txtClose
    failLine := some line
    failFile := baseName env.sep file
    status := .fail }

/-- TestCase::fail, testcase.cpp 103-109. -/
def failMember (c : Tc) (file : Str) (line : Int) (reason : Str) : Tc :=
  { c with status := .fail, failFile := file, failLine := some line, failDesc := reason }

/-- How a function goes on after a statement. The `return` in fut.h 54-60, 71-85 and exceptions. -/
inductive Next where
  | go | ret | thr (e : Exc)
  deriving DecidableEq, Repr

/-- One statement of test `t`. fut.h 54-125. -/
def act (env : Env) (t : Nat) (w : World) : Act → World × Next
  | .step n => ({ w with tr := w.tr ++ [.step t n] }, .go)
  | .out s => (w.put w.cout s, .go)
  | .err s => (w.put w.cerr s, .go)
  | .redirOut b => ({ w with cout := b }, .go)
  | .redirErr b => ({ w with cerr := b }, .go)
  | .check ok file line expr actual =>
    if ok then (w, .go) else (w.setTc t (checkFail env (w.tc t) file line expr actual), .ret)
  | .failNow file line msg => (w.setTc t (checkFail env (w.tc t) file line msg []), .go)
  | .expectThrow o caught file line ty => match o with
    | none => (w.setTc t (checkFail env (w.tc t) file line (txtExpected ++ ty ++ txtNotThrown) []), .go)
    | some e => if caught then (w, .go) else (w, .thr e)
  | .expectAnyThrow o file line => match o with
    | none => (w.setTc t (checkFail env (w.tc t) file line txtNoThrow []), .go)
    | some _ => (w, .go)
  | .expectNoThrow o file line => match o with
    | none => (w, .go)
    | some (.std what) => (w.setTc t (checkFail env (w.tc t) file line (txtExc ++ what ++ txtQuote) []), .go)
    | some .other => (w.setTc t (checkFail env (w.tc t) file line txtUnknown []), .go)
  | .setStatus s => (w.setTc t { w.tc t with status := s }, .go)
  | .failCall file line reason => (w.setTc t (failMember (w.tc t) file line reason), .go)
  | .thrw e => (w, .thr e)
  | .ret => (w, .ret)

/-- A function body: the exception it throws, if any. Not in the code: a body called by testcase.cpp 209-234. -/
def exec (env : Env) (t : Nat) (w : World) : List Act → World × Option Exc
  | [] => (w, none)
  | a :: as => match act env t w a with
    | (w', .go) => exec env t w' as
    | (w', .ret) => (w', none)
    | (w', .thr e) => (w', some e)

/-- testcase.cpp 209-234: the clock is read before the test (timelapse.h 25-59). -/
def markBegin (env : Env) (w : World) (t : Nat) : World :=
  { w with tick := w.tick + 1, tc := fun u => if u = t then { w.tc t with lapse := { (w.tc t).lapse with begin := env.clock w.tick } } else w.tc u }

/-- testcase.cpp 209-234: the clock is read after the test (timelapse.h 25-59). -/
def markEnd (env : Env) (w : World) (t : Nat) : World :=
  { w with tick := w.tick + 1, tc := fun u => if u = t then { w.tc t with lapse := { (w.tc t).lapse with «end» := env.clock w.tick } } else w.tc u }

/-- testcase.cpp 209-234: SetUp, test or TearDown is called. -/
def enter (w : World) (e : Ev) : World := { w with tr := w.tr ++ [e] }

/-- TestCase::status, testcase.cpp 86-89. -/
def setStatus (w : World) (t : Nat) (s : Status) : World := w.setTc t { w.tc t with status := s }

/-- The catch blocks, testcase.cpp 225-234. -/
def caught (env : Env) (w : World) (t : Nat) (e : Exc) : World :=
  let w := markEnd env w t
  w.setTc t { w.tc t with status := .error, failDesc := match e with | .std what => what | .other => txtUncaught }

/-- testcase.cpp 219-221. -/
def conclude (w : World) (t : Nat) : World :=
  if (w.tc t).status = .none then setStatus w t (if w.content (.capErr t) = [] then .success else .outOnError) else w

/-- TestCase::run, testcase.cpp 209-235. -/
def run (env : Env) (d : TestDef) (t : Nat) (w : World) : World :=
  let sc := d.script (w.tc t).runs
  let w := w.setTc t { w.tc t with status := .none, runs := (w.tc t).runs + 1 }
  match exec env t (enter w (.setUp t)) sc.setUp with
  | (w, some e) => caught env w t e
  | (w, none) =>
    match exec env t (enter (markBegin env w t) (.body t)) sc.body with
    | (w, some e) => caught env w t e
    | (w, none) =>
      match exec env t (enter (conclude (markEnd env w t) t) (.tearDown t)) sc.tearDown with
      | (w, some e) => caught env w t e
      | (w, none) => w

/-- TestCase::beginTest, testcase.cpp 184-195. -/
def beginTest (capture : Bool) (t : Nat) (w : World) : World :=
  let w := if capture then { w.setTc t { w.tc t with outbuf := some w.cout, errbuf := some w.cerr } with cout := .capOut t, cerr := .capErr t } else w
  setStatus w t .none

/-- TestCase::endTest, testcase.cpp 197-207. -/
def endTest (capture : Bool) (t : Nat) (w : World) : Res World :=
  if capture then
    match (w.tc t).outbuf, (w.tc t).errbuf with
    | some o, some e =>
      .ok { w.setTc t { w.tc t with outStr := w.content (.capOut t), errStr := w.content (.capErr t) } with cout := o, cerr := e }
    | _, _ => .error (.ub .uninitRead)
  else .ok w

end Falcon.Fut
