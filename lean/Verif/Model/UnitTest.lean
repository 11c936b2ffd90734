import Verif.Model.TestCase
import Verif.Model.FloatText
/-
Model of the FUT test runner: src/fut/unittest.cpp, src/include/falcon/fut/unittest.h.

`defs t` is the test case with number t (an address in the program). The text of floating
point numbers in the report and in the XML file is a parameter (`Fmt`); `secFmt` is what the streams print.
std::cout is taken to have its initial format; Model/FutFormat has the rest.
The runs keep a log (number shown, test, passed?) that is not in the code; theorems relate it to the
trace of the world.
-/
namespace Falcon.Fut

/-- std::string operator<: by character. The order of the maps, unittest.cpp 49-76. -/
def strLt : Str → Str → Bool
  | _, [] => false
  | [], _ :: _ => true
  | a :: as, b :: bs => if a.toNat < b.toNat then true else if b.toNat < a.toNat then false else strLt as bs

/-- Component, unittest.cpp 35-46. -/
structure Comp where
  name     : Str
  failures : Nat := 0
  tests    : List Nat := []
  lapse    : Lapse := {}
  deriving DecidableEq, Repr

/-- UnitTest::Private, unittest.cpp 49-76; testsByComponent is never read. -/
structure UT where
  tests       : List Nat := []
  byName      : List (Str × Nat) := []         -- std::map, first insertion of a name stays
  comps       : List Comp := []                -- std::map componentToPerform, by ascending name
  toPerform   : List Nat := []
  xmlReport   : Str := []
  id          : Str := []
  name        : Str := []
  status      : Int := 0
  failedCount : Option Nat := none             -- uninitialised until init()
  capture     : Bool := true
  erroutIsFail : Bool := false
  verbosity   : Nat := 2
  lapse       : Lapse := {}
  deriving DecidableEq, Repr

/-- Output of `x/1000.0` in the streams' floating formats: default precision, precision 3 and 4. -/
structure Fmt where
  g6 : Int → Str
  g3 : Int → Str
  g4 : Int → Str

/-- `std::ostream << x/1000.0`, unittest.cpp 426, 434, 439 (default precision 6), 249 (3), 254 (4). -/
def secFmt : Fmt :=
  { g6 := fun ms => FloatText.text 6 (decide (ms < 0)) |FloatText.seconds ms|
    g3 := fun ms => FloatText.text 3 (decide (ms < 0)) |FloatText.seconds ms|
    g4 := fun ms => FloatText.text 4 (decide (ms < 0)) |FloatText.seconds ms| }

/-- TestCase::setName, testcase.cpp 80-84. -/
def TestDef.fullName (d : TestDef) : Str := d.component ++ "::".toList ++ d.caseName

/-- UnitTest::addTestCase, unittest.cpp 90-98. -/
def addTestCase (defs : Nat → TestDef) (u : UT) (t : Nat) : UT :=
  { u with
    tests := u.tests ++ [t]
    byName := if u.byName.any (fun e => e.1 == (defs t).fullName) then u.byName else u.byName ++ [((defs t).fullName, t)] }

/-- std::map::find on testsByName. unittest.cpp 49-76, 298-323. -/
def findByName (u : UT) (n : Str) : Option Nat := (u.byName.find? (fun e => e.1 == n)).map Prod.snd

/-- UnitTest::init 100-107; TestCase::init, testcase.cpp 173-176. -/
def init (u : UT) (w : World) : UT × World :=
  ({ u with status := 0, failedCount := some 0 }, { w with tc := fun t => if t ∈ u.tests then { w.tc t with status := .none } else w.tc t })

/-- UnitTest::hasPassed 215-219. -/
def hasPassed (u : UT) (w : World) (t : Nat) : Bool :=
  !(((w.tc t).status == .outOnError && u.erroutIsFail) || (w.tc t).status != .success)

/-- `std::cout <<` in unittest.cpp 109-257. -/
def print (w : World) (s : Str) : World := w.put w.cout s

/-- Decimal digits of an int. unittest.cpp 150-257. -/
def showInt (n : Int) : Str := (if n < 0 then ['-'] else []) ++ Nat.toDigits 10 n.natAbs

/-- `std::setw` in unittest.cpp 150-257. -/
def padLeft (n : Nat) (s : Str) : Str := List.replicate (n - s.length) ' ' ++ s
/-- `std::setw` in unittest.cpp 150-257. -/
def padRight (n : Nat) (s : Str) : Str := s ++ List.replicate (n - s.length) ' '

/-- UnitTest::writeTestName, unittest.cpp 196-213; screenWidth is 50 (53). The elapsed time is given in milliseconds;
a negative one is printed with the default precision of six digits behind the point. -/
def testLine (count : Nat) (name result : Str) (elapsed : Int) : Str :=
  ['['] ++ padLeft 3 (Nat.toDigits 10 count) ++ ": ".toList ++ padRight 50 (name.take 50) ++
  (if 0 ≤ elapsed then padRight 10 (FloatText.fixedText 3 (FloatText.seconds elapsed) ++ ['s'])
   else padRight 10 ('-' :: FloatText.fixedText 6 |FloatText.seconds elapsed|)) ++
  " ".toList ++ padRight 4 result ++ "]\n".toList

/-- unittest.cpp 109-257. -/
def rule : Str := "======================================================================".toList

/-- UnitTest::beginTest 150-157. -/
def utBegin (defs : Nat → TestDef) (u : UT) (count t : Nat) (w : World) : World :=
  let w := if u.verbosity ≥ 3 then print w (testLine count (defs t).fullName "GO".toList (-1000)) else w
  beginTest u.capture t w

/-- UnitTest::endTest 163-169: the captured standard output, printed as a C string (capturedOut()[0] is its first character, NUL if there is none). -/
def showOut (defs : Nat → TestDef) (u : UT) (t : Nat) (w : World) : World :=
  if cstr (w.tc t).outStr ≠ [] ∧ (u.verbosity ≥ 5 ∨ (u.verbosity > 0 ∧ hasPassed u w t = false)) then
    print w ("\n".toList ++ rule ++ "\nSTDOUT ".toList ++ (defs t).fullName ++ "\n".toList ++ rule ++ "\n".toList ++ cstr (w.tc t).outStr ++ "\n".toList)
  else w

/-- UnitTest::endTest 171-177: the captured standard error. -/
def showErr (defs : Nat → TestDef) (u : UT) (t : Nat) (w : World) : World :=
  if cstr (w.tc t).errStr ≠ [] ∧ (u.verbosity ≥ 4 ∨ (u.verbosity > 0 ∧ hasPassed u w t = false)) then
    print w ("\n".toList ++ rule ++ "\nSTDERR ".toList ++ (defs t).fullName ++ "\n".toList ++ rule ++ "\n".toList ++ cstr (w.tc t).errStr ++ "\n".toList)
  else w

/-- UnitTest::endTest 179-193: error, failure or status line. -/
def showVerdict (defs : Nat → TestDef) (u : UT) (count t : Nat) (w : World) : Res World :=
  if u.verbosity > 0 ∧ (w.tc t).status = .error then
    .ok (print w ("\n".toList ++ rule ++ "\nUncaught error in Case ".toList ++ Nat.toDigits 10 count ++ ": ".toList ++ (defs t).fullName ++ "\n".toList ++ (w.tc t).failDesc ++ "\n".toList))
  else if u.verbosity ≥ 1 ∧ (w.tc t).status = .fail then
    match (w.tc t).failLine with
    | none => .error (.ub .uninitRead)
    | some line =>
      .ok (print w ("\n".toList ++ rule ++ "\nFailure in case ".toList ++ Nat.toDigits 10 count ++ ": ".toList ++ (defs t).fullName ++ " at ".toList ++
        (w.tc t).failFile ++ ": ".toList ++ showInt line ++ "\n".toList ++ (w.tc t).failDesc ++ "\n".toList))
  else if u.verbosity ≥ 2 then
    .ok (print w (testLine count (defs t).fullName (if hasPassed u w t then "OK".toList else "FAIL".toList) (w.tc t).lapse.elapsed))
  else .ok w

/-- UnitTest::endTest 159-194. -/
def utEnd (defs : Nat → TestDef) (u : UT) (count t : Nat) (w : World) : Res World :=
  match endTest u.capture t w with
  | .error e => .error e
  | .ok w => showVerdict defs u count t (showErr defs u t (showOut defs u t w))

/-- One log entry: number shown, test, passed. unittest.cpp 35-76. -/
abbrev Log := List (Nat × Nat × Bool)

/-- 112-124: sorting one test into the component map. -/
def intoComp (cname : Str) (t : Nat) : List Comp → List Comp
  | [] => [{ name := cname, tests := [t] }]
  | c :: cs =>
    if c.name = cname then { c with tests := c.tests ++ [t] } :: cs
    else if strLt cname c.name then { name := cname, tests := [t] } :: c :: cs
    else c :: intoComp cname t cs

/-- unittest.cpp 35-46, 90-98. -/
def groupTests (defs : Nat → TestDef) (cs : List Comp) (ts : List Nat) : List Comp :=
  ts.foldl (fun cs t => intoComp (defs t).component t cs) cs

/-- unittest.cpp 49-76, 280-323. -/
structure RunSt where
  u     : UT
  w     : World
  count : Nat := 0
  log   : Log := []

/-- Body of the inner loop, 131-141: `++count`, begin, run, end, count a failure. Returns whether it
failed. -/
def performOne (env : Env) (defs : Nat → TestDef) (s : RunSt) (t : Nat) : Res (RunSt × Bool) :=
  let n := s.count + 1
  match utEnd defs s.u n t (run env (defs t) t (utBegin defs s.u n t s.w)) with
  | .error e => .error e
  | .ok w =>
    if hasPassed s.u w t then .ok ({ s with w := w, count := n, log := s.log ++ [(n, t, true)] }, false)
    else .ok ({ s with w := w, count := n, log := s.log ++ [(n, t, false)], u := { s.u with status := -1, failedCount := s.u.failedCount.map (· + 1) } }, true)

/-- The inner loop over the tests of a component; returns the failures added. unittest.cpp 280-323. -/
def performTests (env : Env) (defs : Nat → TestDef) (s : RunSt) : List Nat → Res (RunSt × Nat)
  | [] => .ok (s, 0)
  | t :: ts => match performOne env defs s t with
    | .error e => .error e
    | .ok (s', f) => match performTests env defs s' ts with
      | .error e => .error e
      | .ok (s'', k) => .ok (s'', (if f then 1 else 0) + k)

/-- unittest.cpp 109-148; timelapse.h 25-59. -/
def readClock (env : Env) (w : World) : Int × World := (env.clock w.tick, { w with tick := w.tick + 1 })

/-- The outer loop, 127-145. -/
def performComps (env : Env) (defs : Nat → TestDef) (s : RunSt) : List Comp → Res (RunSt × List Comp)
  | [] => .ok (s, [])
  | c :: cs =>
    let (b, w) := readClock env s.w
    match performTests env defs { s with w := w } c.tests with
    | .error e => .error e
    | .ok (s', k) =>
      let (e, w') := readClock env s'.w
      match performComps env defs { s' with w := w' } cs with
      | .error e => .error e
      | .ok (s'', cs') => .ok (s'', { c with failures := c.failures + k, lapse := ⟨b, e⟩ } :: cs')

/-- UnitTest::runAllTests 109-148. -/
def runAllTests (env : Env) (defs : Nat → TestDef) (u : UT) (w : World) : Res RunSt :=
  let (b, w) := readClock env w
  match performComps env defs { u := u, w := w } (groupTests defs u.comps u.toPerform) with
  | .error e => .error e
  | .ok (s, cs) =>
    let (e, w) := readClock env s.w
    .ok { s with w := w, u := { s.u with comps := cs, lapse := ⟨b, e⟩ } }

/-- The names of the tests in the "Failed cases" list, report 224-240: over all registered tests. -/
def failedList (u : UT) (w : World) : List Nat := u.tests.filter (fun t => !hasPassed u w t)

/-- Not in the code: texts with a separator, as unittest.cpp 221-257 writes them. -/
def sepBy (sep : Str) : List Str → Str
  | [] => []
  | [s] => s
  | s :: ss => s ++ sep ++ sepBy sep ss

/-- UnitTest::report 224-243: the list of failed cases. -/
def showFailed (defs : Nat → TestDef) (u : UT) (w : World) : World :=
  if u.status ≠ 0 ∧ failedList u w ≠ [] then
    print w ("\n".toList ++ rule ++ "\nFailed cases: ".toList ++ sepBy ", ".toList ((failedList u w).map (fun t => (defs t).fullName)) ++ "\n".toList ++ rule ++ "\n".toList)
  else w

/-- UnitTest::report 245-252: one line for each component if there are several. -/
def showComps (fmt : Fmt) (u : UT) (w : World) : World :=
  if u.comps.length > 1 then
    u.comps.foldl (fun w c => print w ("  Component ".toList ++ c.name ++ " (elapsed ".toList ++ fmt.g3 c.lapse.elapsed ++ "s) ".toList ++
      (if c.failures = 0 then "Passed\n".toList else "FAILED \n".toList))) w
  else w

/-- UnitTest::report 221-257. -/
def report (fmt : Fmt) (defs : Nat → TestDef) (u : UT) (w : World) : World :=
  if u.verbosity > 0 then
    print (showComps fmt u (showFailed defs u w)) ("Unit Test ".toList ++ u.name ++ " (elapsed ".toList ++ fmt.g4 u.lapse.elapsed ++ "s) ".toList ++
      (if u.status = 0 then "Passed\n".toList else "FAILED \n".toList))
  else w

/-- TestCase::statusDesc, testcase.cpp 92-101. -/
def statusDesc : Status → Str
  | .none => "NONE".toList
  | .success => "SUCCESS".toList
  | .fail => "FAIL".toList
  | .error => "EXCEMPTION".toList
  | .outOnError => "STREAM-ERROR".toList

/-- `name="value"`: unittest.cpp 423-447, the value as it is. -/
def attr (n v : Str) : Str := n ++ "=\"".toList ++ v ++ "\"".toList

/-- A start tag with its attributes and the end of the line: the form of 423-426, 430-434, 437-439, 442-443. -/
def openTag (n : Str) (as : List (Str × Str)) : Str := '<' :: n ++ as.flatMap (fun a => ' ' :: attr a.1 a.2) ++ ">\n".toList

/-- An end tag and the end of the line: 447, 449, 451, 453. -/
def closeTag (n : Str) : Str := "</".toList ++ n ++ ">\n".toList

/-- The attributes written for a test case, 437-439. -/
def caseAttrs (fmt : Fmt) (u : UT) (w : World) (cn : Str) (d : TestDef) (t : Nat) : List (Str × Str) :=
  [("id".toList, u.id ++ ".".toList ++ cn ++ ".".toList ++ d.caseName), ("name".toList, d.caseName), ("time".toList, fmt.g6 (w.tc t).lapse.elapsed)]

/-- The text in a failure element, 444-446. -/
def failText (c : Tc) (line : Int) : Str := c.failDesc ++ "\nFile: ".toList ++ c.failFile ++ "\nLine: ".toList ++ showInt line ++ "\n".toList

/-- 437-449: one test case in the report. -/
def xmlCase (fmt : Fmt) (defs : Nat → TestDef) (u : UT) (w : World) (cn : Str) (t : Nat) : Res Str :=
  let opening := openTag "testcase".toList (caseAttrs fmt u w cn (defs t) t)
  if hasPassed u w t then .ok (opening ++ closeTag "testcase".toList)
  else match (w.tc t).failLine with
    | none => .error (.ub .uninitRead)
    | some line =>
      .ok (opening ++ openTag "failure".toList [("message".toList, (w.tc t).failDesc), ("type".toList, statusDesc (w.tc t).status)] ++
        failText (w.tc t) line ++ closeTag "failure".toList ++ closeTag "testcase".toList)

/-- The loop over the tests of a component, 436-450. -/
def xmlCases (fmt : Fmt) (defs : Nat → TestDef) (u : UT) (w : World) (cn : Str) : List Nat → Res Str
  | [] => .ok []
  | t :: ts => match xmlCase fmt defs u w cn t with
    | .error e => .error e
    | .ok s => match xmlCases fmt defs u w cn ts with
      | .error e => .error e
      | .ok r => .ok (s ++ r)

/-- The attributes written for a component, 430-434. -/
def compAttrs (fmt : Fmt) (u : UT) (c : Comp) : List (Str × Str) :=
  [("id".toList, u.id ++ ".".toList ++ c.name), ("name".toList, c.name), ("tests".toList, Nat.toDigits 10 c.tests.length),
   ("failures".toList, Nat.toDigits 10 c.failures), ("time".toList, fmt.g6 c.lapse.elapsed)]

/-- The loop over the components, 427-452. -/
def xmlComps (fmt : Fmt) (defs : Nat → TestDef) (u : UT) (w : World) : List Comp → Res Str
  | [] => .ok []
  | c :: cs => match xmlCases fmt defs u w c.name c.tests with
    | .error e => .error e
    | .ok s => match xmlComps fmt defs u w cs with
      | .error e => .error e
      | .ok r => .ok (openTag "testsuite".toList (compAttrs fmt u c) ++ s ++ closeTag "testsuite".toList ++ r)

/-- 421. -/
def txtXmlHead : Str := "<?xml version=\"1.0\" encoding=\"utf-8\"?>\n".toList

/-- The attributes written for the whole run, 423-426. -/
def runAttrs (fmt : Fmt) (u : UT) (fc : Nat) : List (Str × Str) :=
  [("id".toList, u.id), ("name".toList, u.name), ("tests".toList, Nat.toDigits 10 u.toPerform.length),
   ("failures".toList, Nat.toDigits 10 fc), ("time".toList, fmt.g6 u.lapse.elapsed)]

/-- UnitTest::saveToXML 413-454: the text written to the file. -/
def xmlText (fmt : Fmt) (defs : Nat → TestDef) (u : UT) (w : World) : Res Str :=
  match u.failedCount, xmlComps fmt defs u w u.comps with
  | none, _ => .error (.ub .uninitRead)
  | _, .error e => .error e
  | some fc, .ok s =>
    .ok (txtXmlHead ++ openTag "testsuites".toList (runAttrs fmt u fc) ++ s ++ closeTag "testsuites".toList)

/-- 417: cannot open the report file. -/
def txtCannotSave : Str := "Cannot save XML report to ".toList

/-- Result of performUnitTests. `xml`: the text written to the report file, if any. unittest.cpp 280-295, 413-454. -/
structure Done where
  u   : UT
  w   : World
  log : Log
  xml : Option Str

/-- UnitTest::performUnitTests 280-295. `canOpen`: the report file can be opened. -/
def performUnitTests (env : Env) (fmt : Fmt) (canOpen : Bool) (defs : Nat → TestDef) (u : UT) (w : World) : Res Done :=
  let (u, w) := init u w
  let u := if u.toPerform = [] then { u with toPerform := u.tests } else u
  match runAllTests env defs u w with
  | .error e => .error e
  | .ok s =>
    let w := report fmt defs s.u s.w
    if s.u.xmlReport = [] then .ok ⟨s.u, w, s.log, none⟩
    else if canOpen then
      match xmlText fmt defs s.u w with
      | .error e => .error e
      | .ok x => .ok ⟨s.u, w, s.log, some x⟩
    else .ok ⟨s.u, w.put w.cerr (txtCannotSave ++ s.u.xmlReport), s.log, none⟩

/-- UnitTest::performTest 298-323: return value and what is left. -/
def performTest (env : Env) (defs : Nat → TestDef) (u : UT) (w : World) (name : Str) : Res (UT × World × Int) :=
  let (u, w) := init u w
  match findByName u name with
  | none => .error (.exn .runtimeError)
  | some t =>
    let w := utBegin defs u 1 t w
    let (b, w) := readClock env w
    let w := run env (defs t) t w
    let (e, w) := readClock env w
    let u := { u with lapse := ⟨b, e⟩ }
    match utEnd defs u 1 t w with
    | .error e => .error e
    | .ok w => if hasPassed u w t then .ok (u, w, 0) else .ok ({ u with status := -1 }, w, -1)

/-- std::isspace, classic locale. unittest.cpp 332-394. -/
def isBlank (c : Char) : Bool := c == ' ' || c == '\t' || c == '\n' || c == '\x0b' || c == '\x0c' || c == '\r'

/-- `int level; is >> level` 349-350 on a fresh stream: `none` if level is not written (nothing but blanks); the
conversion stores 0 when there is no number and the nearest int when it does not fit. -/
def readLevel (s : Str) : Option Int :=
  match s.dropWhile isBlank with
  | [] => none
  | '-' :: r => some (max (-2147483648) (-(Nat.ofDigitChars 10 (r.takeWhile Char.isDigit) 0 : Int)))
  | '+' :: r => some (min 2147483647 (Nat.ofDigitChars 10 (r.takeWhile Char.isDigit) 0 : Int))
  | r => some (min 2147483647 (Nat.ofDigitChars 10 (r.takeWhile Char.isDigit) 0 : Int))

/-- UnitTest::usage 397-410. -/
def usageText : Str := "UnitTest command line options:\n\n\t-c\tDo not capture stdout/stderr\n\t-e\tFail tests on STDERR output\n\t-i\tSet an explicit ID for the unit test\n\t-h\tThis help\n\t-n\tSet an explicit name for the UnitTest\n\t-q\tRun quietly (suppress all output)\n\t-t NAME\tRun given test (may be used multiple times)\n\t-v N\tSets verbosity level to N (0=silent, 5=all)\n\t-x FILE\tSave XML report to this file\n\n".toList

/-- 386-389: invalid option. -/
def invalid (u : UT) (w : World) : Res (UT × World × Int) :=
  let w := w.put w.cerr "Invalid options\n".toList
  .ok (u, print w usageText, 1)

/-- UnitTest::parseParams 332-394: new state and return value. -/
def parseParams (u : UT) (w : World) : List Str → Res (UT × World × Int)
  | [] => .ok (u, w, 0)
  | opt :: rest =>
    if opt = "-q".toList then parseParams { u with verbosity := 0 } w rest
    else if opt = "-c".toList then parseParams { u with capture := false } w rest
    else if opt = "-e".toList then parseParams { u with erroutIsFail := true } w rest
    else if opt = "-h".toList then .ok (u, print w usageText, 1)
    else match rest with
      | [] => invalid u w
      | a :: rest' =>
        if opt = "-v".toList then
          match readLevel a with
          | none => .error (.ub .uninitRead)
          | some l => if 0 ≤ l ∧ l ≤ 5 then parseParams { u with verbosity := l.toNat } w rest' else invalid u w
        else if opt = "-t".toList then
          match findByName u a with
          | none => .ok (u, print w ("Unknown test case ".toList ++ a ++ "\n".toList), 1)
          | some t => parseParams { u with toPerform := u.toPerform ++ [t] } w rest'
        else if opt = "-x".toList then parseParams { u with xmlReport := a } w rest'
        else if opt = "-n".toList then parseParams { u with name := a } w rest'
        else if opt = "-i".toList then parseParams { u with id := a } w rest'
        else invalid u w

/-- UnitTest::detectTestName 456-470. -/
def detectTestName (sep : Char) (u : UT) (exe : Str) : UT :=
  let f := (baseName sep exe).takeWhile (· ≠ '.')
  { u with id := f, name := f }

/-- What main returns and leaves behind. unittest.cpp 473-489. -/
structure Exit where
  code : Int
  w    : World
  log  : Log
  xml  : Option Str
  ran  : Bool        -- performUnitTests was called

/-- UnitTest::main 473-489, for argv given as a list (argc is its length). -/
def main (env : Env) (fmt : Fmt) (canOpen : Bool) (defs : Nat → TestDef) (u : UT) (w : World) (argv : List Str) : Res Exit :=
  let go := fun (u : UT) (w : World) => match performUnitTests env fmt canOpen defs u w with
    | .error e => .error e
    | .ok d => .ok ⟨d.u.status, d.w, d.log, d.xml, true⟩
  match argv with
  | [] => go u w
  | exe :: args => match parseParams (detectTestName env.sep u exe) w args with
    | .error e => .error e
    | .ok (u, w, 0) => go u w
    | .ok (_, w, c) => .ok ⟨c, w, [], none, false⟩

end Falcon.Fut
