import Verif.Model.UnitTest
/-
The format state of std::cout in a test run: unittest.cpp 159-257 writes with `<<`, so every text, number
and time goes through the flags, width, fill and precision that std::cout has at that moment; beginTest and
endTest (testcase.cpp 184-207) exchange the buffer only, so what a test does to the format stays.

Modelled: base (dec, hex, oct), showpos, width, fill, left/right, precision, fixed. Not modelled: showbase,
uppercase, internal, scientific, imbued locales. [ostream.formatted], [facet.num.put.virtuals].
-/
namespace Falcon.Fut

/-- The format state of std::cout, as far as unittest.cpp 159-257 depends on it; initially as given. -/
structure Format where
  base  : Nat := 10
  plus  : Bool := false
  width : Nat := 0
  fill  : Char := ' '
  left  : Bool := false
  prec  : Nat := 6
  fixed : Bool := false
  deriving DecidableEq, Repr

/-- One `<<` on std::cout: a text, an int, `x/1000.0`, or `std::setprecision(n)`. unittest.cpp 165-255. -/
inductive Tok where
  | text (s : Str)
  | int (n : Int)
  | secs (ms : Int)
  | prec (n : Nat)
  deriving DecidableEq, Repr

/-- Filling up to the width, [ostream.formatted.reqmts], for unittest.cpp 159-257. -/
def Format.pad (f : Format) (s : Str) : Str :=
  if f.left then s ++ List.replicate (f.width - s.length) f.fill else List.replicate (f.width - s.length) f.fill ++ s

/-- The digits of an `int`, [facet.num.put.virtuals]: in base 8 and 16 those of the value as an unsigned int. Used for
unittest.cpp 181, 187, 188. -/
def Format.int (f : Format) (n : Int) : Str :=
  if f.base = 10 then (if f.plus ∧ 0 ≤ n then ['+'] else []) ++ showInt n
  else Nat.toDigits f.base (n % 4294967296).toNat

/-- `x/1000.0`, unittest.cpp 249, 254. -/
def Format.secs (f : Format) (ms : Int) : Str :=
  (if f.plus ∧ 0 ≤ ms then ['+'] else []) ++
  (if f.fixed then (if ms < 0 then ['-'] else []) ++ FloatText.fixedText f.prec |FloatText.seconds ms|
   else FloatText.text f.prec (decide (ms < 0)) |FloatText.seconds ms|)

/-- One `<<`: what appears, and the format afterwards; the width applies once. unittest.cpp 159-257. -/
def emit (f : Format) : Tok → Str × Format
  | .text s  => (f.pad s, { f with width := 0 })
  | .int n   => (f.pad (f.int n), { f with width := 0 })
  | .secs ms => (f.pad (f.secs ms), { f with width := 0 })
  | .prec n  => ([], { f with prec := n })

/-- Several. unittest.cpp 159-257. -/
def emits : Format → List Tok → Str × Format
  | f, []      => ([], f)
  | f, x :: xs => ((emit f x).1 ++ (emits (emit f x).2 xs).1, (emits (emit f x).2 xs).2)

/-- writeTestName 196-213: the line is made in a stream of its own, 212 writes it. -/
def lineToks (count : Nat) (name result : Str) (elapsed : Int) : List Tok :=
  [.text ((testLine count name result elapsed).dropLast), .text "\n".toList]

/-- beginTest 150-157. -/
def beginToks (u : UT) (name : Str) (count : Nat) : List Tok :=
  if u.verbosity ≥ 3 then lineToks count name "GO".toList (-1000) else []

/-- endTest 163-169. -/
def outToks (u : UT) (name : Str) (t : Nat) (w : World) : List Tok :=
  if cstr (w.tc t).outStr ≠ [] ∧ (u.verbosity ≥ 5 ∨ (u.verbosity > 0 ∧ hasPassed u w t = false)) then
    [.text ("\n".toList ++ rule ++ "\n".toList), .text "STDOUT ".toList, .text name, .text "\n".toList, .text (rule ++ "\n".toList),
     .text (cstr (w.tc t).outStr), .text "\n".toList]
  else []

/-- endTest 171-177. -/
def errToks (u : UT) (name : Str) (t : Nat) (w : World) : List Tok :=
  if cstr (w.tc t).errStr ≠ [] ∧ (u.verbosity ≥ 4 ∨ (u.verbosity > 0 ∧ hasPassed u w t = false)) then
    [.text ("\n".toList ++ rule ++ "\n".toList), .text "STDERR ".toList, .text name, .text "\n".toList, .text (rule ++ "\n".toList),
     .text (cstr (w.tc t).errStr), .text "\n".toList]
  else []

/-- endTest 179-193. An uninitialised line (Model/UnitTest.lean) is not repeated here. -/
def verdictToks (u : UT) (name : Str) (count t : Nat) (w : World) : List Tok :=
  if u.verbosity > 0 ∧ (w.tc t).status = .error then
    [.text ("\n".toList ++ rule ++ "\n".toList), .text "Uncaught error in Case ".toList, .int count, .text ": ".toList, .text name, .text "\n".toList,
     .text (w.tc t).failDesc, .text "\n".toList]
  else if u.verbosity ≥ 1 ∧ (w.tc t).status = .fail then
    [.text ("\n".toList ++ rule ++ "\n".toList), .text "Failure in case ".toList, .int count, .text ": ".toList, .text name, .text " at ".toList,
     .text (w.tc t).failFile, .text ": ".toList, .int ((w.tc t).failLine.getD 0), .text "\n".toList, .text (w.tc t).failDesc, .text "\n".toList]
  else if u.verbosity ≥ 2 then
    lineToks count name (if hasPassed u w t then "OK".toList else "FAIL".toList) (w.tc t).lapse.elapsed
  else []

/-- endTest 159-194. -/
def endToks (u : UT) (name : Str) (count t : Nat) (w : World) : List Tok :=
  outToks u name t w ++ errToks u name t w ++ verdictToks u name count t w

/-- The loop 226-239: the first name after the heading, the others after a comma. -/
def namesToks : List Str → List Tok
  | []      => []
  | n :: ns => [.text ("\n".toList ++ rule ++ "\nFailed cases: ".toList), .text n] ++ ns.flatMap (fun m => [.text ", ".toList, .text m]) ++
      [.text ("\n".toList ++ rule ++ "\n".toList)]

/-- report 247-251: one component. -/
def compToks (c : Comp) : List Tok :=
  [.text "  Component ".toList, .text c.name, .text " (elapsed ".toList, .prec 3, .secs c.lapse.elapsed, .text "s) ".toList,
   .text (if c.failures = 0 then "Passed\n".toList else "FAILED \n".toList)]

/-- report 221-257. -/
def reportToks (defs : Nat → TestDef) (u : UT) (w : World) : List Tok :=
  if u.verbosity > 0 then
    (if u.status ≠ 0 then namesToks ((failedList u w).map (fun t => (defs t).fullName)) else []) ++
    (if u.comps.length > 1 then u.comps.flatMap compToks else []) ++
    [.text "Unit Test ".toList, .text u.name, .text " (elapsed ".toList, .prec 4, .secs u.lapse.elapsed, .text "s) ".toList,
     .text (if u.status = 0 then "Passed\n".toList else "FAILED \n".toList)]
  else []

/-- A performed test: its number, who it is, the state in which endTest finds it, what it wrote to std::cout itself while
that was not captured, and what it did to the format of std::cout. unittest.cpp 131-141. -/
structure Played where
  count  : Nat
  test   : Nat
  ended  : World
  direct : Str
  leaves : Format → Format

/-- One test after the other, unittest.cpp 127-145: what appears on standard output, and the format in the end. -/
def playAll (defs : Nat → TestDef) (u : UT) : Format → List Played → Str × Format
  | f, []      => ([], f)
  | f, p :: ps =>
    let a := emits f (beginToks u (defs p.test).fullName p.count)
    let b := emits (p.leaves a.2) (endToks u (defs p.test).fullName p.count p.test p.ended)
    let r := playAll defs u b.2 ps
    (a.1 ++ p.direct ++ b.1 ++ r.1, r.2)

/-- A whole run, performUnitTests 280-295: the tests, then the report about the runner's final state. -/
def playRun (defs : Nat → TestDef) (u : UT) (f : Format) (ps : List Played) (u' : UT) (w' : World) : Str × Format :=
  let a := playAll defs u f ps
  let b := emits a.2 (reportToks defs u' w')
  (a.1 ++ b.1, b.2)

end Falcon.Fut
