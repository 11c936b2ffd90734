import Verif.Basic
/-
Model of compiled code objects and of the compiler: src/engine/code.cpp, src/engine/compiler.cpp,
src/include/falcon/engine/{code,compiler}.h.

Simplifications: allocation does not fail; m_line is only copied and never read, it is kept as a field
but has no accessor in the code either.
-/
namespace Falcon.Code

/-- `std::string` in code.h 22-35 and compiler.cpp 20-25. -/
abbrev Str := List Char

/-- Size of every code buffer, code.cpp 22 `new char[1000]`. -/
def bufSize : Nat := 1000

/-- A buffer: its cells; `none` is a cell never written. Only the cells below `bufSize` exist.
What `m_data` of code.h 35 points to (code.cpp 22). -/
abbrev Buf := Nat → Option Char

/-- code.cpp 22: `new char[1000]` leaves the cells indeterminate. -/
def Buf.fresh : Buf := fun _ => none

/-- `m_data[i] = c`. code.cpp 24-25. -/
def Buf.put (b : Buf) (i : Nat) (c : Char) : Res Buf :=
  if i < bufSize then .ok (fun j => if j = i then some c else b j) else .error (.ub .overflowWrite)

/-- code.cpp 24: std::copy of the source to the buffer, one character after the other. -/
def Buf.copyIn (b : Buf) (i : Nat) : Str → Res Buf
  | [] => .ok b
  | c :: cs => match b.put i c with
    | .ok b' => b'.copyIn (i + 1) cs
    | .error e => .error e

/-- code.cpp 24-25: source text, then the terminator behind it. -/
def fill (src : Str) : Res Buf :=
  match Buf.fresh.copyIn 0 src with
  | .ok b => b.put src.length '\x00'
  | .error e => .error e

/-- std::string(const char*): reads up to the terminator. `left` is the number of cells of the buffer
from position `i` on. Used by toString, code.cpp 44-46. -/
def Buf.readZ (b : Buf) : (left i : Nat) → Res Str
  | 0, _ => .error (.ub .overflowRead)
  | left + 1, i => match b i with
    | none => .error (.ub .uninitRead)
    | some c => if c = '\x00' then .ok [] else match b.readZ left (i + 1) with
      | .ok s => .ok (c :: s)
      | .error e => .error e

/-- class Code, code.h 22-35. -/
structure Code where
  source : Str
  line   : Int
  data   : Option Nat          -- address of the buffer, or nullptr
  deriving DecidableEq, Repr

/-- A program with variables of type Code; `out` is what its toString calls returned.
Not in the code: a user of code.h 22-35. -/
structure St where
  buf  : Nat → Option Buf := fun _ => none      -- live buffers
  next : Nat := 0
  var  : Nat → Option Code := fun _ => none
  out  : List Str := []

/-- Not in the code: assignment of a variable of a user of code.h 22-35. -/
def setVar (s : St) (x : Nat) (c : Option Code) : St := { s with var := fun y => if y = x then c else s.var y }

/-- `delete[] p`, code.cpp 41; deleting nullptr does nothing. -/
def freeBuf (s : St) : Option Nat → Res St
  | none => .ok s
  | some a => match s.buf a with
    | some _ => .ok { s with buf := fun b => if b = a then none else s.buf b }
    | none   => .error (.ub .doubleFree)

/-- Code::toString, code.cpp 44-46. -/
def toString (s : St) (c : Code) : Res Str :=
  match c.data with
  | none => .error (.ub .nullDeref)
  | some a => match s.buf a with
    | none => .error (.ub .useAfterFree)
    | some b => b.readZ bufSize 0

/-- What a user of code.h 22-35 writes: constructors, destructor, move, copy, toString. -/
inductive Op where
  | new (x : Nat) (src : Str) (line : Int)   -- Code x(src, line): code.cpp 21-26
  | copy (x y : Nat)                         -- Code x(y): 28-30
  | move (x y : Nat)                         -- Code x(std::move(y)): 32-37
  | assign (x y : Nat)                       -- x = y: code.h 27, memberwise; also used for x = std::move(y)
  | del (x : Nat)                            -- end of x's life: 39-42
  | use (x : Nat)                            -- x.toString()
  deriving DecidableEq, Repr

/-- One statement. `none`: not a program (the variable is, or is not, in scope). The moved-from
std::string is taken to be empty. Each case runs the member of code.h 22-35, code.cpp 21-46 it names. -/
def exec (s : St) : Op → Option (Res St)
  | .new x src line => match s.var x with
    | some _ => none
    | none => match fill src with
      | .ok b => some (.ok (setVar { s with buf := fun a => if a = s.next then some b else s.buf a, next := s.next + 1 } x (some ⟨src, line, some s.next⟩)))
      | .error e => some (.error e)
  | .copy x y => match s.var x, s.var y with
    | none, some c => some (.ok (setVar s x (some c)))
    | _, _ => none
  | .move x y => match s.var x, s.var y with
    | none, some c => some (.ok (setVar (setVar s y (some { c with source := [], data := none })) x (some c)))
    | _, _ => none
  | .assign x y => match s.var x, s.var y with
    | some _, some c => some (.ok (setVar s x (some c)))
    | _, _ => none
  | .del x => match s.var x with
    | none => none
    | some c => match freeBuf s c.data with
      | .ok s' => some (.ok (setVar s' x none))
      | .error e => some (.error e)
  | .use x => match s.var x with
    | none => none
    | some c => match toString s c with
      | .ok t => some (.ok { s with out := s.out ++ [t] })
      | .error e => some (.error e)

/-- Not in the code: a sequence of statements of a user of code.h 22-35. -/
def run (s : St) : List Op → Option (Res St)
  | [] => some (.ok s)
  | o :: os => match exec s o with
    | none => none
    | some (.error e) => some (.error e)
    | some (.ok s') => run s' os

/-! ### Compiler -/

/-- std::isspace in the classic locale. Standard library; used by compiler.cpp 20-25. -/
def isSpace (c : Char) : Bool := c == ' ' || c == '\t' || c == '\n' || c == '\x0b' || c == '\x0c' || c == '\r'

/-- A std::istream over a text: what is left, iostate, and the parts of the format state that `>>`
of a string looks at; `throwsOn` is the exceptions() mask.
Standard library; the argument of Compiler::compile, compiler.cpp 20-25. -/
structure IStream where
  rest     : Str
  eof      : Bool := false
  fail     : Bool := false
  skipws   : Bool := true
  width    : Nat := 0
  excEof   : Bool := false
  excFail  : Bool := false
  deriving DecidableEq, Repr

/-- setstate(): raises ios_base::failure when a masked bit is set. Standard library; used by compiler.cpp 20-25. -/
def IStream.setState (i : IStream) (eof fail : Bool) : Res IStream :=
  let j := { i with eof := i.eof || eof, fail := i.fail || fail }
  if (j.eof && j.excEof) || (j.fail && j.excFail) then .error (.exn .user) else .ok j

/-- The character loop of operator>>: takes characters until white space, end of file or `n`
characters (`none`: no limit). Returns the word, what is left, and whether the end was hit.
Standard library; used by compiler.cpp 20-25. -/
def takeWord : Option Nat → Str → Str × Str × Bool
  | some 0, cs => ([], cs, false)
  | _, [] => ([], [], true)
  | n, c :: cs =>
    if isSpace c then ([], c :: cs, false)
    else let (w, r, e) := takeWord (n.map (· - 1)) cs; (c :: w, r, e)

/-- `input >> value` with an empty `value` ([istream], [string.io]): the sentry, then the loop.
Standard library; compiler.cpp 20-25. -/
def IStream.extract (i : IStream) : Res (Str × IStream) :=
  if i.eof || i.fail then
    match i.setState false true with
    | .ok j => .ok ([], j)
    | .error e => .error e
  else
    let r := if i.skipws then i.rest.dropWhile isSpace else i.rest
    if i.skipws = true ∧ r = [] then
      match { i with rest := r }.setState true true with
      | .ok j => .ok ([], j)
      | .error e => .error e
    else
      let (w, r', e) := takeWord (if i.width = 0 then none else some i.width) r
      match { i with rest := r', width := 0 }.setState e (w.isEmpty) with
      | .ok j => .ok (w, j)
      | .error e => .error e

/-- Compiler::compile, compiler.cpp 20-25: `Code x = compiler.compile(in)`. The function is noexcept. -/
def compile (s : St) (x : Nat) (i : IStream) : Option (Res (St × IStream)) :=
  match i.extract with
  | .error (.exn _) => some (.error .terminate)
  | .error e => some (.error e)
  | .ok (w, j) => match exec s (.new x w 1) with
    | none => none
    | some (.error e) => some (.error e)
    | some (.ok s') => some (.ok (s', j))

/-- A caller that compiles a stream `n` times: `Code c = compiler.compile(in); c.toString();`, the
texts being collected in `out`. Not in the code: a caller of compiler.cpp 20-25. -/
def compileLoop (s : St) (i : IStream) : Nat → Option (Res (St × IStream))
  | 0 => some (.ok (s, i))
  | n + 1 => match compile s 0 i with
    | none => none
    | some (.error e) => some (.error e)
    | some (.ok (s1, j)) => match run s1 [.use 0, .del 0] with
      | none => none
      | some (.error e) => some (.error e)
      | some (.ok s2) => compileLoop s2 j n

end Falcon.Code
