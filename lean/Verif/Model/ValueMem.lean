import Verif.Model.Item
import Verif.Model.Code
/-
Items, code objects and the compiler when memory runs out: item.h 24-101 with the handlers, code.h/code.cpp, compiler.cpp 20-25.
The same programs as in Model/Item and Model/Code; here every allocation may be refused.

Simplifications: which allocations the standard library makes is a parameter (`Lib`): a std::string of at most `sso` characters keeps
them in itself, a longer one takes one allocation, and so does the buffer of a std::ostringstream. An assignment
of a long std::string is taken to allocate (it need not, if the target has room; granting it covers that case).
-/
namespace Falcon.Mem

/-- `String`, `std::string`. types.h, code.h 22-35. -/
abbrev Str := List Char

/-- What the libraries need. Standard library and boost; used by item.h 58-66, the handlers' toString and code.cpp 21-46. -/
structure Lib where
  sso : Nat                          -- longest text a std::string or a stream buffer holds without an allocation
  str : Str → Nat                    -- allocations boost makes for the text of a BigNum before it is written
  fl  : Falcon.Item.Dbl → Str        -- the text of a double
  big : Falcon.Item.Obj → Str        -- the text of a BigNum

/-- Allocations made by a std::string of this text. Standard library; used by item.h 58-66, code.cpp 21-46. -/
def Lib.text (l : Lib) (s : Str) : Nat := if s.length ≤ l.sso then 0 else 1

/-- `n` allocations, one after the other, up to the first that is refused. The list says which are
granted; behind its end all are. Not in the code: operator new. -/
def grab : Nat → List Bool → Bool × List Bool
  | 0, o => (true, o)
  | _ + 1, [] => (true, [])
  | n + 1, true :: o => grab n o
  | _ + 1, false :: o => (false, o)

/-- How a statement ends if the program goes on. -/
inductive Outcome where
  | done
  | badAlloc        -- std::bad_alloc reaches the caller
  | text (t : Str)  -- toString returned t
  deriving DecidableEq, Repr

/-! ### Items -/

/-- Allocations of `Item x(v)`: the parameter, which is taken by value (item.h 32), then `new String(value)` (59, 62: the object and its
text) or `new BigNum(value)` (66). -/
def itemNeeds (l : Lib) : Falcon.Item.Val → Nat
  | .cstring s => 1 + l.text (s.takeWhile (· ≠ '\x00'))
  | .string s => l.text s + (1 + l.text s)
  | .bignum _ => 1
  | _ => 0

/-- `ss << text` on a new std::ostringstream: the first `sso` characters go to the buffer it has; if more room is refused, operator<<
catches the exception, sets badbit, which nobody looks at, and the rest is lost. Standard library; inthandler.h 29-33, floathandler.h 29-33,
bignumhandler.h 31-35. -/
def streamed (l : Lib) (t : Str) (o : List Bool) : Str × List Bool :=
  if t.length ≤ l.sso then (t, o)
  else match grab 1 o with
    | (true, o') => (t, o')
    | (false, o') => (t.take l.sso, o')

/-- toString of the handlers, given the whole text `t`: what it returns, or `none` if an exception reaches its noexcept: the copy that is returned
(stringhandler.h 27, nilhandler.h 28, boolhandler.h 28, `ss.str()`) or boost's text of a BigNum (bignumhandler.h 33) is refused. -/
def textOf (l : Lib) (h : Falcon.Item.Hd) (t : Str) (o : List Bool) : Option Str × List Bool :=
  match h with
  | .string | .nil | .bool => match grab (l.text t) o with
    | (true, o') => (some t, o')
    | (false, o') => (none, o')
  | .int | .float =>
    let (t', o1) := streamed l t o
    match grab (l.text t') o1 with
    | (true, o') => (some t', o')
    | (false, o') => (none, o')
  | .bignum => match grab (l.str t) o with
    | (false, o') => (none, o')
    | (true, o0) =>
      let (t', o1) := streamed l t o0
      match grab (l.text t') o1 with
      | (true, o') => (some t', o')
      | (false, o') => (none, o')

/-- One statement of a user of item.h 24-101 (Model/Item `exec`). A constructor that throws leaves no object behind, and `new` gives its storage
back. toString is noexcept (98), so what is refused inside it ends the program. The other statements make no allocations. -/
def itemStep (l : Lib) (cs : Bool) (s : Falcon.Item.St) (o : List Bool) (op : Falcon.Item.Op) : Option (Res (Falcon.Item.St × List Bool × Outcome)) :=
  match op with
  | .new x v => match s.var x with
    | some _ => none
    | none => match grab (itemNeeds l v) o with
      | (false, o') => some (.ok (s, o', .badAlloc))
      | (true, o') => let (i, h) := Falcon.Item.make cs s.heap v; some (.ok (Falcon.Item.setVar { s with heap := h } x (some i), o', .done))
  | .use x => match s.var x with
    | none => none
    | some i => match Falcon.Item.toString l.fl l.big s.heap i with
      | .error e => some (.error e)
      | .ok t => match textOf l i.handler t o with
        | (none, _) => some (.error .terminate)
        | (some t', o') => some (.ok (s, o', .text t'))
  | op => match Falcon.Item.exec cs s op with
    | none => none
    | some (.error e) => some (.error e)
    | some (.ok s') => some (.ok (s', o, .done))

/-- A sequence of statements, each of which catches std::bad_alloc and goes on. Not in the code: a user of item.h 24-101. -/
def itemRun (l : Lib) (cs : Bool) (s : Falcon.Item.St) (o : List Bool) : List Falcon.Item.Op → Option (Res (Falcon.Item.St × List Bool × List Outcome))
  | [] => some (.ok (s, o, []))
  | op :: ops => match itemStep l cs s o op with
    | none => none
    | some (.error e) => some (.error e)
    | some (.ok (s', o', r)) => match itemRun l cs s' o' ops with
      | none => none
      | some (.error e) => some (.error e)
      | some (.ok (s'', o'', rs)) => some (.ok (s'', o'', r :: rs))

/-! ### Code -/

/-- One statement of a user of code.h 22-35 (Model/Code `exec`). The constructors and toString are noexcept (code.cpp 21, 28, 44): what is refused
inside them ends the program. The constructor copies the source, then takes the buffer (22); the copy constructor copies the source
(29); the implicit assignment (code.h 27), not noexcept, assigns the source first and changes nothing if that throws. -/
def codeStep (l : Lib) (s : Falcon.Code.St) (o : List Bool) (op : Falcon.Code.Op) : Option (Res (Falcon.Code.St × List Bool × Outcome)) :=
  match op with
  | .new x src line => match s.var x with
    | some _ => none
    | none => match grab (l.text src + 1) o with
      | (false, _) => some (.error .terminate)
      | (true, o') => match Falcon.Code.exec s (.new x src line) with
        | none => none
        | some (.error e) => some (.error e)
        | some (.ok s') => some (.ok (s', o', .done))
  | .copy x y => match s.var x, s.var y with
    | none, some c => match grab (l.text c.source) o with
      | (false, _) => some (.error .terminate)
      | (true, o') => some (.ok (Falcon.Code.setVar s x (some c), o', .done))
    | _, _ => none
  | .assign x y => match s.var x, s.var y with
    | some _, some c => match grab (if x = y then 0 else l.text c.source) o with
      | (false, o') => some (.ok (s, o', .badAlloc))
      | (true, o') => some (.ok (Falcon.Code.setVar s x (some c), o', .done))
    | _, _ => none
  | .use x => match s.var x with
    | none => none
    | some c => match Falcon.Code.toString s c with
      | .error e => some (.error e)
      | .ok t => match grab (l.text t) o with
        | (false, _) => some (.error .terminate)
        | (true, o') => some (.ok ({ s with out := s.out ++ [t] }, o', .text t))
  | op => match Falcon.Code.exec s op with
    | none => none
    | some (.error e) => some (.error e)
    | some (.ok s') => some (.ok (s', o, .done))

/-- A sequence of statements, each of which catches std::bad_alloc and goes on. Not in the code: a user of code.h 22-35. -/
def codeRun (l : Lib) (s : Falcon.Code.St) (o : List Bool) : List Falcon.Code.Op → Option (Res (Falcon.Code.St × List Bool × List Outcome))
  | [] => some (.ok (s, o, []))
  | op :: ops => match codeStep l s o op with
    | none => none
    | some (.error e) => some (.error e)
    | some (.ok (s', o', r)) => match codeRun l s' o' ops with
      | none => none
      | some (.error e) => some (.error e)
      | some (.ok (s'', o'', rs)) => some (.ok (s'', o'', r :: rs))

/-! ### Compiler -/

/-- An input stream that also records badbit. Standard library; the argument of Compiler::compile, compiler.cpp 20-25. -/
structure In where
  i      : Falcon.Code.IStream
  bad    : Bool := false
  excBad : Bool := false              -- exceptions(badbit)
  deriving DecidableEq, Repr

/-- `input >> value` while memory may run out. `cut = some (c, k)`: growing `value` is refused when `c` characters of the word have been taken from the
stream, of which `k` are in `value` (libstdc++ appends them 128 at a time). operator>> catches the exception and sets
badbit; it passes it on only if exceptions() asks for that. The width is not reset then. Standard library; compiler.cpp 23. -/
def extract (s : In) (cut : Option (Nat × Nat)) : Res (Str × In) :=
  if s.bad = true then
    match s.i.setState false true with
    | .error e => .error e
    | .ok j => if s.excBad = true then .error (.exn .user) else .ok ([], { s with i := j })
  else
    let r := if s.i.skipws then s.i.rest.dropWhile Falcon.Code.isSpace else s.i.rest
    let w := (Falcon.Code.takeWord (if s.i.width = 0 then none else some s.i.width) r).1
    match cut with
    | some (c, k) =>
      if s.i.eof = false ∧ s.i.fail = false ∧ 0 < c ∧ c ≤ w.length then
        if s.excBad = true then .error (.exn .user)
        else .ok (w.take (min k c), { s with i := { s.i with rest := r.drop c }, bad := true })
      else match s.i.extract with
        | .error e => .error e
        | .ok (w, j) => .ok (w, { s with i := j })
    | none => match s.i.extract with
        | .error e => .error e
        | .ok (w, j) => .ok (w, { s with i := j })

/-- Compiler::compile while memory may run out, compiler.cpp 20-25: noexcept. -/
def compile (l : Lib) (st : Falcon.Code.St) (x : Nat) (s : In) (cut : Option (Nat × Nat)) (o : List Bool) :
    Option (Res (Falcon.Code.St × In × List Bool)) :=
  match extract s cut with
  | .error (.exn _) => some (.error .terminate)
  | .error e => some (.error e)
  | .ok (w, j) => match codeStep l st o (.new x w 1) with
    | none => none
    | some (.error e) => some (.error e)
    | some (.ok (st', o', _)) => some (.ok (st', j, o'))

end Falcon.Mem
