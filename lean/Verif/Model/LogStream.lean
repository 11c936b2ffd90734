import Verif.Model.LogSystem
/-
Model of `falcon::LogStreamListener` (src/include/falcon/logstream.h, src/engine/logstream.cpp): the
text a message produces on an ostream, and which stream is used when the stream is replaced,
possibly while other threads are writing.

Simplifications: of the format state of an ostream the base (dec/hex), the adjustment (right/left),
the fill character and the width are modelled; the stream never fails; the calendar time is an
argument (what system_clock and localtime return).
-/
namespace Falcon.LogStream
open Falcon.Log (Str Msg levelToString)

/-- `std::ostream`: what was written and the format state. Standard library; `*m_pout` of logstream.h 68-74. -/
structure OS where
  text  : Str := []
  isHex : Bool := false
  left  : Bool := false
  fill  : Char := ' '
  width : Nat := 0
  deriving DecidableEq, Repr

/-- Decimal representation of an `int`. Standard library; logstream.cpp 44-63. -/
def dec (n : Int) : Str := if n < 0 then '-' :: Nat.toDigits 10 n.natAbs else Nat.toDigits 10 n.toNat

/-- Representation of an `int` in the base of the stream (hexadecimal prints the 32 bit pattern). -/
def intText (isHex : Bool) (n : Int) : Str := if isHex then Nat.toDigits 16 (n % 4294967296).toNat else dec n

/-- Formatted output of `s`: padded to the width, which is then reset. Standard library; logstream.cpp 44-63. -/
def OS.put (o : OS) (s : Str) : OS :=
  let pad := List.replicate (o.width - s.length) o.fill
  { o with text := o.text ++ (if o.left then s ++ pad else pad ++ s), width := 0 }

/-- One `<<`. The operands in logstream.cpp 44-63. -/
inductive Act where
  | int (n : Int)
  | str (s : Str)           -- also a single char
  | setfill (c : Char)
  | setw (n : Nat)
  deriving DecidableEq, Repr

/-- Standard library: one `<<` of logstream.cpp 44-63. -/
def OS.act (o : OS) : Act → OS
  | .int n     => o.put (intText o.isHex n)
  | .str s     => o.put s
  | .setfill c => { o with fill := c }
  | .setw n    => { o with width := n }

/-- `struct tm`, with `year = tm_year + 1900` and `mon = tm_mon + 1`. -/
structure Tm where
  year : Int
  mon  : Nat
  day  : Nat
  hour : Nat
  min  : Nat
  sec  : Nat
  deriving DecidableEq, Repr

/-- `std::string::rfind(char)`: position of the last occurrence. Standard library; logstream.cpp 29-36. -/
def rfind (c : Char) : Str → Option Nat
  | []      => none
  | x :: xs => match rfind c xs with
    | some p => some (p + 1)
    | none   => if x = c then some 0 else none

/-- logstream.cpp 29-36; `sep` is FALCON_DIR_SEP_CHR (setup.h 87, 99). -/
def fileShown (sep : Char) (path : Str) : Str :=
  match rfind sep path with
  | some p => path.drop (p + 1)
  | none   => path

/-- logstream.cpp 44-56. -/
def dateActs (t : Tm) : List Act :=
  [.int t.year, .str ['-'],
   .setfill '0', .setw 2, .int t.mon, .str ['-'],
   .setfill '0', .setw 2, .int t.day, .str [' '],
   .setfill '0', .setw 2, .int t.hour, .str [':'],
   .setfill '0', .setw 2, .int t.min, .str [':'],
   .setfill '0', .setw 2, .int t.sec, .str [' '],
   .setw 0]

/-- logstream.cpp 58-63. -/
def bodyActs (sep : Char) (m : Msg) : List Act :=
  [.str ['['], .str (levelToString m.level), .str [']', ' ']]
  ++ (if m.cat = [] then [] else [.str ['('], .str m.cat, .str [')', ' ']])
  ++ [.str (fileShown sep m.file), .str [':'], .int m.line, .str [' '], .str m.text, .str ['\n']]

/-- Everything onMessage does with the stream, in order. logstream.cpp 40-64. -/
def msgActs (sep : Char) (t : Tm) (m : Msg) : List Act := dateActs t ++ bodyActs sep m

/-- A chain of `<<` as in logstream.cpp 44-63. -/
def OS.acts (o : OS) (as : List Act) : OS := as.foldl OS.act o

/-- onMessage on a stream nobody else uses. logstream.cpp 23-67. -/
def onMessage (sep : Char) (o : OS) (t : Tm) (m : Msg) : OS := o.acts (msgActs sep t m)

/-! ### Which stream is used -/

/-- Streams: given by unique_ptr, by shared_ptr, by raw pointer; `dummy` is the built-in null
stream. logstream.h 44-61, 68-74. -/
inductive Sid where
  | dummy | owned (n : Nat) | shared (n : Nat) | raw (n : Nat)
  deriving DecidableEq, Repr

/-- The members (logstream.h 67-74) and the world around: contents of the streams, which of them
have been destroyed, who outside holds a shared_ptr to shared n (`none`: somebody, `some i`: the
argument of thread i's call of share), how many unique_ptr streams have been made. -/
structure LS where
  pout   : Option Sid := some .dummy      -- none: null pointer
  uptr   : Option Nat := none
  sptr   : Option Nat := none
  os     : Sid → OS := fun _ => {}
  dead   : Sid → Bool := fun _ => false
  refs   : Nat → List (Option Nat)
  made   : Nat := 0

/-- What a thread does. `own true` makes a new stream and passes it, `own false`, `share none` and
`writeOn none` pass null. `drop n` is not a call on the listener: somebody outside resets a
shared_ptr to shared n. share n, drop n happen only if there still is such a shared_ptr.
logstream.h 44-61, logstream.cpp 23-67. -/
inductive Call where
  | own (nonnull : Bool)
  | share (n : Option Nat)
  | writeOn (n : Option Nat)
  | msg (as : List Act)
  | drop (n : Nat)
  deriving DecidableEq, Repr

/-- The calls that take the lock, with the streams they pass. logstream.h 44-61, logstream.cpp 40. -/
inductive LC where
  | own (n : Option Nat)
  | share (n : Option Nat)
  | writeOn (n : Option Nat)
  | msg (as : List Act)
  deriving DecidableEq, Repr

/-- Not in the code: destruction of a stream held by logstream.h 68-74. -/
def kill (d : Sid → Bool) (s : Sid) : Sid → Bool := fun x => if x = s then true else d x

/-- `m_uptrStream = std::move(out)` 46: the old stream is deleted. -/
def moveIn (s : LS) (n : Option Nat) : LS :=
  { s with uptr := n, dead := match s.uptr with | some k => kill s.dead (.owned k) | none => s.dead }

/-- Destruction of the last shared_ptr outside, `r` being what is left.
Standard library (shared_ptr); logstream.h 51-55. -/
def killIfLast (s : LS) (k : Nat) (r : List (Option Nat)) (held : Option Nat) : Sid → Bool :=
  if r = [] ∧ held ≠ some k then kill s.dead (.shared k) else s.dead

/-- `m_pstream = out` 53: the old stream is deleted if nobody else refers to it. -/
def shareIn (s : LS) (n : Option Nat) : LS :=
  { s with sptr := n, dead := match s.sptr with | some k => killIfLast s k (s.refs k) n | none => s.dead }

/-- A shared_ptr outside the listener is destroyed.
Standard library (shared_ptr); the argument of logstream.h 51-55. -/
def unref (s : LS) (n : Nat) (who : Option Nat) : LS :=
  { s with refs := fun x => if x = n then (s.refs n).erase who else s.refs x,
           dead := killIfLast s n ((s.refs n).erase who) s.sptr }

/-- One `<<` on `*m_pout`. logstream.cpp 44-63. -/
def actOn (s : LS) (a : Act) : Res LS :=
  match s.pout with
  | none => .error (.ub .nullDeref)
  | some p => if s.dead p then .error (.ub .useAfterFree)
              else .ok { s with os := fun x => if x = p then (s.os p).act a else s.os x }

/-- Where a thread is. Line numbers without a file are of logstream.h 44-61. -/
inductive Pc where
  | idle
  | wait (c : LC)             -- arguments ready, about to take the lock (45, 52, 59, logstream.cpp 40)
  | own1 (n : Option Nat)     -- before 46
  | own2 (n : Option Nat)     -- before 47
  | share1 (n : Option Nat)   -- before 53
  | share2 (n : Option Nat)   -- before 54
  | wr1 (n : Option Nat)      -- before 60
  | out (as rest : List Act)  -- in onMessage: everything, what is left
  | unlock (c : LC)           -- before the lock_guard's destructor
  | ret (n : Nat)             -- before the destructor of share's argument
  deriving DecidableEq, Repr

/-- Not in the code: a thread using logstream.h 44-61. -/
structure T where
  pc   : Pc := .idle
  todo : List Call := []

/-- The listener in use by many threads. `hist` is a ghost: who made which calls, in the order in
which they released the lock. logstream.h 68-74. -/
structure CS where
  ls   : LS
  mtx  : Option Nat := none
  th   : Nat → T
  hist : List (Nat × LC) := []

/-- Not in the code: a step of one thread using logstream.h 44-61. -/
def setT (s : CS) (i : Nat) (t : T) : CS := { s with th := fun j => if j = i then t else s.th j }

/-- The first statement after the lock_guard. logstream.h 46, 53, 60, logstream.cpp 44. -/
def enter : LC → Pc
  | .own n => .own1 n
  | .share n => .share1 n
  | .writeOn n => .wr1 n
  | .msg as => .out as as

/-- One step of thread `i`. A thread that cannot get the lock stays where it is.
logstream.h 44-61, logstream.cpp 40-67. -/
def cstep (s : CS) (i : Nat) : Res CS :=
  let t := s.th i
  match t.pc with
  | .idle => match t.todo with
    | [] => .ok s
    | .own true :: r => .ok (setT { s with ls := { s.ls with made := s.ls.made + 1 } } i ⟨.wait (.own (some s.ls.made)), r⟩)
    | .own false :: r => .ok (setT s i ⟨.wait (.own none), r⟩)
    | .share none :: r => .ok (setT s i ⟨.wait (.share none), r⟩)
    | .share (some n) :: r =>
      if s.ls.refs n = [] then .ok (setT s i ⟨.idle, r⟩)
      else .ok (setT { s with ls := { s.ls with refs := fun x => if x = n then some i :: s.ls.refs n else s.ls.refs x } } i
                  ⟨.wait (.share (some n)), r⟩)
    | .writeOn n :: r => .ok (setT s i ⟨.wait (.writeOn n), r⟩)
    | .msg as :: r => .ok (setT s i ⟨.wait (.msg as), r⟩)
    | .drop n :: r =>
      if none ∈ s.ls.refs n then .ok (setT { s with ls := unref s.ls n none } i ⟨.idle, r⟩)
      else .ok (setT s i ⟨.idle, r⟩)
  | .wait c => if s.mtx = none then .ok { setT s i ⟨enter c, t.todo⟩ with mtx := some i } else .ok s
  | .own1 n => .ok (setT { s with ls := moveIn s.ls n } i ⟨.own2 n, t.todo⟩)
  | .own2 n => .ok (setT { s with ls := { s.ls with pout := s.ls.uptr.map Sid.owned } } i ⟨.unlock (.own n), t.todo⟩)
  | .share1 n => .ok (setT { s with ls := shareIn s.ls n } i ⟨.share2 n, t.todo⟩)
  | .share2 n => .ok (setT { s with ls := { s.ls with pout := n.map Sid.shared } } i ⟨.unlock (.share n), t.todo⟩)
  | .wr1 n => .ok (setT { s with ls := { s.ls with pout := n.map Sid.raw } } i ⟨.unlock (.writeOn n), t.todo⟩)
  | .out as [] => .ok (setT s i ⟨.unlock (.msg as), t.todo⟩)
  | .out as (a :: r) => match actOn s.ls a with
    | .error e => .error e
    | .ok l => .ok (setT { s with ls := l } i ⟨.out as r, t.todo⟩)
  | .unlock c =>
    let pc := match c with | .share (some n) => .ret n | _ => .idle
    .ok { setT s i ⟨pc, t.todo⟩ with mtx := none, hist := s.hist ++ [(i, c)] }
  | .ret n => .ok (setT { s with ls := unref s.ls n (some i) } i ⟨.idle, t.todo⟩)

/-- Not in the code: a schedule of the threads using logstream.h 44-61. -/
def crun (s : CS) : List Nat → Res CS
  | [] => .ok s
  | i :: is => cstep s i >>= fun s' => crun s' is

end Falcon.LogStream
