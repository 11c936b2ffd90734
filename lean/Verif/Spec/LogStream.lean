import Verif.Model.LogStream
/-
Specification vocabulary for the log lines: what a reader of the log file does to take a line apart,
and which stream a sequence of calls should write to.
-/
namespace Falcon.LogStream
open Falcon.Log (Str Msg levelToString)

/-- The stream formats numbers in decimal, without left-over width (any fill character). This is
true of a new ostream and, by `C105`, after any number of messages. -/
def OS.Plain (o : OS) : Prop := o.isHex = false ∧ o.left = false ∧ o.width = 0

/-- A calendar time with a four digit year. -/
def Tm.Valid (t : Tm) : Prop :=
  1000 ≤ t.year ∧ t.year ≤ 9999 ∧ 1 ≤ t.mon ∧ t.mon ≤ 12 ∧ 1 ≤ t.day ∧ t.day ≤ 31 ∧ t.hour < 24 ∧ t.min < 60 ∧ t.sec ≤ 60

/-- The order of calendar times. -/
def Tm.before (a b : Tm) : Prop :=
  a.year < b.year ∨ a.year = b.year ∧ (a.mon < b.mon ∨ a.mon = b.mon ∧ (a.day < b.day ∨ a.day = b.day ∧
    (a.hour < b.hour ∨ a.hour = b.hour ∧ (a.min < b.min ∨ a.min = b.min ∧ a.sec < b.sec))))

/-- `b` is the part of `path` after its last separator, the whole path if it has none. -/
def IsBaseName (sep : Char) (path b : Str) : Prop :=
  sep ∉ b ∧ (b = path ∨ ∃ dir, path = dir ++ [sep] ++ b)

/-- The names of the levels in the documentation (logsystem.h 190-199). -/
def levelName (l : Int) : Str :=
  if l = 0 then "CRIT".toList else if l = 1 then "ERR ".toList else if l = 2 then "WARN".toList else if l = 3 then "INFO".toList
  else if l = 4 then "DBG ".toList else if l = 5 then "TRC ".toList else "????".toList

/-! A reader of the log. -/

/-- What comes before and after the first `c`. -/
def cut (c : Char) : Str → Option (Str × Str)
  | []      => none
  | x :: xs => if x = c then some ([], xs) else (cut c xs).map fun p => (x :: p.1, p.2)

/-- Reads a decimal number. -/
def readInt : Str → Int
  | '-' :: s => - (Nat.ofDigitChars 10 s 0 : Int)
  | s        => (Nat.ofDigitChars 10 s 0 : Int)

structure Rec where
  date  : Str
  level : Str
  cat   : Str
  file  : Str
  line  : Int
  text  : Str
  deriving DecidableEq, Repr

/-- Splits `file:line text\n`. -/
def readTail (date level cat s : Str) : Option Rec :=
  (cut ':' s).bind fun p => (cut ' ' p.2).map fun q =>
    { date := date, level := level, cat := cat, file := p.1, line := readInt q.1, text := q.2.dropLast }

/-- Takes a line apart: 20 characters date, `[LEVL] `, an optional `(category) `, the rest. -/
def readLine (s : Str) : Option Rec :=
  let date := s.take 20
  match s.drop 20 with
  | '[' :: a :: b :: c :: d :: ']' :: ' ' :: r =>
    match r with
    | '(' :: r' => (cut ')' r').bind fun p => readTail date [a, b, c, d] p.1 (p.2.drop 1)
    | _         => readTail date [a, b, c, d] [] r
  | _ => none

/-! Which stream is written. -/

/-- The stream in use after the calls `cs`, when it is `t` before: the one set last. -/
def target (t : Option Sid) : List LC → Option Sid
  | [] => t
  | .own n :: cs => target (n.map Sid.owned) cs
  | .share n :: cs => target (n.map Sid.shared) cs
  | .writeOn n :: cs => target (n.map Sid.raw) cs
  | .msg _ :: cs => target t cs

/-- The messages written to stream `x` by the calls `cs`, executed one after the other, when the
stream in use before is `t`. -/
def messagesTo (x : Sid) (t : Option Sid) : List LC → List (List Act)
  | [] => []
  | .own n :: cs => messagesTo x (n.map Sid.owned) cs
  | .share n :: cs => messagesTo x (n.map Sid.shared) cs
  | .writeOn n :: cs => messagesTo x (n.map Sid.raw) cs
  | .msg as :: cs => if t = some x then as :: messagesTo x t cs else messagesTo x t cs

/-- The calls a thread may make: no null streams. -/
def Call.NonNull : Call → Prop
  | .own b => b = true
  | .share n => n ≠ none
  | .writeOn n => n ≠ none
  | _ => True

/-- A new listener: nobody is inside a call, no stream is destroyed, any number of shared_ptr
outside. -/
def CS.Fresh (s : CS) : Prop :=
  s.ls.pout = some .dummy ∧ s.ls.uptr = none ∧ s.ls.sptr = none ∧ s.ls.dead = (fun _ => false) ∧ s.ls.made = 0 ∧
  s.mtx = none ∧ s.hist = [] ∧ (∀ i, (s.th i).pc = .idle) ∧ (∀ n, ∀ r ∈ s.ls.refs n, r = none)

/-- The fields are ordinary (below 100); nothing about the year. -/
def Tm.Small (t : Tm) : Prop := t.mon < 100 ∧ t.day < 100 ∧ t.hour < 100 ∧ t.min < 100 ∧ t.sec < 100

/-- The message of a call, if it sends one. -/
def LC.msg? : LC → Option (List Act) | .msg as => some as | _ => none
def Call.msg? : Call → Option (List Act) | .msg as => some as | _ => none

end Falcon.LogStream
