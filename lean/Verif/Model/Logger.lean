import Verif.Model.LogSystem
/-
Model of `falcon::Logger` (src/include/falcon/logger.h, src/engine/logger.cpp): composition of
messages in the thread-local stream, and the category filter helper.

A thread executes a tree of operations; one operation is one step.  `emit` means that
`LogSystem::log` accepted the message (what happens then is `Model/LogSystem`).

Simplifications: text, natural numbers, the manipulators hex/dec and a null `char*` stand for
everything that can be streamed; other format flags (width, precision, fill, ...) behave like hex:
they are members of the stream.  Exceptions thrown while a statement is composed are not modelled.
-/
namespace Falcon.Logger
open Falcon.Log (Str Msg Rx Lst LId)

/-- What is streamed. The right operands of logger.h 348-352, 393-408. -/
inductive Piece where
  | text (s : Str)
  | num (n : Nat)
  | hex | dec
  | nullStr            -- a null `const char*`: sets badbit
  deriving DecidableEq, Repr

/-- The thread_local members, logger.h 379-384 / logger.cpp 20-25. -/
structure Tls where
  composer : Str := []
  isHex    : Bool := false       -- basefield of m_composer
  bad      : Bool := false       -- badbit of m_composer
  category : Str := []
  temp     : Str := []
  file     : Str := []
  line     : Int := 0
  lvl      : Int := 5
  deriving DecidableEq, Repr

/-- `m_composer << v`, logger.h 348-352. A stream that is not good() inserts nothing; manipulators still set
the flags. -/
def insert (t : Tls) : Piece → Tls
  | .text s  => if t.bad then t else { t with composer := t.composer ++ s }
  | .num n   => if t.bad then t else { t with composer := t.composer ++ Nat.toDigits (if t.isHex then 16 else 10) n }
  | .hex     => { t with isHex := true }
  | .dec     => { t with isHex := false }
  | .nullStr => { t with bad := true }

/-- Statements and their parts. The last three are internal (what is left of a statement).
logger.h 265-352, 386-432. -/
inductive Op where
  | log (file : Str) (line : Int) (lvl : Int) (parts : List Op)  -- LOG(lvl) << ... (413)
  | put (p : Piece)                                             -- `<< p` in a LOG statement (393-400)
  | putCat (c : Str)                                            -- `<< LOG_CAT(c)` (402-408)
  | block (file : Str) (line : Int) (lvl : Int) (body : List Op) (early : Bool)
      -- LOG_BLOCK (422-425); `early`: the body ends with break, return or goto
  | lput (p : Piece)                                            -- LOGGER << p
  | categoryMacro (c : Str)                                     -- LOG_CATEGORY (411)
  | setCategory (c : Str)                                       -- 265-267
  | setTemp (c : Str)                                           -- 269-271
  | level (n : Int)                                             -- LogSystem::level
  | autoEnd                                                     -- ~AutoEnd (322)
  | blockTest (ok : Bool) (lvl : Int) (body : List Op) (early : Bool)  -- the condition of the for (424)
  | complete                                                    -- complete() (343)

/-- A thread: what it has to do, its live AutoEnd objects (innermost first; `true`: m_obj != 0), its
thread-local members. logger.h 304-345, 375-384. -/
structure Th where
  todo : List Op
  ends : List Bool := []
  tls  : Tls := {}

/-- The general level, the threads, and the messages emitted so far. logger.h 375-384, logger.cpp 20-52. -/
structure W where
  level : Int
  th    : Nat → Th
  out   : List (Nat × Msg) := []

/-- Not in the code: a step of one thread using logger.h 265-432. -/
def setTh (w : W) (i : Nat) (t : Th) : W := { w with th := fun j => if j = i then t else w.th j }

/-- setFile, setLine, setLevel (logger.h 289-299) as done by the constructors 314-318, 336-340. -/
def locate (t : Tls) (file : Str) (line lvl : Int) : Tls := { t with file := file, line := line, lvl := lvl }

/-- `commit`, logger.h 277-287, with `readyStream` 386-389; the message reaches the queue if `LogSystem::log`
admits its level (logsystem.cpp 88). -/
def commit (w : W) (i : Nat) (th : Th) : W :=
  let t := th.tls
  let cat := if t.temp = [] then t.category else t.temp
  let t' := { t with temp := [], composer := [], bad := false }
  let w' := setTh w i { th with tls := t' }
  if t.lvl > w.level then w'
  else { w' with out := w'.out ++ [(i, { file := t.file, line := t.line, level := t.lvl, cat := cat, text := t.composer })] }

/-- One step of thread `i`; `min` is FALCON_MIN_LOG_LEVEL. logger.h 265-432, logger.cpp 20-52. -/
def step (min : Int) (w : W) (i : Nat) : W :=
  let th := w.th i
  match th.todo with
  | [] => w
  | op :: rest =>
    match op with
    | .log file line lvl parts =>
      if min ≥ lvl ∧ w.level ≥ lvl then
        setTh w i { todo := parts ++ .autoEnd :: rest, ends := true :: th.ends, tls := locate th.tls file line lvl }
      else setTh w i { th with todo := parts ++ .autoEnd :: rest, ends := false :: th.ends }
    | .put p =>
      match th.ends with
      | true :: _ => setTh w i { th with todo := rest, tls := insert th.tls p }
      | _         => setTh w i { th with todo := rest }
    | .putCat c =>
      match th.ends with
      | true :: _ => setTh w i { th with todo := rest, tls := { th.tls with temp := c } }
      | _         => setTh w i { th with todo := rest }
    | .autoEnd =>
      match th.ends with
      | true :: es  => commit w i { th with todo := rest, ends := es }
      | _           => setTh w i { th with todo := rest, ends := th.ends.tail }
    | .block file line lvl body early =>
      if min ≥ lvl ∧ w.level ≥ lvl then
        setTh w i { th with todo := .blockTest true lvl body early :: rest, tls := locate th.tls file line lvl }
      else setTh w i { th with todo := .blockTest false lvl body early :: rest }
    | .blockTest ok lvl body early =>
      if min ≥ lvl ∧ w.level ≥ lvl ∧ ok = true then
        setTh w i { th with todo := body ++ (if early then rest else .complete :: rest) }
      else setTh w i { th with todo := rest }
    | .complete => commit w i { th with todo := rest }
    | .lput p => setTh w i { th with todo := rest, tls := insert th.tls p }
    | .categoryMacro c =>
      if min ≥ w.level then setTh w i { th with todo := rest, tls := { th.tls with category := c } }
      else setTh w i { th with todo := rest }
    | .setCategory c => setTh w i { th with todo := rest, tls := { th.tls with category := c } }
    | .setTemp c => setTh w i { th with todo := rest, tls := { th.tls with temp := c } }
    | .level n => setTh { w with level := n } i { th with todo := rest }

/-- A schedule: which thread moves next. Not in the code: the threads that use logger.h 265-432. -/
def runS (min : Int) (w : W) (sched : List Nat) : W := sched.foldl (step min) w

/-! ### the category filter helper, logger.cpp 27-52 -/

/-- The Logger's own members (logger.h 375-377) and the listeners it manages. Listener 0 is
`m_dflt`; every other listener is a LogProxyListener on it. -/
structure Fs where
  level    : Int
  lst      : LId → Lst
  regs     : List LId                -- listeners added with addListener, in order
  proxy    : Option LId              -- m_proxy
  base     : Int                     -- m_proxyBaseLevel
  next     : LId                     -- next listener created

/-- Constructor, logger.cpp 27-31, `LogSystem()` and the initialisers logger.h 376-377. -/
def finit : Fs := { level := 5, lst := fun _ => {}, regs := [0], proxy := none, base := 5, next := 1 }

/-- logger.cpp 20-52. -/
def detachIf (s : Fs) : Option LId → Fs
  | none   => s
  | some p => { s with lst := Falcon.Log.setLst s.lst p { s.lst p with detached := true } }

/-- categoryFilter, logger.cpp 34-46. Also returns what was thrown. -/
def categoryFilter (rx : Rx) (s : Fs) (re : Str) (l : Int) : Fs × Option Exn :=
  let s := detachIf s s.proxy                                          -- 35-37
  let s := { s with base := s.level }                                  -- 38
  let s := if l > s.base then { s with level := l } else s             -- 39-41
  let s := { s with proxy := some s.next, next := s.next + 1,
                    lst := Falcon.Log.setLst s.lst s.next {} }         -- 42
  match Falcon.Log.setCategory rx (s.lst (s.next - 1)) re with         -- 43
  | .error e => (s, some e)
  | .ok v    =>
    ({ s with lst := Falcon.Log.setLst s.lst (s.next - 1) { v with level := l },   -- 44
              regs := s.regs ++ [s.next - 1] }, none)                              -- 45

/-- clearFilter, logger.cpp 49-52. -/
def clearFilter (s : Fs) : Res Fs :=
  match s.proxy with
  | none   => .error (.ub .nullDeref)
  | some p => .ok { detachIf s (some p) with level := s.base }

/-- Calls on the filter interface. logger.h 265-299, logger.cpp 20-52. -/
inductive FOp where
  | filter (re : Str) (l : Int)
  | clear
  | level (n : Int)
  | dflt (n : Int)             -- defaultListener()->level(n)
  deriving DecidableEq, Repr

/-- logger.h 265-299, logger.cpp 20-52. -/
def fstep (rx : Rx) (s : Fs) : FOp → Res Fs
  | .filter re l => .ok (categoryFilter rx s re l).1
  | .clear       => clearFilter s
  | .level n     => .ok { s with level := n }
  | .dflt n      => .ok { s with lst := Falcon.Log.setLst s.lst 0 { s.lst 0 with level := n } }

/-- Not in the code: a history of calls of logger.h 265-299. -/
def frun (rx : Rx) (s : Fs) : List FOp → Res Fs
  | []      => .ok s
  | o :: os => fstep rx s o >>= fun s' => frun rx s' os

/-- How many lines message `m` puts on the default listener's stream once the logging thread has
noticed all detached listeners: one per listener that passes it - the default listener writes, a
proxy calls the default listener's onMessage (logproxy.h 41-43) without asking its filters. -/
def lines (rx : Rx) (s : Fs) (m : Msg) : Nat :=
  if m.level > s.level then 0
  else (s.regs.filter fun l => !(s.lst l).detached && (s.lst l).enabled && decide ((s.lst l).level ≥ m.level)
          && Falcon.Log.checkCategory rx (s.lst l) m.cat).length

end Falcon.Logger
