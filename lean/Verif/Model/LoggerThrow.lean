import Verif.Model.Logger
/-
Model of log statements in the presence of exceptions: src/include/falcon/logger.h 265-352, 386-425.

One thread executes a program fragment; `<<` evaluates its left operand before the right one (C++17, which
CMakeLists.txt 19 asks for), so the pieces in front of a throwing operand have been inserted when it throws.  A `LOG`
statement ends with the destructor ~AutoEnd 322, which also runs when the statement is left by an exception and which
is noexcept (implicitly): an exception inside it is std::terminate.  BlockEnd 327-345 has no destructor.
`fate k` says what becomes of the k-th call of commit(): it may throw (composing the text, the message object or its
texts need memory, 277-283; logsystem.cpp 92) or kill the program (`log(Message*)` is noexcept and inserts into a deque,
logsystem.cpp 97-100).

Simplifications: those of Model/Logger; other threads do not change the general level while the fragment runs; the
constructors of AutoEnd and BlockEnd (copies of the file name) do not run out of memory.
-/
namespace Falcon.Logger
open Falcon.Log (Str Msg)

/-- Program fragments. `put` and `cat` are operands of the LOG statement around them. The operands and statements of
logger.h 265-352, 386-425. -/
inductive Prog where
  | skip
  | seq (a b : Prog)
  | put (p : Piece)                                             -- `<< p` in a LOG statement (393-400)
  | cat (c : Str)                                               -- `<< LOG_CAT(c)` (402-408)
  | log (file : Str) (line lvl : Int) (parts : Prog)            -- LOG(lvl) << ... (413)
  | block (file : Str) (line lvl : Int) (body : Prog)           -- LOG_BLOCK (422-425)
  | lput (p : Piece)                                            -- LOGGER << p
  | setCategory (c : Str)                                       -- 265-267
  | level (n : Int)                                             -- LogSystem::level
  | thrw (e : Nat)                                              -- an exception, in an operand or in a statement
  | tryc (body handler : Prog)                                  -- try { body } catch(...) { handler }
  deriving DecidableEq, Repr

/-- What becomes of a call of commit(), 277-287. -/
inductive Fate where
  | ok | throws | kills
  deriving DecidableEq, Repr

/-- How a fragment ends: normally, with an exception (`none`: std::bad_alloc out of commit()), with std::terminate.
Standard library and language; logger.h 277-287, 322. -/
inductive End where
  | done | threw (e : Option Nat) | dead
  deriving DecidableEq, Repr

/-- The general level, the thread's own members, the messages handed to the log system, how often commit() was
called. logger.h 375-384. -/
structure Ctx where
  level   : Int
  tls     : Tls := {}
  out     : List Msg := []
  commits : Nat := 0
  deriving DecidableEq, Repr

/-- commit() when nothing goes wrong: logger.h 277-287, 386-389; logsystem.cpp 88. -/
def Ctx.commit (s : Ctx) : Ctx :=
  { s with
    tls := { s.tls with temp := [], composer := [], bad := false }
    out := if s.tls.lvl > s.level then s.out
           else s.out ++ [{ file := s.tls.file, line := s.tls.line, level := s.tls.lvl,
                            cat := if s.tls.temp = [] then s.tls.category else s.tls.temp, text := s.tls.composer }]
    commits := s.commits + 1 }

/-- commit() that does not come to its end: nothing is emitted, nothing reset (284, 286 are not reached). -/
def Ctx.failed (s : Ctx) : Ctx := { s with commits := s.commits + 1 }

/-- Execution of a fragment; `act`: the LOG statement whose operands these are is enabled (m_obj is not null, 314-319).
`min` is FALCON_MIN_LOG_LEVEL. logger.h 265-352, 386-425. -/
def exec (min : Int) (fate : Nat → Fate) : Bool → Prog → Ctx → Ctx × End
  | _, .skip, s => (s, .done)
  | act, .seq a b, s => match exec min fate act a s with
    | (s, .done) => exec min fate act b s
    | r => r
  | act, .put p, s => (if act then { s with tls := insert s.tls p } else s, .done)
  | act, .cat c, s => (if act then { s with tls := { s.tls with temp := c } } else s, .done)
  | _, .log file line lvl parts, s =>
    if min ≥ lvl ∧ s.level ≥ lvl then                                       -- 314
      match exec min fate true parts { s with tls := locate s.tls file line lvl } with
      | (s, .dead) => (s, .dead)
      | (s, e) => match fate s.commits with                                 -- ~AutoEnd 322
        | .ok => (s.commit, e)
        | _   => (s.failed, .dead)
    else exec min fate false parts s
  | act, .block file line lvl body, s =>
    if min ≥ lvl ∧ s.level ≥ lvl then                                       -- 336, 424
      match exec min fate act body { s with tls := locate s.tls file line lvl } with
      | (s, .done) => match fate s.commits with                             -- complete() 343
        | .ok     => (s.commit, .done)
        | .throws => (s.failed, .threw none)
        | .kills  => (s.failed, .dead)
      | r => r
    else (s, .done)
  | _, .lput p, s => ({ s with tls := insert s.tls p }, .done)
  | _, .setCategory c, s => ({ s with tls := { s.tls with category := c } }, .done)
  | _, .level n, s => ({ s with level := n }, .done)
  | _, .thrw e, s => (s, .threw (some e))
  | act, .tryc body handler, s => match exec min fate act body s with
    | (s, .threw _) => exec min fate act handler s
    | r => r

end Falcon.Logger
