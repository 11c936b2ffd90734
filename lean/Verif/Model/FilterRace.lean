import Verif.Model.Logger
import Verif.Spec.DataRace
/-
Model of Logger::categoryFilter and clearFilter beside other threads: src/engine/logger.cpp 34-52, logger.h 245-248,
375-377, logsystem.h 105-176, 207-221, 266-291.

One thread calls categoryFilter and clearFilter; each is a sequence of small steps, since the general level, the level and
the detached mark of a listener are atomics, and the list of listeners is guarded by a mutex.  Between any two of them the
other threads may call `level(n)` and `defaultListener()->level(n)`, one atomic write each, and the log thread may look.

Simplifications: those of the filter part of Model/Logger (memory does not run out; a listener added counts from then on).
-/
namespace Falcon.FilterRace
open Falcon.Log (Str Rx LId Lst setLst)
open Falcon.Logger (Fs FOp detachIf finit)

/-- A call by another thread: LogSystem::level 218, Listener::level 160 on defaultListener() (logger.h 261-263). -/
inductive Env where
  | level (n : Int)
  | dflt (n : Int)
  deriving DecidableEq, Repr

/-- The atomic write it makes, logsystem.h 160, 218. -/
def Env.on : Env → Fs → Fs
  | .level n, s => { s with level := n }
  | .dflt n, s  => { s with lst := setLst s.lst 0 { s.lst 0 with level := n } }

/-- Where the filter thread is. logger.cpp 34-52. -/
inductive Pc where
  | idle
  | read (re : Str) (l : Int)        -- before 38
  | raise (re : Str) (l : Int)       -- before 39
  | create (re : Str) (l : Int)      -- before 42
  | express (re : Str) (l : Int)     -- before 43
  | limit (l : Int)                  -- before 44
  | enlist                           -- before 45
  | restore                          -- before 51
  deriving DecidableEq, Repr

/-- The Logger, the filter thread, and (not in the code) which calls it made so far and how they ended (what was thrown).
logger.cpp 34-52. -/
structure St where
  fs   : Fs
  pc   : Pc := .idle
  made : List FOp := []
  res  : List (Option Exn) := []

/-- What can happen next: the filter thread enters a call, makes a step in it, or another thread makes a call.
A move that is not possible is not made. Not in the code: a schedule for logger.cpp 34-52. -/
inductive Move where
  | filter (re : Str) (l : Int)
  | clear
  | go
  | env (e : Env)
  deriving DecidableEq, Repr

/-- A step in a call, logger.cpp 38-45, 51. `m_proxy->` dereferences the pointer. -/
def go (rx : Rx) (s : St) : Res St :=
  match s.pc with
  | .idle         => .ok s
  | .read re l    => .ok { s with fs := { s.fs with base := s.fs.level }, pc := .raise re l }                     -- 38
  | .raise re l   => .ok { s with fs := if l > s.fs.base then { s.fs with level := l } else s.fs,                 -- 39-41
                                  pc := .create re l }
  | .create re l  => .ok { s with fs := { s.fs with proxy := some s.fs.next, next := s.fs.next + 1,               -- 42
                                                    lst := setLst s.fs.lst s.fs.next {} }, pc := .express re l }
  | .express re l => match s.fs.proxy with                                                                         -- 43
    | none   => .error (.ub .nullDeref)
    | some p => match Falcon.Log.setCategory rx (s.fs.lst p) re with
      | .error x => .ok { s with pc := .idle, res := s.res ++ [some x] }
      | .ok v    => .ok { s with fs := { s.fs with lst := setLst s.fs.lst p v }, pc := .limit l }
  | .limit l      => match s.fs.proxy with                                                                         -- 44
    | none   => .error (.ub .nullDeref)
    | some p => .ok { s with fs := { s.fs with lst := setLst s.fs.lst p { s.fs.lst p with level := l } }, pc := .enlist }
  | .enlist       => match s.fs.proxy with                                                                         -- 45
    | none   => .error (.ub .nullDeref)
    | some p => .ok { s with fs := { s.fs with regs := s.fs.regs ++ [p] }, pc := .idle, res := s.res ++ [none] }
  | .restore      => .ok { s with fs := { s.fs with level := s.fs.base }, pc := .idle, res := s.res ++ [none] }    -- 51

/-- One move. Entering a call includes its first step, the detach of 35-37 or 50. logger.cpp 34-52. -/
def move (rx : Rx) (s : St) : Move → Res St
  | .filter re l => match s.pc with
    | .idle => .ok { s with fs := detachIf s.fs s.fs.proxy, pc := .read re l, made := s.made ++ [.filter re l] }    -- 35-37
    | _     => .ok s
  | .clear => match s.pc with
    | .idle => match s.fs.proxy with
      | none   => .error (.ub .nullDeref)
      | some p => .ok { s with fs := detachIf s.fs (some p), pc := .restore, made := s.made ++ [.clear] }       -- 50
    | _     => .ok s
  | .go    => go rx s
  | .env e => .ok { s with fs := e.on s.fs }

/-- Not in the code: a schedule of the threads that use logger.cpp 34-52. -/
def run (rx : Rx) (s : St) : List Move → Res St
  | []      => .ok s
  | m :: ms => move rx s m >>= fun s' => run rx s' ms

/-- What the calls share, and the mutexes: logger.h 375-377, logsystem.h 171-176, 266, 291. -/
inductive Loc where
  | level | dfltPtr | proxyPtr | base | lstLevel (k : LId) | detached (k : LId) | category (k : LId) | pending
  deriving DecidableEq, Repr
inductive Mtx where
  | category (k : LId) | listeners
  deriving DecidableEq, Repr

abbrev Access := Falcon.Race.Access Loc Mtx

/-- Every access a call makes to members of the Logger and of the listeners that another thread can reach; `p` is the proxy
m_proxy points to when it begins, `q` the one categoryFilter makes (which it alone knows until 45, but which the next call
of any thread finds in m_proxy). logger.cpp 34-52, logsystem.h 122-134, 149, 160, 218-221, logsystem.cpp 137-143. -/
def accesses (p q : LId) : FOp → List Access
  | .filter _ _ =>
    [⟨.proxyPtr, false, false, []⟩, ⟨.detached p, true, true, []⟩,               -- 35-37
     ⟨.level, false, true, []⟩, ⟨.base, true, false, []⟩,                        -- 38
     ⟨.base, false, false, []⟩, ⟨.level, true, true, []⟩,                        -- 39-41
     ⟨.dfltPtr, false, false, []⟩, ⟨.proxyPtr, true, false, []⟩,                 -- 42
     ⟨.category q, true, false, [.category q]⟩,                                  -- 43
     ⟨.lstLevel q, true, true, []⟩,                                              -- 44
     ⟨.pending, true, false, [.listeners]⟩]                                      -- 45
  | .clear =>
    [⟨.proxyPtr, false, false, []⟩, ⟨.detached p, true, true, []⟩,               -- 50
     ⟨.base, false, false, []⟩, ⟨.level, true, true, []⟩]                        -- 51
  | .level _ => [⟨.level, true, true, []⟩]
  | .dflt _  => [⟨.dfltPtr, false, false, []⟩, ⟨.lstLevel 0, true, true, []⟩]

end Falcon.FilterRace
