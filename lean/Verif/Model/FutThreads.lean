import Verif.Model.TestCase
/-
A FUT test that starts threads, and checks made in these threads: fut.h 54-125, testcase.cpp 142-159 and 209-236.

The test's own thread executes test(): it starts threads (std::thread), joins them and makes checks. A thread's function makes checks
as well: `this->checkFail(...)` of the same test case, followed by `return` from the thread's function for EXPECT_EQ and
its like (fut.h 54-93). Which checks fail is given with the check.

Simplifications: SetUp and TearDown do nothing, nothing is written to std::cerr, no thread is detached, threads start no
threads, `failDesc = ...; failDesc += ...` (testcase.cpp 144-149) is one access, as is the computation of the file name (153-157).
-/
namespace Falcon.FutThreads
open Falcon.Fut (Str Status Exc)

/-- A check with its result and what it reports. fut.h 54-125. -/
structure Chk where
  ok    : Bool
  stops : Bool        -- `return` follows: fut.h 59, 76, 84; not for FAIL and the exception checks, 95-125
  desc  : Str
  line  : Int
  file  : Str
  deriving DecidableEq, Repr

/-- Members of TestCase::Private that a failed check sets. testcase.cpp 34, 44-46. -/
inductive Field where
  | desc | line | file | status
  deriving DecidableEq, Repr

/-- One assignment to such a member. testcase.cpp 142-159. -/
inductive Wr where
  | desc (s : Str)
  | line (n : Int)
  | file (s : Str)
  | status (v : Status)
  deriving DecidableEq, Repr

/-- The member it sets. testcase.cpp 142-159. -/
def Wr.field : Wr → Field
  | .desc _   => .desc
  | .line _   => .line
  | .file _   => .file
  | .status _ => .status

/-- The members themselves. testcase.cpp 34, 44-46. -/
structure Rec where
  status : Status
  desc   : Str
  line   : Int
  file   : Str
  deriving DecidableEq, Repr

/-- An assignment. testcase.cpp 142-159. -/
def Rec.put (r : Rec) : Wr → Rec
  | .desc s   => { r with desc := s }
  | .line n   => { r with line := n }
  | .file s   => { r with file := s }
  | .status v => { r with status := v }

/-- TestCase::checkFail, testcase.cpp 142-159, one assignment after the other. -/
def Chk.writes (c : Chk) : List Wr := [.desc c.desc, .line c.line, .file c.file, .status .fail]

/-- A statement of a thread's function. fut.h 54-125, or an exception that leaves the function. -/
inductive TOp where
  | check (c : Chk)
  | throws
  deriving DecidableEq, Repr

/-- A statement of test(). fut.h 54-125; std::thread(f), std::thread::join. -/
inductive MOp where
  | check (c : Chk)
  | spawn (body : List TOp)
  | join (k : Nat)          -- the k-th thread started, from 0
  | throws (e : Exc)
  deriving DecidableEq, Repr

/-- A thread: assignments under way, statements to come. testcase.cpp 142-159. -/
structure Th where
  writes : List Wr
  todo   : List TOp
  deriving DecidableEq, Repr

/-- Where run() is. testcase.cpp 209-236. -/
inductive Phase where
  | test                       -- in test(), 216
  | leave (e : Option Exc)     -- test() has been left, 217-235 follow
  | done
  deriving DecidableEq, Repr

/-- testcase.cpp 28-49 and the threads. -/
structure St where
  phase  : Phase
  writes : List Wr             -- the test's own thread, inside checkFail
  todo   : List MOp
  ths    : List Th
  joined : List Nat
  r      : Rec
  dead   : Bool                -- std::terminate was called
  deriving DecidableEq, Repr

/-- `p->status = NONE` in run(), testcase.cpp 212. -/
def init (r : Rec) (prog : List MOp) : St :=
  { phase := .test, writes := [], todo := prog, ths := [], joined := [], r := { r with status := .none }, dead := false }

/-- What std::thread::join throws for a thread that cannot be joined (std::system_error), caught in testcase.cpp 225. -/
def sysError : Exc := .std "Invalid argument".toList

/-- Leaving test(), testcase.cpp 216: its std::thread objects are destroyed; one that was not joined terminates the program. -/
def leave (s : St) (e : Option Exc) : St :=
  if (List.range s.ths.length).all (fun k => s.joined.contains k) then { s with phase := .leave e, todo := [] } else { s with dead := true }

/-- The end of run(), testcase.cpp 219-235. -/
def conclude (r : Rec) : Option Exc → Rec
  | none              => if r.status = .none then { r with status := .success } else r
  | some (.std what)  => { r with status := .error, desc := what }
  | some .other       => { r with status := .error, desc := Fut.txtUncaught }

/-- A step of the test's own thread; `none`: it has to wait, or has ended. testcase.cpp 142-159, 209-236. -/
def stepMain (s : St) : Option St :=
  match s.phase with
  | .done    => none
  | .leave e => some { s with phase := .done, r := conclude s.r e }
  | .test    =>
    match s.writes with
    | w :: ws => some { s with writes := ws, r := s.r.put w }
    | []      =>
      match s.todo with
      | []             => some (leave s none)
      | .throws e :: _ => some (leave s (some e))
      | .check c :: r  =>
        if c.ok = true then some { s with todo := r }
        else some { s with writes := c.writes, todo := if c.stops = true then [] else r }
      | .spawn b :: r  => some { s with todo := r, ths := s.ths ++ [⟨[], b⟩] }
      | .join k :: r   =>
        if s.joined.contains k = true then some (leave s (some sysError)) else
        match s.ths[k]? with
        | none   => some (leave s (some sysError))
        | some t => if t.writes = [] ∧ t.todo = [] then some { s with todo := r, joined := k :: s.joined } else none

/-- A step of thread `k`. testcase.cpp 142-159. -/
def stepTh (s : St) (k : Nat) : Option St :=
  match s.ths[k]? with
  | none   => none
  | some t =>
    match t.writes with
    | w :: ws => some { s with ths := s.ths.set k { t with writes := ws }, r := s.r.put w }
    | []      =>
      match t.todo with
      | []           => none
      | .throws :: _ => some { s with dead := true }
      | .check c :: r =>
        if c.ok = true then some { s with ths := s.ths.set k { t with todo := r } }
        else some { s with ths := s.ths.set k ⟨c.writes, if c.stops = true then [] else r⟩ }

/-- One step: `none` is the test's own thread. testcase.cpp 142-159, 209-236. -/
def step (s : St) (a : Option Nat) : Option St :=
  if s.dead = true then none else
  match a with
  | none   => stepMain s
  | some k => stepTh s k

/-- A schedule. Not in the code: the scheduler, for testcase.cpp 209-236. -/
def run (s : St) : List (Option Nat) → Option St
  | []      => some s
  | a :: as => match step s a with
    | none    => none
    | some s' => run s' as

end Falcon.FutThreads
