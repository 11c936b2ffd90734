import Verif.Basic
/-
Life of the global objects of a program that uses this library, from the initialisation of the first
static object to the end of exit():

* `Singleton<T>::get` (src/include/falcon/singleton.h 31-34) and `Logger::instance` (src/include/falcon/logger.h 256-259)
  hold a function-local static: built when control first reaches it, destroyed at exit;
* `UnitTest::singleton` (src/fut/unittest.cpp 270-277) keeps a pointer to an object made by `new` and never deleted;
* the pieces of a log entry are kept in thread-local objects (src/engine/logger.cpp 22-27), which the statements
  of logger.h 290-325, 344-348 use.

Part of the model is what C++ says of such objects: [basic.start.dynamic], [basic.start.term], [stmt.dcl]/4: static objects
are destroyed in the reverse order in which their constructors completed, one completed during exit next; the main
thread's thread-local objects before all of them; entering a function-local static while it is being built, or after it was
destroyed, is undefined, as is using a destroyed thread-local object. Simplified: one thread; constructors and
destructors do not throw; a `using` of a singleton in a constructor or destructor is unconditional.
-/
namespace Falcon.Lifetime

/-- What is reached from a constructor, a destructor or main.
`single k`: the instance of the k-th singleton class, singleton.h 31-55, logger.h 256-259, unittest.cpp 270-277.
`compose`: the calling thread's message parts, logger.cpp 22-27, through logger.h 264-325, 344-348. -/
inductive Use where
  | single (k : Nat)
  | compose
  deriving DecidableEq, Repr

/-- A global object: the i-th object with a static storage duration of the user, or the instance of singleton
class k (singleton.h 32, logger.h 257, unittest.cpp 273). -/
inductive Obj where
  | user (i : Nat)
  | inst (k : Nat)
  deriving DecidableEq, Repr

/-- The program around singleton.h 31-34, logger.h 256-259 and unittest.cpp 270-277: the static objects in the order in which
they are initialised, what the constructor and destructor of every object do, what main does, and which singleton classes
are held by a pointer to an object from `new` (unittest.cpp 271-274). -/
structure Prog where
  statics : List Nat
  ctor    : Obj → List Use
  dtor    : Obj → List Use
  main    : List Use
  leaked  : Nat → Bool

/-- A function under execution: the constructor of a global object (singleton.h 32, logger.h 257, unittest.cpp 273), main, or the
destructor of one. -/
inductive Job where
  | make (o : Obj)
  | main
  | kill (o : Obj)
  deriving DecidableEq, Repr

/-- Not in the code: a function under execution and the uses still to come in it, while singleton.h 32 and logger.h 257 are entered. -/
structure Frame where
  job  : Job
  rest : List Use
  deriving DecidableEq, Repr

/-- The main thread's message parts, logger.cpp 22-27: not created yet, usable, destroyed. -/
inductive Locals where
  | none | alive | dead
  deriving DecidableEq, Repr

/-- What can be seen: an object's constructor completed, a singleton instance or the message parts were used, an object's destructor
began. Not in the code: record of the uses of singleton.h 31-34, logger.h 256-259. -/
inductive Ev where
  | made (o : Obj)
  | used (k : Nat)
  | composed
  | killed (o : Obj)
  deriving DecidableEq, Repr

/-- Not in the code: the run-time's knowledge of the statics of singleton.h 32, logger.h 257, unittest.cpp 271 and logger.cpp 22-27. -/
structure St where
  stack  : List Frame := []
  todo   : List Nat            -- static objects not yet begun
  mained : Bool := false       -- main was called
  built  : List Obj := []      -- to be destroyed, next first
  kept   : List Nat := []      -- built by `new`
  dead   : List Obj := []
  locals : Locals := .none
  tr     : List Ev := []
  deriving DecidableEq, Repr

/-- Before the first static object is initialised. -/
def Prog.start (P : Prog) : St := { todo := P.statics }

/-- Whether the constructor of `o` is under execution: the guard of singleton.h 32, logger.h 257. -/
def St.making (s : St) (o : Obj) : Bool := s.stack.any (fun f => f.job == .make o)

/-- Reaching the instance of singleton class k: singleton.h 31-34, logger.h 256-259, unittest.cpp 270-277. `go` is the stack once the
use is done. -/
def reach (P : Prog) (s : St) (k : Nat) (go : List Frame) : Except UB St :=
  if Obj.inst k ∈ s.built ∨ k ∈ s.kept then .ok { s with stack := go, tr := s.tr ++ [.used k] }
  else if Obj.inst k ∈ s.dead then .error .useAfterFree
  else if s.making (.inst k) then .error .uninitRead
  else .ok { s with stack := ⟨.make (.inst k), P.ctor (.inst k)⟩ :: s.stack }

/-- Using the message parts: logger.cpp 22-27, created at their first use. -/
def compose (s : St) (go : List Frame) : Except UB St :=
  if s.locals = .dead then .error .useAfterFree else .ok { s with stack := go, locals := .alive, tr := s.tr ++ [.composed] }

/-- A use, singleton.h 31-34, logger.h 256-325, unittest.cpp 270-277. -/
def use (P : Prog) (s : St) (u : Use) (go : List Frame) : Except UB St :=
  match u with
  | .single k => reach P s k go
  | .compose => compose s go

/-- The constructor of `o` has completed: singleton.h 32, logger.h 257; unittest.cpp 273 (nothing will destroy it). -/
def complete (P : Prog) (s : St) (o : Obj) (go : List Frame) : St :=
  match o with
  | .inst k =>
    if P.leaked k then { s with stack := go, kept := k :: s.kept, tr := s.tr ++ [.made o] }
    else { s with stack := go, built := o :: s.built, tr := s.tr ++ [.made o] }
  | .user _ => { s with stack := go, built := o :: s.built, tr := s.tr ++ [.made o] }

/-- With no function under execution: initialise the next static object, or call main, or destroy the next object. `none`: the process
has ended. Around singleton.h 32, logger.h 257. -/
def next (P : Prog) (s : St) : Option St :=
  match s.todo with
  | i :: is => some { s with stack := [⟨.make (.user i), P.ctor (.user i)⟩], todo := is }
  | [] =>
    if s.mained = false then some { s with stack := [⟨.main, P.main⟩], mained := true }
    else match s.built with
      | o :: bs => some { s with stack := [⟨.kill o, P.dtor o⟩], built := bs, dead := o :: s.dead, tr := s.tr ++ [.killed o] }
      | [] => none

/-- A function returns: a constructor completes; after main the main thread's message parts (logger.cpp 22-27) are destroyed; a
destructor ends. -/
def finish (P : Prog) (s : St) (j : Job) (go : List Frame) : St :=
  match j with
  | .make o => complete P s o go
  | .main => { s with stack := go, locals := if s.locals = .alive then .dead else s.locals }
  | .kill _ => { s with stack := go }

/-- One step of the process: singleton.h 31-34, logger.h 256-325, logger.cpp 22-27, unittest.cpp 270-277. `none`: ended. -/
def step (P : Prog) (s : St) : Option (Except UB St) :=
  match s.stack with
  | [] => (next P s).map .ok
  | ⟨j, []⟩ :: fs => some (.ok (finish P s j fs))
  | ⟨j, u :: us⟩ :: fs => some (use P s u (⟨j, us⟩ :: fs))

/-- Not in the code: outcome of the first `n` steps around singleton.h 31-34, logger.h 256-259: undefined behaviour, still running, or ended. -/
inductive Outcome where
  | wrong (u : UB)
  | running (s : St)
  | ended (s : St)
  deriving DecidableEq, Repr

/-- Not in the code: the process around singleton.h 31-34, logger.h 256-259. -/
def run (P : Prog) : Nat → St → Outcome
  | 0, s => .running s
  | n + 1, s =>
    match step P s with
    | none => .ended s
    | some (.error u) => .wrong u
    | some (.ok s') => run P n s'

end Falcon.Lifetime
