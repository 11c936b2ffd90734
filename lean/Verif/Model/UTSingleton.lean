import Verif.Spec.DataRace
/-
UnitTest::singleton() called by several threads: src/fut/unittest.cpp 270-277. The static pointer is a plain variable that is zero
from the start (constant initialisation), so there is no guard: it is read, a runner made if it is null, written, and read again.

Simplification: reads and writes of the pointer take effect one at a time, in the order of the steps; where they are data races the
real program may do anything (`Clashes` says when they are).
-/
namespace Falcon.UTS

/-- Where a thread is in singleton(). unittest.cpp 270-277. -/
inductive Pc where
  | out
  | test                -- about to read the pointer, 272
  | make                -- found null, about to make a runner, 273
  | store (u : Nat)     -- about to store it, 273
  | read                -- about to read what is returned, 276
  deriving DecidableEq, Repr

/-- What can be seen. Not in the code: ghost record of the calls of unittest.cpp 270-277. -/
inductive Ev where
  | called (i : Nat)
  | made (i u : Nat)
  | returned (i : Nat) (u : Option Nat)
  deriving DecidableEq, Repr

/-- The static pointer of unittest.cpp 271 and the threads. -/
structure St where
  ptr  : Option Nat := none
  next : Nat := 0
  pc   : Nat → Pc := fun _ => .out

/-- Not in the code: a step of thread i. -/
def setPc (s : St) (i : Nat) (p : Pc) : St := { s with pc := fun j => if j = i then p else s.pc j }

/-- The next step of thread i, which calls singleton() again and again. unittest.cpp 270-277. -/
def step (s : St) (i : Nat) : St × List Ev :=
  match s.pc i with
  | .out => (setPc s i .test, [.called i])
  | .test => if s.ptr = none then (setPc s i .make, []) else (setPc s i .read, [])        -- 272
  | .make => (setPc { s with next := s.next + 1 } i (.store s.next), [.made i s.next])     -- 273
  | .store u => (setPc { s with ptr := some u } i .read, [])                               -- 273
  | .read => (setPc s i .out, [.returned i s.ptr])                                         -- 276

/-- A schedule: which thread makes the next step. Not in the code. -/
def run (s : St) : List Nat → St × List Ev
  | [] => (s, [])
  | i :: is => let (s', es) := step s i; let (s'', es') := run s' is; (s'', es ++ es')

/-- The access to the pointer thread i is about to make (there is one location, and no mutex). unittest.cpp 272, 273, 276. -/
def access (s : St) (i : Nat) : List (Race.Access Unit Unit) :=
  match s.pc i with
  | .test | .read => [⟨(), false, false, []⟩]
  | .store _ => [⟨(), true, false, []⟩]
  | _ => []

end Falcon.UTS
