import Verif.Model.LogSystem
/-
Listeners whose onMessage calls back into the log system, or throws
(logsystem.h 168, logsystem.cpp 147-199).

Model/LogSystem.lean takes `listener->onMessage(*msg)` as one step.  Here the call is spread out:
after the step that enters onMessage the logging thread performs any sequence of calls on the log
system and on its listeners, interleaved with the other threads, and then returns or throws.  The
calls are those of one more client of the base model, number `self`; the logging thread itself
stays where it is until they are over.

* no lock is held around onMessage (196), so the calls take the locks they need as any thread does;
* an exception leaving onMessage meets `noexcept` (188, 147): std::terminate;
* join() called by the thread that is to be joined throws std::system_error
  (resource_deadlock_would_occur); stop() is `noexcept` (64): std::terminate.
-/
namespace Falcon.Log

/-- What one call of onMessage does: calls, then an exception or not. logsystem.h 168. -/
structure Reaction where
  ops    : List Op
  throws : Bool
  deriving DecidableEq, Repr

/-- State of the program: the log system, what the running onMessage has still to do, and whether
std::terminate has been called. logsystem.cpp 147-199. -/
structure RSt where
  base : St
  cur  : Option Reaction
  dead : Bool

/-- Scheduler choices. `log r`: the logging thread moves; should the step enter onMessage, the
listener does `r`. Not in the code: which thread executes next in logsystem.cpp 56-240. -/
inductive RAct where
  | call (i : Nat) (op : Op)
  | cli (i : Nat)
  | spurious
  | log (r : Reaction)
  deriving DecidableEq, Repr

/-- A step of the log system itself. logsystem.cpp 56-240. -/
def viaBase (rx : Rx) (r : RSt) (cur : Option Reaction) (a : Act) : Option (RSt × List Ev) :=
  match step rx r.base a with
  | none => none
  | some (s', e) => some ({ r with base := s', cur := cur }, [e])

/-- Which reaction begins with this event. logsystem.cpp 196. -/
def enters (re : Reaction) : Ev → Option Reaction
  | .deliver _ _ => some re
  | _            => none

/-- The logging thread inside onMessage: it goes on with the call it is in, begins the next one,
returns to logsystem.cpp 196, or dies. `self` is its number as a client. -/
def inside (rx : Rx) (self : Nat) (r : RSt) (re : Reaction) : Option (RSt × List Ev) :=
  match r.base.cl[self]? with
  | none => none
  | some .idle =>
    match re.ops with
    | []        => if re.throws then some ({ r with dead := true }, []) else some ({ r with cur := none }, [])
    | op :: ops => viaBase rx r (some { re with ops := ops }) (.call self op)
  | some .stopJoin => some ({ r with dead := true }, [])        -- joins itself
  | some _ => viaBase rx r (some re) (.cli self)

/-- One step. After std::terminate there is none. logsystem.cpp 56-240. -/
def rstep (rx : Rx) (self : Nat) (r : RSt) : RAct → Option (RSt × List Ev)
  | .call i op => if r.dead ∨ i = self then none else viaBase rx r r.cur (.call i op)
  | .cli i     => if r.dead ∨ i = self then none else viaBase rx r r.cur (.cli i)
  | .spurious  => if r.dead then none else viaBase rx r r.cur .spurious
  | .log re    =>
    if r.dead then none
    else match r.cur with
      | some cur => inside rx self r cur
      | none     =>
        match step rx r.base .log with
        | none => none
        | some (s', e) => some ({ r with base := s', cur := enters re e }, [e])

/-- `n` threads, and the logging thread as client `n`. Constructor, logsystem.cpp 21-37. -/
def rinit (n : Nat) (term0 startNow : Bool) : RSt :=
  { base := init (n + 1) term0 startNow, cur := none, dead := false }

/-- Executions: the choices made and what was observed. Not in the code: a schedule of
logsystem.cpp 56-240. -/
inductive RExec (rx : Rx) (self : Nat) (r0 : RSt) : RSt → List RAct → List Ev → Prop where
  | nil : RExec rx self r0 r0 [] []
  | snoc {r r' as es a es'} : RExec rx self r0 r as es → rstep rx self r a = some (r', es') →
      RExec rx self r0 r' (as ++ [a]) (es ++ es')

end Falcon.Log
