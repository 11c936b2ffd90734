import Verif.Model.LogMutex
/-
Listeners whose onMessage calls back into the log system (logsystem.h 168, logsystem.cpp 188-199), with every mutex operation a step.

As in Model/LogReact.lean the call of onMessage is spread out: after the step that enters it the logging thread makes any sequence of calls on the
log system and its listeners, interleaved with the other threads, and then returns or throws. Its calls are those of one more client, number `self`,
of Model/LogMutex.lean; the logging thread stays where it is until they are over.
-/
namespace Falcon.LogM
open Falcon.Log (Str Addr LId Msg Rx Lst Op Ev Stage Mtx)

/-- A call a listener can make: a modifying one, getDiags() or category(). logsystem.h 60-170, logsystem.cpp 253-274. -/
inductive Req where
  | op (o : Op)
  | diags
  | categ (l : LId)
  deriving DecidableEq, Repr

/-- The call, begun by thread `i`. Not in the code: a call of logsystem.cpp 56-274. -/
def Req.by (i : Nat) : Req → FAct
  | .op o => .call i o
  | .diags => .diags i
  | .categ l => .categ i l

/-- What one call of onMessage does: calls, then an exception or not. logsystem.h 168. -/
structure Doing where
  reqs   : List Req
  throws : Bool
  deriving DecidableEq, Repr

/-- The log system, what the running onMessage has still to do, and whether std::terminate has been called. logsystem.cpp 147-199. -/
structure FRst where
  base : FSt
  cur  : Option Doing
  dead : Bool

/-- Scheduler choices. `log d`: the logging thread moves; should the step enter onMessage, the listener does `d`. Not in the code: who executes
next in logsystem.cpp 56-274. -/
inductive FRAct where
  | req (i : Nat) (q : Req)
  | cli (i : Nat)
  | spurious
  | log (d : Doing)
  deriving DecidableEq, Repr

/-- A step of the log system itself. logsystem.cpp 56-274. -/
def via (rx : Rx) (r : FRst) (cur : Option Doing) (a : FAct) : Option (FRst × List Ev) :=
  match fstep rx r.base a with
  | none => none
  | some (f, e) => some ({ r with base := f, cur := cur }, e.toList)

/-- What begins with this event. logsystem.cpp 196. -/
def begins (d : Doing) : Option Ev → Option Doing
  | some (.deliver _ _) => some d
  | _ => none

/-- The logging thread inside onMessage: it goes on with the call it is in, begins the next one, returns to logsystem.cpp 196, or dies: by an exception
that meets `noexcept` (188), or by joining itself in stop() (74: join() throws std::system_error, stop() is `noexcept`). -/
def within (rx : Rx) (self : Nat) (r : FRst) (d : Doing) : Option (FRst × List Ev) :=
  match r.base.cl[self]? with
  | none => none
  | some .idle =>
    match d.reqs with
    | []      => if d.throws then some ({ r with dead := true }, []) else some ({ r with cur := none }, [])
    | q :: qs => via rx r (some { d with reqs := qs }) (q.by self)
  | some .sJoin => some ({ r with dead := true }, [])
  | some _ => via rx r (some d) (.cli self)

/-- One step; after std::terminate there is none. logsystem.cpp 56-274. -/
def frstep (rx : Rx) (self : Nat) (r : FRst) : FRAct → Option (FRst × List Ev)
  | .req i q  => if r.dead ∨ i = self then none else via rx r r.cur (q.by i)
  | .cli i    => if r.dead ∨ i = self then none else via rx r r.cur (.cli i)
  | .spurious => if r.dead then none else via rx r r.cur .spurious
  | .log d    =>
    if r.dead then none
    else match r.cur with
      | some cur => within rx self r cur
      | none     =>
        match fstep rx r.base .log with
        | none => none
        | some (f, e) => some ({ r with base := f, cur := begins d e }, e.toList)

/-- `n` threads, and the logging thread as client `n`. Constructor, logsystem.cpp 21-37. -/
def frinit (n : Nat) (term0 startNow : Bool) : FRst := { base := finit (n + 1) term0 startNow, cur := none, dead := false }

/-- Executions: the choices made and what was observed. Not in the code: a schedule of logsystem.cpp 56-274. -/
inductive FRExec (rx : Rx) (self : Nat) (r0 : FRst) : FRst → List FRAct → List Ev → Prop where
  | nil : FRExec rx self r0 r0 [] []
  | snoc {r r' as es a es'} : FRExec rx self r0 r as es → frstep rx self r a = some (r', es') → FRExec rx self r0 r' (as ++ [a]) (es ++ es')

end Falcon.LogM
