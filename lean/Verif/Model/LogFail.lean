import Verif.Model.LogSystem
/-
The log system when memory runs out (logsystem.h, logsystem.cpp), or when matching a regular
expression gives up (std::regex_error, error_complexity / error_stack).

Any step of Model/LogSystem.lean that allocates may fail instead.  The exception reaches the caller, or
a `noexcept` function, where std::terminate is called.

Left out: the constructor of LogSystem itself, a failing join(), and allocations of the caller.
-/
namespace Falcon.Log

/-- `lost`: storage of Message objects nobody knows any more: the constructor of 92 threw, and the
storage belongs neither to pool nor to queue. `phantom` counts the messages 224 counted and 225 could
not make. `dead`: std::terminate was called. logsystem.cpp 56-250. -/
structure FSt where
  base    : St
  lost    : List Addr := []
  phantom : Nat := 0
  dead    : Bool := false

/-- What is observed: an event of the system, an exception thrown to client `i`, or the end.
Not in the code: effects of logsystem.cpp 56-250. -/
inductive FEv where
  | ev (e : Ev)
  | badAlloc (i : Nat) (op : Option Op)     -- `some op`: of a call that is one step
  | terminate
  deriving DecidableEq, Repr

/-- Scheduler choices: a step succeeds, or fails at its first allocation, or at its second.
Not in the code: which thread executes next in logsystem.cpp 56-250. -/
inductive FAct where
  | ok (a : Act)
  | fail (a : Act)
  | failLate (a : Act)
  deriving DecidableEq, Repr

/-- A call fails as it begins: push_back in addListener 140; the std::regex of logsystem.h 127; the
thread object of 59. -/
def failCall (rx : Rx) (f : FSt) (i : Nat) : Op → Option (FSt × FEv)
  | .addListener l => some (f, .badAlloc i (some (.addListener l)))
  | .category l re => if rx.valid re then some (f, .badAlloc i (some (.category l re))) else none
  | .start =>
    match f.base.mtxThread, f.base.lt with
    | none, .none => some (f, .badAlloc i (some .start))
    | _, _        => none
  | _ => none

/-- A call fails on its way: `new Message` 225, after the counter was raised 224; the constructor of
the message 92; push_back 100, in a `noexcept` function 97; the caller's own `new`. -/
def failCli (f : FSt) (i : Nat) : CPc → Option (FSt × FEv)
  | .alloc _ =>
    if f.base.pool = [] then
      some ({ f with base := { f.base with unpooled := f.base.unpooled + 1, cl := f.base.cl.set i .idle }, phantom := f.phantom + 1 },
            .badAlloc i none)
    else none
  | .construct _ a =>
    some ({ f with base := { f.base with heap := setHeap f.base.heap a none, cl := f.base.cl.set i .idle }, lost := f.lost ++ [a] },
          .badAlloc i none)
  | .extNew _ => some ({ f with base := { f.base with cl := f.base.cl.set i .idle } }, .badAlloc i none)
  | .enqueue _ _ => some ({ f with dead := true }, .terminate)
  | _ => none

/-- The logging thread fails: push_back in processNewListeners 183, `noexcept` 180; regex_match 209,
`noexcept` 201; push_back in disposeMsg 234, `noexcept` 229. -/
def failLog (f : FSt) : Option (FSt × FEv) :=
  match f.base.lt with
  | .got _ => if f.base.pending = [] then none else some ({ f with dead := true }, .terminate)
  | .test a l .category _ =>
    match f.base.heap a with
    | some m => if m.cat = [] ∨ (f.base.lst l).category = [] then none else some ({ f with dead := true }, .terminate)
    | none   => none
  | .dispose _ => if f.base.pool.length < threshold then some ({ f with dead := true }, .terminate) else none
  | _ => none

/-- One step. logsystem.cpp 56-250. Late failure: category(), logsystem.h 127-128, has replaced the
compiled expression when copying its text fails. -/
def fstep (rx : Rx) (f : FSt) : FAct → Option (FSt × FEv)
  | .ok a =>
    if f.dead then none
    else match step rx f.base a with
      | none => none
      | some (s', e) => some ({ f with base := s' }, .ev e)
  | .fail a =>
    if f.dead then none
    else match a with
      | .call i op => match f.base.cl[i]? with
        | some .idle => failCall rx f i op
        | _          => none
      | .cli i => match f.base.cl[i]? with
        | some pc => failCli f i pc
        | none    => none
      | .log => failLog f
      | .spurious => none
  | .failLate (.call i (.category l re)) =>
    if f.dead then none
    else match f.base.cl[i]? with
      | some .idle =>
        if rx.valid re then
          some ({ f with base := { f.base with lst := setLst f.base.lst l { f.base.lst l with regex := some re } } },
                .badAlloc i (some (.category l re)))
        else none
      | _ => none
  | .failLate _ => none

/-- Executions. Not in the code: a schedule of logsystem.cpp 56-250. -/
inductive FExec (rx : Rx) (f0 : FSt) : FSt → List FEv → Prop where
  | nil : FExec rx f0 f0 []
  | snoc {f f' es a e} : FExec rx f0 f es → fstep rx f a = some (f', e) → FExec rx f0 f' (es ++ [e])

/-- The constructor, logsystem.cpp 21-37. -/
def finit (n : Nat) (term0 startNow : Bool) : FSt := { base := init n term0 startNow }

end Falcon.Log
