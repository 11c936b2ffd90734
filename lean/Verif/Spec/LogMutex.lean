import Verif.Model.LogMutex
import Verif.Spec.LogTrace
/- Vocabulary for the log system with explicit mutexes. -/
namespace Falcon.LogM
open Falcon.Log (Str Addr LId Msg Rx Lst Op Ev Stage Mtx LPc CPc St Loc Acc rd wr ard awr)

/-- The events that can be seen from outside. -/
def visible (es : List Ev) : List Ev := es.filter (fun e => e ≠ .tau)

/-- Nobody is changing what the mutex protects: it is free, or held by a client that only reads. -/
def Still (f : FSt) (x : Mtx) : Prop :=
  f.mtx x = none ∨ ∃ i, f.mtx x = some (some i) ∧ f.cl[i]? = some (.qHold x)

/-- The logging thread is between two messages, or asleep, or not there: where it is. -/
def between : FLt → Option LPc
  | .none => some .none
  | .top => some .top
  | .sleep w => some (.wait w)
  | .exited => some .exited
  | _ => none

/-- The state `f` of the program, seen by a thread that takes the mutexes the program takes, is the state `s`. -/
structure Agrees (f : FSt) (s : St) : Prop where
  level      : s.level = f.level
  queue      : s.queue = f.queue
  terminated : s.terminated = f.terminated
  pool       : s.pool = f.pool
  active     : s.active = f.active
  external   : s.external = f.external
  maxQ       : Still f .message → s.maxQ = f.maxQ
  pending    : Still f .listeners → s.pending = f.pending
  lst        : ∀ l, Still f (.category l) → s.lst l = f.lst l
  opts       : ∀ l, (s.lst l).enabled = (f.lst l).enabled ∧ (s.lst l).level = (f.lst l).level ∧ (s.lst l).detached = (f.lst l).detached
  clients    : s.cl.length = f.cl.length
  idle       : ∀ i : Nat, f.cl[i]? = some .idle → s.cl[i]? = some CPc.idle
  counters   : (∀ pc ∈ f.cl, pc = .idle) → ∀ p, between f.lt = some p →
                 s.lt = p ∧ s.mtxThread = none ∧ s.unpooled = f.unpooled ∧ s.destroyed = f.destroyed ∧ s.received = f.received ∧ s.heap = f.heap

/-- Thread `t` can make its next step. -/
def Moves (rx : Rx) (f : FSt) : Tid → Prop
  | some i => ∃ r, fstep rx f (.cli i) = some r
  | none   => ∃ r, fstep rx f .log = some r

/-! ### Memory accesses, step by step -/

/-- Accesses of a client's next step, logsystem.cpp 85-105, 214-226, 64-82, 137-143, 56-61, 262-273, logsystem.h 122-141. What getDiags reads
before it takes its first mutex (255-260) is not here: Props/LogRace.lean has it. -/
def fcli : FPc → List (Race.Access Loc Mtx)
  | .check _ => [ard .level]
  | .aTest _ => [rd .pool]
  | .aPop _ => [rd .pool, wr .pool]
  | .aInc _ _ => [awr .unpooled]
  | .construct _ a => [wr (.msg a)]
  | .ePush _ _ => [wr .queue]
  | .eMax => [rd .queue, rd .maxQ, wr .maxQ]
  | .sSet => [wr .terminated]
  | .sTTest => [rd .thread]
  | .sJoin => [rd .thread, wr .thread]
  | .lPush _ => [wr .pending]
  | .cRegex l _ => [wr (.lCategory l)]
  | .cText l _ => [wr (.lCategory l)]
  | .tTest => [rd .thread, wr .thread]
  | .qHold .message => [rd .maxQ]
  | .qHold .pool => [rd .pool]
  | .qHold .listeners => [rd .pending]
  | .qHold (.category l) => [rd (.lCategory l)]
  | _ => []

/-- Accesses of the logging thread's next step, logsystem.cpp 147-250. -/
def flog : FLt → List (Race.Access Loc Mtx)
  | .test _ => [rd .terminated, rd .queue]
  | .pop _ => [rd .queue, wr .queue]
  | .nCopy a => [rd (.msg a), rd .pending, rd .active, wr .active]
  | .nClear _ _ => [wr .pending]
  | .recv _ _ => [rd .received, wr .received]
  | .send a _ => [rd .active, rd (.msg a)]
  | .probe a l .enabled _ => [rd (.msg a), ard (.lEnabled l)]
  | .probe a l .level _ => [rd (.msg a), ard (.lLevel l)]
  | .probe a _ .category _ => [rd (.msg a)]
  | .probe a _ .call _ => [rd (.msg a)]
  | .cHold a l _ => [rd (.msg a), rd (.lCategory l)]
  | .clean _ _ (l :: _) => [rd .active, ard (.lDetached l), wr .active]
  | .clean _ _ [] => [wr .active]
  | .dTest _ => [rd .pool]
  | .dPush _ => [wr .pool]
  | .dInc _ => [awr .destroyed]
  | .dDel a => [wr (.msg a)]
  | _ => []

/-- Accesses of a call that is one step: level(n), enable, detach, level(n) of a listener. logsystem.h 143-163, 216. -/
def fcall : Op → List (Race.Access Loc Mtx)
  | .level _ => [awr .level]
  | .enable l _ => [awr (.lEnabled l)]
  | .detach l => [awr (.lDetached l)]
  | .llevel l _ => [awr (.lLevel l)]
  | _ => []

/-- Accesses of a step, and the thread that makes it. -/
def ffoot (f : FSt) : FAct → List (Race.Access Loc Mtx)
  | .call _ op => fcall op
  | .cli i     => match f.cl[i]? with | some pc => fcli pc | none => []
  | .log       => flog f.lt
  | _          => []

def FAct.thread : FAct → Tid
  | .call i _ | .diags i | .categ i _ | .cli i => some i
  | .log | .spurious => none

/-- Two states have the same contents at this location. -/
def FSame (f f' : FSt) : Loc → Prop
  | .level => f'.level = f.level
  | .unpooled => f'.unpooled = f.unpooled
  | .destroyed => f'.destroyed = f.destroyed
  | .maxQ => f'.maxQ = f.maxQ
  | .received => f'.received = f.received
  | .queue => f'.queue = f.queue
  | .terminated => f'.terminated = f.terminated
  | .pool => f'.pool = f.pool
  | .pending => f'.pending = f.pending
  | .active => f'.active = f.active
  | .thread => f'.lt = .none ↔ f.lt = .none
  | .lCategory l => (f'.lst l).category = (f.lst l).category ∧ (f'.lst l).regex = (f.lst l).regex
  | .lLevel l => (f'.lst l).level = (f.lst l).level
  | .lEnabled l => (f'.lst l).enabled = (f.lst l).enabled
  | .lDetached l => (f'.lst l).detached = (f.lst l).detached
  | .msg a => f'.heap a = f.heap a

/-- In both states every thread is at the same place, and every mutex has the same owner. -/
def FCtl (f f' : FSt) : Prop := f'.cl = f.cl ∧ f'.lt = f.lt ∧ f'.mtx = f.mtx ∧ f'.next = f.next

/-- Two threads are about to access one location, one of them writing, not both atomically. (No mutexes are mentioned: in a state in which both steps
are possible nothing orders them.) -/
def Conflict (rx : Rx) (f : FSt) (a a' : FAct) : Prop :=
  a.thread ≠ a'.thread ∧ fstep rx f a ≠ none ∧ fstep rx f a' ≠ none ∧
    ∃ x ∈ ffoot f a, ∃ y ∈ ffoot f a', x.loc = y.loc ∧ (x.write = true ∨ y.write = true) ∧ ¬ (x.atomic = true ∧ y.atomic = true)

end Falcon.LogM
