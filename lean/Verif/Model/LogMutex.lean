import Verif.Model.LogRace
/-
`falcon::LogSystem` once more (logsystem.h, logsystem.cpp), with every mutex explicit: to take a
mutex, what is done while it is held (assignment by assignment), and to release it are separate
steps, between which any other thread may move. Model/LogSystem.lean has a critical section as one
step; Props/LogMutex.lean shows that this is justified.

Simplifications, besides those of Model/LogSystem.lean about std::regex, failing allocations and
onMessage(): `new Message` (225) is entered in the heap when the pool has been found empty, not one
step later (nobody else knows the object); `join(); delete; m_logThread = 0` (79-81) is one step (it
is done with m_mtxThread held).
-/
namespace Falcon.LogM
open Falcon.Log (Str Addr LId Msg Rx Lst Op Ev Stage Mtx LPc CPc setHeap setLst threshold checkCategory)

/-- Which thread: a client, or (`none`) the logging thread. logsystem.cpp 56-274. -/
abbrev Tid := Option Nat

/-- Where a client is in its call; the comments give the line to be executed next (logsystem.cpp unless said otherwise). -/
inductive FPc where
  | idle
  | check (m : Msg)                    -- 88
  | aLock (m : Msg)                    -- 217
  | aTest (m : Msg)                    -- 218
  | aPop (m : Msg)                     -- 219-220
  | aUnlock (m : Msg) (a : Addr)       -- 221
  | aUnlockE (m : Msg) (a : Addr)      -- 223
  | aInc (m : Msg) (a : Addr)          -- 224
  | construct (m : Msg) (a : Addr)     -- 92
  | extNew (m : Msg)                   -- the caller's own `new Message`
  | eLock (m : Msg) (a : Addr)         -- 99
  | ePush (m : Msg) (a : Addr)         -- 100
  | eMax                               -- 101-103
  | eNotify                            -- 104
  | eUnlock                            -- 105
  | sLock | sSet | sUnlock | sNotify   -- 66, 67, 68, 69
  | sTLock | sTTest | sJoin | sTUnlock -- 73, 74, 79-81, 75 and 82
  | lLock (l : LId) | lPush (l : LId) | lUnlock                  -- 139, 140, 143
  | cLock (l : LId) (re : Str)         -- logsystem.h 124
  | cRegex (l : LId) (re : Str)        -- logsystem.h 127
  | cText (l : LId) (re : Str)         -- logsystem.h 128
  | cUnlock (l : LId)                  -- logsystem.h 133
  | tLock | tTest | tUnlock            -- 57, 58-60, 61
  | qLock (x : Mtx) | qHold (x : Mtx)  -- 263, 267, 271 and 264, 268, 272; logsystem.h 139 and 140
  deriving DecidableEq, Repr

/-- Where the logging thread is (`none`: `m_logThread == 0`). `w`: it was asleep before. logsystem.cpp 147-250. -/
inductive FLt where
  | none
  | top                                        -- 150
  | test (w : Bool)                            -- 152
  | sleep (notified : Bool)                    -- inside wait, 151
  | pop (w : Bool)                             -- 162-163
  | taken (a : Addr)                           -- 164
  | exit                                       -- 159, the mutex still held
  | got (a : Addr)                             -- 182
  | nCopy (a : Addr)                           -- 183-184
  | nClear (a : Addr) (ls : List LId)          -- 185
  | nUnlock (a : Addr) (ls : List LId)         -- 186
  | recv (a : Addr) (ls : List LId)            -- 190
  | send (a : Addr) (rem : List LId)           -- 191
  | probe (a : Addr) (l : LId) (st : Stage) (rem : List LId)  -- 192, 193, 194 (203-204), 196
  | cHold (a : Addr) (l : LId) (rem : List LId)               -- 205-209
  | cUnl (a : Addr) (l : LId) (b : Bool) (rem : List LId)     -- 210
  | clean (a : Addr) (kept rest : List LId)    -- 245-248
  | disp (a : Addr)                            -- 232
  | dTest (a : Addr)                           -- 233
  | dPush (a : Addr)                           -- 234
  | dUnl                                       -- 235
  | dUnlF (a : Addr)                           -- 237
  | dInc (a : Addr)                            -- 238
  | dDel (a : Addr)                            -- 239
  | exited
  deriving DecidableEq, Repr

/-- Data members (logsystem.h 266-291, 170-177), the mutexes with their owners, the heap of Message objects, the threads. -/
structure FSt where
  level      : Int
  unpooled   : Nat
  destroyed  : Nat
  maxQ       : Nat
  received   : Nat
  queue      : List Addr
  terminated : Bool
  pool       : List Addr
  pending    : List LId
  active     : List LId
  mtx        : Mtx → Option Tid
  lt         : FLt
  cl         : List FPc
  lst        : LId → Lst
  heap       : Addr → Option Msg
  next       : Addr
  external   : Nat

/-- The constructor 21-37, as `Falcon.Log.init`. -/
def finit (n : Nat) (term0 startNow : Bool) : FSt :=
  { level := 5, unpooled := 0, destroyed := 0, maxQ := 0, received := 0,
    queue := [], terminated := term0, pool := List.range threshold, pending := [], active := [],
    mtx := fun _ => none, lt := if startNow then .top else .none, cl := List.replicate n .idle,
    lst := fun _ => {}, heap := fun a => if a < threshold then some Msg.default else none,
    next := threshold, external := 0 }

/-- A mutex changes hands: the lock_guards and lock()/unlock() of logsystem.cpp 57-272, logsystem.h 124-139. -/
def setM (f : Mtx → Option Tid) (x : Mtx) (o : Option Tid) : Mtx → Option Tid := fun y => if y = x then o else f y

/-- `notify_all` 69, 104. -/
def wake : FLt → FLt
  | .sleep _ => .sleep true
  | p        => p

/-- Client `i` takes the mutex `x` and goes on at `pc`, if nobody has it. logsystem.cpp 57-272, logsystem.h 124-139. -/
def acquire (f : FSt) (i : Nat) (x : Mtx) (pc : FPc) : Option (FSt × Option Ev) :=
  match f.mtx x with
  | some _ => none
  | none   => some ({ f with mtx := setM f.mtx x (some (some i)), cl := f.cl.set i pc }, none)

/-- Client `i` releases it. logsystem.cpp 57-272, logsystem.h 124-139. -/
def release (f : FSt) (i : Nat) (x : Mtx) (pc : FPc) : Option (FSt × Option Ev) :=
  some ({ f with mtx := setM f.mtx x none, cl := f.cl.set i pc }, none)

/-- A client begins a call: log 85, stop 64, addListener 137, start 56, the setters logsystem.h 122-160, 216. -/
def beginF (f : FSt) (i : Nat) (op : Op) : FSt × Option Ev :=
  match op with
  | .log m         => ({ f with cl := f.cl.set i (.check m) }, some (.call i op))
  | .logPtr m      => ({ f with cl := f.cl.set i (.extNew m) }, some (.call i op))
  | .stop          => ({ f with cl := f.cl.set i .sLock }, some (.call i op))
  | .addListener l => ({ f with cl := f.cl.set i (.lLock l) }, none)
  | .category l re => ({ f with cl := f.cl.set i (.cLock l re) }, none)
  | .start         => ({ f with cl := f.cl.set i .tLock }, none)
  | .level n       => ({ f with level := n }, some (.did i op))
  | .enable l b    => ({ f with lst := setLst f.lst l { f.lst l with enabled := b } }, some (.did i op))
  | .detach l      => ({ f with lst := setLst f.lst l { f.lst l with detached := true } }, some (.did i op))
  | .llevel l n    => ({ f with lst := setLst f.lst l { f.lst l with level := n } }, some (.did i op))

/-- getDiags takes three mutexes one after the other 262-273; category() only one, logsystem.h 138-141. -/
def afterQuery : Mtx → FPc
  | .message => .qLock .pool
  | .pool    => .qLock .listeners
  | _        => .idle

/-- A client goes on: log 85-105, allocateMsg 214-226, stop 64-82, addListener 137-143, start 56-61, category logsystem.h
122-133, getDiags 253-274. -/
def resumeF (rx : Rx) (f : FSt) (i : Nat) : FPc → Option (FSt × Option Ev)
  | .idle => none
  | .check m =>
    if m.level > f.level then some ({ f with cl := f.cl.set i .idle }, some (.reject i m))
    else some ({ f with cl := f.cl.set i (.aLock m) }, some (.pass i m))
  | .aLock m => acquire f i .pool (.aTest m)
  | .aTest m =>
    match f.pool with
    | []     => some ({ f with heap := setHeap f.heap f.next (some Msg.default), next := f.next + 1,
                               cl := f.cl.set i (.aUnlockE m f.next) }, some .tau)
    | _ :: _ => some ({ f with cl := f.cl.set i (.aPop m) }, none)
  | .aPop m =>
    match f.pool.getLast? with
    | none   => some (f, some (.fault .emptyBack))
    | some a => some ({ f with pool := f.pool.dropLast, cl := f.cl.set i (.aUnlock m a) }, some .tau)
  | .aUnlock m a => release f i .pool (.construct m a)
  | .aUnlockE m a => release f i .pool (.aInc m a)
  | .aInc m a => some ({ f with unpooled := f.unpooled + 1, cl := f.cl.set i (.construct m a) }, none)
  | .construct m a =>
    match f.heap a with
    | none   => some (f, some (.fault .useAfterFree))
    | some _ => some ({ f with heap := setHeap f.heap a (some m), cl := f.cl.set i (.eLock m a) }, some .tau)
  | .extNew m =>
    some ({ f with heap := setHeap f.heap f.next (some m), next := f.next + 1, external := f.external + 1,
                   cl := f.cl.set i (.eLock m f.next) }, some .tau)
  | .eLock m a => acquire f i .message (.ePush m a)
  | .ePush m a => some ({ f with queue := f.queue ++ [a], cl := f.cl.set i .eMax }, some (.accept i m))
  | .eMax => some ({ f with maxQ := if f.queue.length > f.maxQ then f.queue.length else f.maxQ, cl := f.cl.set i .eNotify }, none)
  | .eNotify => some ({ f with lt := wake f.lt, cl := f.cl.set i .eUnlock }, none)
  | .eUnlock => release f i .message .idle
  | .sLock => acquire f i .message .sSet
  | .sSet => some ({ f with terminated := true, cl := f.cl.set i .sUnlock }, some .tau)
  | .sUnlock => release f i .message .sNotify
  | .sNotify => some ({ f with lt := wake f.lt, cl := f.cl.set i .sTLock }, some .tau)
  | .sTLock => acquire f i .thread .sTTest
  | .sTTest =>
    match f.lt with
    | .none => some ({ f with cl := f.cl.set i .sTUnlock }, some (.stopped i))
    | _     => some ({ f with cl := f.cl.set i .sJoin }, some .tau)
  | .sJoin =>
    match f.lt with
    | .exited => some ({ f with lt := .none, cl := f.cl.set i .sTUnlock }, some (.stopped i))
    | _       => none                          -- join() blocks
  | .sTUnlock => release f i .thread .idle
  | .lLock l => acquire f i .listeners (.lPush l)
  | .lPush l => some ({ f with pending := f.pending ++ [l], cl := f.cl.set i .lUnlock }, some (.did i (.addListener l)))
  | .lUnlock => release f i .listeners .idle
  | .cLock l re => acquire f i (.category l) (.cRegex l re)
  | .cRegex l re =>
    if rx.valid re then some ({ f with lst := setLst f.lst l { f.lst l with regex := some re }, cl := f.cl.set i (.cText l re) },
                                some (.did i (.category l re)))
    else some ({ f with cl := f.cl.set i (.cUnlock l) }, some (.threw i (.category l re)))
  | .cText l re => some ({ f with lst := setLst f.lst l { f.lst l with category := re }, cl := f.cl.set i (.cUnlock l) }, none)
  | .cUnlock l => release f i (.category l) .idle
  | .tLock => acquire f i .thread .tTest
  | .tTest =>
    match f.lt with
    | .none => some ({ f with lt := .top, cl := f.cl.set i .tUnlock }, some (.did i .start))
    | _     => some ({ f with cl := f.cl.set i .tUnlock }, some (.did i .start))
  | .tUnlock => release f i .thread .idle
  | .qLock x => acquire f i x (.qHold x)
  | .qHold x => release f i x (afterQuery x)

/-- The logging thread takes a mutex. logsystem.cpp 150-151, 182, 204, 232. -/
def acquireL (f : FSt) (x : Mtx) (p : FLt) : Option (FSt × Option Ev) :=
  match f.mtx x with
  | some _ => none
  | none   => some ({ f with mtx := setM f.mtx x (some none), lt := p }, none)

/-- The logging thread releases a mutex. logsystem.cpp 159, 164, 186, 210, 235-237. -/
def releaseL (f : FSt) (x : Mtx) (p : FLt) : Option (FSt × Option Ev) :=
  some ({ f with mtx := setM f.mtx x none, lt := p }, none)

/-- A step of the logging thread: loggingThread 147-177, processNewListeners 180-186, sendMessageToListeners 188-199,
checkCategory 201-210, disposeMsg 229-240, cleanupTerminatedListeners 243-250. -/
def logStepF (rx : Rx) (f : FSt) : Option (FSt × Option Ev) :=
  match f.lt with
  | .none => none
  | .exited => none
  | .top => acquireL f .message (.test false)
  | .sleep true => acquireL f .message (.test true)
  | .sleep false => none
  | .test w =>
    match f.terminated, f.queue with
    | true, _      => some ({ f with lt := .exit }, some .exit)
    | false, []    => some ({ f with mtx := setM f.mtx .message none, lt := .sleep false }, some .sleep)
    | false, _ :: _ => some ({ f with lt := .pop w }, none)
  | .pop _ =>
    match f.queue with
    | []     => some (f, some (.fault .emptyBack))
    | a :: q => some ({ f with queue := q, lt := .taken a }, some .take)
  | .exit => releaseL f .message .exited
  | .taken a => releaseL f .message (.got a)
  | .got a => acquireL f .listeners (.nCopy a)
  | .nCopy a =>
    match f.heap a with
    | none   => some (f, some (.fault .useAfterFree))
    | some m => some ({ f with active := f.active ++ f.pending, lt := .nClear a (f.active ++ f.pending) },
                        some (.dispatch m (f.active ++ f.pending)))
  | .nClear a ls => some ({ f with pending := [], lt := .nUnlock a ls }, none)
  | .nUnlock a ls => releaseL f .listeners (.recv a ls)
  | .recv a ls => some ({ f with received := f.received + 1, lt := .send a ls }, none)
  | .send a (l :: rem) => some ({ f with lt := .probe a l .enabled rem }, some .tau)
  | .send a [] =>
    match f.heap a with
    | none   => some (f, some (.fault .useAfterFree))
    | some m => some ({ f with lt := .clean a [] f.active }, some (.done m))
  | .probe a l st rem =>
    match f.heap a with
    | none   => some (f, some (.fault .useAfterFree))
    | some m =>
      match st with
      | .enabled  => some ({ f with lt := if (f.lst l).enabled then .probe a l .level rem else .send a rem },
                            some (.tested l m .enabled (f.lst l).enabled))
      | .level    => some ({ f with lt := if (f.lst l).level ≥ m.level then .probe a l .category rem else .send a rem },
                            some (.tested l m .level (decide ((f.lst l).level ≥ m.level))))
      | .category =>
        if m.cat = [] then some ({ f with lt := .probe a l .call rem }, some (.tested l m .category true))
        else acquireL f (.category l) (.cHold a l rem)
      | .call     => some ({ f with lt := .send a rem }, some (.deliver l m))
  | .cHold a l rem =>
    match f.heap a with
    | none   => some (f, some (.fault .useAfterFree))
    | some m => some ({ f with lt := .cUnl a l (checkCategory rx (f.lst l) m.cat) rem },
                        some (.tested l m .category (checkCategory rx (f.lst l) m.cat)))
  | .cUnl a l b rem => releaseL f (.category l) (if b then .probe a l .call rem else .send a rem)
  | .clean a kept (l :: rest) =>
    some ({ f with lt := .clean a (if (f.lst l).detached then kept else kept ++ [l]) rest }, some .tau)
  | .clean a kept [] => some ({ f with active := kept, lt := .disp a }, some .tau)
  | .disp a => acquireL f .pool (.dTest a)
  | .dTest a =>
    if f.pool.length < threshold then some ({ f with lt := .dPush a }, none)
    else some ({ f with lt := .dUnlF a }, some .tau)
  | .dPush a => some ({ f with pool := f.pool ++ [a], lt := .dUnl }, some .tau)
  | .dUnl => releaseL f .pool .top
  | .dUnlF a => releaseL f .pool (.dInc a)
  | .dInc a => some ({ f with destroyed := f.destroyed + 1, lt := .dDel a }, none)
  | .dDel a =>
    match f.heap a with
    | none   => some (f, some (.fault .doubleFree))
    | some _ => some ({ f with heap := setHeap f.heap a none, lt := .top }, none)

/-- Scheduler choices; `diags`, `categ`: an idle client calls getDiags(), or category() of a listener. logsystem.cpp 56-274,
logsystem.h 138-141. -/
inductive FAct where
  | call (i : Nat) (op : Op)
  | diags (i : Nat)
  | categ (i : Nat) (l : LId)
  | cli (i : Nat)
  | log
  | spurious
  deriving DecidableEq, Repr

/-- One step; `none`: not possible now, because the thread waits or does not exist. logsystem.cpp 56-274. -/
def fstep (rx : Rx) (f : FSt) : FAct → Option (FSt × Option Ev)
  | .call i op =>
    match f.cl[i]? with
    | some .idle => some (beginF f i op)
    | _          => none
  | .diags i =>
    match f.cl[i]? with
    | some .idle => some ({ f with cl := f.cl.set i (.qLock .message) }, none)
    | _          => none
  | .categ i l =>
    match f.cl[i]? with
    | some .idle => some ({ f with cl := f.cl.set i (.qLock (.category l)) }, none)
    | _          => none
  | .cli i =>
    match f.cl[i]? with
    | some pc => resumeF rx f i pc
    | none    => none
  | .log => logStepF rx f
  | .spurious =>
    match f.lt with
    | .sleep false => some ({ f with lt := .sleep true }, none)
    | _            => none

/-- A schedule: final state and what was observed. Not in the code: a schedule of logsystem.cpp 56-274. -/
def frun (rx : Rx) : FSt → List FAct → Option (FSt × List Ev)
  | f, []      => some (f, [])
  | f, a :: as =>
    match fstep rx f a with
    | none => none
    | some (f', e) =>
      match frun rx f' as with
      | none => none
      | some (f'', es) => some (f'', e.toList ++ es)

end Falcon.LogM
