import Verif.Basic
/-
Model of `falcon::LogSystem` (src/include/falcon/logsystem.h, src/engine/logsystem.cpp).

A transition system: any number of client threads and the logging thread, interleaved
arbitrarily.  A critical section that contains no wait is one step (its mutex is released at the
end of the step); `m_mtxThread`, which stop() holds while it joins, is explicit.  The condition
variable is explicit: sleeping, notified, spurious wake-ups.

Simplifications:
* a counter update directly next to an allocation or deallocation is in the same step
  (logsystem.cpp 224-225, 238-239);
* `onMessage` is one step here; Model/LogReact.lean adds what listeners do inside, and Props/LogReact
  shows that the result is this system with one more client;
* `std::regex` is a parameter; allocation does not fail; `regex_match` does not throw;
* `std::cout` output of `checkCategory` (208) is ignored.
-/
namespace Falcon.Log

/-- `std::string` in logsystem.h 61-84. -/
abbrev Str := List Char
/-- `Message*` in logsystem.h 61-84, 266-291. -/
abbrev Addr := Nat
/-- `std::shared_ptr<Listener>` in logsystem.h 266-291: which listener. -/
abbrev LId := Nat

/-- `LogSystem::Message` 61-84. `LEVEL` (48-55) is an integer. -/
structure Msg where
  file  : Str
  line  : Int
  level : Int
  cat   : Str
  text  : Str
  deriving DecidableEq, Repr

/-- `Message()` 63-66. -/
def Msg.default : Msg := { file := [], line := 0, level := 0, cat := [], text := [] }

/-- What is used of `std::regex`. Used by logsystem.h 122-133 and logsystem.cpp 201-210. -/
structure Rx where
  valid : Str → Bool
  full  : Str → Str → Bool      -- `regex_match` of the whole subject (second argument)

/-- `LogSystem::Listener` data members 170-177, constructor 108-112. -/
structure Lst where
  level    : Int := 5
  enabled  : Bool := true
  detached : Bool := false
  category : Str := []
  regex    : Option Str := none      -- expression `m_catRegex` was compiled from
  deriving DecidableEq, Repr

/-- `checkCategory` logsystem.cpp 201-210. -/
def checkCategory (rx : Rx) (l : Lst) (cat : Str) : Bool :=
  if cat = [] then true
  else if l.category = [] then true
  else match l.regex with
    | none    => false
    | some re => rx.full re cat

/-- `Listener::category(re)` logsystem.h 122-133. -/
def setCategory (rx : Rx) (l : Lst) (re : Str) : Except Exn Lst :=
  if rx.valid re then .ok { l with regex := some re, category := re }
  else .error .invalidCategory

/-- Calls made by client threads. `logPtr m` is log(Message*) with a message the caller has just
allocated with contents `m`. logsystem.h 105-233, logsystem.cpp 56-105, 137-143. -/
inductive Op where
  | log (m : Msg)
  | logPtr (m : Msg)
  | addListener (l : LId)
  | level (n : Int)
  | enable (l : LId) (b : Bool)
  | detach (l : LId)
  | llevel (l : LId) (n : Int)
  | category (l : LId) (re : Str)
  | start
  | stop
  deriving DecidableEq, Repr

/-- Client program counters. The points between the steps of logsystem.cpp 56-143, 214-226. -/
inductive CPc where
  | idle
  | check (m : Msg)              -- log(): before `level > m_level` (88)
  | alloc (m : Msg)              -- before allocateMsg() (92)
  | construct (m : Msg) (a : Addr)  -- before the placement new (92)
  | enqueue (m : Msg) (a : Addr) -- before log(Message*) (93, 97-105)
  | extNew (m : Msg)             -- the caller's own `new Message`
  | stopSet                      -- stop(): before 66-68
  | stopNotify                   -- before 69
  | stopLock                     -- before 73
  | stopJoin                     -- holding m_mtxThread, in join() (79)
  deriving DecidableEq, Repr

/-- logsystem.cpp 85-105, 214-226. -/
inductive Stage where
  | enabled      -- about to evaluate `listener->isEnabled()` (192)
  | level        -- about to evaluate `listener->level() >= msg->m_level` (193)
  | category     -- about to evaluate `listener->checkCategory(...)` (194)
  | call         -- about to call `listener->onMessage(*msg)` (196)
  deriving DecidableEq, Repr

/-- Logging thread program counter; `none`: `m_logThread == 0`.
The points between the steps of logsystem.cpp 147-199, 229-240. -/
inductive LPc where
  | none
  | top                                     -- before taking m_mtxMessage (150)
  | wait (notified : Bool)                  -- inside m_cvLogs.wait (151)
  | got (a : Addr)                          -- message popped, 166
  | send (a : Addr) (rem : List LId)        -- loop of 191, these listeners remain
  | test (a : Addr) (l : LId) (st : Stage) (rem : List LId)
  | clean (a : Addr) (kept rest : List LId) -- remove_if 245-248
  | dispose (a : Addr)                      -- before disposeMsg (175)
  | exited                                  -- function returned, not yet joined
  deriving DecidableEq, Repr

/-- What can be observed. Not in the code: ghost record of the effects of logsystem.cpp 56-240. -/
inductive Ev where
  | call (i : Nat) (op : Op)       -- client i starts a call that takes several steps
  | did (i : Nat) (op : Op)        -- client i performed this (one-step) call
  | threw (i : Nat) (op : Op)      -- ... and it threw InvalidCategory
  | reject (i : Nat) (m : Msg)     -- log() returned at once: level too high
  | pass (i : Nat) (m : Msg)       -- log() passed the level check
  | accept (i : Nat) (m : Msg)     -- the message of client i's call is in the queue; log() returns
  | stopped (i : Nat)              -- stop() returned
  | tau                            -- internal
  | take                           -- logging thread pops the front of the queue
  | sleep                          -- logging thread goes to sleep
  | dispatch (m : Msg) (ls : List LId) -- logging thread starts processing m
  | tested (l : LId) (m : Msg) (st : Stage) (b : Bool)
  | deliver (l : LId) (m : Msg)    -- onMessage called
  | done (m : Msg)                 -- all listeners served
  | exit                           -- logging thread ends
  | fault (u : UB)                 -- undefined behaviour
  deriving DecidableEq, Repr

/-- Data members of LogSystem (logsystem.h 266-291), the listeners' data, the heap of Message
objects (`none`: not allocated or freed), and the threads. -/
structure St where
  level      : Int
  unpooled   : Nat
  destroyed  : Nat
  maxQ       : Nat
  received   : Nat
  queue      : List Addr
  terminated : Bool
  pool       : List Addr
  pending    : List LId
  active     : List LId
  mtxThread  : Option Nat            -- holder of m_mtxThread
  lt         : LPc
  cl         : List CPc
  lst        : LId → Lst
  heap       : Addr → Option Msg
  next       : Addr                  -- addresses from here on were never used
  external   : Nat                   -- ghost: objects created by logPtr callers

def threshold : Nat := 64     -- logsystem.h 231-233

/-- Constructor 21-37 with `n` client threads; `term0` is what the uninitialised `m_isTerminated`
happens to contain. -/
def init (n : Nat) (term0 startNow : Bool) : St :=
  { level := 5, unpooled := 0, destroyed := 0, maxQ := 0, received := 0,
    queue := [], terminated := term0, pool := List.range threshold, pending := [], active := [],
    mtxThread := none, lt := if startNow then .top else .none, cl := List.replicate n .idle,
    lst := fun _ => {}, heap := fun a => if a < threshold then some Msg.default else none,
    next := threshold, external := 0 }

/-- A write to a Message, logsystem.cpp 214-240. -/
def setHeap (h : Addr → Option Msg) (a : Addr) (v : Option Msg) : Addr → Option Msg :=
  fun b => if b = a then v else h b

/-- A write to a Listener, logsystem.h 105-178. -/
def setLst (f : LId → Lst) (l : LId) (v : Lst) : LId → Lst := fun k => if k = l then v else f k

/-- `m_cvLogs.notify_all()`. logsystem.cpp 85-105, 137-143, 64-82. -/
def notify : LPc → LPc
  | .wait _ => .wait true
  | p       => p

/-- allocateMsg 214-226. -/
def allocate (s : St) : St × Addr :=
  match s.pool.getLast? with
  | some a => ({ s with pool := s.pool.dropLast }, a)
  | none   => ({ s with unpooled := s.unpooled + 1, heap := setHeap s.heap s.next (some Msg.default),
                        next := s.next + 1 }, s.next)

/-- disposeMsg 229-240. -/
def dispose (s : St) (a : Addr) : St × Ev :=
  if s.pool.length < threshold then ({ s with pool := s.pool ++ [a] }, .tau)
  else match s.heap a with
    | none   => (s, .fault .doubleFree)
    | some _ => ({ s with destroyed := s.destroyed + 1, heap := setHeap s.heap a none }, .tau)

/-- A client starts a call; one-step calls are performed at once: addListener 137-143, level
(logsystem.h 216), the listener setters (logsystem.h 122-160), start 56-61. -/
def beginCall (rx : Rx) (s : St) (i : Nat) (op : Op) : Option (St × Ev) :=
  match op with
  | .log m => some ({ s with cl := s.cl.set i (.check m) }, .call i op)
  | .logPtr m => some ({ s with cl := s.cl.set i (.extNew m) }, .call i op)
  | .stop => some ({ s with cl := s.cl.set i .stopSet }, .call i op)
  | .addListener l => some ({ s with pending := s.pending ++ [l] }, .did i op)
  | .level n => some ({ s with level := n }, .did i op)
  | .enable l b => some ({ s with lst := setLst s.lst l { s.lst l with enabled := b } }, .did i op)
  | .detach l => some ({ s with lst := setLst s.lst l { s.lst l with detached := true } }, .did i op)
  | .llevel l n => some ({ s with lst := setLst s.lst l { s.lst l with level := n } }, .did i op)
  | .category l re =>
    match setCategory rx (s.lst l) re with
    | .ok v    => some ({ s with lst := setLst s.lst l v }, .did i op)
    | .error _ => some (s, .threw i op)
  | .start =>
    match s.mtxThread with
    | some _ => none                                     -- blocked
    | none   =>
      match s.lt with
      | .none => some ({ s with lt := .top }, .did i op)
      | _     => some (s, .did i op)

/-- A client continues its call: log 85-105, stop 64-82. -/
def resume (s : St) (i : Nat) : CPc → Option (St × Ev)
  | .idle => none
  | .check m =>
    if m.level > s.level then some ({ s with cl := s.cl.set i .idle }, .reject i m)
    else some ({ s with cl := s.cl.set i (.alloc m) }, .pass i m)
  | .alloc m =>
    let r := allocate s
    some ({ r.1 with cl := r.1.cl.set i (.construct m r.2) }, .tau)
  | .construct m a =>
    match s.heap a with
    | none   => some (s, .fault .useAfterFree)
    | some _ => some ({ s with heap := setHeap s.heap a (some m), cl := s.cl.set i (.enqueue m a) }, .tau)
  | .extNew m =>
    some ({ s with heap := setHeap s.heap s.next (some m), next := s.next + 1, external := s.external + 1,
                   cl := s.cl.set i (.enqueue m s.next) }, .tau)
  | .enqueue m a =>
    let q := s.queue ++ [a]
    some ({ s with queue := q, maxQ := if q.length > s.maxQ then q.length else s.maxQ,
                   lt := notify s.lt, cl := s.cl.set i .idle }, .accept i m)
  | .stopSet => some ({ s with terminated := true, cl := s.cl.set i .stopNotify }, .tau)
  | .stopNotify => some ({ s with lt := notify s.lt, cl := s.cl.set i .stopLock }, .tau)
  | .stopLock =>
    match s.mtxThread with
    | some _ => none                                     -- blocked
    | none   =>
      match s.lt with
      | .none => some ({ s with cl := s.cl.set i .idle }, .stopped i)
      | _     => some ({ s with mtxThread := some i, cl := s.cl.set i .stopJoin }, .tau)
  | .stopJoin =>
    match s.lt with
    | .exited => some ({ s with lt := .none, mtxThread := none, cl := s.cl.set i .idle }, .stopped i)
    | _       => none                                    -- join() blocks

/-- The condition part of the loop, 150-163, with m_mtxMessage held. -/
def head (s : St) : St × Ev :=
  match s.terminated, s.queue with
  | true,  _       => ({ s with lt := .exited }, .exit)
  | false, []      => ({ s with lt := .wait false }, .sleep)
  | false, a :: q  => ({ s with queue := q, lt := .got a }, .take)

/-- One step of the logging thread, loggingThread 147-177, processNewListeners 180-186,
sendMessageToListeners 188-199, cleanupTerminatedListeners 243-250. -/
def logStep (rx : Rx) (s : St) : Option (St × Ev) :=
  match s.lt with
  | .none => none
  | .exited => none
  | .top => some (head s)
  | .wait true => some (head s)
  | .wait false => none
  | .got a =>
    match s.heap a with
    | none   => some (s, .fault .useAfterFree)
    | some m => some ({ s with active := s.active ++ s.pending, pending := [], received := s.received + 1,
                               lt := .send a (s.active ++ s.pending) }, .dispatch m (s.active ++ s.pending))
  | .send a (l :: rem) => some ({ s with lt := .test a l .enabled rem }, .tau)
  | .send a [] =>
    match s.heap a with
    | none   => some (s, .fault .useAfterFree)
    | some m => some ({ s with lt := .clean a [] s.active }, .done m)
  | .test a l st rem =>
    match s.heap a with
    | none   => some (s, .fault .useAfterFree)
    | some m =>
      match st with
      | .enabled  => some ({ s with lt := if (s.lst l).enabled then .test a l .level rem else .send a rem },
                            .tested l m .enabled (s.lst l).enabled)
      | .level    => some ({ s with lt := if (s.lst l).level ≥ m.level then .test a l .category rem else .send a rem },
                            .tested l m .level (decide ((s.lst l).level ≥ m.level)))
      | .category => some ({ s with lt := if checkCategory rx (s.lst l) m.cat then .test a l .call rem else .send a rem },
                            .tested l m .category (checkCategory rx (s.lst l) m.cat))
      | .call     => some ({ s with lt := .send a rem }, .deliver l m)
  | .clean a kept (l :: rest) =>
    some ({ s with lt := .clean a (if (s.lst l).detached then kept else kept ++ [l]) rest }, .tau)
  | .clean a kept [] => some ({ s with active := kept, lt := .dispose a }, .tau)
  | .dispose a =>
    let r := dispose s a
    some ({ r.1 with lt := .top }, r.2)

/-- Scheduler choices. Not in the code: which thread executes next in logsystem.cpp 56-240. -/
inductive Act where
  | call (i : Nat) (op : Op)   -- an idle client starts a call
  | cli (i : Nat)              -- client i continues
  | log                        -- the logging thread moves
  | spurious                   -- spurious wake-up
  deriving DecidableEq, Repr

/-- One step of the system; `none`: not possible now. logsystem.cpp 56-240, by the parts above. -/
def step (rx : Rx) (s : St) : Act → Option (St × Ev)
  | .call i op =>
    match s.cl[i]? with
    | some .idle => beginCall rx s i op
    | _          => none
  | .cli i =>
    match s.cl[i]? with
    | some pc => resume s i pc
    | none    => none
  | .log => logStep rx s
  | .spurious =>
    match s.lt with
    | .wait false => some ({ s with lt := .wait true }, .tau)
    | _           => none

/-- A schedule, executed as far as it is possible: final state and everything observed.
Not in the code: a schedule of logsystem.cpp 56-240. -/
def run (rx : Rx) : St → List Act → Option (St × List Ev)
  | s, []      => some (s, [])
  | s, a :: as =>
    match step rx s a with
    | none => none
    | some (s', e) =>
      match run rx s' as with
      | none => none
      | some (s'', es) => some (s'', e :: es)

/-- Destructor 40-53 after its stop(): delete the queued, then the pooled messages. -/
def deleteAll (h : Addr → Option Msg) : List Addr → Res (Addr → Option Msg)
  | []      => .ok h
  | a :: as =>
    match h a with
    | none   => .error (.ub .doubleFree)
    | some _ => deleteAll (setHeap h a none) as

/-- LogSystem::~LogSystem, logsystem.cpp 40-53, with cleanup 243-250. -/
def destroy (s : St) : Res (Addr → Option Msg) := do
  let h ← deleteAll s.heap s.queue
  deleteAll h s.pool

/-- `Diags` logsystem.h 238-248 / getDiags 253-274 (taken at one moment; Model/LogDiags.lean reads one number after the other). -/
structure Diags where
  poolSize : Nat
  maxMsgQueueSize : Nat
  msgReceived : Nat
  msgsCreated : Nat
  msgsDiscarded : Nat
  pendingListeners : Nat
  activeListeners : Nat
  enabledListeners : Nat
  deriving DecidableEq, Repr

/-- LogSystem::getDiags, logsystem.cpp 253-274. -/
def getDiags (s : St) : Diags :=
  { poolSize := s.pool.length, maxMsgQueueSize := s.maxQ, msgReceived := s.received,
    msgsCreated := s.unpooled, msgsDiscarded := s.destroyed, pendingListeners := s.pending.length,
    activeListeners := s.active.length,
    enabledListeners := (s.active.filter fun l => (s.lst l).enabled).length }

/-- levelToString 122-134. -/
def levelToString (l : Int) : Str :=
  if l = 0 then ['C','R','I','T']
  else if l = 1 then ['E','R','R',' ']
  else if l = 2 then ['W','A','R','N']
  else if l = 3 then ['I','N','F','O']
  else if l = 4 then ['D','B','G',' ']
  else if l = 5 then ['T','R','C',' ']
  else ['?','?','?','?']

end Falcon.Log
