import Verif.Basic
/-
Model of `falcon::Futex` and `falcon::RFutex` (src/include/falcon/futex.h, src/engine/futex.cpp).

Any number of threads, interleaved at the granularity of single atomic accesses, under
sequential consistency.  `Model/FutexWeak.lean` has the memory orders of the code on a weak memory
machine; C136 shows that it reaches nothing else.
-/
namespace Falcon.Futex

/-- `m_owned.compare_exchange_weak(isOwned, true)` with `isOwned == false` (futex.h 49-55):
result `(m_owned', returned, isOwned')`; `spurious` is the environment's choice of a spurious
failure. -/
def casWeak (owned spurious : Bool) : Bool × Bool × Bool :=
  if owned = false then
    if spurious then (owned, false, owned)      -- spurious failure: expected := current value
    else (true, true, false)
  else (owned, false, owned)                    -- expected := current value

/-- The loop condition of lock(), futex.h 52-55: `!CAS || isOwned`. -/
def retry (returned isOwned : Bool) : Bool := !returned || isOwned

/-- Loop body futex.h 56-60: the new `sc` and whether `std::this_thread::yield()` is called. -/
def failBody (spinCount sc : BitVec 32) : BitVec 32 × Bool :=
  if spinCount ≠ 0 then (sc - 1, sc - 1 = 0) else (sc, false)

/-- What the clients do: an operation `ω` guarded by the lock is a sequence of micro-steps on
the shared state `σ` and the thread's local state `τ` (each micro-step is one indivisible
access); `start` is the local state on entry. Not in the code: the users of futex.h 39-116. -/
structure Client (σ τ ω : Type) where
  micro : ω → List (σ × τ → σ × τ)
  start : ω → τ

variable {σ τ ω : Type}

/-- Where a thread is. The points between the atomic steps of futex.h 49-66. -/
inductive Pc (σ τ : Type) where
  | out                                        -- not using the lock
  | trying (sc : BitVec 32)                    -- inside lock(), before an attempt
  | inside (rest : List (σ × τ → σ × τ)) (l : τ)  -- lock() returned, unlock() not yet done

/-- Not in the code: a thread using futex.h 39-71. -/
structure Th (σ τ ω : Type) where
  pc      : Pc σ τ
  todo    : List ω            -- operations still to be completed
  results : List τ            -- final local states of the completed ones
  yields  : Nat               -- number of calls of yield()

/-- System state; `hist` is a ghost record of the order in which lock() succeeded.
`m_locked` of futex.h 39-71 and the threads that use it. -/
structure St (σ τ ω : Type) where
  owned  : Bool
  shared : σ
  th     : Nat → Th σ τ ω
  hist   : List (Nat × ω)

/-- Not in the code: a step of one thread using futex.h 39-71. -/
def upd (f : Nat → Th σ τ ω) (i : Nat) (t : Th σ τ ω) : Nat → Th σ τ ω :=
  fun j => if j = i then t else f j

/-- One step of thread `i`: entering `lock()` (futex.h 49-51), one attempt (52-61), one micro-step of the
guarded section, or `unlock()` (64-66). `none`: the thread has nothing to do. -/
def step (c : Client σ τ ω) (spinCount : BitVec 32) (s : St σ τ ω) (i : Nat) (spurious : Bool) :
    Option (St σ τ ω) :=
  let t := s.th i
  match t.pc with
  | .out =>
    match t.todo with
    | []     => none
    | _ :: _ => some { s with th := upd s.th i { t with pc := .trying spinCount } }
  | .trying sc =>
    match t.todo with
    | []      => none
    | op :: _ =>
      let (owned', returned, isOwned') := casWeak s.owned spurious
      if retry returned isOwned' then
        let (sc', y) := failBody spinCount sc
        some { s with owned := owned',
                      th := upd s.th i { t with pc := .trying sc', yields := t.yields + y.toNat } }
      else
        some { s with owned := owned',
                      th := upd s.th i { t with pc := .inside (c.micro op) (c.start op) },
                      hist := s.hist ++ [(i, op)] }
  | .inside (m :: ms) l =>
    let (g, l') := m (s.shared, l)
    some { s with shared := g, th := upd s.th i { t with pc := .inside ms l' } }
  | .inside [] l =>
    some { s with owned := false,
                  th := upd s.th i { t with pc := .out, todo := t.todo.tail,
                                            results := t.results ++ [l] } }

/-- Initial state: lock free, every thread outside with its program. Futex is constructed unlocked, futex.h 39-71. -/
def initial (g : σ) (prog : Nat → List ω) : St σ τ ω :=
  { owned := false, shared := g, hist := [],
    th := fun i => { pc := .out, todo := prog i, results := [], yields := 0 } }

/-- `isLocked`, futex.h 68-70. -/
def isLocked (s : St σ τ ω) : Bool := s.owned

/-! ### RFutex -/

/-- Thread-local part: `s_thread_id` (futex.cpp 20) and whether the thread is inside lock(). -/
inductive RPc where
  | out
  | looping      -- inside lock(), at the loop 94-99
  | returned     -- lock() has returned (`++m_count` done)
  deriving DecidableEq, Repr

/-- A thread using RFutex, futex.h 74-116. -/
structure RTh where
  id : BitVec 32
  pc : RPc
  deriving DecidableEq, Repr

/-- `s_count` (futex.cpp 19), `m_owner`, `m_count` (futex.h 76-78) and the threads. -/
structure RSt where
  count  : BitVec 32
  owner  : BitVec 32
  mcount : BitVec 32
  th     : Nat → RTh

/-- `compare_exchange_strong(free, id)` with `free == 0`, futex.h 94-97: `(m_owner', returned, free')`. -/
def casStrong (owner id : BitVec 32) : BitVec 32 × Bool × BitVec 32 :=
  if owner = 0 then (id, true, 0) else (owner, false, owner)

/-- The loop condition futex.h 94-97: `!CAS || free != thread_id`. -/
def rretry (returned : Bool) (free id : BitVec 32) : Bool := !returned || decide (free ≠ id)

/-- Not in the code: a step of one thread using futex.h 74-116. -/
def rupd (f : Nat → RTh) (i : Nat) (t : RTh) : Nat → RTh := fun j => if j = i then t else f j

/-- `unlock()`, futex.h 103-107; any thread may call it. -/
def runlock (s : RSt) : RSt :=
  if s.mcount > 0 then
    if s.mcount - 1 = 0 then { s with mcount := s.mcount - 1, owner := 0 }
    else { s with mcount := s.mcount - 1 }
  else s

/-- One step of thread `i` in lock(), futex.h 86-101: the entry (identity assignment 87-89) or one loop
attempt; in `returned` state the thread may call unlock() 103-107. -/
def rstep (s : RSt) (i : Nat) : RSt :=
  let t := s.th i
  match t.pc with
  | .out =>
    if t.id = 0 then
      { s with count := s.count + 1, th := rupd s.th i { id := s.count + 1, pc := .looping } }
    else { s with th := rupd s.th i { t with pc := .looping } }
  | .looping =>
    let (owner', ret, free') := casStrong s.owner t.id
    if rretry ret free' t.id then { s with owner := owner' }
    else { s with owner := owner', mcount := s.mcount + 1, th := rupd s.th i { t with pc := .returned } }
  | .returned =>
    { runlock s with th := rupd s.th i { t with pc := .out } }

/-- RFutex is constructed unlocked, futex.h 74-116. -/
def rinit : RSt := { count := 0, owner := 0, mcount := 0, th := fun _ => { id := 0, pc := .out } }

/-- A schedule is the list of the threads that move. Not in the code: the threads that use futex.h 74-116. -/
def rrun : RSt → List Nat → RSt
  | s, []      => s
  | s, i :: is => rrun (rstep s i) is

/-- `isOwner`, futex.h 113-115 called by thread `i`. -/
def isOwner (s : RSt) (i : Nat) : Bool := s.owner = (s.th i).id

/-- `isLocked`, futex.h 109-111. -/
def rIsLocked (s : RSt) : Bool := s.owner ≠ 0

end Falcon.Futex
