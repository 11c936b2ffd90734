import Verif.Model.Futex
/-
`falcon::Futex` (src/include/falcon/futex.h 39-71) under a weak memory model, with the memory orders written in
the code.  Model/Futex.lean has one value per location at a time; here a thread may read an old one.

The machine is the usual operational reading of release/acquire in C++11: `m_owned` is a set of messages with
timestamps (its modification order); a thread has a view, the latest message of `m_owned` and the latest version of
the guarded data it knows; a releasing store puts the view into the message, an acquiring read takes it over.
A read may return every message not older than the view.  A store may be put everywhere after the view, a
read-modify-write directly after the message it read, where no other message can get between any more.
The guarded data are not atomic: an access may read every version not older than the thread's view; the access is a
data race unless the view is the newest version.

Simplifications: the guarded data are one object, read and written by every micro-step; no fences, no consume, no
speculation (all of it outside the code); timestamps are natural numbers, gaps being chosen freely.
-/
namespace Falcon.Futex
variable {σ τ ω : Type}

/-- The memory orders, futex.h 54 (successful `compare_exchange_weak`) and 65 (`store`). -/
structure Orders where
  lockAcquire   : Bool
  lockRelease   : Bool
  unlockRelease : Bool
  deriving DecidableEq, Repr

/-- futex.h 54 `memory_order_acq_rel`, 65 `memory_order_release`. -/
def codeOrders : Orders := ⟨true, true, true⟩

/-- What a thread knows: a timestamp of `m_owned` (futex.h 40) and the number of a version of the guarded data.
Not in the code: C++11 memory model. -/
structure View where
  lock : Nat
  data : Nat
  deriving DecidableEq, Repr

/-- A value written to `m_owned` (futex.h 40), occupying the timestamps after `start` up to `time`; `data` is what the
message releases. Not in the code: C++11 memory model. -/
structure LMsg where
  start : Nat
  time  : Nat
  val   : Bool
  data  : Nat
  deriving DecidableEq, Repr

/-- `m_owned` (futex.h 40), all versions of the guarded data, and the threads. -/
structure WSt (σ τ ω : Type) where
  mem  : List LMsg
  vers : List σ
  view : Nat → View
  th   : Nat → Th σ τ ω
  hist : List (Nat × ω)

/-- What the machine chooses in a step: the message that is read, whether a weak CAS fails spuriously, the
timestamps of a new message, the version of the data that is read. Not in the code: C++11 memory model. -/
structure Choice where
  msg      : Nat := 0
  spurious : Bool := false
  start    : Nat := 0
  time     : Nat := 0
  ver      : Nat := 0
  deriving DecidableEq, Repr

/-- Timestamps after `a` up to `b` are not taken. Not in the code: C++11 memory model. -/
def unused (mem : List LMsg) (a b : Nat) : Bool := mem.all fun m => decide (m.time ≤ a ∨ b ≤ m.start)

/-- Not in the code: a step of one thread using futex.h 39-71. -/
def vupd (f : Nat → View) (i : Nat) (v : View) : Nat → View := fun j => if j = i then v else f j

/-- One step of thread `i`, as `step` in Model/Futex.lean: entering lock() (futex.h 49-51), one attempt (52-61), one
micro-step of the guarded section, unlock() (64-66). `none`: not possible with these choices. -/
def wstep (o : Orders) (c : Client σ τ ω) (spinCount : BitVec 32) (s : WSt σ τ ω) (i : Nat) (ch : Choice) :
    Option (WSt σ τ ω) :=
  let t := s.th i
  let v := s.view i
  match t.pc with
  | .out =>
    match t.todo with
    | []     => none
    | _ :: _ => some { s with th := upd s.th i { t with pc := .trying spinCount } }
  | .trying sc =>
    match t.todo, s.mem[ch.msg]? with
    | op :: _, some m =>
      if m.time < v.lock then none                       -- older than what the thread has seen
      else
        if retry (!m.val && !ch.spurious) m.val then     -- isOwned is m.val either way; failure order: relaxed
          let (sc', y) := failBody spinCount sc
          some { s with view := vupd s.view i { v with lock := m.time },
                        th := upd s.th i { t with pc := .trying sc', yields := t.yields + y.toNat } }
        else if m.time < ch.time ∧ unused s.mem m.time ch.time then
          let d := if o.lockAcquire then max v.data m.data else v.data
          some { s with mem := ⟨m.time, ch.time, true, max m.data (if o.lockRelease then d else 0)⟩ :: s.mem,
                        view := vupd s.view i ⟨ch.time, d⟩,
                        th := upd s.th i { t with pc := .inside (c.micro op) (c.start op) },
                        hist := s.hist ++ [(i, op)] }
        else none
    | _, _ => none
  | .inside (f :: fs) l =>
    if ch.ver < v.data then none
    else match s.vers[ch.ver]? with
      | none   => none
      | some g =>
        let (g', l') := f (g, l)
        some { s with vers := s.vers ++ [g'], view := vupd s.view i { v with data := s.vers.length },
                      th := upd s.th i { t with pc := .inside fs l' } }
  | .inside [] l =>
    if ch.start < ch.time ∧ v.lock < ch.time ∧ unused s.mem ch.start ch.time then
      some { s with mem := ⟨ch.start, ch.time, false, if o.unlockRelease then v.data else 0⟩ :: s.mem,
                    view := vupd s.view i { v with lock := ch.time },
                    th := upd s.th i { t with pc := .out, todo := t.todo.tail, results := t.results ++ [l] } }
    else none

/-- Initially: the initialisation of `m_owned` with false (futex.h 40), which everybody knows, and the data. -/
def winitial (g : σ) (prog : Nat → List ω) : WSt σ τ ω :=
  { mem := [⟨0, 0, false, 0⟩], vers := [g], view := fun _ => ⟨0, 0⟩, hist := [],
    th := fun i => { pc := .out, todo := prog i, results := [], yields := 0 } }

/-- `isLocked`, futex.h 68-70: what thread `i` can read. -/
def wIsLocked (s : WSt σ τ ω) (i : Nat) (ch : Choice) : Option Bool :=
  match s.mem[ch.msg]? with
  | none   => none
  | some m => if m.time < (s.view i).lock then none else some m.val

/-- Not in the code: a schedule of threads using futex.h 39-71. -/
def wrun (o : Orders) (c : Client σ τ ω) (spinCount : BitVec 32) : WSt σ τ ω → List (Nat × Choice) → Option (WSt σ τ ω)
  | s, []            => some s
  | s, (i, ch) :: cs => match wstep o c spinCount s i ch with
    | none    => none
    | some s' => wrun o c spinCount s' cs

end Falcon.Futex
