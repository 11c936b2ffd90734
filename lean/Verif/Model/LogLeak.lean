import Verif.Model.LogSystem
/-
The memory owned by the strings of the Message objects of `falcon::LogSystem`.

log() builds the message with a placement new on the object allocateMsg() returns
(logsystem.cpp 92).  That object is a live `Message` - default constructed in 31 or 225, or the
one logged last time, since disposeMsg() 229-240 puts it back without destroying its contents.
The placement new overwrites the three `std::string` members without running their destructors.

A `std::string` longer than `cap` characters owns a heap buffer (15 in libstdc++ and MSVC, 22 in
libc++); a copy of it allocates a buffer of its own.  Simplification: a string copied from a source
of at most `cap` characters owns none.
-/
namespace Falcon.Log

/-- Heap buffers owned by the strings of a Message, logsystem.h 79-83. -/
def bufs (cap : Nat) (m : Msg) : Nat :=
  (if cap < m.file.length then 1 else 0) + (if cap < m.cat.length then 1 else 0)
    + (if cap < m.text.length then 1 else 0)

/-- Buffers allocated for messages; overwritten and so beyond reach of any destructor; freed by a
destructor.  Not in the code. Counts effects of logsystem.cpp 92, 239. -/
structure Buffers where
  made  : Nat := 0
  lost  : Nat := 0
  freed : Nat := 0
  deriving DecidableEq, Repr

/-- What a step from `s` does to the buffers: the placement new of logsystem.cpp 92, the caller's
`new Message` for log(Message*), and the `delete` of 239. -/
def charge (cap : Nat) (s : St) (g : Buffers) : Act → Buffers
  | .cli i =>
    match s.cl[i]? with
    | some (.construct m a) =>
      match s.heap a with
      | none     => g
      | some old => { g with lost := g.lost + bufs cap old, made := g.made + bufs cap m }
    | some (.extNew m) => { g with made := g.made + bufs cap m }
    | _ => g
  | .log =>
    match s.lt with
    | .dispose a =>
      if s.pool.length < threshold then g
      else match s.heap a with
        | none   => g
        | some m => { g with freed := g.freed + bufs cap m }
    | _ => g
  | .call _ _ => g
  | .spurious => g

/-- An execution with its account of the buffers. Not in the code: a schedule of
logsystem.cpp 56-240. -/
inductive LExec (cap : Nat) (rx : Rx) (s0 : St) : St → List Ev → Buffers → Prop where
  | nil : LExec cap rx s0 s0 [] {}
  | snoc {s s' es a e g} : LExec cap rx s0 s es g → step rx s a = some (s', e) →
      LExec cap rx s0 s' (es ++ [e]) (charge cap s g a)

/-- Buffers freed by the destructor, logsystem.cpp 45-52: those of the queued and of the pooled
messages. -/
def destroyFrees (cap : Nat) (s : St) : Nat :=
  ((s.queue ++ s.pool).map fun a => match s.heap a with | some m => bufs cap m | none => 0).sum

end Falcon.Log
