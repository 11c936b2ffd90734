import Verif.Model.LogStream
/-
`falcon::LogStreamListener` on a stream that may fail (logstream.cpp 38-67): a full disk, a closed pipe.

The stream is that of `Model/LogStream.lean` with a device that takes a limited number of characters, badbit, and the
exception mask (`exceptions(badbit | failbit)` or nothing).  An insertion into a stream that is not good does
nothing but throw if the mask says so; one that cannot put all its characters puts those that fit, sets badbit and
throws if the mask says so.  `setfill` and `setw` work on a bad stream as on a good one.

Simplifications: the device is not buffered, so that flush (66) has nothing to do and cannot fail on its own; failbit
and eofbit do not occur without badbit.
-/
namespace Falcon.LogStream
open Falcon.Log (Str Msg)

/-- An ostream that may fail. Standard library; `*m_pout` of logstream.h 68-74. `room`: how many characters the device
still takes, `none`: any number. -/
structure FOS where
  os     : OS := {}
  room   : Option Nat := none
  bad    : Bool := false
  throws : Bool := false
  deriving DecidableEq, Repr

/-- Standard library: how much of `s` the device takes; logstream.cpp 44-63. -/
def fits (room : Option Nat) (s : Str) : Str :=
  match room with
  | none   => s
  | some n => s.take n

/-- Standard library: what the device takes after that; logstream.cpp 44-63. -/
def left (room : Option Nat) (s : Str) : Option Nat := room.map (· - s.length)

/-- Formatted output, and whether it throws. Standard library; logstream.cpp 44-63. -/
def FOS.put (o : FOS) (s : Str) : FOS × Bool :=
  if o.bad then (o, o.throws)
  else
    let pad := List.replicate (o.os.width - s.length) o.os.fill
    let piece := if o.os.left then s ++ pad else pad ++ s
    let o' := { o with os := { o.os with text := o.os.text ++ fits o.room piece, width := 0 }, room := left o.room piece }
    if (fits o.room piece).length < piece.length then ({ o' with bad := true }, o.throws) else (o', false)

/-- One `<<`. Standard library; logstream.cpp 44-63. -/
def FOS.act (o : FOS) : Act → FOS × Bool
  | .int n     => o.put (intText o.os.isHex n)
  | .str s     => o.put s
  | .setfill c => ({ o with os := { o.os with fill := c } }, false)
  | .setw n    => ({ o with os := { o.os with width := n } }, false)

/-- A chain of `<<` as in logstream.cpp 44-63; an exception leaves it. -/
def FOS.acts (o : FOS) : List Act → FOS × Bool
  | []      => (o, false)
  | a :: as => if (o.act a).2 then ((o.act a).1, true) else (o.act a).1.acts as

/-- onMessage, logstream.cpp 23-67: the stream afterwards and whether an exception leaves the function. -/
def onMessageF (sep : Char) (o : FOS) (t : Tm) (m : Msg) : FOS × Bool := o.acts (msgActs sep t m)

/-- What happens to the stream of a listener. `device r`: the device changes and takes `r` more characters;
`repair`: somebody calls clear(). Not in the code: the user of logstream.h 44-61. -/
inductive FEv where
  | msg (t : Tm) (m : Msg)
  | device (room : Option Nat)
  | repair
  deriving DecidableEq, Repr

/-- The history of a listener and its stream; an exception leaving onMessage ends the program (logsystem.cpp 188, 196:
`noexcept`), which is the second component. logstream.cpp 23-67. -/
def frun (sep : Char) (o : FOS) : List FEv → FOS × Bool
  | []              => (o, false)
  | .msg t m :: es  => if (onMessageF sep o t m).2 then ((onMessageF sep o t m).1, true) else frun sep (onMessageF sep o t m).1 es
  | .device r :: es => frun sep { o with room := r } es
  | .repair :: es   => frun sep { o with bad := false } es

end Falcon.LogStream
