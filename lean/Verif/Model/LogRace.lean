import Verif.Model.LogSystem
import Verif.Spec.DataRace
/-
Memory accesses of `falcon::LogSystem` and its listeners (logsystem.h 170-177, 266-291;
logsystem.cpp 56-274): which step of Model/LogSystem.lean reads and writes which data member, and
which mutex is held meanwhile; and two functions that model has as one step or not at all,
getDiags() and category().

Left out: the reference counts of the shared pointers and the synchronisation objects themselves
(atomic or synchronised by the library), `std::cout` (208), and a Message object before the step
that creates it is over (31, 225: no other thread knows it).
-/
namespace Falcon.Log

/-- Memory locations: the data members logsystem.h 266-285 and 170-175 (per listener; `m_category` and
`m_catRegex` as one), and the Message objects. -/
inductive Loc where
  | level | unpooled | destroyed
  | maxQ | received | queue | terminated | pool | pending | active
  | thread                                    -- m_logThread
  | lCategory (l : LId) | lLevel (l : LId) | lEnabled (l : LId) | lDetached (l : LId)
  | msg (a : Addr)
  deriving DecidableEq, Repr

/-- Mutexes: logsystem.h 276, 278, 287, 290 and 171. -/
inductive Mtx where
  | message | pool | thread | listeners
  | category (l : LId)
  deriving DecidableEq, Repr

/-- logsystem.cpp 56-274. -/
abbrev Acc := Race.Access Loc Mtx

/-- A plain read with these mutexes held. logsystem.cpp 56-274. -/
def rd (x : Loc) (h : List Mtx := []) : Acc := ⟨x, false, false, h⟩
/-- A plain write. logsystem.cpp 56-274. -/
def wr (x : Loc) (h : List Mtx := []) : Acc := ⟨x, true, false, h⟩
/-- Atomic reads and writes: `std::atomic` members, logsystem.h 266-268, 173-175. -/
def ard (x : Loc) : Acc := ⟨x, false, true, []⟩
/-- See `ard`: logsystem.h 266-268, 173-175. -/
def awr (x : Loc) : Acc := ⟨x, true, true, []⟩

/-- Accesses of a call as it begins: addListener 137-143, level (logsystem.h 216), category 122-133
(the new expression is compiled before anything is written), enable, detach, level 143-163, start 56-61. -/
def callFoot (rx : Rx) (s : St) : Op → List Acc
  | .log _ | .logPtr _ | .stop => []
  | .addListener _ => [wr .pending [.listeners]]
  | .level _ => [awr .level]
  | .enable l _ => [awr (.lEnabled l)]
  | .detach l => [awr (.lDetached l)]
  | .llevel l _ => [awr (.lLevel l)]
  | .category l re => if rx.valid re then [wr (.lCategory l) [.category l]] else []
  | .start =>
    match s.lt with
    | .none => [rd .thread [.thread], wr .thread [.thread]]
    | _     => [rd .thread [.thread]]

/-- Accesses of the next step of a call: log 85-105, allocateMsg 214-226, stop 64-82. -/
def cliFoot (s : St) : CPc → List Acc
  | .idle => []
  | .check _ => [ard .level]
  | .alloc _ => if s.pool = [] then [rd .pool [.pool], awr .unpooled] else [rd .pool [.pool], wr .pool [.pool]]
  | .construct _ a => [wr (.msg a)]
  | .extNew _ => []
  | .enqueue _ _ => [wr .queue [.message], rd .maxQ [.message], wr .maxQ [.message]]
  | .stopSet => [wr .terminated [.message]]
  | .stopNotify => []
  | .stopLock => [rd .thread [.thread]]
  | .stopJoin => [rd .thread [.thread], wr .thread [.thread]]

/-- Accesses of the logging thread's next step: loggingThread 147-177, processNewListeners 180-186,
sendMessageToListeners 188-199, checkCategory 201-210, disposeMsg 229-240, cleanupTerminatedListeners
243-250 (remove_if moves the elements as it goes).  Simplification: steps whose event in
Model/LogSystem.lean names the message count as reading it. -/
def logFoot (s : St) : List Acc :=
  match s.lt with
  | .none | .exited | .wait false => []
  | .top | .wait true => [rd .queue [.message], rd .terminated [.message], wr .queue [.message]]
  | .got a => [rd (.msg a), rd .pending [.listeners], wr .active [.listeners], wr .pending [.listeners], wr .received, rd .active]
  | .send a _ => [rd (.msg a), rd .active]
  | .test a l .enabled _ => [rd (.msg a), ard (.lEnabled l)]
  | .test a l .level _ => [ard (.lLevel l), rd (.msg a)]
  | .test a l .category _ =>
    match s.heap a with
    | some m => if m.cat = [] then [rd (.msg a)] else [rd (.msg a), rd (.lCategory l) [.category l]]
    | none   => [rd (.msg a)]
  | .test a _ .call _ => [rd (.msg a)]
  | .clean _ _ (l :: _) => [rd .active, ard (.lDetached l), wr .active]
  | .clean _ _ [] => [wr .active]
  | .dispose a =>
    if s.pool.length < threshold then [rd .pool [.pool], wr .pool [.pool]]
    else [rd .pool [.pool], awr .destroyed, wr (.msg a)]

/-- Accesses of a step. logsystem.cpp 56-250. -/
def foot (rx : Rx) (s : St) : Act → List Acc
  | .call _ op => callFoot rx s op
  | .cli i     => match s.cl[i]? with | some pc => cliFoot s pc | none => []
  | .log       => logFoot s
  | .spurious  => []

/-- Which thread makes the step: a client, or (`none`) the logging thread. logsystem.cpp 56-250. -/
def Act.thread : Act → Option Nat
  | .call i _ => some i
  | .cli i    => some i
  | .log      => none
  | .spurious => none

/-- What other functions of the API read. `diags`: getDiags() 253-274. `category l`: the text
category() returns a reference to (logsystem.h 138-141), read by the caller when the mutex has been
released. -/
inductive Query where
  | diags
  | category (l : LId)
  | levels (l : LId)          -- level(), isEnabled(), isDetached(), logsystem.h 145-164, 219
  deriving DecidableEq, Repr

/-- Accesses of a query: getDiags 253-274, category logsystem.h 138-141, the getters 145-164, 219. -/
def queryFoot (s : St) : Query → List Acc
  | .diags => [ard .unpooled, ard .destroyed, rd .active] ++ (s.active.map fun l => ard (.lEnabled l)) ++
      [rd .received, rd .maxQ [.message], rd .pool [.pool], rd .pending [.listeners]]
  | .category l => [rd (.lCategory l)]
  | .levels l => [ard .level, ard (.lLevel l), ard (.lEnabled l), ard (.lDetached l)]

end Falcon.Log
