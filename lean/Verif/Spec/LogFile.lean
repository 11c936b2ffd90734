import Verif.Spec.LogTrace
import Verif.Spec.LogStream
/-
Specification vocabulary for a log file: who is left alone, what a listener received, what each thread logged, and how a
reader takes the file apart.
-/
namespace Falcon.Log

/-- Calls that register, unregister or configure listener `l`. -/
def Op.concerns (l : LId) : Op → Bool
  | .addListener k => decide (k = l)
  | .detach k      => decide (k = l)
  | .enable k _    => decide (k = l)
  | .llevel k _    => decide (k = l)
  | .category k _  => decide (k = l)
  | _              => false

/-- During `es` nobody registers, unregisters or configures `l`. -/
def LeftAlone (l : LId) (es : List Ev) : Prop := ∀ i op, .did i op ∈ es → op.concerns l = false

/-- The messages handed to listener `l`, in order. -/
def receivedBy (l : LId) (es : List Ev) : List Msg :=
  es.filterMap fun | .deliver k m => if k = l then some m else none | _ => none

/-- How many messages were served to all listeners. -/
def served (es : List Ev) : Nat := (es.filter fun | .done _ => true | _ => false).length

/-- The messages of thread `i` that came into the queue. -/
def acceptedBy (i : Nat) (es : List Ev) : List Msg :=
  es.filterMap fun | .accept j m => if j = i then some m else none | _ => none

/-- The messages thread `i` logged that are not above level `v`; for a message object of its own the level does not
matter. -/
def loggedBy (i : Nat) (v : Int) (es : List Ev) : List Msg :=
  es.filterMap fun
    | .call j (.log m)    => if j = i ∧ m.level ≤ v then some m else none
    | .call j (.logPtr m) => if j = i then some m else none
    | _ => none

end Falcon.Log

namespace Falcon.LogStream
open Falcon.Log (Str Msg)

/-- A stream on which a listener has written the given messages at the given times. -/
def written (sep : Char) (o : OS) (ms : List (Tm × Msg)) : OS := ms.foldl (fun o p => onMessage sep o p.1 p.2) o

/-- The part of a path after the last separator. -/
def afterLast (sep : Char) (path : Str) : Str := (path.reverse.takeWhile (fun c => decide (c ≠ sep))).reverse

/-- The lines of a file, each with its newline. -/
def fileLines : Str → List Str
  | []      => []
  | x :: xs => if x = '\n' then ['\n'] :: fileLines xs else
    match fileLines xs with
    | []      => [[x]]
    | l :: ls => (x :: l) :: ls

/-- What a reader sees of a message. -/
structure Seen where
  level : Str
  cat   : Str
  file  : Str
  line  : Int
  text  : Str
  deriving DecidableEq, Repr

/-- Reads a file line by line. -/
def readFile (s : Str) : List (Option Seen) :=
  (fileLines s).map fun l => (readLine l).map fun r => { level := r.level, cat := r.cat, file := r.file, line := r.line, text := r.text }

/-- What should be seen of a message. -/
def shouldSee (sep : Char) (m : Msg) : Seen :=
  { level := levelName m.level, cat := m.cat, file := afterLast sep m.file, line := m.line, text := m.text }

/-- The message can be told from what surrounds it: no line breaks, no closing parenthesis in the category, no colon and no
leading parenthesis in the file name. -/
def Legible (sep : Char) (m : Msg) : Prop :=
  '\n' ∉ m.cat ∧ '\n' ∉ m.file ∧ '\n' ∉ m.text ∧ ')' ∉ m.cat ∧ ':' ∉ afterLast sep m.file ∧ ∀ r, afterLast sep m.file ≠ '(' :: r

end Falcon.LogStream
