import Verif.Model.Code
/- Specification vocabulary for code objects: plain value semantics, and the words of a text. -/
namespace Falcon.Code

/-- A text a Code object can hold: it fits and has no terminator inside. -/
def Holdable (s : Str) : Prop := s.length < 1000 ∧ '\x00' ∉ s

/-- Value semantics: a variable holds a text, or (`some none`) was moved from. -/
structure Ideal where
  val : Nat → Option (Option Str) := fun _ => none
  out : List Str := []

/-- The statement `o` takes the ideal state `a` to `b` (only what the real program has to follow). A
copy or assignment that would have to duplicate a text is not among these statements. -/
inductive Ideal.Step : Ideal → Op → Ideal → Prop
  | new {a x t l} : a.val x = none → Holdable t → Step a (.new x t l) ⟨fun y => if y = x then some (some t) else a.val y, a.out⟩
  | move {a x y v} : a.val x = none → a.val y = some v →
      Step a (.move x y) ⟨fun z => if z = x then some v else if z = y then some none else a.val z, a.out⟩
  | copyMoved {a x y} : a.val x = none → a.val y = some none → Step a (.copy x y) ⟨fun z => if z = x then some none else a.val z, a.out⟩
  | assignSelf {a x v} : a.val x = some v → Step a (.assign x x) a
  | assignMoved {a x y} : a.val x = some none → a.val y = some none → Step a (.assign x y) a
  | del {a x v} : a.val x = some v → Step a (.del x) ⟨fun y => if y = x then none else a.val y, a.out⟩
  | use {a x t} : a.val x = some (some t) → Step a (.use x) ⟨a.val, a.out ++ [t]⟩

inductive Ideal.Run : Ideal → List Op → Ideal → Prop
  | nil {a} : Run a [] a
  | cons {a b c o os} : Step a o b → Run b os c → Run a (o :: os) c

/-- A blank: space, tab, new line, vertical tab, form feed, carriage return. -/
def isBlank (c : Char) : Bool := [' ', '\t', '\n', '\x0b', '\x0c', '\r'].contains c

/-- The words of a text: maximal non-empty pieces without characters satisfying `sep`, in order. -/
inductive WordsP (sep : Char → Bool) : Str → List Str → Prop
  | nil {t} : (∀ c ∈ t, sep c = true) → WordsP sep t []
  | cons {sp w rest ws} : (∀ c ∈ sp, sep c = true) → w ≠ [] → (∀ c ∈ w, sep c = false) →
      (∀ c r, rest = c :: r → sep c = true) → WordsP sep rest ws → WordsP sep (sp ++ w ++ rest) (w :: ws)

/-- The words of a text. -/
abbrev Words := WordsP isBlank

/-- Reading one word from stream `i` gives `w` and leaves the stream as `j`. A stream that is not good gives nothing. Otherwise blanks are skipped
(unless skipws is off) and characters taken up to a blank, the end of the text or the width; eof tells that the end was met, fail that there was no word. -/
def OneWord (i : IStream) (w : Str) (j : IStream) : Prop :=
  j.skipws = i.skipws ∧ j.excEof = i.excEof ∧ j.excFail = i.excFail ∧
  if i.eof = true ∨ i.fail = true then w = [] ∧ j.rest = i.rest ∧ j.eof = i.eof ∧ j.fail = true ∧ j.width = i.width
  else ∃ sp, i.rest = sp ++ w ++ j.rest ∧ (∀ c ∈ sp, isBlank c = true) ∧ (i.skipws = false → sp = []) ∧
    (i.skipws = true → ∀ c, (w ++ j.rest).head? = some c → isBlank c = false) ∧ (∀ c ∈ w, isBlank c = false) ∧ (i.width ≠ 0 → w.length ≤ i.width) ∧
    (j.rest = [] ∨ (∃ c, j.rest.head? = some c ∧ isBlank c = true) ∨ (i.width ≠ 0 ∧ w.length = i.width)) ∧
    (j.eof = true ↔ j.rest = [] ∧ ¬ (i.width ≠ 0 ∧ w.length = i.width)) ∧ (j.fail = true ↔ w = []) ∧
    j.width = if i.skipws = true ∧ w = [] then i.width else 0

/-- The stream throws in this state. -/
def IStream.throws (j : IStream) : Prop := (j.eof = true ∧ j.excEof = true) ∨ (j.fail = true ∧ j.excFail = true)

end Falcon.Code
