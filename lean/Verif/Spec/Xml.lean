import Verif.Model.UnitTest
/-
A reader for the subset of XML the report uses: processing instructions, elements with attributes, text,
the predefined entities and numeric character references (XML 1.0, productions 1, 3, 10, 14, 16, 22, 39-43, 66-68).
It checks what XML demands of a well-formed document of that kind: one root element, matching tags, no
attribute twice, no `<` in attribute values, `&` only in references, no control characters, no `]]>` in text. Text that is
nothing but white space is dropped. Names are ASCII.
-/
namespace Falcon.Fut.Xml

inductive Tok where
  | start (name : Str) (attrs : List (Str × Str))
  | stop (name : Str)
  | text (s : Str)
  deriving DecidableEq, Repr

def isSpace (c : Char) : Bool := c == ' ' || c == '\t' || c == '\n' || c == '\r'
def nameStart (c : Char) : Bool := c.isAlpha || c == '_' || c == ':'
def nameChar (c : Char) : Bool := nameStart c || c.isDigit || c == '-' || c == '.'
/-- A character a document may contain at all. -/
def legal (c : Char) : Bool := isSpace c || 32 ≤ c.toNat

def blank (s : Str) : Bool := s.all isSpace

/-- What a reference `&e;` stands for. -/
def deref (e : Str) : Option Char :=
  if e = "lt".toList then some '<' else if e = "gt".toList then some '>' else if e = "amp".toList then some '&'
  else if e = "quot".toList then some '"' else if e = "apos".toList then some '\''
  else match e with
    | '#' :: 'x' :: d :: ds => if (d :: ds).all (fun c => c.isDigit || ('a' ≤ c && c ≤ 'f') || ('A' ≤ c && c ≤ 'F')) then some (Char.ofNat (Nat.ofDigitChars 16 (d :: ds) 0)) else none
    | '#' :: d :: ds => if (d :: ds).all Char.isDigit then some (Char.ofNat (Nat.ofDigitChars 10 (d :: ds) 0)) else none
    | _ => none

/-- Where the reader is. -/
inductive Mode where
  | text (t : Str)                                                        -- in text; what was read of it
  | textRef (t e : Str)                                                   -- behind & in text
  | lt                                                                    -- behind <
  | pi (q : Bool)                                                         -- in <? ... ; the last character was ?
  | name (n : Str)                                                        -- in the name of a start tag
  | attrs (n : Str) (as : List (Str × Str))                               -- in a start tag, behind white space
  | aname (n : Str) (as : List (Str × Str)) (a : Str)                     -- in the name of an attribute
  | aeq (n : Str) (as : List (Str × Str)) (a : Str)                       -- behind it
  | aval (n : Str) (as : List (Str × Str)) (a : Str)                      -- behind =
  | val (n : Str) (as : List (Str × Str)) (a : Str) (q : Char) (v : Str)  -- in a value, quoted by q
  | valRef (n : Str) (as : List (Str × Str)) (a : Str) (q : Char) (v e : Str)
  | aend (n : Str) (as : List (Str × Str))                                -- behind a value
  | slash (n : Str) (as : List (Str × Str))                               -- behind / in a start tag
  | cname (n : Str)                                                       -- in the name of an end tag
  | cend (n : Str)                                                        -- behind it
  deriving DecidableEq, Repr

/-- What was read, the open elements, innermost first, and where the reader is. -/
structure P where
  toks  : List Tok := []
  stack : List Str := []
  mode  : Mode := .text []
  deriving DecidableEq, Repr

/-- A start tag is complete; there is one root element. -/
def P.open (p : P) (n : Str) (as : List (Str × Str)) : Option P :=
  if p.stack = [] ∧ p.toks ≠ [] then none else some { toks := p.toks ++ [.start n as], stack := n :: p.stack, mode := .text [] }

/-- An end tag is complete. -/
def P.close (p : P) (n : Str) : Option P :=
  match p.stack with
  | [] => none
  | m :: s => if m = n then some { toks := p.toks ++ [.stop n], stack := s, mode := .text [] } else none

/-- A value is complete; no attribute comes twice. -/
def P.value (p : P) (n : Str) (as : List (Str × Str)) (a v : Str) : Option P :=
  if as.any (fun x => x.1 == a) then none else some { p with mode := .aend n (as ++ [(a, v)]) }

/-- Reading one character. -/
def P.step (p : P) (c : Char) : Option P :=
  if legal c = false then none else
  match p.mode with
  | .text t =>
    if c = '<' then
      if blank t then some { p with mode := .lt }
      else if p.stack = [] then none else some { p with toks := p.toks ++ [.text t], mode := .lt }
    else if c = '&' then some { p with mode := .textRef t [] }
    else if c = '>' ∧ "]]".toList <:+ t then none
    else some { p with mode := .text (t ++ [c]) }
  | .textRef t e =>
    if c = ';' then (deref e).map (fun r => { p with mode := .text (t ++ [r]) })
    else if c.isAlphanum ∨ c = '#' then some { p with mode := .textRef t (e ++ [c]) }
    else none
  | .lt =>
    if c = '/' then some { p with mode := .cname [] }
    else if c = '?' then some { p with mode := .pi false }
    else if nameStart c then some { p with mode := .name [c] }
    else none
  | .pi q => if c = '>' ∧ q then some { p with mode := .text [] } else some { p with mode := .pi (c == '?') }
  | .name n =>
    if isSpace c then some { p with mode := .attrs n [] }
    else if c = '>' then p.open n []
    else if c = '/' then some { p with mode := .slash n [] }
    else if nameChar c then some { p with mode := .name (n ++ [c]) }
    else none
  | .attrs n as =>
    if isSpace c then some p
    else if c = '>' then p.open n as
    else if c = '/' then some { p with mode := .slash n as }
    else if nameStart c then some { p with mode := .aname n as [c] }
    else none
  | .aname n as a =>
    if c = '=' then some { p with mode := .aval n as a }
    else if isSpace c then some { p with mode := .aeq n as a }
    else if nameChar c then some { p with mode := .aname n as (a ++ [c]) }
    else none
  | .aeq n as a =>
    if c = '=' then some { p with mode := .aval n as a }
    else if isSpace c then some p
    else none
  | .aval n as a =>
    if c = '"' ∨ c = '\'' then some { p with mode := .val n as a c [] }
    else if isSpace c then some p
    else none
  | .val n as a q v =>
    if c = q then p.value n as a v
    else if c = '<' then none
    else if c = '&' then some { p with mode := .valRef n as a q v [] }
    else some { p with mode := .val n as a q (v ++ [if isSpace c then ' ' else c]) }
  | .valRef n as a q v e =>
    if c = ';' then (deref e).map (fun r => { p with mode := .val n as a q (v ++ [r]) })
    else if c.isAlphanum ∨ c = '#' then some { p with mode := .valRef n as a q v (e ++ [c]) }
    else none
  | .aend n as =>
    if isSpace c then some { p with mode := .attrs n as }
    else if c = '>' then p.open n as
    else if c = '/' then some { p with mode := .slash n as }
    else none
  | .slash n as => if c = '>' then (p.open n as).bind (fun p => p.close n) else none
  | .cname n =>
    if c = '>' then p.close n
    else if isSpace c then some { p with mode := .cend n }
    else if nameChar c then some { p with mode := .cname (n ++ [c]) }
    else none
  | .cend n => if c = '>' then p.close n else if isSpace c then some p else none

def P.read (p : P) : Str → Option P
  | [] => some p
  | c :: cs => (p.step c).bind (fun p => p.read cs)

/-- The document is complete: the root element was closed and nothing but white space came behind it. -/
def P.finish (p : P) : Option (List Tok) :=
  match p.mode with
  | .text t => if p.stack = [] ∧ p.toks ≠ [] ∧ blank t then some p.toks else none
  | _ => none

/-- The elements and texts of a document, `none` if it is not well formed. -/
def read (s : Str) : Option (List Tok) := (P.read {} s).bind P.finish

/-- The word for a status, as the documentation of TestCase has it. -/
def statusWord : Status → Str
  | .none => "NONE".toList
  | .success => "SUCCESS".toList
  | .fail => "FAIL".toList
  | .error => "EXCEMPTION".toList
  | .outOnError => "STREAM-ERROR".toList

/-- An integer in decimal. -/
def decimal : Int → Str
  | .ofNat n => Nat.toDigits 10 n
  | .negSucc n => '-' :: Nat.toDigits 10 (n + 1)

/-- What an application that knows the results expects to read in the report. -/
def caseToks (fmt : Fmt) (defs : Nat → TestDef) (u : UT) (w : World) (cn : Str) (t : Nat) : List Tok :=
  [.start "testcase".toList [("id".toList, u.id ++ ".".toList ++ cn ++ ".".toList ++ (defs t).caseName), ("name".toList, (defs t).caseName), ("time".toList, fmt.g6 (w.tc t).lapse.elapsed)]] ++
  (if (w.tc t).status = .success then [] else
    [.start "failure".toList [("message".toList, (w.tc t).failDesc), ("type".toList, statusWord (w.tc t).status)],
     .text ("\n".toList ++ (w.tc t).failDesc ++ "\nFile: ".toList ++ (w.tc t).failFile ++ "\nLine: ".toList ++ decimal ((w.tc t).failLine.getD 0) ++ "\n".toList),
     .stop "failure".toList]) ++
  [.stop "testcase".toList]

def compToks (fmt : Fmt) (defs : Nat → TestDef) (u : UT) (w : World) (c : Comp) : List Tok :=
  [.start "testsuite".toList [("id".toList, u.id ++ ".".toList ++ c.name), ("name".toList, c.name), ("tests".toList, Nat.toDigits 10 c.tests.length),
    ("failures".toList, Nat.toDigits 10 c.failures), ("time".toList, fmt.g6 c.lapse.elapsed)]] ++
  c.tests.flatMap (caseToks fmt defs u w c.name) ++ [.stop "testsuite".toList]

def reportToks (fmt : Fmt) (defs : Nat → TestDef) (u : UT) (w : World) : List Tok :=
  [.start "testsuites".toList [("id".toList, u.id), ("name".toList, u.name), ("tests".toList, Nat.toDigits 10 u.toPerform.length),
    ("failures".toList, Nat.toDigits 10 (u.failedCount.getD 0)), ("time".toList, fmt.g6 u.lapse.elapsed)]] ++
  u.comps.flatMap (compToks fmt defs u w) ++ [.stop "testsuites".toList]

/-- A text without quote, ampersand, less-than and control characters. -/
def Plain (s : Str) : Prop := ∀ c ∈ s, c ≠ '"' ∧ c ≠ '&' ∧ c ≠ '<' ∧ 32 ≤ c.toNat

/-- Everything the report takes from the tests is plain, except perhaps the failure descriptions; no `]]>` anywhere. -/
structure PlainNames (fmt : Fmt) (defs : Nat → TestDef) (u : UT) (w : World) : Prop where
  time : ∀ ms, Plain (fmt.g6 ms)
  id : Plain u.id
  name : Plain u.name
  comp : ∀ c ∈ u.comps, Plain c.name
  case : ∀ c ∈ u.comps, ∀ t ∈ c.tests, Plain (defs t).caseName
  file : ∀ c ∈ u.comps, ∀ t ∈ c.tests, (w.tc t).status ≠ .success → Plain (w.tc t).failFile
  cdata : ∀ c ∈ u.comps, ∀ t ∈ c.tests, (w.tc t).status ≠ .success → ¬ "]]>".toList <:+: (w.tc t).failDesc ∧ ¬ "]]>".toList <:+: (w.tc t).failFile

end Falcon.Fut.Xml
