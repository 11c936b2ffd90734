import Verif.Model.TestCase
/-
Specification vocabulary for test cases: what a script does, read off the script alone.
-/
namespace Falcon.Fut

/-- What the test function does the next time it is run: it may depend on how often it ran before. -/
def nextScript (d : TestDef) (t : Nat) (w : World) : Script := d.script (w.tc t).runs

/-- The exception a statement lets out, if any. -/
def Act.thrown : Act → Option Exc
  | .thrw e => some e
  | .expectThrow (some e) false _ _ _ => some e
  | _ => none

/-- A text as far as it can be read when it ends at the first NUL. -/
def visible : Str → Str
  | [] => []
  | c :: cs => if c = '\x00' then [] else c :: visible cs

/-- The statement is a check that does not hold (or an explicit FAIL): where it stands, and its message. -/
def Act.failed : Act → Option (Str × Int × Str)
  | .check false f l e a => some (f, l, if visible a = [] then e else e ++ " (Actually \"".toList ++ visible a ++ "\")".toList)
  | .failNow f l m => some (f, l, m)
  | .expectThrow none _ f l ty => some (f, l, "Expected exception of type ".toList ++ ty ++ " wasn't thrown".toList)
  | .expectAnyThrow none f l => some (f, l, "No throw when any throw was expected".toList)
  | .expectNoThrow (some (.std what)) f l => some (f, l, "Exception thrown: \" ".toList ++ what ++ "\"".toList)
  | .expectNoThrow (some .other) f l => some (f, l, "Unknown exception thrown".toList)
  | _ => none

/-- A path behind its last separator. -/
def lastPart (sep : Char) : Str → Str
  | [] => []
  | c :: cs => if sep ∈ c :: cs then lastPart sep cs else c :: cs

/-- The function is left at this statement: by an exception, by `return`, or by a failed check of the
EXPECT_EQ kind, which returns. -/
def Act.leaves : Act → Bool
  | .ret => true
  | .check false _ _ _ _ => true
  | .thrw _ => true
  | .expectThrow (some _) false _ _ _ => true
  | _ => false

/-- The statements of a function that are executed. -/
def executed : List Act → List Act
  | [] => []
  | a :: as => if a.leaves then [a] else a :: executed as

/-- The exception a function lets out. -/
def threw (as : List Act) : Option Exc := (executed as).getLast?.bind Act.thrown

/-- The status a statement sets. -/
def Act.sets (a : Act) : Option Status :=
  match a with
  | .setStatus s => some s
  | .failCall _ _ _ => some .fail
  | a => if a.failed.isSome then some .fail else none

/-- The last status set by these statements. -/
def settled (as : List Act) : Option Status := (as.filterMap Act.sets).getLast?

/-- What these statements write to cerr / cout. -/
def errText (as : List Act) : Str := as.flatMap fun a => match a with | .err s => s | _ => []
def outText (as : List Act) : Str := as.flatMap fun a => match a with | .out s => s | _ => []

/-- The statement does not exchange the streams' buffers. -/
def Act.keepsStreams : Act → Bool
  | .redirOut _ | .redirErr _ => false
  | _ => true

/-- Neither does any statement of the script. -/
def Script.KeepsStreams (sc : Script) : Prop := ∀ a, a ∈ sc.setUp ++ sc.body ++ sc.tearDown → a.keepsStreams = true

/-- The test only uses checks, it does not set its status by hand. -/
def Act.checksOnly : Act → Bool
  | .setStatus _ => false
  | _ => true

def Script.ChecksOnly (sc : Script) : Prop := ∀ a, a ∈ sc.setUp ++ sc.body ++ sc.tearDown → a.checksOnly = true

/-- Some function of the script lets out an exception (a function is only called if those before it did
not). -/
def Script.throws (sc : Script) : Prop := (threw sc.setUp).isSome ∨ (threw sc.body).isSome ∨ (threw sc.tearDown).isSome

instance (sc : Script) : Decidable sc.throws := by unfold Script.throws; infer_instance

/-- What is executed of a script that does not throw. -/
def Script.all (sc : Script) : List Act := executed sc.setUp ++ executed sc.body ++ executed sc.tearDown

/-- What is executed of a script, whether it throws or not. -/
def Script.done (sc : Script) : List Act :=
  executed sc.setUp ++ (if (threw sc.setUp).isSome then [] else executed sc.body ++ (if (threw sc.body).isSome then [] else executed sc.tearDown))

end Falcon.Fut
