import Verif.Spec.TestCase
/-
When a run of tests stays defined, read off the scripts of the tests. A test says where it failed by a failed check, FAIL() or
fail(file, line, ...); it can also declare itself failed with status(FAIL), which says nothing about the place.
-/
namespace Falcon.Fut

/-- The statement says where the test failed. -/
def Act.places : Act → Bool
  | .failCall _ _ _ => true
  | a => a.failed.isSome

/-- The test, run to its end, ends failed (and not because of an exception). -/
def Script.EndsFail (sc : Script) : Prop := ¬ sc.throws ∧ settled sc.all = some .fail

/-- The test says at least once where it failed. -/
def Script.Places (sc : Script) : Prop := ∃ a ∈ sc.done, a.places = true

instance (sc : Script) : Decidable sc.EndsFail := by unfold Script.EndsFail; infer_instance
instance (sc : Script) : Decidable sc.Places := by unfold Script.Places; infer_instance

/-- How often every test has run, and whether it has ever said where it failed. -/
structure Seen where
  runs   : Nat → Nat
  placed : Nat → Bool

/-- What is known at the start: the runs so far, and whether a place is on record. -/
def World.seen (w : World) : Seen := ⟨fun t => (w.tc t).runs, fun t => (w.tc t).failLine.isSome⟩

/-- After one more run of test t. -/
def Seen.after (s : Seen) (defs : Nat → TestDef) (t : Nat) : Seen :=
  ⟨fun u => if u = t then s.runs t + 1 else s.runs u,
   fun u => if u = t then s.placed t || decide ((defs t).script (s.runs t)).Places else s.placed u⟩

/-- Some test of the list, performed in this order, ends failed without ever having said where. -/
def Blind (defs : Nat → TestDef) : Seen → List Nat → Prop
  | _, [] => False
  | s, t :: ts => (((defs t).script (s.runs t)).EndsFail ∧ (s.after defs t).placed t = false) ∨ Blind defs (s.after defs t) ts

/-- After all tests of the list. -/
def Seen.afterAll (s : Seen) (defs : Nat → TestDef) (ts : List Nat) : Seen := ts.foldl (fun s t => s.after defs t) s

end Falcon.Fut
