import Verif.Model.FutNested
/-
What a record of a run says, independently of the runner. The record names the moments at which the
runner's results were reset and at which tests began and ended, in the order of time.
-/
namespace Falcon.Fut

/-- A test failed after the results were last reset. -/
def FailedSinceReset (evs : List FEv) : Prop :=
  ∃ pre nested t post, evs = pre ++ .ended nested t false :: post ∧ FEv.reset ∉ post

/-- The failures of tests the run itself performed, since the last reset. -/
def runFailuresSinceReset (evs : List FEv) : Nat :=
  (evs.reverse.takeWhile (fun e => decide (e ≠ .reset))).countP (fun e => match e with | .ended false _ false => true | _ => false)

/-- The last thing the record says about test `t`, not counting what a reset wiped out, is that it passed. -/
def StandsPassed (t : Nat) (evs : List FEv) : Prop :=
  ∃ pre nested post, evs = pre ++ .ended nested t true :: post ∧ FEv.reset ∉ post ∧ ∀ n p, FEv.ended n t p ∉ post

/-- The verdicts on the tests the run itself performed (not those performed by other tests), in the order of time. -/
def runVerdicts (evs : List FEv) : List (Nat × Bool) :=
  evs.filterMap fun
    | .ended false t p => some (t, p)
    | _ => none

/-- The results were never reset after a failure. -/
def ResetsFirst (evs : List FEv) : Prop := ∀ pre post nested t, evs = pre ++ .reset :: post → FEv.ended nested t false ∉ pre

/-- The tests under way after the record, the innermost first; `none` once a test is begun while it is under way. -/
def underWay : List FEv → Option (List Nat) :=
  List.foldl (fun st e => match st, e with
    | none, _ => none
    | some st, .reset | some st, .verbose _ => some st
    | some st, .began _ t => if t ∈ st then none else some (t :: st)
    | some st, .ended _ _ _ => some st.tail) (some [])

/-- No test is performed, directly or not, by itself. -/
def NeverReentered (evs : List FEv) : Prop := underWay evs ≠ none

/-- The verbosity after the record, if it was `v` before. -/
def lastVerbosity (v : Nat) (evs : List FEv) : Nat := ((evs.filterMap (fun e => match e with | .verbose v => some v | _ => none)).getLast?).getD v

/-- Statements that call performTest. -/
def NAct.calls : NAct → Bool
  | .perform _ | .performEq .. => true
  | _ => false

/-- Statements that may undo a failure noted by the test: calls of performTest, and status(s) by hand. -/
def NAct.mayClear : NAct → Bool
  | .perform _ | .performEq .. | .act (.setStatus _) => true
  | _ => false

/-- The statements of a test. -/
def NScript.all (sc : NScript) : List NAct := sc.setUp ++ sc.body ++ sc.tearDown

/-- A test that does not redirect std::cout or std::cerr itself. -/
def NScript.KeepsStreams (sc : NScript) : Prop := ∀ a ∈ sc.all, ∀ b, a ≠ .act (.redirOut b) ∧ a ≠ .act (.redirErr b)

/-- Test `t` executes the statements `as` one after the other, from `s` to `s'`, and goes on behind them. -/
inductive Goes (env : Env) (perf : Perf) (t : Nat) : NSt → List NAct → NSt → Prop
  | nil (s : NSt) : Goes env perf t s [] s
  | cons {s s1 s2 : NSt} {a : NAct} {as : List NAct} : nact env perf t s a = .ok (s1, .go) → Goes env perf t s1 as s2 → Goes env perf t s (a :: as) s2

/-- In its run from state `s`, test() of test `t` comes to the statement behind `pre`, in state `s1`. -/
def ReachesInBody (env : Env) (perf : Perf) (d : NDef) (t : Nat) (s : NSt) (pre : List NAct) (s1 : NSt) : Prop :=
  ∃ s0, Goes env perf t { s with w := enter (s.w.setTc t { s.w.tc t with status := .none, runs := (s.w.tc t).runs + 1 }) (.setUp t) }
      (d.script (s.w.tc t).runs).setUp s0 ∧
    Goes env perf t { s0 with w := enter (markBegin env s0.w t) (.body t) } pre s1

/-- A test of the plain model as one of this model. -/
def Script.nest (sc : Script) : NScript := ⟨sc.setUp.map .act, sc.body.map .act, sc.tearDown.map .act⟩

/-- A test of the plain model as one of this model. -/
def TestDef.nest (d : TestDef) : NDef := ⟨d.component, d.caseName, fun k => (d.script k).nest⟩

end Falcon.Fut
