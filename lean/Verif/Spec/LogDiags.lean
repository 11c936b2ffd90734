import Verif.Spec.LogTrace
import Verif.Model.LogDiags
/-
Vocabulary for C137: what was true one after the other while the system was running.
-/
namespace Falcon.Log

/-- The events of the log system itself among everything observed. -/
def devs (es : List DEv) : List Ev := es.filterMap fun | .ev e => some e | _ => none

/-- Some execution goes from `s` to `s'`, observing `es`, and on its way comes through a state with the
first property, later or at once one with the second, and so on. -/
inductive Passes (rx : Rx) : St → List (St → Prop) → St → List Ev → Prop where
  | done {s s' es} : Exec rx s s' es → Passes rx s [] s' es
  | next {s s1 s' : St} {P Ps es1 es2} : Exec rx s s1 es1 → P s1 → Passes rx s1 Ps s' es2 →
      Passes rx s (P :: Ps) s' (es1 ++ es2)

/-- Moments in the loop over the active listeners `all`: with `done` paired with the answers of
isEnabled(). -/
def eachMoment (all : List LId) (done : List (LId × Bool)) : List (St → Prop) :=
  done.map fun p s => s.active = all ∧ (s.lst p.1).enabled = p.2

/-- The first moments of a call that returns `d`: messages created, discarded, listeners active. -/
def firstMoments (d : Diags) : List (St → Prop) :=
  [fun s => s.unpooled = d.msgsCreated, fun s => s.destroyed = d.msgsDiscarded, fun s => s.active.length = d.activeListeners]

/-- All the moments of a call that returns `d`; `asked` are the listeners it asked and their answers. -/
def moments (d : Diags) (asked : List (LId × Bool)) : List (St → Prop) :=
  firstMoments d ++ [fun s => s.active = asked.map Prod.fst] ++ eachMoment (asked.map Prod.fst) asked ++
  [fun s => s.received = d.msgReceived, fun s => s.maxQ = d.maxMsgQueueSize,
   fun s => s.pool.length = d.poolSize, fun s => s.pending.length = d.pendingListeners]

end Falcon.Log
