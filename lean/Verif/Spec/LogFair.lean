import Verif.Spec.LogTrace
/-
Vocabulary of C150 and C151: endless executions of the log system.
-/
namespace Falcon.Log

/-- An endless execution: the state at time `k` and everything observed until then. At time `k` the scheduler tries
`f k`; if that is not possible (the thread is blocked, or asleep) nothing happens. -/
def forever (rx : Rx) (s0 : St) (f : Nat → Act) : Nat → St × List Ev
  | 0     => (s0, [])
  | k + 1 =>
    let p := forever rx s0 f k
    match step rx p.1 (f k) with
    | none         => p
    | some (s', e) => (s', p.2 ++ [e])

/-- Again and again. -/
def Often (f : Nat → Act) (a : Act) : Prop := ∀ k, ∃ k', k ≤ k' ∧ f k' = a

/-- Messages that all listeners have been asked about, in order. -/
def finished (es : List Ev) : List Msg :=
  es.filterMap fun | .done m => some m | _ => none

/-- onMessage(m) was called on `l` while message number `j` (the first has number 0) was processed. -/
def Delivered (l : LId) (m : Msg) (j : Nat) (es : List Ev) : Prop :=
  ∃ pre post, es = pre ++ Ev.deliver l m :: post ∧ (dispatched pre).length = j + 1

/-- Somebody has called stop(). -/
def StopCalled (es : List Ev) : Prop := ∃ i, Ev.call i .stop ∈ es

/-- start() has been called. -/
def StartCalled (es : List Ev) : Prop := ∃ i, Ev.did i .start ∈ es

/-- How often start() has been called. -/
def starts (es : List Ev) : Nat := (es.filter fun | .did _ .start => true | _ => false).length

/-- Client `i` is inside stop(). -/
def InStop (s : St) (i : Nat) : Prop :=
  s.cl[i]? = some .stopSet ∨ s.cl[i]? = some .stopNotify ∨ s.cl[i]? = some .stopLock ∨ s.cl[i]? = some .stopJoin

end Falcon.Log
