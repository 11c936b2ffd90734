import Verif.Model.LogSystem
/-
Vocabulary for the statements about the log system: executions and what can be read off the
sequence of observed events.
-/
namespace Falcon.Log

/-- `Exec rx s0 s es`: some schedule leads from `s0` to `s` while `es` is observed. -/
inductive Exec (rx : Rx) (s0 : St) : St → List Ev → Prop where
  | nil : Exec rx s0 s0 []
  | snoc {s s' es a e} : Exec rx s0 s es → step rx s a = some (s', e) → Exec rx s0 s' (es ++ [e])

/-- Messages appended to the queue, in order. -/
def accepted (es : List Ev) : List Msg :=
  es.filterMap fun | .accept _ m => some m | _ => none

/-- Messages the logging thread has started to process, in order. -/
def dispatched (es : List Ev) : List Msg :=
  es.filterMap fun | .dispatch m _ => some m | _ => none

/-- Calls of `onMessage`, in order. -/
def deliveries (es : List Ev) : List (LId × Msg) :=
  es.filterMap fun | .deliver l m => some (l, m) | _ => none

/-- Number of `onMessage` calls on listener `l`. -/
def deliveredTo (l : LId) (es : List Ev) : Nat := ((deliveries es).filter fun p => p.1 = l).length

/-- Number of addListener(l) calls. -/
def addCalls (l : LId) (es : List Ev) : Nat :=
  (es.filter fun | .did _ (.addListener k) => k = l | _ => false).length

/-- Length of the queue and its maximum so far, from appends and removals alone. -/
def watermark (es : List Ev) : Nat × Nat :=
  es.foldl (fun p e => match e with
    | .accept _ _ => (p.1 + 1, max p.2 (p.1 + 1))
    | .take       => (p.1 - 1, p.2)
    | _           => p) (0, 0)

/-- Does a listener with configuration `c` want message `m`? Level and category rule as
documented: an empty filter or a message without category always passes. -/
def Wants (rx : Rx) (c : Lst) (m : Msg) : Prop :=
  c.enabled = true ∧ m.level ≤ c.level ∧ (m.cat = [] ∨ c.category = [] ∨ rx.full c.category m.cat = true)

/-! ### the configuration, read off the history

What the calls that have returned so far amount to, without looking at the state. -/

/-- System level: the last level(n), 5 (trace) if there was none. -/
def levelIn (es : List Ev) : Int :=
  es.foldl (fun v e => match e with | .did _ (.level n) => n | _ => v) 5

/-- Listener level: the last level(n) on `l`, 5 if there was none. -/
def listenerLevelIn (l : LId) (es : List Ev) : Int :=
  es.foldl (fun v e => match e with | .did _ (.llevel k n) => if k = l then n else v | _ => v) 5

/-- Enabled: the last enable/disable on `l`, enabled if there was none. -/
def enabledIn (l : LId) (es : List Ev) : Bool :=
  es.foldl (fun v e => match e with | .did _ (.enable k b) => if k = l then b else v | _ => v) true

/-- Category filter: the last category(re) on `l` that did not throw, empty if there was none. -/
def categoryIn (l : LId) (es : List Ev) : Str :=
  es.foldl (fun v e => match e with | .did _ (.category k re) => if k = l then re else v | _ => v) []

/-- detach() was called on `l`. -/
def detachedIn (l : LId) (es : List Ev) : Bool :=
  es.any fun e => match e with | .did _ (.detach k) => decide (k = l) | _ => false

/-- The listeners passed to addListener, in order, with repetitions. -/
def added (es : List Ev) : List LId :=
  es.filterMap fun | .did _ (.addListener l) => some l | _ => none

/-- Effect of one event on the listeners (taken into service, waiting to be taken into service). -/
def regStep (p : List LId × List LId) : Ev → List LId × List LId
  | .did _ (.addListener l) => (p.1, p.2 ++ [l])
  | .dispatch _ _           => (p.1 ++ p.2, [])
  | _                       => p

/-- The listeners added before, and since, the logging thread last began to process a message. -/
def registeredIn (es : List Ev) : List LId × List LId := es.foldl regStep ([], [])

/-- Does listener `l`, configured by the calls in `es`, want message `m`? -/
def WantsIn (rx : Rx) (l : LId) (es : List Ev) (m : Msg) : Prop :=
  enabledIn l es = true ∧ m.level ≤ listenerLevelIn l es ∧
    (m.cat = [] ∨ categoryIn l es = [] ∨ rx.full (categoryIn l es) m.cat = true)

instance (rx : Rx) (l : LId) (es : List Ev) (m : Msg) : Decidable (WantsIn rx l es m) := by
  unfold WantsIn; infer_instance

/-- Protocol of the logging thread: a round starts with a message and a list of listeners; the
listeners are served strictly in order; each is asked whether it is enabled, then its level, then
its category, and `onMessage` is called exactly when all three were positive. -/
inductive Round where
  | idle
  | serving (m : Msg) (rem : List LId)
  | asking (m : Msg) (l : LId) (st : Stage) (rem : List LId)
  deriving DecidableEq, Repr

def Round.next (r : Round) (e : Ev) : Option Round :=
  match e with
  | .dispatch m ls => if r = .idle then some (.serving m ls) else none
  | .tested l m .enabled b =>
    match r with
    | .serving m' (l' :: rem) =>
      if l = l' ∧ m = m' then some (if b then .asking m l .level rem else .serving m rem) else none
    | _ => none
  | .tested l m .level b =>
    match r with
    | .asking m' l' .level rem =>
      if l = l' ∧ m = m' then some (if b then .asking m l .category rem else .serving m rem) else none
    | _ => none
  | .tested l m .category b =>
    match r with
    | .asking m' l' .category rem =>
      if l = l' ∧ m = m' then some (if b then .asking m l .call rem else .serving m rem) else none
    | _ => none
  | .tested _ _ .call _ => none
  | .deliver l m =>
    match r with
    | .asking m' l' .call rem => if l = l' ∧ m = m' then some (.serving m rem) else none
    | _ => none
  | .done m => if r = .serving m [] then some .idle else none
  | _ => some r

def Round.run : Round → List Ev → Option Round
  | r, []      => some r
  | r, e :: es => match r.next e with
    | none    => none
    | some r' => Round.run r' es

/-- Protocol of one client's log call: the call is either rejected, or passes and then exactly its
message is accepted, once. -/
inductive Call where
  | out
  | checking (m : Msg)
  | sending (m : Msg)
  deriving DecidableEq, Repr

def Call.next (i : Nat) (c : Call) (e : Ev) : Option Call :=
  match e with
  | .call j (.log m)    => if j = i then (if c = .out then some (.checking m) else none) else some c
  | .call j (.logPtr m) => if j = i then (if c = .out then some (.sending m) else none) else some c
  | .reject j m         => if j = i then (if c = .checking m then some .out else none) else some c
  | .pass j m           => if j = i then (if c = .checking m then some (.sending m) else none) else some c
  | .accept j m         => if j = i then (if c = .sending m then some .out else none) else some c
  | _                   => some c

def Call.run (i : Nat) : Call → List Ev → Option Call
  | c, []      => some c
  | c, e :: es => match Call.next i c e with
    | none    => none
    | some c' => Call.run i c' es

instance (rx : Rx) (c : Lst) (m : Msg) : Decidable (Wants rx c m) := by unfold Wants; infer_instance

/-- The call changes what some listener accepts. -/
def isConfig : Op → Bool
  | .enable _ _ | .llevel _ _ | .category _ _ => true
  | _ => false

end Falcon.Log
