import Verif.Spec.LoggerJoint
import Verif.Spec.LogFair
/-
Vocabulary of C161: endless joint executions of threads and log system.
-/
namespace Falcon.LoggerJoint
open Falcon.Log (St Ev Rx LId)
open Falcon.Logger (W)

/-- An endless joint execution: threads, log system and everything observed until time `k`. At time `k` the scheduler
tries `g k`; if that is not possible (the thread is inside a call, or asleep) nothing happens. -/
def jforever (rx : Rx) (min : Int) (w : W) (s : St) (g : Nat → JAct) : Nat → W × St × List Ev
  | 0     => (w, s, [])
  | k + 1 =>
    let p := jforever rx min w s g k
    match jstep rx min p.1 p.2.1 (g k) with
    | none             => p
    | some (w', s', e) => (w', s', p.2.2 ++ e)

/-- Every thread, in its statements and in its calls, and the logging thread get to move again and again. -/
def Fair (n : Nat) (g : Nat → JAct) : Prop :=
  ∀ k, (∃ k', k ≤ k' ∧ g k' = .system .log) ∧
    ∀ i, i < n → (∃ k', k ≤ k' ∧ g k' = .compose i) ∧ ∃ k', k ≤ k' ∧ g k' = .system (.cli i)

/-- Nobody calls stop, changes the general level, or registers, unregisters or configures `l`. -/
def Undisturbed (l : LId) (g : Nat → JAct) : Prop :=
  ∀ k i op, g k = .system (.call i op) → op ≠ .stop ∧ op.concerns l = false ∧ ∀ v, op ≠ .level v

end Falcon.LoggerJoint
