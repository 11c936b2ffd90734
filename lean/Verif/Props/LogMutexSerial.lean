import Verif.Proofs.LogMutexSerial
import Verif.Props.LogMutexReact
/- C170: listeners are called one at a time, and what they call takes place once, in the order in which they call it. -/
namespace Falcon.LogM
open Falcon.Log (Str Addr LId Msg Rx Lst Op Ev Stage Mtx)

variable {rx : Rx} {n : Nat} {t b : Bool} {r r1 r2 : FRst} {as bs : List FRAct} {es es1 es2 : List Ev} {a : FRAct}

/-- C170: a listener begins to work exactly when its onMessage is called: by the logging thread, out of its loop, when no other listener is at work; and
it does what that call is to do. -/
theorem C170_called (h : FRExec rx n (frinit n t b) r as es) (hs : frstep rx n r a = some (r1, es1)) :
    ((∃ l m, .deliver l m ∈ es1) ↔ r.cur = none ∧ r1.cur ≠ none) ∧
    ((∃ l m, .deliver l m ∈ es1) → ∃ d, a = .log d ∧ r1.cur = some d ∧ r1.base.cl[n]? = some .idle) := by
  obtain ⟨h1, h2⟩ := entered_step hs
  refine ⟨h1, fun hd => ?_⟩
  obtain ⟨d, rfl, hc⟩ := h2 hd
  refine ⟨d, rfl, hc, ?_⟩
  have h0 := (h1.1 hd).1
  have hdead : r.dead = false := by
    cases hb : r.dead with
    | false => rfl
    | true => simp [frstep, hb] at hs
  have hi := (within_run h).out h0 hdead
  simp only [frstep, hdead, h0, Bool.false_eq_true, if_false] at hs
  split at hs
  · cases hs
  · rename_i f e hf
    cases hs
    exact (keep_cl hf (by simp [FAct.thread])).trans hi

/-- C170: from the call of onMessage on and as long as the listener is at work, whatever all threads do, the loop of the logging thread stands still (no
message is taken or served, no listener is tested or called), and the calls the listener has made are seen as calls of its thread once each, in the order
in which it makes them; the last one may not have taken place yet. -/
theorem C170_in_order (h : FRExec rx n (frinit n t b) r as es) {d : Doing} {l : LId} {m : Msg} (hs : frstep rx n r (.log d) = some (r1, es1))
    (hl : .deliver l m ∈ es1) (h' : FRExec rx n r1 r2 bs es2) (hin : ∀ cs q es', cs <+: bs → FRExec rx n r1 q cs es' → q.cur ≠ none) :
    (∀ e ∈ es2, LoopEv e = false) ∧
    ∃ made rest, d.reqs = made ++ rest ∧ r2.cur = some ⟨rest, d.throws⟩ ∧ callsBy n es2 <+: opsOf made ∧
      (r2.base.cl[n]? = some .idle → callsBy n es2 = opsOf made) := by
  obtain ⟨d0, hd0, hc, hi⟩ := (C170_called h hs).2 ⟨l, m, hl⟩
  cases hd0
  have S : Serial n d r1 [] := ⟨fun _ h => (by cases h), d, hc, rfl, [], .idle, rfl, hi, rfl⟩
  have S := serial_run S h' hin
  obtain ⟨d', g1, g2, made, pc, g3, g4, g5⟩ := S.rest
  refine ⟨S.quiet, made, d'.reqs, g3, ?_, ⟨_, g5.symm⟩, fun hidle => ?_⟩
  · rw [g1, ← g2]
  · rw [g4] at hidle; cases hidle
    rw [g5]; simp [unseen]

/-- C170: and when onMessage returns, all its calls have taken place, once each and in order, and it has not thrown. -/
theorem C170_all (h : FRExec rx n (frinit n t b) r as es) {d : Doing} {l : LId} {m : Msg} (hs : frstep rx n r (.log d) = some (r1, es1))
    (hl : .deliver l m ∈ es1) (h' : FRExec rx n r1 r2 bs es2) (hin : ∀ cs q es', cs <+: bs → FRExec rx n r1 q cs es' → q.cur ≠ none)
    {r3 : FRst} {es3 : List Ev} (hs3 : frstep rx n r2 a = some (r3, es3)) (hret : r3.cur = none) :
    callsBy n es2 = opsOf d.reqs ∧ d.throws = false ∧ es3 = [] ∧ r3.base = r2.base := by
  obtain ⟨-, made, rest, g1, g2, -, g4⟩ := C170_in_order h hs hl h' hin
  obtain ⟨k1, k2, k3, k4, k5⟩ := left_step' hs3 g2 hret
  dsimp only at k1 k2
  subst k1
  rw [List.append_nil] at g1
  refine ⟨by rw [g4 k3, g1], k2, k4, k5⟩

/- Non-vacuity: a listener that logs, reads the statistics and adds a listener is called (last step of `handed`), and its onMessage returns. -/
example : (frrun Falcon.Log.demoRx 1 (frinit 1 false true) (handed ⟨[.op (.log Msg.default), .diags, .op (.addListener 8)], false⟩).dropLast).map (fun r => (r.cur, r.base.cl)) =
    some (none, [.idle, .idle]) := by decide +kernel
example : (frrun Falcon.Log.demoRx 1 (frinit 1 false true) (handed ⟨[.op (.log Msg.default), .diags, .op (.addListener 8)], false⟩)).map (fun r => (r.cur, r.base.cl)) =
    some (some ⟨[.op (.log Msg.default), .diags, .op (.addListener 8)], false⟩, [.idle, .idle]) := by decide +kernel
example : (frrun Falcon.Log.demoRx 1 (frinit 1 false true) (handed ⟨[.op (.log Msg.default), .diags, .op (.addListener 8)], false⟩ ++
      List.replicate 23 (.log ⟨[], false⟩))).map (fun r => (r.cur, r.base.cl, r.base.queue.length, r.base.pending)) =
    some (some ⟨[], false⟩, [.idle, .idle], 1, [8]) := by decide +kernel
example : (frrun Falcon.Log.demoRx 1 (frinit 1 false true) (handed ⟨[.op (.log Msg.default), .diags, .op (.addListener 8)], false⟩ ++
      List.replicate 24 (.log ⟨[], false⟩))).map (fun r => r.cur) = some none := by decide +kernel

end Falcon.LogM
