import Verif.Proofs.LogMutexFeed
import Verif.Props.LogMutexReact
import Verif.Props.LogMutexWork
/- C168: listeners can keep the log system busy by logging, and in no other way. -/
namespace Falcon.LogM
open Falcon.Log (Str Addr LId Msg Rx Lst Op Ev Stage Mtx deliveries added)

variable {rx : Rx} {n q : Nat} {t b : Bool} {r : FRst} {as : List FRAct} {es : List Ev}

theorem Tally.bounds {bs : List FAct} {mine : Nat} (T : Tally rx n t b q r as es bs mine) :
    dsps es ≤ logCalls es ∧ LogM.adds bs ≤ listenersAtMost q (logCalls es) (asksToAdd as) ∧
    dlvs es ≤ logCalls es * listenersAtMost q (logCalls es) (asksToAdd as) := by
  have h1 : dsps es ≤ logCalls es := by have := T.taken; omega
  have h2 : LogM.adds bs ≤ listenersAtMost q (logCalls es) (asksToAdd as) := by
    have := T.adds
    have : asksToAdd as * (1 + q) ^ dsps es ≤ listenersAtMost q (logCalls es) (asksToAdd as) :=
      Nat.mul_le_mul_left _ (Nat.pow_le_pow_right (by omega) h1)
    omega
  have h3 := T.dlv
  have h4 := Nat.mul_le_mul h1 h2
  exact ⟨h1, h2, by omega⟩

theorem dlvs_deliveries (es : List Ev) : (deliveries es).length = dlvs es := by
  unfold deliveries dlvs
  induction es with
  | nil => rfl
  | cons e es ih => rw [List.countP_cons, ← ih]; cases e <;> simp [isDlv]

/-- C168: listeners are called no more often than the messages logged so far, by whomever, allow, if no listener makes more than `q` calls at a time. -/
theorem C168_deliveries (h : FRExec rx n (frinit n t b) r as es) (hq : Brief q as) :
    (deliveries es).length ≤ logCalls es * listenersAtMost q (logCalls es) (asksToAdd as) := by
  obtain ⟨bs, mine, T⟩ := Tally.exists h hq
  rw [dlvs_deliveries]
  exact T.bounds.2.2

theorem added_append (a c : List Ev) : (added (a ++ c)).length = (added a).length + (added c).length := by
  unfold added; rw [List.filterMap_append, List.length_append]

/-- A listener that is added was asked for. -/
theorem added_step {f f' : FSt} {a : FAct} {e : Option Ev} (h : fstep rx f a = some (f', e)) :
    (added e.toList).length + sumOf addr f'.cl ≤ sumOf addr f.cl + LogM.adds [a] := by
  have set : ∀ {i : Nat} {pc : FPc} (p : FPc), f.cl[i]? = some pc → sumOf addr (f.cl.set i p) + addr pc = sumOf addr f.cl + addr p :=
    fun p hi => sumOf_set (w := addr) hi p
  cases a with
  | log =>
    have h : logStepF rx f = some (f', e) := h
    rw [log_frame h]
    unfold logStepF at h
    simp only [acquireL, releaseL] at h
    repeat' split at h
    all_goals first | (cases h; done) | (cases h; simp [added])
  | spurious => simp only [fstep] at h; split at h <;> cases h; simp [added]
  | call i op =>
    simp only [fstep] at h
    split at h
    · rename_i hi
      have at0 : ∀ p, sumOf addr (f.cl.set i p) = sumOf addr f.cl + addr p := fun p => by
        have := set p hi
        have z : addr .idle = 0 := rfl
        omega
      cases op <;> simp only [beginF] at h <;> cases h <;> first
        | (simp [added]; done)
        | (simp [added, at0, addr, LogM.adds]; done)
    · cases h
  | diags i =>
    simp only [fstep] at h; split at h <;> cases h
    rename_i hi
    have := set (.qLock .message) hi
    simp [addr] at this; simp [added, this]
  | categ i l =>
    simp only [fstep] at h; split at h <;> cases h
    rename_i hi
    have := set (.qLock (.category l)) hi
    simp [addr] at this; simp [added, this]
  | cli i =>
    simp only [fstep] at h
    split at h
    · rename_i pc hi
      have key : ∀ p, f'.cl = f.cl.set i p → (added e.toList).length + addr p ≤ addr pc → (added e.toList).length + sumOf addr f'.cl ≤ sumOf addr f.cl + LogM.adds [.cli i] := by
        intro p h1 h2
        have := set p hi
        rw [h1]; omega
      cases pc <;> simp only [resumeF, acquire, release] at h
      case qHold x => cases h; exact key _ rfl (by cases x <;> simp [afterQuery, addr, added])
      all_goals
        repeat' split at h
        all_goals
          first
          | (cases h; done)
          | (cases h; exact key _ rfl (by simp [addr, added]))
          | (cases h; simp [added])
    · cases h

theorem added_run {f g : FSt} {bs : List FAct} (h : frun rx f bs = some (g, es)) : (added es).length + sumOf addr g.cl ≤ sumOf addr f.cl + LogM.adds bs := by
  induction bs generalizing f es with
  | nil => simp only [frun] at h; cases h; simp [added, LogM.adds]
  | cons a bs ih =>
    simp only [frun] at h
    split at h
    · cases h
    · rename_i f1 e hs
      split at h
      · cases h
      · rename_i g2 es2 hr
        obtain ⟨rfl, rfl⟩ := Prod.mk.inj (Option.some.inj h)
        have h1 := added_step hs
        have h2 := ih hr
        rw [adds_cons, added_append]; omega

/-- C168: no more listeners are added. -/
theorem C168_listeners (h : FRExec rx n (frinit n t b) r as es) (hq : Brief q as) :
    (added es).length ≤ listenersAtMost q (logCalls es) (asksToAdd as) := by
  obtain ⟨bs, mine, T⟩ := Tally.exists h hq
  have h1 := added_run T.run
  have h2 : sumOf addr (finit (n + 1) t b).cl = 0 := by
    have : ∀ k, sumOf addr (List.replicate k .idle) = 0 := by intro k; induction k <;> simp_all [sumOf, addr, List.replicate_succ]
    exact this _
  have := T.bounds.2.1
  omega

theorem budget_split (L : Nat) (bs : List FAct) :
    (bs.map (budget L)).sum ≤ (36 + 8 * L) * bs.countP isLogAct + 13 * bs.countP isCall + 4 * bs.count .spurious := by
  induction bs with
  | nil => simp
  | cons a bs ih =>
    have hb : budget L a ≤ (if isLogAct a then 36 + 8 * L else 0) + (if isCall a then 13 else 0) + (if a = .spurious then 4 else 0) := by
      cases a with
      | call i op => cases op <;> simp [budget, isCall, isLogAct] <;> omega
      | _ => simp [budget, isCall, isLogAct]
    rw [List.map_cons, List.sum_cons, List.countP_cons, List.countP_cons, List.count_cons, Nat.mul_add, Nat.mul_add, Nat.mul_add]
    generalize budget L a = x at hb ⊢
    have e : 4 * (if (a == FAct.spurious) = true then 1 else 0) = if a = .spurious then 4 else 0 := by by_cases hs : a = .spurious <;> simp [hs]
    have e1 : (36 + 8 * L) * (if isLogAct a = true then 1 else 0) = if isLogAct a = true then 36 + 8 * L else 0 := by split <;> simp
    have e2 : 13 * (if isCall a = true then 1 else 0) = if isCall a = true then 13 else 0 := by split <;> simp
    rw [e, e1, e2]
    omega

/-- C168: the steps of all threads, those inside onMessage included, are bounded by what the program asks for and by the number of messages that are
logged, whatever else listeners ask for and whatever the scheduler does. -/
theorem C168_work (h : FRExec rx n (frinit n t b) r as es) (hq : Brief q as) (L : Nat) (hL : L = listenersAtMost q (logCalls es) (asksToAdd as)) :
    as.length ≤ 3 + (36 + 8 * L) * logCalls es + 13 * (asks as + q * (logCalls es * L)) + logCalls es * L + 4 * as.count .spurious := by
  obtain ⟨bs, mine, T⟩ := Tally.exists h hq
  obtain ⟨-, h2, h3⟩ := T.bounds
  rw [← hL] at h2 h3
  have h4 := C166_work T.run
  have h5 := budget_split (LogM.adds bs) bs
  rw [T.logs, T.calls, T.spur] at h5
  have h6 : (36 + 8 * LogM.adds bs) * logCalls es ≤ (36 + 8 * L) * logCalls es := Nat.mul_le_mul_right _ (by omega)
  have h7 := T.len
  have h8 := T.own
  have h9 := Nat.mul_le_mul_left q h3
  omega

/-- C168: so it comes to rest. With a bound on the messages logged, on the calls the program makes, on the calls made in one onMessage and on spurious wake-ups
there is one on all executions. -/
theorem C168_finite (M C S q : Nat) : ∃ B, ∀ (rx : Rx) (n : Nat) (t b : Bool) (r : FRst) (as : List FRAct) (es : List Ev), FRExec rx n (frinit n t b) r as es →
    Brief q as → logCalls es ≤ M → asks as ≤ C → as.count .spurious ≤ S → as.length ≤ B := by
  refine ⟨3 + (36 + 8 * listenersAtMost q M C) * M + 13 * (C + q * (M * listenersAtMost q M C)) + M * listenersAtMost q M C + 4 * S, ?_⟩
  intro rx n t b r as es h hq hM hC hS
  have hA : asksToAdd as ≤ C := by
    refine Nat.le_trans ?_ hC
    exact List.countP_mono_left fun a _ => by cases a <;> simp
  have hL : listenersAtMost q (logCalls es) (asksToAdd as) ≤ listenersAtMost q M C :=
    Nat.mul_le_mul hA (Nat.pow_le_pow_right (by omega) hM)
  have key := C168_work h hq _ rfl
  generalize listenersAtMost q (logCalls es) (asksToAdd as) = L at *
  generalize listenersAtMost q M C = L' at *
  have h1 : (36 + 8 * L) * logCalls es ≤ (36 + 8 * L') * M := Nat.mul_le_mul (by omega) hM
  have h2 : logCalls es * L ≤ M * L' := Nat.mul_le_mul hM hL
  have h3 := Nat.mul_le_mul_left q h2
  omega

/-! ### The hypotheses are met -/

/-- A listener that answers a message with another one, asks for the diagnostics and adds a listener. -/
def answering : Doing := ⟨[.op (.log Msg.default), .diags, .op (.addListener 8)], false⟩

theorem handed_brief : Brief 3 (handed answering ++ List.replicate 40 (.log ⟨[], false⟩)) := by
  intro d hd
  simp [handed, answering] at hd
  rcases hd with rfl | rfl | rfl | rfl <;> simp
example : ((frrun Falcon.Log.demoRx 1 (frinit 1 false true) (handed answering ++ List.replicate 40 (.log ⟨[], false⟩))).map
    fun r => (r.cur, r.base.cl, r.base.active)) = some (none, [.idle, .idle], [7, 8]) := by decide +kernel

/-- Such a run is within its bounds. -/
example : ∃ r es, FRExec Falcon.Log.demoRx 1 (frinit 1 false true) r (handed answering ++ List.replicate 40 (.log ⟨[], false⟩)) es ∧ r.base.active = [7, 8] ∧
    (deliveries es).length ≤ logCalls es * listenersAtMost 3 (logCalls es) 1 := by
  have h : ((frrun Falcon.Log.demoRx 1 (frinit 1 false true) (handed answering ++ List.replicate 40 (.log ⟨[], false⟩))).map fun r => r.base.active) = some [7, 8] := by decide +kernel
  cases hr : frrun Falcon.Log.demoRx 1 (frinit 1 false true) (handed answering ++ List.replicate 40 (.log ⟨[], false⟩)) with
  | none => rw [hr] at h; cases h
  | some r =>
    rw [hr] at h
    obtain ⟨es, hx⟩ := FRExec.of_run .nil hr
    exact ⟨r, es, hx, Option.some.inj h, C168_deliveries hx handed_brief⟩

end Falcon.LogM
