import Verif.Proofs.LogMutexWork
import Verif.Props.LogSystem
/- C166: the log system does no more than it was asked to do. -/
namespace Falcon.LogM
open Falcon.Log (Str Addr LId Msg Rx Lst Op Ev Stage Mtx LPc CPc)

variable {rx : Rx} {n : Nat} {t b : Bool} {as : List FAct} {f : FSt} {es : List Ev}

/-- C166: whatever the scheduler does, all threads together have never made more steps than the calls begun so far allow, up to the three
with which the logging thread falls asleep. -/
theorem C166_work (h : frun rx (finit n t b) as = some (f, es)) :
    as.length ≤ 3 + (as.map (budget (adds as))).sum := by
  obtain ⟨hI, es0, h1, -⟩ := sim_init (rx := rx) (n := n) (t := t) (b := b) (as := []) (f := finit n t b) (es := []) rfl
  have h0 : lis (finit n t b) = 0 := by
    have : ∀ k, sumOf addr (List.replicate k .idle) = 0 := by intro k; induction k <;> simp_all [sumOf, addr, List.replicate_succ]
    simp only [lis, finit]
    cases b <;> simp [act, pend, this]
  have hr : ∀ L, restL L (finit n t b) ≤ 3 := by
    intro L
    have s1 : ∀ k, sumOf crank (List.replicate k .idle) = 0 := by intro k; induction k <;> simp_all [sumOf, crank, List.replicate_succ]
    have s2 : ∀ k, sumOf enq (List.replicate k .idle) = 0 := by intro k; induction k <;> simp_all [sumOf, enq, List.replicate_succ]
    simp only [restL, que, finit]
    cases b <;> simp [s1, s2, lrank]
  have := (run_work (L := adds as) hI h1 (by omega) h).1
  have := hr (adds as)
  omega

theorem budget_le (L : Nat) (a : FAct) : budget L a ≤ (if isCall a then 36 + 8 * L else 0) + (if a = .spurious then 4 else 0) := by
  cases a with
  | call i op => cases op <;> simp [budget, isCall] <;> omega
  | _ => simp [budget, isCall] <;> omega

/-- C166, in round numbers: at most 36 steps for each call and 8 for each pair of a call and a listener. -/
theorem C166_per_call (h : frun rx (finit n t b) as = some (f, es)) :
    as.length ≤ 3 + (36 + 8 * adds as) * as.countP isCall + 4 * as.count .spurious := by
  have := C166_work h
  have key : ∀ (L : Nat) (l : List FAct), (l.map (budget L)).sum ≤ (36 + 8 * L) * l.countP isCall + 4 * l.count .spurious := by
    intro L l
    induction l with
    | nil => simp
    | cons a l ih =>
      have hb := budget_le L a
      rw [List.map_cons, List.sum_cons, List.countP_cons, List.count_cons, Nat.mul_add, Nat.mul_add]
      generalize budget L a = x at hb ⊢
      generalize List.countP isCall l = y at ih ⊢
      have e : 4 * (if (a == FAct.spurious) = true then 1 else 0) = if a = .spurious then 4 else 0 := by by_cases hs : a = .spurious <;> simp [hs]
      have e' : (36 + 8 * L) * (if isCall a = true then 1 else 0) = if isCall a = true then 36 + 8 * L else 0 := by split <;> simp
      rw [e, e']
      omega
  have := key (adds as) as
  omega

/-- C166: left alone, a new log system does nothing but fall asleep. -/
theorem C166_idle (h : frun rx (finit n t b) as = some (f, es)) (hb : NoCalls as) (hs : .spurious ∉ as) : as.length ≤ 3 := by
  have := C166_per_call h
  have h1 : as.countP isCall = 0 := by
    rw [List.countP_eq_zero]
    intro a ha
    rcases hb a ha with rfl | rfl | ⟨i, rfl⟩ <;> simp [isCall]
  rw [h1, List.count_eq_zero_of_not_mem hs] at this
  omega

/-- The longest runs, for the examples: whatever can go on does, the logging thread first. -/
def busily (rx : Rx) : Nat → FSt → Nat
  | 0, _ => 0
  | k + 1, f =>
    match fstep rx f .log with
    | some (g, _) => busily rx k g + 1
    | none => match fstep rx f (.cli 0) with
      | some (g, _) => busily rx k g + 1
      | none => 0

/-- After these actions, how many more steps are made. -/
def stepsAfter (as : List FAct) : Option Nat :=
  (frun Falcon.Log.demoRx (finit 1 false true) as).map fun r => busily Falcon.Log.demoRx 1000 r.1

/- A log system that is left alone makes two steps and sleeps; one message takes 28 steps after the call, 34 with one listener and 40 with two, within
the 35, 43 and 51 of the account. -/
example : stepsAfter [] = some 2 := by decide +kernel
example : stepsAfter [.log, .log, .call 0 (.log Msg.default)] = some 28 := by decide +kernel
example : stepsAfter [.log, .log, .call 0 (.addListener 0), .cli 0, .cli 0, .cli 0, .call 0 (.log Msg.default)] = some 34 := by decide +kernel
example : stepsAfter [.log, .log, .call 0 (.addListener 0), .cli 0, .cli 0, .cli 0, .call 0 (.addListener 1), .cli 0, .cli 0, .cli 0,
    .call 0 (.log Msg.default)] = some 40 := by decide +kernel

end Falcon.LogM
