import Verif.Props.LogMutex
import Verif.Props.LogMutexRest
import Verif.Props.LogMutexWork
import Verif.Props.LogMutexReact
/- The theorems about the log system, lock by lock, applied to concrete runs: their hypotheses can be met. -/
namespace Falcon.LogM
open Falcon.Log (Rx Ev Msg demoRx demoMsg accepted finished StopCalled Exec init exec_of_run demoActs)

theorem ran {rx : Rx} {s : FSt} {as : List FAct} {α : Type} {g : FSt × List Ev → α} {v : α} (h : (frun rx s as).map g = some v) :
    ∃ f es, frun rx s as = some (f, es) ∧ g (f, es) = v := by
  cases hr : frun rx s as with
  | none => rw [hr] at h; cases h
  | some r => rw [hr] at h; exact ⟨r.1, r.2, rfl, Option.some.inj h⟩

/-! One client holds the message mutex, the other the listeners mutex. -/

theorem tangled_ran : ∃ f es, frun demoRx (finit 2 false true) tangled = some (f, es) ∧ f.mtx .message = some (some 0) ∧ f.mtx .listeners = some (some 1) ∧
    ∃ pc, f.cl[0]? = some pc ∧ pc ≠ .idle := by
  have key : ((frun demoRx (finit 2 false true) tangled).map fun r => (r.1.mtx .message, r.1.mtx .listeners, (r.1.cl[0]?.map fun pc => decide (pc = .idle)))) =
      some (some (some 0), some (some 1), some false) := by decide +kernel
  obtain ⟨f, es, h, e⟩ := ran key
  simp only [Prod.mk.injEq] at e
  refine ⟨f, es, h, e.1, e.2.1, ?_⟩
  cases hc : f.cl[0]? with
  | none => rw [hc] at e; simp at e
  | some pc => rw [hc] at e; exact ⟨pc, rfl, by simpa using e.2.2⟩

example : True := by
  obtain ⟨f, es, h, h0, h1, pc, hp, hi⟩ := tangled_ran
  have := C164_atomic h
  have := C164_fifo h
  have := C164_holder_moves h h0
  have := C164_no_deadlock h hp hi
  have := C164_one_mutex h h0 h0
  have := C164_race_free h (.cli 0) (.cli 1)
  have := C164_released (x := .message) h
  have := C165_at_rest h
  have := C165_reaches_rest h
  have := C166_per_call h
  have := C166_work h
  trivial

example := C164_all_atomic (exec_of_run (rx := demoRx) (s := init 2 false true) demoActs rfl)

/-! A mutex that is held over a step: the client 0 makes one step with the message mutex in its hands. -/

theorem held_over : ∃ f es g es', frun demoRx (finit 2 false true) tangled = some (f, es) ∧ frun demoRx f [.cli 1] = some (g, es') ∧
    ∀ cs, cs <+: [.cli 1] → ∀ k ev, frun demoRx f cs = some (k, ev) → k.mtx .message = some (some 0) := by
  obtain ⟨f, es, h, h0, -⟩ := tangled_ran
  have key : ((frun demoRx (finit 2 false true) tangled).bind fun r => (frun demoRx r.1 [.cli 1]).map fun q => q.1.mtx .message) = some (some (some 0)) := by decide +kernel
  rw [h] at key
  obtain ⟨g, es', h', e⟩ := ran (g := fun q => q.1.mtx .message) key
  refine ⟨f, es, g, es', h, h', ?_⟩
  rintro cs hc k ev hk
  match cs, hc, hk with
  | [], _, hk => cases hk; exact h0
  | [c], hc, hk =>
    obtain ⟨t, ht⟩ := hc
    cases ht
    rw [h'] at hk
    cases hk
    exact e
  | c :: d :: cs, hc, _ => obtain ⟨t, ht⟩ := hc; simp at ht

example : True := by
  obtain ⟨f, es, g, es', h, h', hold⟩ := held_over
  have := C164_held_short h (by decide) h' hold
  trivial

/-! At rest: one message, delivered; nobody stopped anything. -/

def toTheEnd : List FAct := tangled ++ [.cli 0, .cli 1, .cli 0, .cli 0]

theorem end_ran : ∃ f es g es', frun demoRx (finit 2 false true) toTheEnd = some (f, es) ∧ frun demoRx f (List.replicate 25 .log) = some (g, es') := by
  have key : ((frun demoRx (finit 2 false true) toTheEnd).bind fun r => (frun demoRx r.1 (List.replicate 25 .log)).map fun _ => true) = some true := by decide +kernel
  have k2 : ((frun demoRx (finit 2 false true) toTheEnd).map fun _ => true) = some true := by decide +kernel
  obtain ⟨f, es, h, -⟩ := ran k2
  rw [h] at key
  obtain ⟨g, es', h', -⟩ := ran (g := fun _ => true) key
  exact ⟨f, es, g, es', h, h'⟩

example : True := by
  obtain ⟨f, es, g, es', h, h'⟩ := end_ran
  have := C165_comes_to_rest h (by intro a ha; simp at ha; exact .inl ha) h'
  trivial

def isStop : Ev → Bool
  | .call _ .stop => true
  | _ => false

theorem rest_ran : ∃ f es, frun demoRx (finit 2 false true) (toTheEnd ++ List.replicate 25 .log) = some (f, es) ∧ (∀ pc ∈ f.cl, pc = FPc.idle) ∧
    f.lt = .sleep false ∧ ¬ StopCalled es ∧ accepted es = [demoMsg 1] := by
  have key : ((frun demoRx (finit 2 false true) (toTheEnd ++ List.replicate 25 .log)).map fun r =>
      (decide (∀ pc ∈ r.1.cl, pc = FPc.idle), (match r.1.lt with | .sleep false => true | _ => false), r.2.any isStop, accepted r.2)) =
      some (true, true, false, [demoMsg 1]) := by decide +kernel
  obtain ⟨f, es, h, e⟩ := ran key
  simp only [Prod.mk.injEq, decide_eq_true_eq] at e
  obtain ⟨e1, e2, e3, e4⟩ := e
  refine ⟨f, es, h, e1, ?_, ?_, e4⟩
  · revert e2; split
    · intro _; assumption
    · intro h; cases h
  · rintro ⟨i, hi⟩
    have := List.any_eq_false.1 e3 _ hi
    simp [isStop] at this

example : True := by
  obtain ⟨f, es, h, h1, h2, h3, -⟩ := rest_ran
  have := C165_all_served h ((C165_at_rest h).2 ⟨h1, .inr (.inr h2)⟩) h3 (.inl rfl)
  trivial

example := C166_idle (rx := demoRx) (n := 2) (t := false) (b := true) (as := [.log, .log]) rfl (by intro a ha; simp at ha; exact .inl ha) (by simp)

end Falcon.LogM
