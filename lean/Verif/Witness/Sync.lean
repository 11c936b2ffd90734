import Verif.Props.Futex
import Verif.Props.FutexWeak
import Verif.Props.FutexFair
import Verif.Props.Atomic
import Verif.Props.Singleton
import Verif.Props.UTSingleton
/- The theorems about locks, atomic operations and singletons, applied to concrete runs: their hypotheses can be met. -/
namespace Falcon.Futex

/-! Two threads increment a counter. -/

/-- Thread 0 is inside, thread 1 is waiting. -/
theorem demo_inside : ∃ s, Reach counter 1 0 demoProg s ∧ Holds s 0 ∧ ∃ sc, (s.th 1).pc = .trying sc :=
  ⟨_, demoRun_reach _ _ [0, 1, 0, 1] .init rfl, ⟨_, _, rfl⟩, _, rfl⟩

/-- Thread 1 is waiting, thread 0 has left. -/
theorem demo_free : ∃ s, Reach counter 1 0 demoProg s ∧ (∀ j, ¬ Holds s j) ∧ ∃ sc, (s.th 1).pc = .trying sc := by
  refine ⟨_, demoRun_reach _ _ [0, 1, 0, 1, 0, 0, 0] .init rfl, ?_, _, rfl⟩
  rintro j ⟨rest, l, h⟩
  match j with
  | 0 => cases h
  | 1 => cases h
  | j + 2 => cases h

example : True := by
  obtain ⟨s, h, h0, sc, h1⟩ := demo_inside
  have := C24_mutual_exclusion counter 1 0 demoProg s h 0 0 h0 h0
  have := C26_progress counter 1 0 demoProg s h
  have := C28_isLocked counter 1 0 demoProg s h
  obtain ⟨s, h, hf, sc, h1⟩ := demo_free
  have := C26_acquires_when_free counter 1 0 demoProg s h 1 sc h1 hf
  have := C29_unlock_leaves_partial { rinit with th := fun i => { id := 1, pc := .returned } } 0 rfl
  have := C31_isOwner_partial 2 (by decide) [0] (by decide) 1 (by decide)
  trivial

theorem everyOther_fair : Fair 2 everyOther := by
  intro i hi k
  refine ⟨4 * k + 2 + i, by omega, ?_⟩
  unfold everyOther
  have h1 : (4 * k + 2 + i) % 2 = i := by omega
  have h2 : ¬(4 * k + 2 + i) % 4 < 2 := by omega
  simp [h1, h2]

/-- Weak memory: thread 1 is inside and thread 0 has left. -/
theorem handed_over : ∃ w, WReach codeOrders counter 0 0 demoProg w ∧ WHolds w 1 := by
  cases h : wrun codeOrders counter 0 (winitial 0 demoProg) handOver with
  | none => have e : afterHandOver codeOrders = some (2, 3, true) := by decide
            rw [afterHandOver, h] at e; cases e
  | some w =>
    have e : afterHandOver codeOrders = some (2, 3, true) := by decide
    rw [afterHandOver, h] at e
    refine ⟨w, wreach_of_wrun _ .init h, ?_⟩
    unfold WHolds
    cases hp : (w.th 1).pc with
    | inside rest l => exact ⟨rest, l, rfl⟩
    | out => simp [hp] at e
    | trying sc => simp [hp] at e

example : True := by
  have := C148_finite_use_partial counter 1 0 2 demoProg (fun i hi => by unfold demoProg; rw [if_neg (by omega)]) everyOther everyOther_fair
  have := C148_somebody_gets_it_partial counter 1 0 2 bothAgain bothAgain (fun i hi => by unfold bothAgain; rw [if_neg (by omega)]; exact ⟨rfl, rfl⟩) 1
    (by decide) everyOther everyOther_fair 5
  obtain ⟨w, h, h1⟩ := handed_over
  have := C136_no_race counter 0 0 demoProg w h 1
  have := C136_mutual_exclusion counter 0 0 demoProg w h 1 1 h1 h1
  have := C136_isLocked_can_be_right counter 0 0 demoProg w h 0
  have := fun ch b hb => C136_holder_sees_locked counter 0 0 demoProg w h 1 h1 ch b hb
  trivial

end Falcon.Futex

namespace Falcon.Atomic

def someCalls : List (Nat × Op) := [(0, .inc), (1, .add 5), (0, .dec), (3, .fetch), (2, .add (-7))]

theorem someCalls_counting : Counting someCalls := by
  intro p hp; simp [someCalls] at hp; rcases hp with rfl | rfl | rfl | rfl | rfl <;> simp [delta]

example : True := by
  have := C33_order_irrelevant .gcc 10 someCalls someCalls.reverse someCalls_counting (List.reverse_perm _).symm
  have := C33_returns_established .vc64 (by decide) 10 someCalls someCalls_counting 3 (by decide)
  have := C34_distinct_tickets .vcX86 (-1) [(0, .inc), (1, .fetch), (1, .inc)] (by decide) (by decide) 0 2 (by decide) (by decide) rfl rfl
  have := C35_one_winner .gcc 4 [(0, 7), (1, 9), (2, 7)] (by decide) (by decide)
  trivial

end Falcon.Atomic

namespace Falcon.Singleton

example : True := by
  have : ∃ s, Reach s ∧ s.tr = [.built 0 0 7, .wrote 0 10 .mArrow 0 5] := by
    have h1 := Reach.step .init (Step.call (t := 1) (obj := 10) (ty := 0) (acc := .mArrow) (w := some 5) rfl (fun _ => rfl))
    have h2 := Reach.step h1 (Step.enter (t := 1) (obj := 10) (ty := 0) (acc := .mArrow) (w := some 5) rfl rfl)
    have h4 := Reach.step h2 (Step.built (t := 1) (obj := 10) (ty := 0) (acc := .mArrow) (w := some 5) (v := 7) rfl)
    have h5 := Reach.step h4 (Step.write (t := 1) (obj := 10) (ty := 0) (acc := .mArrow) (a := 0) (v := 5) rfl)
    exact ⟨_, h5, rfl⟩
  obtain ⟨s, h, e⟩ := this
  have := C82_same_instance h
  have := C82_constructed_once_before_use h
  have := C82_reads_last_write h
  have := C82_const_accessors h 0 10 .mArrow 0 5 (by rw [e]; simp)
  trivial

end Falcon.Singleton

namespace Falcon.UTS

example : True := by
  have := C158_one_each_partial [0, 1, 0, 1, 0, 0, 0] [1, 0, 1] 0 0 1 (by decide)
  trivial

end Falcon.UTS
