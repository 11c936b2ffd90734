import Verif.Proofs.LogMutexRest
import Verif.Proofs.LogFair
import Verif.Props.LogMutex
/-
C165: when no new calls are made the log system comes to rest, whatever the scheduler does: no run goes on for ever, and when nobody can go on every call has
returned and, if it was not stopped, every accepted message was shown to all listeners.
-/
namespace Falcon.LogM
open Falcon.Log (Str Addr LId Msg Rx Lst Op Ev Stage Mtx LPc CPc St Act Exec init Loc exec_mem exec_wake accepted dispatched finished deliveries demoRx demoMsg StopCalled StartCalled exec_calm exec_finished serving inflight map_some_inj)

variable {rx : Rx} {n : Nat} {t b : Bool} {f g : FSt} {as bs : List FAct} {es es' : List Ev}

/-- C165: without new calls a run has at most `stepsLeft` steps - whoever makes them, in whatever order -, and four more for every wake-up without a reason. -/
theorem C165_comes_to_rest (h : frun rx (finit n t b) as = some (f, es)) (hb : NoCalls bs) (h2 : frun rx f bs = some (g, es')) :
    bs.length ≤ stepsLeft f + 4 * bs.count .spurious := by
  obtain ⟨hI, es0, h1, -⟩ := sim_init h
  have := run_short hI h1 hb h2
  have := rest_le (fits_run (fits_init n t b) h)
  omega

/-- C165: nobody can go on exactly when all calls have returned and the logging thread sleeps, has ended or is not there. -/
theorem C165_at_rest (h : frun rx (finit n t b) as = some (f, es)) :
    AtRest rx f ↔ (∀ pc ∈ f.cl, pc = .idle) ∧ (f.lt = .none ∨ f.lt = .exited ∨ f.lt = .sleep false) := by
  obtain ⟨hI, es0, h1, -⟩ := sim_init h
  constructor
  · intro hr
    constructor
    · intro pc hp
      by_cases hpc : pc = .idle
      · exact hpc
      · obtain ⟨i, hi⟩ := List.getElem?_of_mem hp
        obtain ⟨o, ho⟩ := C164_no_deadlock h hi hpc
        exact absurd ho (hr o)
    · by_cases h1 : f.lt = .none
      · exact .inl h1
      by_cases h2 : f.lt = .exited
      · exact .inr (.inl h2)
      by_cases h3 : f.lt = .sleep false
      · exact .inr (.inr h3)
      · obtain ⟨o, ho⟩ := log_moves (rx := rx) hI h1 h2 h3
        exact absurd ho (hr o)
  · rintro ⟨hc, hl⟩ o ho
    cases o with
    | none =>
      obtain ⟨r, hr⟩ := ho
      simp only [fstep, logStepF] at hr
      rcases hl with hl | hl | hl <;> simp [hl] at hr
    | some i =>
      obtain ⟨r, hr⟩ := ho
      simp only [fstep] at hr
      split at hr
      · rename_i pc hi
        rw [hc pc (List.mem_of_getElem? hi)] at hr
        simp [resumeF] at hr
      · simp at hr

/-- C165: from every state rest can be reached, without wake-ups without a reason. -/
theorem C165_reaches_rest (h : frun rx (finit n t b) as = some (f, es)) :
    ∃ bs g es', NoCalls bs ∧ .spurious ∉ bs ∧ frun rx f bs = some (g, es') ∧ AtRest rx g := by
  suffices ∀ k f as es, frun rx (finit n t b) as = some (f, es) → rest f ≤ k →
      ∃ bs g es', NoCalls bs ∧ .spurious ∉ bs ∧ frun rx f bs = some (g, es') ∧ AtRest rx g from this _ f as es h (Nat.le_refl _)
  intro k
  induction k with
  | zero =>
    intro f as es h hk
    refine ⟨[], f, [], by simp [NoCalls], by simp, rfl, ?_⟩
    rintro o ho
    obtain ⟨hI, es0, h1, -⟩ := sim_init h
    obtain ⟨a, ha, f1, e, hs⟩ : ∃ a, (a = .log ∨ ∃ i, a = .cli i) ∧ ∃ f1 e, fstep rx f a = some (f1, e) := by
      cases o with
      | none => obtain ⟨⟨f1, e⟩, hr⟩ := ho; exact ⟨.log, .inl rfl, f1, e, hr⟩
      | some i => obtain ⟨⟨f1, e⟩, hr⟩ := ho; exact ⟨.cli i, .inr ⟨i, rfl⟩, f1, e, hr⟩
    have hb : NoCalls [a] := by
      intro x hx; simp at hx; subst hx; rcases ha with rfl | ⟨i, rfl⟩
      · exact .inl rfl
      · exact .inr (.inr ⟨i, rfl⟩)
    have := run_short hI h1 hb (show frun rx f [a] = some (f1, e.toList ++ []) by simp only [frun, hs])
    have hne : [a].count FAct.spurious = 0 := by rcases ha with rfl | ⟨i, rfl⟩ <;> simp
    simp only [List.length_singleton, hne] at this
    omega
  | succ k ih =>
    intro f as es h hk
    by_cases hr : AtRest rx f
    · exact ⟨[], f, [], by simp [NoCalls], by simp, rfl, hr⟩
    · have ⟨o, ho⟩ : ∃ o, Moves rx f o := Classical.byContradiction fun hn => hr fun o ho => hn ⟨o, ho⟩
      obtain ⟨hI, es0, h1, -⟩ := sim_init h
      obtain ⟨a, ha, f1, e, hs⟩ : ∃ a, (a = .log ∨ ∃ i, a = .cli i) ∧ ∃ f1 e, fstep rx f a = some (f1, e) := by
        cases o with
        | none => obtain ⟨⟨f1, e⟩, hr⟩ := ho; exact ⟨.log, .inl rfl, f1, e, hr⟩
        | some i => obtain ⟨⟨f1, e⟩, hr⟩ := ho; exact ⟨.cli i, .inr ⟨i, rfl⟩, f1, e, hr⟩
      have hb : NoCalls [a] := by
        intro x hx; simp at hx; subst hx; rcases ha with rfl | ⟨i, rfl⟩
        · exact .inl rfl
        · exact .inr (.inr ⟨i, rfl⟩)
      have hone : frun rx f [a] = some (f1, e.toList ++ []) := by simp only [frun, hs]
      have := run_short hI h1 hb hone
      have hne : [a].count FAct.spurious = 0 := by rcases ha with rfl | ⟨i, rfl⟩ <;> simp
      simp only [List.length_singleton, hne] at this
      obtain ⟨bs, g, es', b1, b2, b3, b4⟩ := ih f1 _ _ (frun_append h hone) (by omega)
      refine ⟨a :: bs, g, (e.toList ++ []) ++ es', ?_, ?_, frun_append (as := [a]) hone b3, b4⟩
      · intro x hx
        rcases List.mem_cons.1 hx with rfl | hx
        · exact hb x (by simp)
        · exact b1 x hx
      · rintro hx
        rcases List.mem_cons.1 hx with hx | hx
        · rcases ha with rfl | ⟨i, rfl⟩ <;> cases hx
        · exact b2 hx
theorem visible_map {β : Type} (k : Ev → Option β) (hk : k .tau = none) (l : List Ev) : (visible l).filterMap k = l.filterMap k := by
  induction l with
  | nil => rfl
  | cons e l ih =>
    by_cases he : e = .tau
    · subst he
      rw [show visible (.tau :: l) = visible l from List.filter_cons_of_neg (by simp), ih, List.filterMap_cons_none hk]
    · rw [show visible (e :: l) = e :: visible l from List.filter_cons_of_pos (by simp [he]), List.filterMap_cons, List.filterMap_cons, ih]

/-- C165: if the log system was started and not stopped, then at rest every message that was accepted has been shown to all listeners, and the logging
thread waits for the next one. -/
theorem C165_all_served (h : frun rx (finit n false b) as = some (f, es)) (hr : AtRest rx f) (hstop : ¬ StopCalled es) (hstart : b = true ∨ StartCalled es) :
    finished es = accepted es ∧ f.queue = [] ∧ f.lt = .sleep false := by
  obtain ⟨hI, es0, h1, h2⟩ := sim_init h
  have mem : ∀ e, e ≠ .tau → (e ∈ es0 ↔ e ∈ es) := by
    intro e he
    have a1 : e ∈ visible es0 ↔ e ∈ es0 := by simp [visible, he]
    have a2 : e ∈ visible es ↔ e ∈ es := by simp [visible, he]
    rw [← a1, ← a2, h2]
  have hs0 : ¬ StopCalled es0 := fun ⟨i, hi⟩ => hstop ⟨i, (mem _ (by simp)).1 hi⟩
  obtain ⟨hcalm, hlive⟩ := exec_calm h1 hs0
  have hne := hlive (hstart.imp id fun ⟨i, hi⟩ => ⟨i, (mem _ (by simp)).2 hi⟩)
  obtain ⟨hidle, hl⟩ := (C165_at_rest h).1 hr
  have hlt : (abs f).lt = tDue (due f.mtx f.cl).note f.lt := rfl
  have hsleep : f.lt = .sleep false := by
    rcases hl with hl | hl | hl
    · rw [hl, tDue_none] at hlt; exact absurd hlt hne
    · rw [hl, tDue_exited] at hlt; exact absurd hlt hcalm.live
    · exact hl
  have habs : (abs f).lt = .wait false := by
    have := (agrees hI).counters hidle (.wait false) (by rw [hsleep]; rfl)
    exact this.1
  have hq : f.queue = [] := (exec_wake h1).queue habs
  have hfifo := (exec_mem h1).fifo
  obtain ⟨c, hc, -, hc2⟩ := exec_finished h1
  have hc0 : c = [] := Classical.byContradiction fun hne => by
    have := hc2 hne
    rw [habs] at this; cases this
  subst hc0
  rw [show (abs f).queue = [] from hq] at hfifo
  have hd : dispatched es0 = accepted es0 := by
    refine (map_some_inj ?_).symm
    simpa [inflight, habs] using hfifo
  rw [List.append_nil] at hc
  refine ⟨?_, hq, hsleep⟩
  have ha : accepted es = accepted es0 := by unfold accepted; rw [← visible_map _ rfl es, ← visible_map _ rfl es0, h2]
  have hf : finished es = finished es0 := by unfold finished; rw [← visible_map _ rfl es, ← visible_map _ rfl es0, h2]
  rw [ha, hf, ← hc, hd]

/-! ### Concrete runs -/

example : ((frun demoRx (finit 2 false true) tangled).map fun r => stepsLeft r.1) = some 206 := by decide +kernel
/-- 29 steps lead to rest. -/
example : ((frun demoRx (finit 2 false true) (tangled ++ [.cli 0, .cli 1, .cli 0, .cli 0] ++ List.replicate 25 .log)).map fun r =>
    (r.1.lt, r.1.cl, finished r.2, (fstep demoRx r.1 .log).isSome)) = some (.sleep false, [.idle, .idle], [demoMsg 1], false) := by decide +kernel
end Falcon.LogM
