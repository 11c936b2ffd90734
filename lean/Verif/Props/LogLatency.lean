import Verif.Props.LogFair
import Verif.Proofs.LogLatency
/-
C163: how long a message waits (logsystem.cpp 85-105, 147-199).
-/
namespace Falcon.Log

variable {rx : Rx}

/-- C163 (what holds, if the uninitialised m_isTerminated happened to be false): if nobody calls stop() and the logging
thread was started, then the message accepted as number `j` (counted from 0) is finished once the logging thread has
made `6 L + 5` steps for each of the messages accepted up to it and not yet finished. `L` is the number of listeners
ever added. Whatever the other threads do meanwhile, and however much they log, does not matter. -/
theorem C163_latency_partial {n : Nat} {b : Bool} {as bs : List Act} {s s' : St} {es es' : List Ev}
    (h1 : run rx (init n false b) as = some (s, es)) (h2 : run rx s bs = some (s', es')) (hstop : ¬ StopCalled (es ++ es'))
    (hb : b = true ∨ StartCalled es) (j : Nat) (m : Msg) (hj : (accepted es)[j]? = some m)
    (L : Nat) (hL : (added (es ++ es')).length ≤ L)
    (hn : (j + 1 - (finished es).length) * (6 * L + 5) ≤ bs.count .log) :
    (finished (es ++ es'))[j]? = some m := by
  have he := exec_of_run _ h1
  have he' := he.append (exec_of_run _ h2)
  have hj' : (accepted (es ++ es'))[j]? = some m := by
    rw [accepted_append, List.getElem?_append_left (List.getElem?_eq_some_iff.1 hj).1]; exact hj
  apply finished_is he' hj'
  by_cases hf : j < (finished es).length
  · rw [finished_append, List.length_append]; omega
  · have hc : ¬ StopCalled es := fun ⟨i, hi⟩ => hstop ⟨i, List.mem_append_left _ hi⟩
    have hw : Waits n b rx j s es :=
      ⟨he, hc, (exec_calm he hc).2 hb, (List.getElem?_eq_some_iff.1 hj).1, by omega⟩
    rcases hw.run_ bs h2 hstop hL with h | ⟨h, h'⟩
    · exact h
    · exfalso
      have h3 := (h.least L).1
      have h4 := hw.most (L := L) (by
        have := exec_listeners he
        rw [added_append, List.length_append] at hL
        omega)
      omega

/-!## The call of log() itself -/

/-- What thread `i` has still to do in its call of log(). -/
def callLeft : CPc → Nat
  | .check _ => 4
  | .alloc _ => 3
  | .construct _ _ => 2
  | .enqueue _ _ => 1
  | _ => 0

/-- Thread `i` is inside log(m). -/
def InLog (m : Msg) : CPc → Prop
  | .check m' | .alloc m' | .construct m' _ | .enqueue m' _ => m' = m
  | _ => False

theorem inlog_moves {s : St} {es : List Ev} (hm : Mem s es) {i : Nat} {pc : CPc} {m : Msg} (hi : s.cl[i]? = some pc) (hp : InLog m pc) :
    ∃ s' e, step rx s (.cli i) = some (s', e) ∧ (((e = .accept i m ∨ e = .reject i m)) ∨
      ∃ pc', s'.cl[i]? = some pc' ∧ InLog m pc' ∧ callLeft pc' + 1 = callLeft pc) := by
  have hlt := (List.getElem?_eq_some_iff.1 hi).1
  simp only [step, hi]
  cases pc with
  | check m' =>
    cases hp
    simp only [resume]
    split
    · exact ⟨_, _, rfl, .inl (.inr rfl)⟩
    · exact ⟨_, _, rfl, .inr ⟨.alloc m, by simp [hlt], rfl, rfl⟩⟩
  | alloc m' =>
    cases hp
    simp only [resume]
    refine ⟨_, _, rfl, .inr ⟨.construct m (allocate s).2, ?_, rfl, rfl⟩⟩
    have : (allocate s).1.cl = s.cl := by simp only [allocate]; split <;> rfl
    simp [this, hlt]
  | construct m' a =>
    cases hp
    obtain ⟨x, hx⟩ := (hm.notqueue_of_cl (a := a) hi (by simp [cHolds])).2.2.1
    simp only [resume, hx]
    exact ⟨_, _, rfl, .inr ⟨.enqueue m a, by simp [hlt], rfl, rfl⟩⟩
  | enqueue m' a =>
    cases hp
    simp only [resume]
    exact ⟨_, _, rfl, .inl (.inl rfl)⟩
  | _ => cases hp

/-- The others do not change where thread `i` is. -/
theorem others_keep {s s' : St} {e : Ev} {a : Act} {i : Nat} {pc : CPc} (h : step rx s a = some (s', e)) (ha : a ≠ .cli i)
    (hi : s.cl[i]? = some pc) (hp : pc ≠ .idle) : s'.cl[i]? = some pc := by
  cases a with
  | call j op =>
    simp only [step] at h
    split at h
    · rename_i hj
      have hne : j ≠ i := by rintro rfl; rw [hi] at hj; exact hp (Option.some.inj hj)
      cases op with
      | start =>
        simp only [beginCall] at h
        split at h
        · cases h
        · split at h <;> cases h <;> exact hi
      | category l re => simp only [beginCall] at h; split at h <;> cases h <;> exact hi
      | _ => simp only [beginCall] at h; cases h; first | exact hi | (rw [List.getElem?_set_ne hne]; exact hi)
    · cases h
  | cli j =>
    have hne : j ≠ i := fun e => ha (by rw [e])
    simp only [step] at h
    split at h
    · rename_i pc' hj
      cases pc' <;> simp only [resume] at h <;> (try split at h) <;> (try split at h) <;> cases h <;>
        first
        | exact hi
        | (simp only [List.getElem?_set_ne hne]; exact hi)
        | (simp only [allocate]; split <;> simp only [List.getElem?_set_ne hne] <;> exact hi)
    · cases h
  | log =>
    have : s'.cl = s.cl := by
      simp only [step, logStep, head, dispose] at h
      repeat' split at h
      all_goals first | (cases h; done) | (cases h; rfl)
    rw [this]; exact hi
  | spurious =>
    simp only [step] at h
    split at h <;> cases h
    exact hi

theorem inlog_run {n : Nat} {t b : Bool} {i : Nat} {m : Msg} (bs : List Act) : ∀ {s s' : St} {es es' : List Ev} {pc : CPc},
    Exec rx (init n t b) s es → s.cl[i]? = some pc → InLog m pc → run rx s bs = some (s', es') →
    (.accept i m ∈ es' ∨ .reject i m ∈ es') ∨
      ∃ pc', s'.cl[i]? = some pc' ∧ InLog m pc' ∧ callLeft pc' + bs.count (.cli i) ≤ callLeft pc := by
  induction bs with
  | nil => intro s s' es es' pc _ hi hp h; cases h; exact .inr ⟨pc, hi, hp, by simp⟩
  | cons a bs ih =>
    intro s s' es es' pc he hi hp h
    simp only [run] at h
    split at h
    · cases h
    · rename_i s1 e1 h2
      split at h
      · cases h
      · rename_i s2 es2 h3
        cases h
        have he1 := Exec.snoc he h2
        by_cases ha : a = .cli i
        · subst ha
          obtain ⟨s'', e, h4, h5⟩ := inlog_moves (rx := rx) (exec_mem he) hi hp
          rw [h2] at h4
          cases h4
          rcases h5 with (rfl | rfl) | ⟨pc', h6, h7, h8⟩
          · simp
          · simp
          · rcases ih he1 h6 h7 h3 with h | ⟨pc2, h9, h10, h11⟩
            · exact .inl (h.imp (List.mem_cons_of_mem _) (List.mem_cons_of_mem _))
            · refine .inr ⟨pc2, h9, h10, ?_⟩
              rw [List.count_cons_self]; omega
        · have h6 := others_keep h2 ha hi (by rintro rfl; exact hp)
          rcases ih he1 h6 hp h3 with h | ⟨pc2, h9, h10, h11⟩
          · exact .inl (h.imp (List.mem_cons_of_mem _) (List.mem_cons_of_mem _))
          · refine .inr ⟨pc2, h9, h10, ?_⟩
            rw [List.count_cons_of_ne ha]; exact h11

/-- C163 (the call): log() never waits. Begun in any state that can be reached, running or stopped, it has at every
moment until it returns a step it can make, whatever the logging thread and the other threads are doing, and it has
returned - with the message queued, or refused because of its level - when it has made four steps. -/
theorem C163_log_never_waits {n : Nat} {t b : Bool} {as bs : List Act} {s s' : St} {es es' : List Ev} {i : Nat} {m : Msg}
    (h1 : run rx (init n t b) as = some (s, es)) (h2 : run rx s (.call i (.log m) :: bs) = some (s', es'))
    (hr : ¬ (.accept i m ∈ es' ∨ .reject i m ∈ es')) : bs.count (.cli i) < 4 ∧ ∃ r, step rx s' (.cli i) = some r := by
  have he := exec_of_run _ h1
  simp only [run] at h2
  split at h2
  · cases h2
  · rename_i s1 e1 h3
    split at h2
    · cases h2
    · rename_i s2 es2 h4
      cases h2
      have he1 := Exec.snoc he h3
      have hi : s1.cl[i]? = some (.check m) := by
        simp only [step] at h3
        split at h3
        · rename_i hj
          have hlt := (List.getElem?_eq_some_iff.1 hj).1
          cases h3
          simp [hlt]
        · cases h3
      rcases inlog_run bs he1 hi rfl h4 with h | ⟨pc, h5, h6, h7⟩
      · exact absurd (h.imp (List.mem_cons_of_mem _) (List.mem_cons_of_mem _)) hr
      · have h8 : 1 ≤ callLeft pc := by cases pc <;> first | (exact absurd h6 id) | simp [callLeft]
        have he2 := he1.append (exec_of_run _ h4)
        obtain ⟨s'', e, h9, -⟩ := inlog_moves (rx := rx) (exec_mem he2) h5 h6
        have h10 : callLeft (.check m) = 4 := rfl
        exact ⟨by omega, _, h9⟩

/-- C163 does not hold: with an unlucky m_isTerminated a message is accepted and never finished, however many steps the
logging thread is given. -/
theorem C163_latency_refuted : ∃ s es, run demoRx (init 1 true true) [.call 0 (.log (demoMsg 1)), .cli 0, .cli 0, .cli 0, .cli 0] = some (s, es) ∧
    accepted es = [demoMsg 1] ∧ ∀ bs s' es', run demoRx s bs = some (s', es') → finished (es ++ es') = [] := by
  have hr : run demoRx (init 1 true true) [.call 0 (.log (demoMsg 1)), .cli 0, .cli 0, .cli 0, .cli 0] =
    some ((run demoRx (init 1 true true) [.call 0 (.log (demoMsg 1)), .cli 0, .cli 0, .cli 0, .cli 0]).get rfl) := rfl
  refine ⟨_, _, hr, by decide, ?_⟩
  intro bs s' es' he
  have he' := (exec_of_run _ hr).append (exec_of_run _ he)
  have h := (C52_uninitialised_refuted he').1
  obtain ⟨c, hc, -⟩ := exec_finished he'
  rw [h] at hc
  exact (List.append_eq_nil_iff.1 hc.symm).1

/-- One listener and two messages; the logging thread has just finished the first one, the second is queued. -/
def afterOne : List Act :=
  [.call 0 (.addListener 7), .call 0 (.log (demoMsg 1)), .cli 0, .cli 0, .cli 0, .cli 0,
   .call 0 (.log (demoMsg 2)), .cli 0, .cli 0, .cli 0, .cli 0] ++ List.replicate 8 .log

/-- The hypotheses can be met, and the bound is exact: here 6 + 5 steps are needed and do. -/
example : ((run demoRx (init 1 false true) afterOne).map (fun r => (accepted r.2, (finished r.2).length, (added r.2).length))) =
    some ([demoMsg 1, demoMsg 2], 1, 1) := by decide +kernel
example : ((run demoRx (init 1 false true) (afterOne ++ List.replicate 10 .log)).map (fun r => (finished r.2).length)) = some 1 := by decide +kernel
example : ((run demoRx (init 1 false true) (afterOne ++ List.replicate 11 .log)).map (fun r => finished r.2)) =
    some [demoMsg 1, demoMsg 2] := by decide +kernel

/-- A call of log() that is made while a listener is being called, with the pool in use. -/
example : ((run demoRx (init 1 false true) (afterOne ++ [.call 0 (.log (demoMsg 3)), .cli 0, .log, .cli 0, .log, .cli 0, .log])).map
    (fun r => (accepted r.2).length)) = some 2 := by decide +kernel
example : ((run demoRx (init 1 false true) (afterOne ++ [.call 0 (.log (demoMsg 3)), .cli 0, .log, .cli 0, .log, .cli 0, .log, .cli 0])).map
    (fun r => (accepted r.2).length)) = some 3 := by decide +kernel

end Falcon.Log
