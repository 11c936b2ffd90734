import Verif.Props.LogSystem
import Verif.Props.LogHistory
import Verif.Props.LogLatency
import Verif.Props.LogLeak
import Verif.Props.LogDiags
import Verif.Props.LogFail
import Verif.Props.LogRace
import Verif.Props.LogReact
/- Each theorem about the log system, applied to a concrete run: its hypotheses can be met. -/
namespace Falcon.Log

/-! Two clients log while the thread delivers the first message to listener 7. -/

theorem demo_exec : ∃ s es, Exec demoRx (init 2 false true) s es ∧ accepted es = [demoMsg 1, demoMsg 2] ∧ (7, demoMsg 1) ∈ deliveries es ∧
    s.lt ≠ .none ∧ s.terminated = false ∧ (∀ i, .call i .stop ∉ es) ∧ (∀ l i, .did i (.detach l) ∉ es) ∧ detachedIn 7 es = false := by
  refine ⟨_, _, exec_of_run demoActs rfl, rfl, by decide, by decide, rfl, ?_, ?_, rfl⟩
  · intro i; simp
  · intro l i; simp

example : True := by
  obtain ⟨s, es, h, h1, h2, h3, h4, h5, h6, h7⟩ := demo_exec
  have := C38_fifo h
  have := C38_nothing_lost h
  have := C39_delivered_was_logged h 7 (demoMsg 1) h2
  have := C39_exclusive_objects h 63
  have := C39_memory_safe h
  have := C40_accounting h
  have := C41_outcome h 0
  have := C42_protocol h
  have := C43_category_rule h 7 ['x']
  have := C43_category_history h 7 ['x']
  have := C46_only_detach_detaches h 7 (h6 7)
  have := C48_drains h h4 h3
  have := C52_initialised_partial h h5
  have := C53_high_water_mark h
  have := C53_watermark_is_max h
  have := C113_counts h 7 h7
  have := C113_diagnostics h
  have := C137_discarded_le_created h
  have := C131_account_total (cap := 15) h
  have := C134_race_free_partial h .log (.cli 1)
  have := C134_diags_exact_partial h .log
  trivial

/-! The thread at the head of a message, with the listeners 7, 8 (disabled) and 7 again. -/

theorem hist_exec : ∃ s es s1 s2 s3 es2, Exec demoRx (init 1 false true) s es ∧ step demoRx s .log = some (s1, .dispatch (demoMsg 1) [7, 8, 7]) ∧
    Exec demoRx s1 s2 es2 ∧ step demoRx s2 .log = some (s3, .done (demoMsg 1)) ∧ (∀ m, .done m ∉ es2) ∧ (∀ i op, .did i op ∈ es2 → isConfig op = false) ∧
    (∀ l, detachedIn l es = false) ∧ .did 0 (.addListener 7) ∈ es ∧ (s.lst 7).detached = false ∧ deliveries es2 = [(7, demoMsg 1), (7, demoMsg 1)] := by
  refine ⟨_, _, _, _, _, _, exec_of_run histActs rfl, rfl, exec_of_run (List.replicate 12 .log) rfl, rfl, ?_, ?_, fun _ => rfl, by simp, rfl, rfl⟩
  · intro m; simp
  · intro i op h; simp at h

example : True := by
  obtain ⟨s, es, s1, s2, s3, es2, h, hd, he, hdone, hnd, hcfg, hdet, hadd, h7, -⟩ := hist_exec
  have := C42_delivered_exactly h s1 s2 s3 es2 _ _ _ hd he hdone hnd hcfg
  have := C42_delivered_history h s1 s2 s3 es2 _ _ _ hd he hdone hnd hcfg
  have := C42_offered_to_all _ _ _ _ hd
  have := C46_delivered_history h s1 s2 s3 es2 _ _ _ hd he hdone hnd hcfg hdet
  have := C46_offered_in_order h _ _ _ _ hd
  have := C46_added_listener_served h _ _ _ _ hd 0 7 hadd h7
  have := C113_listeners h hdet
  have := C41_level_history h .log s1 0 (demoMsg 1)
  trivial

/-! The answers of a listener: the step after the dispatch asks the first one. -/

theorem is_asked : ∃ s es s' l m st, Exec demoRx (init 1 false true) s es ∧ step demoRx s .log = some (s', .tested l m st true) :=
  ⟨_, _, _, _, _, _, exec_of_run (histActs ++ [.log, .log]) rfl, rfl⟩

example : True := by
  obtain ⟨s, es, s', l, m, st, h, hs⟩ := is_asked
  have := C42_answers h .log s' l m true
  have := C42_answers_history h .log s' l m true
  trivial

/-! The level check lets one message pass, and not another. -/

theorem checked : ∃ s es s1, Exec demoRx (init 1 false true) s es ∧ s.cl[0]? = some (.check (demoMsg 1)) ∧ step demoRx s (.cli 0) = some (s1, .reject 0 (demoMsg 1)) :=
  ⟨_, _, _, exec_of_run [.call 0 (.level 2), .call 0 (.log (demoMsg 1))] rfl, rfl, rfl⟩

example : True := by
  obtain ⟨s, es, s1, h, h1, h2⟩ := checked
  have := C41_level_check (rx := demoRx) 0 _ h1
  have := (C41_level_history h (.cli 0) s1 0 (demoMsg 1)).2 h2
  trivial

/-! A listener is detached while a message is on its way to it. -/

theorem detaching : ∃ s es s1 s2 es2, Exec demoRx (init 1 false true) s es ∧ step demoRx s (.call 0 (.detach 7)) = some (s1, .did 0 (.detach 7)) ∧
    Exec demoRx s1 s2 es2 ∧ deliveredTo 7 es2 = 1 :=
  ⟨_, _, _, _, _, exec_of_run ([.call 0 (.addListener 7), .call 0 (.log (demoMsg 1)), .cli 0, .cli 0, .cli 0, .cli 0] ++ List.replicate 4 .log) rfl, rfl,
    exec_of_run (List.replicate 3 .log) rfl, by decide⟩

example : True := by
  obtain ⟨s, es, s1, s2, es2, h, hd, he, -⟩ := detaching
  have := C45_detach_partial h 0 7 s1 s2 es2 hd he
  trivial

/-! stop: two callers, then the end of one; nothing comes afterwards; a start brings nothing back. -/

theorem stopping : ∃ s es, Exec demoRx (init 2 false true) s es ∧ s.cl[0]? = some .stopJoin ∧ s.cl[1]? = some .stopLock :=
  ⟨_, _, exec_of_run [.log, .call 0 .stop, .cli 0, .cli 0, .cli 0, .call 1 .stop, .cli 1, .cli 1] rfl, rfl, rfl⟩

example : True := by
  obtain ⟨s, es, h, h0, h1⟩ := stopping
  have := C103_one_joiner h 0 0 h0 h0
  have := C103_stop_can_return h 1 (.inr (.inr (.inl h1)))
  trivial

theorem stopped_with_one : ∃ s es s1, Exec demoRx (init 1 false true) s es ∧ step demoRx s (.cli 0) = some (s1, .stopped 0) ∧ s.queue.length = 1 :=
  ⟨_, _, _, exec_of_run [.call 0 (.log (demoMsg 1)), .cli 0, .cli 0, .cli 0, .cli 0, .call 0 .stop, .cli 0, .cli 0, .cli 0, .log] rfl, rfl, rfl⟩

theorem stopped_with_none : ∃ s es s1, Exec demoRx (init 1 false true) s es ∧ step demoRx s (.cli 0) = some (s1, .stopped 0) ∧ s.queue = [] ∧
    dispatched es = [demoMsg 1] ∧ ∀ pc ∈ s1.cl, pc = CPc.idle := by
  refine ⟨_, _, _, exec_of_run ([.call 0 (.log (demoMsg 1)), .cli 0, .cli 0, .cli 0, .cli 0] ++ List.replicate 5 .log ++ [.call 0 .stop, .cli 0, .cli 0, .cli 0, .log]) rfl, rfl, rfl, rfl, ?_⟩
  intro pc h
  exact (show ∀ pc ∈ [CPc.idle], pc = CPc.idle by simp) pc h

example : True := by
  obtain ⟨s, es, s1, h, hs, -⟩ := stopped_with_one
  have := C49_stop_partial h _ 0 s1 hs
  obtain ⟨s, es, s1, h, hs, hq, -⟩ := stopped_with_none
  have := C49_stop_after_drain_partial h _ 0 s1 hs hq
  trivial

theorem restarted : ∃ s es, Exec demoRx (init 1 false true) s es ∧ .stopped 0 ∈ es ∧ accepted es = [demoMsg 1] :=
  ⟨_, _, exec_of_run restartActs rfl, by simp, rfl⟩

example : True := by
  obtain ⟨s, es, h, hs, -⟩ := restarted
  have := C50_nothing_after_stop h 0 hs s [] .nil
  trivial

theorem first_start : ∃ s es s1, Exec demoRx (init 1 false false) s es ∧ s.terminated = false ∧ step demoRx s (.call 0 .start) = some (s1, .did 0 .start) ∧
    accepted es = [demoMsg 1] :=
  ⟨_, _, _, exec_of_run [.call 0 (.addListener 7), .call 0 (.log (demoMsg 1)), .cli 0, .cli 0, .cli 0, .cli 0] rfl, rfl, rfl, rfl⟩

example : True := by
  obtain ⟨s, es, s1, h, h1, h2, -⟩ := first_start
  have := C51_start_partial h h1 0 s1 h2
  trivial

/-! The thread asleep, everybody idle. -/

theorem asleep : ∃ s es, Exec demoRx (init 1 false true) s es ∧ (∀ pc ∈ s.cl, pc = CPc.idle) ∧ s.queue = [] ∧ s.lt = .wait false ∧ dispatched es = [demoMsg 1] := by
  refine ⟨_, _, exec_of_run ([.call 0 (.log (demoMsg 1)), .cli 0, .cli 0, .cli 0, .cli 0] ++ List.replicate 6 .log) rfl, ?_, rfl, rfl, rfl⟩
  intro pc h
  exact (show ∀ pc ∈ [CPc.idle], pc = CPc.idle by simp) pc h

example : True := by
  obtain ⟨s, es, h, h1, h2, h3, -⟩ := asleep
  have := C40_reported h h1 h2 (.inr (.inr h3))
  have := C47_no_lost_wakeup h h3
  trivial

/-! The destructor after a stop that left a message behind, with its strings. -/

theorem over : ∃ s es, Exec demoRx (init 1 false true) s es ∧ (∀ pc ∈ s.cl, pc = CPc.idle) ∧ s.lt = .none ∧ s.queue.length = 1 := by
  refine ⟨_, _, exec_of_run [.call 0 (.log (demoMsg 1)), .cli 0, .cli 0, .cli 0, .cli 0,
       .call 0 .stop, .cli 0, .cli 0, .cli 0, .log, .cli 0] rfl, ?_, rfl, rfl⟩
  intro pc h
  exact (show ∀ pc ∈ [CPc.idle], pc = CPc.idle by simp) pc h

example : True := by
  obtain ⟨s, es, h, h1, h2, -⟩ := over
  have := C54_destructor h h1 h2
  obtain ⟨g, hg⟩ := C131_account_total (cap := 1) h
  have := C131_account_partial hg h1 h2
  trivial

/-! A category the library refuses, and one it takes. -/

example := C44_category_call (rx := demoRx) (s := init 1 false true) 0 7 ['('] rfl

/-! A message behind one that was delivered: eleven steps of the thread are enough for it. -/

theorem no_stop {es : List Ev} (h : es.any (fun e => match e with | .call _ .stop => true | _ => false) = false) : ¬ StopCalled es := by
  rintro ⟨i, hi⟩
  have := List.any_eq_false.1 h _ hi
  simp at this

theorem late : ∃ s es s' es', run demoRx (init 1 false true) afterOne = some (s, es) ∧ run demoRx s (List.replicate 11 .log) = some (s', es') ∧
    (accepted es)[1]? = some (demoMsg 2) ∧ ¬ StopCalled (es ++ es') ∧ (added (es ++ es')).length = 1 ∧ (finished es).length = 1 := by
  refine ⟨_, _, _, _, rfl, rfl, rfl, no_stop rfl, rfl, rfl⟩

example : True := by
  obtain ⟨s, es, s', es', h1, h2, hj, hs, ha, hf⟩ := late
  have := C163_latency_partial h1 h2 hs (.inl rfl) 1 _ hj 1 (Nat.le_of_eq ha) (by rw [hf]; decide)
  trivial

theorem pausing : ∃ s es s' es', run demoRx (init 1 false true) afterOne = some (s, es) ∧
    run demoRx s (.call 0 (.log (demoMsg 3)) :: [.cli 0, .log, .cli 0, .log, .cli 0, .log]) = some (s', es') ∧ ¬ (.accept 0 (demoMsg 3) ∈ es' ∨ .reject 0 (demoMsg 3) ∈ es') := by
  refine ⟨_, _, _, _, rfl, rfl, ?_⟩
  decide

example : True := by
  obtain ⟨s, es, s', es', h1, h2, hr⟩ := pausing
  have := C163_log_never_waits h1 h2 hr
  trivial

end Falcon.Log
