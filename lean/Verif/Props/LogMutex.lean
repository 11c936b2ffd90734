import Verif.Proofs.LogMutexReads
import Verif.Proofs.LogMutexRace
import Verif.Proofs.LogMutexHold
import Verif.Props.LogSystem
/-
C164: the log system with explicit mutexes (take, each assignment, release: separate steps, interleaved with those of the other threads in any way).
Its critical sections behave as if they were single steps; it does not deadlock; no two threads are ever about to make conflicting accesses.
-/
namespace Falcon.LogM
open Falcon.Log (Str Addr LId Msg Rx Lst Op Ev Stage Mtx LPc CPc St Act Exec init Loc exec_mem exec_wake accepted dispatched deliveries demoRx demoMsg)

variable {rx : Rx} {n : Nat} {t b : Bool} {f g : FSt} {as bs : List FAct} {es es' : List Ev}

/-- C164: whatever the interleaving, what can be observed of a run, and what a thread that takes the mutexes reads afterwards, is what a run of the program
with atomic critical sections shows. -/
theorem C164_atomic (h : frun rx (finit n t b) as = some (f, es)) :
    ∃ s es', Exec rx (init n t b) s es' ∧ visible es' = visible es ∧ Agrees f s := by
  obtain ⟨hI, es', h1, h2⟩ := sim_init h
  exact ⟨abs f, es', h1, h2, agrees hI⟩

/-- C164: nothing is lost either; every run of the program with atomic critical sections is one of the program with explicit mutexes. -/
theorem C164_all_atomic {s : St} (h : Exec rx (init n t b) s es) :
    ∃ as f es', frun rx (finit n t b) as = some (f, es') ∧ visible es' = visible es ∧ f.queue = s.queue ∧ f.pool = s.pool ∧ f.active = s.active ∧
      f.pending = s.pending ∧ f.level = s.level ∧ f.maxQ = s.maxQ ∧ f.lst = s.lst ∧ f.terminated = s.terminated ∧
      ∀ i : Nat, s.cl[i]? = some .idle → f.cl[i]? = some .idle := by
  obtain ⟨as, es', h1, h2⟩ := lift_exec h
  exact ⟨as, lift s, es', h1, h2, rfl, rfl, rfl, rfl, rfl, rfl, rfl, rfl, fun i hi => lift_get hi⟩

/-- C164: a property of what can be observed that holds with atomic critical sections holds with explicit mutexes, and conversely. -/
theorem C164_transfer (P : List Ev → Prop) :
    (∀ as f es, frun rx (finit n t b) as = some (f, es) → P (visible es)) ↔ ∀ s es, Exec rx (init n t b) s es → P (visible es) := by
  constructor
  · intro h s es hx
    obtain ⟨as, f, es', h1, h2, -⟩ := C164_all_atomic hx
    exact h2 ▸ h as f es' h1
  · intro h as f es hx
    obtain ⟨s, es', h1, h2, -⟩ := C164_atomic hx
    exact h2 ▸ h s es' h1

/-- C164: for instance: messages are served in the order in which they were accepted, and nothing undefined happens. -/
theorem C164_fifo (h : frun rx (finit n t b) as = some (f, es)) : dispatched es <+: accepted es ∧ ∀ u, .fault u ∉ es := by
  obtain ⟨s, es', h1, h2, -⟩ := C164_atomic h
  have same : ∀ {β : Type} (k : Ev → Option β), k .tau = none → ∀ l : List Ev, (visible l).filterMap k = l.filterMap k := by
    intro β k hk l
    induction l with
    | nil => rfl
    | cons e l ih =>
      by_cases he : e = .tau
      · subst he
        rw [show visible (.tau :: l) = visible l from List.filter_cons_of_neg (by simp), ih, List.filterMap_cons_none hk]
      · rw [show visible (e :: l) = e :: visible l from List.filter_cons_of_pos (by simp [he]), List.filterMap_cons, List.filterMap_cons, ih]
  have ha : accepted es = accepted es' := by
    unfold accepted; rw [← same _ rfl es, ← same _ rfl es', h2]
  have hd : dispatched es = dispatched es' := by
    unfold dispatched; rw [← same _ rfl es, ← same _ rfl es', h2]
  rw [ha, hd]
  refine ⟨Falcon.Log.C38_fifo h1, fun u hu => ?_⟩
  have : Ev.fault u ∈ visible es := by simp [visible, hu]
  rw [← h2] at this
  exact (exec_mem h1).nofault u (List.mem_filter.1 this).1

/-- C164: no deadlock. As long as a call has not returned, some thread of the program can go on. -/
theorem C164_no_deadlock {i : Nat} {pc : FPc} (h : frun rx (finit n t b) as = some (f, es)) (hi : f.cl[i]? = some pc) (hp : pc ≠ .idle) :
    ∃ o, Moves rx f o := by
  obtain ⟨hI, es', h1, -⟩ := sim_init h
  exact someone_moves hI (exec_wake h1) hi hp

/-- C164: who has a mutex can go on, unless it is in `stop()` and waits for the logging thread to end. -/
theorem C164_holder_moves {x : Mtx} {o : Tid} (h : frun rx (finit n t b) as = some (f, es)) (hm : f.mtx x = some o) :
    Moves rx f o ∨ x = .thread ∧ ∃ i, o = some i ∧ f.cl[i]? = some .sJoin := by
  obtain ⟨hI, es', h1, -⟩ := sim_init h
  by_cases hx : x = .thread
  · subst hx
    cases o with
    | none =>
      have := (hI.own.log .thread).1 hm
      cases hl : f.lt <;> rw [hl] at this <;> cases this
    | some i =>
      obtain ⟨pc, hi, hp⟩ := (hI.own.cli .thread i).1 hm
      by_cases hj : pc = .sJoin
      · subst hj; exact .inr ⟨rfl, i, rfl, hi⟩
      · exact .inl (holder_cli hi hp hj)
  · exact .inl (holder_moves hI hm hx)

/-- C164: and has released it after at most four of its own steps; it never takes a second one meanwhile. -/
theorem C164_held_short {x : Mtx} {o : Tid} (h : frun rx (finit n t b) as = some (f, es)) (hx : x ≠ .thread) (h2 : frun rx f bs = some (g, es'))
    (hold : ∀ cs, cs <+: bs → ∀ k ev, frun rx f cs = some (k, ev) → k.mtx x = some o) : bs.countP (fun a => a.thread = o) ≤ 3 := by
  obtain ⟨hI, es0, h1, -⟩ := sim_init h
  have := held_short hI h1 hx h2 hold
  have := togo_le f o
  omega

/-- C164: nobody ever has two mutexes. -/
theorem C164_one_mutex {x y : Mtx} {o : Tid} (h : frun rx (finit n t b) as = some (f, es)) (hx : f.mtx x = some o) (hy : f.mtx y = some o) : x = y := by
  obtain ⟨hI, -⟩ := sim_init h
  cases o with
  | none =>
    have h1 := (hI.own.log x).1 hx
    have h2 := (hI.own.log y).1 hy
    rw [h1] at h2; cases h2; rfl
  | some i =>
    obtain ⟨pc, h1, h2⟩ := (hI.own.cli x i).1 hx
    obtain ⟨pc', h3, h4⟩ := (hI.own.cli y i).1 hy
    rw [h1] at h3; cases h3
    rw [h2] at h4; cases h4; rfl

/-- C164: when a call has returned its thread has no mutex, also when `category(regex)` has thrown; and the thread that has ended has none. -/
theorem C164_released {x : Mtx} (h : frun rx (finit n t b) as = some (f, es)) :
    (∀ i : Nat, f.cl[i]? = some .idle → f.mtx x ≠ some (some i)) ∧ ((f.lt = .exited ∨ f.lt = .none) → f.mtx x ≠ some none) := by
  obtain ⟨hI, -⟩ := sim_init h
  constructor
  · intro i hi hm
    have := (hI.own.at hi x).1 hm
    cases this
  · intro hl hm
    have := (hI.own.log x).1 hm
    rcases hl with hl | hl <;> rw [hl] at this <;> cases this

/-- C164: no data race: two threads are never about to access the same variable, one of them writing, unless both accesses are atomic. -/
theorem C164_race_free (h : frun rx (finit n t b) as = some (f, es)) (a a' : FAct) : ¬ Conflict rx f a a' := by
  obtain ⟨hI, es', h1, -⟩ := sim_init h
  exact no_conflict hI (exec_mem h1) a a'

/-- C164: the accesses listed for a step include everything it changes (but for the Message object it creates, which nobody else knows). -/
theorem C164_writes_complete {a : FAct} {e : Option Ev} (h : fstep rx f a = some (g, e)) (x : Loc) (hx : ¬ FSame f g x) :
    (∃ acc ∈ ffoot f a, acc.loc = x ∧ acc.write = true) ∨ x = .msg f.next := writes h x hx

/-- C164: they include everything it depends on, too: in two states with the threads at the same places that agree on what the step accesses, it is possible in both or in
none, the same is observed, and what it leaves behind in these variables is the same. -/
theorem C164_reads_complete {f1 f2 g1 : FSt} {a : FAct} {e : Option Ev} (hc : FCtl f1 f2) (hf : ∀ acc ∈ ffoot f1 a, FSame f1 f2 acc.loc) (h : fstep rx f1 a = some (g1, e)) :
    ∃ g2, fstep rx f2 a = some (g2, e) ∧ FCtl g1 g2 ∧ ∀ acc ∈ ffoot f1 a, FSame g1 g2 acc.loc := reads hc hf h

/-- Non-vacuity: two states that differ in the listeners, the levels and the counters, where a client is about to put a message in the queue. -/
example : ∃ f1 f2 : FSt, f1.active ≠ f2.active ∧ f1.level ≠ f2.level ∧ f1.pool ≠ f2.pool ∧ FCtl f1 f2 ∧ (∀ acc ∈ ffoot f1 (.cli 0), FSame f1 f2 acc.loc) ∧
    ∃ g1, fstep demoRx f1 (.cli 0) = some (g1, some (.accept 0 (demoMsg 1))) :=
  ⟨{ finit 1 false true with cl := [.ePush (demoMsg 1) 0], level := 2, active := [7], pool := [] }, { finit 1 false true with cl := [.ePush (demoMsg 1) 0], pool := [3] },
    by decide, by decide, by decide, ⟨rfl, rfl, rfl, rfl⟩, by simp [ffoot, fcli, Falcon.Log.wr, FSame], _, rfl⟩

/-! ### Concrete runs -/

/-- Two clients log, one of them stops half way in its critical section; the logging thread waits for the mutex. -/
def tangled : List FAct :=
  [.call 0 (.log (demoMsg 1)), .cli 0, .call 1 (.addListener 7), .cli 1, .cli 0, .cli 0, .cli 0, .cli 0, .cli 1, .cli 0, .cli 0, .cli 0]

example : (frun demoRx (finit 2 false true) tangled).isSome = true := by decide +kernel
example : ((frun demoRx (finit 2 false true) tangled).map fun r => (r.1.mtx .message, r.1.mtx .listeners, r.1.queue, r.1.maxQ, r.1.pending)) =
    some (some (some 0), some (some 1), [63], 0, [7]) := by decide +kernel
/-- The logging thread and a third call are blocked; the holders are not. -/
example : ((frun demoRx (finit 2 false true) tangled).map fun r => ((fstep demoRx r.1 .log).isSome, (fstep demoRx r.1 (.cli 0)).isSome, (fstep demoRx r.1 (.cli 1)).isSome)) =
    some (false, true, true) := by decide +kernel
/-- It goes on to the delivery. -/
example : ((frun demoRx (finit 2 false true) (tangled ++ [.cli 0, .cli 1, .cli 0, .cli 0] ++ List.replicate 16 .log)).map fun r => (accepted r.2, deliveries r.2)) =
    some ([demoMsg 1], [(7, demoMsg 1)]) := by decide +kernel
/-- An invalid regular expression: thrown, the mutex is free again. -/
example : ((frun demoRx (finit 1 false true) [.call 0 (.category 7 ['(']), .cli 0, .cli 0, .cli 0]).map fun r =>
    (r.2, r.1.mtx (.category 7), r.1.cl)) = some ([.threw 0 (.category 7 ['('])], none, [.idle]) := by decide +kernel
end Falcon.LogM
