import Verif.Proofs.LogStop
/-
C38-C55: the asynchronous log system.

`Exec rx (init n t b) s es`: starting from a new LogSystem with `n` client threads, some
schedule leads to state `s` while the events `es` are observed; `t` is what the uninitialised
member `m_isTerminated` contained, `b` is the constructor argument `startNow`.  `rx` (the regular
expression library) is arbitrary.
-/
namespace Falcon.Log

variable {rx : Rx} {n : Nat} {t b : Bool} {s : St} {es : List Ev}

/-! ### a concrete scenario used for non-vacuity -/

def demoRx : Rx := { valid := fun re => decide (re ≠ ['(']), full := fun re c => decide (re = c) }
def demoMsg (k : Int) : Msg := { file := ['f'], line := k, level := 3, cat := ['x'], text := ['h', 'i'] }
/-- one client adds listener 7 and logs two messages while the logging thread runs -/
def demoActs : List Act :=
  [.call 0 (.addListener 7), .log, .call 0 (.log (demoMsg 1)), .cli 0, .cli 0, .cli 0, .cli 0,
   .call 1 (.log (demoMsg 2)), .cli 1, .cli 1, .log, .log, .log, .log, .log, .cli 1, .cli 1, .log, .log, .log, .log]
example : (run demoRx (init 2 false true) demoActs).map (fun r => (r.1.queue.length, r.1.pool.length, deliveries r.2, accepted r.2))
    = some (1, 62, [(7, demoMsg 1)], [demoMsg 1, demoMsg 2]) := by decide

/-! ### C38 -/

theorem map_some_inj : ∀ {l l' : List Msg}, l.map some = l'.map some → l = l'
  | [], [], _ => rfl
  | [], _ :: _, h => by cases h
  | _ :: _, [], h => by cases h
  | a :: l, a' :: l', h => by
    rw [List.map_cons, List.map_cons] at h
    injection h with h1 h2
    rw [Option.some.inj h1, map_some_inj h2]

/-- C38: the messages processed are always a prefix of the messages accepted, in the order of
acceptance. -/
theorem C38_fifo (h : Exec rx (init n t b) s es) : dispatched es <+: accepted es := by
  have hf := (exec_mem h).fifo
  have hall : ∀ o ∈ inflight s ++ s.queue.map s.heap, ∃ m, o = some m := by
    intro o ho
    have : o ∈ (accepted es).map some := by rw [hf, List.append_assoc]; exact List.mem_append_right _ ho
    obtain ⟨m, -, e⟩ := List.mem_map.1 this
    exact ⟨m, e.symm⟩
  have : ∃ ms : List Msg, inflight s ++ s.queue.map s.heap = ms.map some := by
    generalize inflight s ++ s.queue.map s.heap = l at hall
    induction l with
    | nil => exact ⟨[], rfl⟩
    | cons o l ih =>
      obtain ⟨ms, e⟩ := ih (fun o ho => hall o (by simp [ho]))
      obtain ⟨m, e'⟩ := hall o (by simp)
      exact ⟨m :: ms, by simp [e, e']⟩
  obtain ⟨ms, e⟩ := this
  rw [List.append_assoc, e, ← List.map_append] at hf
  exact ⟨ms, (map_some_inj hf).symm⟩

/-- C38: nothing disappears - what was accepted and not yet processed is in the queue (or is the
message just taken from it), in order. -/
theorem C38_nothing_lost (h : Exec rx (init n t b) s es) :
    (accepted es).length = (dispatched es).length + (match s.lt with | .got _ => 1 | _ => 0) + s.queue.length := by
  have := congrArg List.length (exec_mem h).fifo
  simp only [List.length_append, List.length_map] at this
  rw [this]
  unfold inflight
  cases s.lt <;> rfl

/-! ### C39 -/

/-- The message of the current round is among `S`. -/
def Round.MsgIn (S : List Msg) : Round → Prop
  | .idle => True
  | .serving m _ => m ∈ S
  | .asking m _ _ _ => m ∈ S

theorem round_msgs : ∀ (es : List Ev) (r r' : Round) (S : List Msg), Round.run r es = some r' →
    r.MsgIn S →
    ∀ l m, .deliver l m ∈ es → m ∈ S ++ dispatched es := by
  intro es
  induction es with
  | nil => intro r r' S _ _ l m hm; cases hm
  | cons e es ih =>
    intro r r' S hr hS l m hm
    simp only [Round.run] at hr
    split at hr
    · cases hr
    · rename_i r1 h1
      have key : r1.MsgIn (S ++ dispatched [e]) ∧
          (∀ l m, e = .deliver l m → m ∈ S ++ dispatched [e]) := by
        cases e with
        | dispatch m' ls =>
          simp only [Round.next] at h1
          split at h1
          · cases h1; exact ⟨by simp [dispatched, Round.MsgIn], by simp⟩
          · cases h1
        | tested l' m' st b =>
          cases st with
          | enabled =>
            cases r with
            | serving m1 rem =>
              cases rem with
              | nil => simp [Round.next] at h1
              | cons l1 rem =>
                simp only [Round.next] at h1
                split at h1
                · rename_i h2; obtain ⟨rfl, rfl⟩ := h2
                  cases h1
                  refine ⟨?_, by simp⟩
                  cases b <;> simpa [dispatched, Round.MsgIn] using hS
                · cases h1
            | _ => simp [Round.next] at h1
          | level =>
            cases r with
            | asking m1 l1 st1 rem =>
              cases st1 <;> first | (simp [Round.next] at h1; done) | skip
              simp only [Round.next] at h1
              split at h1
              · rename_i h2; obtain ⟨rfl, rfl⟩ := h2
                cases h1
                refine ⟨?_, by simp⟩
                cases b <;> simpa [dispatched, Round.MsgIn] using hS
              · cases h1
            | _ => simp [Round.next] at h1
          | category =>
            cases r with
            | asking m1 l1 st1 rem =>
              cases st1 <;> first | (simp [Round.next] at h1; done) | skip
              simp only [Round.next] at h1
              split at h1
              · rename_i h2; obtain ⟨rfl, rfl⟩ := h2
                cases h1
                refine ⟨?_, by simp⟩
                cases b <;> simpa [dispatched, Round.MsgIn] using hS
              · cases h1
            | _ => simp [Round.next] at h1
          | call => cases h1
        | deliver l' m' =>
            cases r with
            | asking m1 l1 st1 rem =>
              cases st1 <;> first | (simp [Round.next] at h1; done) | skip
              simp only [Round.next] at h1
              split at h1
              · rename_i h2; obtain ⟨rfl, rfl⟩ := h2
                cases h1
                refine ⟨by simpa [dispatched, Round.MsgIn] using hS, ?_⟩
                intro l m e; cases e
                simpa [dispatched, Round.MsgIn] using hS
              · cases h1
            | _ => simp [Round.next] at h1
        | done m' =>
          simp only [Round.next] at h1
          split at h1
          · cases h1; exact ⟨trivial, by simp⟩
          · cases h1
        | _ =>
          cases h1
          refine ⟨?_, by simp⟩
          cases r <;> first | trivial | simpa [dispatched, Round.MsgIn] using hS
      rcases List.mem_cons.1 hm with hm | hm
      · have := key.2 l m hm.symm
        rw [show dispatched (e :: es) = dispatched [e] ++ dispatched es from dispatched_append [e] es, ← List.append_assoc]
        exact List.mem_append_left _ this
      · have := ih r1 r' (S ++ dispatched [e]) hr key.1 l m hm
        rw [show dispatched (e :: es) = dispatched [e] ++ dispatched es from dispatched_append [e] es, ← List.append_assoc]
        exact this

theorem call_msgs (i : Nat) : ∀ (es : List Ev) (c c' : Call), Call.run i c es = some c' →
    ∀ m, .accept i m ∈ es → c = .sending m ∨ c = .checking m ∨ .call i (.log m) ∈ es ∨ .call i (.logPtr m) ∈ es := by
  intro es
  induction es with
  | nil => intro c c' _ m hm; cases hm
  | cons e es ih =>
    intro c c' hr m hm
    simp only [Call.run] at hr
    split at hr
    · cases hr
    · rename_i c1 h1
      rcases List.mem_cons.1 hm with hm | hm
      · subst hm
        simp only [Call.next, if_true] at h1
        split at h1
        · rename_i h2; exact Or.inl h2
        · cases h1
      · have := ih c1 c' hr m hm
        have lift : .call i (.log m) ∈ es ∨ .call i (.logPtr m) ∈ es → c = .sending m ∨ c = .checking m ∨ .call i (.log m) ∈ e :: es ∨ .call i (.logPtr m) ∈ e :: es := by
          rintro (h | h)
          · exact Or.inr (Or.inr (Or.inl (by simp [h])))
          · exact Or.inr (Or.inr (Or.inr (by simp [h])))
        rcases this with h | h | h
        · subst h
          unfold Call.next at h1
          split at h1
          · split at h1
            · split at h1 <;> cases h1
            · cases h1; exact Or.inl rfl
          · split at h1
            · rename_i hj; subst hj
              split at h1
              · cases h1; right; right; right; simp
              · cases h1
            · cases h1; exact Or.inl rfl
          · split at h1
            · split at h1 <;> cases h1
            · cases h1; exact Or.inl rfl
          · split at h1
            · split at h1
              · rename_i h2; cases h1; exact Or.inr (Or.inl h2)
              · cases h1
            · cases h1; exact Or.inl rfl
          · split at h1
            · split at h1 <;> cases h1
            · cases h1; exact Or.inl rfl
          · cases h1; exact Or.inl rfl
        · subst h
          unfold Call.next at h1
          split at h1
          · split at h1
            · rename_i hj; subst hj
              split at h1
              · cases h1; right; right; left; simp
              · cases h1
            · cases h1; exact Or.inr (Or.inl rfl)
          · split at h1
            · split at h1 <;> cases h1
            · cases h1; exact Or.inr (Or.inl rfl)
          · split at h1
            · split at h1 <;> cases h1
            · cases h1; exact Or.inr (Or.inl rfl)
          · split at h1
            · split at h1 <;> cases h1
            · cases h1; exact Or.inr (Or.inl rfl)
          · split at h1
            · split at h1 <;> cases h1
            · cases h1; exact Or.inr (Or.inl rfl)
          · cases h1; exact Or.inr (Or.inl rfl)
        · exact lift h

/-- C39: whatever a listener receives - file, line, level, category and text - is what some client
passed to log(), was accepted, and is being processed in its turn. -/
theorem C39_delivered_was_logged (h : Exec rx (init n t b) s es) (l : LId) (m : Msg) (hm : (l, m) ∈ deliveries es) :
    m ∈ dispatched es ∧ ∃ i, .accept i m ∈ es ∧ (.call i (.log m) ∈ es ∨ .call i (.logPtr m) ∈ es) := by
  have hd : .deliver l m ∈ es := by
    obtain ⟨e, he, h2⟩ := List.mem_filterMap.1 hm
    cases e <;> simp at h2
    obtain ⟨rfl, rfl⟩ := h2; exact he
  obtain ⟨r, h1, -⟩ := exec_round h
  have h2 : m ∈ dispatched es := by simpa using round_msgs es .idle r [] h1 trivial l m hd
  have h3 : m ∈ accepted es := (C38_fifo h).subset h2
  obtain ⟨e, he, h4⟩ := List.mem_filterMap.1 h3
  refine ⟨h2, ?_⟩
  cases e with
  | accept i m' =>
    simp at h4; subst h4
    refine ⟨i, he, ?_⟩
    rcases call_msgs i es .out _ (exec_call h i) m' he with h | h | h
    · cases h
    · cases h
    · exact h
  | _ => simp at h4

/-- Client `i` is filling in or about to queue object `a`. -/
def ClientHas (s : St) (i : Nat) (a : Addr) : Prop :=
  ∃ m, s.cl[i]? = some (CPc.construct m a) ∨ s.cl[i]? = some (CPc.enqueue m a)

/-- The logging thread is processing object `a`. -/
def LoggerHas (s : St) (a : Addr) : Prop :=
  s.lt = .got a ∨ (∃ r, s.lt = .send a r) ∨ (∃ l st r, s.lt = .test a l st r) ∨ (∃ k r, s.lt = .clean a k r) ∨ s.lt = .dispose a

theorem ClientHas.holds {s : St} {i : Nat} {a : Addr} (h : ClientHas s i a) : ∃ pc, s.cl[i]? = some pc ∧ cHolds a pc = 1 := by
  obtain ⟨m, h | h⟩ := h
  · exact ⟨_, h, by simp [cHolds]⟩
  · exact ⟨_, h, by simp [cHolds]⟩

theorem LoggerHas.holds {s : St} {a : Addr} (h : LoggerHas s a) : lHolds a s.lt = 1 := by
  rcases h with h | ⟨r, h⟩ | ⟨l, st, r, h⟩ | ⟨k, r, h⟩ | h <;> simp [h, lHolds]

/-- C39: no message object is ever in two places: while it is queued or being delivered it is not
in the pool, not in a client's hands and not queued twice. -/
theorem C39_exclusive_objects (h : Exec rx (init n t b) s es) (a : Addr) :
    s.queue.Nodup ∧ s.pool.Nodup ∧
    (a ∈ s.queue → a ∉ s.pool ∧ ¬ LoggerHas s a ∧ ∀ i, ¬ ClientHas s i a) ∧
    (LoggerHas s a → a ∉ s.pool ∧ ∀ i, ¬ ClientHas s i a) ∧
    (∀ i, ClientHas s i a → a ∉ s.pool ∧ ∀ j, ClientHas s j a → i = j) := by
  have hm := exec_mem h
  have le : ∀ a, s.pool.count a + s.queue.count a + (s.cl.map (cHolds a)).sum + lHolds a s.lt ≤ 1 :=
    fun a => by rw [hm.count a]; exact cnt_le _
  have cl : ∀ i, ClientHas s i a → 1 ≤ (s.cl.map (cHolds a)).sum := by
    intro i hi
    obtain ⟨pc, h1, h2⟩ := hi.holds
    have := sum_ge (cHolds a) s.cl i pc h1
    omega
  have hle := le a
  refine ⟨List.nodup_iff_count.2 fun a => by have := le a; omega, List.nodup_iff_count.2 fun a => by have := le a; omega, ?_, ?_, ?_⟩
  · intro hq
    have h1 := count_pos_of_mem hq
    refine ⟨fun hp => ?_, fun hl => ?_, fun i hi => ?_⟩
    · have := count_pos_of_mem hp; omega
    · have := hl.holds; omega
    · have := cl i hi; omega
  · intro hl
    have h1 := hl.holds
    refine ⟨fun hp => ?_, fun i hi => ?_⟩
    · have := count_pos_of_mem hp; omega
    · have := cl i hi; omega
  · intro i hi
    refine ⟨fun hp => ?_, fun j hj => ?_⟩
    · have := count_pos_of_mem hp; have := cl i hi; omega
    · refine Classical.byContradiction fun hne => ?_
      obtain ⟨pc, h1, h2⟩ := hi.holds
      obtain ⟨pc', h3, h4⟩ := hj.holds
      have := (hm.notqueue_of_cl h1 h2).2.2.2 j pc' (Ne.symm hne) h3
      omega

/-- C39: no execution of the log system runs into undefined behaviour: no message object is used
after it was freed or freed twice. -/
theorem C39_memory_safe (h : Exec rx (init n t b) s es) (u : UB) : .fault u ∉ es := (exec_mem h).nofault u

/-! ### C40 -/

/-- Objects in the hands of clients in the middle of log(). -/
def inHands (s : St) : Nat :=
  (s.cl.filter fun pc => match pc with | .construct _ _ => true | .enqueue _ _ => true | _ => false).length

/-- Objects being processed. -/
def inProcess (s : St) : Nat :=
  match s.lt with | .got _ | .send _ _ | .test _ _ _ _ | .clean _ _ _ | .dispose _ => 1 | _ => 0

/-- C40: the pool never exceeds 64 objects and the books balance at every moment. -/
theorem C40_accounting (h : Exec rx (init n t b) s es) :
    s.pool.length ≤ 64 ∧
    64 + (getDiags s).msgsCreated + s.external
      = (getDiags s).poolSize + (getDiags s).msgsDiscarded + s.queue.length + inHands s + inProcess s := by
  have hm := exec_mem h
  refine ⟨hm.bound, ?_⟩
  have e1 : (s.cl.map cHeld).sum = inHands s := by
    unfold inHands
    generalize s.cl = cl
    induction cl with
    | nil => rfl
    | cons pc cl ih =>
      rw [List.map_cons, List.sum_cons, ih, List.filter_cons]
      cases pc <;> simp [cHeld] <;> omega
  have e2 : lHeld s.lt = inProcess s := by unfold inProcess; cases s.lt <;> rfl
  have := hm.balance
  rw [e1, e2] at this
  exact this

/-- C40: when all calls have returned, everything is processed and the logging thread sleeps or is
stopped, the reported numbers balance. -/
theorem C40_reported (h : Exec rx (init n t b) s es) (hi : ∀ pc ∈ s.cl, pc = .idle) (hq : s.queue = [])
    (hl : s.lt = .none ∨ s.lt = .exited ∨ s.lt = .wait false) :
    (getDiags s).poolSize + (getDiags s).msgsDiscarded = 64 + (getDiags s).msgsCreated + s.external := by
  have := (C40_accounting h).2
  have h1 : inHands s = 0 := by
    unfold inHands
    rw [List.length_eq_zero_iff, List.filter_eq_nil_iff]
    intro pc hpc; rw [hi pc hpc]; simp
  have h2 : inProcess s = 0 := by unfold inProcess; rcases hl with hl | hl | hl <;> simp [hl]
  rw [h1, h2, hq] at this
  simp only [List.length_nil] at this; omega

/-! ### C41 -/

/-- C41: the level check of log() compares with the system level at that moment. -/
theorem C41_level_check (i : Nat) (m : Msg) (hi : s.cl[i]? = some (.check m)) :
    step rx s (.cli i) = if m.level ≤ s.level then some ({ s with cl := s.cl.set i (.alloc m) }, .pass i m)
      else some ({ s with cl := s.cl.set i .idle }, .reject i m) := by
  simp only [step, hi, resume]
  by_cases h : m.level ≤ s.level
  · rw [if_pos h, if_neg (by omega)]
  · rw [if_neg h, if_pos (by omega)]

/-- C41: every log() call of every client is either rejected, or passes the check and then exactly
its message is accepted exactly once; a client's calls do not mix. -/
theorem C41_outcome (h : Exec rx (init n t b) s es) (i : Nat) : ∃ c, Call.run i .out es = some c :=
  ⟨_, exec_call h i⟩

/-- C41: a rejected call has no effect: before and after it only the client's own position
differs; and it happens only when the level is too high. A passed one only when it is not. -/
theorem C41_reject_effect (a : Act) (s' : St) (i : Nat) (m : Msg) :
    (step rx s a = some (s', .reject i m) → m.level > s.level ∧ s' = { s with cl := s.cl.set i .idle }) ∧
    (step rx s a = some (s', .pass i m) → m.level ≤ s.level) := by
  constructor
  · intro hs
    have := step_rel hs
    cases this with
    | reject i m hi hl => exact ⟨hl, rfl⟩
  · intro hs
    have := step_rel hs
    cases this with
    | pass i m hi hl => omega

example : (run demoRx (init 1 false true) [.call 0 (.level 2), .call 0 (.log (demoMsg 1)), .cli 0]).map Prod.snd
    = some [.did 0 (.level 2), .call 0 (.log (demoMsg 1)), .reject 0 (demoMsg 1)] := by decide

/-! ### C42 -/

/-- C42: in every execution the logging thread follows the protocol of `Round`: it serves the
listeners strictly in order, asks each one three questions and calls onMessage exactly when all
three were answered positively, each listener once per registration and message. -/
theorem C42_protocol (h : Exec rx (init n t b) s es) : ∃ r, Round.run .idle es = some r := by
  obtain ⟨r, h1, -⟩ := exec_round h
  exact ⟨r, h1⟩

/-- C42: the answers are the truth at the moment of the question. -/
theorem C42_answers (h : Exec rx (init n t b) s es) (a : Act) (s' : St) (l : LId) (m : Msg) (x : Bool) :
    (step rx s a = some (s', .tested l m .enabled x) → x = (s.lst l).enabled) ∧
    (step rx s a = some (s', .tested l m .level x) → (x = true ↔ m.level ≤ (s.lst l).level)) ∧
    (step rx s a = some (s', .tested l m .category x) →
      (x = true ↔ (m.cat = [] ∨ (s.lst l).category = [] ∨ rx.full (s.lst l).category m.cat = true))) := by
  refine ⟨fun hs => ?_, fun hs => ?_, fun hs => ?_⟩
  · have := step_rel hs
    cases this with
    | testEnabled => rfl
  · have := step_rel hs
    cases this with
    | testLevel => exact decide_eq_true_iff
  · have := step_rel hs
    cases this with
    | testCategory => exact checkCategory_iff (exec_cat h l)

/-- C42: processing begins with exactly the listeners registered so far, in registration order
(those already active, then those waiting to be). -/
theorem C42_offered_to_all (a : Act) (s' : St) (m : Msg) (ls : List LId)
    (hs : step rx s a = some (s', .dispatch m ls)) : ls = s.active ++ s.pending := by
  have := step_rel hs
  cases this with
  | dispatch => rfl

/-- C42: if no listener is reconfigured while a message is processed, onMessage is called exactly
on the listeners that want it, in registration order, once per registration, with that message. -/
theorem C42_delivered_exactly (h : Exec rx (init n t b) s es) (s1 s2 s3 : St) (es2 : List Ev) (m m' : Msg)
    (ls : List LId) (hd : step rx s .log = some (s1, .dispatch m ls)) (he : Exec rx s1 s2 es2)
    (hdone : step rx s2 .log = some (s3, .done m')) (hnd : ∀ m'', .done m'' ∉ es2)
    (hcfg : ∀ i op, .did i op ∈ es2 → isConfig op = false) :
    m' = m ∧ deliveries es2 = (ls.filter fun l => decide (Wants rx (s1.lst l) m)).map fun l => (l, m) := by
  have hm1 : Mem s1 (es ++ [.dispatch m ls]) := (exec_mem h).step (step_rel hd)
  have hcat : CatOk s1 := (exec_cat h).step (step_rel hd)
  have hr1 : RoundInv rx s1.lst m ls s1 [] := by
    have := step_rel hd
    cases this with
    | dispatch a m hl hh =>
      exact ⟨fun l => ⟨rfl, rfl, rfl, rfl⟩, a, hh, Or.inl ⟨_, rfl, by simp [deliveries]⟩⟩
  have hr2 := round_run hcat hm1 hr1 he hcfg hnd
  obtain ⟨a, hh, hst⟩ := hr2.st
  have hq := step_rel hdone
  cases hq with
  | done a' m' hl hh' =>
    rcases hst with ⟨rem, hl', hx⟩ | ⟨l, st, rem, hl', -⟩
    · rw [hl] at hl'; cases hl'
      rw [hh] at hh'; cases hh'
      refine ⟨rfl, ?_⟩
      simpa [todo] using hx
    · rw [hl] at hl'; cases hl'

/-- Non-vacuity: three listeners, the second disabled, the third registered while the message is
already taken from the queue. -/
example : ∃ s1 s2 s3 es2 m ls, ∃ as s0 es, run demoRx (init 1 false true) as = some (s0, es) ∧
    step demoRx s0 .log = some (s1, .dispatch m ls) ∧ Exec demoRx s1 s2 es2 ∧
    step demoRx s2 .log = some (s3, .done m) ∧ ls = [1, 2, 3] ∧ deliveries es2 = [(1, demoMsg 1), (3, demoMsg 1)] := by
  refine ⟨_, _, _, _, _, _, [.call 0 (.addListener 1), .call 0 (.addListener 2), .call 0 (.enable 2 false),
    .call 0 (.log (demoMsg 1)), .cli 0, .cli 0, .cli 0, .cli 0, .log, .call 0 (.addListener 3)], _, _, rfl, rfl,
    exec_of_run (List.replicate 12 .log) rfl, rfl, rfl, rfl⟩

/-! ### C43, C44 -/

/-- C43: in every reachable state the category filter of a listener is the documented rule. -/
theorem C43_category_rule (h : Exec rx (init n t b) s es) (l : LId) (cat : Str) :
    checkCategory rx (s.lst l) cat = true ↔
      (cat = [] ∨ (s.lst l).category = [] ∨ rx.full (s.lst l).category cat = true) :=
  checkCategory_iff (exec_cat h l)

/-- C44: an invalid expression throws InvalidCategory and nothing changes; a valid one is in force
for this listener and changes nothing else. -/
theorem C44_category_call (i : Nat) (l : LId) (re : Str) (hi : s.cl[i]? = some .idle) :
    (rx.valid re = false → step rx s (.call i (.category l re)) = some (s, .threw i (.category l re))) ∧
    (rx.valid re = true → ∃ s', step rx s (.call i (.category l re)) = some (s', .did i (.category l re)) ∧
      (∀ cat, checkCategory rx (s'.lst l) cat = true ↔ (cat = [] ∨ re = [] ∨ rx.full re cat = true)) ∧
      (s'.lst l).category = re ∧ (s'.lst l).level = (s.lst l).level ∧ (s'.lst l).enabled = (s.lst l).enabled ∧
      ∀ k, k ≠ l → s'.lst k = s.lst k) := by
  constructor
  · intro hv
    simp [step, hi, beginCall, setCategory, hv]
  · intro hv
    refine ⟨_, by simp only [step, hi, beginCall, setCategory, hv, if_true]; rfl, ?_⟩
    refine ⟨fun cat => ?_, ?_, ?_, ?_, fun k hk => setLst_ne _ _ hk⟩
    · show checkCategory rx (setLst _ _ _ l) cat = true ↔ _
      rw [setLst_self]; exact checkCategory_iff (Or.inr rfl)
    · show (setLst _ _ _ l).category = _; rw [setLst_self]
    · show (setLst _ _ _ l).level = _; rw [setLst_self]
    · show (setLst _ _ _ l).enabled = _; rw [setLst_self]

example : demoRx.valid ['('] = false ∧ demoRx.valid ['x'] = true ∧
    checkCategory demoRx { category := ['x'], regex := some ['x'] } ['y'] = false ∧
    checkCategory demoRx { category := ['x'], regex := some ['x'] } ['x'] = true ∧
    checkCategory demoRx { category := ['x'], regex := some ['x'] } [] = true := by decide

/-! ### C45 -/

/-- C45 does not hold: detach() has returned, then onMessage is called. -/
theorem C45_detach_refuted :
    (run demoRx (init 1 false true)
      ([.call 0 (.addListener 7), .call 0 (.detach 7), .call 0 (.log (demoMsg 1)), .cli 0, .cli 0, .cli 0, .cli 0]
        ++ List.replicate 7 .log)).map (fun r => (r.2[1]?, r.2[13]?))
      = some (some (.did 0 (.detach 7)), some (.deliver 7 (demoMsg 1))) := by decide

/-- C45 (what holds): after detach(l) returned - in every continuation, however long - onMessage is
called on l at most once per registration of l that existed then, plus once per later
addListener(l). In particular a listener registered once receives at most one more message. -/
theorem C45_detach_partial (h : Exec rx (init n t b) s es) (i : Nat) (l : LId) (s1 s2 : St) (es2 : List Ev)
    (hd : step rx s (.call i (.detach l)) = some (s1, .did i (.detach l))) (he : Exec rx s1 s2 es2) :
    deliveredTo l es2 ≤ addCalls l es + addCalls l es2 := by
  have hdet : (s1.lst l).detached = true := by
    have := step_rel hd
    cases this with
    | detach i l hi => show (setLst _ _ _ l).detached = _; rw [setLst_self]
  have key : chances l s2 + deliveredTo l es2 ≤ chances l s1 + addCalls l es2 ∧ (s2.lst l).detached = true := by
    clear hd h
    induction he with
    | nil => exact ⟨by simp [deliveredTo, deliveries, addCalls], hdet⟩
    | snoc _ hst ih =>
      have hs := step_rel hst
      have := chances_step hs l ih.2
      rw [deliveredTo_append, addCalls_append]
      exact ⟨by omega, detached_mono hs l ih.2⟩
  have h1 : chances l s1 ≤ addCalls l es := by
    -- chances is bounded by the number of addListener calls in every execution
    have inv : ∀ {s : St} {es : List Ev}, Exec rx (init n t b) s es → chances l s ≤ addCalls l es ∧
        s.pending.count l + s.active.count l ≤ addCalls l es ∧
        (∀ a k r, s.lt = .clean a k r → s.pending.count l + k.count l + r.count l ≤ addCalls l es) ∧
        (∀ a r, s.lt = .send a r → s.pending.count l + r.count l ≤ addCalls l es) ∧
        (∀ a k st r, s.lt = .test a k st r → s.pending.count l + r.count l + (if k = l then 1 else 0) ≤ addCalls l es) := by
      intro s es h
      have fromRest : ∀ (s : St) (N : Nat), s.pending.count l + s.active.count l ≤ N →
        (∀ a k r, s.lt = .clean a k r → s.pending.count l + k.count l + r.count l ≤ N) →
        (∀ a r, s.lt = .send a r → s.pending.count l + r.count l ≤ N) →
        (∀ a k st r, s.lt = .test a k st r → s.pending.count l + r.count l + (if k = l then 1 else 0) ≤ N) → chances l s ≤ N := by
        intro s N h2 h3 h4 h5
        unfold chances
        split
        · rename_i a r hl; exact h4 a r hl
        · rename_i a k st r hl; have := h5 a k st r hl; omega
        · rename_i a k r hl; have := h3 a k r hl; omega
        · exact h2
      have inv2 : s.pending.count l + s.active.count l ≤ addCalls l es ∧
        (∀ a k r, s.lt = .clean a k r → s.pending.count l + k.count l + r.count l ≤ addCalls l es) ∧
        (∀ a r, s.lt = .send a r → s.pending.count l + r.count l ≤ addCalls l es) ∧
        (∀ a k st r, s.lt = .test a k st r → s.pending.count l + r.count l + (if k = l then 1 else 0) ≤ addCalls l es) := by
        refine exec_inv (fun s es => s.pending.count l + s.active.count l ≤ addCalls l es ∧
          (∀ a k r, s.lt = .clean a k r → s.pending.count l + k.count l + r.count l ≤ addCalls l es) ∧
          (∀ a r, s.lt = .send a r → s.pending.count l + r.count l ≤ addCalls l es) ∧
          (∀ a k st r, s.lt = .test a k st r → s.pending.count l + r.count l + (if k = l then 1 else 0) ≤ addCalls l es)) ?_ ?_ h
        · refine ⟨Nat.le_refl _, ?_, ?_, ?_⟩ <;> (intros; cases b <;> simp_all [init])
        · rintro s es e s' ⟨h2, h3, h4, h5⟩ hs
          have mono : addCalls l es ≤ addCalls l (es ++ [e]) := by rw [addCalls_append]; omega
          have keep : s'.pending = s.pending → s'.active = s.active → s'.lt = s.lt ∨ s'.lt = notify s.lt →
              s'.pending.count l + s'.active.count l ≤ addCalls l (es ++ [e]) ∧
              (∀ a k r, s'.lt = .clean a k r → s'.pending.count l + k.count l + r.count l ≤ addCalls l (es ++ [e])) ∧
              (∀ a r, s'.lt = .send a r → s'.pending.count l + r.count l ≤ addCalls l (es ++ [e])) ∧
              (∀ a k st r, s'.lt = .test a k st r → s'.pending.count l + r.count l + (if k = l then 1 else 0) ≤ addCalls l (es ++ [e])) := by
            intro e1 e2 e3
            have nt : ∀ p, s'.lt = p → (∀ x, p ≠ .wait x) → s.lt = p := by
              intro p hp hx
              rcases e3 with e3 | e3
              · rw [← e3]; exact hp
              · rw [e3] at hp
                cases hl : s.lt with
                | wait x => rw [hl] at hp; exact absurd hp.symm (hx true)
                | _ => rw [hl] at hp; exact hp
            rw [e1, e2]
            exact ⟨Nat.le_trans h2 mono, fun a k r hl => Nat.le_trans (h3 a k r (nt _ hl (by simp))) mono,
              fun a r hl => Nat.le_trans (h4 a r (nt _ hl (by simp))) mono,
              fun a k st r hl => Nat.le_trans (h5 a k st r (nt _ hl (by simp))) mono⟩
          have plain : s'.pending = s.pending → s'.active = s.active →
              (∀ a k r, s'.lt ≠ .clean a k r) → (∀ a r, s'.lt ≠ .send a r) → (∀ a k st r, s'.lt ≠ .test a k st r) →
              s'.pending.count l + s'.active.count l ≤ addCalls l (es ++ [e]) ∧
              (∀ a k r, s'.lt = .clean a k r → s'.pending.count l + k.count l + r.count l ≤ addCalls l (es ++ [e])) ∧
              (∀ a r, s'.lt = .send a r → s'.pending.count l + r.count l ≤ addCalls l (es ++ [e])) ∧
              (∀ a k st r, s'.lt = .test a k st r → s'.pending.count l + r.count l + (if k = l then 1 else 0) ≤ addCalls l (es ++ [e])) := by
            intro e1 e2 e3 e4 e5
            rw [e1, e2]
            exact ⟨Nat.le_trans h2 mono, fun a k r hl => absurd hl (e3 a k r), fun a r hl => absurd hl (e4 a r),
              fun a k st r hl => absurd hl (e5 a k st r)⟩
          cases hs with
          | callLog | callLogPtr | callStop | detach | level | enable | llevel | category | categoryThrow
            | startAgain | reject | pass | stopSet | stopNone | stopLock | allocPool | allocNew | construct | constructFault
            | extNew | gotFault | testFault | doneFault => exact keep rfl rfl (Or.inl rfl)
          | stopNotify => exact keep rfl rfl (Or.inr rfl)
          | enqueue => exact keep rfl rfl (Or.inr rfl)
          | start | stopJoin | spurious | exit | sleep | take | disposePool | disposeFault | disposeDelete =>
            exact plain rfl rfl (by simp) (by simp) (by simp)
          | addListener i k hi =>
            have ec : addCalls l (es ++ [.did i (.addListener k)]) = addCalls l es + if k = l then 1 else 0 := by
              rw [addCalls_append]; simp only [addCalls, List.filter_cons, List.filter_nil]
              by_cases e : k = l <;> simp [e]
            have ep : (s.pending ++ [k]).count l = s.pending.count l + if k = l then 1 else 0 := by
              simp [List.count_append, List.count_singleton]
            rw [ec]
            simp only [ep]
            exact ⟨by omega, fun a k' r hl => by have := h3 a k' r hl; omega, fun a r hl => by have := h4 a r hl; omega,
              fun a k' st r hl => by have := h5 a k' st r hl; omega⟩
          | dispatch a m hl hh =>
            refine ⟨by simp only [List.count_append, List.count_nil]; omega, by simp, ?_, by simp⟩
            intro a' r e; cases e; simp only [List.count_append, List.count_nil]; omega
          | next a k rem hl =>
            refine ⟨by simp only; omega, by simp, by simp, ?_⟩
            intro a' k' st r e; cases e
            have := h4 a (k :: rem) hl
            rw [List.count_cons] at this
            simp only [beq_iff_eq] at this
            simp only; omega
          | done a m hl hh =>
            refine ⟨by simp only; omega, ?_, by simp, by simp⟩
            intro a' k r e; cases e; simp only [List.count_nil]; omega
          | testEnabled a k rem m hl hh =>
            have := h5 a k _ rem hl
            refine ⟨by simp only; omega, by simp only; split <;> simp, ?_, ?_⟩
            · intro a' r e; simp only at e ⊢; split at e <;> cases e; omega
            · intro a' k' st r e; simp only at e ⊢; split at e <;> cases e; omega
          | testLevel a k rem m hl hh =>
            have := h5 a k _ rem hl
            refine ⟨by simp only; omega, by simp only; split <;> simp, ?_, ?_⟩
            · intro a' r e; simp only at e ⊢; split at e <;> cases e; omega
            · intro a' k' st r e; simp only at e ⊢; split at e <;> cases e; omega
          | testCategory a k rem m hl hh =>
            have := h5 a k _ rem hl
            refine ⟨by simp only; omega, by simp only; split <;> simp, ?_, ?_⟩
            · intro a' r e; simp only at e ⊢; split at e <;> cases e; omega
            · intro a' k' st r e; simp only at e ⊢; split at e <;> cases e; omega
          | deliver a k rem m hl hh =>
            have := h5 a k _ rem hl
            refine ⟨by simp only; omega, by simp, ?_, by simp⟩
            intro a' r e; cases e; simp only; omega
          | cleanOne a kept k rest hl =>
            have := h3 a kept (k :: rest) hl
            rw [List.count_cons] at this
            simp only [beq_iff_eq] at this
            refine ⟨by simp only; omega, ?_, by simp, by simp⟩
            intro a' k' r e; cases e
            simp only
            split
            · omega
            · rw [List.count_append, List.count_singleton]; simp only [beq_iff_eq]; omega
          | cleanEnd a kept hl =>
            have := h3 a kept [] hl
            refine ⟨by simp only; simp only [List.count_nil] at this; omega, by simp, by simp, by simp⟩
      exact ⟨fromRest s _ inv2.1 inv2.2.1 inv2.2.2.1 inv2.2.2.2, inv2⟩
    have := (inv (.snoc h hd)).1
    rw [addCalls_append] at this
    simpa [addCalls] using this
  omega

/-! ### C46 -/

/-- C46: whenever the logging thread starts to process a message, every listener whose
addListener() had returned before and that is not detached is among the listeners it serves, as
often as it was added. (A message logged later than the addListener() is processed later.) -/
theorem C46_added_listener_served (h : Exec rx (init n t b) s es) (a : Act) (s' : St) (m : Msg) (ls : List LId)
    (hs : step rx s a = some (s', .dispatch m ls)) (i : Nat) (l : LId) (hadd : .did i (.addListener l) ∈ es)
    (hdet : (s.lst l).detached = false) : ls.count l = addCalls l es ∧ l ∈ ls := by
  have hr : ls = registered s := by
    have := step_rel hs
    cases this with
    | dispatch a m hl hh => simp [registered, hl]
  have h1 : ls.count l = addCalls l es := by
    rcases exec_registered h l with h2 | h2
    · rw [hdet] at h2; cases h2
    · rw [hr, h2]
  have h2 : 0 < addCalls l es := by
    unfold addCalls
    exact List.length_pos_of_mem (List.mem_filter.2 ⟨hadd, by simp⟩)
  exact ⟨h1, List.count_pos_iff.1 (by omega)⟩

/-- C46: a listener that was never detached by any client is not detached. -/
theorem C46_only_detach_detaches (h : Exec rx (init n t b) s es) (l : LId) (hn : ∀ i, .did i (.detach l) ∉ es) :
    (s.lst l).detached = false := by
  have : (∀ i, .did i (.detach l) ∉ es) → (s.lst l).detached = false := by
    refine exec_inv (fun s es => (∀ i, .did i (.detach l) ∉ es) → (s.lst l).detached = false) (fun _ => rfl) ?_ h
    intro s es e s' ih hs hn
    have h0 := ih (fun i hi => hn i (by simp [hi]))
    have upd : ∀ (k : LId) (v : Lst), (k = l → v.detached = false) → (setLst s.lst k v l).detached = false := by
      intro k v hv
      by_cases e : l = k
      · subst e; rw [setLst_self]; exact hv rfl
      · rw [setLst_ne _ _ e]; exact h0
    cases hs with
    | detach i k hi =>
      refine upd k _ (fun e => ?_)
      subst e; exact absurd (by simp) (hn i)
    | enable i k b hi => exact upd k _ (fun e => by subst e; exact h0)
    | llevel i k n hi => exact upd k _ (fun e => by subst e; exact h0)
    | category i k re hi hv => exact upd k _ (fun e => by subst e; exact h0)
    | _ => exact h0
  exact this hn

/-! ### C47 -/

/-- C47: whenever the logging thread sleeps and has not been notified, the queue is empty; and if
the service is being stopped, some stop() has yet to issue its notification. -/
theorem C47_no_lost_wakeup (h : Exec rx (init n t b) s es) (hl : s.lt = .wait false) :
    s.queue = [] ∧ (s.terminated = true → ∃ i : Nat, s.cl[i]? = some CPc.stopNotify) :=
  ⟨(exec_wake h).queue hl, (exec_wake h).term hl⟩

/-! ### C48 -/

/-- C48: from every reachable state in which the service runs and is not being stopped, the
logging thread alone processes and serves every accepted message and goes to sleep, within
(queued + 1) * (6 * listeners + 5) of its own steps. -/
theorem C48_drains (h : Exec rx (init n t b) s es) (hr : s.terminated = false) (hl : s.lt ≠ .none) :
    ∃ k s' es', k ≤ (s.queue.length + 1) * (6 * (s.active.length + s.pending.length) + 5) ∧
      run rx s (List.replicate k .log) = some (s', es') ∧ s'.queue = [] ∧ s'.lt = .wait false ∧
      dispatched (es ++ es') = accepted es ∧ Round.run .idle (es ++ es') = some .idle := by
  have hrun : Running s := ⟨hr, hl, fun e => by
    have := (exec_wake h).exited e; rw [hr] at this; cases this⟩
  obtain ⟨k, s', es', h1, h2, h3, h4⟩ := log_drains (cost s) h hrun (Nat.le_refl _)
  have hex := h.append (exec_of_run _ h2)
  have hq := (exec_wake hex).queue h3
  refine ⟨k, s', es', ?_, h2, hq, h3, ?_, ?_⟩
  · refine Nat.le_trans h1 ?_
    have hb := roundCost_le (exec_clean h) (exec_serve h)
    unfold cost
    unfold listeners at hb ⊢
    rw [Nat.add_mul]; omega
  · have := (exec_mem hex).fifo
    rw [hq, accepted_append, h4, List.append_nil] at this
    simp only [inflight, h3, List.map_nil, List.append_nil] at this
    exact (map_some_inj this).symm
  · obtain ⟨r, e1, e2⟩ := exec_round hex
    simp only [roundOf, h3] at e2
    rw [e1, e2]

/-- Non-vacuity of C48: a reachable running state with two queued messages. -/
example : ∃ s es, Exec demoRx (init 1 false true) s es ∧ s.terminated = false ∧ s.lt ≠ .none ∧ s.queue.length = 2 := by
  refine ⟨_, _, exec_of_run [.call 0 (.log (demoMsg 1)), .cli 0, .cli 0, .cli 0, .cli 0,
    .call 0 (.log (demoMsg 2)), .cli 0, .cli 0, .cli 0, .cli 0] rfl, rfl, by decide, rfl⟩

/-! ### C49 -/

/-- C49 does not hold: a message is accepted, then stop() is called and returns, and the message
was never processed, although a listener that accepts everything is registered. -/
theorem C49_stop_refuted :
    (run demoRx (init 1 false true)
      [.call 0 (.addListener 7), .call 0 (.log (demoMsg 1)), .cli 0, .cli 0, .cli 0, .cli 0,
       .call 0 .stop, .cli 0, .cli 0, .cli 0, .log, .cli 0]).map
        (fun r => (r.2.getLast?, accepted r.2, deliveries r.2))
      = some (some (.stopped 0), [demoMsg 1], []) := by decide

/-- C49 (what holds): when stop() returns, the messages processed are a prefix of those accepted,
the rest is still queued in order, and every message whose processing began was served to the end
(no listener is in the middle of it). -/
theorem C49_stop_partial (h : Exec rx (init n t b) s es) (a : Act) (i : Nat) (s' : St)
    (hs : step rx s a = some (s', .stopped i)) :
    (accepted es).map some = (dispatched es).map some ++ s'.queue.map s'.heap ∧
    Round.run .idle es = some .idle := by
  have hr := step_rel hs
  obtain ⟨-, hl, hq, hh⟩ := stopped_state (exec_wake h) hr
  have hl0 : s.lt = .none ∨ s.lt = .exited := by
    cases hr with
    | stopNone _ hi hm h0 => exact Or.inl h0
    | stopJoin _ hi h0 => exact Or.inr h0
  constructor
  · have := (exec_mem h).fifo
    rw [hq, hh]
    rcases hl0 with h0 | h0 <;> simpa [inflight, h0] using this
  · obtain ⟨r, e1, e2⟩ := exec_round h
    rw [e1]
    rcases hl0 with h0 | h0 <;> simp only [roundOf, h0] at e2 <;> exact e2.symm

/-- C49 (what holds): and if the log had been drained before (see C48), nothing is missing. -/
theorem C49_stop_after_drain_partial (h : Exec rx (init n t b) s es) (a : Act) (i : Nat) (s' : St)
    (hs : step rx s a = some (s', .stopped i)) (hq : s.queue = []) : dispatched es = accepted es := by
  have := (C49_stop_partial h a i s' hs).1
  rw [(stopped_state (exec_wake h) (step_rel hs)).2.2.1, hq] at this
  simp only [List.map_nil, List.append_nil] at this
  exact (map_some_inj this).symm

/-! ### C50 -/

/-- C50: once a stop() has returned no message is processed and no listener is called, in any
continuation, whatever is called - not even after start(). -/
theorem C50_nothing_after_stop (h : Exec rx (init n t b) s es) (i : Nat) (hs : .stopped i ∈ es) (s' : St) (es' : List Ev)
    (he : Exec rx s s' es') : dispatched es' = [] ∧ deliveries es' = [] := by
  have hst : Stopped s := by
    have : (∃ i, .stopped i ∈ es) → Stopped s := by
      suffices Wake s ∧ ((∃ i, .stopped i ∈ es) → Stopped s) from this.2
      refine exec_inv (fun s es => Wake s ∧ ((∃ i, Ev.stopped i ∈ es) → Stopped s)) ⟨Wake.initial n t b, by simp⟩ ?_ h
      rintro s es e s' ⟨hw, ih⟩ hstep
      refine ⟨hw.step hstep, ?_⟩
      rintro ⟨j, hj⟩
      rcases List.mem_append.1 hj with hj | hj
      · exact ((ih ⟨j, hj⟩).step hstep).1
      · rw [List.mem_singleton] at hj; subst hj
        exact (stopped_state hw hstep).1
    exact this ⟨i, hs⟩
  obtain ⟨-, h1, h2⟩ := hst.exec he
  exact ⟨h1, h2⟩

/-- Non-vacuity: stop() returns, then start(), then a message is accepted. -/
def restartActs : List Act :=
  [.call 0 (.addListener 7), .call 0 .stop, .cli 0, .cli 0, .cli 0, .log, .cli 0, .call 0 .start,
   .call 0 (.log (demoMsg 1)), .cli 0, .cli 0, .cli 0, .cli 0]
example : (run demoRx (init 1 false true) restartActs).map (fun r => (accepted r.2, r.2.contains (.stopped 0), r.2.contains (.did 0 .start)))
    = some ([demoMsg 1], true, true) := by decide

/-! ### C51 -/

/-- C51 does not hold: after stop() and start(), a message is accepted and no continuation
whatsoever delivers it. -/
theorem C51_restart_refuted : ∃ s es, run demoRx (init 1 false true) restartActs = some (s, es) ∧
    .stopped 0 ∈ es ∧ .did 0 .start ∈ es ∧ accepted es = [demoMsg 1] ∧
    ∀ s' es', Exec demoRx s s' es' → deliveries (es ++ es') = [] := by
  have hr : run demoRx (init 1 false true) restartActs = some ((run demoRx (init 1 false true) restartActs).get rfl) := rfl
  refine ⟨_, _, hr, by decide, by decide, by decide, ?_⟩
  intro s' es' he
  have := (C50_nothing_after_stop (exec_of_run restartActs hr) 0 (by decide) s' es' he).2
  rw [deliveries_append, this, List.append_nil]
  decide

/-- C51 (what holds): start() on a log system that was constructed with startNow = false and was
never stopped starts the service: everything accepted so far is then processed. -/
theorem C51_start_partial (h : Exec rx (init n t b) s es) (hr : s.terminated = false) (i : Nat) (s1 : St)
    (hs : step rx s (.call i .start) = some (s1, .did i .start)) :
    ∃ k s' es', run rx s1 (List.replicate k .log) = some (s', es') ∧ s'.queue = [] ∧
      dispatched (es ++ [.did i .start] ++ es') = accepted es := by
  have he := Exec.snoc h hs
  have h1 : s1.terminated = false ∧ s1.lt ≠ .none := by
    have := step_rel hs
    cases this with
    | start i hi hm hl => exact ⟨hr, by simp⟩
    | startAgain i hi hm hl => exact ⟨hr, hl⟩
  obtain ⟨k, s', es', -, h2, h3, -, h5, -⟩ := C48_drains he h1.1 h1.2
  refine ⟨k, s', es', h2, h3, ?_⟩
  rw [h5, accepted_append]; simp [accepted]

example : (run demoRx (init 1 false false) ([.call 0 (.addListener 7), .call 0 (.log (demoMsg 1)), .cli 0, .cli 0, .cli 0, .cli 0,
    .call 0 .start] ++ List.replicate 11 .log)).map (fun r => deliveries r.2) = some [(7, demoMsg 1)] := by decide

/-! ### C52 -/

/-- C52 does not hold: the constructor does not initialise m_isTerminated. If the memory contains a
true value there, no message is ever processed, in any execution. -/
theorem C52_uninitialised_refuted (h : Exec rx (init n true b) s es) : dispatched es = [] ∧ deliveries es = [] := by
  have h0 : Stopped (init n true b) := ⟨rfl, by cases b <;> simp [init]⟩
  obtain ⟨-, h1, h2⟩ := h0.exec h
  exact ⟨h1, h2⟩

/-- C52: the messages are accepted nevertheless, so this is a silent loss. -/
theorem C52_uninitialised_accepts_refuted : ∃ s es, Exec demoRx (init 1 true true) s es ∧ accepted es = [demoMsg 1] ∧
    ∀ s' es', Exec demoRx s s' es' → deliveries (es ++ es') = [] := by
  have hr : run demoRx (init 1 true true) [.call 0 (.log (demoMsg 1)), .cli 0, .cli 0, .cli 0, .cli 0] =
    some ((run demoRx (init 1 true true) [.call 0 (.log (demoMsg 1)), .cli 0, .cli 0, .cli 0, .cli 0]).get rfl) := rfl
  refine ⟨_, _, exec_of_run _ hr, by decide, ?_⟩
  intro s' es' he
  exact (C52_uninitialised_refuted ((exec_of_run _ hr).append he)).2

/-- C52 (what holds): if the memory happened to contain false, the service runs until somebody calls
stop(), and C48 applies to it. -/
theorem C52_initialised_partial (h : Exec rx (init n false true) s es) (hn : ∀ i, .call i .stop ∉ es) :
    s.terminated = false ∧ s.lt ≠ .none := by
  have key : (∀ i, Ev.call i .stop ∉ es) → s.terminated = false ∧ s.lt ≠ .none ∧
      ∀ (i : Nat) (pc : CPc), s.cl[i]? = some pc → pc ≠ .stopSet ∧ pc ≠ .stopNotify ∧ pc ≠ .stopLock ∧ pc ≠ .stopJoin := by
    refine exec_inv (fun s es => (∀ i, Ev.call i .stop ∉ es) → s.terminated = false ∧ s.lt ≠ .none ∧
      ∀ (i : Nat) (pc : CPc), s.cl[i]? = some pc → pc ≠ .stopSet ∧ pc ≠ .stopNotify ∧ pc ≠ .stopLock ∧ pc ≠ .stopJoin) ?_ ?_ h
    · intro _
      refine ⟨rfl, by simp [init], ?_⟩
      intro i pc hi
      simp only [init, List.getElem?_replicate] at hi
      split at hi
      · cases hi; simp
      · cases hi
    · intro s es e s' ih hs hn
      obtain ⟨h1, h2, h3⟩ := ih (fun i hi => hn i (by simp [hi]))
      have nn : notify s.lt ≠ .none := fun e => h2 (notify_eq_none e)
      have upd : ∀ (i : Nat) (pc' : CPc), (pc' ≠ .stopSet ∧ pc' ≠ .stopNotify ∧ pc' ≠ .stopLock ∧ pc' ≠ .stopJoin) →
          ∀ (j : Nat) (pc : CPc), (s.cl.set i pc')[j]? = some pc → pc ≠ .stopSet ∧ pc ≠ .stopNotify ∧ pc ≠ .stopLock ∧ pc ≠ .stopJoin := by
        intro i pc' hp j pc hj
        rcases set_get? hj with ⟨-, rfl⟩ | ⟨-, hj⟩
        · exact hp
        · exact h3 j pc hj
      cases hs with
      | callStop i hi => exact absurd (by simp) (hn i)
      | stopSet i hi => exact absurd rfl (h3 i _ hi).1
      | stopNotify i hi => exact absurd rfl (h3 i _ hi).2.1
      | stopNone i hi => exact absurd rfl (h3 i _ hi).2.2.1
      | stopLock i hi => exact absurd rfl (h3 i _ hi).2.2.1
      | stopJoin i hi => exact absurd rfl (h3 i _ hi).2.2.2
      | enqueue i m a hi => exact ⟨h1, nn, upd i _ (by simp)⟩
      | callLog i m hi => exact ⟨h1, h2, upd i _ (by simp)⟩
      | callLogPtr i m hi => exact ⟨h1, h2, upd i _ (by simp)⟩
      | reject i m hi => exact ⟨h1, h2, upd i _ (by simp)⟩
      | pass i m hi => exact ⟨h1, h2, upd i _ (by simp)⟩
      | allocPool i m p a hi => exact ⟨h1, h2, upd i _ (by simp)⟩
      | allocNew i m hi => exact ⟨h1, h2, upd i _ (by simp)⟩
      | construct i m a hi => exact ⟨h1, h2, upd i _ (by simp)⟩
      | extNew i m hi => exact ⟨h1, h2, upd i _ (by simp)⟩
      | exit hl ht => rw [h1] at ht; cases ht
      | testEnabled => exact ⟨h1, by simp only; split <;> simp, h3⟩
      | testLevel => exact ⟨h1, by simp only; split <;> simp, h3⟩
      | testCategory => exact ⟨h1, by simp only; split <;> simp, h3⟩
      | start | spurious | sleep | take | dispatch | next | done | deliver | cleanOne | cleanEnd | disposePool | disposeFault | disposeDelete =>
        exact ⟨h1, by simp, h3⟩
      | _ => exact ⟨h1, h2, h3⟩
  exact ⟨(key hn).1, (key hn).2.1⟩

/-! ### C53 -/

/-- C53: the reported maximum is the largest number of appended and not yet removed messages at any
point of the history. -/
theorem C53_high_water_mark (h : Exec rx (init n t b) s es) :
    (getDiags s).maxMsgQueueSize = (watermark es).2 ∧ s.queue.length = (watermark es).1 := by
  rw [exec_watermark h]; exact ⟨rfl, rfl⟩

/-- C53: `watermark` is what it should be: the maximum over all prefixes of the history of
(appends - removals). -/
theorem C53_watermark_is_max (h : Exec rx (init n t b) s es) :
    (∀ k, (watermark (es.take k)).1 ≤ (getDiags s).maxMsgQueueSize) ∧
    (∃ k, (watermark (es.take k)).1 = (getDiags s).maxMsgQueueSize) := by
  rw [(C53_high_water_mark h).1]
  clear h
  have snoc : ∀ (es : List Ev) (e : Ev), watermark (es ++ [e]) = (match e with
    | .accept _ _ => ((watermark es).1 + 1, max (watermark es).2 ((watermark es).1 + 1))
    | .take       => ((watermark es).1 - 1, (watermark es).2)
    | _           => watermark es) := by
    intro es e; unfold watermark; rw [List.foldl_append]; rfl
  have all : ∀ (m : Nat) (es : List Ev), es.length = m → (watermark es).1 ≤ (watermark es).2 ∧
      (∀ k, (watermark (es.take k)).1 ≤ (watermark es).2) ∧ (∃ k, (watermark (es.take k)).1 = (watermark es).2) := by
    intro m
    induction m with
    | zero =>
      intro es hm
      have : es = [] := List.length_eq_zero_iff.1 hm
      subst this
      exact ⟨Nat.le_refl _, fun k => by simp [watermark], 0, rfl⟩
    | succ m ih =>
      intro es hm
      have hne : es ≠ [] := by rintro rfl; cases hm
      obtain ⟨es', e, rfl⟩ : ∃ es' e, es = es' ++ [e] := ⟨es.dropLast, es.getLast hne, (List.dropLast_concat_getLast hne).symm⟩
      obtain ⟨h1, h2, k0, h3⟩ := ih es' (by simpa using hm)
      have tk : ∀ k, k ≤ es'.length → (es' ++ [e]).take k = es'.take k := fun k hk => by
        rw [List.take_append_of_le_length hk]
      have tall : ∀ k, ¬ k ≤ es'.length → (es' ++ [e]).take k = es' ++ [e] := fun k hk =>
        List.take_of_length_le (by simp; omega)
      have hmono : (watermark es').2 ≤ (watermark (es' ++ [e])).2 := by
        rw [snoc]; cases e <;> simp <;> omega
      have hle : (watermark (es' ++ [e])).1 ≤ (watermark (es' ++ [e])).2 := by
        rw [snoc]; cases e <;> simp <;> omega
      refine ⟨hle, fun k => ?_, ?_⟩
      · by_cases hk : k ≤ es'.length
        · rw [tk k hk]; exact Nat.le_trans (h2 k) hmono
        · rw [tall k hk]; exact hle
      · by_cases hx : (watermark (es' ++ [e])).2 = (watermark es').2
        · by_cases hk : k0 ≤ es'.length
          · exact ⟨k0, by rw [tk k0 hk, hx]; exact h3⟩
          · refine ⟨es'.length, ?_⟩
            rw [tk _ (Nat.le_refl _), hx, List.take_length, ← h3, List.take_of_length_le (by omega)]
        · refine ⟨es'.length + 1, ?_⟩
          rw [tall _ (by omega)]
          rw [snoc] at hx ⊢
          cases e <;> simp at hx ⊢
          omega
  exact ⟨(all _ es rfl).2.1, (all _ es rfl).2.2⟩

example : (run demoRx (init 2 false true) demoActs).map (fun r => r.1.maxQ) = some 1 := by decide

/-! ### C54 -/

/-- C54: when no thread is inside the log system and the logging thread has been joined, destruction
deletes every message object that exists, each exactly once. -/
theorem C54_destructor (h : Exec rx (init n t b) s es) (hi : ∀ pc ∈ s.cl, pc = .idle) (hl : s.lt = .none) :
    ∃ h', destroy s = .ok h' ∧ ∀ a, h' a = none :=
  destroy_frees (exec_mem h) hi hl

/-- Non-vacuity: messages are still queued when the system is destroyed. -/
example : ∃ s es, Exec demoRx (init 1 false true) s es ∧ (∀ pc ∈ s.cl, pc = CPc.idle) ∧ s.lt = .none ∧ s.queue.length = 1 := by
  refine ⟨_, _, exec_of_run [.call 0 (.log (demoMsg 1)), .cli 0, .cli 0, .cli 0, .cli 0,
       .call 0 .stop, .cli 0, .cli 0, .cli 0, .log, .cli 0] rfl, ?_, rfl, rfl⟩
  intro pc h
  exact (show ∀ pc ∈ [CPc.idle], pc = CPc.idle by simp) pc h

/-! ### C103 -/

/-- C103: a thread inside stop() is never stuck: from every reachable state some schedule lets its
stop() return - wherever the logging thread and the other threads are, and with any number of
concurrent stop() calls. -/
theorem C103_stop_can_return (h : Exec rx (init n t b) s es) (i : Nat)
    (hi : s.cl[i]? = some .stopSet ∨ s.cl[i]? = some .stopNotify ∨ s.cl[i]? = some .stopLock ∨ s.cl[i]? = some .stopJoin) :
    ∃ s' es', Exec rx s s' (es' ++ [.stopped i]) := stop_returns h i hi

/-- C103: and the logging thread is joined exactly once per start: while some thread is in join(),
no other is, and the thread object exists. -/
theorem C103_one_joiner (h : Exec rx (init n t b) s es) (i j : Nat) (hi : s.cl[i]? = some .stopJoin) (hj : s.cl[j]? = some .stopJoin) :
    i = j ∧ s.lt ≠ .none := by
  have hw := exec_wake h
  have h1 := (hw.holder i).1 hi
  have h2 := (hw.holder j).1 hj
  rw [h1] at h2
  exact ⟨Option.some.inj h2, hw.joinable (by rw [h1]; simp)⟩

example : ∃ s es, Exec demoRx (init 2 false true) s es ∧ s.cl[0]? = some .stopJoin ∧ s.cl[1]? = some .stopLock ∧ s.lt = .wait true := by
  refine ⟨_, _, exec_of_run [.log, .call 0 .stop, .cli 0, .cli 0, .cli 0, .call 1 .stop, .cli 1, .cli 1] rfl, rfl, rfl, rfl⟩

/-! ### C55 -/

/-- C55: four characters for every value; the six levels have six different names; every other
value is shown as "????". -/
theorem C55_level_names (a b : Int) :
    (levelToString a).length = 4 ∧
    (0 ≤ a → a ≤ 5 → 0 ≤ b → b ≤ 5 → levelToString a = levelToString b → a = b) ∧
    ((a < 0 ∨ 5 < a) ↔ levelToString a = ['?','?','?','?']) ∧
    [0, 1, 2, 3, 4, 5].map (fun l => String.ofList (levelToString l)) = ["CRIT", "ERR ", "WARN", "INFO", "DBG ", "TRC "] := by
  have small : ∀ x : Int, 0 ≤ x → x ≤ 5 → x = 0 ∨ x = 1 ∨ x = 2 ∨ x = 3 ∨ x = 4 ∨ x = 5 := by intro x; omega
  refine ⟨?_, ?_, ⟨?_, ?_⟩, by decide⟩
  · unfold levelToString; repeat' split
    all_goals rfl
  · intro a0 a1 b0 b1 h
    rcases small a a0 a1 with rfl | rfl | rfl | rfl | rfl | rfl <;>
      rcases small b b0 b1 with rfl | rfl | rfl | rfl | rfl | rfl <;> first | rfl | (exact absurd h (by decide))
  · intro h; unfold levelToString
    rw [if_neg (by omega), if_neg (by omega), if_neg (by omega), if_neg (by omega), if_neg (by omega), if_neg (by omega)]
  · intro h
    refine Classical.byContradiction fun hc => ?_
    rcases small a (by omega) (by omega) with rfl | rfl | rfl | rfl | rfl | rfl <;> exact absurd h (by decide)

end Falcon.Log
