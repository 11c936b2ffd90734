import Verif.Proofs.LogFairDeliver
/-
C150: every message is processed in the end, however much is logged meanwhile.
C151: stop() returns in the end.
-/
namespace Falcon.Log

variable {rx : Rx} {f : Nat → Act} {n : Nat} {t b : Bool}

/-! ### C150 -/

/-- C150 (what holds, if the uninitialised m_isTerminated happened to be false): in every endless execution in which the
logging thread was started and gets the processor again and again, and in which nobody calls stop(), every message that
is ever accepted is processed to the end - its number among the processed messages is its number among the accepted
ones. The other threads may log, add and detach listeners and change levels for ever. -/
theorem C150_served_partial (hf : Often f .log) (hs : ∀ k, ¬ StopCalled (forever rx (init n false b) f k).2)
    (hb : b = true ∨ ∃ k, StartCalled (forever rx (init n false b) f k).2)
    (k j : Nat) (m : Msg) (hj : (accepted (forever rx (init n false b) f k).2)[j]? = some m) :
    ∃ k', (finished (forever rx (init n false b) f k').2)[j]? = some m := by
  have grow : ∀ {k k'}, k ≤ k' → (accepted (forever rx (init n false b) f k).2)[j]? = some m →
      (accepted (forever rx (init n false b) f k').2)[j]? = some m := by
    intro k k' hk h
    obtain ⟨x, hx⟩ := forever_prefix (rx := rx) (s0 := init n false b) (f := f) hk
    rw [← hx, accepted_append, List.getElem?_append_left (List.getElem?_eq_some_iff.1 h).1]; exact h
  rcases hb with hb | ⟨k0, i, hk0⟩
  · obtain ⟨k', -, h⟩ := serves hf hs k j m ((exec_calm (forever_exec k) (hs k)).2 (Or.inl hb)) hj
    exact ⟨k', h⟩
  · have hst : StartCalled (forever rx (init n false b) f (max k k0)).2 := by
      obtain ⟨x, hx⟩ := forever_prefix (rx := rx) (s0 := init n false b) (f := f) (Nat.le_max_right k k0)
      exact ⟨i, by rw [← hx]; exact List.mem_append_left _ hk0⟩
    obtain ⟨k', -, h⟩ := serves hf hs (max k k0) j m ((exec_calm (forever_exec _) (hs _)).2 (Or.inr hst)) (grow (Nat.le_max_left _ _) hj)
    exact ⟨k', h⟩

/-- C150 (what holds, likewise): and if a listener was added before the message was logged, is not detached and wants
the message, then its onMessage() is called with the message, while that message is processed. -/
theorem C150_reaches_listener_partial (hf : Often f .log) (hs : ∀ k, ¬ StopCalled (forever rx (init n false b) f k).2)
    (hb : b = true ∨ ∃ k, StartCalled (forever rx (init n false b) f k).2)
    (K i : Nat) (l : LId) (hadd : .did i (.addListener l) ∈ (forever rx (init n false b) f K).2)
    (k j : Nat) (m : Msg) (hKj : (accepted (forever rx (init n false b) f K).2).length ≤ j)
    (hj : (accepted (forever rx (init n false b) f k).2)[j]? = some m)
    (hdet : ∀ k, K ≤ k → detachedIn l (forever rx (init n false b) f k).2 = false)
    (hw : ∀ k, K ≤ k → WantsIn rx l (forever rx (init n false b) f k).2 m) :
    ∃ k', Delivered l m j (forever rx (init n false b) f k').2 := by
  have same : ∀ k' m', (accepted (forever rx (init n false b) f k').2)[j]? = some m' → m' = m := by
    intro k' m' h
    rcases Nat.le_total k k' with hk | hk
    · obtain ⟨x, hx⟩ := forever_prefix (rx := rx) (s0 := init n false b) (f := f) hk
      rw [← hx, accepted_append, List.getElem?_append_left (List.getElem?_eq_some_iff.1 hj).1, hj] at h
      exact (Option.some.inj h).symm
    · obtain ⟨x, hx⟩ := forever_prefix (rx := rx) (s0 := init n false b) (f := f) hk
      rw [← hx, accepted_append, List.getElem?_append_left (List.getElem?_eq_some_iff.1 h).1, h] at hj
      exact Option.some.inj hj
  obtain ⟨k1, hk1⟩ := C150_served_partial hf hs hb k j m hj
  have hk2 : (finished (forever rx (init n false b) f (max K k1)).2)[j]? = some m := by
    obtain ⟨x, hx⟩ := forever_prefix (rx := rx) (s0 := init n false b) (f := f) (Nat.le_max_right K k1)
    rw [← hx, finished_append, List.getElem?_append_left (List.getElem?_eq_some_iff.1 hk1).1]; exact hk1
  have hfl := (List.getElem?_eq_some_iff.1 hk2).1
  obtain ⟨c, hc, -, hc2⟩ := exec_finished (forever_exec (rx := rx) (s0 := init n false b) (f := f) (max K k1))
  have hlen := congrArg List.length hc
  rw [List.length_append] at hlen
  refine ⟨max K k1, ?_⟩
  rcases delivers (rx := rx) (f := f) (n := n) (t := false) (b := b) hadd hKj hdet hw (fun k' m' _ h => same k' m' h)
    (Nat.le_max_left K k1) with h | h | ⟨h, h', -⟩
  · exact h
  · exact absurd hlen (by simp only [evAt] at h; omega)
  · -- the round would not be over
    exfalso
    simp only [evAt] at h
    have hc0 : c = [] := by
      cases c with
      | nil => rfl
      | cons x c => simp only [List.length_cons] at hlen; omega
    obtain ⟨r, h1, h2⟩ := exec_round (forever_exec (rx := rx) (s0 := init n false b) (f := f) (max K k1))
    have h3 : dispatched (forever rx (init n false b) f (max K k1)).2 = finished (forever rx (init n false b) f (max K k1)).2 ++ r.current :=
      Round.run_current h1
    rw [hc, hc0, List.append_nil] at h3
    have h4 : r.current = [] := by
      have := congrArg List.length h3
      rw [List.length_append] at this
      exact List.eq_nil_of_length_eq_zero (by omega)
    unfold roundOf at h2
    split at h2
    · cases hx : (forever rx (init n false b) f (max K k1)).1.heap _ <;> rw [hx] at h2 <;> cases h2; cases h4
    · cases hx : (forever rx (init n false b) f (max K k1)).1.heap _ <;> rw [hx] at h2 <;> cases h2; cases h4
    · cases hx : (forever rx (init n false b) f (max K k1)).1.heap _ <;> rw [hx] at h2 <;> cases h2; cases h4
    · rename_i h5 h6 h7
      cases hl : (forever rx (init n false b) f (max K k1)).1.lt <;> simp only [stAt, hl] at h' <;> simp [remaining] at h'
      · exact h5 _ _ hl
      · exact h7 _ _ _ _ hl

/-- C150 does not hold: if m_isTerminated, which the constructor does not initialise, happens to be true, then no message
is processed in any execution, endless or not, whoever gets the processor - although messages are accepted. -/
theorem C150_served_refuted (f : Nat → Act) (k : Nat) : finished (forever rx (init n true b) f k).2 = [] := by
  have h := (C52_uninitialised_refuted (forever_exec (rx := rx) (s0 := init n true b) (f := f) k)).1
  obtain ⟨c, hc, -⟩ := exec_finished (forever_exec (rx := rx) (s0 := init n true b) (f := f) k)
  rw [h] at hc
  exact (List.append_eq_nil_iff.1 hc.symm).1

/-- A thread that logs without end, five moves per message; the logging thread gets one move in between. -/
def flood (k : Nat) : Act :=
  if k = 0 then .call 0 (.addListener 7) else if k % 6 = 1 then .call 0 (.log (demoMsg 1)) else if k % 6 = 0 then .log else .cli 0

theorem flood_fair : Often flood .log := by
  intro k
  refine ⟨6 * (k + 1), by omega, ?_⟩
  have h1 : 6 * (k + 1) % 6 = 0 := by omega
  have h2 : ¬ 6 * (k + 1) = 0 := by omega
  simp only [flood, h1, if_neg h2, Nat.zero_ne_one, if_false, if_true]

/-- Calls begin only when the scheduler asks for them. -/
theorem asked {s s' : St} {a : Act} {i : Nat} {op : Op} {e : Ev} (he : e = .call i op ∨ e = .did i op)
    (h1 : step rx s a = some (s', e)) : a = .call i op := by
  have hl : ∀ r : St × Ev, some r = some (s', e) → r.2 = e := by intro r h; cases h; rfl
  cases a with
  | call j op' =>
    simp only [step] at h1
    split at h1
    · cases op' with
      | start => simp only [beginCall] at h1; split at h1 <;> (try split at h1) <;> rcases he with rfl | rfl <;> cases h1 <;> rfl
      | category l re => simp only [beginCall] at h1; split at h1 <;> rcases he with rfl | rfl <;> cases h1 <;> rfl
      | _ => rcases he with rfl | rfl <;> cases h1 <;> rfl
    · cases h1
  | cli j =>
    simp only [step] at h1
    split at h1
    · rename_i pc hpc
      cases pc <;> simp only [resume] at h1 <;> (try split at h1) <;> (try split at h1) <;> rcases he with rfl | rfl <;> cases h1
    · cases h1
  | log =>
    exfalso
    simp only [step] at h1
    cases hlt : s.lt with
    | none => simp only [logStep, hlt] at h1; cases h1
    | exited => simp only [logStep, hlt] at h1; cases h1
    | top =>
      simp only [logStep, hlt] at h1; have := hl _ h1
      unfold head at this; split at this <;> rcases he with rfl | rfl <;> cases this
    | wait w =>
      cases w with
      | true =>
        simp only [logStep, hlt] at h1; have := hl _ h1
        unfold head at this; split at this <;> rcases he with rfl | rfl <;> cases this
      | false => simp only [logStep, hlt] at h1; cases h1
    | got a => simp only [logStep, hlt] at h1; split at h1 <;> rcases he with rfl | rfl <;> cases h1
    | send a rem => cases rem <;> simp only [logStep, hlt] at h1 <;> (try split at h1) <;> rcases he with rfl | rfl <;> cases h1
    | test a l st rem => simp only [logStep, hlt] at h1; split at h1 <;> (try split at h1) <;> rcases he with rfl | rfl <;> cases h1
    | clean a kept rest => cases rest <;> simp only [logStep, hlt] at h1 <;> rcases he with rfl | rfl <;> cases h1
    | dispose a =>
      simp only [logStep, hlt] at h1; have := hl _ h1
      unfold dispose at this; split at this <;> (try split at this) <;> rcases he with rfl | rfl <;> cases this
  | spurious => simp only [step] at h1; split at h1 <;> rcases he with rfl | rfl <;> cases h1

theorem never_stops {s0 : St} (h : ∀ k i, f k ≠ .call i .stop) (k : Nat) : ¬ StopCalled (forever rx s0 f k).2 := by
  induction k with
  | zero => rintro ⟨i, hi⟩; cases hi
  | succ k ih =>
    rcases forever_succ (rx := rx) (s0 := s0) (f := f) k with ⟨-, h1⟩ | ⟨s', e, h1, h2⟩
    · rw [h1]; exact ih
    · rw [h2]
      rintro ⟨i, hi⟩
      rcases List.mem_append.1 hi with hi | hi
      · exact ih ⟨i, hi⟩
      · simp only [List.mem_singleton] at hi
        exact h k i (asked (Or.inl hi.symm) h1)

theorem never_starts {s0 : St} (h : ∀ k i, f k ≠ .call i .start) (k : Nat) : starts (forever rx s0 f k).2 = 0 := by
  induction k with
  | zero => rfl
  | succ k ih =>
    rcases forever_succ (rx := rx) (s0 := s0) (f := f) k with ⟨-, h1⟩ | ⟨s', e, h1, h2⟩
    · rw [h1]; exact ih
    · rw [h2, starts_append, ih]
      have : ∀ i, e ≠ .did i .start := fun i hi => h k i (asked (Or.inr hi) h1)
      cases e with
      | did i op => cases op <;> first | rfl | exact absurd rfl (this i)
      | _ => rfl

/-- The hypotheses of C150 can be met, with messages coming in faster than they are processed. -/
example : Often flood .log ∧ (∀ k, ¬ StopCalled (forever demoRx (init 1 false true) flood k).2) ∧
    .did 0 (.addListener 7) ∈ (forever demoRx (init 1 false true) flood 1).2 ∧
    (accepted (forever demoRx (init 1 false true) flood 18).2)[2]? = some (demoMsg 1) ∧
    dispatched (forever demoRx (init 1 false true) flood 18).2 = [demoMsg 1] ∧
    finished (forever demoRx (init 1 false true) flood 18).2 = [] := by
  refine ⟨flood_fair, never_stops ?_, by decide +kernel, by decide +kernel, by decide +kernel, by decide +kernel⟩
  intro k i
  unfold flood
  split
  · simp
  · split
    · simp
    · split <;> simp

/-! ### C151 -/

/-- C151 (what holds): under a fair scheduler every stop() returns, in every execution in which start() is called only
finitely often - wherever the logging thread was, with any number of stop() calls at the same time, however much is
logged, and whatever the uninitialised m_isTerminated contained. -/
theorem C151_stop_returns_partial (hf : Often f .log) (hc : ∀ i, i < n → Often f (.cli i)) (K : Nat)
    (hK : ∀ k, K ≤ k → starts (forever rx (init n t b) f k).2 = starts (forever rx (init n t b) f K).2)
    (k i : Nat) (h : InStop (forever rx (init n t b) f k).1 i) :
    ∃ k', k ≤ k' ∧ (forever rx (init n t b) f (k' + 1)).2 = (forever rx (init n t b) f k').2 ++ [.stopped i] :=
  stops hf hc hK h

/-- Thread 1 has called stop(); thread 0 then calls stop() and start() in turn, for ever, and each of these calls
returns. Thread 1 gets the processor only while thread 0 holds the mutex. -/
def unluckyStop (k : Nat) : Act :=
  if k = 0 then .call 1 .stop else if k < 3 then .cli 1 else
    match (k - 3) % 8 with
    | 0 => .call 0 .stop
    | 4 => .cli 1
    | 5 => .log
    | 7 => .call 0 .start
    | _ => .cli 0

/-- Where it is after each such pair of calls. -/
def again : St := (forever demoRx (init 2 false true) unluckyStop 3).1

/-- One moment. -/
def moment (s : St) (a : Act) : St := match step demoRx s a with | none => s | some p => p.1

theorem unlucky_moment (k : Nat) : (forever demoRx (init 2 false true) unluckyStop (k + 1)).1 =
    moment (forever demoRx (init 2 false true) unluckyStop k).1 (unluckyStop k) := by
  simp only [forever, moment]
  cases step demoRx (forever demoRx (init 2 false true) unluckyStop k).1 (unluckyStop k) <;> rfl

theorem unlucky_again (r : Nat) : (forever demoRx (init 2 false true) unluckyStop (3 + 8 * r)).1 = again ∧
    ∀ j, j < 8 → InStop (forever demoRx (init 2 false true) unluckyStop (3 + 8 * r + j)).1 1 := by
  have act : ∀ r j, j < 8 → unluckyStop (3 + 8 * r + j) = unluckyStop (3 + j) := by
    intro r j hj
    unfold unluckyStop
    rw [if_neg (by omega), if_neg (by omega), if_neg (by omega), if_neg (by omega)]
    have : (3 + 8 * r + j - 3) % 8 = (3 + j - 3) % 8 := by omega
    rw [this]
  have main : ∀ r, (forever demoRx (init 2 false true) unluckyStop (3 + 8 * r)).1 = again →
      (forever demoRx (init 2 false true) unluckyStop (3 + 8 * r + 8)).1 = again ∧
      ∀ j, j < 8 → InStop (forever demoRx (init 2 false true) unluckyStop (3 + 8 * r + j)).1 1 := by
    intro r h0
    have h1 := (unlucky_moment (3 + 8 * r)).trans (by rw [h0, show unluckyStop (3 + 8 * r) = unluckyStop 3 from act r 0 (by omega)])
    have h2 := (unlucky_moment (3 + 8 * r + 1)).trans (by rw [h1, act r 1 (by omega)])
    have h3 := (unlucky_moment (3 + 8 * r + 2)).trans (by rw [h2, act r 2 (by omega)])
    have h4 := (unlucky_moment (3 + 8 * r + 3)).trans (by rw [h3, act r 3 (by omega)])
    have h5 := (unlucky_moment (3 + 8 * r + 4)).trans (by rw [h4, act r 4 (by omega)])
    have h6 := (unlucky_moment (3 + 8 * r + 5)).trans (by rw [h5, act r 5 (by omega)])
    have h7 := (unlucky_moment (3 + 8 * r + 6)).trans (by rw [h6, act r 6 (by omega)])
    have h8 := (unlucky_moment (3 + 8 * r + 7)).trans (by rw [h7, act r 7 (by omega)])
    refine ⟨h8.trans rfl, ?_⟩
    intro j hj
    refine Or.inr (Or.inr (Or.inl ?_))
    match j, hj with
    | 0, _ => rw [Nat.add_zero, h0]; rfl
    | 1, _ => rw [h1]; rfl
    | 2, _ => rw [h2]; rfl
    | 3, _ => rw [h3]; rfl
    | 4, _ => rw [h4]; rfl
    | 5, _ => rw [h5]; rfl
    | 6, _ => rw [h6]; rfl
    | 7, _ => rw [h7]; rfl
  have all : ∀ r, (forever demoRx (init 2 false true) unluckyStop (3 + 8 * r)).1 = again := by
    intro r
    induction r with
    | zero => rfl
    | succ r ih => have := (main r ih).1; rw [show 3 + 8 * (r + 1) = 3 + 8 * r + 8 by omega]; exact this
  exact ⟨all r, (main r (all r)).2⟩

/-- C151 does not hold for a scheduler that is merely fair: a thread may wait in stop() for ever for the mutex that
other threads calling stop() and start() take again and again. -/
theorem C151_starves_refuted : Often unluckyStop .log ∧ (∀ i, i < 2 → Often unluckyStop (.cli i)) ∧
    ∀ k, 3 ≤ k → InStop (forever demoRx (init 2 false true) unluckyStop k).1 1 := by
  refine ⟨?_, ?_, ?_⟩
  · intro k
    refine ⟨3 + 8 * k + 5, by omega, ?_⟩
    have : (3 + 8 * k + 5 - 3) % 8 = 5 := by omega
    simp only [unluckyStop, this]
    rw [if_neg (by omega), if_neg (by omega)]
  · intro i hi k
    have h1 : (3 + 8 * k + 1 - 3) % 8 = 1 := by omega
    have h4 : (3 + 8 * k + 4 - 3) % 8 = 4 := by omega
    match i, hi with
    | 0, _ =>
      refine ⟨3 + 8 * k + 1, by omega, ?_⟩
      simp only [unluckyStop, h1]
      rw [if_neg (by omega), if_neg (by omega)]
    | 1, _ =>
      refine ⟨3 + 8 * k + 4, by omega, ?_⟩
      simp only [unluckyStop, h4]
      rw [if_neg (by omega), if_neg (by omega)]
  · intro k hk
    have := (unlucky_again ((k - 3) / 8)).2 ((k - 3) % 8) (by omega)
    rw [show 3 + 8 * ((k - 3) / 8) + (k - 3) % 8 = k by omega] at this
    exact this

/-- Meanwhile the calls of the other thread all return. -/
example : (forever demoRx (init 2 false true) unluckyStop 19).2.filter (fun e => e = .stopped 0 ∨ e = .did 0 .start) =
    [.stopped 0, .did 0 .start, .stopped 0, .did 0 .start] := by decide +kernel

/-- Everybody in turn, while thread 0 calls stop(). -/
def oneStop (k : Nat) : Act := if k = 0 then .call 0 .stop else if k % 2 = 0 then .log else .cli 0

/-- The hypotheses of C151 can be met. -/
example : Often oneStop .log ∧ (∀ i, i < 1 → Often oneStop (.cli i)) ∧
    (∀ k, 0 ≤ k → starts (forever demoRx (init 1 false true) oneStop k).2 = starts (forever demoRx (init 1 false true) oneStop 0).2) ∧
    InStop (forever demoRx (init 1 false true) oneStop 1).1 0 := by
  refine ⟨?_, ?_, ?_, Or.inl rfl⟩
  · intro k
    refine ⟨2 * (k + 1), by omega, ?_⟩
    have h1 : 2 * (k + 1) % 2 = 0 := by omega
    have h2 : ¬ 2 * (k + 1) = 0 := by omega
    simp only [oneStop, h1, if_neg h2, if_true]
  · intro i hi k
    have : i = 0 := by omega
    subst this
    refine ⟨2 * k + 1, by omega, ?_⟩
    have h1 : (2 * k + 1) % 2 = 1 := by omega
    have h2 : ¬ 2 * k + 1 = 0 := by omega
    simp only [oneStop, h1, if_neg h2]; rfl
  · intro k _
    rw [never_starts, never_starts] <;>
      (intro k i; unfold oneStop; split <;> (try split) <;> simp)

end Falcon.Log
