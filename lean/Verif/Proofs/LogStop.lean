import Verif.Proofs.LogRun
/-
Stopping: what remains possible after stop() returned; stop() always can return; destruction.
-/
namespace Falcon.Log

/-- After stop() returned. -/
structure Stopped (s : St) : Prop where
  term : s.terminated = true
  lt   : s.lt = .none ∨ s.lt = .top ∨ s.lt = .exited

theorem Stopped.step {rx : Rx} {s s' : St} {e : Ev} (h : Stopped s) (hs : Step rx s e s') :
    Stopped s' ∧ (∀ m ls, e ≠ .dispatch m ls) ∧ (∀ l m, e ≠ .deliver l m) ∧ e ≠ .take := by
  obtain ⟨ht, hl⟩ := h
  have nope : ∀ p, s.lt = p → p ≠ .none → p ≠ .top → p ≠ .exited → False := by
    intro p hp h1 h2 h3
    rcases hl with hl | hl | hl
    · exact h1 (hp.symm.trans hl)
    · exact h2 (hp.symm.trans hl)
    · exact h3 (hp.symm.trans hl)
  have nt : notify s.lt = s.lt := by rcases hl with hl | hl | hl <;> rw [hl] <;> rfl
  cases hs with
  | enqueue i m a hi => exact ⟨⟨ht, by simp only; rw [nt]; exact hl⟩, by simp, by simp, by simp⟩
  | stopNotify i hi => exact ⟨⟨ht, by simp only; rw [nt]; exact hl⟩, by simp, by simp, by simp⟩
  | start i hi hm hl' => exact ⟨⟨ht, Or.inr (Or.inl rfl)⟩, by simp, by simp, by simp⟩
  | stopSet i hi => exact ⟨⟨rfl, hl⟩, by simp, by simp, by simp⟩
  | stopJoin i hi hl' => exact ⟨⟨ht, Or.inl rfl⟩, by simp, by simp, by simp⟩
  | exit hl' ht' => exact ⟨⟨ht, Or.inr (Or.inr rfl)⟩, by simp, by simp, by simp⟩
  | sleep hl' ht' hq => rw [ht] at ht'; cases ht'
  | take a q hl' ht' hq => rw [ht] at ht'; cases ht'
  | spurious hl' => exact (nope _ hl' (by simp) (by simp) (by simp)).elim
  | gotFault a hl' => exact (nope _ hl' (by simp) (by simp) (by simp)).elim
  | dispatch a m hl' => exact (nope _ hl' (by simp) (by simp) (by simp)).elim
  | next a l rem hl' => exact (nope _ hl' (by simp) (by simp) (by simp)).elim
  | doneFault a hl' => exact (nope _ hl' (by simp) (by simp) (by simp)).elim
  | done a m hl' => exact (nope _ hl' (by simp) (by simp) (by simp)).elim
  | testFault a l st rem hl' => exact (nope _ hl' (by simp) (by simp) (by simp)).elim
  | testEnabled a l rem m hl' => exact (nope _ hl' (by simp) (by simp) (by simp)).elim
  | testLevel a l rem m hl' => exact (nope _ hl' (by simp) (by simp) (by simp)).elim
  | testCategory a l rem m hl' => exact (nope _ hl' (by simp) (by simp) (by simp)).elim
  | deliver a l rem m hl' => exact (nope _ hl' (by simp) (by simp) (by simp)).elim
  | cleanOne a kept l rest hl' => exact (nope _ hl' (by simp) (by simp) (by simp)).elim
  | cleanEnd a kept hl' => exact (nope _ hl' (by simp) (by simp) (by simp)).elim
  | disposePool a hl' => exact (nope _ hl' (by simp) (by simp) (by simp)).elim
  | disposeFault a hl' => exact (nope _ hl' (by simp) (by simp) (by simp)).elim
  | disposeDelete a hl' => exact (nope _ hl' (by simp) (by simp) (by simp)).elim
  | _ => exact ⟨⟨ht, hl⟩, by simp, by simp, by simp⟩

theorem Stopped.exec {rx : Rx} {s s' : St} {es : List Ev} (h : Stopped s) (he : Exec rx s s' es) :
    Stopped s' ∧ dispatched es = [] ∧ deliveries es = [] := by
  induction he with
  | nil => exact ⟨h, rfl, rfl⟩
  | snoc _ hst ih =>
    rename_i s s' es a e _
    obtain ⟨i1, i2, i3⟩ := ih
    obtain ⟨j1, j2, j3, -⟩ := i1.step (step_rel hst)
    refine ⟨j1, ?_, ?_⟩
    · rw [dispatched_append, i2]; cases e <;> simp [dispatched] at j2 ⊢
    · rw [deliveries_append, i3]; cases e <;> simp [deliveries] at j3 ⊢

theorem stopped_state {rx : Rx} {s s' : St} {i : Nat} (hw : Wake s) (hs : Step rx s (.stopped i) s') :
    Stopped s' ∧ s'.lt = .none ∧ s'.queue = s.queue ∧ s'.heap = s.heap := by
  cases hs with
  | stopNone i hi hm hl => exact ⟨⟨hw.stopping i _ hi (Or.inr (Or.inl rfl)), Or.inl hl⟩, hl, rfl, rfl⟩
  | stopJoin i hi hl => exact ⟨⟨hw.stopping i _ hi (Or.inr (Or.inr rfl)), Or.inl rfl⟩, rfl, rfl, rfl⟩

/-! ### stop() can always return -/

/-- With the service being stopped, every step of the logging thread brings it nearer to its end and
leaves the clients alone. -/
theorem log_progress_term {rx : Rx} {s : St} {es : List Ev} (hm : Mem s es) (hc : CleanOk s) (ht : s.terminated = true)
    (hw : s.lt ≠ .wait false) (h1 : s.lt ≠ .none) (h2 : s.lt ≠ .exited) :
    ∃ s' e, step rx s .log = some (s', e) ∧ roundCost s' < roundCost s ∧ s'.cl = s.cl ∧ s'.terminated = true ∧
      s'.mtxThread = s.mtxThread ∧ s'.lt ≠ .none := by
  have hh : head s = ({ s with lt := .exited }, .exit) := by unfold head; split <;> simp_all
  simp only [step]
  cases hl : s.lt with
  | none => exact absurd hl h1
  | exited => exact absurd hl h2
  | top =>
    simp only [logStep, hl]
    exact ⟨_, _, congrArg some hh, by simp [roundCost, hl], rfl, ht, rfl, by simp⟩
  | wait b =>
    cases b with
    | true =>
      simp only [logStep, hl]
      exact ⟨_, _, congrArg some hh, by simp [roundCost, hl], rfl, ht, rfl, by simp⟩
    | false => exact absurd hl hw
  | got a =>
    obtain ⟨m, hh⟩ := hm.lt_alive (a := a) (by simp [hl, lHolds])
    simp only [logStep, hl, hh]
    refine ⟨_, _, rfl, ?_, rfl, ht, rfl, by simp⟩
    simp only [roundCost, hl, listeners, List.length_append]
    omega
  | send a rem =>
    cases rem with
    | nil =>
      obtain ⟨m, hh⟩ := hm.lt_alive (a := a) (by simp [hl, lHolds])
      simp only [logStep, hl, hh]
      refine ⟨_, _, rfl, ?_, rfl, ht, rfl, by simp⟩
      simp only [roundCost, hl, List.length_nil]; omega
    | cons l rem =>
      simp only [logStep, hl]
      refine ⟨_, _, rfl, ?_, rfl, ht, rfl, by simp⟩
      simp only [roundCost, hl, List.length_cons]; omega
  | test a l st rem =>
    obtain ⟨m, hh⟩ := hm.lt_alive (a := a) (by simp [hl, lHolds])
    cases st with
    | enabled =>
      simp only [logStep, hl, hh]
      refine ⟨_, _, rfl, ?_, rfl, ht, rfl, by simp only; split <;> simp⟩
      cases (s.lst l).enabled <;> simp only [roundCost, hl, if_true, if_false, Bool.false_eq_true] <;> omega
    | level =>
      simp only [logStep, hl, hh]
      refine ⟨_, _, rfl, ?_, rfl, ht, rfl, by simp only; split <;> simp⟩
      by_cases h : (s.lst l).level ≥ m.level <;> simp only [roundCost, hl, h, if_true, if_false] <;> omega
    | category =>
      simp only [logStep, hl, hh]
      refine ⟨_, _, rfl, ?_, rfl, ht, rfl, by simp only; split <;> simp⟩
      cases checkCategory rx (s.lst l) m.cat <;> simp only [roundCost, hl, if_true, if_false, Bool.false_eq_true] <;> omega
    | call =>
      simp only [logStep, hl, hh]
      refine ⟨_, _, rfl, ?_, rfl, ht, rfl, by simp⟩
      simp only [roundCost, hl]; omega
  | clean a kept rest =>
    have hk := hc a kept rest hl
    cases rest with
    | cons l rest =>
      simp only [logStep, hl]
      refine ⟨_, _, rfl, ?_, rfl, ht, rfl, by simp⟩
      simp only [roundCost, hl, List.length_cons]; omega
    | nil =>
      simp only [logStep, hl]
      refine ⟨_, _, rfl, ?_, rfl, ht, rfl, by simp⟩
      simp only [roundCost, hl, List.length_nil]; omega
  | dispose a =>
    obtain ⟨m, hh⟩ := hm.lt_alive (a := a) (by simp [hl, lHolds])
    simp only [logStep, hl]
    refine ⟨_, _, rfl, ?_, ?_, ?_, ?_, by simp⟩
    · simp only [dispose, hh]
      split <;> simp only [roundCost, hl] <;> omega
    · simp only [dispose, hh]; split <;> rfl
    · simp only [dispose, hh]; split <;> exact ht
    · simp only [dispose, hh]; split <;> rfl

/-- Once a stop() has set the flag, the logging thread reaches its end (if it exists); a client that
is not itself about to notify keeps its position. -/
theorem log_ends {rx : Rx} (i : Nat) (pc : CPc) (hpc : pc ≠ .stopNotify) : ∀ (c : Nat) {n : Nat} {t b : Bool} {s : St} {es : List Ev},
    Exec rx (init n t b) s es → s.terminated = true → s.cl[i]? = some pc → roundCost s ≤ c →
    ∃ s' es', Exec rx s s' es' ∧ (s'.lt = .none ∨ s'.lt = .exited) ∧ s'.cl[i]? = some pc ∧ s'.terminated = true ∧
      s'.mtxThread = s.mtxThread := by
  have wake : ∀ {n : Nat} {t b : Bool} {s : St} {es : List Ev}, Exec rx (init n t b) s es → s.terminated = true →
      s.cl[i]? = some pc → s.lt = .wait false →
      ∃ j s1, i ≠ j ∧ step rx s (.cli j) = some (s1, .tau) ∧ s1.lt = .wait true ∧ s1.cl[i]? = some pc ∧ s1.terminated = true ∧
        s1.mtxThread = s.mtxThread := by
    intro n t b s es he ht hi hl
    obtain ⟨j, hj⟩ := (exec_wake he).term hl ht
    have hne : i ≠ j := by
      rintro rfl; rw [hi] at hj; exact hpc (Option.some.inj hj)
    refine ⟨j, { s with lt := notify s.lt, cl := s.cl.set j .stopLock }, hne, by simp only [step, hj, resume], by simp [hl, notify], ?_, ht, rfl⟩
    exact set_other? (Ne.symm hne) hi
  intro c
  induction c with
  | zero =>
    intro n t b s es he ht hi hc
    by_cases h1 : s.lt = .none
    · exact ⟨s, [], .nil, Or.inl h1, hi, ht, rfl⟩
    by_cases h2 : s.lt = .exited
    · exact ⟨s, [], .nil, Or.inr h2, hi, ht, rfl⟩
    by_cases hw : s.lt = .wait false
    · obtain ⟨j, s1, hne, a1, a2, a3, a4, a5⟩ := wake he ht hi hw
      have he1 := Exec.snoc he a1
      have hh : head s1 = ({ s1 with lt := .exited }, .exit) := by unfold head; split <;> simp_all
      have hst : step rx s1 .log = some ({ s1 with lt := .exited }, .exit) := by
        simp only [step, logStep, a2, hh]
      exact ⟨_, _, .snoc (.snoc .nil a1) hst, Or.inr rfl, a3, a4, a5⟩
    · obtain ⟨s', e, b1, b2, -⟩ := log_progress_term (rx := rx) (exec_mem he) (exec_clean he) ht hw h1 h2
      omega
  | succ c ih =>
    intro n t b s es he ht hi hc
    by_cases h1 : s.lt = .none
    · exact ⟨s, [], .nil, Or.inl h1, hi, ht, rfl⟩
    by_cases h2 : s.lt = .exited
    · exact ⟨s, [], .nil, Or.inr h2, hi, ht, rfl⟩
    by_cases hw : s.lt = .wait false
    · obtain ⟨j, s1, hne, a1, a2, a3, a4, a5⟩ := wake he ht hi hw
      have hh : head s1 = ({ s1 with lt := .exited }, .exit) := by unfold head; split <;> simp_all
      have hst : step rx s1 .log = some ({ s1 with lt := .exited }, .exit) := by
        simp only [step, logStep, a2, hh]
      exact ⟨_, _, .snoc (.snoc .nil a1) hst, Or.inr rfl, a3, a4, a5⟩
    · obtain ⟨s', e, b1, b2, b3, b4, b5, -⟩ := log_progress_term (rx := rx) (exec_mem he) (exec_clean he) ht hw h1 h2
      obtain ⟨s'', es', c1, c2, c3, c4, c5⟩ := ih (.snoc he b1) b4 (by rw [b3]; exact hi) (by omega)
      exact ⟨s'', _, (Exec.snoc .nil b1).append c1, c2, c3, c4, c5.trans b5⟩

/-- A client in stop() can always get out. -/
theorem stop_returns {rx : Rx} {n : Nat} {t b : Bool} {s : St} {es : List Ev} (he : Exec rx (init n t b) s es) (i : Nat)
    (hi : s.cl[i]? = some .stopSet ∨ s.cl[i]? = some .stopNotify ∨ s.cl[i]? = some .stopLock ∨ s.cl[i]? = some .stopJoin) :
    ∃ s' es', Exec rx s s' (es' ++ [.stopped i]) := by
  -- in join()
  have join : ∀ {s : St} {es : List Ev}, Exec rx (init n t b) s es → s.cl[i]? = some .stopJoin →
      ∃ s' es', Exec rx s s' (es' ++ [.stopped i]) := by
    intro s es he hi
    have hw := exec_wake he
    have ht := hw.stopping i _ hi (Or.inr (Or.inr rfl))
    obtain ⟨s', es', h1, h2, h3, h4, h5⟩ := log_ends (rx := rx) i .stopJoin (by simp) _ he ht hi (Nat.le_refl _)
    have hw' := exec_wake (he.append h1)
    have hmx : s'.mtxThread = some i := (hw'.holder i).1 h3
    have hne : s'.lt ≠ .none := hw'.joinable (by rw [hmx]; simp)
    have hex : s'.lt = .exited := h2.resolve_left hne
    have hst : step rx s' (.cli i) = some ({ s' with lt := .none, mtxThread := none, cl := s'.cl.set i .idle }, .stopped i) := by
      simp only [step, h3, resume, hex]
    exact ⟨_, es', .snoc h1 hst⟩
  -- waiting for the mutex
  have lock : ∀ {s : St} {es : List Ev}, Exec rx (init n t b) s es → s.cl[i]? = some .stopLock →
      ∃ s' es', Exec rx s s' (es' ++ [.stopped i]) := by
    intro s es he hi
    have hw := exec_wake he
    have free : ∀ {s : St} {es : List Ev}, Exec rx (init n t b) s es → s.cl[i]? = some .stopLock → s.mtxThread = none →
        ∃ s' es', Exec rx s s' (es' ++ [.stopped i]) := by
      intro s es he hi hmx
      by_cases hl : s.lt = .none
      · have hst : step rx s (.cli i) = some ({ s with cl := s.cl.set i .idle }, .stopped i) := by
          simp only [step, hi, resume, hmx, hl]
        exact ⟨_, [], .snoc .nil hst⟩
      · have hst : step rx s (.cli i) = some ({ s with mtxThread := some i, cl := s.cl.set i .stopJoin }, .tau) := by
          simp only [step, hi, resume, hmx]
          try (split <;> simp_all)
        obtain ⟨s', es', h1⟩ := join (.snoc he hst) (set_self? hi)
        exact ⟨s', [.tau] ++ es', by rw [List.append_assoc]; exact (Exec.snoc .nil hst).append h1⟩
    cases hmx : s.mtxThread with
    | none => exact free he hi hmx
    | some j =>
      have hj : s.cl[j]? = some .stopJoin := (hw.holder j).2 hmx
      have hne : j ≠ i := by rintro rfl; rw [hi] at hj; cases hj
      have ht := hw.stopping i _ hi (Or.inr (Or.inl rfl))
      obtain ⟨s', es', h1, h2, h3, h4, h5⟩ := log_ends (rx := rx) i .stopLock (by simp) _ he ht hi (Nat.le_refl _)
      have he' := he.append h1
      have hw' := exec_wake he'
      rw [hmx] at h5
      have hj' : s'.cl[j]? = some .stopJoin := (hw'.holder j).2 h5
      have hex : s'.lt = .exited := h2.resolve_left (hw'.joinable (by rw [h5]; simp))
      have hst : step rx s' (.cli j) = some ({ s' with lt := .none, mtxThread := none, cl := s'.cl.set j .idle }, .stopped j) := by
        simp only [step, hj', resume, hex]
      obtain ⟨s'', es'', h6⟩ := free (.snoc he' hst) (set_other? hne h3) rfl
      refine ⟨s'', es' ++ ([.stopped j] ++ es''), ?_⟩
      have := h1.append ((Exec.snoc .nil hst).append h6)
      simpa using this
  have notif : ∀ {s : St} {es : List Ev}, Exec rx (init n t b) s es → s.cl[i]? = some .stopNotify →
      ∃ s' es', Exec rx s s' (es' ++ [.stopped i]) := by
    intro s es he hi
    have hst : step rx s (.cli i) = some ({ s with lt := notify s.lt, cl := s.cl.set i .stopLock }, .tau) := by
      simp only [step, hi, resume]
    obtain ⟨s', es', h1⟩ := lock (.snoc he hst) (set_self? hi)
    exact ⟨s', [.tau] ++ es', by rw [List.append_assoc]; exact (Exec.snoc .nil hst).append h1⟩
  rcases hi with hi | hi | hi | hi
  · have hst : step rx s (.cli i) = some ({ s with terminated := true, cl := s.cl.set i .stopNotify }, .tau) := by
      simp only [step, hi, resume]
    obtain ⟨s', es', h1⟩ := notif (.snoc he hst) (set_self? hi)
    exact ⟨s', [.tau] ++ es', by rw [List.append_assoc]; exact (Exec.snoc .nil hst).append h1⟩
  · exact notif he hi
  · exact lock he hi
  · exact join he hi

/-! ### destruction -/

theorem deleteAll_ok : ∀ (l : List Addr) (h : Addr → Option Msg), l.Nodup → (∀ a ∈ l, h a ≠ none) →
    ∃ h', deleteAll h l = .ok h' ∧ ∀ a, h' a = if a ∈ l then none else h a := by
  intro l
  induction l with
  | nil => intro h _ _; exact ⟨h, rfl, by simp⟩
  | cons x l ih =>
    intro h hn ha
    rw [List.nodup_cons] at hn
    have hx := ha x (by simp)
    obtain ⟨h', e1, e2⟩ := ih (setHeap h x none) hn.2 (fun a hal => by
      have : a ≠ x := by rintro rfl; exact hn.1 hal
      rw [setHeap_ne _ _ this]; exact ha a (by simp [hal]))
    refine ⟨h', ?_, fun a => ?_⟩
    · rw [deleteAll]; split
      · rename_i h0; exact absurd h0 hx
      · exact e1
    · rw [e2 a]
      by_cases hal : a ∈ l
      · simp [hal]
      · by_cases hax : a = x
        · subst hax; simp [setHeap]
        · simp [hal, hax, setHeap]

theorem destroy_frees {s : St} {es : List Ev} (hm : Mem s es) (hi : ∀ pc ∈ s.cl, pc = .idle) (hl : s.lt = .none) :
    ∃ h', destroy s = .ok h' ∧ ∀ a, h' a = none := by
  have hz : ∀ a, (s.cl.map (cHolds a)).sum = 0 := by
    intro a
    generalize s.cl = cl at hi
    induction cl with
    | nil => rfl
    | cons pc cl ih =>
      rw [List.map_cons, List.sum_cons, ih (fun pc h => hi pc (by simp [h])), hi pc (by simp)]; rfl
  have hc : ∀ a, s.pool.count a + s.queue.count a = cnt (s.heap a) := by
    intro a
    have := hm.count a
    rw [hz a, hl] at this
    simpa [lHolds] using this
  have le : ∀ a, s.pool.count a + s.queue.count a ≤ 1 := fun a => by rw [hc a]; exact cnt_le _
  have hq : s.queue.Nodup := List.nodup_iff_count.2 fun a => by have := le a; omega
  have hp : s.pool.Nodup := List.nodup_iff_count.2 fun a => by have := le a; omega
  have alive : ∀ a, 0 < s.pool.count a + s.queue.count a → s.heap a ≠ none := by
    intro a h e
    have := hc a; rw [e] at this; simp only [cnt] at this; omega
  obtain ⟨h1, e1, f1⟩ := deleteAll_ok s.queue s.heap hq (fun a ha => alive a (by have := count_pos_of_mem ha; omega))
  obtain ⟨h2, e2, f2⟩ := deleteAll_ok s.pool h1 hp (fun a ha => by
    have h1' := count_pos_of_mem ha
    have : a ∉ s.queue := fun hq => by have := count_pos_of_mem hq; have := le a; omega
    rw [f1 a, if_neg this]; exact alive a (by omega))
  refine ⟨h2, ?_, fun a => ?_⟩
  · simp only [destroy, e1, e2, bind, Except.bind]
  · rw [f2 a, f1 a]
    by_cases ha : a ∈ s.pool
    · simp [ha]
    · by_cases hb : a ∈ s.queue
      · simp [ha, hb]
      · rw [if_neg ha, if_neg hb]
        have := hc a
        rw [List.count_eq_zero_of_not_mem ha, List.count_eq_zero_of_not_mem hb] at this
        cases hh : s.heap a with
        | none => rfl
        | some m => rw [hh] at this; simp [cnt] at this

end Falcon.Log
