import Verif.Proofs.LogMem
/-
Protocol invariants: dispatch rounds, client calls, watermark, wake-ups, stop.
-/
namespace Falcon.Log

theorem Round.run_append (es es' : List Ev) : ∀ r, Round.run r (es ++ es') = (Round.run r es).bind fun r' => Round.run r' es' := by
  induction es with
  | nil => intro r; rfl
  | cons e es ih =>
    intro r
    simp only [List.cons_append, Round.run]
    cases Round.next r e with
    | none => rfl
    | some r' => exact ih r'

theorem Call.run_append (i : Nat) (es es' : List Ev) : ∀ r, Call.run i r (es ++ es') = (Call.run i r es).bind fun r' => Call.run i r' es' := by
  induction es with
  | nil => intro r; rfl
  | cons e es ih =>
    intro r
    simp only [List.cons_append, Call.run]
    cases Call.next i r e with
    | none => rfl
    | some r' => exact ih r'

/-! ### rounds -/

def roundOf (s : St) : Option Round :=
  match s.lt with
  | .send a rem            => (s.heap a).map fun m => .serving m rem
  | .test a l .enabled rem => (s.heap a).map fun m => .serving m (l :: rem)
  | .test a l st rem       => (s.heap a).map fun m => .asking m l st rem
  | _                      => some .idle

theorem roundOf_heap {s : St} {s' : St} (hl : s'.lt = s.lt ∨ (s'.lt = notify s.lt))
    (hh : ∀ a, lHolds a s.lt = 1 → s'.heap a = s.heap a) : roundOf s' = roundOf s := by
  rcases hl with hl | hl
  · unfold roundOf; rw [hl]
    cases hlt : s.lt with
    | send a rem => simp only; rw [hh a (by simp [hlt, lHolds])]
    | test a l st rem => cases st <;> simp only <;> rw [hh a (by simp [hlt, lHolds])]
    | _ => rfl
  · unfold roundOf; rw [hl]
    cases hlt : s.lt with
    | send a rem => simp only [notify]; rw [hh a (by simp [hlt, lHolds])]
    | test a l st rem => cases st <;> simp only [notify] <;> rw [hh a (by simp [hlt, lHolds])]
    | _ => rfl

theorem roundOf_step {rx : Rx} {s s' : St} {es : List Ev} {e : Ev} (h : Mem s es) (hs : Step rx s e s')
    {r : Round} (hr : roundOf s = some r) : ∃ r', r.next e = some r' ∧ roundOf s' = some r' := by
  have h' := h.step hs
  have keep : r.next e = some r → roundOf s' = roundOf s → ∃ r', r.next e = some r' ∧ roundOf s' = some r' :=
    fun h1 h2 => ⟨r, h1, h2.trans hr⟩
  cases hs with
  | gotFault | doneFault | testFault | disposeFault | constructFault => exact absurd (List.mem_append_right _ (List.mem_singleton.2 rfl)) (h'.nofault _)
  | callLog | callLogPtr | callStop | addListener | detach | level | enable | llevel | category | categoryThrow
    | startAgain | reject | pass | stopSet | stopNone | stopLock | allocPool =>
    exact keep rfl rfl
  | start i hi hm hl => exact keep rfl (by simp [roundOf, hl])
  | stopNotify i hi => exact keep rfl (roundOf_heap (Or.inr rfl) (fun _ _ => rfl))
  | enqueue i m a hi => exact keep rfl (roundOf_heap (Or.inr rfl) (fun _ _ => rfl))
  | stopJoin i hi hl => exact keep rfl (by simp [roundOf, hl])
  | spurious hl => exact keep rfl (by simp [roundOf, hl])
  | exit hl ht => exact keep rfl (by rcases hl with hl | hl <;> simp [roundOf, hl])
  | sleep hl ht hq => exact keep rfl (by rcases hl with hl | hl <;> simp [roundOf, hl])
  | take a q hl ht hq => exact keep rfl (by rcases hl with hl | hl <;> simp [roundOf, hl])
  | cleanOne a kept l rest hl => exact keep rfl (by simp [roundOf, hl])
  | cleanEnd a kept hl => exact keep rfl (by simp [roundOf, hl])
  | disposePool a hl hp => exact keep rfl (by simp [roundOf, hl])
  | disposeDelete a hl hp hh => exact keep rfl (by simp [roundOf, hl])
  | next a l rem hl => exact keep rfl (by simp [roundOf, hl])
  | allocNew i m hi hp =>
    exact keep rfl (roundOf_heap (Or.inl rfl) (fun a ha => setHeap_ne _ _ (by
      rintro rfl; rw [h.next_unused.2.2.2] at ha; cases ha)))
  | extNew i m hi =>
    exact keep rfl (roundOf_heap (Or.inl rfl) (fun a ha => setHeap_ne _ _ (by
      rintro rfl; rw [h.next_unused.2.2.2] at ha; cases ha)))
  | construct i m a hi hh =>
    exact keep rfl (roundOf_heap (Or.inl rfl) (fun b hb => setHeap_ne _ _ (by
      rintro rfl; rw [(h.notqueue_of_cl hi (a := b) (by simp [cHolds])).2.1] at hb; cases hb)))
  | dispatch a m hl hh =>
    have : r = .idle := by simp [roundOf, hl] at hr; exact hr.symm
    subst this
    exact ⟨_, rfl, by simp [roundOf, hh]⟩
  | done a m hl hh =>
    have : r = .serving m [] := by simp [roundOf, hl, hh] at hr; exact hr.symm
    subst this
    exact ⟨.idle, by simp [Round.next], by simp [roundOf]⟩
  | testEnabled a l rem m hl hh =>
    have : r = .serving m (l :: rem) := by simp [roundOf, hl, hh] at hr; exact hr.symm
    subst this
    refine ⟨_, by simp only [Round.next, and_self, if_true]; rfl, ?_⟩
    cases (s.lst l).enabled <;> simp [roundOf, hh]
  | testLevel a l rem m hl hh =>
    have : r = .asking m l .level rem := by simp [roundOf, hl, hh] at hr; exact hr.symm
    subst this
    refine ⟨_, by simp only [Round.next, and_self, if_true]; rfl, ?_⟩
    by_cases hlv : (s.lst l).level ≥ m.level <;> simp [roundOf, hh, hlv]
  | testCategory a l rem m hl hh =>
    have : r = .asking m l .category rem := by simp [roundOf, hl, hh] at hr; exact hr.symm
    subst this
    refine ⟨_, by simp only [Round.next, and_self, if_true]; rfl, ?_⟩
    cases checkCategory rx (s.lst l) m.cat <;> simp [roundOf, hh]
  | deliver a l rem m hl hh =>
    have : r = .asking m l .call rem := by simp [roundOf, hl, hh] at hr; exact hr.symm
    subst this
    exact ⟨.serving m rem, by simp only [Round.next, and_self, if_true], by simp [roundOf, hh]⟩

theorem exec_round {rx : Rx} {n : Nat} {t b : Bool} {s : St} {es : List Ev} (h : Exec rx (init n t b) s es) :
    ∃ r, Round.run .idle es = some r ∧ roundOf s = some r := by
  refine (exec_inv (fun s es => Mem s es ∧ ∃ r, Round.run .idle es = some r ∧ roundOf s = some r)
    ⟨Mem.initial n t b, .idle, rfl, by cases b <;> rfl⟩ ?_ h).2
  rintro s es e s' ⟨hm, r, h1, h2⟩ hs
  obtain ⟨r', h3, h4⟩ := roundOf_step hm hs h2
  refine ⟨hm.step hs, r', ?_, h4⟩
  rw [Round.run_append, h1]
  simp [Round.run, h3]

/-! ### client calls -/

def callOf : Option CPc → Call
  | some (.check m)       => .checking m
  | some (.alloc m)       => .sending m
  | some (.construct m _) => .sending m
  | some (.enqueue m _)   => .sending m
  | some (.extNew m)      => .sending m
  | _                     => .out

theorem set_callOf (cl : List CPc) (i j : Nat) (pc pc' : CPc) (hi : cl[i]? = some pc) :
    callOf ((cl.set i pc')[j]?) = if i = j then callOf (some pc') else callOf (cl[j]?) := by
  rw [List.getElem?_set]
  by_cases e : i = j
  · subst e
    have : i < cl.length := (List.getElem?_eq_some_iff.1 hi).1
    simp [this]
  · simp [e]

theorem callOf_step {rx : Rx} {s s' : St} {e : Ev} (hs : Step rx s e s') (j : Nat) :
    Call.next j (callOf s.cl[j]?) e = some (callOf s'.cl[j]?) := by
  have same : ∀ i pc pc', s.cl[i]? = some pc → callOf (some pc') = callOf (some pc) →
      callOf ((s.cl.set i pc')[j]?) = callOf s.cl[j]? := by
    intro i pc pc' hi e
    rw [set_callOf _ _ _ _ _ hi]
    split
    · rename_i e'; subst e'; rw [hi, e]
    · rfl
  cases hs with
  | callLog i m hi =>
    simp only [set_callOf _ _ _ _ _ hi, Call.next]
    by_cases e : i = j
    · subst e; simp [hi, callOf]
    · simp [e]
  | callLogPtr i m hi =>
    simp only [set_callOf _ _ _ _ _ hi, Call.next]
    by_cases e : i = j
    · subst e; simp [hi, callOf]
    · simp [e]
  | reject i m hi =>
    simp only [set_callOf _ _ _ _ _ hi, Call.next]
    by_cases e : i = j
    · subst e; simp [hi, callOf]
    · simp [e]
  | pass i m hi =>
    simp only [set_callOf _ _ _ _ _ hi, Call.next]
    by_cases e : i = j
    · subst e; simp [hi, callOf]
    · simp [e]
  | enqueue i m a hi =>
    simp only [set_callOf _ _ _ _ _ hi, Call.next]
    by_cases e : i = j
    · subst e; simp [hi, callOf]
    · simp [e]
  | callStop i hi => exact congrArg some (same i _ _ hi (by rfl)).symm
  | allocPool i m p a hi => exact congrArg some (same i _ _ hi (by rfl)).symm
  | allocNew i m hi => exact congrArg some (same i _ _ hi (by rfl)).symm
  | construct i m a hi => exact congrArg some (same i _ _ hi (by rfl)).symm
  | extNew i m hi => exact congrArg some (same i _ _ hi (by rfl)).symm
  | stopSet i hi => exact congrArg some (same i _ _ hi (by rfl)).symm
  | stopNotify i hi => exact congrArg some (same i _ _ hi (by rfl)).symm
  | stopNone i hi => exact congrArg some (same i _ _ hi (by rfl)).symm
  | stopLock i hi => exact congrArg some (same i _ _ hi (by rfl)).symm
  | stopJoin i hi => exact congrArg some (same i _ _ hi (by rfl)).symm
  | _ => rfl

theorem exec_call {rx : Rx} {n : Nat} {t b : Bool} {s : St} {es : List Ev} (h : Exec rx (init n t b) s es) (i : Nat) :
    Call.run i .out es = some (callOf s.cl[i]?) := by
  refine exec_inv (fun s es => Call.run i .out es = some (callOf s.cl[i]?)) ?_ ?_ h
  · simp only [Call.run, init, List.getElem?_replicate]; split <;> rfl
  · intro s es e s' hP hs
    rw [Call.run_append, hP]
    simp [Call.run, callOf_step hs i]

/-! ### watermark -/

theorem exec_watermark {rx : Rx} {n : Nat} {t b : Bool} {s : St} {es : List Ev} (h : Exec rx (init n t b) s es) :
    watermark es = (s.queue.length, s.maxQ) := by
  refine exec_inv (fun s es => watermark es = (s.queue.length, s.maxQ)) rfl ?_ h
  intro s es e s' hP hs
  unfold watermark at hP ⊢
  rw [List.foldl_append, hP]
  cases hs with
  | enqueue i m a hi => simp
  | take a q hl ht hq => simp [hq]
  | _ => rfl

/-! ### wake-ups -/

structure Wake (s : St) : Prop where
  queue : s.lt = .wait false → s.queue = []
  term  : s.lt = .wait false → s.terminated = true → ∃ i : Nat, s.cl[i]? = some CPc.stopNotify
  exited : s.lt = .exited → s.terminated = true
  stopping : ∀ (i : Nat) (pc : CPc), s.cl[i]? = some pc → pc = .stopNotify ∨ pc = .stopLock ∨ pc = .stopJoin → s.terminated = true
  holder : ∀ i : Nat, s.cl[i]? = some CPc.stopJoin ↔ s.mtxThread = some i
  joinable : s.mtxThread ≠ none → s.lt ≠ .none

theorem notify_eq_wait {p : LPc} : notify p ≠ .wait false := by cases p <;> simp [notify]
theorem notify_eq_exited {p : LPc} (h : notify p = .exited) : p = .exited := by cases p <;> simp_all [notify]
theorem notify_eq_none {p : LPc} (h : notify p = .none) : p = .none := by cases p <;> simp_all [notify]

theorem set_self? {cl : List CPc} {i : Nat} {pc pc' : CPc} (hi : cl[i]? = some pc) : (cl.set i pc')[i]? = some pc' := by
  have : i < cl.length := (List.getElem?_eq_some_iff.1 hi).1
  simp [List.getElem?_set, this]

theorem set_other? {cl : List CPc} {i j : Nat} {pc' pc : CPc} (h : i ≠ j) (hj : cl[j]? = some pc) :
    (cl.set i pc')[j]? = some pc := by
  rw [List.getElem?_set_ne h]; exact hj

/-- client steps that leave the logging thread, queue and flag alone -/
theorem Wake.client {s s' : St} (h : Wake s) (i : Nat) (pc pc' : CPc) (hi : s.cl[i]? = some pc)
    (hcl : s'.cl = s.cl.set i pc') (h1 : s'.lt = s.lt) (h2 : s'.queue = s.queue) (h3 : s'.terminated = s.terminated)
    (h4 : s'.mtxThread = s.mtxThread)
    (hpc : pc ≠ .stopNotify ∧ pc ≠ .stopJoin) (hpc' : pc' ≠ .stopNotify ∧ pc' ≠ .stopLock ∧ pc' ≠ .stopJoin) : Wake s' := by
  refine ⟨?_, ?_, ?_, ?_, ?_, ?_⟩
  · rw [h1, h2]; exact h.queue
  · rw [h1, h3, hcl]
    intro a b
    obtain ⟨j, hj⟩ := h.term a b
    exact ⟨j, set_other? (by rintro rfl; rw [hi] at hj; exact hpc.1 (some_inj hj)) hj⟩
  · rw [h1, h3]; exact h.exited
  · rw [hcl, h3]
    intro j pc1 hj hp
    rcases set_get? hj with ⟨-, rfl⟩ | ⟨-, hj'⟩
    · rcases hp with e | e | e
      · exact absurd e hpc'.1
      · exact absurd e hpc'.2.1
      · exact absurd e hpc'.2.2
    · exact h.stopping j pc1 hj' hp
  · intro j
    rw [h4, hcl, ← h.holder j]
    constructor
    · intro hj
      rcases set_get? hj with ⟨-, e⟩ | ⟨-, hj'⟩
      · exact absurd e.symm hpc'.2.2
      · exact hj'
    · intro hj
      exact set_other? (by rintro rfl; rw [hi] at hj; exact hpc.2 (some_inj hj)) hj
  · rw [h4, h1]; exact h.joinable

/-- steps of the logging thread -/
theorem Wake.lstep {s s' : St} (h : Wake s) (hcl : s'.cl = s.cl)
    (h1 : s'.lt = .wait false → s'.queue = [] ∧ s.terminated = false) (h2 : s'.lt = .exited → s.terminated = true)
    (h3 : s'.terminated = s.terminated) (h4 : s'.mtxThread = s.mtxThread)
    (h5 : s'.lt ≠ .none) : Wake s' := by
  refine ⟨fun e => (h1 e).1, fun e ht => ?_, fun e => by rw [h3]; exact h2 e, ?_, ?_, fun _ => h5⟩
  · rw [h3, (h1 e).2] at ht; cases ht
  · rw [hcl, h3]; exact h.stopping
  · rw [hcl, h4]; exact h.holder

theorem Wake.step {rx : Rx} {s s' : St} {e : Ev} (h : Wake s) (hs : Step rx s e s') : Wake s' := by
  cases hs with
  | callLog i m hi => exact h.client i _ _ hi rfl rfl rfl rfl rfl (by simp) (by simp)
  | callLogPtr i m hi => exact h.client i _ _ hi rfl rfl rfl rfl rfl (by simp) (by simp)
  | callStop i hi => exact h.client i _ _ hi rfl rfl rfl rfl rfl (by simp) (by simp)
  | reject i m hi => exact h.client i _ _ hi rfl rfl rfl rfl rfl (by simp) (by simp)
  | pass i m hi => exact h.client i _ _ hi rfl rfl rfl rfl rfl (by simp) (by simp)
  | allocPool i m p a hi => exact h.client i _ _ hi rfl rfl rfl rfl rfl (by simp) (by simp)
  | allocNew i m hi => exact h.client i _ _ hi rfl rfl rfl rfl rfl (by simp) (by simp)
  | construct i m a hi => exact h.client i _ _ hi rfl rfl rfl rfl rfl (by simp) (by simp)
  | extNew i m hi => exact h.client i _ _ hi rfl rfl rfl rfl rfl (by simp) (by simp)
  | stopNone i hi => exact h.client i _ _ hi rfl rfl rfl rfl rfl (by simp) (by simp)
  | addListener | level | enable | llevel | category | categoryThrow | startAgain | constructFault | gotFault
    | doneFault | testFault | detach => exact ⟨h.queue, h.term, h.exited, h.stopping, h.holder, h.joinable⟩
  | start i hi hm hl => exact h.lstep rfl (by simp) (by simp) rfl rfl (by simp)
  | exit hl ht => exact h.lstep rfl (by simp) (fun _ => ht) rfl rfl (by simp)
  | sleep hl ht hq => exact h.lstep rfl (fun _ => ⟨hq, ht⟩) (by simp) rfl rfl (by simp)
  | take a q hl ht hq => exact h.lstep rfl (by simp) (by simp) rfl rfl (by simp)
  | spurious hl => exact h.lstep rfl (by simp) (by simp) rfl rfl (by simp)
  | dispatch a m hl hh => exact h.lstep rfl (by simp) (by simp) rfl rfl (by simp)
  | next a l rem hl => exact h.lstep rfl (by simp) (by simp) rfl rfl (by simp)
  | done a m hl hh => exact h.lstep rfl (by simp) (by simp) rfl rfl (by simp)
  | testEnabled a l rem m hl hh => exact h.lstep rfl (by simp only; split <;> simp) (by simp only; split <;> simp) rfl rfl (by simp only; split <;> simp)
  | testLevel a l rem m hl hh => exact h.lstep rfl (by simp only; split <;> simp) (by simp only; split <;> simp) rfl rfl (by simp only; split <;> simp)
  | testCategory a l rem m hl hh => exact h.lstep rfl (by simp only; split <;> simp) (by simp only; split <;> simp) rfl rfl (by simp only; split <;> simp)
  | deliver a l rem m hl hh => exact h.lstep rfl (by simp) (by simp) rfl rfl (by simp)
  | cleanOne a kept l rest hl => exact h.lstep rfl (by simp) (by simp) rfl rfl (by simp)
  | cleanEnd a kept hl => exact h.lstep rfl (by simp) (by simp) rfl rfl (by simp)
  | disposePool a hl hp => exact h.lstep rfl (by simp) (by simp) rfl rfl (by simp)
  | disposeFault a hl hp hh => exact h.lstep rfl (by simp) (by simp) rfl rfl (by simp)
  | disposeDelete a hl hp hh => exact h.lstep rfl (by simp) (by simp) rfl rfl (by simp)
  | enqueue i m a hi =>
    refine ⟨fun e => absurd e notify_eq_wait, fun e => absurd e notify_eq_wait, fun e => h.exited (notify_eq_exited e), ?_, ?_,
      fun e e' => h.joinable e (notify_eq_none e')⟩
    · intro j pc1 hj hp
      rcases set_get? hj with ⟨-, rfl⟩ | ⟨-, hj'⟩
      · simp at hp
      · exact h.stopping j pc1 hj' hp
    · intro j
      show _ ↔ s.mtxThread = some j
      rw [← h.holder j]
      constructor
      · intro hj
        rcases set_get? hj with ⟨-, e⟩ | ⟨-, hj'⟩
        · cases e
        · exact hj'
      · intro hj
        exact set_other? (by rintro rfl; rw [hi] at hj; cases hj) hj
  | stopSet i hi =>
    refine ⟨h.queue, fun _ _ => ⟨i, set_self? hi⟩, fun _ => rfl, fun _ _ _ _ => rfl, ?_, h.joinable⟩
    intro j
    show _ ↔ s.mtxThread = some j
    rw [← h.holder j]
    constructor
    · intro hj
      rcases set_get? hj with ⟨-, e⟩ | ⟨-, hj'⟩
      · cases e
      · exact hj'
    · intro hj
      exact set_other? (by rintro rfl; rw [hi] at hj; cases hj) hj
  | stopNotify i hi =>
    have ht := h.stopping i _ hi (Or.inl rfl)
    refine ⟨fun e => absurd e notify_eq_wait, fun e => absurd e notify_eq_wait, fun _ => ht, fun _ _ _ _ => ht, ?_,
      fun e e' => h.joinable e (notify_eq_none e')⟩
    intro j
    show _ ↔ s.mtxThread = some j
    rw [← h.holder j]
    constructor
    · intro hj
      rcases set_get? hj with ⟨-, e⟩ | ⟨-, hj'⟩
      · cases e
      · exact hj'
    · intro hj
      exact set_other? (by rintro rfl; rw [hi] at hj; cases hj) hj
  | stopLock i hi hm hl =>
    have ht := h.stopping i _ hi (Or.inr (Or.inl rfl))
    refine ⟨h.queue, fun e hh => ?_, fun _ => ht, fun _ _ _ _ => ht, ?_, fun _ => hl⟩
    · obtain ⟨j, hj⟩ := h.term e hh
      exact ⟨j, set_other? (by rintro rfl; rw [hi] at hj; cases hj) hj⟩
    · intro j
      show _ ↔ some i = some j
      constructor
      · intro hj
        rcases set_get? hj with ⟨e, -⟩ | ⟨-, hj'⟩
        · rw [e]
        · rw [(h.holder j).1 hj'] at hm; cases hm
      · intro e; cases e; exact set_self? hi
  | stopJoin i hi hl =>
    have hmi := (h.holder i).1 hi
    have ht := h.stopping i _ hi (Or.inr (Or.inr rfl))
    refine ⟨by simp, by simp, by simp, fun _ _ _ _ => ht, ?_, by simp⟩
    intro j
    show _ ↔ none = some j
    constructor
    · intro hj
      rcases set_get? hj with ⟨-, e⟩ | ⟨hne, hj'⟩
      · cases e
      · rw [(h.holder j).1 hj'] at hmi; exact absurd (some_inj hmi) hne
    · intro e; cases e

theorem Wake.initial (n : Nat) (t b : Bool) : Wake (init n t b) := by
  refine ⟨?_, ?_, ?_, ?_, ?_, ?_⟩
  · intro _; rfl
  · cases b <;> simp [init]
  · cases b <;> simp [init]
  · intro i pc hi hp
    simp [init, List.getElem?_replicate] at hi
    rcases hp with rfl | rfl | rfl <;> simp at hi
  · intro i; simp [init, List.getElem?_replicate]
  · simp [init]

theorem exec_wake {rx : Rx} {n : Nat} {t b : Bool} {s : St} {es : List Ev} (h : Exec rx (init n t b) s es) : Wake s :=
  exec_inv (fun s _ => Wake s) (Wake.initial n t b) (fun _ _ _ _ h hs => h.step hs) h

/-! ### categories -/

def CatOk (s : St) : Prop := ∀ l, (s.lst l).category = [] ∨ (s.lst l).regex = some (s.lst l).category

theorem setLst_self (f : LId → Lst) (l : LId) (v : Lst) : setLst f l v l = v := by simp [setLst]
theorem setLst_ne (f : LId → Lst) {l k : LId} (v : Lst) (h : k ≠ l) : setLst f l v k = f k := by simp [setLst, h]

theorem CatOk.step {rx : Rx} {s s' : St} {e : Ev} (h : CatOk s) (hs : Step rx s e s') : CatOk s' := by
  have upd : ∀ (l : LId) (v : Lst), (v.category = [] ∨ v.regex = some v.category) → ∀ k,
      (setLst s.lst l v k).category = [] ∨ (setLst s.lst l v k).regex = some (setLst s.lst l v k).category := by
    intro l v hv k
    by_cases e : k = l
    · subst e; rw [setLst_self]; exact hv
    · rw [setLst_ne _ _ e]; exact h k
  cases hs with
  | detach i l hi => exact upd l _ (h l)
  | enable i l b hi => exact upd l _ (h l)
  | llevel i l n hi => exact upd l _ (h l)
  | category i l re hi hv => exact upd l _ (Or.inr rfl)
  | _ => exact h

theorem exec_cat {rx : Rx} {n : Nat} {t b : Bool} {s : St} {es : List Ev} (h : Exec rx (init n t b) s es) : CatOk s :=
  exec_inv (fun s _ => CatOk s) (fun _ => Or.inl rfl) (fun _ _ _ _ h hs => h.step hs) h

/-! ### registered listeners -/

/-- Listeners that will be offered the next message. -/
def registered (s : St) : List LId :=
  match s.lt with
  | .clean _ kept rest => kept ++ rest ++ s.pending
  | _                  => s.active ++ s.pending

theorem registered_notify (s : St) (q : List Addr) (mq : Nat) (cl : List CPc) :
    registered { s with queue := q, maxQ := mq, lt := notify s.lt, cl := cl } = registered s := by
  unfold registered; cases s.lt <;> rfl

/-- What every step does to registration: only cleanup removes, and only detached listeners. -/
theorem registered_step {rx : Rx} {s s' : St} {e : Ev} (hs : Step rx s e s') (l : LId) :
    ((s'.lst l).detached = true ∧ (∀ i, e ≠ .did i (.addListener l))) ∨
      (registered s').count l = (registered s).count l + addCalls l [e] := by
  have keep : registered s' = registered s → addCalls l [e] = 0 →
      ((s'.lst l).detached = true ∧ (∀ i, e ≠ .did i (.addListener l))) ∨
      (registered s').count l = (registered s).count l + addCalls l [e] := by
    intro h1 h2; right; rw [h1, h2]; rfl
  cases hs with
  | callLog | callLogPtr | callStop | detach | level | enable | llevel | category | categoryThrow
    | startAgain | reject | pass | stopSet | stopNone | stopLock | allocPool | allocNew | construct | constructFault
    | extNew | gotFault | testFault | doneFault =>
    exact keep rfl rfl
  | addListener i k hi =>
    right
    have : registered { s with pending := s.pending ++ [k] } = registered s ++ [k] := by
      unfold registered; cases s.lt <;> simp
    rw [this, List.count_append]
    simp only [addCalls, List.filter_cons, List.filter_nil, List.count_singleton]
    by_cases e : k = l <;> simp [e]
  | start i hi hm hl => exact keep (by simp [registered, hl]) rfl
  | stopNotify i hi => exact keep (by unfold registered; cases s.lt <;> rfl) rfl
  | enqueue i m a hi => exact keep (by unfold registered; cases s.lt <;> rfl) rfl
  | stopJoin i hi hl => exact keep (by simp [registered, hl]) rfl
  | spurious hl => exact keep (by simp [registered, hl]) rfl
  | exit hl ht => exact keep (by rcases hl with hl | hl <;> simp [registered, hl]) rfl
  | sleep hl ht hq => exact keep (by rcases hl with hl | hl <;> simp [registered, hl]) rfl
  | take a q hl ht hq => exact keep (by rcases hl with hl | hl <;> simp [registered, hl]) rfl
  | dispatch a m hl hh => exact keep (by simp [registered, hl]) rfl
  | next a l rem hl => exact keep (by simp [registered, hl]) rfl
  | done a m hl hh => exact keep (by simp [registered, hl]) rfl
  | testEnabled a k rem m hl hh => exact keep (by simp only [registered, hl]; cases (s.lst k).enabled <;> rfl) rfl
  | testLevel a k rem m hl hh => exact keep (by simp only [registered, hl]; by_cases h : (s.lst k).level ≥ m.level <;> simp [h]) rfl
  | testCategory a k rem m hl hh => exact keep (by simp only [registered, hl]; cases checkCategory rx (s.lst k) m.cat <;> rfl) rfl
  | deliver a l rem m hl hh => exact keep (by simp [registered, hl]) rfl
  | cleanOne a kept k rest hl =>
    cases hd : (s.lst k).detached with
    | false =>
      right
      simp [registered, hl, addCalls]
    | true =>
      by_cases e : k = l
      · subst e; left; exact ⟨hd, by simp⟩
      · right
        simp [registered, hl, addCalls, List.count_cons, e]
  | cleanEnd a kept hl => exact keep (by simp [registered, hl]) rfl
  | disposePool a hl hp => exact keep (by simp [registered, hl]) rfl
  | disposeFault a hl hp hh => exact keep (by simp [registered, hl]) rfl
  | disposeDelete a hl hp hh => exact keep (by simp [registered, hl]) rfl

theorem detached_mono {rx : Rx} {s s' : St} {e : Ev} (hs : Step rx s e s') (l : LId) (h : (s.lst l).detached = true) :
    (s'.lst l).detached = true := by
  have upd : ∀ (k : LId) (v : Lst), (k = l → v.detached = true) → (setLst s.lst k v l).detached = true := by
    intro k v hv
    by_cases e : l = k
    · subst e; rw [setLst_self]; exact hv rfl
    · rw [setLst_ne _ _ e]; exact h
  cases hs with
  | detach i k hi => exact upd k _ (fun _ => rfl)
  | enable i k b hi => exact upd k _ (fun e => by subst e; exact h)
  | llevel i k n hi => exact upd k _ (fun e => by subst e; exact h)
  | category i k re hi hv => exact upd k _ (fun e => by subst e; exact h)
  | _ => exact h

theorem addCalls_append (l : LId) (es es' : List Ev) : addCalls l (es ++ es') = addCalls l es + addCalls l es' := by
  simp [addCalls]

theorem exec_registered {rx : Rx} {n : Nat} {t b : Bool} {s : St} {es : List Ev} (h : Exec rx (init n t b) s es) (l : LId) :
    (s.lst l).detached = true ∨ (registered s).count l = addCalls l es := by
  refine exec_inv (fun s es => (s.lst l).detached = true ∨ (registered s).count l = addCalls l es) ?_ ?_ h
  · right; cases b <;> rfl
  · rintro s es e s' (h | h) hs
    · left; exact detached_mono hs l h
    · rcases registered_step hs l with ⟨h1, -⟩ | h1
      · left; exact h1
      · right; rw [addCalls_append, h1, h]

/-! ### deliveries after detach -/

/-- How often a detached listener can still be called. -/
def chances (l : LId) (s : St) : Nat :=
  s.pending.count l + match s.lt with
  | .send _ rem      => rem.count l
  | .test _ k _ rem  => rem.count l + if k = l then 1 else 0
  | .clean _ kept _  => kept.count l
  | _                => s.active.count l

theorem deliveredTo_append (l : LId) (es es' : List Ev) : deliveredTo l (es ++ es') = deliveredTo l es + deliveredTo l es' := by
  simp [deliveredTo, deliveries]

theorem chances_step {rx : Rx} {s s' : St} {e : Ev} (hs : Step rx s e s') (l : LId) (hd : (s.lst l).detached = true)  :
    chances l s' + deliveredTo l [e] ≤ chances l s + addCalls l [e] := by
  have keep : chances l s' = chances l s → deliveredTo l [e] = 0 →
      chances l s' + deliveredTo l [e] ≤ chances l s + addCalls l [e] := by intro h1 h2; omega
  cases hs with
  | callLog | callLogPtr | callStop | detach | level | enable | llevel | category | categoryThrow
    | startAgain | reject | pass | stopSet | stopNone | stopLock | allocPool | allocNew | construct | constructFault
    | extNew | gotFault | testFault | doneFault =>
    exact keep rfl rfl
  | addListener i k hi =>
    have : chances l { s with pending := s.pending ++ [k] } = chances l s + if k = l then 1 else 0 := by
      simp only [chances, List.count_append, List.count_singleton, beq_iff_eq]; omega
    rw [this]
    simp only [addCalls, deliveredTo, deliveries, List.filter_cons, List.filter_nil, List.filterMap_cons, List.filterMap_nil]
    by_cases e : k = l <;> simp [e]
  | start i hi hm hl => exact keep (by simp [chances, hl]) rfl
  | stopNotify i hi => exact keep (by unfold chances; cases s.lt <;> rfl) rfl
  | enqueue i m a hi => exact keep (by unfold chances; cases s.lt <;> rfl) rfl
  | stopJoin i hi hl => exact keep (by simp [chances, hl]) rfl
  | spurious hl => exact keep (by simp [chances, hl]) rfl
  | exit hl ht => exact keep (by rcases hl with hl | hl <;> simp [chances, hl]) rfl
  | sleep hl ht hq => exact keep (by rcases hl with hl | hl <;> simp [chances, hl]) rfl
  | take a q hl ht hq => exact keep (by rcases hl with hl | hl <;> simp [chances, hl]) rfl
  | dispatch a m hl hh => exact keep (by simp [chances, hl]; omega) rfl
  | next a k rem hl =>
    refine keep ?_ rfl
    simp only [chances, hl, List.count_cons, beq_iff_eq]
  | done a m hl hh =>
    simp only [chances, hl]
    simp [deliveredTo, deliveries]
  | testEnabled a k rem m hl hh =>
    simp only [chances, hl]
    have : deliveredTo l [.tested k m .enabled (s.lst k).enabled] = 0 := rfl
    rw [this]
    cases (s.lst k).enabled <;> simp only [if_true, if_false, Bool.false_eq_true] <;> omega
  | testLevel a k rem m hl hh =>
    simp only [chances, hl]
    have : ∀ b, deliveredTo l [.tested k m .level b] = 0 := fun _ => rfl
    rw [this]
    by_cases h : (s.lst k).level ≥ m.level <;> simp only [h, if_true, if_false] <;> omega
  | testCategory a k rem m hl hh =>
    simp only [chances, hl]
    have : ∀ b, deliveredTo l [.tested k m .category b] = 0 := fun _ => rfl
    rw [this]
    cases checkCategory rx (s.lst k) m.cat <;> simp only [if_true, if_false, Bool.false_eq_true] <;> omega
  | deliver a k rem m hl hh =>
    simp only [chances, hl, deliveredTo, deliveries, List.filterMap_cons, List.filterMap_nil, List.filter_cons, List.filter_nil]
    by_cases e : k = l <;> simp [e]
    omega
  | cleanOne a kept k rest hl =>
    refine keep ?_ rfl
    simp only [chances, hl]
    by_cases e : k = l
    · subst e; simp [hd]
    · cases (s.lst k).detached <;> simp [List.count_append, List.count_cons, e]
  | cleanEnd a kept hl => exact keep (by simp [chances, hl]) rfl
  | disposePool a hl hp => exact keep (by simp [chances, hl]) rfl
  | disposeFault a hl hp hh => exact keep (by simp [chances, hl]) rfl
  | disposeDelete a hl hp hh => exact keep (by simp [chances, hl]) rfl

/-! ### after termination -/

theorem terminated_step {rx : Rx} {s s' : St} {e : Ev} (hs : Step rx s e s') (h : s.terminated = true) :
    s'.terminated = true ∧ e ≠ .take := by
  cases hs with
  | take a q hl ht hq => rw [h] at ht; cases ht
  | stopSet => exact ⟨rfl, by simp⟩
  | _ => exact ⟨h, by simp⟩

end Falcon.Log
