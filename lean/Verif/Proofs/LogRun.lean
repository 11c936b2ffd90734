import Verif.Proofs.LogProto
/-
Progress of the logging thread; what one round delivers.
-/
namespace Falcon.Log

/-! ### progress -/

def CleanOk (s : St) : Prop := ∀ a kept rest, s.lt = .clean a kept rest → kept.length + rest.length ≤ s.active.length

/-- While serving, the listeners that remain are at most the registered ones. -/
def ServeOk (s : St) : Prop :=
  (∀ a rem, s.lt = .send a rem → rem.length ≤ s.active.length) ∧
  (∀ a l st rem, s.lt = .test a l st rem → rem.length + 1 ≤ s.active.length)

theorem ServeOk.step {rx : Rx} {s s' : St} {e : Ev} (h : ServeOk s) (hs : Step rx s e s') : ServeOk s' := by
  obtain ⟨h1, h2⟩ := h
  have other : (∀ a rem, s'.lt ≠ .send a rem) → (∀ a l st rem, s'.lt ≠ .test a l st rem) → ServeOk s' :=
    fun h h' => ⟨fun a r e => absurd e (h a r), fun a l st r e => absurd e (h' a l st r)⟩
  have n1 : ∀ a rem, notify s.lt = .send a rem → s.lt = .send a rem := by
    intro a k h; cases hl : s.lt <;> simp_all [notify]
  have n2 : ∀ a l st rem, notify s.lt = .test a l st rem → s.lt = .test a l st rem := by
    intro a l st k h; cases hl : s.lt <;> simp_all [notify]
  cases hs with
  | enqueue i m a hi => exact ⟨fun a r e => h1 a r (n1 a r e), fun a l st r e => h2 a l st r (n2 a l st r e)⟩
  | stopNotify i hi => exact ⟨fun a r e => h1 a r (n1 a r e), fun a l st r e => h2 a l st r (n2 a l st r e)⟩
  | start | stopJoin | spurious | exit | sleep | take | done | cleanOne | cleanEnd | disposePool
    | disposeFault | disposeDelete => exact other (by simp) (by simp)
  | dispatch a m hl hh => exact ⟨fun a r e => by cases e; exact Nat.le_refl _, by simp⟩
  | next a l rem hl =>
    have := h1 a _ hl
    exact ⟨by simp, fun a l st r e => by cases e; exact this⟩
  | testEnabled a l rem m hl hh =>
    have := h2 _ _ _ _ hl
    exact ⟨fun a' r e => by simp only at e ⊢; split at e <;> cases e; omega,
      fun a l st r e => by simp only at e ⊢; split at e <;> cases e; omega⟩
  | testLevel a l rem m hl hh =>
    have := h2 _ _ _ _ hl
    exact ⟨fun a' r e => by simp only at e ⊢; split at e <;> cases e; omega,
      fun a l st r e => by simp only at e ⊢; split at e <;> cases e; omega⟩
  | testCategory a l rem m hl hh =>
    have := h2 _ _ _ _ hl
    exact ⟨fun a' r e => by simp only at e ⊢; split at e <;> cases e; omega,
      fun a l st r e => by simp only at e ⊢; split at e <;> cases e; omega⟩
  | deliver a l rem m hl hh =>
    have := h2 _ _ _ _ hl
    exact ⟨fun a' r e => by cases e; simp only; omega, by simp⟩
  | _ => exact ⟨h1, h2⟩

theorem exec_serve {rx : Rx} {n : Nat} {t b : Bool} {s : St} {es : List Ev} (h : Exec rx (init n t b) s es) : ServeOk s :=
  exec_inv (fun s _ => ServeOk s) (by refine ⟨?_, ?_⟩ <;> (intros; cases b <;> simp_all [init])) (fun _ _ _ _ h hs => h.step hs) h

theorem CleanOk.step {rx : Rx} {s s' : St} {e : Ev} (h : CleanOk s) (hs : Step rx s e s') : CleanOk s' := by
  have other : (∀ a kept rest, s'.lt ≠ .clean a kept rest) → CleanOk s' := fun h a k r e => absurd e (h a k r)
  have nclean : ∀ a kept rest, notify s.lt = .clean a kept rest → s.lt = .clean a kept rest := by
    intro a k r h; cases hl : s.lt <;> simp_all [notify]
  cases hs with
  | enqueue i m a hi => exact fun a k r e => h a k r (nclean a k r e)
  | stopNotify i hi => exact fun a k r e => h a k r (nclean a k r e)
  | start | stopJoin | spurious | exit | sleep | take | dispatch | next | deliver | cleanEnd | disposePool
    | disposeFault | disposeDelete => exact other (by simp)
  | testEnabled => exact other (by simp only; split <;> simp)
  | testLevel => exact other (by simp only; split <;> simp)
  | testCategory => exact other (by simp only; split <;> simp)
  | done a m hl hh => intro a k r e; cases e; simp
  | cleanOne a kept l rest hl =>
    intro a' k r e
    have := h a kept (l :: rest) hl
    cases e
    simp only [List.length_cons] at this
    split <;> simp <;> omega
  | _ => exact h

theorem exec_clean {rx : Rx} {n : Nat} {t b : Bool} {s : St} {es : List Ev} (h : Exec rx (init n t b) s es) : CleanOk s :=
  exec_inv (fun s _ => CleanOk s) (by intro a k r e; cases b <;> cases e) (fun _ _ _ _ h hs => h.step hs) h

/-- Number of listeners a round can involve. -/
def listeners (s : St) : Nat := s.active.length + s.pending.length

/-- Steps the logging thread still needs within the current round, at most. -/
def roundCost (s : St) : Nat :=
  match s.lt with
  | .none | .exited | .wait false => 0
  | .top | .wait true => 1
  | .got _ => 6 * listeners s + 5
  | .send _ rem => 5 * rem.length + s.active.length + 4
  | .test _ _ .enabled rem => 5 * rem.length + s.active.length + 8
  | .test _ _ .level rem => 5 * rem.length + s.active.length + 7
  | .test _ _ .category rem => 5 * rem.length + s.active.length + 6
  | .test _ _ .call rem => 5 * rem.length + s.active.length + 5
  | .clean _ _ rest => rest.length + 3
  | .dispose _ => 2

def cost (s : St) : Nat := s.queue.length * (6 * listeners s + 5) + roundCost s

theorem roundCost_le {s : St} (h1 : CleanOk s) (h2 : ServeOk s) : roundCost s ≤ 6 * listeners s + 5 := by
  unfold roundCost listeners
  split
  · omega
  · omega
  · omega
  · omega
  · omega
  · omega
  · rename_i a rem hl; have := h2.1 _ _ hl; omega
  · rename_i a l rem hl; have := h2.2 _ _ _ _ hl; omega
  · rename_i a l rem hl; have := h2.2 _ _ _ _ hl; omega
  · rename_i a l rem hl; have := h2.2 _ _ _ _ hl; omega
  · rename_i a l rem hl; have := h2.2 _ _ _ _ hl; omega
  · rename_i a k r hl; have := h1 _ _ _ hl; omega
  · omega

structure Running (s : St) : Prop where
  term : s.terminated = false
  lt   : s.lt ≠ .none ∧ s.lt ≠ .exited

theorem log_progress {rx : Rx} {s : St} {es : List Ev} (hm : Mem s es) (hc : CleanOk s) (hr : Running s)
    (hw : s.lt ≠ .wait false) :
    ∃ s' e, step rx s .log = some (s', e) ∧ cost s' < cost s ∧ Running s' ∧ (∀ i m, e ≠ .accept i m) := by
  have ht := hr.term
  have hd : (s.lt = .top ∨ s.lt = .wait true) → ∃ s' e, some (head s) = some (s', e) ∧ cost s' < cost s ∧ Running s' ∧ (∀ i m, e ≠ .accept i m) := by
    intro hl
    have h1 : roundCost s = 1 := by rcases hl with hl | hl <;> simp [roundCost, hl]
    cases hq : s.queue with
    | nil =>
      have hh : head s = ({ s with lt := .wait false }, .sleep) := by
        unfold head; split <;> simp_all
      refine ⟨_, _, congrArg some hh, ?_, ⟨ht, by simp⟩, by simp⟩
      have e1 : cost s = 1 := by rw [cost, h1, hq]; simp
      have e2 : cost { s with lt := .wait false } = 0 := by simp [cost, roundCost, hq]
      omega
    | cons a q =>
      have hh : head s = ({ s with queue := q, lt := .got a }, .take) := by
        unfold head; split <;> simp_all
      refine ⟨_, _, congrArg some hh, ?_, ⟨ht, by simp⟩, by simp⟩
      have e1 : cost s = (q.length + 1) * (6 * listeners s + 5) + 1 := by rw [cost, h1, hq]; simp
      have e2 : cost { s with queue := q, lt := .got a } = q.length * (6 * listeners s + 5) + (6 * listeners s + 5) := rfl
      rw [e1, e2, Nat.add_mul]; omega
  simp only [step]
  cases hl : s.lt with
  | none => exact absurd hl hr.lt.1
  | exited => exact absurd hl hr.lt.2
  | top => simp only [logStep, hl]; exact hd (Or.inl hl)
  | wait b =>
    cases b with
    | true => simp only [logStep, hl]; exact hd (Or.inr hl)
    | false => exact absurd hl hw
  | got a =>
    obtain ⟨m, hh⟩ := hm.lt_alive (a := a) (by simp [hl, lHolds])
    simp only [logStep, hl, hh]
    refine ⟨_, _, rfl, ?_, ⟨ht, by simp⟩, by simp⟩
    simp only [cost, roundCost, hl, listeners, List.length_append, List.length_nil, Nat.add_zero]
    omega
  | send a rem =>
    cases rem with
    | nil =>
      obtain ⟨m, hh⟩ := hm.lt_alive (a := a) (by simp [hl, lHolds])
      simp only [logStep, hl, hh]
      refine ⟨_, _, rfl, ?_, ⟨ht, by simp⟩, by simp⟩
      simp only [cost, roundCost, hl, listeners, List.length_nil]; omega
    | cons l rem =>
      simp only [logStep, hl]
      refine ⟨_, _, rfl, ?_, ⟨ht, by simp⟩, by simp⟩
      simp only [cost, roundCost, hl, listeners, List.length_cons]; omega
  | test a l st rem =>
    obtain ⟨m, hh⟩ := hm.lt_alive (a := a) (by simp [hl, lHolds])
    cases st with
    | enabled =>
      simp only [logStep, hl, hh]
      refine ⟨_, _, rfl, ?_, ⟨ht, by simp only; split <;> simp⟩, by simp⟩
      cases (s.lst l).enabled <;> simp only [cost, roundCost, hl, listeners, if_true, if_false, Bool.false_eq_true] <;> omega
    | level =>
      simp only [logStep, hl, hh]
      refine ⟨_, _, rfl, ?_, ⟨ht, by simp only; split <;> simp⟩, by simp⟩
      by_cases h : (s.lst l).level ≥ m.level <;> simp only [cost, roundCost, hl, listeners, h, if_true, if_false] <;> omega
    | category =>
      simp only [logStep, hl, hh]
      refine ⟨_, _, rfl, ?_, ⟨ht, by simp only; split <;> simp⟩, by simp⟩
      cases checkCategory rx (s.lst l) m.cat <;> simp only [cost, roundCost, hl, listeners, if_true, if_false, Bool.false_eq_true] <;> omega
    | call =>
      simp only [logStep, hl, hh]
      refine ⟨_, _, rfl, ?_, ⟨ht, by simp⟩, by simp⟩
      simp only [cost, roundCost, hl, listeners]; omega
  | clean a kept rest =>
    have hk := hc a kept rest hl
    cases rest with
    | cons l rest =>
      simp only [logStep, hl]
      refine ⟨_, _, rfl, ?_, ⟨ht, by simp⟩, by simp⟩
      simp only [cost, roundCost, hl, listeners, List.length_cons]; omega
    | nil =>
      simp only [logStep, hl]
      refine ⟨_, _, rfl, ?_, ⟨ht, by simp⟩, by simp⟩
      simp only [cost, roundCost, hl, listeners, List.length_nil] at hk ⊢
      have : s.queue.length * (6 * (kept.length + s.pending.length) + 5) ≤ s.queue.length * (6 * (s.active.length + s.pending.length) + 5) :=
        Nat.mul_le_mul_left _ (by omega)
      omega
  | dispose a =>
    obtain ⟨m, hh⟩ := hm.lt_alive (a := a) (by simp [hl, lHolds])
    simp only [logStep, hl]
    refine ⟨_, _, rfl, ?_, ⟨?_, by simp⟩, ?_⟩
    · simp only [dispose, hh]
      split <;> simp only [cost, roundCost, hl, listeners] <;> omega
    · simp only [dispose, hh]; split <;> exact ht
    · simp only [dispose, hh]; split <;> simp

theorem log_drains {rx : Rx} : ∀ (c : Nat) {n : Nat} {t b : Bool} {s : St} {es : List Ev}, Exec rx (init n t b) s es → Running s →
    cost s ≤ c → ∃ k s' es', k ≤ c ∧ run rx s (List.replicate k .log) = some (s', es') ∧ s'.lt = .wait false ∧
      accepted es' = [] := by
  intro c
  induction c with
  | zero =>
    intro n t b s es he hr hc
    by_cases hw : s.lt = .wait false
    · exact ⟨0, s, [], Nat.le_refl _, rfl, hw, rfl⟩
    · obtain ⟨s', e, h1, h2, -⟩ := log_progress (rx := rx) (exec_mem he) (exec_clean he) hr hw
      omega
  | succ c ih =>
    intro n t b s es he hr hc
    by_cases hw : s.lt = .wait false
    · exact ⟨0, s, [], Nat.zero_le _, rfl, hw, rfl⟩
    · obtain ⟨s', e, h1, h2, h3, h4⟩ := log_progress (rx := rx) (exec_mem he) (exec_clean he) hr hw
      obtain ⟨k, s'', es', h5, h6, h7, h8⟩ := ih (.snoc he h1) h3 (by omega)
      refine ⟨k + 1, s'', e :: es', by omega, ?_, h7, ?_⟩
      · simp only [List.replicate_succ, run, h1, h6]
      · have : accepted (e :: es') = accepted [e] ++ accepted es' := accepted_append [e] es'
        rw [this, h8]
        cases e <;> simp [accepted] at h4 ⊢

/-! ### one round -/

theorem checkCategory_iff {rx : Rx} {c : Lst} {cat : Str} (h : c.category = [] ∨ c.regex = some c.category) :
    checkCategory rx c cat = true ↔ (cat = [] ∨ c.category = [] ∨ rx.full c.category cat = true) := by
  unfold checkCategory
  by_cases h1 : cat = []
  · simp [h1]
  · by_cases h2 : c.category = []
    · simp [h1, h2]
    · rcases h with h | h
      · exact absurd h h2
      · simp [h1, h2, h]

/-- Configuration relevant for acceptance. -/
def sameCfg (f g : LId → Lst) : Prop := ∀ l, (f l).enabled = (g l).enabled ∧ (f l).level = (g l).level ∧
  (f l).category = (g l).category ∧ (f l).regex = (g l).regex

theorem sameCfg_wants {rx : Rx} {f g : LId → Lst} (h : sameCfg f g) (l : LId) (m : Msg) : Wants rx (f l) m ↔ Wants rx (g l) m := by
  obtain ⟨h1, h2, h3, -⟩ := h l
  simp only [Wants, h1, h2, h3]

def todo (rx : Rx) (c : LId → Lst) (m : Msg) (ls : List LId) : List (LId × Msg) :=
  (ls.filter fun l => decide (Wants rx (c l) m)).map fun l => (l, m)

theorem todo_cons_pos {rx : Rx} {c : LId → Lst} {m : Msg} {l : LId} {ls : List LId} (h : Wants rx (c l) m) :
    todo rx c m (l :: ls) = (l, m) :: todo rx c m ls := by simp [todo, h]
theorem todo_cons_neg {rx : Rx} {c : LId → Lst} {m : Msg} {l : LId} {ls : List LId} (h : ¬ Wants rx (c l) m) :
    todo rx c m (l :: ls) = todo rx c m ls := by simp [todo, h]

/-- State of a round that began with listeners `ls` and message `m` under configuration `c`. -/
structure RoundInv (rx : Rx) (c : LId → Lst) (m : Msg) (ls : List LId) (s : St) (es : List Ev) : Prop where
  cfg : sameCfg s.lst c
  st  : ∃ a, s.heap a = some m ∧ (
    (∃ rem, s.lt = .send a rem ∧ deliveries es ++ todo rx c m rem = todo rx c m ls) ∨
    (∃ l st rem, s.lt = .test a l st rem ∧ deliveries es ++ todo rx c m (l :: rem) = todo rx c m ls ∧
      (st = .level → (c l).enabled = true) ∧ (st = .category → (c l).enabled = true ∧ m.level ≤ (c l).level) ∧
      (st = .call → Wants rx (c l) m)))

theorem deliveries_append (es es' : List Ev) : deliveries (es ++ es') = deliveries es ++ deliveries es' := by
  simp [deliveries]

theorem RoundInv.step {rx : Rx} {c : LId → Lst} {m : Msg} {ls : List LId} {s s' : St} {es0 es : List Ev} {e : Ev}
    (hm : Mem s es0) (hcat : ∀ l, (c l).category = [] ∨ (c l).regex = some (c l).category)
    (h : RoundInv rx c m ls s es) (hs : Step rx s e s')
    (hcfg : ∀ i op, e = .did i op → isConfig op = false) (hnd : ∀ m', e ≠ .done m') : RoundInv rx c m ls s' (es ++ [e]) := by
  obtain ⟨a, hh, hst⟩ := h.st
  have hold : lHolds a s.lt = 1 := by
    rcases hst with ⟨rem, hl, -⟩ | ⟨l, st, rem, hl, -⟩ <;> simp [hl, lHolds]
  -- steps of others
  have other : s'.lst = s.lst ∨ sameCfg s'.lst s.lst → s'.heap a = s.heap a → (s'.lt = s.lt ∨ s'.lt = notify s.lt) →
      deliveries [e] = [] → RoundInv rx c m ls s' (es ++ [e]) := by
    intro h1 h2 h3 h4
    refine ⟨?_, a, by rw [h2]; exact hh, ?_⟩
    · rcases h1 with h1 | h1
      · rw [h1]; exact h.cfg
      · intro l
        obtain ⟨a1, a2, a3, a4⟩ := h1 l
        obtain ⟨b1, b2, b3, b4⟩ := h.cfg l
        exact ⟨a1.trans b1, a2.trans b2, a3.trans b3, a4.trans b4⟩
    · rw [deliveries_append, h4, List.append_nil]
      rcases hst with ⟨rem, hl, hx⟩ | ⟨l, st, rem, hl, hx⟩
      · left; refine ⟨rem, ?_, hx⟩; rcases h3 with h3 | h3 <;> rw [h3, hl]; rfl
      · right; refine ⟨l, st, rem, ?_, hx⟩; rcases h3 with h3 | h3 <;> rw [h3, hl]; rfl
  have notlt : ∀ p, s.lt = p → (∀ rem, p ≠ .send a rem) → (∀ l st rem, p ≠ .test a l st rem) → RoundInv rx c m ls s' (es ++ [e]) := by
    intro p hp h1 h2
    rcases hst with ⟨rem, hl, -⟩ | ⟨l, st, rem, hl, -⟩
    · exact absurd (hp.symm.trans hl) (h1 rem)
    · exact absurd (hp.symm.trans hl) (h2 l st rem)
  cases hs with
  | callLog | callLogPtr | callStop | addListener | categoryThrow | level
    | startAgain | reject | pass | stopSet | stopNone | stopLock | allocPool => exact other (Or.inl rfl) rfl (Or.inl rfl) rfl
  | detach i l hi =>
    refine other (Or.inr fun k => ?_) rfl (Or.inl rfl) rfl
    show ((setLst s.lst l _) k).enabled = _ ∧ ((setLst s.lst l _) k).level = _ ∧ ((setLst s.lst l _) k).category = _ ∧ ((setLst s.lst l _) k).regex = _
    by_cases e : k = l
    · subst e; rw [setLst_self]; exact ⟨rfl, rfl, rfl, rfl⟩
    · rw [setLst_ne _ _ e]; exact ⟨rfl, rfl, rfl, rfl⟩
  | enable i l b hi => exact absurd (hcfg i _ rfl) (by simp [isConfig])
  | llevel i l n hi => exact absurd (hcfg i _ rfl) (by simp [isConfig])
  | category i l re hi hv => exact absurd (hcfg i _ rfl) (by simp [isConfig])
  | enqueue i m' a' hi => exact other (Or.inl rfl) rfl (Or.inr rfl) rfl
  | stopNotify i hi => exact other (Or.inl rfl) rfl (Or.inr rfl) rfl
  | allocNew i m hi hp =>
    exact other (Or.inl rfl) (setHeap_ne _ _ (by rintro rfl; rw [hm.next_free] at hh; cases hh)) (Or.inl rfl) rfl
  | extNew i m hi =>
    exact other (Or.inl rfl) (setHeap_ne _ _ (by rintro rfl; rw [hm.next_free] at hh; cases hh)) (Or.inl rfl) rfl
  | construct i m' a' hi hh' =>
    exact other (Or.inl rfl) (setHeap_ne _ _ (by
      rintro rfl; rw [(hm.notqueue_of_cl hi (a := a) (by simp [cHolds])).2.1] at hold; cases hold)) (Or.inl rfl) rfl
  | constructFault i m' a' hi hh' =>
    obtain ⟨m1, h1⟩ := (hm.notqueue_of_cl hi (a := a') (by simp [cHolds])).2.2.1
    rw [hh'] at h1; cases h1
  | start i hi hmx hl => exact notlt _ hl (by simp) (by simp)
  | stopJoin i hi hl => exact notlt _ hl (by simp) (by simp)
  | spurious hl => exact notlt _ hl (by simp) (by simp)
  | exit hl ht => rcases hl with hl | hl <;> exact notlt _ hl (by simp) (by simp)
  | sleep hl ht hq => rcases hl with hl | hl <;> exact notlt _ hl (by simp) (by simp)
  | take a' q hl ht hq => rcases hl with hl | hl <;> exact notlt _ hl (by simp) (by simp)
  | gotFault a' hl => exact notlt _ hl (by simp) (by simp)
  | dispatch a' m' hl hh' => exact notlt _ hl (by simp) (by simp)
  | cleanOne a' kept l rest hl => exact notlt _ hl (by simp) (by simp)
  | cleanEnd a' kept hl => exact notlt _ hl (by simp) (by simp)
  | disposePool a' hl => exact notlt _ hl (by simp) (by simp)
  | disposeFault a' hl => exact notlt _ hl (by simp) (by simp)
  | disposeDelete a' hl => exact notlt _ hl (by simp) (by simp)
  | done a' m' => exact absurd rfl (hnd m')
  | doneFault a' hl hh' =>
    rcases hst with ⟨rem', hl', hx⟩ | ⟨l, st, rem', hl', hx⟩
    · rw [hl] at hl'; cases hl'; rw [hh'] at hh; cases hh
    · rw [hl] at hl'; cases hl'
  | testFault a' l st rem hl hh' =>
    rcases hst with ⟨rem', hl', hx⟩ | ⟨l, st, rem', hl', hx⟩
    · rw [hl] at hl'; cases hl'
    · rw [hl] at hl'; cases hl'; rw [hh'] at hh; cases hh
  | next a' l rem hl =>
    rcases hst with ⟨rem', hl', hx⟩ | ⟨l', st, rem', hl', hx⟩
    · rw [hl] at hl'; cases hl'
      refine ⟨h.cfg, a, hh, Or.inr ⟨l, .enabled, rem, rfl, ?_, by simp, by simp, by simp⟩⟩
      rw [deliveries_append]; simpa [deliveries] using hx
    · rw [hl] at hl'; cases hl'
  | testEnabled a' l rem m' hl hh' =>
    rcases hst with ⟨rem', hl', hx⟩ | ⟨l', st, rem', hl', hx, hx1, hx2, hx3⟩
    · rw [hl] at hl'; cases hl'
    · rw [hl] at hl'; cases hl'
      rw [hh] at hh'; cases hh'
      have hc : (s.lst l).enabled = (c l).enabled := (h.cfg l).1
      refine ⟨h.cfg, a, hh, ?_⟩
      rw [deliveries_append, show deliveries [Ev.tested l m .enabled (s.lst l).enabled] = [] from rfl, List.append_nil]
      cases he : (s.lst l).enabled with
      | true => right; exact ⟨l, .level, rem, rfl, hx, fun _ => by rw [← hc, he], by simp, by simp⟩
      | false =>
        left; refine ⟨rem, rfl, ?_⟩
        rw [todo_cons_neg (by simp [Wants, ← hc, he])] at hx; exact hx
  | testLevel a' l rem m' hl hh' =>
    rcases hst with ⟨rem', hl', hx⟩ | ⟨l', st, rem', hl', hx, hx1, hx2, hx3⟩
    · rw [hl] at hl'; cases hl'
    · rw [hl] at hl'; cases hl'
      rw [hh] at hh'; cases hh'
      have hc : (s.lst l).level = (c l).level := (h.cfg l).2.1
      refine ⟨h.cfg, a, hh, ?_⟩
      rw [deliveries_append, show deliveries [Ev.tested l m .level (decide ((s.lst l).level ≥ m.level))] = [] from rfl, List.append_nil]
      by_cases he : (s.lst l).level ≥ m.level
      · right; exact ⟨l, .category, rem, by simp [he], hx, by simp, fun _ => ⟨hx1 rfl, by rw [← hc]; exact he⟩, by simp⟩
      · left; refine ⟨rem, by simp [he], ?_⟩
        rw [todo_cons_neg (by intro hw; rw [hc] at he; exact he hw.2.1)] at hx; exact hx
  | testCategory a' l rem m' hl hh' =>
    rcases hst with ⟨rem', hl', hx⟩ | ⟨l', st, rem', hl', hx, hx1, hx2, hx3⟩
    · rw [hl] at hl'; cases hl'
    · rw [hl] at hl'; cases hl'
      rw [hh] at hh'; cases hh'
      have hcc : checkCategory rx (s.lst l) m.cat = checkCategory rx (c l) m.cat := by
        unfold checkCategory; rw [(h.cfg l).2.2.1, (h.cfg l).2.2.2]
      have hiff := checkCategory_iff (rx := rx) (cat := m.cat) (hcat l)
      refine ⟨h.cfg, a, hh, ?_⟩
      rw [deliveries_append, show deliveries [Ev.tested l m .category (checkCategory rx (s.lst l) m.cat)] = [] from rfl, List.append_nil]
      cases he : checkCategory rx (s.lst l) m.cat with
      | true =>
        right; exact ⟨l, .call, rem, rfl, hx, by simp, by simp, fun _ => ⟨(hx2 rfl).1, (hx2 rfl).2, hiff.1 (by rw [← hcc, he])⟩⟩
      | false =>
        left; refine ⟨rem, rfl, ?_⟩
        rw [todo_cons_neg (by
          intro hw
          have := hiff.2 hw.2.2
          rw [← hcc, he] at this; cases this)] at hx
        exact hx
  | deliver a' l rem m' hl hh' =>
    rcases hst with ⟨rem', hl', hx⟩ | ⟨l', st, rem', hl', hx, hx1, hx2, hx3⟩
    · rw [hl] at hl'; cases hl'
    · rw [hl] at hl'; cases hl'
      rw [hh] at hh'; cases hh'
      refine ⟨h.cfg, a, hh, Or.inl ⟨rem, rfl, ?_⟩⟩
      rw [todo_cons_pos (hx3 rfl)] at hx
      rw [deliveries_append]
      simpa [deliveries] using hx

theorem round_run {rx : Rx} {c : LId → Lst} {m : Msg} {ls : List LId} {s1 s2 : St} {es0 es : List Ev}
    (hcat : ∀ l, (c l).category = [] ∨ (c l).regex = some (c l).category)
    (hm : Mem s1 es0) (h1 : RoundInv rx c m ls s1 []) (h : Exec rx s1 s2 es)
    (hcfg : ∀ i op, .did i op ∈ es → isConfig op = false) (hnd : ∀ m', .done m' ∉ es) : RoundInv rx c m ls s2 es := by
  have : Mem s2 (es0 ++ es) ∧ RoundInv rx c m ls s2 es := by
    induction h with
    | nil => exact ⟨by simpa using hm, h1⟩
    | snoc he hst ih =>
      rename_i s s' es a e
      obtain ⟨i1, i2⟩ := ih (fun i op hi => hcfg i op (by simp [hi])) (fun m' hm' => hnd m' (by simp [hm']))
      have hs := step_rel hst
      refine ⟨by rw [← List.append_assoc]; exact i1.step hs, ?_⟩
      exact i2.step i1 hcat hs (fun i op e' => hcfg i op (by simp [e'])) (fun m' e' => hnd m' (by simp [e']))
  exact this.2

end Falcon.Log
