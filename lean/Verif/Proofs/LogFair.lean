import Verif.Proofs.LogStop
import Verif.Spec.LogFair
/-
Endless executions of the log system: what happens in the end under a fair scheduler.
-/
namespace Falcon.Log

variable {rx : Rx} {s0 : St} {f : Nat → Act}

/-- One moment of an endless execution. -/
theorem forever_succ (k : Nat) :
    (step rx (forever rx s0 f k).1 (f k) = none ∧ forever rx s0 f (k + 1) = forever rx s0 f k) ∨
    ∃ s' e, step rx (forever rx s0 f k).1 (f k) = some (s', e) ∧ forever rx s0 f (k + 1) = (s', (forever rx s0 f k).2 ++ [e]) := by
  simp only [forever]
  cases h : step rx (forever rx s0 f k).1 (f k) with
  | none => exact Or.inl ⟨rfl, rfl⟩
  | some p => exact Or.inr ⟨p.1, p.2, rfl, rfl⟩

theorem forever_exec (k : Nat) : Exec rx s0 (forever rx s0 f k).1 (forever rx s0 f k).2 := by
  induction k with
  | zero => exact .nil
  | succ k ih =>
    rcases forever_succ (rx := rx) (s0 := s0) (f := f) k with ⟨-, h⟩ | ⟨s', e, h1, h2⟩
    · rw [h]; exact ih
    · rw [h2]; exact .snoc ih h1

theorem forever_prefix {k k' : Nat} (h : k ≤ k') : (forever rx s0 f k).2 <+: (forever rx s0 f k').2 := by
  induction k' with
  | zero => have : k = 0 := by omega
            subst this; exact List.prefix_refl _
  | succ k' ih =>
    by_cases hk : k = k' + 1
    · subst hk; exact List.prefix_refl _
    · refine (ih (by omega)).trans ?_
      rcases forever_succ (rx := rx) (s0 := s0) (f := f) k' with ⟨-, h⟩ | ⟨s', e, h1, h2⟩
      · rw [h]; exact List.prefix_refl _
      · rw [h2]; exact List.prefix_append _ _

/-- Progress by a measure: as long as `P` holds the measure never grows, and it shrinks whenever `a` is chosen. -/
theorem leads {a : Act} (fair : Often f a) (P Q : Nat → Prop) (m : Nat → Nat)
    (keep : ∀ k, P k → Q (k + 1) ∨ (P (k + 1) ∧ m (k + 1) ≤ m k))
    (move : ∀ k, P k → f k = a → Q (k + 1) ∨ (P (k + 1) ∧ m (k + 1) < m k)) :
    ∀ k, P k → ∃ k', k < k' ∧ Q k' := by
  have main : ∀ c d k, P k → m k ≤ c → f (k + d) = a → ∃ k', k < k' ∧ Q k' := by
    intro c
    induction c with
    | zero =>
      intro d
      induction d with
      | zero =>
        intro k hp hm hf
        rcases move k hp hf with h | ⟨h, hm'⟩
        · exact ⟨k + 1, by omega, h⟩
        · omega
      | succ d ih =>
        intro k hp hm hf
        rcases keep k hp with h | ⟨h, hm'⟩
        · exact ⟨k + 1, by omega, h⟩
        · obtain ⟨k', h1, h2⟩ := ih (k + 1) h (by omega) (by rw [← hf]; congr 1; omega)
          exact ⟨k', by omega, h2⟩
    | succ c ihc =>
      intro d
      induction d with
      | zero =>
        intro k hp hm hf
        rcases move k hp hf with h | ⟨h, hm'⟩
        · exact ⟨k + 1, by omega, h⟩
        · obtain ⟨k1, h3, h4⟩ := fair (k + 1)
          obtain ⟨k', h1, h2⟩ := ihc (k1 - (k + 1)) (k + 1) h (by omega) (by rw [← h4]; congr 1; omega)
          exact ⟨k', by omega, h2⟩
      | succ d ih =>
        intro k hp hm hf
        rcases keep k hp with h | ⟨h, hm'⟩
        · exact ⟨k + 1, by omega, h⟩
        · obtain ⟨k', h1, h2⟩ := ih (k + 1) h (by omega) (by rw [← hf]; congr 1; omega)
          exact ⟨k', by omega, h2⟩
  intro k hp
  obtain ⟨k1, h1, h2⟩ := fair k
  exact main (m k) (k1 - k) k hp (Nat.le_refl _) (by rw [← h2]; congr 1; omega)

theorem finished_append (es es' : List Ev) : finished (es ++ es') = finished es ++ finished es' := by
  simp [finished, List.filterMap_append]

/-! ### steps of the clients -/

/-- What a step that is not one of the logging thread does to what the logging thread works on. -/
structure Aside (s s' : St) (e : Ev) : Prop where
  active : s'.active = s.active
  queue  : ∃ q, s'.queue = s.queue ++ q
  quiet  : dispatched [e] = [] ∧ finished [e] = []
  lt     : s'.lt = s.lt ∨ s'.lt = notify s.lt ∨ (s.lt = .none ∧ ∃ i, e = .did i .start) ∨
             (s.lt = .exited ∧ s'.lt = .none ∧ ∃ i, e = .stopped i)

theorem client_aside {s s' : St} {a : Act} {e : Ev} (ha : a ≠ .log) (h : step rx s a = some (s', e)) : Aside s s' e := by
  have plain : s'.active = s.active → s'.queue = s.queue → dispatched [e] = [] ∧ finished [e] = [] → s'.lt = s.lt → Aside s s' e :=
    fun h1 h2 h3 h4 => ⟨h1, ⟨[], by simp [h2]⟩, h3, Or.inl h4⟩
  cases a with
  | log => exact absurd rfl ha
  | spurious =>
    simp only [step] at h
    split at h
    · rename_i hl; cases h
      exact ⟨rfl, ⟨[], by simp⟩, ⟨rfl, rfl⟩, Or.inr (Or.inl (by simp [hl, notify]))⟩
    · cases h
  | call i op =>
    simp only [step] at h
    split at h
    · cases op with
      | start =>
        simp only [beginCall] at h
        split at h
        · cases h
        · split at h
          · rename_i hl; cases h
            exact ⟨rfl, ⟨[], by simp⟩, ⟨rfl, rfl⟩, Or.inr (Or.inr (Or.inl ⟨hl, i, rfl⟩))⟩
          · cases h; exact plain rfl rfl ⟨rfl, rfl⟩ rfl
      | category l re =>
        simp only [beginCall] at h
        split at h
        · cases h; exact plain rfl rfl ⟨rfl, rfl⟩ rfl
        · cases h; exact plain rfl rfl ⟨rfl, rfl⟩ rfl
      | _ => cases h; exact plain rfl rfl ⟨rfl, rfl⟩ rfl
    · cases h
  | cli i =>
    simp only [step] at h
    split at h
    · rename_i pc hi
      cases pc with
      | idle => cases h
      | check m =>
        simp only [resume] at h
        split at h <;> (cases h; exact plain rfl rfl ⟨rfl, rfl⟩ rfl)
      | alloc m =>
        simp only [resume, allocate] at h
        split at h <;> (cases h; exact plain rfl rfl ⟨rfl, rfl⟩ rfl)
      | construct m a =>
        simp only [resume] at h
        split at h <;> (cases h; exact plain rfl rfl ⟨rfl, rfl⟩ rfl)
      | extNew m => cases h; exact plain rfl rfl ⟨rfl, rfl⟩ rfl
      | enqueue m a =>
        simp only [resume] at h; cases h
        exact ⟨rfl, ⟨[a], rfl⟩, ⟨rfl, rfl⟩, Or.inr (Or.inl rfl)⟩
      | stopSet => cases h; exact plain rfl rfl ⟨rfl, rfl⟩ rfl
      | stopNotify => cases h; exact ⟨rfl, ⟨[], by simp⟩, ⟨rfl, rfl⟩, Or.inr (Or.inl rfl)⟩
      | stopLock =>
        simp only [resume] at h
        split at h
        · cases h
        · split at h <;> (cases h; exact plain rfl rfl ⟨rfl, rfl⟩ rfl)
      | stopJoin =>
        simp only [resume] at h
        split at h
        · rename_i hl; cases h
          exact ⟨rfl, ⟨[], by simp⟩, ⟨rfl, rfl⟩, Or.inr (Or.inr (Or.inr ⟨hl, rfl, i, rfl⟩))⟩
        · cases h
    · cases h

/-! ### steps of the logging thread -/

/-- Steps of the logging thread until it looks at the queue again. -/
def rank (s : St) : Nat :=
  match s.lt with
  | .none | .exited | .got _ => 0
  | .top | .wait _ => 1
  | .send _ rem => 5 * rem.length + s.active.length + 4
  | .test _ _ .enabled rem => 5 * rem.length + s.active.length + 8
  | .test _ _ .level rem => 5 * rem.length + s.active.length + 7
  | .test _ _ .category rem => 5 * rem.length + s.active.length + 6
  | .test _ _ .call rem => 5 * rem.length + s.active.length + 5
  | .clean _ _ rest => rest.length + 3
  | .dispose _ => 2

/-- The logging thread is going through the listeners. -/
def serving : LPc → Bool
  | .send _ _ | .test _ _ _ _ => true
  | _ => false

/-- The logging thread is busy with a message it has dispatched. -/
def busy : LPc → Bool
  | .send _ _ | .test _ _ _ _ | .clean _ _ _ | .dispose _ => true
  | _ => false

theorem busy_step {s : St} {es : List Ev} (hm : Mem s es) (hb : busy s.lt = true) :
    ∃ s' e, step rx s .log = some (s', e) ∧ rank s' < rank s ∧ s'.queue = s.queue ∧ s'.terminated = s.terminated ∧
      s'.cl = s.cl ∧ s'.mtxThread = s.mtxThread ∧ (busy s'.lt = true ∨ s'.lt = .top) ∧ dispatched [e] = [] ∧
      (serving s.lt = true → serving s'.lt = true ∧ finished [e] = [] ∨ (finished [e]).length = 1) := by
  simp only [step]
  cases hl : s.lt with
  | none | exited | top | wait | got => simp [hl, busy] at hb
  | send a rem =>
    cases rem with
    | nil =>
      obtain ⟨m, hh⟩ := hm.lt_alive (a := a) (by simp [hl, lHolds])
      simp only [logStep, hl, hh]
      refine ⟨_, _, rfl, ?_, rfl, rfl, rfl, rfl, Or.inl rfl, rfl, fun _ => Or.inr rfl⟩
      simp only [rank, hl, List.length_nil]; omega
    | cons l rem =>
      simp only [logStep, hl]
      refine ⟨_, _, rfl, ?_, rfl, rfl, rfl, rfl, Or.inl rfl, rfl, fun _ => Or.inl ⟨rfl, rfl⟩⟩
      simp only [rank, hl, List.length_cons]; omega
  | test a l st rem =>
    obtain ⟨m, hh⟩ := hm.lt_alive (a := a) (by simp [hl, lHolds])
    cases st with
    | enabled =>
      simp only [logStep, hl, hh]
      refine ⟨_, _, rfl, ?_, rfl, rfl, rfl, rfl, Or.inl ?_, rfl, fun _ => Or.inl ⟨?_, rfl⟩⟩ <;>
        cases (s.lst l).enabled <;> simp [rank, hl, busy, serving] <;> omega
    | level =>
      simp only [logStep, hl, hh]
      refine ⟨_, _, rfl, ?_, rfl, rfl, rfl, rfl, Or.inl ?_, rfl, fun _ => Or.inl ⟨?_, rfl⟩⟩ <;>
        by_cases h : (s.lst l).level ≥ m.level <;> simp [rank, hl, busy, serving, h] <;> omega
    | category =>
      simp only [logStep, hl, hh]
      refine ⟨_, _, rfl, ?_, rfl, rfl, rfl, rfl, Or.inl ?_, rfl, fun _ => Or.inl ⟨?_, rfl⟩⟩ <;>
        cases checkCategory rx (s.lst l) m.cat <;> simp [rank, hl, busy, serving] <;> omega
    | call =>
      simp only [logStep, hl, hh]
      refine ⟨_, _, rfl, ?_, rfl, rfl, rfl, rfl, Or.inl rfl, rfl, fun _ => Or.inl ⟨rfl, rfl⟩⟩
      simp only [rank, hl]; omega
  | clean a kept rest =>
    cases rest with
    | cons l rest =>
      simp only [logStep, hl]
      refine ⟨_, _, rfl, ?_, rfl, rfl, rfl, rfl, Or.inl rfl, rfl, fun h => by simp [serving] at h⟩
      simp only [rank, hl, List.length_cons]; omega
    | nil =>
      simp only [logStep, hl]
      refine ⟨_, _, rfl, ?_, rfl, rfl, rfl, rfl, Or.inl rfl, rfl, fun h => by simp [serving] at h⟩
      simp only [rank, hl, List.length_nil]; omega
  | dispose a =>
    obtain ⟨m, hh⟩ := hm.lt_alive (a := a) (by simp [hl, lHolds])
    simp only [logStep, hl]
    refine ⟨_, _, rfl, ?_, ?_, ?_, ?_, ?_, Or.inr ?_, ?_, fun h => by simp [serving] at h⟩ <;>
      (simp only [dispose, hh]; try (split <;> simp [rank, hl, dispatched]))

theorem rank_aside {s s' : St} {e : Ev} (h : Aside s s' e) (h1 : s.lt ≠ .none) (h2 : s.lt ≠ .exited) :
    rank s' = rank s ∧ (s'.lt = s.lt ∨ s'.lt = notify s.lt) := by
  have hl : s'.lt = s.lt ∨ s'.lt = notify s.lt := by
    rcases h.lt with h | h | ⟨h, -⟩ | ⟨h, -⟩
    · exact Or.inl h
    · exact Or.inr h
    · exact absurd h h1
    · exact absurd h h2
  refine ⟨?_, hl⟩
  unfold rank
  rw [h.active]
  rcases hl with hl | hl
  · rw [hl]
  · rw [hl]; cases s.lt <;> rfl

theorem busy_notify (p : LPc) : busy (notify p) = busy p := by cases p <;> rfl
theorem serving_notify (p : LPc) : serving (notify p) = serving p := by cases p <;> rfl
theorem serving_busy {p : LPc} (h : serving p = true) : busy p = true := by cases p <;> simp_all [busy, serving]
theorem notify_busy {p : LPc} (h : busy p = true) : notify p = p := by cases p <;> simp_all [busy, notify]

/-! ### stop() is never called -/

def stopPc : CPc → Bool
  | .stopSet | .stopNotify | .stopLock | .stopJoin => true
  | _ => false

/-- Nobody has ever called stop(). -/
structure Calm (s : St) : Prop where
  term : s.terminated = false
  live : s.lt ≠ .exited
  cl   : ∀ (i : Nat) (pc : CPc), s.cl[i]? = some pc → stopPc pc = false

theorem Calm.set {s : St} (h : Calm s) {i : Nat} {pc : CPc} (hp : stopPc pc = false) :
    ∀ (j : Nat) (pc' : CPc), (s.cl.set i pc)[j]? = some pc' → stopPc pc' = false := by
  intro j pc' hj
  rcases set_get? hj with ⟨-, rfl⟩ | ⟨-, hj'⟩
  · exact hp
  · exact h.cl j pc' hj'

theorem Calm.step {s s' : St} {e : Ev} (h : Calm s) (hs : Step rx s e s') (he : ∀ i, e ≠ .call i .stop) :
    Calm s' ∧ (s.lt ≠ .none → s'.lt ≠ .none) := by
  have bad : ∀ {i : Nat} {pc : CPc}, s.cl[i]? = some pc → stopPc pc = true → False := by
    intro i pc hi hp
    rw [h.cl i pc hi] at hp; cases hp
  cases hs with
  | callStop i hi => exact absurd rfl (he i)
  | stopSet i hi | stopNotify i hi | stopNone i hi | stopLock i hi | stopJoin i hi => exact absurd (bad hi rfl) id
  | exit hl ht => rw [h.term] at ht; cases ht
  | callLog i m hi => exact ⟨⟨h.term, h.live, h.set rfl⟩, id⟩
  | callLogPtr i m hi => exact ⟨⟨h.term, h.live, h.set rfl⟩, id⟩
  | reject i m hi => exact ⟨⟨h.term, h.live, h.set rfl⟩, id⟩
  | pass i m hi => exact ⟨⟨h.term, h.live, h.set rfl⟩, id⟩
  | allocPool i m p a hi => exact ⟨⟨h.term, h.live, h.set rfl⟩, id⟩
  | allocNew i m hi => exact ⟨⟨h.term, h.live, h.set rfl⟩, id⟩
  | construct i m a hi => exact ⟨⟨h.term, h.live, h.set rfl⟩, id⟩
  | extNew i m hi => exact ⟨⟨h.term, h.live, h.set rfl⟩, id⟩
  | enqueue i m a hi =>
    exact ⟨⟨h.term, fun e => h.live (notify_eq_exited e), h.set rfl⟩, fun h e => h (notify_eq_none e)⟩
  | addListener | level | enable | llevel | category | categoryThrow | startAgain | constructFault | gotFault
    | doneFault | testFault | detach => exact ⟨⟨h.term, h.live, h.cl⟩, id⟩
  | testEnabled => exact ⟨⟨h.term, by simp only; split <;> simp, h.cl⟩, fun _ => by simp only; split <;> simp⟩
  | testLevel => exact ⟨⟨h.term, by simp only; split <;> simp, h.cl⟩, fun _ => by simp only; split <;> simp⟩
  | testCategory => exact ⟨⟨h.term, by simp only; split <;> simp, h.cl⟩, fun _ => by simp only; split <;> simp⟩
  | _ => exact ⟨⟨h.term, by simp, h.cl⟩, fun _ => by simp⟩

theorem exec_calm {n : Nat} {b : Bool} {s : St} {es : List Ev} (h : Exec rx (init n false b) s es) (hs : ¬ StopCalled es) :
    Calm s ∧ (b = true ∨ StartCalled es → s.lt ≠ .none) := by
  revert hs
  refine exec_inv (fun s es => ¬ StopCalled es → Calm s ∧ (b = true ∨ StartCalled es → s.lt ≠ .none)) ?_ ?_ h
  · intro _
    refine ⟨⟨rfl, by cases b <;> simp [init], ?_⟩, ?_⟩
    · intro i pc hi
      simp only [init, List.getElem?_replicate] at hi
      split at hi <;> cases hi
      rfl
    · rintro (rfl | ⟨i, hi⟩)
      · simp [init]
      · cases hi
  · intro s es e s' ih hs hn
    have hn' : ¬ StopCalled es := fun ⟨i, hi⟩ => hn ⟨i, List.mem_append_left _ hi⟩
    obtain ⟨h1, h2⟩ := ih hn'
    obtain ⟨h3, h4⟩ := h1.step hs (fun i e1 => hn ⟨i, by simp [e1]⟩)
    refine ⟨h3, fun h5 => ?_⟩
    by_cases h6 : b = true ∨ StartCalled es
    · exact h4 (h2 h6)
    · rcases h5 with h5 | ⟨i, hi⟩
      · exact absurd (Or.inl h5) h6
      · rcases List.mem_append.1 hi with hi | hi
        · exact absurd (Or.inr ⟨i, hi⟩) h6
        · simp at hi; subst hi
          cases hs with
          | start => simp
          | startAgain i hi hm hl => exact hl

/-! ### every message is dispatched, and every round ends -/

theorem forever_step_log {k : Nat} (hf : f k = .log) {s' : St} {e : Ev}
    (h : step rx (forever rx s0 f k).1 .log = some (s', e)) :
    forever rx s0 f (k + 1) = (s', (forever rx s0 f k).2 ++ [e]) := by
  simp only [forever, hf, h]

theorem head_take {s : St} {a : Addr} {q : List Addr} (ht : s.terminated = false) (hq : s.queue = a :: q) :
    head s = ({ s with queue := q, lt := .got a }, .take) := by
  unfold head; split <;> simp_all

/-- The logging thread has something to dispatch. -/
def Pending (s : St) : Prop := s.queue ≠ [] ∨ ∃ a, s.lt = .got a

theorem next_dispatch {n : Nat} {b : Bool} (hf : Often f .log)
    (hs : ∀ k, ¬ StopCalled (forever rx (init n false b) f k).2) (k : Nat)
    (hl : (forever rx (init n false b) f k).1.lt ≠ .none) (hp : Pending (forever rx (init n false b) f k).1) :
    ∃ k', k ≤ k' ∧ (dispatched (forever rx (init n false b) f k).2).length < (dispatched (forever rx (init n false b) f k').2).length := by
  generalize hd : (dispatched (forever rx (init n false b) f k).2).length = d
  let st := fun k => (forever rx (init n false b) f k).1
  let ev := fun k => (forever rx (init n false b) f k).2
  have move : ∀ k, ((st k).lt ≠ .none ∧ Pending (st k) ∧ (dispatched (ev k)).length = d) → f k = .log →
      d < (dispatched (ev (k + 1))).length ∨
        (((st (k + 1)).lt ≠ .none ∧ Pending (st (k + 1)) ∧ (dispatched (ev (k + 1))).length = d) ∧ rank (st (k + 1)) < rank (st k)) := by
    intro k ⟨hl, hp, hd⟩ hk
    have he := forever_exec (rx := rx) (s0 := init n false b) (f := f) k
    obtain ⟨hc, -⟩ := exec_calm he (hs k)
    have hm := exec_mem he
    have top : (st k).lt = .top ∨ (st k).lt = .wait true → step rx (st k) .log = some (head (st k)) → rank (st k) = 1 →
        (((st (k + 1)).lt ≠ .none ∧ Pending (st (k + 1)) ∧ (dispatched (ev (k + 1))).length = d) ∧ rank (st (k + 1)) < rank (st k)) := by
      intro ht h1 h2
      have hq : (st k).queue ≠ [] := by
        rcases hp with h | ⟨a, h⟩
        · exact h
        · rw [h] at ht; simp at ht
      obtain ⟨a, q, hq⟩ := List.exists_cons_of_ne_nil hq
      rw [head_take hc.term hq] at h1
      have e := forever_step_log hk h1
      have e1 : st (k + 1) = { st k with queue := q, lt := .got a } := congrArg Prod.fst e
      have e2 : ev (k + 1) = ev k ++ [.take] := congrArg Prod.snd e
      rw [e1, e2]
      refine ⟨⟨by simp, Or.inr ⟨a, rfl⟩, ?_⟩, ?_⟩
      · rw [dispatched_append]; simpa [dispatched] using hd
      · rw [h2]; simp [rank]
    have work : busy (st k).lt = true → 
        (((st (k + 1)).lt ≠ .none ∧ Pending (st (k + 1)) ∧ (dispatched (ev (k + 1))).length = d) ∧ rank (st (k + 1)) < rank (st k)) := by
      intro hb
      obtain ⟨s', e, h1, h2, h3, h4, h5, h6, h7, h8, -⟩ := busy_step (rx := rx) hm hb
      have e0 := forever_step_log hk h1
      have e1 : st (k + 1) = s' := congrArg Prod.fst e0
      have e2 : ev (k + 1) = ev k ++ [e] := congrArg Prod.snd e0
      rw [e1, e2]
      refine ⟨⟨?_, ?_, ?_⟩, h2⟩
      · rcases h7 with h | h
        · intro e; rw [e] at h; cases h
        · rw [h]; simp
      · rcases hp with h | ⟨a, h⟩
        · left; rw [h3]; exact h
        · rw [h] at hb; cases hb
      · rw [dispatched_append, h8, List.append_nil]; exact hd
    cases hlt : (st k).lt with
    | none => exact absurd hlt hl
    | exited => exact absurd hlt hc.live
    | top => exact Or.inr (top (Or.inl hlt) (by simp [step, logStep, hlt]) (by simp [rank, hlt]))
    | wait w =>
      cases w with
      | true => exact Or.inr (top (Or.inr hlt) (by simp [step, logStep, hlt]) (by simp [rank, hlt]))
      | false =>
        have := (exec_wake he).queue hlt
        rcases hp with h | ⟨a, h⟩
        · exact absurd this h
        · rw [hlt] at h; cases h
    | got a =>
      left
      obtain ⟨m, hh⟩ := hm.lt_alive (a := a) (by show lHolds a (st k).lt = 1; simp [hlt, lHolds])
      have h1 : ∃ s', step rx (st k) .log = some (s', .dispatch m ((st k).active ++ (st k).pending)) := by
        simp only [step, logStep, hlt]
        rw [show (st k).heap a = some m from hh]
        exact ⟨_, rfl⟩
      obtain ⟨s', h1⟩ := h1
      have e2 : ev (k + 1) = ev k ++ [.dispatch m ((st k).active ++ (st k).pending)] := congrArg Prod.snd (forever_step_log hk h1)
      rw [e2, dispatched_append, List.length_append, hd]
      simp [dispatched]
    | _ => exact Or.inr (work (by rw [hlt]; rfl))
  refine (fun ⟨k', h, h'⟩ => ⟨k', Nat.le_of_lt h, h'⟩ : (∃ k', k < k' ∧ d < (dispatched (ev k')).length) → _) ?_
  refine leads hf (fun k => (st k).lt ≠ .none ∧ Pending (st k) ∧ (dispatched (ev k)).length = d)
    (fun k => d < (dispatched (ev k)).length) (fun k => rank (st k)) ?_ ?_ k ⟨hl, hp, hd⟩
  · intro k ⟨hl, hp, hd⟩
    by_cases hk : f k = .log
    · exact (move k ⟨hl, hp, hd⟩ hk).imp id (fun h => ⟨h.1, Nat.le_of_lt h.2⟩)
    · have he := forever_exec (rx := rx) (s0 := init n false b) (f := f) k
      obtain ⟨hc, -⟩ := exec_calm he (hs k)
      right
      rcases forever_succ (rx := rx) (s0 := init n false b) (f := f) k with ⟨-, h⟩ | ⟨s', e, h1, h2⟩
      · simp only [st, ev, h]; exact ⟨⟨hl, hp, hd⟩, Nat.le_refl _⟩
      · have ha := client_aside hk h1
        obtain ⟨hr, hlt⟩ := rank_aside ha hl hc.live
        simp only [st, ev, h2]
        refine ⟨⟨?_, ?_, ?_⟩, Nat.le_of_eq hr⟩
        · rcases hlt with h | h
          · rw [h]; exact hl
          · rw [h]; exact fun e => hl (notify_eq_none e)
        · rcases hp with hp | ⟨a, hp⟩
          · obtain ⟨q, hq⟩ := ha.queue
            left; rw [hq]; intro e
            exact hp (List.append_eq_nil_iff.1 e).1
          · right
            have hp' : (forever rx (init n false b) f k).1.lt = .got a := hp
            rw [hp'] at hlt
            exact ⟨a, hlt.elim id id⟩
        · rw [dispatched_append, ha.quiet.1, List.append_nil]; exact hd
  · exact move

theorem next_done {n : Nat} {t b : Bool} (hf : Often f .log) (k : Nat) (hl : serving (forever rx (init n t b) f k).1.lt = true) :
    ∃ k', k ≤ k' ∧ (finished (forever rx (init n t b) f k).2).length < (finished (forever rx (init n t b) f k').2).length := by
  generalize hd : (finished (forever rx (init n t b) f k).2).length = d
  let st := fun k => (forever rx (init n t b) f k).1
  let ev := fun k => (forever rx (init n t b) f k).2
  have move : ∀ k, (serving (st k).lt = true ∧ (finished (ev k)).length = d) → f k = .log →
      d < (finished (ev (k + 1))).length ∨
        ((serving (st (k + 1)).lt = true ∧ (finished (ev (k + 1))).length = d) ∧ rank (st (k + 1)) < rank (st k)) := by
    intro k ⟨hl, hd⟩ hk
    have he := forever_exec (rx := rx) (s0 := init n t b) (f := f) k
    obtain ⟨s', e, h1, h2, h3, h4, h5, h6, h7, h8, h9⟩ := busy_step (rx := rx) (exec_mem he) (serving_busy hl)
    have e0 := forever_step_log hk h1
    have e1 : st (k + 1) = s' := congrArg Prod.fst e0
    have e2 : ev (k + 1) = ev k ++ [e] := congrArg Prod.snd e0
    rw [e1, e2, finished_append, List.length_append]
    rcases h9 hl with ⟨h, h'⟩ | h
    · right; rw [h']; exact ⟨⟨h, by simpa using hd⟩, h2⟩
    · left; omega
  refine (fun ⟨k', h, h'⟩ => ⟨k', Nat.le_of_lt h, h'⟩ : (∃ k', k < k' ∧ d < (finished (ev k')).length) → _) ?_
  refine leads hf (fun k => serving (st k).lt = true ∧ (finished (ev k)).length = d)
    (fun k => d < (finished (ev k)).length) (fun k => rank (st k)) ?_ move k ⟨hl, hd⟩
  intro k ⟨hl, hd⟩
  by_cases hk : f k = .log
  · exact (move k ⟨hl, hd⟩ hk).imp id (fun h => ⟨h.1, Nat.le_of_lt h.2⟩)
  · right
    rcases forever_succ (rx := rx) (s0 := init n t b) (f := f) k with ⟨-, h⟩ | ⟨s', e, h1, h2⟩
    · simp only [st, ev, h]; exact ⟨⟨hl, hd⟩, Nat.le_refl _⟩
    · have ha := client_aside hk h1
      obtain ⟨hr, hlt⟩ := rank_aside ha (by intro e; simp only [st, e] at hl; cases hl) (by intro e; simp only [st, e] at hl; cases hl)
      simp only [st, ev, h2]
      refine ⟨⟨?_, ?_⟩, Nat.le_of_eq hr⟩
      · rcases hlt with h | h
        · rw [h]; exact hl
        · rw [h, serving_notify]; exact hl
      · rw [finished_append, ha.quiet.2, List.append_nil]; exact hd

/-! ### the messages -/

def Round.current : Round → List Msg
  | .idle => []
  | .serving m _ => [m]
  | .asking m _ _ _ => [m]

theorem Round.next_current {r r' : Round} {e : Ev} (h : r.next e = some r') :
    r.current ++ dispatched [e] = finished [e] ++ r'.current := by
  unfold Round.next at h
  split at h
  · split at h
    · rename_i hr; cases h; subst hr; simp [Round.current, dispatched, finished]
    · cases h
  · split at h
    · split at h
      · rename_i hr; cases h; obtain ⟨rfl, rfl⟩ := hr; split <;> simp [Round.current, dispatched, finished]
      · cases h
    · cases h
  · split at h
    · split at h
      · rename_i hr; cases h; obtain ⟨rfl, rfl⟩ := hr; split <;> simp [Round.current, dispatched, finished]
      · cases h
    · cases h
  · split at h
    · split at h
      · rename_i hr; cases h; obtain ⟨rfl, rfl⟩ := hr; split <;> simp [Round.current, dispatched, finished]
      · cases h
    · cases h
  · cases h
  · split at h
    · split at h
      · rename_i hr; cases h; obtain ⟨rfl, rfl⟩ := hr; simp [Round.current, dispatched, finished]
      · cases h
    · cases h
  · split at h
    · rename_i hr; cases h; subst hr; simp [Round.current, dispatched, finished]
    · cases h
  · cases h
    have h1 : dispatched [e] = [] := by cases e <;> simp_all [dispatched]
    have h2 : finished [e] = [] := by cases e <;> simp_all [finished]
    simp [h1, h2]

theorem Round.run_current {es : List Ev} : ∀ {r r' : Round}, Round.run r es = some r' →
    r.current ++ dispatched es = finished es ++ r'.current := by
  induction es with
  | nil => intro r r' h; cases h; simp [dispatched, finished]
  | cons e es ih =>
    intro r r' h
    simp only [Round.run] at h
    split at h
    · cases h
    · rename_i r1 h1
      have a := next_current h1
      have b := ih h
      have c : dispatched (e :: es) = dispatched [e] ++ dispatched es := dispatched_append [e] es
      have d : finished (e :: es) = finished [e] ++ finished es := finished_append [e] es
      rw [c, d, ← List.append_assoc, a, List.append_assoc, b, List.append_assoc]

/-- Dispatched is what is finished, and the message being served. -/
theorem exec_finished {n : Nat} {t b : Bool} {s : St} {es : List Ev} (h : Exec rx (init n t b) s es) :
    ∃ c, dispatched es = finished es ++ c ∧ c.length ≤ 1 ∧ (c ≠ [] → serving s.lt = true) := by
  obtain ⟨r, h1, h2⟩ := exec_round h
  refine ⟨r.current, by simpa [Round.current] using Round.run_current h1, by cases r <;> simp [Round.current], fun hc => ?_⟩
  unfold roundOf at h2
  split at h2
  · rename_i hl; rw [hl]; rfl
  · rename_i hl; rw [hl]; rfl
  · rename_i hl; rw [hl]; rfl
  · cases h2; exact absurd rfl hc

theorem serves {n : Nat} {b : Bool} (hf : Often f .log) (hs : ∀ k, ¬ StopCalled (forever rx (init n false b) f k).2)
    (k j : Nat) (m : Msg) (hl : (forever rx (init n false b) f k).1.lt ≠ .none)
    (hj : (accepted (forever rx (init n false b) f k).2)[j]? = some m) :
    ∃ k', k ≤ k' ∧ (finished (forever rx (init n false b) f k').2)[j]? = some m := by
  -- dispatched
  have stay : ∀ {k k'}, k ≤ k' → (forever rx (init n false b) f k).1.lt ≠ .none → (forever rx (init n false b) f k').1.lt ≠ .none := by
    intro k k' hk
    induction hk with
    | refl => exact id
    | step hk ih =>
      rename_i k'
      intro h
      have h := ih h
      rcases forever_succ (rx := rx) (s0 := init n false b) (f := f) k' with ⟨-, h'⟩ | ⟨s', e, h1, h2⟩
      · rw [h']; exact h
      · obtain ⟨hc, -⟩ := exec_calm (forever_exec (rx := rx) (s0 := init n false b) (f := f) k') (hs k')
        have h3 := hs (k' + 1)
        rw [h2] at h3 ⊢
        exact (hc.step (step_rel h1) (fun i e1 => h3 ⟨i, by simp [e1]⟩)).2 h
  have acc : ∀ {k k'}, k ≤ k' → accepted (forever rx (init n false b) f k).2 <+: accepted (forever rx (init n false b) f k').2 := by
    intro k k' hk
    obtain ⟨x, hx⟩ := forever_prefix (rx := rx) (s0 := init n false b) (f := f) hk
    rw [← hx, accepted_append]; exact List.prefix_append _ _
  have keepJ : ∀ {k k'}, k ≤ k' → (accepted (forever rx (init n false b) f k).2)[j]? = some m →
      (accepted (forever rx (init n false b) f k').2)[j]? = some m := by
    intro k k' hk h
    obtain ⟨x, hx⟩ := acc hk
    rw [← hx, List.getElem?_append_left (List.getElem?_eq_some_iff.1 h).1]; exact h
  have disp : ∀ c k, (forever rx (init n false b) f k).1.lt ≠ .none → (accepted (forever rx (init n false b) f k).2)[j]? = some m →
      j + 1 ≤ (dispatched (forever rx (init n false b) f k).2).length + c →
      ∃ k', k ≤ k' ∧ j < (dispatched (forever rx (init n false b) f k').2).length := by
    intro c
    induction c with
    | zero => intro k _ _ h; exact ⟨k, Nat.le_refl _, by omega⟩
    | succ c ih =>
      intro k hl hj h
      by_cases hd : j < (dispatched (forever rx (init n false b) f k).2).length
      · exact ⟨k, Nat.le_refl _, hd⟩
      · have hp : Pending (forever rx (init n false b) f k).1 := by
          have hfi := (exec_mem (forever_exec (rx := rx) (s0 := init n false b) (f := f) k)).fifo
          have hlen := congrArg List.length hfi
          simp only [List.length_append, List.length_map] at hlen
          have := (List.getElem?_eq_some_iff.1 hj).1
          by_cases hq : (forever rx (init n false b) f k).1.queue = []
          · right
            rw [hq] at hlen
            unfold inflight at hlen
            split at hlen
            · rename_i a h; exact ⟨a, h⟩
            · simp at hlen; omega
          · exact Or.inl hq
        obtain ⟨k1, h1, h2⟩ := next_dispatch hf hs k hl hp
        obtain ⟨k2, h3, h4⟩ := ih k1 (stay h1 hl) (keepJ h1 hj) (by omega)
        exact ⟨k2, by omega, h4⟩
  obtain ⟨k1, h1, h2⟩ := disp (j + 1) k hl hj (by omega)
  have fin : ∀ k, (accepted (forever rx (init n false b) f k).2)[j]? = some m → j < (finished (forever rx (init n false b) f k).2).length →
      (finished (forever rx (init n false b) f k).2)[j]? = some m := by
    intro k hj hlt
    have he := forever_exec (rx := rx) (s0 := init n false b) (f := f) k
    have hfi := (exec_mem he).fifo
    obtain ⟨c, hc, -⟩ := exec_finished he
    rw [hc] at hfi
    have : ((accepted (forever rx (init n false b) f k).2).map some)[j]? = some (some m) := by simp [hj]
    rw [hfi, List.map_append, List.append_assoc, List.append_assoc, List.getElem?_append_left (by simpa using hlt), List.getElem?_map] at this
    cases hx : (finished (forever rx (init n false b) f k).2)[j]? with
    | none => rw [hx] at this; cases this
    | some y => rw [hx] at this; simp at this; rw [this]
  obtain ⟨c, hc, hc1, hc2⟩ := exec_finished (forever_exec (rx := rx) (s0 := init n false b) (f := f) k1)
  by_cases hfl : j < (finished (forever rx (init n false b) f k1).2).length
  · exact ⟨k1, h1, fin k1 (keepJ h1 hj) hfl⟩
  · rw [hc, List.length_append] at h2
    have hne : c ≠ [] := by rintro rfl; simp at h2; omega
    obtain ⟨k2, h3, h4⟩ := next_done hf k1 (hc2 hne)
    exact ⟨k2, by omega, fin k2 (keepJ (by omega) hj) (by omega)⟩

end Falcon.Log
