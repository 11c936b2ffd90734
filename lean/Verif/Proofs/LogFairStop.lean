import Verif.Proofs.LogFair
/-
stop() in endless executions.
-/
namespace Falcon.Log

variable {rx : Rx} {f : Nat → Act} {n : Nat} {t b : Bool}

theorem starts_append (es es' : List Ev) : starts (es ++ es') = starts es + starts es' := by
  simp [starts, List.filter_append]

theorem other_pc {s s' : St} {a : Act} {e : Ev} {j : Nat} {pc : CPc} (h : step rx s a = some (s', e)) (ha : a ≠ .cli j)
    (hj : s.cl[j]? = some pc) (hp : pc ≠ .idle) : s'.cl[j]? = some pc := by
  have hs := step_rel h
  cases a with
  | log =>
    have : s'.cl = s.cl := by
      simp only [step] at h
      have hd : ∀ s, (head s).1.cl = s.cl := by intro s; unfold head; split <;> rfl
      have he : ∀ s a, (dispose s a).1.cl = s.cl := by intro s a; unfold dispose; split <;> (try split) <;> rfl
      cases hl : s.lt <;> simp only [logStep, hl] at h
      · cases h
      · have := congrArg Prod.fst (some_inj h); simp only at this; rw [← this]; exact hd s
      · rename_i w; cases w
        · simp at h
        · have := congrArg Prod.fst (some_inj h); simp only at this; rw [← this]; exact hd s
      · split at h <;> (cases h; rfl)
      · rename_i rem; cases rem
        · simp only at h; split at h <;> (cases h; rfl)
        · cases h; rfl
      · split at h
        · cases h; rfl
        · split at h <;> (cases h; rfl)
      · rename_i rest; cases rest <;> (cases h; rfl)
      · have := congrArg Prod.fst (some_inj h); simp only at this; rw [← this]; exact he s _
      · cases h
    rw [this]; exact hj
  | spurious =>
    simp only [step] at h
    split at h <;> cases h
    exact hj
  | call i op =>
    simp only [step] at h
    split at h
    · rename_i hi
      have hij : i ≠ j := by rintro rfl; rw [hi] at hj; exact hp (some_inj hj).symm
      cases op with
      | start =>
        simp only [beginCall] at h
        split at h
        · cases h
        · split at h <;> (cases h; exact hj)
      | category l re => simp only [beginCall] at h; split at h <;> (cases h; exact hj)
      | log m => cases h; exact set_other? hij hj
      | logPtr m => cases h; exact set_other? hij hj
      | stop => cases h; exact set_other? hij hj
      | _ => cases h; exact hj
    · cases h
  | cli i =>
    have hij : i ≠ j := by rintro rfl; exact ha rfl
    simp only [step] at h
    split at h
    · rename_i pc' hi
      cases pc' with
      | idle => cases h
      | check m => simp only [resume] at h; split at h <;> (cases h; exact set_other? hij hj)
      | alloc m =>
        simp only [resume, allocate] at h
        split at h <;> (cases h; exact set_other? hij hj)
      | construct m a =>
        simp only [resume] at h
        split at h
        · cases h; exact hj
        · cases h; exact set_other? hij hj
      | extNew m => cases h; exact set_other? hij hj
      | enqueue m a => simp only [resume] at h; cases h; exact set_other? hij hj
      | stopSet => cases h; exact set_other? hij hj
      | stopNotify => cases h; exact set_other? hij hj
      | stopLock =>
        simp only [resume] at h
        split at h
        · cases h
        · split at h <;> (cases h; exact set_other? hij hj)
      | stopJoin =>
        simp only [resume] at h
        split at h
        · cases h; exact set_other? hij hj
        · cases h
    · cases h

theorem step_length {s s' : St} {e : Ev} (h : Step rx s e s') : s'.cl.length = s.cl.length := by
  cases h <;> first | rfl | exact List.length_set

theorem exec_length {s : St} {es : List Ev} (h : Exec rx (init n t b) s es) : s.cl.length = n :=
  exec_inv (fun s _ => s.cl.length = n) (by simp [init]) (fun _ _ _ _ h hs => (step_length hs).trans h) h

theorem step_term {s s' : St} {e : Ev} (h : Step rx s e s') (ht : s.terminated = true) : s'.terminated = true := by
  cases h <;> first | exact ht | rfl

/-- The logging thread has ended, or there is none. -/
def Ended (s : St) : Prop := s.lt = .exited ∨ s.lt = .none

theorem Ended.step {s s' : St} {e : Ev} (h : Ended s) (hs : Step rx s e s') (he : ∀ i, e ≠ .did i .start) : Ended s' := by
  have no : ∀ {p : LPc}, s.lt = p → (p ≠ .exited ∧ p ≠ .none) → False := by
    intro p h1 h2; rcases h with h | h <;> rw [h1] at h
    · exact h2.1 h
    · exact h2.2 h
  have nt : notify s.lt = s.lt := by rcases h with h | h <;> rw [h] <;> rfl
  cases hs with
  | start i => exact absurd rfl (he i)
  | enqueue i m a hi => exact (show Ended _ from by simpa [Ended, nt] using h)
  | stopNotify i hi => exact (show Ended _ from by simpa [Ended, nt] using h)
  | stopJoin i hi hl => exact Or.inr rfl
  | spurious hl => exact absurd (no hl (by simp)) id
  | exit hl ht => exact Or.inl rfl
  | sleep hl ht hq => rcases hl with hl | hl <;> exact absurd (no hl (by simp)) id
  | take a q hl ht hq => rcases hl with hl | hl <;> exact absurd (no hl (by simp)) id
  | dispatch a m hl => exact absurd (no hl (by simp)) id
  | next a l rem hl => exact absurd (no hl (by simp)) id
  | done a m hl => exact absurd (no hl (by simp)) id
  | testEnabled a l rem m hl => exact absurd (no hl (by simp)) id
  | testLevel a l rem m hl => exact absurd (no hl (by simp)) id
  | testCategory a l rem m hl => exact absurd (no hl (by simp)) id
  | deliver a l rem m hl => exact absurd (no hl (by simp)) id
  | cleanOne a kept l rest hl => exact absurd (no hl (by simp)) id
  | cleanEnd a kept hl => exact absurd (no hl (by simp)) id
  | disposePool a hl => exact absurd (no hl (by simp)) id
  | disposeFault a hl => exact absurd (no hl (by simp)) id
  | disposeDelete a hl => exact absurd (no hl (by simp)) id
  | _ => exact h

section
variable (rx f n t b)
/-- State and events at time `k`. -/
abbrev stAt (k : Nat) : St := (forever rx (init n t b) f k).1
abbrev evAt (k : Nat) : List Ev := (forever rx (init n t b) f k).2
end

theorem atExec (k : Nat) : Exec rx (init n t b) (stAt rx f n t b k) (evAt rx f n t b k) := forever_exec k

theorem now (k : Nat) :
    (step rx (stAt rx f n t b k) (f k) = none ∧ stAt rx f n t b (k + 1) = stAt rx f n t b k) ∨
    ∃ e, step rx (stAt rx f n t b k) (f k) = some (stAt rx f n t b (k + 1), e) ∧ evAt rx f n t b (k + 1) = evAt rx f n t b k ++ [e] := by
  rcases forever_succ (rx := rx) (s0 := init n t b) (f := f) k with ⟨h1, h2⟩ | ⟨s', e, h1, h2⟩
  · exact Or.inl ⟨h1, congrArg Prod.fst h2⟩
  · refine Or.inr ⟨e, ?_, congrArg Prod.snd h2⟩
    show _ = some ((forever rx (init n t b) f (k + 1)).1, e)
    rw [h2]; exact h1

/-- What thread `j` is about to do stays so until it moves. -/
theorem at_pc {k j : Nat} {pc : CPc} (hj : (stAt rx f n t b k).cl[j]? = some pc) (hp : pc ≠ .idle) (hk : f k ≠ .cli j) :
    (stAt rx f n t b (k + 1)).cl[j]? = some pc := by
  rcases now (rx := rx) (f := f) (n := n) (t := t) (b := b) k with ⟨-, h⟩ | ⟨e, h, -⟩
  · rw [h]; exact hj
  · exact other_pc h hk hj hp

/-- Thread `j` moves. -/
theorem at_cli {k j : Nat} {s' : St} {e : Ev} (hk : f k = .cli j) (h : step rx (stAt rx f n t b k) (.cli j) = some (s', e)) :
    stAt rx f n t b (k + 1) = s' ∧ evAt rx f n t b (k + 1) = evAt rx f n t b k ++ [e] := by
  rcases now (rx := rx) (f := f) (n := n) (t := t) (b := b) k with ⟨h1, -⟩ | ⟨e', h1, h2⟩
  · rw [hk, h] at h1; cases h1
  · rw [hk, h] at h1; have := some_inj h1
    obtain ⟨h3, h4⟩ := Prod.mk.inj this
    exact ⟨h3.symm, by rw [h2, h4]⟩

theorem at_log {k : Nat} {s' : St} {e : Ev} (hk : f k = .log) (h : step rx (stAt rx f n t b k) .log = some (s', e)) :
    stAt rx f n t b (k + 1) = s' := by
  rcases now (rx := rx) (f := f) (n := n) (t := t) (b := b) k with ⟨h1, -⟩ | ⟨e', h1, h2⟩
  · rw [hk, h] at h1; cases h1
  · rw [hk, h] at h1; exact (Prod.mk.inj (some_inj h1)).1.symm

theorem at_term {k : Nat} (h : (stAt rx f n t b k).terminated = true) : (stAt rx f n t b (k + 1)).terminated = true := by
  rcases now (rx := rx) (f := f) (n := n) (t := t) (b := b) k with ⟨-, h1⟩ | ⟨e', h1, -⟩
  · rw [h1]; exact h
  · exact step_term (step_rel h1) h

/-- From time `K` on nobody calls start(). -/
def NoStarts (rx : Rx) (f : Nat → Act) (n : Nat) (t b : Bool) (K : Nat) : Prop :=
  ∀ k, K ≤ k → starts (evAt rx f n t b k) = starts (evAt rx f n t b K)

theorem no_start {K k : Nat} (hK : NoStarts rx f n t b K) (hk : K ≤ k) {e : Ev}
    (h2 : evAt rx f n t b (k + 1) = evAt rx f n t b k ++ [e]) (i : Nat) : e ≠ .did i .start := by
  intro e1
  have a := hK k hk
  have c := hK (k + 1) (by omega)
  rw [h2, starts_append, e1] at c
  simp only [starts, List.filter_cons, List.filter_nil, if_true, List.length_cons, List.length_nil] at a c
  omega

theorem at_ended {K k : Nat} (hK : NoStarts rx f n t b K) (hk : K ≤ k) (h : Ended (stAt rx f n t b k)) :
    Ended (stAt rx f n t b (k + 1)) := by
  rcases now (rx := rx) (f := f) (n := n) (t := t) (b := b) k with ⟨-, h1⟩ | ⟨e, h1, h2⟩
  · rw [h1]; exact h
  · exact h.step (step_rel h1) (no_start hK hk h2)

theorem ended_later {K k k' : Nat} (hK : NoStarts rx f n t b K) (hk : K ≤ k) (hkk : k ≤ k') (h : Ended (stAt rx f n t b k)) :
    Ended (stAt rx f n t b k') := by
  induction hkk with
  | refl => exact h
  | step h1 ih => exact at_ended hK (Nat.le_trans hk h1) ih

/-- Once stop() has set the flag, the logging thread ends. -/
theorem ends {k : Nat} (hf : Often f .log) (hc : ∀ i, i < n → Often f (.cli i)) (ht : (stAt rx f n t b k).terminated = true) :
    ∃ k', k ≤ k' ∧ Ended (stAt rx f n t b k') := by
  -- awake and not about to dispatch
  have run : ∀ k, (stAt rx f n t b k).terminated = true →
      (busy (stAt rx f n t b k).lt = true ∨ (stAt rx f n t b k).lt = .top ∨ (stAt rx f n t b k).lt = .wait true) →
      ∃ k', k < k' ∧ Ended (stAt rx f n t b k') := by
    intro k ht hl
    have move : ∀ k, ((stAt rx f n t b k).terminated = true ∧
        (busy (stAt rx f n t b k).lt = true ∨ (stAt rx f n t b k).lt = .top ∨ (stAt rx f n t b k).lt = .wait true)) → f k = .log →
        Ended (stAt rx f n t b (k + 1)) ∨ (((stAt rx f n t b (k + 1)).terminated = true ∧
        (busy (stAt rx f n t b (k + 1)).lt = true ∨ (stAt rx f n t b (k + 1)).lt = .top ∨ (stAt rx f n t b (k + 1)).lt = .wait true)) ∧
          rank (stAt rx f n t b (k + 1)) < rank (stAt rx f n t b k)) := by
      intro k ⟨ht, hl⟩ hk
      rcases hl with hl | hl
      · obtain ⟨s', e, h1, h2, h3, h4, h5, h6, h7, -⟩ := busy_step (rx := rx) (exec_mem (atExec k)) hl
        right
        rw [at_log hk h1]
        exact ⟨⟨by rw [h4]; exact ht, h7.imp id Or.inl⟩, h2⟩
      · left
        have h1 : step rx (stAt rx f n t b k) .log = some ({ stAt rx f n t b k with lt := .exited }, .exit) := by
          have hd : head (stAt rx f n t b k) = ({ stAt rx f n t b k with lt := .exited }, .exit) := by
            unfold head; split <;> simp_all
          rcases hl with hl | hl <;> simp only [step, logStep, hl, hd]
        rw [at_log hk h1]
        exact Or.inl rfl
    refine leads hf (fun k => (stAt rx f n t b k).terminated = true ∧
        (busy (stAt rx f n t b k).lt = true ∨ (stAt rx f n t b k).lt = .top ∨ (stAt rx f n t b k).lt = .wait true))
        (fun k => Ended (stAt rx f n t b k)) (fun k => rank (stAt rx f n t b k)) ?_ move k ⟨ht, hl⟩
    intro k ⟨ht, hl⟩
    by_cases hk : f k = .log
    · exact (move k ⟨ht, hl⟩ hk).imp id (fun h => ⟨h.1, Nat.le_of_lt h.2⟩)
    · right
      refine ⟨⟨at_term ht, ?_⟩, ?_⟩ <;> rcases now (rx := rx) (f := f) (n := n) (t := t) (b := b) k with ⟨-, h1⟩ | ⟨e, h1, -⟩
      · rw [h1]; exact hl
      · obtain ⟨-, h2⟩ := rank_aside (client_aside hk h1) (by intro e; rw [e] at hl; simp [busy] at hl) (by intro e; rw [e] at hl; simp [busy] at hl)
        rcases h2 with h2 | h2
        · rw [h2]; exact hl
        · rw [h2, busy_notify]
          rcases hl with h | h | h
          · exact Or.inl h
          · rw [h]; exact Or.inr (Or.inl rfl)
          · rw [h]; exact Or.inr (Or.inr rfl)
      · rw [h1]; exact Nat.le_refl _
      · exact Nat.le_of_eq (rank_aside (client_aside hk h1) (by intro e; rw [e] at hl; simp [busy] at hl) (by intro e; rw [e] at hl; simp [busy] at hl)).1
  cases hl : (stAt rx f n t b k).lt with
  | none => exact ⟨k, Nat.le_refl _, Or.inr hl⟩
  | exited => exact ⟨k, Nat.le_refl _, Or.inl hl⟩
  | top => obtain ⟨k', h1, h2⟩ := run k ht (Or.inr (Or.inl hl)); exact ⟨k', by omega, h2⟩
  | send a rem => obtain ⟨k', h1, h2⟩ := run k ht (Or.inl (by rw [hl]; rfl)); exact ⟨k', by omega, h2⟩
  | test a l st rem => obtain ⟨k', h1, h2⟩ := run k ht (Or.inl (by rw [hl]; rfl)); exact ⟨k', by omega, h2⟩
  | clean a l rem => obtain ⟨k', h1, h2⟩ := run k ht (Or.inl (by rw [hl]; rfl)); exact ⟨k', by omega, h2⟩
  | dispose a => obtain ⟨k', h1, h2⟩ := run k ht (Or.inl (by rw [hl]; rfl)); exact ⟨k', by omega, h2⟩
  | got a =>
    -- the dispatch
    have : ∃ k1, k < k1 ∧ (stAt rx f n t b k1).terminated = true ∧ busy (stAt rx f n t b k1).lt = true := by
      have move : ∀ k, ((stAt rx f n t b k).terminated = true ∧ (stAt rx f n t b k).lt = .got a) → f k = .log →
          (stAt rx f n t b (k + 1)).terminated = true ∧ busy (stAt rx f n t b (k + 1)).lt = true := by
        intro k ⟨ht, hl⟩ hk
        refine ⟨at_term ht, ?_⟩
        obtain ⟨m, hh⟩ := (exec_mem (atExec k)).lt_alive (a := a) (by rw [hl]; simp [lHolds])
        have h1 : ∃ s' e, step rx (stAt rx f n t b k) .log = some (s', e) ∧ busy s'.lt = true := by
          simp only [step, logStep, hl, hh]
          exact ⟨_, _, rfl, rfl⟩
        obtain ⟨s', e, h1, h2⟩ := h1
        rw [at_log hk h1]; exact h2
      refine leads hf (fun k => (stAt rx f n t b k).terminated = true ∧ (stAt rx f n t b k).lt = .got a)
        (fun k => (stAt rx f n t b k).terminated = true ∧ busy (stAt rx f n t b k).lt = true) (fun _ => 0) ?_ ?_ k ⟨ht, hl⟩
      · intro k ⟨ht, hl⟩
        by_cases hk : f k = .log
        · exact Or.inl (move k ⟨ht, hl⟩ hk)
        · right
          refine ⟨⟨at_term ht, ?_⟩, Nat.le_refl _⟩
          rcases now (rx := rx) (f := f) (n := n) (t := t) (b := b) k with ⟨-, h1⟩ | ⟨e, h1, -⟩
          · rw [h1]; exact hl
          · obtain ⟨-, h2⟩ := rank_aside (client_aside hk h1) (by rw [hl]; simp) (by rw [hl]; simp)
            rw [hl] at h2; exact h2.elim id id
      · exact fun k h hk => Or.inl (move k h hk)
    obtain ⟨k1, h1, h2, h3⟩ := this
    obtain ⟨k', h4, h5⟩ := run k1 h2 (Or.inl h3)
    exact ⟨k', by omega, h5⟩
  | wait w =>
    cases w with
    | true => obtain ⟨k', h1, h2⟩ := run k ht (Or.inr (Or.inr hl)); exact ⟨k', by omega, h2⟩
    | false =>
      obtain ⟨j, hj⟩ := (exec_wake (atExec k)).term hl ht
      have hjn : j < n := by
        rw [← exec_length (atExec (rx := rx) (f := f) (n := n) (t := t) (b := b) k)]
        exact (List.getElem?_eq_some_iff.1 hj).1
      have : ∃ k1, k < k1 ∧ (stAt rx f n t b k1).terminated = true ∧ (stAt rx f n t b k1).lt = .wait true := by
        have move : ∀ k, ((stAt rx f n t b k).terminated = true ∧ (stAt rx f n t b k).lt = .wait false ∧
            (stAt rx f n t b k).cl[j]? = some .stopNotify) → f k = .cli j →
            (stAt rx f n t b (k + 1)).terminated = true ∧ (stAt rx f n t b (k + 1)).lt = .wait true := by
          intro k ⟨ht, hl, hj⟩ hk
          refine ⟨at_term ht, ?_⟩
          have h1 : ∃ s' e, step rx (stAt rx f n t b k) (.cli j) = some (s', e) ∧ s'.lt = .wait true := by
            simp only [step, hj, resume, hl]
            exact ⟨_, _, rfl, rfl⟩
          obtain ⟨s', e, h1, h2⟩ := h1
          rw [(at_cli hk h1).1]; exact h2
        refine leads (hc j hjn) (fun k => (stAt rx f n t b k).terminated = true ∧ (stAt rx f n t b k).lt = .wait false ∧
            (stAt rx f n t b k).cl[j]? = some .stopNotify)
          (fun k => (stAt rx f n t b k).terminated = true ∧ (stAt rx f n t b k).lt = .wait true) (fun _ => 0) ?_ ?_ k ⟨ht, hl, hj⟩
        · intro k ⟨ht, hl, hj⟩
          by_cases hk : f k = .cli j
          · exact Or.inl (move k ⟨ht, hl, hj⟩ hk)
          · have hp := at_pc hj (by simp) hk
            by_cases hk' : f k = .log
            · right
              refine ⟨⟨at_term ht, ?_, hp⟩, Nat.le_refl _⟩
              rcases now (rx := rx) (f := f) (n := n) (t := t) (b := b) k with ⟨-, h1⟩ | ⟨e, h1, -⟩
              · rw [h1]; exact hl
              · rw [hk'] at h1; simp only [step, logStep, hl] at h1; cases h1
            · rcases now (rx := rx) (f := f) (n := n) (t := t) (b := b) k with ⟨-, h1⟩ | ⟨e, h1, -⟩
              · right; exact ⟨⟨at_term ht, by rw [h1]; exact hl, hp⟩, Nat.le_refl _⟩
              · obtain ⟨-, h2⟩ := rank_aside (client_aside hk' h1) (by rw [hl]; simp) (by rw [hl]; simp)
                rw [hl] at h2
                rcases h2 with h2 | h2
                · right; exact ⟨⟨at_term ht, h2, hp⟩, Nat.le_refl _⟩
                · left; exact ⟨at_term ht, h2⟩
        · exact fun k h hk => Or.inl (move k h hk)
      obtain ⟨k1, h1, h2, h3⟩ := this
      obtain ⟨k', h4, h5⟩ := run k1 h2 (Or.inr (Or.inr h3))
      exact ⟨k', by omega, h5⟩

/-- stop() of thread `i` returns, at time `k`. -/
def Ret (rx : Rx) (f : Nat → Act) (n : Nat) (t b : Bool) (i k : Nat) : Prop :=
  evAt rx f n t b (k + 1) = evAt rx f n t b k ++ [.stopped i]

/-- A thread inside stop() stays there until stop() returns. -/
theorem inStop_next {k i : Nat} (h : InStop (stAt rx f n t b k) i) :
    InStop (stAt rx f n t b (k + 1)) i ∨ Ret rx f n t b i k := by
  by_cases hk : f k = .cli i
  · rcases now (rx := rx) (f := f) (n := n) (t := t) (b := b) k with ⟨-, h1⟩ | ⟨e, h1, h2⟩
    · left; rw [h1]; exact h
    · rw [hk] at h1
      generalize hs : stAt rx f n t b k = s at h h1
      generalize hs' : stAt rx f n t b (k + 1) = s' at h1
      have self : ∀ {pc pc'}, s.cl[i]? = some pc → (s.cl.set i pc')[i]? = some pc' := fun h => set_self? h
      rcases h with h | h | h | h
      · simp only [step, h, resume] at h1; cases h1; exact Or.inl (Or.inr (Or.inl (self h)))
      · simp only [step, h, resume] at h1; cases h1; exact Or.inl (Or.inr (Or.inr (Or.inl (self h))))
      · simp only [step, h, resume] at h1
        split at h1
        · cases h1
        · split at h1
          · cases h1; exact Or.inr h2
          · cases h1; exact Or.inl (Or.inr (Or.inr (Or.inr (self h))))
      · simp only [step, h, resume] at h1
        split at h1
        · cases h1; exact Or.inr h2
        · cases h1
  · left
    rcases h with h | h | h | h
    · exact Or.inl (at_pc h (by simp) hk)
    · exact Or.inr (Or.inl (at_pc h (by simp) hk))
    · exact Or.inr (Or.inr (Or.inl (at_pc h (by simp) hk)))
    · exact Or.inr (Or.inr (Or.inr (at_pc h (by simp) hk)))

theorem inStop_later {k k' i : Nat} (hkk : k ≤ k') (h : InStop (stAt rx f n t b k) i) :
    InStop (stAt rx f n t b k') i ∨ ∃ k1, k ≤ k1 ∧ Ret rx f n t b i k1 := by
  induction hkk with
  | refl => exact Or.inl h
  | step h1 ih =>
    rcases ih with ih | ih
    · rcases inStop_next ih with h2 | h2
      · exact Or.inl h2
      · exact Or.inr ⟨_, h1, h2⟩
    · exact Or.inr ih

/-- One move of thread `i`, which nobody can prevent or spoil. -/
theorem advance {i : Nat} {pc : CPc} {Q : Nat → Prop} (hc : Often f (.cli i)) (hp : pc ≠ .idle)
    (hm : ∀ k, (stAt rx f n t b k).cl[i]? = some pc → f k = .cli i → Q (k + 1)) (k : Nat)
    (h : (stAt rx f n t b k).cl[i]? = some pc) : ∃ k', k < k' ∧ Q k' := by
  refine leads hc (fun k => (stAt rx f n t b k).cl[i]? = some pc) Q (fun _ => 0) ?_ (fun k h hk => Or.inl (hm k h hk)) k h
  intro k h
  by_cases hk : f k = .cli i
  · exact Or.inl (hm k h hk)
  · exact Or.inr ⟨at_pc h hp hk, Nat.le_refl _⟩

theorem to_lock {k i : Nat} (hc : Often f (.cli i)) (h : InStop (stAt rx f n t b k) i) :
    ∃ k', k ≤ k' ∧ ((stAt rx f n t b k').cl[i]? = some CPc.stopLock ∨ (stAt rx f n t b k').cl[i]? = some CPc.stopJoin) := by
  have notif : ∀ k, (stAt rx f n t b k).cl[i]? = some .stopNotify →
      ∃ k', k < k' ∧ (stAt rx f n t b k').cl[i]? = some CPc.stopLock := by
    refine advance (Q := fun k => (stAt rx f n t b k).cl[i]? = some CPc.stopLock) hc (by simp) ?_
    intro k h hk
    have h1 : ∃ s' e, step rx (stAt rx f n t b k) (.cli i) = some (s', e) ∧ s'.cl[i]? = some CPc.stopLock := by
      simp only [step, h, resume]; exact ⟨_, _, rfl, set_self? h⟩
    obtain ⟨s', e, h1, h2⟩ := h1
    rw [(at_cli hk h1).1]; exact h2
  have set : ∀ k, (stAt rx f n t b k).cl[i]? = some .stopSet →
      ∃ k', k < k' ∧ (stAt rx f n t b k').cl[i]? = some .stopNotify := by
    refine advance (Q := fun k => (stAt rx f n t b k).cl[i]? = some .stopNotify) hc (by simp) ?_
    intro k h hk
    have h1 : ∃ s' e, step rx (stAt rx f n t b k) (.cli i) = some (s', e) ∧ s'.cl[i]? = some .stopNotify := by
      simp only [step, h, resume]; exact ⟨_, _, rfl, set_self? h⟩
    obtain ⟨s', e, h1, h2⟩ := h1
    rw [(at_cli hk h1).1]; exact h2
  rcases h with h | h | h | h
  · obtain ⟨k1, h1, h2⟩ := set k h
    obtain ⟨k2, h3, h4⟩ := notif k1 h2
    exact ⟨k2, by omega, Or.inl h4⟩
  · obtain ⟨k2, h3, h4⟩ := notif k h
    exact ⟨k2, by omega, Or.inl h4⟩
  · exact ⟨k, Nat.le_refl _, Or.inl h⟩
  · exact ⟨k, Nat.le_refl _, Or.inr h⟩

/-- stop() returns if, from some time on, nobody calls start(). -/
theorem stops {K k i : Nat} (hf : Often f .log) (hc : ∀ i, i < n → Often f (.cli i)) (hK : NoStarts rx f n t b K)
    (h : InStop (stAt rx f n t b k) i) : ∃ k', k ≤ k' ∧ Ret rx f n t b i k' := by
  have hin : i < n := by
    rw [← exec_length (atExec (rx := rx) (f := f) (n := n) (t := t) (b := b) k)]
    rcases h with h | h | h | h <;> exact (List.getElem?_eq_some_iff.1 h).1
  have hi := hc i hin
  -- in join(), the thread has ended
  have join : ∀ k, K ≤ k → Ended (stAt rx f n t b k) → (stAt rx f n t b k).cl[i]? = some CPc.stopJoin → ∃ k', k ≤ k' ∧ Ret rx f n t b i k' := by
    intro k hk he h
    obtain ⟨k', h1, k1, h2, h3⟩ := leads hi (fun k => K ≤ k ∧ Ended (stAt rx f n t b k) ∧ (stAt rx f n t b k).cl[i]? = some CPc.stopJoin)
      (fun k => ∃ k1, k = k1 + 1 ∧ Ret rx f n t b i k1) (fun _ => 0)
      (fun k ⟨hk, he, h⟩ => by
        rcases inStop_next (Or.inr (Or.inr (Or.inr h))) with h1 | h1
        · by_cases hki : f k = .cli i
          · left
            refine ⟨k, rfl, ?_⟩
            have hw := exec_wake (atExec (rx := rx) (f := f) (n := n) (t := t) (b := b) k)
            have hl := he.resolve_right (hw.joinable (by rw [(hw.holder i).1 h]; simp))
            have h1 : ∃ s', step rx (stAt rx f n t b k) (.cli i) = some (s', .stopped i) := by
              simp only [step, h, resume, hl]; exact ⟨_, rfl⟩
            obtain ⟨s', h1⟩ := h1
            exact (at_cli hki h1).2
          · exact Or.inr ⟨⟨by omega, at_ended hK hk he, at_pc h (by simp) hki⟩, Nat.le_refl _⟩
        · exact Or.inl ⟨k, rfl, h1⟩)
      (fun k ⟨hk, he, h⟩ hki => by
        left
        refine ⟨k, rfl, ?_⟩
        have hw := exec_wake (atExec (rx := rx) (f := f) (n := n) (t := t) (b := b) k)
        have hl := he.resolve_right (hw.joinable (by rw [(hw.holder i).1 h]; simp))
        have h1 : ∃ s', step rx (stAt rx f n t b k) (.cli i) = some (s', .stopped i) := by
          simp only [step, h, resume, hl]; exact ⟨_, rfl⟩
        obtain ⟨s', h1⟩ := h1
        exact (at_cli hki h1).2) k ⟨hk, he, h⟩
    exact ⟨k1, by omega, h3⟩
  -- no thread any more
  have gone : ∀ k, K ≤ k → (stAt rx f n t b k).lt = .none → (stAt rx f n t b k).cl[i]? = some CPc.stopLock → ∃ k', k ≤ k' ∧ Ret rx f n t b i k' := by
    intro k hk he h
    have stay : ∀ k, K ≤ k → (stAt rx f n t b k).lt = .none → (stAt rx f n t b (k + 1)).lt = .none := by
      intro k hk hl
      rcases now (rx := rx) (f := f) (n := n) (t := t) (b := b) k with ⟨-, h1⟩ | ⟨e, h1, h2⟩
      · rw [h1]; exact hl
      · by_cases hkl : f k = .log
        · rw [hkl] at h1; simp only [step, logStep, hl] at h1; cases h1
        · rcases (client_aside hkl h1).lt with h3 | h3 | ⟨-, i, h3⟩ | ⟨h3, -⟩
          · rw [h3]; exact hl
          · rw [h3, hl]; rfl
          · exact absurd h3 (no_start hK hk h2 i)
          · rw [hl] at h3; cases h3
    have move : ∀ k, (K ≤ k ∧ (stAt rx f n t b k).lt = .none ∧ (stAt rx f n t b k).cl[i]? = some CPc.stopLock) → f k = .cli i →
        Ret rx f n t b i k := by
      intro k ⟨hk, hl, h⟩ hki
      have hw := exec_wake (atExec (rx := rx) (f := f) (n := n) (t := t) (b := b) k)
      have hm : (stAt rx f n t b k).mtxThread = none := by
        cases hm : (stAt rx f n t b k).mtxThread with
        | none => rfl
        | some j => exact absurd hl (hw.joinable (by rw [hm]; simp))
      have h1 : ∃ s', step rx (stAt rx f n t b k) (.cli i) = some (s', .stopped i) := by
        simp only [step, h, resume, hl, hm]; exact ⟨_, rfl⟩
      obtain ⟨s', h1⟩ := h1
      exact (at_cli hki h1).2
    obtain ⟨k', h1, k1, h2, h3⟩ := leads hi (fun k => K ≤ k ∧ (stAt rx f n t b k).lt = .none ∧ (stAt rx f n t b k).cl[i]? = some CPc.stopLock)
      (fun k => ∃ k1, k = k1 + 1 ∧ Ret rx f n t b i k1) (fun _ => 0)
      (fun k h => by
        by_cases hki : f k = .cli i
        · exact Or.inl ⟨k, rfl, move k h hki⟩
        · exact Or.inr ⟨⟨by omega, stay k h.1 h.2.1, at_pc h.2.2 (by simp) hki⟩, Nat.le_refl _⟩)
      (fun k h hki => Or.inl ⟨k, rfl, move k h hki⟩) k ⟨hk, he, h⟩
    exact ⟨k1, by omega, h3⟩
  -- waiting for another thread's join()
  have held : ∀ (k j : Nat), K ≤ k → Ended (stAt rx f n t b k) → (stAt rx f n t b k).cl[j]? = some CPc.stopJoin →
      (stAt rx f n t b k).cl[i]? = some CPc.stopLock → ∃ k', k ≤ k' ∧ Ret rx f n t b i k' := by
    intro k j hk he hj h
    have hij : i ≠ j := by rintro rfl; rw [h] at hj; cases hj
    have hjn : j < n := by
      rw [← exec_length (atExec (rx := rx) (f := f) (n := n) (t := t) (b := b) k)]
      exact (List.getElem?_eq_some_iff.1 hj).1
    have move : ∀ k, (K ≤ k ∧ Ended (stAt rx f n t b k) ∧ (stAt rx f n t b k).cl[j]? = some CPc.stopJoin ∧
        (stAt rx f n t b k).cl[i]? = some CPc.stopLock) → f k = .cli j →
        (stAt rx f n t b (k + 1)).lt = .none ∧ (stAt rx f n t b (k + 1)).cl[i]? = some CPc.stopLock := by
      intro k ⟨hk, he, hj, h⟩ hkj
      have hw := exec_wake (atExec (rx := rx) (f := f) (n := n) (t := t) (b := b) k)
      have hl := he.resolve_right (hw.joinable (by rw [(hw.holder j).1 hj]; simp))
      have h1 : ∃ s' e, step rx (stAt rx f n t b k) (.cli j) = some (s', e) ∧ s'.lt = .none := by
        simp only [step, hj, resume, hl]; exact ⟨_, _, rfl, rfl⟩
      obtain ⟨s', e, h1, h2⟩ := h1
      refine ⟨by rw [(at_cli hkj h1).1]; exact h2, at_pc h (by simp) ?_⟩
      rw [hkj]; intro e; cases e; exact hij rfl
    have : ∃ k', k < k' ∧ (K ≤ k' ∧ ((∃ k1, k ≤ k1 ∧ Ret rx f n t b i k1) ∨
        (stAt rx f n t b k').lt = .none ∧ (stAt rx f n t b k').cl[i]? = some CPc.stopLock)) := by
      have := leads (hc j hjn) (fun k' => k ≤ k' ∧ K ≤ k' ∧ Ended (stAt rx f n t b k') ∧ (stAt rx f n t b k').cl[j]? = some CPc.stopJoin ∧
          (stAt rx f n t b k').cl[i]? = some CPc.stopLock)
        (fun k' => (K ≤ k' ∧ ((∃ k1, k ≤ k1 ∧ Ret rx f n t b i k1) ∨
        (stAt rx f n t b k').lt = .none ∧ (stAt rx f n t b k').cl[i]? = some CPc.stopLock))) (fun _ => 0) ?_ ?_ k ⟨Nat.le_refl _, hk, he, hj, h⟩
      · exact this
      · intro k1 ⟨hkk, h⟩
        by_cases hkj : f k1 = .cli j
        · exact Or.inl ⟨by omega, Or.inr (move k1 h hkj)⟩
        · rcases inStop_next (Or.inr (Or.inr (Or.inl h.2.2.2))) with h2 | h2
          · by_cases hki : f k1 = .cli i
            · right
              refine ⟨⟨by omega, by omega, at_ended hK h.1 h.2.1, at_pc h.2.2.1 (by simp) hkj, ?_⟩, Nat.le_refl _⟩
              rcases now (rx := rx) (f := f) (n := n) (t := t) (b := b) k1 with ⟨-, h3⟩ | ⟨e, h3, -⟩
              · rw [h3]; exact h.2.2.2
              · have hw := exec_wake (atExec (rx := rx) (f := f) (n := n) (t := t) (b := b) k1)
                rw [hki] at h3
                simp only [step, h.2.2.2, resume, (hw.holder j).1 h.2.2.1] at h3
                cases h3
            · exact Or.inr ⟨⟨by omega, by omega, at_ended hK h.1 h.2.1, at_pc h.2.2.1 (by simp) hkj, at_pc h.2.2.2 (by simp) hki⟩, Nat.le_refl _⟩
          · exact Or.inl ⟨by omega, Or.inl ⟨k1, hkk, h2⟩⟩
      · intro k1 ⟨hkk, h⟩ hkj
        exact Or.inl ⟨by omega, Or.inr (move k1 h hkj)⟩
    obtain ⟨k', h1, h2, h3 | ⟨h3, h4⟩⟩ := this
    · exact h3
    · obtain ⟨k2, h5, h6⟩ := gone k' h2 h3 h4
      exact ⟨k2, by omega, h6⟩
  -- waiting for the mutex
  have lock : ∀ k, K ≤ k → Ended (stAt rx f n t b k) → (stAt rx f n t b k).cl[i]? = some CPc.stopLock → ∃ k', k ≤ k' ∧ Ret rx f n t b i k' := by
    intro k hk he h
    have at' : ∀ k, K ≤ k → Ended (stAt rx f n t b k) → (stAt rx f n t b k).cl[i]? = some CPc.stopLock →
        (stAt rx f n t b k).mtxThread ≠ none → ∃ k', k ≤ k' ∧ Ret rx f n t b i k' := by
      intro k hk he h hm
      obtain ⟨j, hj⟩ := Option.ne_none_iff_exists'.1 hm
      exact held k j hk he (((exec_wake (atExec k)).holder j).2 hj) h
    have move : ∀ k, (K ≤ k ∧ Ended (stAt rx f n t b k) ∧ (stAt rx f n t b k).cl[i]? = some CPc.stopLock ∧ (stAt rx f n t b k).mtxThread = none) →
        f k = .cli i → ∃ k1, k ≤ k1 ∧ Ret rx f n t b i k1 := by
      intro k ⟨hk, he, h, hm⟩ hki
      rcases he with hl | hl
      · have h1 : ∃ s' e, step rx (stAt rx f n t b k) (.cli i) = some (s', e) ∧ s'.cl[i]? = some CPc.stopJoin := by
          simp only [step, h, resume, hm, hl]; exact ⟨_, _, rfl, set_self? h⟩
        obtain ⟨s', e, h1, h2⟩ := h1
        obtain ⟨k', h3, h4⟩ := join (k + 1) (by omega) (at_ended hK hk (Or.inl hl)) (by rw [(at_cli hki h1).1]; exact h2)
        exact ⟨k', by omega, h4⟩
      · exact gone k hk hl h
    by_cases hm : (stAt rx f n t b k).mtxThread = none
    · have := leads hi (fun k' => k ≤ k' ∧ K ≤ k' ∧ Ended (stAt rx f n t b k') ∧ (stAt rx f n t b k').cl[i]? = some CPc.stopLock ∧
          (stAt rx f n t b k').mtxThread = none)
        (fun _ => ∃ k1, k ≤ k1 ∧ Ret rx f n t b i k1) (fun _ => 0) ?_ ?_ k ⟨Nat.le_refl _, hk, he, h, hm⟩
      · obtain ⟨-, -, h⟩ := this; exact h
      · intro k' ⟨h1, h2⟩
        by_cases hki : f k' = .cli i
        · obtain ⟨k1, h3, h4⟩ := move k' h2 hki
          exact Or.inl ⟨k1, by omega, h4⟩
        · have hp := at_pc h2.2.2.1 (by simp) hki
          have he' := at_ended hK h2.1 h2.2.1
          by_cases hm' : (stAt rx f n t b (k' + 1)).mtxThread = none
          · exact Or.inr ⟨⟨by omega, by omega, he', hp, hm'⟩, Nat.le_refl _⟩
          · obtain ⟨k1, h3, h4⟩ := at' (k' + 1) (by omega) he' hp hm'
            exact Or.inl ⟨k1, by omega, h4⟩
      · intro k' ⟨h1, h2⟩ hki
        obtain ⟨k1, h3, h4⟩ := move k' h2 hki
        exact Or.inl ⟨k1, by omega, h4⟩
    · exact at' k hk he h hm
  -- all together
  rcases inStop_later (Nat.le_max_left k K) h with h1 | h1
  · obtain ⟨k1, h2, h3⟩ := to_lock hi h1
    have hs : InStop (stAt rx f n t b k1) i := Or.inr (Or.inr h3)
    have ht : (stAt rx f n t b k1).terminated = true := by
      rcases h3 with h | h
      · exact (exec_wake (atExec k1)).stopping i _ h (Or.inr (Or.inl rfl))
      · exact (exec_wake (atExec k1)).stopping i _ h (Or.inr (Or.inr rfl))
    obtain ⟨k2, h4, h5⟩ := ends hf hc ht
    rcases inStop_later h4 hs with h6 | ⟨k3, h6, h7⟩
    · obtain ⟨k3, h7, h8⟩ := to_lock hi h6
      have hk3 : K ≤ k3 := by omega
      have he := ended_later hK (by omega) h7 h5
      rcases h8 with h8 | h8
      · obtain ⟨k4, h9, h10⟩ := lock k3 hk3 he h8
        exact ⟨k4, by omega, h10⟩
      · obtain ⟨k4, h9, h10⟩ := join k3 hk3 he h8
        exact ⟨k4, by omega, h10⟩
    · exact ⟨k3, by omega, h7⟩
  · exact h1

end Falcon.Log
