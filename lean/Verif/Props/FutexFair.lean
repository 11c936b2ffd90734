import Verif.Proofs.FutexFair
/-
C148: a thread in Futex::lock() gets the lock sooner or later, provided everybody who has it releases it.
-/
namespace Falcon.Futex
variable {σ τ ω : Type} {c : Client σ τ ω} {spin : BitVec 32}

/-! ### Two threads that use the lock for ever -/

/-- Thread 1 calls lock(), then thread 0; from then on thread 1 gets the processor once while thread 0 is inside. -/
def unlucky (k : Nat) : Nat × Bool :=
  if k = 0 then (1, false) else if k = 1 then (0, false) else if (k - 2) % 6 = 1 then (1, false) else (0, false)

/-- Both threads increment the counter, for ever. -/
def bothAgain : Nat → List Unit := fun i => if i < 2 then [()] else []

/-- The execution of the two. -/
def contest (spin : BitVec 32) : Nat → St Nat Nat Unit := endless counter spin bothAgain (initial 0 bothAgain) unlucky

/-- Both in lock(), nobody inside. -/
def BothWait (s : St Nat Nat Unit) : Prop :=
  s.owned = false ∧ Waits s 0 ∧ Waits s 1 ∧ (s.th 0).todo = [()] ∧ (s.th 1).todo = [()]

/-- One turn of `endless`. -/
def turn (spin : BitVec 32) (s : St Nat Nat Unit) (i : Nat) : St Nat Nat Unit :=
  match step counter spin s i false with
  | none => s
  | some s' => refill bothAgain i s'

theorem contest_succ (k : Nat) : contest spin (k + 1) = turn spin (contest spin k) (unlucky k).1 := by
  have : (unlucky k).2 = false := by unfold unlucky; split <;> (try split) <;> (try split) <;> rfl
  show endless _ _ _ _ _ (k + 1) = _
  rw [endless_succ, this]; unfold turn contest
  cases step counter spin (endless counter spin bothAgain (initial 0 bothAgain) unlucky k) (unlucky k).fst false <;> rfl

theorem round {s s1 s2 s3 s4 s5 s6 : St Nat Nat Unit} (h : BothWait s) (h1 : s1 = turn spin s 0) (h2 : s2 = turn spin s1 1)
    (h3 : s3 = turn spin s2 0) (h4 : s4 = turn spin s3 0) (h5 : s5 = turn spin s4 0) (h6 : s6 = turn spin s5 0) :
    BothWait s6 ∧ Holds s1 0 ∧ (Waits s1 1 ∧ Waits s2 1 ∧ Waits s3 1 ∧ Waits s4 1 ∧ Waits s5 1) := by
  obtain ⟨ho, ⟨x, hx⟩, ⟨y, hy⟩, t0, t1⟩ := h
  have e1 : ∃ l, s1.owned = true ∧ (s1.th 0).pc = .inside (counter.micro ()) l ∧
      (s1.th 1).pc = .trying y ∧ (s1.th 0).todo = [()] ∧ (s1.th 1).todo = [()] := by
    refine ⟨0, ?_⟩
    simp [h1, turn, step, hx, t0, casWeak, ho, retry, refill, upd, hy, t1, counter]
  clear h1 ho hx hy t0 t1
  obtain ⟨l, ho1, p0, p1, t0, t1⟩ := e1
  have e2 : ∃ z, s2.owned = true ∧ (s2.th 0).pc = .inside (counter.micro ()) l ∧
      (s2.th 1).pc = .trying z ∧ (s2.th 0).todo = [()] ∧ (s2.th 1).todo = [()] := by
    refine ⟨(failBody spin y).1, ?_⟩
    simp [h2, turn, step, p0, p1, t0, casWeak, ho1, retry, refill, upd, t1]
  clear h2 t0 t1
  obtain ⟨z, ho2, q0, q1, t0, t1⟩ := e2
  have e3 : ∃ m l, s3.owned = true ∧ (s3.th 0).pc = .inside [m] l ∧
      (s3.th 1).pc = .trying z ∧ (s3.th 0).todo = [()] ∧ (s3.th 1).todo = [()] := by
    refine ⟨fun (_, l) => (l + 1, l), s2.shared, ?_⟩
    simp [h3, turn, step, q0, q1, t0, refill, upd, t1, counter, ho2]
  clear h3 t0 t1
  obtain ⟨m, l3, ho3, r0, r1, t0, t1⟩ := e3
  have e4 : ∃ l, s4.owned = true ∧ (s4.th 0).pc = .inside [] l ∧
      (s4.th 1).pc = .trying z ∧ (s4.th 0).todo = [()] ∧ (s4.th 1).todo = [()] := by
    refine ⟨(m (s3.shared, l3)).2, ?_⟩
    simp [h4, turn, step, r0, r1, t0, refill, upd, t1, ho3]
  clear h4 t0 t1
  obtain ⟨l4, ho4, u0, u1, t0, t1⟩ := e4
  have e5 : s5.owned = false ∧ (s5.th 0).pc = .out ∧
      (s5.th 1).pc = .trying z ∧ (s5.th 0).todo = [()] ∧ (s5.th 1).todo = [()] := by
    simp [h5, turn, step, u0, u1, t0, refill, upd, t1, bothAgain]
  clear h5 t0 t1
  obtain ⟨ho5, v0, v1, t0, t1⟩ := e5
  have e6 : s6.owned = false ∧ (s6.th 0).pc = .trying spin ∧
      (s6.th 1).pc = .trying z ∧ (s6.th 0).todo = [()] ∧ (s6.th 1).todo = [()] := by
    simp [h6, turn, step, v0, v1, t0, refill, upd, t1, ho5]
  obtain ⟨ho6, w0, w1, t0, t1⟩ := e6
  exact ⟨⟨ho6, ⟨_, w0⟩, ⟨_, w1⟩, t0, t1⟩, ⟨_, _, p0⟩, ⟨_, p1⟩, ⟨_, q1⟩, ⟨_, r1⟩, ⟨_, u1⟩, ⟨_, v1⟩⟩

theorem contest_round (r : Nat) : BothWait (contest spin (2 + 6 * r)) ∧ Holds (contest spin (2 + 6 * r + 1)) 0 ∧
    ∀ j, j < 6 → Waits (contest spin (2 + 6 * r + j)) 1 := by
  have main : ∀ r, BothWait (contest spin (2 + 6 * r)) → BothWait (contest spin (2 + 6 * r + 6)) ∧
      Holds (contest spin (2 + 6 * r + 1)) 0 ∧ ∀ j, j < 6 → Waits (contest spin (2 + 6 * r + j)) 1 := by
    intro r h
    have hu : ∀ j, j < 6 → contest spin (2 + 6 * r + j + 1) = turn spin (contest spin (2 + 6 * r + j)) (if j = 1 then 1 else 0) := by
      intro j hj
      rw [contest_succ]
      unfold unlucky
      rw [if_neg (by omega), if_neg (by omega)]
      have : (2 + 6 * r + j - 2) % 6 = j := by omega
      rw [this]; split <;> rfl
    obtain ⟨a, b, w1, w2, w3, w4, w5⟩ := round (spin := spin) h (hu 0 (by omega)) (hu 1 (by omega)) (hu 2 (by omega)) (hu 3 (by omega))
      (hu 4 (by omega)) (hu 5 (by omega))
    refine ⟨a, b, ?_⟩
    intro j hj
    rcases j with _ | _ | _ | _ | _ | _ | j
    · exact h.2.2.1
    · exact w1
    · exact w2
    · exact w3
    · exact w4
    · exact w5
    · omega
  have all : ∀ r, BothWait (contest spin (2 + 6 * r)) := by
    intro r
    induction r with
    | zero =>
      show BothWait (contest spin 2)
      rw [contest_succ, contest_succ]
      refine ⟨rfl, ⟨spin, rfl⟩, ⟨spin, rfl⟩, rfl, rfl⟩
    | succ r ih => exact (main r ih).1
  exact ⟨all r, (main r (all r)).2⟩

/-- C148 does not hold. Two threads use the lock for ever, every section ends, the scheduler is fair, no attempt fails
spuriously: still one of them may wait in lock() for ever while the other gets the lock again and again. -/
theorem C148_lock_returns_refuted (spin : BitVec 32) :
    Fair 2 unlucky ∧ (∀ k, (unlucky k).2 = false) ∧
    (∀ k, ∃ k', k ≤ k' ∧ ∀ j, ¬Holds (contest spin k') j) ∧
    (∀ k, ∃ k', k ≤ k' ∧ Holds (contest spin k') 0) ∧
    ∀ k, 1 ≤ k → Waits (contest spin k) 1 := by
  refine ⟨?_, ?_, ?_, ?_, ?_⟩
  · intro i hi k
    rcases i with _ | _ | i
    · exact ⟨2 + 6 * k, by omega, by unfold unlucky; rw [if_neg (by omega), if_neg (by omega), if_neg (by omega)]⟩
    · exact ⟨2 + 6 * k + 1, by omega, by unfold unlucky; rw [if_neg (by omega), if_neg (by omega), if_pos (by omega)]⟩
    · omega
  · intro k; unfold unlucky; split <;> (try split) <;> (try split) <;> rfl
  · intro k
    refine ⟨2 + 6 * k, by omega, ?_⟩
    have hl : Lite (contest spin (2 + 6 * k)) := endless_lite (Lite.init _ _) _
    rcases hl.excl with h | ⟨h, _⟩
    · exact h.2
    · have := (contest_round (spin := spin) k).1.1; rw [this] at h; cases h
  · intro k
    exact ⟨2 + 6 * k + 1, by omega, (contest_round k).2.1⟩
  · intro k hk
    by_cases h1 : k = 1
    · subst h1; rw [contest_succ]; exact ⟨spin, rfl⟩
    · have := (contest_round (spin := spin) ((k - 2) / 6)).2.2 ((k - 2) % 6) (by omega)
      rwa [show 2 + 6 * ((k - 2) / 6) + (k - 2) % 6 = k by omega] at this

/-! ### What holds -/

theorem sum_same {a b : Nat → Nat} : ∀ {n : Nat}, (∀ i, i < n → a i = b i) → ((List.range n).map a).sum = ((List.range n).map b).sum
  | 0, _ => rfl
  | n + 1, h => by
    rw [List.range_succ, List.map_append, List.map_append, List.sum_append, List.sum_append, sum_same (fun i hi => h i (by omega))]
    simp [h n (by omega)]

theorem sum_less {a b : Nat → Nat} {j : Nat} : ∀ {n : Nat}, j < n → a j < b j → (∀ i, i ≠ j → a i = b i) →
    ((List.range n).map a).sum < ((List.range n).map b).sum
  | 0, h, _, _ => by omega
  | n + 1, h, h1, h2 => by
    rw [List.range_succ, List.map_append, List.map_append, List.sum_append, List.sum_append]
    by_cases e : j = n
    · subst e
      rw [sum_same (b := b) (fun i hi => h2 i (by omega))]
      simp [h1]
    · have := sum_less (a := a) (b := b) (n := n) (by omega) h1 h2
      simp [h2 n (fun x => e x.symm)]; exact this

theorem kind_less {s s' : St σ τ ω} {i : Nat} {sp : Bool} (hl : Lite s) (hk : Kind c i sp s s') (hm : ¬(Waits s i ∧ Waits s' i)) :
    stepsLeft c (s'.th i) < stepsLeft c (s.th i) := by
  cases hk with
  | enter sc h0 h1 h2 h3 h4 =>
    obtain ⟨op, tl, e⟩ := List.exists_cons_of_ne_nil h1
    simp only [stepsLeft, h0, h3, h4, e, List.map_cons, List.sum_cons]; omega
  | fail sc sc' h0 h1 h2 h3 h4 => exact absurd ⟨⟨_, h0⟩, ⟨_, h3⟩⟩ hm
  | acquire sc op h0 h1 h2 h3 h4 h5 h6 =>
    obtain ⟨op', tl, e⟩ := List.exists_cons_of_ne_nil (hl.work i ⟨_, h0⟩)
    rw [e] at h6; cases h6
    simp only [stepsLeft, h0, h4, h5, e, List.map_cons, List.sum_cons, List.tail_cons]; omega
  | micro m ms l l' h0 h2 h3 h4 => simp only [stepsLeft, h0, h3, h4, List.length_cons]; omega
  | release l h0 h2 h3 h4 => simp only [stepsLeft, h0, h3, h4]; omega

theorem Still.left {s s' : St σ τ ω} (h : Still s s') (i : Nat) : stepsLeft c (s'.th i) = stepsLeft c (s.th i) := by
  unfold stepsLeft
  rw [h.todo i]
  rcases h.pc i with e | ⟨⟨_, a⟩, ⟨_, b⟩⟩
  · rw [e]
  · rw [a, b]

/-- Threads that are finished stay finished. -/
theorem finished_stay {again : Nat → List ω} {s0 : St σ τ ω} {f : Nat → Nat × Bool} {i : Nat} (ha : again i = []) {k : Nat}
    (h : Done (endless c spin again s0 f k) i) : ∀ d, Done (endless c spin again s0 f (k + d)) i
  | 0 => h
  | d + 1 => by
    have ih := finished_stay ha h d
    show Done (endless c spin again s0 f (k + d + 1)) i
    rw [endless_succ]
    cases e : step c spin (endless c spin again s0 f (k + d)) (f (k + d)).1 (f (k + d)).2 with
    | none => exact ih
    | some s' =>
      by_cases hi : (f (k + d)).1 = i
      · rw [hi] at e
        simp [step, ih.1, ih.2] at e
      · have := (step_kind e).2 i (fun x => hi x.symm)
        exact ⟨by rw [refill_pc, this]; exact ih.1, by rw [refill_todo, if_neg (fun x => hi x.1.symm), this]; exact ih.2⟩

theorem holds_not_done {s : St σ τ ω} {i : Nat} (h : Holds s i) : ¬Done s i := by
  rintro ⟨e, _⟩; obtain ⟨a, b, e'⟩ := h; rw [e] at e'; cases e'

theorem refill_nil (i : Nat) (s : St σ τ ω) : refill (fun _ => []) i s = s := by
  unfold refill
  split
  · rename_i h
    have : upd s.th i { s.th i with todo := [] } = s.th := by
      funext j
      unfold upd; split
      · rename_i e; subst e; rw [← h]
      · rfl
    rw [this]
  · rfl

/-- Steps that all threads have left. -/
def allLeft (c : Client σ τ ω) (n : Nat) (s : St σ τ ω) : Nat := ((List.range n).map fun i => stepsLeft c (s.th i)).sum

/-- C148 (what holds): if every thread uses the lock a finite number of times, every thread gets the lock each time
and all complete. -/
theorem C148_finite_use_partial (c : Client σ τ ω) (spin : BitVec 32) (g : σ) (n : Nat) (prog : Nat → List ω)
    (hp : ∀ i, n ≤ i → prog i = []) (f : Nat → Nat × Bool) (hf : Fair n f) :
    ∃ k, ∀ k', k ≤ k' → ∀ i, Done (endless c spin (fun _ => []) (initial g prog) f k') i := by
  have h0 : Lite (initial g prog : St σ τ ω) := Lite.init _ _
  have hout : ∀ k i, n ≤ i → Done (endless c spin (fun _ => []) (initial g prog) f k) i := by
    intro k i hi
    have h : Done (endless c spin (fun _ => []) (initial g prog) f 0) i := ⟨rfl, hp i hi⟩
    have := finished_stay rfl h k
    rwa [Nat.zero_add] at this
  have key : ∀ w k, allLeft c n (endless c spin (fun _ => []) (initial g prog) f k) = w →
      ∃ k', ∀ i, Done (endless c spin (fun _ => []) (initial g prog) f k') i := by
    intro w
    induction w using Nat.strongRecOn with
    | _ w ih =>
    intro k hw
    by_cases hd : ∀ i, Done (endless c spin (fun _ => []) (initial g prog) f k) i
    · exact ⟨k, hd⟩
    · obtain ⟨i, hi⟩ := Classical.not_forall.1 hd
      have hin : i < n := Nat.lt_of_not_le fun x => hi (hout k i x)
      obtain ⟨k', hk', ⟨s', e, hm⟩, hs⟩ := next_move (c := c) (spin := spin) h0 hf k
        (fun j hj => Nat.lt_of_not_le fun x => holds_not_done hj (hout k j x)) i hin hi
      have hl : Lite (endless c spin (fun _ => []) (initial g prog) f k') := endless_lite h0 k'
      obtain ⟨hk, ho⟩ := step_kind e
      have hjn : (f k').1 < n := by
        apply Nat.lt_of_not_le
        intro x
        have := hout k' _ x
        simp [step, this.1, this.2] at e
      refine ih _ ?_ (k' + 1) rfl
      rw [endless_succ, e]
      dsimp only
      rw [refill_nil, ← hw]
      unfold allLeft
      rw [← sum_same (fun i _ => hs.left (c := c) i)]
      exact sum_less hjn (kind_less hl hk hm) (fun j hj => by rw [ho j hj])
  obtain ⟨k, hk⟩ := key _ 0 rfl
  refine ⟨k, fun k' hk' i => ?_⟩
  obtain ⟨d, rfl⟩ := Nat.exists_eq_add_of_le hk'
  exact finished_stay rfl (hk i) d

/-- Steps until somebody takes the lock. -/
def untilTaken (t : Th σ τ ω) : Nat :=
  match t.pc with
  | .out           => 1
  | .trying _      => 0
  | .inside rest _ => rest.length + 2

theorem Still.taken {s s' : St σ τ ω} (h : Still s s') (i : Nat) : untilTaken (s'.th i) = untilTaken (s.th i) := by
  unfold untilTaken
  rcases h.pc i with e | ⟨⟨_, a⟩, ⟨_, b⟩⟩
  · rw [e]
  · rw [a, b]

/-- C148 (what holds): also when threads use the lock for ever, it is taken again and again; not all of them can be
kept waiting. -/
theorem C148_somebody_gets_it_partial (c : Client σ τ ω) (spin : BitVec 32) (g : σ) (n : Nat) (prog again : Nat → List ω)
    (hp : ∀ i, n ≤ i → prog i = [] ∧ again i = []) (i : Nat) (hi : prog i ≠ [] ∧ again i ≠ [])
    (f : Nat → Nat × Bool) (hf : Fair n f) (k : Nat) :
    ∃ k' j, k ≤ k' ∧ Waits (endless c spin again (initial g prog) f k') j ∧
      Holds (endless c spin again (initial g prog) f (k' + 1)) j := by
  have h0 : Lite (initial g prog : St σ τ ω) := Lite.init _ _
  have hin : i < n := Nat.lt_of_not_le fun x => hi.1 (hp i x).1
  have hout : ∀ k i, n ≤ i → Done (endless c spin again (initial g prog) f k) i := by
    intro k i hi
    have h : Done (endless c spin again (initial g prog) f 0) i := ⟨rfl, (hp i hi).1⟩
    have := finished_stay (hp i hi).2 h k
    rwa [Nat.zero_add] at this
  have hwork : ∀ k, ((endless c spin again (initial g prog) f k).th i).todo ≠ [] := by
    intro k
    induction k with
    | zero => exact hi.1
    | succ k ih =>
      rw [endless_succ]
      split
      · exact ih
      · rename_i s' e
        rw [refill_todo]
        split
        · exact hi.2
        · rename_i hne
          by_cases hj : i = (f k).1
          · exact fun x => hne ⟨hj, x⟩
          · rw [(step_kind e).2 i hj]; exact ih
  generalize hw : ((List.range n).map fun i => untilTaken ((endless c spin again (initial g prog) f k).th i)).sum = w
  induction w using Nat.strongRecOn generalizing k with
  | _ w ih =>
  obtain ⟨k', hk', ⟨s', e, hm⟩, hs⟩ := next_move (c := c) (spin := spin) h0 hf k
    (fun j hj => Nat.lt_of_not_le fun x => holds_not_done hj (hout k j x)) i hin (fun x => hwork k x.2)
  obtain ⟨hk, ho⟩ := step_kind e
  have hjn : (f k').1 < n := by
    apply Nat.lt_of_not_le
    intro x
    have := hout k' _ x
    simp [step, this.1, this.2] at e
  have less : untilTaken (s'.th (f k').1) < untilTaken ((endless c spin again (initial g prog) f k').th (f k').1) →
      ∃ k' j, k ≤ k' ∧ Waits (endless c spin again (initial g prog) f k') j ∧
        Holds (endless c spin again (initial g prog) f (k' + 1)) j := by
    intro hlt
    obtain ⟨k2, j, a, b⟩ := ih _ (by
      rw [endless_succ, e]
      dsimp only
      rw [← hw, ← sum_same (fun i _ => hs.taken i)]
      refine sum_less hjn ?_ ?_
      · unfold untilTaken; rw [refill_pc]; exact hlt
      · intro j hj; unfold untilTaken; rw [refill_pc, ho j hj]) (k' + 1) rfl
    exact ⟨k2, j, by omega, b⟩
  cases hk with
  | enter sc h0 h1 h2 h3 h4 => exact less (by simp [untilTaken, h0, h3])
  | fail sc sc' h0 h1 h2 h3 h4 => exact absurd ⟨⟨_, h0⟩, ⟨_, h3⟩⟩ hm
  | acquire sc op h0 h1 h2 h3 h4 h5 h6 =>
    refine ⟨k', _, hk', ⟨sc, h0⟩, ?_⟩
    rw [endless_succ, e]
    exact (refill_holds ..).2 ⟨_, _, h4⟩
  | micro m ms l l' h0 h2 h3 h4 => exact less (by simp [untilTaken, h0, h3])
  | release l h0 h2 h3 h4 => exact less (by simp [untilTaken, h0, h3])

/-- C148 (exact): a thread in lock() gets the lock iff at some time it gets the processor while nobody is inside (and
its attempt does not fail spuriously). -/
theorem C148_gets_it_iff_partial (c : Client σ τ ω) (spin : BitVec 32) (g : σ) (prog again : Nat → List ω)
    (f : Nat → Nat × Bool) (k i : Nat) (hi : Waits (endless c spin again (initial g prog) f k) i) :
    (∃ k', k ≤ k' ∧ Holds (endless c spin again (initial g prog) f k') i) ↔
    ∃ k', k ≤ k' ∧ f k' = (i, false) ∧ ∀ j, ¬Holds (endless c spin again (initial g prog) f k') j := by
  have hl : ∀ k, Lite (endless c spin again (initial g prog : St σ τ ω) f k) := endless_lite (Lite.init _ _)
  have one : ∀ k, Waits (endless c spin again (initial g prog) f k) i →
      (Waits (endless c spin again (initial g prog) f (k + 1)) i ∧
        ¬(f k = (i, false) ∧ ∀ j, ¬Holds (endless c spin again (initial g prog) f k) j)) ∨
      (Holds (endless c spin again (initial g prog) f (k + 1)) i ∧
        (f k = (i, false) ∧ ∀ j, ¬Holds (endless c spin again (initial g prog) f k) j)) := by
    intro k hw
    have hl := hl k
    rw [endless_succ]
    generalize endless c spin again (initial g prog) f k = s at *
    cases e : step c spin s (f k).1 (f k).2 with
    | none =>
      refine .inl ⟨hw, ?_⟩
      rintro ⟨hf, _⟩
      rw [hf] at e
      exact hl.work i hw (step_none e).1
    | some s' =>
      obtain ⟨hk, ho⟩ := step_kind e
      by_cases hfi : (f k).1 = i
      · rw [hfi] at hk
        cases hk with
        | enter sc h0 h1 h2 h3 h4 => obtain ⟨_, x⟩ := hw; rw [h0] at x; cases x
        | fail sc sc' h0 h1 h2 h3 h4 =>
          refine .inl ⟨(refill_waits ..).2 ⟨_, h3⟩, ?_⟩
          rintro ⟨hf, hno⟩
          rcases hl.excl with ⟨a, _⟩ | ⟨_, j, a, _⟩
          · rw [hf, a] at h1; rcases h1 with h1 | h1 <;> cases h1
          · exact hno j a
        | acquire sc op h0 h1 h2 h3 h4 h5 h6 =>
          refine .inr ⟨(refill_holds ..).2 ⟨_, _, h4⟩, Prod.ext hfi h2, ?_⟩
          rcases hl.excl with ⟨_, a⟩ | ⟨a, _⟩
          · exact a
          · rw [a] at h1; cases h1
        | micro m ms l l' h0 h2 h3 h4 => obtain ⟨_, x⟩ := hw; rw [h0] at x; cases x
        | release l h0 h2 h3 h4 => obtain ⟨_, x⟩ := hw; rw [h0] at x; cases x
      · refine .inl ⟨(refill_waits ..).2 ?_, fun x => hfi (by rw [x.1])⟩
        unfold Waits; rw [ho i (fun x => hfi x.symm)]; exact hw
  have many : ∀ d, Waits (endless c spin again (initial g prog) f (k + d)) i ∨
      ∃ e, e < d ∧ Waits (endless c spin again (initial g prog) f (k + e)) i ∧
        Holds (endless c spin again (initial g prog) f (k + e + 1)) i ∧
        f (k + e) = (i, false) ∧ ∀ j, ¬Holds (endless c spin again (initial g prog) f (k + e)) j := by
    intro d
    induction d with
    | zero => exact .inl hi
    | succ d ih =>
      rcases ih with h | ⟨e, h1, h2⟩
      · rcases one _ h with ⟨a, _⟩ | ⟨a, b⟩
        · exact .inl a
        · exact .inr ⟨d, by omega, h, a, b⟩
      · exact .inr ⟨e, by omega, h2⟩
  constructor
  · rintro ⟨k', hk', hh⟩
    obtain ⟨d, rfl⟩ := Nat.exists_eq_add_of_le hk'
    rcases many d with h | ⟨e, _, _, _, h⟩
    · exact absurd h (not_waits_inside hh)
    · exact ⟨k + e, by omega, h⟩
  · rintro ⟨k', hk', hf⟩
    obtain ⟨d, rfl⟩ := Nat.exists_eq_add_of_le hk'
    rcases many d with h | ⟨e, _, _, h, _⟩
    · rcases one _ h with ⟨_, b⟩ | ⟨a, _⟩
      · exact absurd hf b
      · exact ⟨k + d + 1, by omega, a⟩
    · exact ⟨k + e + 1, by omega, h⟩

/-- Non-vacuity: a fair schedule with spurious failures; two threads that increment once each. -/
def everyOther (k : Nat) : Nat × Bool := (k % 2, decide (k % 4 < 2))
example : Fair 2 everyOther := by
  intro i hi k
  refine ⟨4 * k + 2 + i, by omega, ?_⟩
  unfold everyOther
  have h1 : (4 * k + 2 + i) % 2 = i := by omega
  have h2 : ¬(4 * k + 2 + i) % 4 < 2 := by omega
  rw [h1, decide_eq_false h2]
example : ((endless counter 1 (fun _ => []) (initial 0 demoProg) everyOther 24).shared,
    (endless counter 1 (fun _ => []) (initial 0 demoProg) everyOther 24).hist) = (2, [(0, ()), (1, ())]) := by decide +kernel
example : (contest 3 100).hist.length = 17 := by decide +kernel

end Falcon.Futex
