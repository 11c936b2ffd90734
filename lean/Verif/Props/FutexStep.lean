import Verif.Props.Futex

/-!
C29/C30: exactly what one step of a thread inside `RFutex::lock()` (futex.h 86-101) does.
-/
namespace Falcon.Futex

/-- C30 (what does hold): a call of lock() takes a fresh identity - the incremented counter - exactly when the
thread has none yet, keeps its identity otherwise, and touches neither the owner, nor the hold count, nor any
other thread. -/
theorem C30_enter_exact_partial (s : RSt) (i : Nat) (hi : (s.th i).pc = .out) :
    (rstep s i).th i = { id := if (s.th i).id = 0 then s.count + 1 else (s.th i).id, pc := .looping } ∧
    (rstep s i).count = (if (s.th i).id = 0 then s.count + 1 else s.count) ∧
    (rstep s i).owner = s.owner ∧ (rstep s i).mcount = s.mcount ∧
    ∀ j, j ≠ i → (rstep s i).th j = s.th j := by
  unfold rstep
  simp only [hi]
  by_cases h : (s.th i).id = 0
  · simp only [h, if_true]
    refine ⟨by simp [rupd], trivial, trivial, trivial, fun j hj => by simp [rupd, hj]⟩
  · simp only [h, if_false]
    refine ⟨by simp [rupd], trivial, trivial, trivial, fun j hj => by simp [rupd, hj]⟩

/-- C29 (what does hold): one attempt of lock() returns - adding one to the hold count - exactly when the futex is
free and the caller's identity is the value 0 that marks a free futex; every other attempt leaves the thread in the
loop and the hold count unchanged, and takes the futex for the caller if it was free. -/
theorem C29_attempt_exact_partial (s : RSt) (i : Nat) (hi : (s.th i).pc = .looping) :
    (s.owner = 0 ∧ (s.th i).id = 0 →
      (rstep s i).th i = { id := 0, pc := .returned } ∧ (rstep s i).mcount = s.mcount + 1 ∧ (rstep s i).owner = 0) ∧
    (¬ (s.owner = 0 ∧ (s.th i).id = 0) →
      (rstep s i).th i = s.th i ∧ (rstep s i).mcount = s.mcount ∧
      (rstep s i).owner = (if s.owner = 0 then (s.th i).id else s.owner)) ∧
    (rstep s i).count = s.count ∧ ∀ j, j ≠ i → (rstep s i).th j = s.th j := by
  unfold rstep casStrong rretry
  simp only [hi]
  by_cases h : s.owner = 0
  · by_cases h2 : (s.th i).id = 0
    · refine ⟨fun _ => ?_, fun hn => absurd ⟨h, h2⟩ hn, ?_, fun j hj => ?_⟩ <;> simp [h, h2, rupd]
      intro e; exact absurd e hj
    · have h3 : ¬ 0#32 = (s.th i).id := fun e => h2 e.symm
      refine ⟨fun hn => absurd hn.2 h2, fun _ => ?_, ?_, fun j hj => ?_⟩ <;> simp [h, h3]
  · have h4 : ¬ s.owner = 0#32 := h
    refine ⟨fun hn => absurd hn.1 h, fun _ => ?_, ?_, fun j hj => ?_⟩ <;> simp [h4]

/-- One more move at the end of a schedule. -/
theorem rrun_snoc (s : RSt) (a : List Nat) (i : Nat) : rrun s (a ++ [i]) = rstep (rrun s a) i := by
  rw [rrun_append]; rfl

/-- Threads entering lock() for the first time leave the futex free. -/
theorem enter_free (m : Nat) :
    (rrun rinit (List.range m)).owner = 0 ∧ (rrun rinit (List.range m)).mcount = 0 := by
  induction m with
  | zero => exact ⟨rfl, rfl⟩
  | succ m ih =>
    rw [List.range_succ, rrun_append]
    have hm : ((rrun rinit (List.range m)).th m).pc = .out := by
      rw [(enter_all m).2 m, if_neg (by omega)]
    obtain ⟨-, -, h1, h2, -⟩ := C30_enter_exact_partial _ m hm
    exact ⟨h1.trans ih.1, h2.trans ih.2⟩

/-- C29, refuted in another way: after 2^32 threads have called lock() the last one gets the identity 0, and its
first attempt returns from lock() with the hold count at 1 while the futex is still free: it holds nothing. -/
theorem C29_zero_returns_refuted :
    ∃ sched i, ((rrun rinit sched).th i).pc = .returned ∧ (rrun rinit sched).mcount = 1 ∧
      rIsLocked (rrun rinit sched) = false := by
  have hth : ((rrun rinit (List.range (2 ^ 32))).th (2 ^ 32 - 1)) = { id := 0, pc := .looping } := by
    rw [(enter_all (2 ^ 32)).2, if_pos (by omega)]
    decide
  obtain ⟨ho, hc⟩ := enter_free (2 ^ 32)
  obtain ⟨h1, h2, h3⟩ := (C29_attempt_exact_partial (rrun rinit (List.range (2 ^ 32))) (2 ^ 32 - 1)
    (by rw [hth])).1 ⟨ho, by rw [hth]⟩
  refine ⟨List.range (2 ^ 32) ++ [2 ^ 32 - 1], 2 ^ 32 - 1, ?_, ?_, ?_⟩
  · rw [rrun_snoc, h1]
  · rw [rrun_snoc, h2, hc]; decide
  · rw [rrun_snoc]; unfold rIsLocked; rw [h3]; decide

/-- Witness: thread 0 calls lock() on a fresh futex (C30_enter_exact_partial), then its first attempt takes the
futex and stays in the loop (C29_attempt_exact_partial). -/
example : ((rrun rinit [0]).th 0) = { id := 1, pc := .looping } ∧ (rrun rinit [0]).owner = 0 ∧
    (rrun rinit [0, 0]).owner = 1 ∧ (rrun rinit [0, 0]).mcount = 0 ∧
    ((rrun rinit [0, 0]).th 0).pc = .looping := by
  obtain ⟨h1, -, h3, -, -⟩ := C30_enter_exact_partial rinit 0 rfl
  obtain ⟨-, h5, -⟩ := C29_attempt_exact_partial (rstep rinit 0) 0 (by rw [h1])
  obtain ⟨h6, h7, h8⟩ := h5 (by rw [h1]; decide)
  refine ⟨h1, h3, ?_, ?_, ?_⟩
  · show (rstep (rstep rinit 0) 0).owner = _; rw [h8]; decide
  · show (rstep (rstep rinit 0) 0).mcount = _; rw [h7]; decide
  · show ((rstep (rstep rinit 0) 0).th 0).pc = _; rw [h6]; decide

end Falcon.Futex
