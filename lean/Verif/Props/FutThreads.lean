import Verif.Proofs.FutThreadsRun
/-
C162: checks made by threads that a test starts. The property a user would like - any thread of a test may make checks,
and the test fails when one of them fails - is refuted below; what holds instead follows.
-/
namespace Falcon.FutThreads
open Falcon.Fut (Str Status Exc)

/-- There is a schedule with a data race exactly if a thread with a failing check is around when another such thread is
started, or when test() itself makes a failing check. -/
theorem C162_race_iff_partial (prog : List MOp) (r0 : Rec) (he : NoEscape (executed prog)) :
    (∃ as s, run (init r0 prog) as = some s ∧ Racy s) ↔ Conflict (executed prog) := by
  constructor
  · rintro ⟨as, s, hr, hs⟩
    by_cases hc : Conflict (executed prog)
    · exact hc
    · exact absurd hs (good_not_racy (good_run hc he as (good_init prog r0) hr))
  · exact conflict_racy r0 he

theorem inOrder_status (ops : List MOp) : ∀ r, (r.status = .none ∨ r.status = .fail) →
    ((inOrder r ops).status = .none ∨ (inOrder r ops).status = .fail) ∧
    ((inOrder r ops).status = .fail ↔ r.status = .fail ∨ SomeFails ops) := by
  have fold : ∀ (cs : List Chk) (r : Rec), cs ≠ [] → (cs.foldl (fun r c => c.report r) r).status = .fail := by
    intro cs
    induction cs with
    | nil => intro r h; exact absurd rfl h
    | cons c cs ih =>
      intro r _
      cases cs with
      | nil => rfl
      | cons d cs => exact ih _ (by simp)
  have some_cons : ∀ x ops, SomeFails (x :: ops) ↔ ((∃ c, x = .check c ∧ c.ok = false) ∨ ∃ b, x = .spawn b ∧ fails b ≠ []) ∨ SomeFails ops := by
    intro x ops
    constructor
    · rintro ⟨y, hy, h⟩
      rcases List.mem_cons.1 hy with rfl | hy
      · exact .inl h
      · exact .inr ⟨y, hy, h⟩
    · rintro (h | ⟨y, hy, h⟩)
      · exact ⟨x, by simp, h⟩
      · exact ⟨y, by simp [hy], h⟩
  induction ops with
  | nil =>
    intro r hr
    refine ⟨hr, ?_⟩
    show r.status = .fail ↔ _
    have : ¬ SomeFails [] := by rintro ⟨x, hx, -⟩; cases hx
    simp [this]
  | cons x ops ih =>
    intro r hr
    cases x with
    | check c =>
      by_cases hok : c.ok = true
      · have := ih r hr
        simp only [inOrder, if_pos hok]
        refine ⟨this.1, this.2.trans ?_⟩
        rw [some_cons]
        simp [hok]
      · have := ih (c.report r) (.inr rfl)
        simp only [inOrder, if_neg hok]
        refine ⟨this.1, ⟨fun _ => .inr ((some_cons _ _).2 (.inl (.inl ⟨c, rfl, by simpa using hok⟩))), fun _ => this.2.2 (.inl rfl)⟩⟩
    | spawn b =>
      by_cases hb : fails b = []
      · have := ih r hr
        simp only [inOrder, hb, List.foldl_nil]
        refine ⟨this.1, this.2.trans ?_⟩
        rw [some_cons]
        simp [hb]
      · have hf := fold (fails b) r hb
        have := ih ((fails b).foldl (fun r c => c.report r) r) (.inr hf)
        simp only [inOrder]
        exact ⟨this.1, ⟨fun _ => .inr ((some_cons _ _).2 (.inl (.inr ⟨b, rfl, hb⟩))), fun _ => this.2.2 (.inl hf)⟩⟩
    | join k =>
      have := ih r hr
      simp only [inOrder]
      refine ⟨this.1, this.2.trans ?_⟩
      rw [some_cons]
      simp
    | throws e =>
      have := ih r hr
      simp only [inOrder]
      refine ⟨this.1, this.2.trans ?_⟩
      rw [some_cons]
      simp

theorem conclude_eq (r : Rec) (x : Option Exc) (hr : r.status = .none ∨ r.status = .fail) : conclude r x = verdictOf r x := by
  cases x with
  | none =>
    rcases hr with h | h
    · simp only [conclude, verdictOf]; rw [if_pos h, if_neg (by rw [h]; simp)]
    · simp only [conclude, verdictOf]; rw [if_neg (by rw [h]; simp), if_pos h]
  | some x => cases x <;> rfl

/-- Without such a conflict and with every thread joined, every schedule is as if the threads' functions were called in
test() itself: no data race, the program is not terminated, the run can always go on to its end, within a bounded number
of steps, and the record at the end is that of the calls. -/
theorem C162_as_sequential_partial (prog : List MOp) (r0 : Rec) (he : NoEscape (executed prog)) (hc : ¬ Conflict (executed prog))
    (hj : AllJoined (executed prog)) :
    (∃ N, ∀ as s, run (init r0 prog) as = some s → as.length ≤ N) ∧
    ∀ as s, run (init r0 prog) as = some s →
      ¬ Racy s ∧ s.dead = false ∧ (s.phase ≠ .done → ∃ a s', step s a = some s') ∧
      (s.phase = .done → s.r = verdictOf (inOrder { r0 with status := .none } (executed prog)) (thrown prog)) := by
  refine ⟨⟨size (init r0 prog), fun as s h => by have := run_size h; omega⟩, fun as s h => ?_⟩
  have hg := good_run hc he as (good_init prog r0) h
  have hd : s.dead = false := by
    rcases hg with ⟨dn, hg⟩ | hg | ⟨hg, -⟩
    · exact hg.alive
    · exact hg.alive
    · exact absurd hj hg
  refine ⟨good_not_racy hg, hd, goes_on hd, fun hp => ?_⟩
  rcases hg with ⟨dn, hg⟩ | hg | ⟨hg, -⟩
  · have := hg.phase; rw [hp] at this; cases this
  · rcases hg.here with ⟨h1, -⟩ | ⟨-, h2⟩
    · rw [hp] at h1; cases h1
    · rw [h2]; exact conclude_eq _ _ (inOrder_status _ _ (.inl rfl)).1
  · exact absurd hj hg

/-- ... in particular, if an exception leaves test() the test is an error, and otherwise it fails if some check failed, in
whatever thread, and succeeds if none did. -/
theorem C162_verdict_partial (prog : List MOp) (r0 : Rec) (he : NoEscape (executed prog)) (hc : ¬ Conflict (executed prog))
    (hj : AllJoined (executed prog)) (as : List (Option Nat)) (s : St)
    (h : run (init r0 prog) as = some s) (hp : s.phase = .done) :
    (thrown prog ≠ none → s.r.status = .error) ∧
    (thrown prog = none → SomeFails (executed prog) → s.r.status = .fail) ∧
    (thrown prog = none → ¬ SomeFails (executed prog) → s.r.status = .success) := by
  have hr := ((C162_as_sequential_partial prog r0 he hc hj).2 as s h).2.2.2 hp
  have hi := inOrder_status (executed prog) { r0 with status := .none } (.inl rfl)
  refine ⟨?_, ?_, ?_⟩
  · intro ht
    cases hx : thrown prog with
    | none => exact absurd hx ht
    | some x => rw [hr, hx]; cases x <;> rfl
  · intro ht hf
    have h1 := hi.2.2 (.inr hf)
    rw [hr, ht]
    simp only [verdictOf]
    rw [if_pos h1]; exact h1
  · intro ht hf
    have h1 : (inOrder { r0 with status := .none } (executed prog)).status ≠ .fail := by
      intro h1
      rcases hi.2.1 h1 with h2 | h2
      · cases h2
      · exact hf h2
    rw [hr, ht]
    simp only [verdictOf]
    rw [if_neg h1]

/-- The program is terminated in some schedule exactly if a thread that test() starts is not joined there, or an
exception leaves the function of such a thread. -/
theorem C162_terminates_iff_partial (prog : List MOp) (r0 : Rec) (hc : ¬ Conflict (executed prog)) :
    (∃ as s, run (init r0 prog) as = some s ∧ s.dead = true) ↔ ¬ (AllJoined (executed prog) ∧ NoEscape (executed prog)) := by
  constructor
  · rintro ⟨as, s, h, hd⟩ ⟨hj, he⟩
    have := ((C162_as_sequential_partial prog r0 he hc hj).2 as s h).2.1
    rw [hd] at this; cases this
  · intro hn
    by_cases he : NoEscape (executed prog)
    · obtain ⟨as, s, h, hs⟩ := to_end (init r0 prog)
      refine ⟨as, s, h, ?_⟩
      rcases hs with hs | hs
      · exact hs
      · rcases good_run hc he as (good_init prog r0) h with ⟨dn, hg⟩ | hg | ⟨-, hg⟩
        · have := hg.phase; rw [hs] at this; cases this
        · exact absurd ⟨hg.joined, he⟩ hn
        · exact hg.1
    · exact escape_dead r0 he

/-- When test() leaves a thread unjoined, no schedule gets the run to its end: the results of this test, and of all
others of the program, are lost. -/
theorem C162_unjoined_partial (prog : List MOp) (r0 : Rec) (he : NoEscape (executed prog)) (hc : ¬ Conflict (executed prog))
    (hj : ¬ AllJoined (executed prog)) (as : List (Option Nat)) (s : St) (h : run (init r0 prog) as = some s) :
    s.phase ≠ .done ∧ (s.dead = false → ∃ a s', step s a = some s') := by
  have : s.phase ≠ .done := by
    intro hp
    rcases good_run hc he as (good_init prog r0) h with ⟨dn, hg⟩ | hg | ⟨-, hg⟩
    · have := hg.phase; rw [hp] at this; cases this
    · exact hj hg.joined
    · rw [hp] at hg; cases hg.2
  exact ⟨this, fun hd => goes_on hd this⟩

/-! ### Concrete tests -/

/-- EXPECT_EQ that fails, in line `n`. -/
def bad (n : Int) : Chk := { ok := false, stops := true, desc := "a == b".toList, line := n, file := "t.cpp".toList }

/-- EXPECT_EQ that holds. -/
def fine (n : Int) : Chk := { bad n with ok := true }

def rec0 : Rec := { status := .none, desc := [], line := 0, file := [] }

/-- Two threads whose checks fail: a data race, although test() joins both. -/
theorem C162_two_threads_refuted :
    ∃ prog as s, AllJoined (executed prog) ∧ NoEscape (executed prog) ∧ run (init rec0 prog) as = some s ∧ Racy s := by
  have he : NoEscape (executed [.spawn [.check (bad 1)], .spawn [.check (bad 2)], .join 0, .join 1]) := by
    intro b hb
    have : b = [.check (bad 1)] ∨ b = [.check (bad 2)] := by simpa [executed, path] using hb
    rcases this with rfl | rfl <;> rfl
  have hc : Conflict (executed [.spawn [.check (bad 1)], .spawn [.check (bad 2)], .join 0, .join 1]) :=
    ⟨[], [.check (bad 1)], [], .spawn [.check (bad 2)], [.join 0, .join 1], by decide, by decide, by decide,
      .inl ⟨_, rfl, by decide⟩⟩
  obtain ⟨as, s, h, hs⟩ := (C162_race_iff_partial _ rec0 he).2 hc
  refine ⟨_, as, s, ?_, he, h, hs⟩
  intro k hk
  have hk : k < 2 := hk
  rcases (by omega : k = 0 ∨ k = 1) with rfl | rfl <;> decide

/-- A check of test() that fails between the start of a thread and its join() ends the whole program, in every schedule
that goes on long enough; the thread makes no failing check. -/
theorem C162_early_return_refuted :
    ∃ prog, (∀ b, .spawn b ∈ prog → fails b = [] ∧ escapes b = false) ∧ AllJoined prog ∧
      (∀ as s, run (init rec0 prog) as = some s → s.phase ≠ .done) ∧
      ∃ as s, run (init rec0 prog) as = some s ∧ s.dead = true := by
  refine ⟨[.spawn [.check (fine 1)], .check (bad 2), .join 0], ?_, ?_, ?_, ?_⟩
  · intro b hb
    have : b = [.check (fine 1)] := by simpa using hb
    subst this; exact ⟨rfl, rfl⟩
  · intro k hk
    have hk : k < 1 := hk
    have : k = 0 := by omega
    subst this; decide
  · intro as s h
    refine (C162_unjoined_partial _ rec0 ?_ ?_ ?_ as s h).1
    · intro b hb
      have : b = [.check (fine 1)] := by simpa [executed, path, bad, fine] using hb
      subst this; rfl
    · rintro ⟨pre, b, mid, x, post, e, hb, -⟩
      have hm : MOp.spawn b ∈ executed [.spawn [.check (fine 1)], .check (bad 2), .join 0] := by rw [e]; simp
      have : b = [.check (fine 1)] := by simpa [executed, path, bad, fine] using hm
      subst this; exact hb rfl
    · intro hj
      have h2 : MOp.join 0 ∈ executed [.spawn [.check (fine 1)], .check (bad 2), .join 0] := hj 0 (by decide)
      exact absurd h2 (by decide)
  · exact ⟨[none, none, none, none, none, none, none], (run (init rec0 [.spawn [.check (fine 1)], .check (bad 2), .join 0])
      [none, none, none, none, none, none, none]).get (by decide), by decide, by decide⟩

/-- An exception that leaves a thread's function ends the whole program instead of being reported as an error of the test. -/
theorem C162_exception_refuted :
    ∃ prog as s, AllJoined (executed prog) ∧ run (init rec0 prog) as = some s ∧ s.dead = true := by
  refine ⟨[.spawn [.throws], .join 0], [none, some 0], (run (init rec0 [.spawn [.throws], .join 0]) [none, some 0]).get (by decide), ?_, by decide, by decide⟩
  intro k hk
  have hk : k < 1 := hk
  have : k = 0 := by omega
  subst this; decide

/-- A test whose first thread fails a check; the second thread is started after the join, and fails another. -/
def demo : List MOp :=
  [.check (fine 1), .spawn [.check (fine 2), .check (bad 3), .check (bad 4)], .spawn [.check (fine 5)], .join 0,
   .spawn [.check (bad 6)], .join 1, .join 2, .check (fine 7)]

theorem demo_calm {pre mid post : List MOp} {b : List TOp} {x : MOp} (h : demo = pre ++ .spawn b :: (mid ++ x :: post)) (hb : fails b ≠ [])
    (hj : .join (spawned pre) ∉ mid) (hx : (∃ b', x = .spawn b' ∧ fails b' ≠ []) ∨ ∃ c, x = .check c ∧ c.ok = false) : False := by
  unfold demo at h
  rcases pre with _ | ⟨p0, _ | ⟨p1, _ | ⟨p2, _ | ⟨p3, _ | ⟨p4, pre⟩⟩⟩⟩⟩ <;>
    simp only [List.nil_append, List.cons_append, List.cons.injEq, MOp.spawn.injEq, reduceCtorEq, false_and, and_false] at h
  · -- the first thread
    obtain ⟨rfl, rfl, h⟩ := h
    rcases mid with _ | ⟨m0, _ | ⟨m1, mid⟩⟩ <;> simp only [List.nil_append, List.cons_append, List.cons.injEq] at h
    · obtain ⟨rfl, -⟩ := h
      rcases hx with ⟨b', e, hb'⟩ | ⟨c, e, -⟩
      · cases e; exact hb' rfl
      · cases e
    · obtain ⟨-, rfl, -⟩ := h
      rcases hx with ⟨b', e, -⟩ | ⟨c, e, -⟩ <;> cases e
    · obtain ⟨-, rfl, -⟩ := h
      exact hj (by simp [spawned])
  · -- the second makes no failing check
    obtain ⟨-, -, rfl, -⟩ := h
    exact hb rfl
  · -- the third
    obtain ⟨rfl, rfl, rfl, rfl, rfl, h⟩ := h
    rcases mid with _ | ⟨m0, _ | ⟨m1, _ | ⟨m2, mid⟩⟩⟩ <;> simp only [List.nil_append, List.cons_append, List.cons.injEq] at h
    · obtain ⟨rfl, -⟩ := h
      rcases hx with ⟨b', e, -⟩ | ⟨c, e, -⟩ <;> cases e
    · obtain ⟨-, rfl, -⟩ := h
      rcases hx with ⟨b', e, -⟩ | ⟨c, e, -⟩ <;> cases e
    · obtain ⟨-, -, rfl, -⟩ := h
      rcases hx with ⟨b', e, -⟩ | ⟨c, e, hc⟩
      · cases e
      · cases e; cases hc
    · obtain ⟨-, -, -, h⟩ := h
      have := congrArg List.length h
      simp at this
  · -- no other
    have hm := congrArg (fun l => l.contains (.spawn b)) h.2.2.2.2.2
    simp at hm

/-- It meets the hypotheses of the theorems above. -/
theorem demo_meets : executed demo = demo ∧ thrown demo = none ∧ NoEscape (executed demo) ∧ ¬ Conflict (executed demo) ∧
    AllJoined (executed demo) ∧ SomeFails (executed demo) := by
  have e : executed demo = demo := by decide
  refine ⟨e, by decide, ?_, ?_, ?_, ?_⟩
  · intro b hb
    have : b = [.check (fine 2), .check (bad 3), .check (bad 4)] ∨ b = [.check (fine 5)] ∨ b = [.check (bad 6)] := by
      rw [e] at hb; simpa [demo] using hb
    rcases this with rfl | rfl | rfl <;> decide
  · rintro ⟨pre, b, mid, x, post, h, hb, hj, hx⟩
    rw [e] at h
    exact demo_calm h hb hj hx
  · intro k hk
    rw [e] at hk ⊢
    have hk : k < 3 := hk
    rcases (by omega : k = 0 ∨ k = 1 ∨ k = 2) with rfl | rfl | rfl <;> decide
  · exact ⟨.spawn [.check (bad 6)], by rw [e]; decide, .inr ⟨_, rfl, by decide⟩⟩

/-- One of its schedules, to the end. -/
example : (run (init rec0 demo) ([none, none, none, some 1] ++ List.replicate 6 (some 0) ++ [none, none] ++ List.replicate 5 (some 2) ++
    List.replicate 5 none)).map (fun s => (s.phase, s.r.status, s.r.line)) = some (.done, .fail, 6) := by decide

/-- And one of a test that throws after a check in a thread has failed. -/
example : (run (init rec0 [.spawn [.check (bad 3)], .join 0, .throws (.std ['x'])]) ([none] ++ List.replicate 5 (some 0) ++ [none, none, none])).map
    (fun s => (s.phase, s.r.status, s.r.desc, s.r.line)) = some (.done, .error, ['x'], 3) := by decide

end Falcon.FutThreads
