import Verif.Model.Checks
import Verif.Props.TestCase
/- C110: waitTime. C111: exception checks. C112: evaluation in checks. -/
namespace Falcon.Fut

/-! ### C110 -/

/-- C110 does not hold: a wait of 4294968 ms (71.6 minutes) takes less than a millisecond on unix; on Windows a wait of
4294967296 ms (49.7 days) takes no time at all and one of 4294967295 ms never ends. -/
theorem C110_wait_refuted : waitUnix 4294968 = .ok 704 ∧ waitWin 4294967296 = .ok 0 ∧ waitWin 4294967295 = .error .hang := ⟨rfl, rfl, rfl⟩

/-- What is waited, for every argument: the wait is as long as asked exactly for 0 to 4294967 ms; the product overflows exactly outside
±9223372036854775 ms; otherwise some multiple of 2^32 microseconds is missing. -/
theorem C110_unix_partial (ms : Int) :
    (waitUnix ms = .ok (ms * 1000) ↔ 0 ≤ ms ∧ ms ≤ 4294967) ∧
    (waitUnix ms = .error (.ub .castRange) ↔ ms < -9223372036854775 ∨ 9223372036854775 < ms) ∧
    (∀ us, waitUnix ms = .ok us ↔
      (-9223372036854775 ≤ ms ∧ ms ≤ 9223372036854775) ∧ 0 ≤ us ∧ us < 4294967296 ∧ ∃ k : Int, ms * 1000 = us + k * 4294967296) := by
  unfold waitUnix
  by_cases h : -9223372036854775808 ≤ ms * 1000 ∧ ms * 1000 ≤ 9223372036854775807
  · rw [if_pos h]
    refine ⟨⟨fun he => ?_, fun hb => ?_⟩, ⟨fun he => (by simp at he), fun hb => (by omega)⟩, fun us => ⟨fun he => ?_, fun hb => ?_⟩⟩
    · injection he with he; omega
    · have : ms * 1000 % 4294967296 = ms * 1000 := by omega
      rw [this]
    · injection he with he
      exact ⟨by omega, by omega, by omega, ms * 1000 / 4294967296, by omega⟩
    · obtain ⟨_, h0, h1, k, hk⟩ := hb
      have : ms * 1000 % 4294967296 = us := by omega
      rw [this]
  · rw [if_neg h]
    refine ⟨⟨fun he => (by simp at he), fun hb => (by omega)⟩, ⟨fun _ => (by omega), fun _ => rfl⟩, fun us => ⟨fun he => (by simp at he), fun hb => (by omega)⟩⟩

/-- On Windows: exact up to 4294967294 ms, without end exactly one millisecond before every multiple of 2^32, otherwise short by such a multiple. -/
theorem C110_win_partial (ms : Int) :
    (waitWin ms = .ok ms ↔ 0 ≤ ms ∧ ms ≤ 4294967294) ∧
    (waitWin ms = .error .hang ↔ ∃ k : Int, ms + 1 = k * 4294967296) ∧
    (∀ w, waitWin ms = .ok w ↔ 0 ≤ w ∧ w < 4294967295 ∧ ∃ k : Int, ms = w + k * 4294967296) := by
  unfold waitWin
  by_cases h : ms % 4294967296 = 4294967295
  · rw [if_pos h]
    refine ⟨⟨fun he => (by simp at he), fun hb => (by omega)⟩, ⟨fun _ => ⟨(ms + 1) / 4294967296, by omega⟩, fun _ => rfl⟩,
      fun w => ⟨fun he => (by simp at he), fun ⟨h0, h1, k, hk⟩ => (by omega)⟩⟩
  · rw [if_neg h]
    refine ⟨⟨fun he => (by injection he; omega), fun hb => ?_⟩, ⟨fun he => (by simp at he), fun ⟨k, hk⟩ => (by omega)⟩, fun w => ⟨fun he => ?_, fun hb => ?_⟩⟩
    · have : ms % 4294967296 = ms := by omega
      rw [this]
    · injection he with he
      exact ⟨by omega, by omega, ms / 4294967296, by omega⟩
    · obtain ⟨h0, h1, k, hk⟩ := hb
      have : ms % 4294967296 = w := by omega
      rw [this]

example : waitUnix 100 = .ok 100000 ∧ waitWin 100 = .ok 100 := ⟨rfl, rfl⟩

/-! ### C111 -/

/-- The statement is an exception check and what its expression does is what it expects: `some` thing of the given type for EXPECT_THROW,
anything for EXPECT_ANY_THROW, nothing for EXPECT_NO_THROW. -/
def Act.excHolds : Act → Option Bool
  | .expectThrow o isType _ _ _ => some (o.isSome && isType)
  | .expectAnyThrow o _ _ => some o.isSome
  | .expectNoThrow o _ _ => some o.isNone
  | _ => none

/-- C111: a test in which an exception check that does not hold is executed does not pass, whatever it does before and
after; a test consisting of exception checks that hold passes. -/
theorem C111_exception_checks (env : Env) (d : TestDef) (t : Nat) (w : World) (hk : (nextScript d t w).KeepsStreams) (hc : (nextScript d t w).ChecksOnly) :
    let sc := nextScript d t w
    let st := ((run env d t (beginTest true t w)).tc t).status
    ((∃ a ∈ sc.done, a.excHolds = some false) → st = .fail ∨ st = .error) ∧
    ((∀ a ∈ sc.setUp ++ sc.body ++ sc.tearDown, a.excHolds = some true) → w.content (.capErr t) = [] → st = .success) := by
  intro sc st
  obtain ⟨e1, e2, e3, e4⟩ := C83_status_partial env d t w hk hc
  have key : ∀ a : Act, a.excHolds = some false → a.sets = some .fail ∨ a.thrown.isSome := by
    intro a ha
    cases a with
    | expectThrow o c f l ty =>
      cases o with
      | none => left; rfl
      | some e => cases c with
        | true => simp [Act.excHolds] at ha
        | false => right; rfl
    | expectAnyThrow o f l => cases o with
      | none => left; rfl
      | some e => simp [Act.excHolds] at ha
    | expectNoThrow o f l => cases o with
      | none => simp [Act.excHolds] at ha
      | some e => cases e <;> (left; rfl)
    | _ => simp [Act.excHolds] at ha
  have hth : ∀ as : List Act, ∀ a ∈ executed as, a.thrown.isSome = true → (threw as).isSome = true := by
    intro as a ha hh
    have hl : a.leaves = true := by
      cases a with
      | thrw e => rfl
      | expectThrow o c f l ty =>
        cases o with
        | none => simp [Act.thrown] at hh
        | some e => cases c with
          | true => simp [Act.thrown] at hh
          | false => rfl
      | _ => simp [Act.thrown] at hh
    induction as with
    | nil => simp [executed] at ha
    | cons b bs ih =>
      unfold threw
      unfold executed at ha ⊢
      by_cases hb : b.leaves = true
      · rw [if_pos hb] at ha ⊢
        rw [List.mem_singleton] at ha; subst ha
        simpa using hh
      · rw [if_neg hb] at ha ⊢
        rcases List.mem_cons.1 ha with rfl | ha
        · exact absurd hl hb
        · have := ih ha
          unfold threw at this
          cases he : executed bs with
          | nil => rw [he] at ha; simp at ha
          | cons x xs => rw [he] at this; simpa [List.getLast?_cons_cons] using this
  refine ⟨?_, ?_⟩
  · rintro ⟨a, ha, hf⟩
    by_cases ht : sc.throws
    · right; exact e1.2 ht
    · left
      refine e2.2 ⟨ht, a, ?_, ?_⟩
      · have hn := ht
        simp only [Script.throws, not_or, Bool.not_eq_true] at hn
        unfold Script.done at ha
        rw [hn.1, hn.2.1] at ha
        simp only [Bool.false_eq_true, if_false] at ha
        show a ∈ sc.all
        unfold Script.all
        simpa [List.append_assoc] using ha
      · rcases key a hf with h | h
        · exact h
        · exfalso; apply ht
          unfold Script.done at ha
          rcases List.mem_append.1 ha with ha | ha
          · exact Or.inl (hth _ a ha h)
          · split at ha
            · simp at ha
            · rcases List.mem_append.1 ha with ha | ha
              · exact Or.inr (Or.inl (hth _ a ha h))
              · split at ha
                · simp at ha
                · exact Or.inr (Or.inr (hth _ a ha h))
  · intro hall hw
    have hex : ∀ as : List Act, ∀ a ∈ executed as, a ∈ as := by
      intro as
      induction as with
      | nil => intro a ha; simp [executed] at ha
      | cons b bs ih =>
        intro a ha
        unfold executed at ha
        split at ha
        · rw [List.mem_singleton] at ha; subst ha; simp
        · rcases List.mem_cons.1 ha with rfl | ha
          · simp
          · exact List.mem_cons_of_mem _ (ih a ha)
    have good : ∀ a : Act, a.excHolds = some true → a.sets = none ∧ a.thrown = none ∧ (∀ s, a ≠ .err s) := by
      intro a ha
      cases a with
      | expectThrow o c f l ty =>
        cases o with
        | none => simp [Act.excHolds] at ha
        | some e => cases c with
          | true => exact ⟨rfl, rfl, by intro s; simp⟩
          | false => simp [Act.excHolds] at ha
      | expectAnyThrow o f l => cases o with
        | none => simp [Act.excHolds] at ha
        | some e => exact ⟨rfl, rfl, by intro s; simp⟩
      | expectNoThrow o f l => cases o with
        | none => exact ⟨rfl, rfl, by intro s; simp⟩
        | some e => simp [Act.excHolds] at ha
      | _ => simp [Act.excHolds] at ha
    have nothrow : ∀ as : List Act, (∀ a ∈ as, a.excHolds = some true) → threw as = none := by
      intro as h
      unfold threw
      cases hl : (executed as).getLast? with
      | none => rfl
      | some a => exact (good a (h a (hex as a (List.mem_of_getLast? hl)))).2.1
    have noerr : ∀ as : List Act, (∀ a ∈ as, a.excHolds = some true) → errText as = [] := by
      intro as h
      unfold errText
      rw [List.flatMap_eq_nil_iff]
      intro a ha
      have := (good a (h a ha)).2.2
      cases a <;> first | rfl | (exact absurd rfl (this _))
    have hs : ∀ a ∈ sc.setUp, a.excHolds = some true := fun a ha => hall a (by simp [ha])
    have hb : ∀ a ∈ sc.body, a.excHolds = some true := fun a ha => hall a (by simp [ha])
    have htd : ∀ a ∈ sc.tearDown, a.excHolds = some true := fun a ha => hall a (by simp [ha])
    refine e4.2 ⟨?_, ?_, hw, ?_⟩
    · show ¬ ((threw sc.setUp).isSome ∨ (threw sc.body).isSome ∨ (threw sc.tearDown).isSome)
      rw [nothrow _ hs, nothrow _ hb, nothrow _ htd]; simp
    · intro a ha
      have ha' : a ∈ sc.all := ha
      unfold Script.all at ha'
      rw [List.mem_append, List.mem_append] at ha'
      rcases ha' with (h | h) | h
      · exact (good a (hs a (hex _ a h))).1
      · exact (good a (hb a (hex _ a h))).1
      · exact (good a (htd a (hex _ a h))).1
    · apply noerr
      intro a ha
      rcases List.mem_append.1 ha with h | h
      · exact hs a (hex _ a h)
      · exact hb a (hex _ a h)

/-- Both parts apply to actual tests. -/
example : let d : TestDef := ⟨[], [], fun _ => { body := [.expectNoThrow (some .other) ['f'] 1, .expectAnyThrow (some .other) ['f'] 2] }⟩
    ((run {} d 0 (beginTest true 0 {})).tc 0).status = .fail := by decide
example : let d : TestDef := ⟨[], [], fun _ => { body := [.expectThrow (some (.std [])) true ['f'] 1 [], .expectNoThrow none ['f'] 2] }⟩
    ((run {} d 0 (beginTest true 0 {})).tc 0).status = .success := by decide

/-! ### C112 -/

/-- C112 does not hold: a check that fails evaluates its actual argument twice, and shows a value that was not compared:
EXPECT_EQ(0, ++n) with n = 0 fails as 0 == 1 and shows 2. -/
theorem C112_twice_refuted :
    let r := checkLogic false (fun a b : Nat => a == b) (fun n => (0, n)) (fun n : Nat => (n + 1, n + 1)) 0
    r.passed = false ∧ r.shown = some 2 ∧ r.state = 2 := by decide

/-- The expression, counting in the first (second) counter how often it is evaluated. -/
def counted1 {σ V : Type} (e : Ex σ V) : Ex (σ × Nat × Nat) V := fun p => ((e p.1).1, (e p.1).2, p.2.1 + 1, p.2.2)
def counted2 {σ V : Type} (e : Ex σ V) : Ex (σ × Nat × Nat) V := fun p => ((e p.1).1, (e p.1).2, p.2.1, p.2.2 + 1)

/-- C112 (what holds): the expected argument is evaluated once, the actual one once if the check passes and twice if it
fails; the check passes iff the comparison of the values first computed holds, in the order `actual` first if `rev`; the
value shown, if the check fails, is that of the second evaluation. -/
theorem C112_evaluations_partial {σ V : Type} (rev : Bool) (cmp : V → V → Bool) (expected actual : Ex σ V) (s : σ) :
    let r := checkLogic rev cmp (counted1 expected) (counted2 actual) (s, 0, 0)
    let a := if rev then (expected (actual s).2).1 else (expected s).1
    let b := if rev then (actual s).1 else (actual (expected s).2).1
    let s' := if rev then (expected (actual s).2).2 else (actual (expected s).2).2
    r.passed = cmp a b ∧
    (r.passed = true → r.shown = none ∧ r.state = (s', 1, 1)) ∧
    (r.passed = false → r.shown = some (actual s').1 ∧ r.state = ((actual s').2, 1, 2)) := by
  intro r a b s'
  cases rev
  · by_cases hc : cmp (expected s).1 (actual (expected s).2).1 = true
    · simp [r, a, b, s', checkLogic, compared, counted1, counted2, hc]
    · have hc : cmp (expected s).1 (actual (expected s).2).1 = false := by simpa using hc
      simp [r, a, b, s', checkLogic, compared, counted1, counted2, hc]
  · by_cases hc : cmp (expected (actual s).2).1 (actual s).1 = true
    · simp [r, a, b, s', checkLogic, compared, counted1, counted2, hc]
    · have hc : cmp (expected (actual s).2).1 (actual s).1 = false := by simpa using hc
      simp [r, a, b, s', checkLogic, compared, counted1, counted2, hc]

/-- Counting does not change what is observed. -/
theorem C112_counting_partial {σ V : Type} (rev : Bool) (cmp : V → V → Bool) (expected actual : Ex σ V) (s : σ) :
    let r := checkLogic rev cmp (counted1 expected) (counted2 actual) (s, 0, 0)
    let r' := checkLogic rev cmp expected actual s
    r'.passed = r.passed ∧ r'.shown = r.shown ∧ r'.state = r.state.1 := by
  intro r r'
  cases rev
  · by_cases hc : cmp (expected s).1 (actual (expected s).2).1 = true <;> simp [r, r', checkLogic, compared, counted1, counted2, hc]
  · by_cases hc : cmp (expected (actual s).2).1 (actual s).1 = true <;> simp [r, r', checkLogic, compared, counted1, counted2, hc]

/-- C112: if the arguments have no effects, the value shown is the value compared, in either order of evaluation. -/
theorem C112_pure_partial {σ V : Type} (rev : Bool) (cmp : V → V → Bool) (x y : σ → V) (s : σ) :
    let r := checkLogic rev cmp (fun s => (x s, s)) (fun s => (y s, s)) s
    r.passed = cmp (x s) (y s) ∧ r.state = s ∧ (r.passed = false → r.shown = some (y s)) := by
  intro r
  unfold r checkLogic compared
  cases rev <;> cases hc : cmp (x s) (y s) <;> simp [hc]

/-- C112: the same for EXPECT_TRUE and EXPECT_FALSE. -/
theorem C112_truth_partial {σ V : Type} (want : Bool) (truth : V → Bool) (actual : Ex σ V) (s : σ) :
    let r := checkTruth want truth (counted2 actual) (s, 0, 0)
    r.passed = decide (truth (actual s).1 = want) ∧
    (r.passed = true → r.shown = none ∧ r.state = ((actual s).2, 0, 1)) ∧
    (r.passed = false → r.shown = some (actual (actual s).2).1 ∧ r.state = ((actual (actual s).2).2, 0, 2)) := by
  intro r
  by_cases h : truth (actual s).1 = want <;> simp [r, checkTruth, counted2, h]

/-- Non-vacuity: a check that fails on an argument with an effect. -/
example : let r := checkLogic true (fun a b : Nat => decide (a < b)) (counted1 fun n => (n, n)) (counted2 fun n : Nat => (n, n + 1)) (3, 0, 0)
    r.passed = false ∧ r.shown = some 4 ∧ r.state = (5, 1, 2) := by decide

end Falcon.Fut
