import Verif.Props.Checks
/-
C111: a failed exception check cannot be undone, whatever the test does to its streams and whether output is captured or not.
-/
namespace Falcon.Fut

theorem threw_of_mem (as : List Act) : ∀ a ∈ executed as, a.thrown.isSome = true → (threw as).isSome = true := by
  intro a ha hh
  obtain ⟨e, he⟩ := Option.isSome_iff_exists.1 hh
  have hl := thrown_leaves a e he
  induction as with
  | nil => simp [executed] at ha
  | cons b bs ih =>
    rw [threw_cons]
    unfold executed at ha
    by_cases hb : b.leaves = true
    · rw [if_pos hb] at ha ⊢
      rw [List.mem_singleton] at ha; subst ha; exact hh
    · rw [if_neg hb] at ha ⊢
      rcases List.mem_cons.1 ha with rfl | ha
      · exact absurd hl hb
      · exact ih ha

theorem done_throws (sc : Script) (a : Act) (ha : a ∈ sc.done) (h : a.thrown.isSome = true) : sc.throws := by
  unfold Script.done at ha
  rcases List.mem_append.1 ha with ha | ha
  · exact .inl (threw_of_mem _ a ha h)
  · split at ha
    · simp at ha
    · rcases List.mem_append.1 ha with ha | ha
      · exact .inr (.inl (threw_of_mem _ a ha h))
      · split at ha
        · simp at ha
        · exact .inr (.inr (threw_of_mem _ a ha h))

theorem done_calm (sc : Script) (h : ¬ sc.throws) : sc.done = sc.all := by
  simp only [Script.throws, not_or, Bool.not_eq_true] at h
  unfold Script.done Script.all
  rw [h.1, h.2.1]; simp

theorem settled_fail (a : Act) (post : List Act) (ha : a.sets = some .fail) (hp : ∀ b ∈ post, ∀ s, b ≠ .setStatus s) :
    settled (a :: post) = some .fail := by
  have hs : ∀ b : Act, (∀ s, b ≠ .setStatus s) → b.sets = none ∨ b.sets = some .fail := by
    intro b hb
    unfold Act.sets
    split
    · rename_i s; exact absurd rfl (hb s)
    · exact .inr rfl
    · split
      · exact .inr rfl
      · exact .inl rfl
  have key : ∀ xs : List Act, (∀ b ∈ xs, ∀ s, b ≠ .setStatus s) → settled xs = none ∨ settled xs = some .fail := by
    intro xs
    induction xs with
    | nil => intro _; exact .inl rfl
    | cons b bs ih =>
      intro h
      rw [settled_cons]
      rcases ih (fun c hc => h c (by simp [hc])) with e | e
      · rw [e]
        rcases hs b (h b (by simp)) with f | f <;> simp [f]
      · rw [e]; simp
  rw [settled_cons]
  rcases key post hp with e | e <;> simp [e, ha]

theorem excHolds_false (a : Act) (ha : a.excHolds = some false) : a.sets = some .fail ∨ a.thrown.isSome := by
  cases a with
  | expectThrow o c f l ty =>
    cases o with
    | none => left; rfl
    | some e => cases c with
      | true => simp [Act.excHolds] at ha
      | false => right; rfl
  | expectAnyThrow o f l => cases o with
    | none => left; rfl
    | some e => simp [Act.excHolds] at ha
  | expectNoThrow o f l => cases o with
    | none => simp [Act.excHolds] at ha
    | some e => cases e <;> (left; rfl)
  | _ => simp [Act.excHolds] at ha

/-- The status of a test in which, at some point, a statement failed the test or threw, and which did not set its status by hand from there on. -/
theorem not_undone (env : Env) (d : TestDef) (t : Nat) (cap : Bool) (w : World) (pre post : List Act) (a : Act)
    (hd : (nextScript d t w).done = pre ++ a :: post) (ha : a.sets = some .fail ∨ a.thrown.isSome)
    (hp : ∀ b ∈ post, ∀ s, b ≠ .setStatus s) :
    ((run env d t (beginTest cap t w)).tc t).status = .fail ∨ ((run env d t (beginTest cap t w)).tc t).status = .error := by
  have hb : ((beginTest cap t w).tc t).runs = (w.tc t).runs := by cases cap <;> simp [beginTest, setStatus, World.setTc]
  have hn : nextScript d t (beginTest cap t w) = nextScript d t w := by unfold nextScript; rw [hb]
  rw [run_status, hn]
  by_cases ht : (nextScript d t w).throws
  · right; exact if_pos ht
  · left
    have hne : a.sets = some .fail := by
      rcases ha with h | h
      · exact h
      · exact absurd (done_throws _ a (by rw [hd]; simp) h) ht
    rw [done_calm _ ht] at hd
    have hall : settled (nextScript d t w).all = some .fail := by
      rw [hd, settled_append, settled_fail a post hne hp]; rfl
    unfold Script.all at hall
    rw [settled_append] at hall
    refine (if_neg ht).trans ?_
    cases h1 : settled (executed (nextScript d t w).tearDown) with
    | some v => rw [h1] at hall; simpa using hall
    | none =>
      rw [h1] at hall
      simp only [Option.none_or] at hall
      rw [hall]; rfl

/-- C111: if an exception check that does not hold is executed, the test does not pass - whatever it did before, whether output is captured,
wherever its streams go, and whatever it executes afterwards - unless it sets its own status by hand afterwards. -/
theorem C111_not_undone (env : Env) (d : TestDef) (t : Nat) (cap : Bool) (w : World) (pre post : List Act) (a : Act)
    (hd : (nextScript d t w).done = pre ++ a :: post) (ha : a.excHolds = some false) (hp : ∀ b ∈ post, ∀ s, b ≠ .setStatus s) :
    ((run env d t (beginTest cap t w)).tc t).status = .fail ∨ ((run env d t (beginTest cap t w)).tc t).status = .error :=
  not_undone env d t cap w pre post a hd (excHolds_false a ha) hp

/-- C111: the same of every check and of FAIL, and of any exception the test lets out. -/
theorem C111_every_check (env : Env) (d : TestDef) (t : Nat) (cap : Bool) (w : World) (pre post : List Act) (a : Act)
    (hd : (nextScript d t w).done = pre ++ a :: post) (ha : a.failed.isSome ∨ a.thrown.isSome) (hp : ∀ b ∈ post, ∀ s, b ≠ .setStatus s) :
    ((run env d t (beginTest cap t w)).tc t).status = .fail ∨ ((run env d t (beginTest cap t w)).tc t).status = .error := by
  refine not_undone env d t cap w pre post a hd (ha.imp (fun h => ?_) id) hp
  unfold Act.sets
  split
  · simp [Act.failed] at h
  · rfl
  · rw [if_pos h]

/-- A test that sets its status, redirects a stream, fails an exception check and then goes on to a check that holds. -/
def stubborn : TestDef := ⟨[], [], fun _ => ⟨[], [.setStatus .success, .redirErr .stdout, .expectAnyThrow none ['f'] 3, .check true ['f'] 4 [] []], [.err ['x']]⟩⟩

/-- It meets the hypotheses. -/
example : ((run {} stubborn 0 (beginTest false 0 {})).tc 0).status = .fail ∨ ((run {} stubborn 0 (beginTest false 0 {})).tc 0).status = .error :=
  C111_not_undone {} stubborn 0 false {} [.setStatus .success, .redirErr .stdout] [.check true ['f'] 4 [] [], .err ['x']] (.expectAnyThrow none ['f'] 3)
    rfl rfl (by simp)

/-- Setting the status by hand afterwards does undo it. -/
example : ((run {} ⟨[], [], fun _ => { body := [.expectAnyThrow none ['f'] 3], tearDown := [.setStatus .success] }⟩ 0 (beginTest true 0 {})).tc 0).status = .success := rfl

end Falcon.Fut
