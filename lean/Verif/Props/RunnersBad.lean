import Verif.Props.Runners
/- C143, C144: what does not hold, with programs that show it; and programs the theorems speak about. -/
namespace Falcon.Fut

theorem rrun_exec {env : Env} {fmt : Fmt} {canOpen : Bool} {s s' : RS} {ops : List ROp} {outs : List ROut} (h : rrun env fmt canOpen s ops = .ok (s', outs)) :
    RExec env fmt canOpen s (ops.zip outs) s' := by
  induction ops generalizing s outs with
  | nil => cases h; exact .nil
  | cons op ops ih =>
    unfold rrun at h
    split at h
    · cases h
    · rename_i s1 o e
      split at h
      · cases h
      · rename_i s2 os e2
        cases h
        exact .cons e (ih e2)

theorem RExec.last {env : Env} {fmt : Fmt} {canOpen : Bool} {s s' : RS} {h : List (ROp × ROut)} {op : ROp} {out : ROut}
    (r : RExec env fmt canOpen s (h ++ [(op, out)]) s') : ∃ s1, RExec env fmt canOpen s h s1 ∧ rstep env fmt canOpen s1 op = .ok (s', out) := by
  induction h generalizing s with
  | nil =>
    cases r with
    | cons st r => cases r; exact ⟨_, .nil, st⟩
  | cons e h ih =>
    cases r with
    | cons st r =>
      obtain ⟨s1, r1, r2⟩ := ih r
      exact ⟨s1, .cons st r1, r2⟩

/-- Two runners; test 7 is registered as A::x with the first and as B::y with the second. -/
def twoNames : List ROp := [.make, .make, .add 0 ['A'] ['x'] 7, .add 1 ['B'] ['y'] 7]

/-- C143 does not hold: a test registered with a runner as A::x is found there by that name, but not reported under it once another runner knows it as B::y. -/
theorem C143_names_refuted : ¬ ∀ (env : Env) (fmt : Fmt) (canOpen : Bool) (scripts : Nat → Nat → Script) (h : List (ROp × ROut)) (s s' : RS) (u t : Nat) (c n : Str),
    RExec env fmt canOpen (rstart scripts {}) h s → (∀ e ∈ h, ∀ c' n', e.1 = .add u c' n' t → c' = c ∧ n' = n) → (ROp.add u c n t, ROut.done) ∈ h →
    rstep env fmt canOpen s (.performTest u (c ++ "::".toList ++ n)) = .ok (s', .code 0 [(1, t, true)]) →
    c ++ "::".toList ++ n <:+: s'.w.content .stdout := by
  intro H
  have key : (rrun {} secFmt true (rstart (fun _ _ => {}) {}) (twoNames ++ [.performTest 0 ['A', ':', ':', 'x']])).toOption.map
      (fun r => (r.2, decide ('A' ∈ r.1.w.content .stdout))) = some ([.runner 0, .runner 1, .done, .done, .code 0 [(1, 7, true)]], false) := by decide +kernel
  cases hr : rrun {} secFmt true (rstart (fun _ _ => {}) {}) (twoNames ++ [.performTest 0 ['A', ':', ':', 'x']]) with
  | error e => rw [hr] at key; cases key
  | ok r =>
    obtain ⟨s', outs⟩ := r
    rw [hr] at key
    simp only [Except.toOption, Option.map_some, Option.some.injEq, Prod.mk.injEq, decide_eq_false_iff_not] at key
    obtain ⟨rfl, hA⟩ := key
    obtain ⟨s, r1, r2⟩ := RExec.last (h := twoNames.zip [.runner 0, .runner 1, .done, .done]) (rrun_exec hr)
    have := H {} secFmt true (fun _ _ => {}) _ s s' 0 7 ['A'] ['x'] r1 (by
      intro e he c' n' ee
      simp only [twoNames, List.zip_cons_cons, List.zip_nil_right, List.mem_cons, List.not_mem_nil, or_false] at he
      rcases he with rfl | rfl | rfl | rfl <;> simp at ee
      exact ⟨ee.1.symm, ee.2.symm⟩) (by simp [twoNames]) r2
    exact hA (this.subset (by simp))

/-- Nor is it found under the name it is reported with. -/
example : (rrun {} secFmt true (rstart (fun _ _ => {}) {}) (twoNames ++ [.performTest 0 ['B', ':', ':', 'y'], .performTest 1 ['B', ':', ':', 'y']])).toOption.map Prod.snd =
    some [.runner 0, .runner 1, .done, .done, .threw, .code 0 [(1, 7, true)]] := by decide +kernel

/-- C144 does not hold: the runner singleton() gives after main() was called on it is a deleted one. -/
theorem C144_singleton_refuted : ¬ ∀ (env : Env) (fmt : Fmt) (canOpen : Bool) (scripts : Nat → Nat → Script) (h : List (ROp × ROut)) (s s' : RS) (u : Nat),
    RExec env fmt canOpen (rstart scripts {}) h s → rstep env fmt canOpen s .singleton = .ok (s', .runner u) →
    ∃ s'', rstep env fmt canOpen s' (.verbosity u 2) = .ok (s'', .done) := by
  intro H
  have key : (rrun {} secFmt true (rstart (fun _ _ => {}) {}) [.singleton, .main 0 [], .singleton]).toOption.map
      (fun r => (r.2, (r.1.units 0).isSome)) = some ([.runner 0, .code 0 [], .runner 0], false) := by decide +kernel
  cases hr : rrun {} secFmt true (rstart (fun _ _ => {}) {}) [.singleton, .main 0 [], .singleton] with
  | error e => rw [hr] at key; cases key
  | ok r =>
    obtain ⟨s', outs⟩ := r
    rw [hr] at key
    simp only [Except.toOption, Option.map_some, Option.some.injEq, Prod.mk.injEq] at key
    obtain ⟨rfl, hu⟩ := key
    obtain ⟨s, r1, r2⟩ := RExec.last (h := [(ROp.singleton, ROut.runner 0), (.main 0 [], .code 0 [])]) (rrun_exec hr)
    obtain ⟨s'', h2⟩ := H {} secFmt true (fun _ _ => {}) _ s s' 0 r1 r2
    have hn : s'.units 0 = none := by cases e : s'.units 0 with
      | none => rfl
      | some x => rw [e] at hu; cases hu
    unfold rstep at h2
    dsimp only at h2
    rw [hn] at h2
    cases h2

/-! Programs with two runners: what they share and what not. -/

/-- Runner 0 has tests 1 and 2 (2 fails), runner 1 has test 3; their calls are mixed. -/
def mixed : List ROp := [.make, .add 0 ['B'] ['x'] 1, .make, .add 1 ['A'] ['x'] 3, .add 0 ['A'] ['x'] 2, .verbosity 1 0, .perform 1, .perform 0, .performTest 0 ['A', ':', ':', 'x'],
  .main 1 [['p'], ['-', 'z']], .dropTest 3, .performTest 0 ['C', ':', ':', 'x'], .main 0 []]
def mixedTests : Nat → Nat → Script := fun t k => if t = 2 ∧ k < 2 then { body := [.check false ['f'] 3 ['e'] []] } else {}

example : (rrun {} secFmt true (rstart mixedTests {}) mixed).toOption.map Prod.snd =
    some [.runner 0, .done, .runner 1, .done, .done, .done, .code 0 [(1, 3, true)], .code (-1) [(1, 2, false), (2, 1, true)], .code (-1) [(1, 2, false)],
      .code 1 [], .done, .threw, .code 0 [(1, 2, true), (2, 2, true), (3, 1, true), (4, 1, true)]] := by decide +kernel
/-- The same without runner 1: the answers of the others are the same. -/
example : (rrun {} secFmt true (rstart mixedTests {}) (mixed.filter (fun op => !op.foreign 0))).toOption.map Prod.snd =
    some [.runner 0, .done, .runner 1, .done, .code (-1) [(1, 2, false), (2, 1, true)], .code (-1) [(1, 2, false)],
      .done, .threw, .code 0 [(1, 2, true), (2, 2, true), (3, 1, true), (4, 1, true)]] := by decide +kernel
example : ∀ t k, (mixedTests t k).KeepsStreams := by
  intro t k a ha
  unfold mixedTests at ha
  split at ha
  · simp only [List.nil_append, List.append_nil, List.mem_singleton] at ha; subst ha; rfl
  · simp at ha
/-- A runner used after main(), a test used after it was deleted. -/
example : (rrun {} secFmt true (rstart mixedTests {}) [.make, .main 0 [], .perform 0]).toOption.isNone = true ∧
    (rrun {} secFmt true (rstart mixedTests {}) [.make, .add 0 ['A'] ['x'] 1, .dropTest 1, .performTest 0 ['q']]).toOption.isNone = true ∧
    (rrun {} secFmt true (rstart mixedTests {}) [.make, .add 0 ['A'] ['x'] 1, .dropTest 1, .main 0 [['p'], ['-', 'h']]]).toOption.isNone = false := by decide +kernel
/-- Tests shared by two runners: the first leaves its verdict to the second only through the test. -/
example : (rrun {} secFmt true (rstart mixedTests {}) [.make, .make, .add 0 ['A'] ['x'] 2, .add 1 ['A'] ['x'] 2, .perform 0, .perform 1, .perform 0]).toOption.map Prod.snd =
    some [.runner 0, .runner 1, .done, .done, .code (-1) [(1, 2, false)], .code (-1) [(1, 2, false)], .code 0 [(1, 2, true), (2, 2, true)]] := by decide +kernel

end Falcon.Fut
