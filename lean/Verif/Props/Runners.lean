import Verif.Proofs.Runners4
import Verif.Props.Suite
/-
C143: a test case can be registered with several runners; each goes by its own registrations, and runners with different tests
do not influence each other.  Not so for the name, which belongs to the test case: the last registration counts, for all runners.
C144: runners and test cases live as documented: a program that keeps to it has no use of a deleted object, one that does not has.
Not so for singleton(), which goes on handing out the runner that main() has deleted.
-/
namespace Falcon.Fut

theorem RExec.named {env : Env} {fmt : Fmt} {canOpen : Bool} {scripts : Nat → Nat → Script} {w : World} {h : List (ROp × ROut)} {s : RS}
    (r : RExec env fmt canOpen (rstart scripts w) h s) : s.defs = named scripts h := funext fun t => r.rinv.defs t

/-! ### C143 -/

/-- C143: the run of a runner is the run of its own registrations, with the tests named as they were last named by anybody: all theorems on
a single runner apply to each of several. If everybody who registered a test gave it the same name, this is its name. -/
theorem C143_names_partial (env : Env) (fmt : Fmt) (canOpen : Bool) (scripts : Nat → Nat → Script) (w : World) (h : List (ROp × ROut)) (s : RS)
    (r : RExec env fmt canOpen (rstart scripts w) h s) (u : Nat) (x : UT) (hx : s.units u = some x) :
    x.tests = testsOfUnit h u ∧ (∀ n, findByName x n = knownAs h u n) ∧ (∀ t ∈ x.toPerform, t ∈ testsOfUnit h u) ∧
    (∀ s' out, rstep env fmt canOpen s (.perform u) = .ok (s', out) → ∃ d, performUnitTests env fmt canOpen (named scripts h) x s.w = .ok d ∧
      out = .code d.u.status d.log ∧ s'.w = d.w ∧ s'.units u = some d.u) ∧
    (∀ name s' c log, rstep env fmt canOpen s (.performTest u name) = .ok (s', .code c log) →
      ∃ x', Fut.performTest env (named scripts h) x s.w name = .ok (x', s'.w, c) ∧ s'.units u = some x') ∧
    ∀ t c n, t ∈ testsOfUnit h u → (∀ e ∈ namings h t, e = (c, n)) → (named scripts h t).fullName = c ++ "::".toList ++ n := by
  have i := r.rinv
  have ht := i.tests u x hx
  refine ⟨ht, i.known u x hx, fun t h1 => by rw [← ht]; exact i.picked u x hx t h1, ?_, ?_, ?_⟩
  · intro s' out hs
    unfold rstep at hs
    dsimp only at hs
    rw [hx] at hs
    dsimp only at hs
    split at hs
    · cases hs
    · rename_i d hd
      cases hs
      unfold runUnits at hd
      split at hd
      · cases hd
      exact ⟨d, by rw [← r.named]; exact hd, rfl, rfl, setUnit_self _ _ _⟩
  · intro name s' c log hs
    unfold rstep at hs
    dsimp only at hs
    rw [hx] at hs
    dsimp only at hs
    split at hs
    · cases hs
    split at hs
    · cases hs
    · split at hs
      · cases hs
      · rename_i x' w' c' hp
        cases hs
        exact ⟨x', by rw [← r.named]; exact hp, setUnit_self _ _ _⟩
  · intro t c n hm hn
    have hne : namings h t ≠ [] := by
      simp only [testsOfUnit, regs, List.mem_map, List.mem_filterMap] at hm
      obtain ⟨a, ⟨e, he, hv⟩, rfl⟩ := hm
      obtain ⟨op, out⟩ := e
      intro h0
      cases op <;> simp only [reduceCtorEq] at hv
      rename_i v c' n' t'
      split at hv
      · cases hv
        have : (c', n') ∈ namings h t' := by
          simp only [namings, List.mem_filterMap]
          exact ⟨_, he, by simp⟩
        dsimp only at h0
        rw [h0] at this
        cases this
      · cases hv
    have : (namings h t).getLast? = some (c, n) := by
      rw [List.getLast?_eq_some_getLast hne, hn _ (List.getLast_mem hne)]
    simp only [named, this, TestDef.fullName, Option.getD_some]

/-- C143: performTest looks a test up among the names it was registered with at this runner, first registration first, whatever other runners did since. -/
theorem C143_lookup (env : Env) (fmt : Fmt) (canOpen : Bool) (scripts : Nat → Nat → Script) (w : World) (h : List (ROp × ROut)) (s s' : RS)
    (r : RExec env fmt canOpen (rstart scripts w) h s) (u : Nat) (name : Str) (out : ROut) (hs : rstep env fmt canOpen s (.performTest u name) = .ok (s', out)) :
    match knownAs h u name with
    | none => out = .threw
    | some t => ∃ passed : Bool, out = .code (if passed then 0 else -1) [(1, t, passed)] := by
  have i := r.rinv
  unfold rstep at hs
  dsimp only at hs
  split at hs
  · cases hs
  · rename_i x hx
    rw [← i.known u x hx]
    split at hs
    · cases hs
    cases hf : findByName x name with
    | none => rw [hf] at hs; cases hs; rfl
    | some t =>
      rw [hf] at hs
      dsimp only at hs
      rcases performTest_ok env s.defs x s.w name t hf with e | ⟨st, w', lp, e, _⟩
      · rw [e] at hs; cases hs
      · rw [e] at hs; cases hs
        refine ⟨decide (st = .success), ?_⟩
        by_cases h1 : st = .success <;> simp [h1]

/-- C143: a runner runs tests that were registered with it, no others, and its exit code is about them. -/
theorem C143_own (env : Env) (fmt : Fmt) (canOpen : Bool) (scripts : Nat → Nat → Script) (w : World) (h : List (ROp × ROut)) (s s' : RS)
    (r : RExec env fmt canOpen (rstart scripts w) h s) (u : Nat) (op : ROp) (out : ROut) (ho : op = .perform u ∨ ∃ argv, op = .main u argv)
    (hs : rstep env fmt canOpen s op = .ok (s', out)) :
    out = .code 1 [] ∧ op ≠ .perform u ∨
    ∃ log, out = .code (if log.all (·.2.2) then 0 else -1) log ∧ (∀ e ∈ log, e.2.1 ∈ testsOfUnit h u) ∧ log.map (·.1) = List.range' 1 log.length := by
  have i := r.rinv
  have key : ∀ (x y : UT) (v : World) (d : Done), s.units u = some x → Settings x y → performUnitTests env fmt canOpen s.defs y v = .ok d →
      ∃ log, ROut.code d.u.status d.log = .code (if log.all (·.2.2) then 0 else -1) log ∧ (∀ e ∈ log, e.2.1 ∈ testsOfUnit h u) ∧ log.map (·.1) = List.range' 1 log.length := by
    intro x y v d hx q hd
    refine ⟨d.log, ?_, ?_, ?_⟩
    · obtain ⟨xs, lp, w1, g, m, p, l, e, ew⟩ := performUnitTests_ok _ _ _ _ _ _ _ hd
      have hst : d.u.status = if failures (xs.flatMap (·.2.1)) = 0 then 0 else -1 := by rw [e]
      have hall : d.log.all (·.2.2) = true ↔ failures (xs.flatMap (·.2.1)) = 0 := by
        rw [l, failures_zero]
        generalize xs.flatMap (·.2.1) = vs
        generalize (0 : Nat) = k
        induction vs generalizing k with
        | nil => simp [numbered]
        | cons a vs ih => simp [numbered, ih (k + 1)]
      rw [hst]
      by_cases hz : failures (xs.flatMap (·.2.1)) = 0
      · rw [if_pos hz, if_pos (hall.2 hz)]
      · rw [if_neg hz, if_neg (fun x => hz (hall.1 x))]
    · obtain ⟨xs, lp, w1, g, m, p, l, e, ew⟩ := performUnitTests_ok _ _ _ _ _ _ _ hd
      intro a ha
      have hw : Within (fun t => t ∈ testsOfUnit h u) y := (i.within hx (fun _ h => h)).settings q
      have : a.2.1 ∈ (xs.flatMap (·.2.1)).map Prod.fst := by
        have h1 : a.2.1 ∈ d.log.map (·.2.1) := List.mem_map.2 ⟨a, ha, rfl⟩
        rw [l, numbered_tests] at h1; exact h1
      simp only [List.mem_map, List.mem_flatMap] at this
      obtain ⟨v, ⟨z, hz, hv⟩, hva⟩ := this
      have h1 : v.1 ∈ z.1.tests := by rw [← m z hz]; exact List.mem_map.2 ⟨v, hv, rfl⟩
      have h2 : Part.after z ∈ d.u.comps := by rw [e]; exact List.mem_map.2 ⟨z, hz, rfl⟩
      rw [← hva]
      exact hw.sel _ ((perform_keeps hd).2.2.2 _ h2 v.1 h1).symm
    · obtain ⟨xs, lp, w1, g, m, p, l, e, ew⟩ := performUnitTests_ok _ _ _ _ _ _ _ hd
      rw [l]
      generalize xs.flatMap (·.2.1) = vs
      have : ∀ k, (numbered k vs).map (·.1) = List.range' (k + 1) (numbered k vs).length := by
        induction vs with
        | nil => intro k; rfl
        | cons a vs ih =>
          intro k
          simp only [numbered, List.map_cons, List.length_cons, List.range'_succ]
          rw [ih (k + 1)]
      exact this 0
  rcases ho with rfl | ⟨argv, rfl⟩
  · right
    unfold rstep at hs
    dsimp only at hs
    split at hs
    · cases hs
    · rename_i x hx
      split at hs
      · cases hs
      · rename_i d hd
        cases hs
        unfold runUnits at hd
        split at hd
        · cases hd
        exact key x x s.w d hx (.refl _) hd
  · unfold rstep at hs
    dsimp only at hs
    split at hs
    · cases hs
    · rename_i x hx
      split at hs
      · cases hs
      · rename_i y v c hp
        obtain ⟨q, _, hc⟩ := readArgv_shape _ _ _ _ _ _ _ hp
        split at hs
        · cases hs
          left
          rcases hc with hc | hc
          · contradiction
          · subst hc; exact ⟨rfl, by simp⟩
        · split at hs
          · cases hs
          · rename_i d hd
            cases hs
            right
            unfold runUnits at hd
            split at hd
            · cases hd
            exact key x y v d hx q hd

theorem unused_step {env : Env} {fmt : Fmt} {canOpen : Bool} {s s' : RS} {op : ROp} {out : ROut} {u : Nat} (hs : rstep env fmt canOpen s op = .ok (s', out))
    (hn : op ≠ .perform u ∧ ∀ args, op ≠ .options u args) (i : ∀ x, s.units u = some x → x.comps = [] ∧ x.toPerform = []) :
    ∀ x, s'.units u = some x → x.comps = [] ∧ x.toPerform = [] := by
  have upd : ∀ v y, (v = u → ∀ z, y = some z → z.comps = [] ∧ z.toPerform = []) → ∀ x, setUnit s.units v y u = some x → x.comps = [] ∧ x.toPerform = [] := by
    intro v y hy x hx
    unfold setUnit at hx
    split at hx
    · rename_i e; exact hy e.symm x hx
    · exact i x hx
  cases op with
  | make => cases hs; exact upd _ _ (fun _ z e => by cases e; exact ⟨rfl, rfl⟩)
  | singleton =>
    unfold rstep at hs
    dsimp only at hs
    split at hs
    · cases hs; exact i
    · cases hs; exact upd _ _ (fun _ z e => by cases e; exact ⟨rfl, rfl⟩)
  | add v c n t =>
    unfold rstep at hs
    dsimp only at hs
    split at hs
    · cases hs
    · rename_i x hx
      split at hs
      · cases hs
      · cases hs; exact upd _ _ (fun e z ez => by cases ez; subst e; exact i x hx)
  | verbosity v n =>
    unfold rstep at hs
    dsimp only at hs
    split at hs
    · cases hs
    · rename_i x hx
      cases hs; exact upd _ _ (fun e z ez => by cases ez; subst e; exact i x hx)
  | options v args =>
    unfold rstep at hs
    dsimp only at hs
    split at hs
    · cases hs
    · split at hs
      · cases hs
      · cases hs; exact upd _ _ (fun e z ez => by subst e; exact absurd rfl (hn.2 args))
  | perform v =>
    unfold rstep at hs
    dsimp only at hs
    split at hs
    · cases hs
    · split at hs
      · cases hs
      · cases hs; exact upd _ _ (fun e z ez => by subst e; exact absurd rfl hn.1)
  | performTest v name =>
    unfold rstep at hs
    dsimp only at hs
    split at hs
    · cases hs
    · rename_i x hx
      split at hs
      · cases hs
      split at hs
      · cases hs; exact upd _ _ (fun e z ez => by cases ez; subst e; exact i x hx)
      · rename_i t hf
        rcases performTest_ok env s.defs x s.w name t hf with e | ⟨st, w', lp, e, _⟩
        · rw [e] at hs; cases hs
        · rw [e] at hs; cases hs; exact upd _ _ (fun e z ez => by cases ez; subst e; exact i x hx)
  | main v argv =>
    unfold rstep at hs
    dsimp only at hs
    split at hs
    · cases hs
    · split at hs
      · cases hs
      · split at hs
        · cases hs; exact upd _ _ (fun _ z ez => by cases ez)
        · split at hs
          · cases hs
          · cases hs; exact upd _ _ (fun _ z ez => by cases ez)
  | dropUnit v =>
    unfold rstep at hs
    dsimp only at hs
    split at hs
    · cases hs
    · cases hs; exact upd _ _ (fun _ z ez => by cases ez)
  | dropTest t =>
    unfold rstep at hs
    dsimp only at hs
    split at hs
    · cases hs
    · cases hs; exact i

/-- C143: the first run of a runner, with no selection, runs exactly the tests that were registered with it, each as often as it was registered there,
by component and in the order of their registration. -/
theorem C143_all (env : Env) (fmt : Fmt) (canOpen : Bool) (scripts : Nat → Nat → Script) (w : World) (h : List (ROp × ROut)) (s s' : RS)
    (r : RExec env fmt canOpen (rstart scripts w) h s) (u : Nat) (op : ROp) (out : ROut) (ho : op = .perform u ∨ op = .main u [] ∨ ∃ exe, op = .main u [exe])
    (hu : Unused h u) (hs : rstep env fmt canOpen s op = .ok (s', out)) :
    ∃ c log, out = .code c log ∧ Grouped (fun t => (named scripts h t).component) 1 (testsOfUnit h u) (log.map (·.2.1)) ∧
      ∀ t, (log.map (·.2.1)).count t = (testsOfUnit h u).count t := by
  have i := r.rinv
  have fresh : ∀ {s0 : RS} {k : List (ROp × ROut)} {s : RS}, RExec env fmt canOpen s0 k s → Unused k u → (∀ x, s0.units u = some x → x.comps = [] ∧ x.toPerform = []) →
      ∀ x, s.units u = some x → x.comps = [] ∧ x.toPerform = [] := by
    intro s0 k s r
    induction r with
    | nil => intro _ h; exact h
    | cons st _ ih =>
      intro hu h
      exact ih (fun e he => hu e (by simp [he])) (unused_step st (hu _ (List.mem_cons_self ..)) h)
  have hnew := fresh r hu (by intro x hx; cases hx)
  have key : ∀ (x y : UT) (v : World) (d : Done), s.units u = some x → y.tests = x.tests → y.comps = x.comps → y.toPerform = x.toPerform →
      performUnitTests env fmt canOpen s.defs y v = .ok d →
      ∃ c log, ROut.code d.u.status d.log = .code c log ∧ Grouped (fun t => (named scripts h t).component) 1 (testsOfUnit h u) (log.map (·.2.1)) ∧
        ∀ t, (log.map (·.2.1)).count t = (testsOfUnit h u).count t := by
    intro x y v d hx e1 e2 e3 hd
    obtain ⟨n1, n2⟩ := hnew x hx
    obtain ⟨order, new, _, _, g, cnt, o, _⟩ := C87_order env fmt canOpen s.defs y v d (by rw [e2, n1]) hd
    rw [e3, n2, if_pos rfl, e1, i.tests u x hx] at g cnt
    exact ⟨_, _, rfl, by rw [o, ← r.named]; exact g, by rw [o]; exact cnt⟩
  have run : ∀ (x y : UT) (v : World) (d : Done), s.units u = some x → y.tests = x.tests → y.comps = x.comps → y.toPerform = x.toPerform →
      runUnits env fmt canOpen s y v = .ok d →
      ∃ c log, ROut.code d.u.status d.log = .code c log ∧ Grouped (fun t => (named scripts h t).component) 1 (testsOfUnit h u) (log.map (·.2.1)) ∧
        ∀ t, (log.map (·.2.1)).count t = (testsOfUnit h u).count t := by
    intro x y v d hx e1 e2 e3 hd
    unfold runUnits at hd
    split at hd
    · cases hd
    exact key x y v d hx e1 e2 e3 hd
  have main : ∀ argv, (argv = [] ∨ ∃ exe, argv = [exe]) → rstep env fmt canOpen s (.main u argv) = .ok (s', out) →
      ∃ c log, out = .code c log ∧ Grouped (fun t => (named scripts h t).component) 1 (testsOfUnit h u) (log.map (·.2.1)) ∧
        ∀ t, (log.map (·.2.1)).count t = (testsOfUnit h u).count t := by
    intro argv ha hs
    unfold rstep at hs
    dsimp only at hs
    split at hs
    · cases hs
    · rename_i x hx
      have : ∃ y, readArgv env.sep x s.w argv = .ok (y, s.w, 0) ∧ y.tests = x.tests ∧ y.comps = x.comps ∧ y.toPerform = x.toPerform := by
        rcases ha with rfl | ⟨exe, rfl⟩
        · exact ⟨x, rfl, rfl, rfl, rfl⟩
        · refine ⟨detectTestName env.sep x exe, ?_, rfl, rfl, rfl⟩
          show parseParams _ _ [] = _
          rw [parseParams.eq_def]
      obtain ⟨y, ey, e1, e2, e3⟩ := this
      rw [ey] at hs
      dsimp only at hs
      rw [if_neg (by simp)] at hs
      split at hs
      · cases hs
      · rename_i d hd
        cases hs
        exact run x y s.w d hx e1 e2 e3 hd
  rcases ho with rfl | rfl | ⟨exe, rfl⟩
  · unfold rstep at hs
    dsimp only at hs
    split at hs
    · cases hs
    · rename_i x hx
      split at hs
      · cases hs
      · rename_i d hd
        cases hs
        exact run x x s.w d hx rfl rfl rfl hd
  · exact main _ (.inl rfl) hs
  · exact main _ (.inr ⟨exe, rfl⟩) hs

/-- C143: if no test of runner `u` is registered with another one, everything `u` returns - exit codes, verdicts, exceptions - is what it returns in the
program without all calls on other runners. Tests do not redirect the standard streams themselves. -/
theorem C143_independent (env : Env) (fmt : Fmt) (canOpen : Bool) (scripts : Nat → Nat → Script) (hk : ∀ t k, (scripts t k).KeepsStreams) (w : World) (hw : Fresh w)
    (h g : List (ROp × ROut)) (s s' : RS) (r : RExec env fmt canOpen (rstart scripts w) h s) (u : Nat) (hu : Exclusive h u)
    (r' : RExec env fmt canOpen (rstart scripts w) g s') (hg : g.map Prod.fst = (alone u h).map Prod.fst) : g = alone u h := by
  have hs : Sane w := ⟨hw.ne, hw.outB, hw.errB⟩
  refine RExec.alone_eq hk (T := fun t => t ∈ testsOfUnit h u) (.start scripts w) ⟨rfl, rfl, rfl, fun _ _ => rfl, fun _ => rfl, fun _ => rfl, rfl, ?_, ⟨hs, hs, fun _ _ => rfl, fun _ _ => rfl⟩⟩
    r r' hg (fun t ht => ht) (fun v hv t ht h1 => hv (hu t h1 v ht))
  intro x x' e; cases e

/-! ### C144 -/

/-- C144: exactly the calls that break the rules use a deleted object: a runner that was never handed out, was deleted or has had its main(); a test
that was deleted; or deletes it twice. All others give a result, or read a value that nobody set
(the number behind -v, the line of a failure set by hand). -/
theorem C144_sound_partial (env : Env) (fmt : Fmt) (canOpen : Bool) (scripts : Nat → Nat → Script) (w : World) (h : List (ROp × ROut)) (s : RS)
    (r : RExec env fmt canOpen (rstart scripts w) h s) (op : ROp) :
    (Sound h (Accepts h) op → (∃ x, rstep env fmt canOpen s op = .ok x) ∨ rstep env fmt canOpen s op = .error (.ub .uninitRead)) ∧
    (¬ Sound h (Accepts h) op → rstep env fmt canOpen s op = .error (.ub .useAfterFree) ∨ rstep env fmt canOpen s op = .error (.ub .doubleFree)) := by
  have i := r.rinv
  have alive : ∀ u, (Given h u ∧ ¬ Over h u) ↔ ∃ x, s.units u = some x := by
    intro u; rw [← i.units u, Option.isSome_iff_exists]
  have dead : ∀ u, ¬ (Given h u ∧ ¬ Over h u) → s.units u = none := by
    intro u hu
    cases e : s.units u with
    | none => rfl
    | some x => exact absurd ((alive u).2 ⟨x, e⟩) hu
  have clean : ∀ u x, s.units u = some x → ((∀ t ∈ testsOfUnit h u, ¬ Deleted h t) ↔ touchesFreed s x = false) := by
    intro u x hx
    rw [← i.tests u x hx]
    unfold touchesFreed
    rw [List.any_eq_false]
    constructor
    · intro h1 t ht h2; exact h1 t ht ((i.freed t).1 h2)
    · intro h1 t ht h2; exact h1 t ht ((i.freed t).2 h2)
  have free : ∀ t, ¬ Deleted h t ↔ s.freed t = false := by
    intro t; rw [← i.freed t]; simp
  have run : ∀ (u : Nat) (x y : UT) (v : World), s.units u = some x → y.tests = x.tests →
      ((∀ t ∈ testsOfUnit h u, ¬ Deleted h t) → (∃ d, runUnits env fmt canOpen s y v = .ok d) ∨ runUnits env fmt canOpen s y v = .error (.ub .uninitRead)) ∧
      (¬ (∀ t ∈ testsOfUnit h u, ¬ Deleted h t) → runUnits env fmt canOpen s y v = .error (.ub .useAfterFree)) := by
    intro u x y v hx ht
    have e : touchesFreed s y = touchesFreed s x := by simp only [touchesFreed, ht]
    unfold runUnits
    rw [e]
    constructor
    · intro hd
      rw [(clean u x hx).1 hd]
      simp only [Bool.false_eq_true, if_false]
      cases hp : performUnitTests env fmt canOpen s.defs y v with
      | ok d => exact .inl ⟨d, rfl⟩
      | error e => exact .inr (by rw [performUnitTests_error _ _ _ _ _ _ _ hp])
    · intro hd
      have : touchesFreed s x = true := by
        cases hb : touchesFreed s x with
        | true => rfl
        | false => exact absurd ((clean u x hx).2 hb) hd
      rw [this]; rfl
  cases op with
  | make => exact ⟨fun _ => .inl ⟨_, rfl⟩, fun hn => absurd trivial hn⟩
  | singleton =>
    refine ⟨fun _ => .inl ?_, fun hn => absurd trivial hn⟩
    unfold rstep
    dsimp only
    split <;> exact ⟨_, rfl⟩
  | add u c n t =>
    unfold Sound rstep
    dsimp only
    by_cases hu : Given h u ∧ ¬ Over h u
    · obtain ⟨x, hx⟩ := (alive u).1 hu
      rw [hx, free t]
      dsimp only
      cases s.freed t with
      | true => exact ⟨fun h => by simp at h, fun _ => .inl rfl⟩
      | false => exact ⟨fun _ => .inl ⟨_, rfl⟩, fun hn => absurd ⟨hu, rfl⟩ hn⟩
    · rw [dead u hu]
      exact ⟨fun h => absurd h.1 hu, fun _ => .inl rfl⟩
  | verbosity u n =>
    unfold Sound rstep
    dsimp only
    by_cases hu : Given h u ∧ ¬ Over h u
    · obtain ⟨x, hx⟩ := (alive u).1 hu
      rw [hx]
      exact ⟨fun _ => .inl ⟨_, rfl⟩, fun hn => absurd hu hn⟩
    · rw [dead u hu]
      exact ⟨fun h => absurd h hu, fun _ => .inl rfl⟩
  | options u args =>
    unfold Sound rstep
    dsimp only
    by_cases hu : Given h u ∧ ¬ Over h u
    · obtain ⟨x, hx⟩ := (alive u).1 hu
      rw [hx]
      refine ⟨fun _ => ?_, fun hn => absurd hu hn⟩
      dsimp only
      cases hp : parseParams x s.w args with
      | ok y => exact .inl ⟨_, rfl⟩
      | error e =>
        have := parse_out x s.w args
        rw [hp] at this
        cases this
        exact .inr rfl
    · rw [dead u hu]
      exact ⟨fun h => absurd h hu, fun _ => .inl rfl⟩
  | perform u =>
    unfold Sound rstep
    dsimp only
    by_cases hu : Given h u ∧ ¬ Over h u
    · obtain ⟨x, hx⟩ := (alive u).1 hu
      rw [hx]
      obtain ⟨r1, r2⟩ := run u x x s.w hx rfl
      dsimp only
      constructor
      · intro hd
        rcases r1 hd.2 with ⟨d, e⟩ | e
        · rw [e]; exact .inl ⟨_, rfl⟩
        · rw [e]; exact .inr rfl
      · intro hn
        rw [r2 (fun hd => hn ⟨hu, hd⟩)]; exact .inl rfl
    · rw [dead u hu]
      exact ⟨fun h => absurd h.1 hu, fun _ => .inl rfl⟩
  | performTest u name =>
    unfold Sound rstep
    dsimp only
    by_cases hu : Given h u ∧ ¬ Over h u
    · obtain ⟨x, hx⟩ := (alive u).1 hu
      rw [hx]
      dsimp only
      cases hb : touchesFreed s x with
      | true =>
        refine ⟨fun hd => ?_, fun _ => .inl rfl⟩
        have := (clean u x hx).1 hd.2
        rw [hb] at this; cases this
      | false =>
        refine ⟨fun _ => ?_, fun hn => absurd ⟨hu, (clean u x hx).2 hb⟩ hn⟩
        simp only [Bool.false_eq_true, if_false]
        cases hf : findByName x name with
        | none => exact .inl ⟨_, rfl⟩
        | some t =>
          rcases performTest_ok env s.defs x s.w name t hf with e | ⟨st, w', lp, e, _⟩
          · rw [e]; exact .inr rfl
          · rw [e]; exact .inl ⟨_, rfl⟩
    · rw [dead u hu]
      exact ⟨fun h => absurd h.1 hu, fun _ => .inl rfl⟩
  | main u argv =>
    unfold Sound rstep
    dsimp only
    by_cases hu : Given h u ∧ ¬ Over h u
    · obtain ⟨x, hx⟩ := (alive u).1 hu
      rw [hx]
      dsimp only
      have hz := readArgv_zero env.sep x s.w argv
      have hacc : Accepts h u argv ↔ ∃ x' w', readArgv env.sep x s.w argv = .ok (x', w', 0) := by
        rw [hz]
        unfold Accepts
        rw [show findByName x = knownAs h u from funext (i.known u x hx)]
      cases hp : readArgv env.sep x s.w argv with
      | error e =>
        rw [readArgv_error _ _ _ _ _ hp]
        refine ⟨fun _ => .inr rfl, fun hn => absurd ⟨hu, fun ha => ?_⟩ hn⟩
        obtain ⟨x', w', e'⟩ := hacc.1 ha
        rw [hp] at e'; cases e'
      | ok y =>
        obtain ⟨y, v, c⟩ := y
        dsimp only
        by_cases hc : c = 0
        · subst hc
          obtain ⟨q, _, _⟩ := readArgv_shape _ _ _ _ _ _ _ hp
          obtain ⟨r1, r2⟩ := run u x y v hx q.tests
          rw [if_neg (by simp)]
          have ha : Accepts h u argv := hacc.2 ⟨y, v, hp⟩
          constructor
          · intro hd
            rcases r1 (hd.2 ha) with ⟨d, e⟩ | e
            · rw [e]; exact .inl ⟨_, rfl⟩
            · rw [e]; exact .inr rfl
          · intro hn
            rw [r2 (fun hd => hn ⟨hu, fun _ => hd⟩)]; exact .inl rfl
        · rw [if_pos hc]
          refine ⟨fun _ => .inl ⟨_, rfl⟩, fun hn => absurd ⟨hu, fun ha => ?_⟩ hn⟩
          obtain ⟨x', w', e'⟩ := hacc.1 ha
          rw [hp] at e'; cases e'; exact absurd rfl hc
    · rw [dead u hu]
      exact ⟨fun h => absurd h.1 hu, fun _ => .inl rfl⟩
  | dropUnit u =>
    unfold Sound rstep
    dsimp only
    by_cases hu : Given h u ∧ ¬ Over h u
    · obtain ⟨x, hx⟩ := (alive u).1 hu
      rw [hx]
      exact ⟨fun _ => .inl ⟨_, rfl⟩, fun hn => absurd hu hn⟩
    · rw [dead u hu]
      exact ⟨fun h => absurd h hu, fun _ => .inr rfl⟩
  | dropTest t =>
    unfold Sound rstep
    dsimp only
    rw [free t]
    cases s.freed t with
    | true => exact ⟨fun h => by simp at h, fun _ => .inr rfl⟩
    | false => exact ⟨fun _ => .inl ⟨_, rfl⟩, fun hn => absurd rfl hn⟩

theorem make_not_single {env : Env} {fmt : Fmt} {canOpen : Bool} {s s' : RS} {k : List (ROp × ROut)} (r : RExec env fmt canOpen s k s') (P : Nat → Prop)
    (i : (∀ v, P v → v < s.made ∧ s.single ≠ some v) ∧ ∀ v, s.single = some v → v < s.made) :
    (∀ v, P v ∨ (ROp.make, ROut.runner v) ∈ k → v < s'.made ∧ s'.single ≠ some v) ∧ ∀ v, s'.single = some v → v < s'.made := by
  induction r generalizing P with
  | nil => exact ⟨fun v h => i.1 v (by simpa using h), i.2⟩
  | cons st _ ih =>
    rename_i s s1 s' op out k _
    have key : (∀ v, P v ∨ (ROp.make, ROut.runner v) = (op, out) → v < s1.made ∧ s1.single ≠ some v) ∧ ∀ v, s1.single = some v → v < s1.made := by
      cases rstep_shape st with
      | make =>
        refine ⟨fun v hv => ?_, fun v hv => Nat.lt_succ_of_lt (i.2 v hv)⟩
        rcases hv with hv | hv
        · exact ⟨Nat.lt_succ_of_lt (i.1 v hv).1, (i.1 v hv).2⟩
        · cases hv
          exact ⟨Nat.lt_succ_self _, fun e => Nat.lt_irrefl _ (i.2 _ e)⟩
      | again u hu => exact ⟨fun v hv => i.1 v (by simpa using hv), i.2⟩
      | first hu =>
        refine ⟨fun v hv => ?_, fun v hv => ?_⟩
        · have hv : P v := by simpa using hv
          refine ⟨Nat.lt_succ_of_lt (i.1 v hv).1, fun e => ?_⟩
          cases e
          exact Nat.lt_irrefl _ (i.1 _ hv).1
        · cases hv; exact Nat.lt_succ_self _
      | add => exact ⟨fun v hv => i.1 v (hv.elim id (fun e => by cases e)), i.2⟩
      | dropTest => exact ⟨fun v hv => i.1 v (hv.elim id (fun e => by cases e)), i.2⟩
      | keep _ _ u x x' w hx ho => exact ⟨fun v hv => i.1 v (hv.elim id (fun e => absurd (Prod.mk.inj e).2.symm (ho v))), i.2⟩
      | gone _ _ u x w hx ho => exact ⟨fun v hv => i.1 v (hv.elim id (fun e => absurd (Prod.mk.inj e).2.symm (ho v))), i.2⟩
    have := ih (fun v => P v ∨ (ROp.make, ROut.runner v) = (op, out)) key
    refine ⟨fun v hv => this.1 v ?_, this.2⟩
    rcases hv with hv | hv
    · exact .inl (.inl hv)
    · rcases List.mem_cons.1 hv with hv | hv
      · exact .inl (.inr hv)
      · exact .inr hv

/-- C144: singleton() gives the same runner all the time, none that was made otherwise; it can be used as long as it was not deleted and main() was not called on it. -/
theorem C144_singleton_partial (env : Env) (fmt : Fmt) (canOpen : Bool) (scripts : Nat → Nat → Script) (w : World) (h : List (ROp × ROut)) (s : RS)
    (r : RExec env fmt canOpen (rstart scripts w) h s) :
    ∃ s' u, rstep env fmt canOpen s .singleton = .ok (s', .runner u) ∧ (∀ v, (ROp.singleton, ROut.runner v) ∈ h → v = u) ∧
      (∀ v, (ROp.make, ROut.runner v) ∈ h → v ≠ u) ∧ ∀ n, (rstep env fmt canOpen s' (.verbosity u n) ≠ .error (.ub .useAfterFree) ↔ ¬ Over h u) := by
  have i := r.rinv
  have m := (make_not_single r (fun _ => False) ⟨fun v hv => hv.elim, fun v hv => by cases hv⟩)
  cases hsg : s.single with
  | some u =>
    have hg : Given h u := ⟨_, (i.single u).1 hsg⟩
    refine ⟨s, u, by unfold rstep; dsimp only; rw [hsg], fun v hv => ?_, fun v hv e => ?_, fun n => ?_⟩
    · have := (i.single v).2 hv
      rw [hsg] at this; cases this; rfl
    · subst e; exact (m.1 v (.inr hv)).2 hsg
    · unfold rstep
      dsimp only
      cases hx : s.units u with
      | none =>
        simp only [ne_eq, not_true_eq_false, false_iff, Classical.not_not]
        apply Classical.byContradiction
        intro ho
        have := (i.units u).2 ⟨hg, ho⟩
        rw [hx] at this; cases this
      | some x =>
        have := (i.units u).1 (by rw [hx]; rfl)
        simp [this.2]
  | none =>
    refine ⟨{ s.new with single := some s.made }, s.made, by unfold rstep; dsimp only; rw [hsg], fun v hv => ?_, fun v hv e => ?_, fun n => ?_⟩
    · have := (i.single v).2 hv
      rw [hsg] at this; cases this
    · subst e; exact Nat.lt_irrefl _ (m.1 _ (.inr hv)).1
    · have ho : ¬ Over h s.made := fun x => Nat.lt_irrefl _ ((i.given _).1 (i.main _ x))
      unfold rstep
      have : ({ s.new with single := some s.made } : RS).units s.made = some {} := setUnit_self _ _ _
      dsimp only at this ⊢
      rw [this]
      simp [ho]

end Falcon.Fut
