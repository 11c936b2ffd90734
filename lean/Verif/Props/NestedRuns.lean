import Verif.Props.Nested
/- C142: runs of concrete suites whose tests call the runner. -/
namespace Falcon.Fut

/-! ### The property fails -/

def always (sc : NScript) : Nat → NScript := fun _ => sc

/-- `c::a` fails; `c::b` runs `c::c` through the runner; `c::c` passes. -/
def nestedDefs : Nat → NDef
  | 0 => ⟨['c'], ['a'], always { body := [.act (.check false ['f'] 7 ['x'] ['y'])] }⟩
  | 1 => ⟨['c'], ['b'], always { body := [.performEq "c::c".toList 0 ['f'] 9 ['z']] }⟩
  | 2 => ⟨['c'], ['c'], always { body := [.act (.step 1)] }⟩
  | 3 => ⟨['c'], ['d'], always { body := [.act (.failNow ['f'] 7 ['x']), .perform "c::c".toList] }⟩
  | 4 => ⟨['c'], ['e'], always { body := [.performEq "c::a".toList (-1) ['f'] 9 ['z']] }⟩
  | _ => ⟨['c'], ['s'], fun k => if k = 0 then { body := [.perform "c::s".toList] } else { body := [.act (.out ['o'])] }⟩

/-- A runner with the first tests registered and some of them selected. -/
def nestedUT (sel : List Nat) : UT := { registered (fun t => (nestedDefs t).label) [0, 1, 2, 3, 4, 5] with toPerform := sel, verbosity := 0 }

/-- What the examples look at. -/
def seen (sel : List Nat) (depth : Nat) : Option (Int × List (Nat × Bool) × List Nat × Option Nat × Buf) :=
  (nperformUnitTests {} secFmt true depth nestedDefs (nestedUT sel) {}).toOption.map
    (fun d => (d.u.status, runVerdicts d.evs, d.u.comps.map Comp.failures, d.u.failedCount, d.w.cout))

theorem seen_some {sel : List Nat} {depth : Nat} {r : Int × List (Nat × Bool) × List Nat × Option Nat × Buf} (h : seen sel depth = some r) :
    ∃ d, nperformUnitTests {} secFmt true depth nestedDefs (nestedUT sel) {} = .ok d ∧
      (d.u.status, runVerdicts d.evs, d.u.comps.map Comp.failures, d.u.failedCount, d.w.cout) = r := by
  unfold seen at h
  cases hd : nperformUnitTests {} secFmt true depth nestedDefs (nestedUT sel) {} with
  | error e => rw [hd] at h; cases h
  | ok d => rw [hd] at h; exact ⟨d, rfl, Option.some.inj h⟩

/-- A run that performs a failing test returns success: the test after it called performTest. -/
theorem C142_failure_lost_refuted :
    ∃ d, nperformUnitTests {} secFmt true 1 nestedDefs (nestedUT [0, 1, 2]) {} = .ok d ∧
      d.u.status = 0 ∧ runVerdicts d.evs = [(0, false), (1, true), (2, true)] ∧ d.u.comps.map Comp.failures = [1] ∧ d.u.failedCount = some 0 := by
  obtain ⟨d, h, e⟩ := seen_some (sel := [0, 1, 2]) (depth := 1) (r := (0, [(0, false), (1, true), (2, true)], [1], some 0, .stdout)) (by decide +kernel)
  simp only [Prod.mk.injEq] at e
  exact ⟨d, h, e.1, e.2.1, e.2.2.1, e.2.2.2.1⟩

/-- A test that has failed (statement `FAIL`) passes after all if it then calls performTest. -/
theorem C142_own_failure_lost_refuted :
    ∃ d, nperformUnitTests {} secFmt true 1 nestedDefs (nestedUT [3]) {} = .ok d ∧ d.u.status = 0 ∧ runVerdicts d.evs = [(3, true)] := by
  obtain ⟨d, h, e⟩ := seen_some (sel := [3]) (depth := 1) (r := (0, [(3, true)], [0], some 0, .stdout)) (by decide +kernel)
  simp only [Prod.mk.injEq] at e
  exact ⟨d, h, e.1, e.2.1⟩

/-- A test that expects another one to fail passes, and the run fails. -/
theorem C142_expected_failure_refuted :
    ∃ d, nperformUnitTests {} secFmt true 1 nestedDefs (nestedUT [4]) {} = .ok d ∧
      d.u.status = -1 ∧ runVerdicts d.evs = [(4, true)] ∧ d.u.failedCount = some 0 := by
  obtain ⟨d, h, e⟩ := seen_some (sel := [4]) (depth := 1) (r := (-1, [(4, true)], [0], some 0, .stdout)) (by decide +kernel)
  simp only [Prod.mk.injEq] at e
  exact ⟨d, h, e.1, e.2.1, e.2.2.2.1⟩

/-- A test that performs itself leaves std::cout redirected into its own buffer for good. -/
theorem C142_streams_lost_refuted :
    ∃ d, nperformUnitTests {} secFmt true 2 nestedDefs (nestedUT [5]) {} = .ok d ∧ d.w.cout = .capOut 5 ∧ d.u.status = 0 := by
  obtain ⟨d, h, e⟩ := seen_some (sel := [5]) (depth := 2) (r := (0, [(5, true)], [0], some 0, .capOut 5)) (by decide +kernel)
  simp only [Prod.mk.injEq] at e
  exact ⟨d, h, e.2.2.2.2, e.1⟩

/-! ### The hypotheses are met -/

/-- Tests that call performTest before anything fails: the value is right. -/
example : ∃ d, nperformUnitTests {} secFmt true 1 nestedDefs (nestedUT [1, 2, 0]) {} = .ok d ∧ d.u.status = -1 ∧
    runVerdicts d.evs = [(1, true), (2, true), (0, false)] ∧ NeverReentered d.evs ∧ ResetsFirst d.evs := by
  have key : (nperformUnitTests {} secFmt true 1 nestedDefs (nestedUT [1, 2, 0]) {}).toOption.map (fun d => (d.u.status, d.evs)) = some (-1,
      [.reset, .began false 1, .reset, .began true 2, .ended true 2 true, .ended false 1 true, .began false 2, .ended false 2 true, .began false 0, .ended false 0 false]) := by
    decide +kernel
  cases hd : nperformUnitTests {} secFmt true 1 nestedDefs (nestedUT [1, 2, 0]) {} with
  | error e => rw [hd] at key; cases key
  | ok d =>
    rw [hd] at key
    have key := Option.some.inj key
    simp only [Prod.mk.injEq] at key
    refine ⟨d, rfl, key.1, ?_, ?_, ?_⟩
    · rw [key.2]; rfl
    · unfold NeverReentered; rw [key.2]; decide
    · intro pre post n t h hm
      rw [key.2] at h
      rcases pre with _ | ⟨a, _ | ⟨b, _ | ⟨c, pre⟩⟩⟩
      · cases hm
      · simp at h
      · simp only [List.cons_append, List.nil_append, List.cons.injEq] at h
        obtain ⟨rfl, rfl, -⟩ := h
        simp at hm
      · simp only [List.cons_append, List.cons.injEq] at h
        have : FEv.reset ∈ ([.began true 2, .ended true 2 true, .ended false 1 true, .began false 2, .ended false 2 true, .began false 0, .ended false 0 false] : List FEv) := by
          rw [h.2.2.2]; simp
        revert this; decide

/-- The tests of the examples leave the streams alone. -/
example (t k : Nat) : ((nestedDefs t).script k).KeepsStreams := by
  intro a ha b
  unfold nestedDefs at ha
  by_cases hk : k = 0 <;> split at ha <;> simp [always, NScript.all, hk] at ha <;> (try rcases ha with rfl | rfl) <;> simp_all

/-- Tests that change the verbosity only. -/
example : ∃ d, nperformUnitTests {} secFmt true 0 (fun _ => ⟨['c'], ['v'], always { body := [.verbosity 0, .act (.failNow ['f'] 3 ['m'])] }⟩)
    { tests := [0], verbosity := 2 } {} = .ok d ∧ d.u.status = -1 ∧ runVerdicts d.evs = [(0, false)] := by
  have key : (nperformUnitTests {} secFmt true 0 (fun _ => ⟨['c'], ['v'], always { body := [.verbosity 0, .act (.failNow ['f'] 3 ['m'])] }⟩)
      { tests := [0], verbosity := 2 } {}).toOption.map (fun d => (d.u.status, runVerdicts d.evs)) = some (-1, [(0, false)]) := by
    decide +kernel
  revert key
  generalize nperformUnitTests {} secFmt true 0 _ _ _ = A
  intro key
  cases A with
  | error e => cases key
  | ok d =>
    have key := Option.some.inj key
    simp only [Prod.mk.injEq] at key
    exact ⟨d, rfl, key.1, key.2⟩

/-- The text of the exception for an unknown name. -/
example : txtTest ++ "c::x".toList ++ txtNotFound = "Test 'c::x' not found".toList := by decide

/-- The value of a nested call of a test that passes, and of one nobody registered. -/
example : (performAt {} nestedDefs 1 ⟨nestedUT [], {}, []⟩ "c::c".toList).toOption.map (fun x => (x.2, x.1.evs)) =
    some (some 0, [.reset, .began true 2, .ended true 2 true]) ∧
    (performAt {} nestedDefs 1 ⟨nestedUT [], {}, []⟩ "c::x".toList).toOption.map (fun x => x.2) = some none := by
  constructor <;> decide +kernel

/-- A test that expects -1 of a test that passes. -/
def perfExample : NDef := ⟨['c'], ['k'], always { body := [.act (.step 3), .performEq "c::c".toList (-1) ['f'] 9 ['z']] }⟩

/-- The state in which it comes to that statement. -/
def exampleMid : NSt :=
  let w0 : World := enter (World.setTc {} 6 { ({} : World).tc 6 with status := .none, runs := 1 }) (.setUp 6)
  let w1 := enter (markBegin {} w0 6) (.body 6)
  ⟨nestedUT [], { w1 with tr := w1.tr ++ [.step 6 3] }, []⟩

/-- The hypotheses of C142_check_partial: test 6 expects -1 of a test that passes. -/
example : ∃ s1 s2 s', (perfExample : NDef).script 0 = { body := [.act (.step 3), .performEq "c::c".toList (-1) ['f'] 9 ['z']] } ∧
    ReachesInBody {} (performAt {} nestedDefs 1) perfExample 6 ⟨nestedUT [], {}, []⟩ [.act (.step 3)] s1 ∧
    performAt {} nestedDefs 1 s1 "c::c".toList = .ok (s2, some 0) ∧
    nrun {} (performAt {} nestedDefs 1) perfExample 6 ⟨nestedUT [], {}, []⟩ = .ok s' := by
  obtain ⟨s2, h2⟩ : ∃ s2, performAt {} nestedDefs 1 exampleMid "c::c".toList = .ok (s2, some 0) := by
    have key : (performAt {} nestedDefs 1 exampleMid "c::c".toList).toOption.map (fun x => x.2) = some (some 0) := by decide +kernel
    cases h : performAt {} nestedDefs 1 exampleMid "c::c".toList with
    | error e => rw [h] at key; cases key
    | ok x => rw [h] at key; exact ⟨x.1, by rw [← Option.some.inj key]⟩
  obtain ⟨s', h'⟩ : ∃ s', nrun {} (performAt {} nestedDefs 1) perfExample 6 ⟨nestedUT [], {}, []⟩ = .ok s' := by
    have key : (nrun {} (performAt {} nestedDefs 1) perfExample 6 ⟨nestedUT [], {}, []⟩).toOption.isSome = true := by decide +kernel
    cases h : nrun {} (performAt {} nestedDefs 1) perfExample 6 ⟨nestedUT [], {}, []⟩ with
    | error e => rw [h] at key; cases key
    | ok x => exact ⟨x, rfl⟩
  exact ⟨exampleMid, s2, s', rfl, ⟨_, .nil _, .cons rfl (.nil _)⟩, h2, h'⟩

end Falcon.Fut
