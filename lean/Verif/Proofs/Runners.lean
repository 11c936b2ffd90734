import Verif.Spec.Runners
import Verif.Proofs.UnitTest3
import Verif.Props.UnitTest
/- Lemmas about programs with several test runners: what the calls keep, and the invariant that ties the state to the history. -/
namespace Falcon.Fut

/-! ### parseParams -/

/-- Between them only the settings changed; tests picked by -t are known by name. -/
structure Settings (x x' : UT) : Prop where
  tests  : x'.tests = x.tests
  byName : x'.byName = x.byName
  comps  : x'.comps = x.comps
  picked : ∀ t ∈ x'.toPerform, t ∈ x.toPerform ∨ ∃ n, findByName x n = some t

theorem Settings.refl (x : UT) : Settings x x := ⟨rfl, rfl, rfl, fun _ h => .inl h⟩

theorem Settings.trans {x y z : UT} (h : Settings x y) (h' : Settings y z) : Settings x z := by
  refine ⟨h'.tests.trans h.tests, h'.byName.trans h.byName, h'.comps.trans h.comps, fun t ht => ?_⟩
  rcases h'.picked t ht with h1 | ⟨n, hn⟩
  · exact h.picked t h1
  · exact .inr ⟨n, by rw [← hn]; simp only [findByName, h.byName]⟩

/-- The world after printing on the two streams. -/
structure Printed (w w' : World) : Prop where
  cout : w'.cout = w.cout
  cerr : w'.cerr = w.cerr
  tc   : w'.tc = w.tc
  content : ∀ b, b ≠ w.cout → b ≠ w.cerr → w'.content b = w.content b

theorem Printed.refl (w : World) : Printed w w := ⟨rfl, rfl, rfl, fun _ _ _ => rfl⟩
theorem Printed.print (w : World) (s : Str) : Printed w (print w s) := ⟨rfl, rfl, rfl, fun b h _ => by simp [Fut.print, World.put, h]⟩

theorem invalid_shape (x : UT) (w : World) : ∃ w', invalid x w = .ok (x, w', 1) ∧ Printed w w' := by
  refine ⟨Fut.print (w.put w.cerr "Invalid options\n".toList) usageText, by unfold invalid; rfl, rfl, rfl, rfl, fun b h1 h2 => ?_⟩
  unfold Fut.print World.put
  dsimp only
  rw [if_neg h1, if_neg h2]

theorem parse_shape (x : UT) (w : World) (args : List Str) (x' : UT) (w' : World) (c : Int) (h : parseParams x w args = .ok (x', w', c)) :
    Settings x x' ∧ Printed w w' ∧ (c = 0 ∨ c = 1) := by
  have key : ∀ n (x : UT) (args : List Str), args.length ≤ n → ∀ x' w' c, parseParams x w args = .ok (x', w', c) →
      Settings x x' ∧ Printed w w' ∧ (c = 0 ∨ c = 1) := by
    intro n
    induction n with
    | zero =>
      intro x args hl x' w' c h
      cases args with
      | nil => rw [parseParams.eq_def] at h; cases h; exact ⟨.refl _, .refl _, .inl rfl⟩
      | cons => simp at hl
    | succ n ih =>
      intro x args hl x' w' c h
      cases args with
      | nil => rw [parseParams.eq_def] at h; cases h; exact ⟨.refl _, .refl _, .inl rfl⟩
      | cons opt rest =>
        simp only [List.length_cons, Nat.add_le_add_iff_right] at hl
        have hinv : ∀ {x' w' c}, invalid x w = .ok (x', w', c) → Settings x x' ∧ Printed w w' ∧ (c = 0 ∨ c = 1) := by
          intro x' w' c h
          obtain ⟨w1, e, p⟩ := invalid_shape x w
          rw [e] at h; cases h; exact ⟨.refl _, p, .inr rfl⟩
        have go : ∀ (y : UT) (r : List Str), r.length ≤ n → parseParams y w r = .ok (x', w', c) → Settings x y →
            Settings x x' ∧ Printed w w' ∧ (c = 0 ∨ c = 1) := by
          intro y r hr h hs
          obtain ⟨a, b, d⟩ := ih y r hr _ _ _ h
          exact ⟨hs.trans a, b, d⟩
        rw [parseParams.eq_def] at h
        dsimp only at h
        split at h
        · exact go _ _ hl h ⟨rfl, rfl, rfl, fun _ h => .inl h⟩
        split at h
        · exact go _ _ hl h ⟨rfl, rfl, rfl, fun _ h => .inl h⟩
        split at h
        · exact go _ _ hl h ⟨rfl, rfl, rfl, fun _ h => .inl h⟩
        split at h
        · cases h; exact ⟨.refl _, .print _ _, .inr rfl⟩
        split at h
        · exact hinv h
        · rename_i a rest'
          simp only [List.length_cons] at hl
          have hl' : rest'.length ≤ n := by omega
          split at h
          · split at h
            · cases h
            · split at h
              · exact go _ _ hl' h ⟨rfl, rfl, rfl, fun _ h => .inl h⟩
              · exact hinv h
          split at h
          · split at h
            · cases h; exact ⟨.refl _, .print _ _, .inr rfl⟩
            · rename_i t hf
              refine go _ _ hl' h ⟨rfl, rfl, rfl, fun v hv => ?_⟩
              simp only [List.mem_append, List.mem_singleton] at hv
              rcases hv with hv | rfl
              · exact .inl hv
              · exact .inr ⟨_, hf⟩
          split at h
          · exact go _ _ hl' h ⟨rfl, rfl, rfl, fun _ h => .inl h⟩
          split at h
          · exact go _ _ hl' h ⟨rfl, rfl, rfl, fun _ h => .inl h⟩
          split at h
          · exact go _ _ hl' h ⟨rfl, rfl, rfl, fun _ h => .inl h⟩
          · exact hinv h
  exact key _ x args (Nat.le_refl _) _ _ _ h

theorem readArgv_shape (sep : Char) (x : UT) (w : World) (argv : List Str) (x' : UT) (w' : World) (c : Int) (h : readArgv sep x w argv = .ok (x', w', c)) :
    Settings x x' ∧ Printed w w' ∧ (c = 0 ∨ c = 1) := by
  cases argv with
  | nil => cases h; exact ⟨.refl _, .refl _, .inl rfl⟩
  | cons exe args =>
    obtain ⟨a, b, d⟩ := parse_shape _ _ _ _ _ _ h
    exact ⟨⟨a.tests, a.byName, a.comps, a.picked⟩, b, d⟩

theorem readArgv_zero (sep : Char) (x : UT) (w : World) (argv : List Str) :
    (∃ x' w', readArgv sep x w argv = .ok (x', w', 0)) ↔ argv = [] ∨ ∃ exe, ∃ os : List Opt, argv = exe :: os.flatMap Opt.words ∧ ∀ o ∈ os, o.valid (findByName x) := by
  cases argv with
  | nil => simp [readArgv]
  | cons exe args =>
    simp only [readArgv, reduceCtorEq, false_or]
    constructor
    · rintro ⟨x', w', h⟩
      have := parse_out (detectTestName sep x exe) w args
      rw [h] at this
      cases this with
      | good os h1 h2 => exact ⟨exe, os, by rw [h1], h2⟩
    · rintro ⟨exe', os, e, hv⟩
      cases e
      exact ⟨_, _, parse_valid (detectTestName sep x exe) w os hv⟩

theorem readArgv_error (sep : Char) (x : UT) (w : World) (argv : List Str) (e : Fault) (h : readArgv sep x w argv = .error e) : e = .ub .uninitRead := by
  cases argv with
  | nil => cases h
  | cons exe args =>
    have := parse_out (detectTestName sep x exe) w args
    simp only [readArgv] at h
    rw [h] at this
    cases this
    rfl

/-! ### What can go wrong in a run -/

theorem utEnd_error (defs : Nat → TestDef) (u : UT) (n t : Nat) (w : World) (e : Fault) (h : utEnd defs u n t w = .error e) : e = .ub .uninitRead := by
  unfold utEnd at h
  split at h
  · rename_i e' he
    cases h
    unfold endTest at he
    split at he
    · split at he
      · cases he
      · cases he; rfl
    · cases he
  · unfold showVerdict at h
    split at h
    · cases h
    split at h
    · split at h
      · cases h; rfl
      · cases h
    split at h <;> cases h

theorem performOne_error (env : Env) (defs : Nat → TestDef) (s : RunSt) (t : Nat) (e : Fault) (h : performOne env defs s t = .error e) : e = .ub .uninitRead := by
  unfold performOne at h
  dsimp only at h
  split at h
  · rename_i e' he
    cases h
    exact utEnd_error _ _ _ _ _ _ he
  · split at h <;> cases h

theorem performTests_error (env : Env) (defs : Nat → TestDef) (ts : List Nat) (s : RunSt) (e : Fault) (h : performTests env defs s ts = .error e) : e = .ub .uninitRead := by
  induction ts generalizing s with
  | nil => cases h
  | cons t ts ih =>
    unfold performTests at h
    split at h
    · rename_i e' he
      cases h; exact performOne_error _ _ _ _ _ he
    · split at h
      · rename_i e' he
        cases h; exact ih _ he
      · cases h

theorem performComps_error (env : Env) (defs : Nat → TestDef) (cs : List Comp) (s : RunSt) (e : Fault) (h : performComps env defs s cs = .error e) : e = .ub .uninitRead := by
  induction cs generalizing s with
  | nil => cases h
  | cons c cs ih =>
    unfold performComps at h
    simp only [readClock] at h
    split at h
    · rename_i e' he
      cases h; exact performTests_error _ _ _ _ _ he
    · split at h
      · rename_i e' he
        cases h; exact ih _ he
      · cases h

theorem xmlCases_error (fmt : Fmt) (defs : Nat → TestDef) (u : UT) (w : World) (cn : Str) (ts : List Nat) (e : Fault) (h : xmlCases fmt defs u w cn ts = .error e) : e = .ub .uninitRead := by
  induction ts with
  | nil => cases h
  | cons t ts ih =>
    unfold xmlCases at h
    split at h
    · rename_i e' he
      cases h
      unfold xmlCase at he
      dsimp only at he
      split at he
      · cases he
      · split at he
        · cases he; rfl
        · cases he
    · split at h
      · rename_i e' he
        cases h; exact ih he
      · cases h

theorem xmlComps_error (fmt : Fmt) (defs : Nat → TestDef) (u : UT) (w : World) (cs : List Comp) (e : Fault) (h : xmlComps fmt defs u w cs = .error e) : e = .ub .uninitRead := by
  induction cs with
  | nil => cases h
  | cons c cs ih =>
    unfold xmlComps at h
    split at h
    · rename_i e' he
      cases h; exact xmlCases_error _ _ _ _ _ _ _ he
    · split at h
      · rename_i e' he
        cases h; exact ih he
      · cases h

theorem performUnitTests_error (env : Env) (fmt : Fmt) (canOpen : Bool) (defs : Nat → TestDef) (u : UT) (w : World) (e : Fault)
    (h : performUnitTests env fmt canOpen defs u w = .error e) : e = .ub .uninitRead := by
  unfold performUnitTests at h
  simp only at h
  split at h
  · rename_i e' he
    cases h
    unfold runAllTests at he
    simp only [readClock] at he
    split at he
    · rename_i e'' he'
      cases he; exact performComps_error _ _ _ _ _ he'
    · cases he
  · split at h
    · cases h
    · split at h
      · split at h
        · rename_i e' he
          cases h
          unfold xmlText at he
          split at he
          · cases he; rfl
          · rename_i e'' hx _
            cases he; exact xmlComps_error _ _ _ _ _ _ hx
          · cases he
        · cases h
      · cases h

theorem endTest_tick_eq (cap : Bool) (t : Nat) (w w' : World) (k : Nat) (h : endTest cap t { w with tick := k } = .ok w') :
    ∃ w0, endTest cap t w = .ok w0 ∧ w' = { w0 with tick := k } := by
  unfold endTest at h ⊢
  cases cap with
  | false => cases h; exact ⟨w, rfl, rfl⟩
  | true =>
    simp only [if_true] at h ⊢
    split at h
    · rename_i o e ho he
      cases h
      rw [ho, he]
      exact ⟨_, rfl, rfl⟩
    · cases h

/-- performTest on a test that is known. -/
theorem performTest_ok (env : Env) (defs : Nat → TestDef) (x : UT) (w : World) (name : Str) (t : Nat) (hf : findByName x name = some t) :
    Fut.performTest env defs x w name = .error (.ub .uninitRead) ∨
    ∃ st w' lp, Fut.performTest env defs x w name = .ok ({ x with status := if st = Status.success then 0 else -1, failedCount := some 0, lapse := lp }, w', if st = Status.success then 0 else -1) ∧
      Performed env defs x.capture x.loud (init x w).2 [(t, st)] w' := by
  have hf' : findByName (init x w).1 name = some t := hf
  unfold Fut.performTest
  simp only [hf', readClock]
  obtain ⟨w1, a1, e1⟩ := utBegin_eq defs (init x w).1 1 t (init x w).2
  rw [e1]
  generalize hwr : run env (defs t) t { beginTest (init x w).1.capture t w1 with tick := (beginTest (init x w).1.capture t w1).tick + 1 } = wr
  cases he : utEnd defs { (init x w).1 with lapse := ⟨env.clock (beginTest (init x w).1.capture t w1).tick, env.clock wr.tick⟩ } 1 t { wr with tick := wr.tick + 1 } with
  | error e => left; rw [utEnd_error _ _ _ _ _ _ he]
  | ok w2 =>
    right
    obtain ⟨w3, g1, g2⟩ := utEnd_ok _ _ _ _ _ _ he
    obtain ⟨w0, g3, g4⟩ := endTest_tick_eq _ _ _ _ _ g1
    have hst : (w2.tc t).status = (w0.tc t).status := by rw [g2.tc, g4]
    have hwr' : run env (defs t) t (beginTest x.capture t { w1 with tick := w1.tick + 1 }) = wr := by
      rw [← hwr]
      congr 1
      show beginTest x.capture t { w1 with tick := w1.tick + 1 } = { beginTest x.capture t w1 with tick := (beginTest x.capture t w1).tick + 1 }
      cases x.capture <;> rfl
    have hp : Performed env defs x.capture x.loud (init x w).2 [(t, (w0.tc t).status)] w2 := by
      refine .test (a1.trans (Aside.tick w1 (w1.tick + 1))) (w2 := w0) ?_ (.done ?_)
      · rw [hwr']; exact g3
      · exact Aside.trans (w' := w3) (by rw [g4]; exact Aside.tick _ _) g2
    refine ⟨(w0.tc t).status, w2, ⟨env.clock (beginTest (init x w).1.capture t w1).tick, env.clock wr.tick⟩, ?_, hp⟩
    simp only [hasPassed_eq, hst]
    by_cases hs : (w0.tc t).status = .success
    · simp only [hs, decide_true, if_true, init]
    · simp only [hs, decide_false, Bool.false_eq_true, if_false, init]

/-! ### The history and the state -/

theorem regs_append (h k : List (ROp × ROut)) (u : Nat) : regs (h ++ k) u = regs h u ++ regs k u := by simp [regs]
theorem testsOfUnit_append (h k : List (ROp × ROut)) (u : Nat) : testsOfUnit (h ++ k) u = testsOfUnit h u ++ testsOfUnit k u := by
  simp [testsOfUnit, regs_append]
theorem namings_append (h k : List (ROp × ROut)) (t : Nat) : namings (h ++ k) t = namings h t ++ namings k t := by simp [namings]

/-- What the state has to do with the history. -/
structure RInv (scripts : Nat → Nat → Script) (h : List (ROp × ROut)) (s : RS) : Prop where
  given  : ∀ u, Given h u ↔ u < s.made
  units  : ∀ u, (s.units u).isSome = true ↔ Given h u ∧ ¬ Over h u
  freed  : ∀ t, s.freed t = true ↔ Deleted h t
  single : ∀ u, s.single = some u ↔ (ROp.singleton, ROut.runner u) ∈ h
  tests  : ∀ u x, s.units u = some x → x.tests = testsOfUnit h u
  known  : ∀ u x, s.units u = some x → ∀ n, findByName x n = knownAs h u n
  picked : ∀ u x, s.units u = some x → ∀ t ∈ x.toPerform, t ∈ x.tests
  comps  : ∀ u x, s.units u = some x → ∀ c ∈ x.comps, ∀ t ∈ c.tests, t ∈ x.tests
  defs   : ∀ t, s.defs t = ⟨((namings h t).getLast?.getD ([], [])).1, ((namings h t).getLast?.getD ([], [])).2, scripts t⟩
  main   : ∀ u, Over h u → Given h u
  reg    : ∀ u, ¬ Given h u → regs h u = []

theorem setUnit_self (f : Nat → Option UT) (u : Nat) (x : Option UT) : setUnit f u x u = x := by simp [setUnit]
theorem setUnit_ne (f : Nat → Option UT) {u v : Nat} (x : Option UT) (h : v ≠ u) : setUnit f u x v = f v := by simp [setUnit, h]

theorem RInv.start (scripts : Nat → Nat → Script) (w : World) : RInv scripts [] (rstart scripts w) := by
  refine ⟨?_, ?_, ?_, ?_, ?_, ?_, ?_, ?_, ?_, ?_, ?_⟩ <;>
    simp [Given, Over, Deleted, rstart, namings, regs]

end Falcon.Fut
