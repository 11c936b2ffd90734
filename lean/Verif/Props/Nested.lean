import Verif.Proofs.Nested2
import Verif.Props.UnitTest
/-
C142: tests that run other tests through the runner. The runner is one object, so performTest, called from inside
a test, resets and rewrites the results of the run that is under way.
-/
namespace Falcon.Fut

/-- performUnitTests as a run of the tests, what the report leaves alone, and what is returned. -/
theorem nperformUnitTests_run (env : Env) (fmt : Fmt) (canOpen : Bool) (depth : Nat) (defs : Nat → NDef) (u : UT) (w : World) (d : NDone)
    (h : nperformUnitTests env fmt canOpen depth defs u w = .ok d) :
    ∃ s, nrunAllTests env (performAt env defs depth) defs
        (NSt.mk (if u.toPerform = [] then { (NSt.mk u w []).reset.u with toPerform := u.tests } else (NSt.mk u w []).reset.u) (NSt.mk u w []).reset.w [.reset]) = .ok s ∧
      d.u = s.u ∧ d.evs = s.evs ∧ Like s.w d.w := by
  unfold nperformUnitTests at h
  dsimp only at h
  change (match nrunAllTests env (performAt env defs depth) defs
        (NSt.mk (if u.toPerform = [] then { (NSt.mk u w []).reset.u with toPerform := u.tests } else (NSt.mk u w []).reset.u) (NSt.mk u w []).reset.w [.reset]) with
        | .error e => _ | .ok s => _) = _ at h
  split at h
  · cases h
  · rename_i s hs
    refine ⟨s, hs, ?_⟩
    have a := (report_aside fmt (fun t => (defs t).label) s.u s.w).like
    split at h
    · cases h; exact ⟨rfl, rfl, a⟩
    · split at h
      · split at h
        · cases h
        · cases h; exact ⟨rfl, rfl, a⟩
      · cases h; exact ⟨rfl, rfl, a.trans ⟨rfl, rfl, rfl⟩⟩

/-! ### What holds -/

/-- C142, what the value says, for all tests, calls and nesting: a failure since the results were last reset, by the
run or by a test that called performTest. The count of failures, which the XML report shows, is that of the failures of the
run's own tests since then. -/
theorem C142_status_partial (env : Env) (fmt : Fmt) (canOpen : Bool) (depth : Nat) (defs : Nat → NDef) (u : UT) (w : World) (d : NDone)
    (h : nperformUnitTests env fmt canOpen depth defs u w = .ok d) :
    (d.u.status = 0 ∨ d.u.status = -1) ∧ (d.u.status ≠ 0 ↔ FailedSinceReset d.evs) ∧ d.u.failedCount = some (runFailuresSinceReset d.evs) := by
  obtain ⟨s, hs, e1, e2, -⟩ := nperformUnitTests_run _ _ _ _ _ _ _ _ h
  have i0 := StatusInv.reset (NSt.mk u w [])
  have := nrunAllTests_keeps env _ defs StatusInv (fun s w _ h => ⟨h.code, h.failed, h.count⟩) (fun s l cs h => ⟨h.code, h.failed, h.count⟩)
    (fun t s s' ho hI => StatusInv.one false _ _ _ _ _ _ (StatusInv.performAt env defs depth) ho hI) _ _ hs
    (by split <;> exact ⟨i0.code, i0.failed, i0.count⟩)
  rw [e1, e2]
  exact ⟨this.code, this.failed, this.count⟩

/-- C142: the value is right about everything that was performed if nothing had failed when a test called performTest. -/
theorem C142_right_partial (env : Env) (fmt : Fmt) (canOpen : Bool) (depth : Nat) (defs : Nat → NDef) (u : UT) (w : World) (d : NDone)
    (h : nperformUnitTests env fmt canOpen depth defs u w = .ok d) (hr : ResetsFirst d.evs) :
    d.u.status = 0 ↔ ∀ nested t p, FEv.ended nested t p ∈ d.evs → p = true := by
  obtain ⟨-, hf, -⟩ := C142_status_partial env fmt canOpen depth defs u w d h
  constructor
  · intro h0 n t p hm
    cases p with
    | true => rfl
    | false =>
      exfalso
      obtain ⟨pre, post, hs⟩ := List.append_of_mem hm
      refine hf.2 ⟨pre, n, t, post, hs, fun hr' => ?_⟩ h0
      obtain ⟨a, b, hb⟩ := List.append_of_mem hr'
      refine hr (pre ++ .ended n t false :: a) b n t (by rw [hs, hb]; simp) (by simp)
  · intro ha
    refine Classical.byContradiction fun h0 => ?_
    obtain ⟨pre, n, t, post, hs, -⟩ := hf.1 h0
    exact nomatch ha n t false (by rw [hs]; simp)

/-- C142: whatever the tests call, the run performs the selected tests, each component's failures are those of its tests, and
every registered test is listed as failed unless the last verdict on it, not wiped out by a reset, is that it passed. -/
theorem C142_run_partial (env : Env) (fmt : Fmt) (canOpen : Bool) (depth : Nat) (defs : Nat → NDef) (u : UT) (w : World) (d : NDone)
    (h : nperformUnitTests env fmt canOpen depth defs u w = .ok d) :
    (∃ xs : List (Comp × List (Nat × Bool)),
      groupTests (fun t => (defs t).label) u.comps (if u.toPerform = [] then u.tests else u.toPerform) = xs.map Prod.fst ∧
      (∀ x ∈ xs, x.2.map Prod.fst = x.1.tests) ∧ runVerdicts d.evs = xs.flatMap Prod.snd ∧
      d.u.comps.map (fun c => (c.name, c.tests, c.failures)) = xs.map (fun x => (x.1.name, x.1.tests, x.1.failures + x.2.countP (fun v => !v.2)))) ∧
    ∀ t ∈ u.tests, (t ∈ failedList d.u d.w ↔ ¬ StandsPassed t d.evs) := by
  obtain ⟨s, hs, e1, e2, hl⟩ := nperformUnitTests_run _ _ _ _ _ _ _ _ h
  constructor
  · unfold nrunAllTests at hs
    dsimp only at hs
    split at hs
    · cases hs
    · rename_i s1 cs h1
      cases hs
      obtain ⟨xs, f1, f2, f3, f4⟩ := nperformComps_verdicts env _ defs (fun L => runVerdicts_performAt env defs depth L) _ _ _ _ _ h1
      refine ⟨xs, ?_, f2, ?_, ?_⟩
      · rw [← f1]; split <;> rfl
      · rw [e2]; show runVerdicts s1.evs = _; rw [f3]; rfl
      · rw [e1]; exact f4
  · have i0 := LeftInv.reset u.tests [] (NSt.mk u w []) rfl
    have := nrunAllTests_keeps env _ defs (LeftInv u.tests []) (fun s w hl h => ⟨h.1, fun t ht hn => by
        show (w.tc t).status = _ ↔ _
        rw [hl.tc]; exact h.2 t ht hn⟩) (fun s l cs h => h)
      (fun t s s' ho hI => LeftInv.one false _ _ _ _ _ _ _ _ (LeftInv.performAt env defs u.tests depth) ho hI) _ _ hs
      (by split <;> exact i0)
    intro t ht
    rw [e1, e2]
    unfold failedList
    rw [List.mem_filter, this.1, hasPassed_eq, hl.tc]
    rw [← this.2 t ht (by simp)]
    simp [ht]

/-- C142: std::cout and std::cerr are put back, however tests perform other tests, if no test redirects them itself and
none is performed while it is under way. -/
theorem C142_streams_partial (env : Env) (fmt : Fmt) (canOpen : Bool) (depth : Nat) (defs : Nat → NDef) (u : UT) (w : World) (d : NDone)
    (hq : ∀ t k, ((defs t).script k).KeepsStreams) (h : nperformUnitTests env fmt canOpen depth defs u w = .ok d) (hn : NeverReentered d.evs) :
    d.w.cout = w.cout ∧ d.w.cerr = w.cerr := by
  obtain ⟨s, hs, e1, e2, hl⟩ := nperformUnitTests_run _ _ _ _ _ _ _ _ h
  have i0 : StreamInv u.capture w.cout w.cerr [] (NSt.mk u w []) := ⟨rfl, fun st' h' => by cases h'; exact ⟨rfl, rfl, rfl⟩⟩
  have := nrunAllTests_keeps env _ defs (StreamInv u.capture w.cout w.cerr [])
    (fun s w hl h => ⟨h.1, fun st' h' => ⟨(h.2 st' h').1, (h.2 st' h').2.like hl⟩⟩) (fun s l cs h => h)
    (fun t s s' ho hI => StreamInv.one false _ _ _ _ _ _ _ _ _ _ hq (StreamInv.performAt env defs _ _ _ hq depth) ho hI) _ _ hs
    (by split <;> exact i0.reset)
  cases hw : underWay s.evs with
  | none => exact absurd (by rw [e2, hw]) hn
  | some st =>
    have := (this.2 st hw).2
    rw [hl.cout, hl.cerr]
    exact this

/-! ### Tests that do not call performTest -/

theorem nexec_nocalls (env : Env) (perf perf' : Perf) (t : Nat) (as : List NAct) (s : NSt) (h : ∀ a ∈ as, a.calls = false) :
    nexec env perf t s as = nexec env perf' t s as := by
  induction as generalizing s with
  | nil => rfl
  | cons a as ih =>
    have ha : nact env perf t s a = nact env perf' t s a := by
      have := h a (by simp)
      cases a with
      | act a => rfl
      | verbosity v => rfl
      | perform n => cases this
      | performEq => cases this
    unfold nexec
    rw [ha]
    split
    · rfl
    · exact ih _ (fun a ha => h a (by simp [ha]))
    · rfl
    · rfl

theorem nrun_nocalls (env : Env) (perf perf' : Perf) (d : NDef) (t : Nat) (s : NSt) (h : ∀ k, ∀ a ∈ (d.script k).all, a.calls = false) :
    nrun env perf d t s = nrun env perf' d t s := by
  unfold nrun
  dsimp only
  have h' := h (s.w.tc t).runs
  rw [nexec_nocalls env perf perf' t _ _ (fun a ha => h' a (by simp [NScript.all, ha]))]
  split
  · rfl
  · rfl
  · rw [nexec_nocalls env perf perf' t _ _ (fun a ha => h' a (by simp [NScript.all, ha]))]
    split
    · rfl
    · rfl
    · rw [nexec_nocalls env perf perf' t _ _ (fun a ha => h' a (by simp [NScript.all, ha]))]

theorem nperformTests_nocalls (env : Env) (perf perf' : Perf) (defs : Nat → NDef) (h : ∀ t k, ∀ a ∈ ((defs t).script k).all, a.calls = false)
    (ts : List Nat) (s : NSt) (n : Nat) : nperformTests env perf defs s n ts = nperformTests env perf' defs s n ts := by
  induction ts generalizing s n with
  | nil => rfl
  | cons t ts ih =>
    unfold nperformTests nperformOne
    rw [nrun_nocalls env perf perf' _ _ _ (h t)]
    split
    · rfl
    · rw [ih]

theorem nperformComps_nocalls (env : Env) (perf perf' : Perf) (defs : Nat → NDef) (h : ∀ t k, ∀ a ∈ ((defs t).script k).all, a.calls = false)
    (cs : List Comp) (s : NSt) (n : Nat) : nperformComps env perf defs s n cs = nperformComps env perf' defs s n cs := by
  induction cs generalizing s n with
  | nil => rfl
  | cons c cs ih =>
    unfold nperformComps
    rw [nperformTests_nocalls env perf perf' defs h]
    split
    · rfl
    · rw [ih]

theorem nrunAllTests_nocalls (env : Env) (perf perf' : Perf) (defs : Nat → NDef) (h : ∀ t k, ∀ a ∈ ((defs t).script k).all, a.calls = false)
    (s : NSt) : nrunAllTests env perf defs s = nrunAllTests env perf' defs s := by
  unfold nrunAllTests
  dsimp only
  rw [nperformComps_nocalls env perf perf' defs h]

/-- C142: if no test calls performTest (it may change the verbosity), the value is right. -/
theorem C142_no_calls_partial (env : Env) (fmt : Fmt) (canOpen : Bool) (depth : Nat) (defs : Nat → NDef) (u : UT) (w : World) (d : NDone)
    (hc : ∀ t k, ∀ a ∈ ((defs t).script k).all, a.calls = false) (h : nperformUnitTests env fmt canOpen depth defs u w = .ok d) :
    d.u.status = 0 ↔ ∀ v ∈ runVerdicts d.evs, v.2 = true := by
  have key : ∃ rest, d.evs = .reset :: rest ∧ ∀ e ∈ rest, e ≠ .reset ∧ ∀ t p, e ≠ .ended true t p := by
    obtain ⟨s, hs, e1, e2, -⟩ := nperformUnitTests_run _ _ _ _ _ _ _ _ h
    rw [e2]
    rw [nrunAllTests_nocalls env _ (performAt env defs 0) defs hc] at hs
    refine nrunAllTests_keeps env (performAt env defs 0) defs (fun s => ∃ rest, s.evs = .reset :: rest ∧ ∀ e ∈ rest, e ≠ FEv.reset ∧ ∀ t p, e ≠ .ended true t p)
      (fun _ _ _ h => h) (fun _ _ _ h => h) ?_ _ _ hs ⟨[], rfl, by simp⟩
    rintro t s s' ⟨l1, w1, s2, w3, l2, p, -, hr, -, -, -, hevs, -⟩ ⟨rest, hI, hI'⟩
    have K : Keeps false t (performAt env defs 0) (fun s => ∃ rest, s.evs = .reset :: rest ∧ ∀ e ∈ rest, e ≠ FEv.reset ∧ ∀ t p, e ≠ .ended true t p) :=
      ⟨fun _ _ _ h => h, fun _ v ⟨rest, h, h'⟩ => ⟨rest ++ [.verbose v], by dsimp only; rw [h]; rfl, by
        intro e he
        rcases List.mem_append.1 he with he | he
        · exact h' e he
        · simp at he; subst he; simp⟩, fun _ _ _ _ _ h => nomatch h⟩
    obtain ⟨rest2, h2, h2'⟩ := nrun_keeps K env _ _ _ (by simp) hr ⟨rest ++ [.began false t], by
      show s.evs ++ _ = _
      rw [hI]; rfl, by
      intro e he
      rcases List.mem_append.1 he with he | he
      · exact hI' e he
      · simp at he; subst he; simp⟩
    refine ⟨rest2 ++ [.ended false t p], by rw [hevs, h2]; rfl, ?_⟩
    intro e he
    rcases List.mem_append.1 he with he | he
    · exact h2' e he
    · simp at he; subst he; simp
  obtain ⟨rest, hr, hr'⟩ := key
  rw [C142_right_partial env fmt canOpen depth defs u w d h ?_]
  · constructor
    · rintro ha ⟨t, p⟩ hv
      unfold runVerdicts at hv
      obtain ⟨e, he, hm⟩ := List.mem_filterMap.1 hv
      cases e with
      | reset => cases hm
      | began => cases hm
      | verbose => cases hm
      | ended n t' p' =>
        cases n with
        | true => cases hm
        | false => cases hm; exact ha false t p he
    · intro ha n t p hm
      cases n with
      | false => exact ha (t, p) (List.mem_filterMap.2 ⟨_, hm, rfl⟩)
      | true =>
        rw [hr] at hm
        rcases List.mem_cons.1 hm with hm | hm
        · cases hm
        · exact absurd rfl ((hr' _ hm).2 t p)
  · intro pre post n t hs hm
    rw [hr] at hs
    cases pre with
    | nil => cases hm
    | cons a pre =>
      simp only [List.cons_append, List.cons.injEq] at hs
      exact (hr' .reset (by rw [hs.2]; simp)).1 rfl

/-! ### The plain model is a special case -/

theorem nexec_plain (env : Env) (perf : Perf) (t : Nat) (as : List Act) (s : NSt) :
    nexec env perf t s (as.map .act) = .ok ({ s with w := (exec env t s.w as).1 }, (exec env t s.w as).2) := by
  induction as generalizing s with
  | nil => rfl
  | cons a as ih =>
    rw [List.map_cons]
    unfold nexec exec nact
    dsimp only
    rcases ha : act env t s.w a with ⟨w, k⟩
    cases k
    · exact ih _
    · rfl
    · rfl

theorem nrun_plain (env : Env) (perf : Perf) (d : TestDef) (t : Nat) (s : NSt) :
    nrun env perf d.nest t s = .ok { s with w := run env d t s.w } := by
  unfold nrun run
  dsimp only
  show (match nexec env perf t _ ((d.script (s.w.tc t).runs).setUp.map .act) with | .error e => _ | .ok (s, some e) => _ | .ok (s, none) => _) = _
  rw [nexec_plain]
  rcases exec env t (enter (s.w.setTc t { s.w.tc t with status := .none, runs := (s.w.tc t).runs + 1 }) (.setUp t)) (d.script (s.w.tc t).runs).setUp with ⟨w1, _ | e1⟩
  · show (match nexec env perf t _ ((d.script (s.w.tc t).runs).body.map .act) with | .error e => _ | .ok (s, some e) => _ | .ok (s, none) => _) = _
    rw [nexec_plain]
    dsimp only
    rcases exec env t (enter (markBegin env w1 t) (.body t)) (d.script (s.w.tc t).runs).body with ⟨w2, _ | e2⟩
    · show (match nexec env perf t _ ((d.script (s.w.tc t).runs).tearDown.map .act) with | .error e => _ | .ok (s, some e) => _ | .ok (s, none) => _) = _
      rw [nexec_plain]
      dsimp only
      rcases exec env t (enter (conclude (markEnd env w2 t) t) (.tearDown t)) (d.script (s.w.tc t).runs).tearDown with ⟨w3, _ | e3⟩ <;> rfl
    · rfl
  · rfl

theorem glue_tests (A : Res (NSt × Nat × Nat)) (B : Res (RunSt × Nat)) (L l : Lapse) (c : Nat)
    (h : A.map (fun x => (({ x.1.u with lapse := L } : UT), x.1.u.lapse, x.1.w, x.2)) = B.map (fun x => (x.1.u, l, x.1.w, x.1.count, x.2))) :
    ((match (generalizing := false) A with | .error e => .error e | .ok (s, m, k) => .ok (s, m, c + k) : Res (NSt × Nat × Nat))).map (fun x => (({ x.1.u with lapse := L } : UT), x.1.u.lapse, x.1.w, x.2)) =
    (match (generalizing := false) B with | .error e => .error e | .ok (s, k) => .ok (s, c + k) : Res (RunSt × Nat)).map (fun x => (x.1.u, l, x.1.w, x.1.count, x.2)) := by
  rcases A with e | ⟨s, m, k⟩ <;> rcases B with e' | ⟨r, k'⟩
  · exact congrArg Except.error (Except.error.inj h)
  · cases h
  · cases h
  · have h := Except.ok.inj h
    simp only [Prod.mk.injEq] at h
    refine congrArg Except.ok ?_
    simp only [Prod.mk.injEq]
    exact ⟨h.1, h.2.1, h.2.2.1, h.2.2.2.1, by rw [h.2.2.2.2]⟩

theorem glue_comps (A : Res (NSt × List Comp)) (B : Res (RunSt × List Comp)) (L l : Lapse) (c : Comp)
    (h : A.map (fun x => (({ x.1.u with lapse := L } : UT), x.1.u.lapse, x.1.w, x.2)) = B.map (fun x => (x.1.u, l, x.1.w, x.2))) :
    ((match (generalizing := false) A with | .error e => .error e | .ok (s, cs) => .ok (s, c :: cs) : Res (NSt × List Comp))).map (fun x => (({ x.1.u with lapse := L } : UT), x.1.u.lapse, x.1.w, x.2)) =
    (match (generalizing := false) B with | .error e => .error e | .ok (s, cs) => .ok (s, c :: cs) : Res (RunSt × List Comp)).map (fun x => (x.1.u, l, x.1.w, x.2)) := by
  rcases A with e | ⟨s, cs⟩ <;> rcases B with e' | ⟨r, cs'⟩
  · exact congrArg Except.error (Except.error.inj h)
  · cases h
  · cases h
  · have h := Except.ok.inj h
    simp only [Prod.mk.injEq] at h
    refine congrArg Except.ok ?_
    simp only [Prod.mk.injEq]
    exact ⟨h.1, h.2.1, h.2.2.1, by rw [h.2.2.2]⟩

theorem performTests_plain (env : Env) (perf : Perf) (defs : Nat → TestDef) (ts : List Nat) (s : NSt) (r : RunSt) (hu : r.u = { s.u with lapse := r.u.lapse }) (hw : r.w = s.w) :
    (nperformTests env perf (fun t => (defs t).nest) s r.count ts).map (fun x => (({ x.1.u with lapse := r.u.lapse } : UT), x.1.u.lapse, x.1.w, x.2)) =
    (performTests env defs r ts).map (fun x => (x.1.u, s.u.lapse, x.1.w, x.1.count, x.2)) := by
  induction ts generalizing s r with
  | nil =>
    show Except.ok _ = Except.ok _
    dsimp only
    rw [hw]
    exact congrArg (fun x => Except.ok (x, s.u.lapse, s.w, r.count, 0)) hu.symm
  | cons t ts ih =>
    unfold nperformTests performTests nperformOne performOne
    rw [nrun_plain]
    have e1 : utBegin (fun t => ((defs t).nest).label) s.u (r.count + 1) t s.w = utBegin defs r.u (r.count + 1) t r.w := by rw [hu, hw]; rfl
    dsimp only
    rw [e1]
    have e2 : ∀ w, utEnd (fun t => ((defs t).nest).label) s.u (r.count + 1) t w = utEnd defs r.u (r.count + 1) t w := by intro w; rw [hu]; rfl
    rw [e2]
    cases he : utEnd defs r.u (r.count + 1) t (run env (defs t) t (utBegin defs r.u (r.count + 1) t r.w)) with
    | error e => rfl
    | ok w =>
      dsimp only
      have e3 : hasPassed s.u w t = hasPassed r.u w t := by rw [hasPassed_eq, hasPassed_eq]
      rw [e3]
      cases hp : hasPassed r.u w t
      · have := ih ⟨{ s.u with status := -1, failedCount := s.u.failedCount.map (· + 1) }, w, (s.evs ++ [.began false t]) ++ [.ended false t false]⟩
          { r with w := w, count := r.count + 1, log := r.log ++ [(r.count + 1, t, false)], u := { r.u with status := -1, failedCount := r.u.failedCount.map (· + 1) } }
          (by rw [hu]) rfl
        dsimp only at this
        simp only [Bool.false_eq_true, if_false, if_true]
        exact glue_tests _ _ _ _ _ this
      · have := ih ⟨s.u, w, (s.evs ++ [.began false t]) ++ [.ended false t true]⟩
          { r with w := w, count := r.count + 1, log := r.log ++ [(r.count + 1, t, true)] } hu rfl
        dsimp only at this
        simp only [if_true]
        exact glue_tests _ _ _ _ _ this

theorem performComps_plain (env : Env) (perf : Perf) (defs : Nat → TestDef) (cs : List Comp) (s : NSt) (r : RunSt) (hu : r.u = { s.u with lapse := r.u.lapse }) (hw : r.w = s.w) :
    (nperformComps env perf (fun t => (defs t).nest) s r.count cs).map (fun x => (({ x.1.u with lapse := r.u.lapse } : UT), x.1.u.lapse, x.1.w, x.2)) =
    (performComps env defs r cs).map (fun x => (x.1.u, s.u.lapse, x.1.w, x.2)) := by
  induction cs generalizing s r with
  | nil =>
    show Except.ok _ = Except.ok _
    dsimp only
    rw [hw]
    exact congrArg (fun x => Except.ok (x, s.u.lapse, s.w, [])) hu.symm
  | cons c cs ih =>
    unfold nperformComps performComps
    dsimp only
    have h1 := performTests_plain env perf defs c.tests { s with w := (readClock env s.w).2 } { r with w := (readClock env r.w).2 } hu (by rw [hw])
    dsimp only at h1
    cases hA : nperformTests env perf (fun t => (defs t).nest) { s with w := (readClock env s.w).2 } r.count c.tests with
    | error e =>
      rw [hA] at h1
      cases hB : performTests env defs { r with w := (readClock env r.w).2 } c.tests with
      | error e' => rw [hB] at h1; simp only [Except.map, Except.error.injEq] at h1; subst h1; rfl
      | ok y => rw [hB] at h1; cases h1
    | ok x =>
      rw [hA] at h1
      obtain ⟨s1, m, k⟩ := x
      cases hB : performTests env defs { r with w := (readClock env r.w).2 } c.tests with
      | error e' => rw [hB] at h1; cases h1
      | ok y =>
        rw [hB] at h1
        obtain ⟨r1, k'⟩ := y
        simp only [Except.map, Except.ok.injEq, Prod.mk.injEq] at h1
        obtain ⟨g1, g2, g3, g4, g5⟩ := h1
        subst g4 g5
        have hl : r1.u.lapse = r.u.lapse := by rw [← g1]
        have h2 := ih { s1 with w := (readClock env s1.w).2 } { r1 with w := (readClock env r1.w).2 } (by
          show r1.u = _
          rw [← g1]) (by rw [g3])
        dsimp only at h2
        dsimp only
        rw [hl] at h2
        rw [g2] at h2
        rw [← g3, ← hw]
        rw [← g3] at h2
        exact glue_comps _ _ _ _ _ h2

theorem runAllTests_plain (env : Env) (perf : Perf) (defs : Nat → TestDef) (s : NSt) :
    (nrunAllTests env perf (fun t => (defs t).nest) s).map (fun x => (x.u, x.w)) = (runAllTests env defs s.u s.w).map (fun x => (x.u, x.w)) := by
  unfold nrunAllTests runAllTests
  dsimp only
  have h := performComps_plain env perf defs (groupTests defs s.u.comps s.u.toPerform)
    ⟨{ s.u with lapse := { s.u.lapse with begin := (readClock env s.w).1 } }, (readClock env s.w).2, s.evs⟩
    { u := s.u, w := (readClock env s.w).2 } rfl rfl
  dsimp only at h
  rw [show groupTests (fun t => ((defs t).nest).label) s.u.comps s.u.toPerform = groupTests defs s.u.comps s.u.toPerform from rfl]
  revert h
  generalize nperformComps env perf (fun t => (defs t).nest) _ 0 _ = A
  generalize performComps env defs _ _ = B
  intro h
  cases A with
  | error e => cases B <;> simp_all [Except.map]
  | ok a =>
    cases B with
    | error e => cases h
    | ok b =>
      obtain ⟨s1, cs⟩ := a
      obtain ⟨r1, cs'⟩ := b
      simp only [Except.map, Except.ok.injEq, Prod.mk.injEq] at h
      obtain ⟨g1, g2, g3, g4⟩ := h
      subst g4
      simp only [Except.map, Except.ok.injEq, Prod.mk.injEq]
      rw [← g1, ← g3, g2]
      exact ⟨rfl, rfl⟩

theorem xmlCases_plain (fmt : Fmt) (defs : Nat → TestDef) (u : UT) (w : World) (cn : Str) (ts : List Nat) :
    xmlCases fmt (fun t => ((defs t).nest).label) u w cn ts = xmlCases fmt defs u w cn ts := by
  induction ts with
  | nil => rfl
  | cons t ts ih =>
    unfold xmlCases
    rw [ih]
    rfl

theorem xmlComps_plain (fmt : Fmt) (defs : Nat → TestDef) (u : UT) (w : World) (cs : List Comp) :
    xmlComps fmt (fun t => ((defs t).nest).label) u w cs = xmlComps fmt defs u w cs := by
  induction cs with
  | nil => rfl
  | cons c cs ih =>
    unfold xmlComps
    rw [ih, xmlCases_plain]

/-- C142: for tests that call neither performTest nor setVerbosity this is the runner of the plain model, with the same
results, output and report, so what is proved there holds here. -/
theorem C142_plain (env : Env) (fmt : Fmt) (canOpen : Bool) (depth : Nat) (defs : Nat → TestDef) (u : UT) (w : World) :
    (nperformUnitTests env fmt canOpen depth (fun t => (defs t).nest) u w).map (fun d => (d.u, d.w, d.xml)) =
    (performUnitTests env fmt canOpen defs u w).map (fun d => (d.u, d.w, d.xml)) := by
  unfold nperformUnitTests performUnitTests
  dsimp only
  have h := runAllTests_plain env (performAt env (fun t => (defs t).nest) depth) defs
    ⟨if (init u w).1.toPerform = [] then { (init u w).1 with toPerform := (init u w).1.tests } else (init u w).1, (init u w).2, [.reset]⟩
  dsimp only at h
  have hi : (init u (init u w).2).1 = (init u w).1 := rfl
  rw [hi]
  revert h
  generalize nrunAllTests env _ _ _ = A
  generalize runAllTests env defs _ _ = B
  intro h
  cases A with
  | error e => cases B <;> simp_all [Except.map]
  | ok a =>
    cases B with
    | error e => cases h
    | ok b =>
      simp only [Except.map, Except.ok.injEq, Prod.mk.injEq] at h
      dsimp only
      rw [h.1, h.2]
      have hx : ∀ w, xmlText fmt (fun t => ((defs t).nest).label) b.u w = xmlText fmt defs b.u w := by
        intro w; unfold xmlText; rw [xmlComps_plain]
      rw [hx, show report fmt (fun t => ((defs t).nest).label) b.u b.w = report fmt defs b.u b.w from rfl]
      split
      · rfl
      · split
        · cases xmlText fmt defs b.u (report fmt defs b.u b.w) <;> rfl
        · rfl

/-! ### The verbosity -/

theorem lastVerbosity_snoc (v : Nat) (evs : List FEv) (e : FEv) : lastVerbosity v (evs ++ [e]) = match e with
    | .verbose x => x
    | _ => lastVerbosity v evs := by
  unfold lastVerbosity
  rw [List.filterMap_append]
  cases e <;> simp

theorem verbosity_one (nested : Bool) (env : Env) (perf : Perf) (defs : Nat → NDef) (t v : Nat) (s s' : NSt)
    (hp : ∀ s n s' r, s.u.verbosity = lastVerbosity v s.evs → perf s n = .ok (s', r) → s'.u.verbosity = lastVerbosity v s'.evs)
    (h : One nested env perf defs t s s') (hI : s.u.verbosity = lastVerbosity v s.evs) : s'.u.verbosity = lastVerbosity v s'.evs := by
  obtain ⟨l1, w1, s2, w3, l2, p, -, hr, -, -, -, hevs, hu⟩ := h
  have K : Keeps false t perf (fun s => s.u.verbosity = lastVerbosity v s.evs) :=
    ⟨fun _ _ _ h => h, fun _ _ _ => by dsimp only; rw [lastVerbosity_snoc], hp⟩
  have i2 := nrun_keeps K env _ _ _ (by simp) hr (by
    show s.u.verbosity = lastVerbosity v (s.evs ++ [.began nested t])
    rw [lastVerbosity_snoc]; exact hI)
  rw [hevs, hu, lastVerbosity_snoc]
  exact i2

/-- C142: the verbosity is the one a test set last. -/
theorem C142_verbosity (env : Env) (fmt : Fmt) (canOpen : Bool) (depth : Nat) (defs : Nat → NDef) (u : UT) (w : World) (d : NDone)
    (h : nperformUnitTests env fmt canOpen depth defs u w = .ok d) : d.u.verbosity = lastVerbosity u.verbosity d.evs := by
  obtain ⟨s, hs, e1, e2, -⟩ := nperformUnitTests_run _ _ _ _ _ _ _ _ h
  rw [e1, e2]
  refine nrunAllTests_keeps env _ defs (fun s => s.u.verbosity = lastVerbosity u.verbosity s.evs) (fun _ _ _ h => h) (fun _ _ _ h => h)
    (fun t s s' ho hI => verbosity_one false _ _ _ _ _ _ _ ?_ ho hI) _ _ hs (by split <;> rfl)
  exact performAt_keeps env defs (fun s => s.u.verbosity = lastVerbosity u.verbosity s.evs)
    (fun s h => by
      show s.u.verbosity = lastVerbosity _ (s.evs ++ [.reset])
      rw [lastVerbosity_snoc]; exact h)
    (fun n t s s' ih ho hI => verbosity_one true _ _ _ _ _ _ _ ih ho hI) depth

/-! ### The value of a nested call and the test's own verdict -/

/-- C142: performTest called from inside a test throws exactly if no registered test has the name; otherwise it performs that test and
its value is 0 if that test passed, -1 if not. -/
theorem C142_value (env : Env) (defs : Nat → NDef) (depth : Nat) (s s' : NSt) (name : Str) (r : Option Int)
    (h : performAt env defs depth s name = .ok (s', r)) :
    (r = none ↔ findByName s.u name = none) ∧
    ∀ v, r = some v → ∃ t p evs, findByName s.u name = some t ∧ s'.evs = evs ++ [.ended true t p] ∧
      (p = true ↔ (s'.w.tc t).status = .success) ∧ v = if p then 0 else -1 := by
  cases depth with
  | zero => cases h
  | succ n =>
    unfold performAt performWith at h
    dsimp only at h
    change (match findByName s.u name with | none => _ | some t => _) = _ at h
    cases hf : findByName s.u name with
    | none => rw [hf] at h; cases h; exact ⟨by simp, fun v hv => nomatch hv⟩
    | some t =>
      rw [hf] at h
      dsimp only at h
      split at h
      · cases h
      · rename_i s2 hr
        split at h
        · cases h
        · rename_i w hu
          split at h
          · rename_i hp
            cases h
            refine ⟨by simp, fun v hv => ⟨t, true, s2.evs, rfl, rfl, ?_, ?_⟩⟩
            · simp [(hasPassed_iff _ _ _).1 hp]
            · cases hv; rfl
          · rename_i hp
            cases h
            refine ⟨by simp, fun v hv => ⟨t, false, s2.evs, rfl, rfl, ?_, ?_⟩⟩
            · simp only [Bool.false_eq_true, false_iff]
              exact fun e => hp ((hasPassed_iff _ _ _).2 e)
            · cases hv; rfl

theorem act_keepsFail (env : Env) (t : Nat) (w : World) (a : Act) (h : ∀ s, a ≠ .setStatus s) (hf : (w.tc t).status = .fail) :
    ((act env t w a).1.tc t).status = .fail := by
  cases a with
  | check ok => cases ok <;> simp [act, World.setTc, checkFail, hf]
  | expectThrow o c => cases o <;> cases c <;> simp [act, World.setTc, checkFail, hf]
  | expectAnyThrow o => cases o <;> simp [act, World.setTc, checkFail, hf]
  | expectNoThrow o => rcases o with _ | (_ | _) <;> simp [act, World.setTc, checkFail, hf]
  | setStatus s => exact absurd rfl (h s)
  | failNow => simp [act, World.setTc, checkFail]
  | failCall => simp [act, World.setTc, failMember]
  | _ => simpa [act, World.put] using hf

theorem nact_keepsFail (env : Env) (perf : Perf) (t : Nat) (s s' : NSt) (a : NAct) (k : Next) (h : a.mayClear = false)
    (ha : nact env perf t s a = .ok (s', k)) (hf : (s.w.tc t).status = .fail) : (s'.w.tc t).status = .fail := by
  cases a with
  | act a =>
    cases ha
    exact act_keepsFail env t s.w a (fun x e => by rw [e] at h; cases h) hf
  | verbosity v => cases ha; exact hf
  | perform n => cases h
  | performEq => cases h

theorem nexec_keepsFail (env : Env) (perf : Perf) (t : Nat) (as : List NAct) (s s' : NSt) (x : Option Exc) (h : ∀ a ∈ as, a.mayClear = false)
    (he : nexec env perf t s as = .ok (s', x)) (hf : (s.w.tc t).status = .fail) : (s'.w.tc t).status = .fail := by
  induction as generalizing s with
  | nil => cases he; exact hf
  | cons a as ih =>
    unfold nexec at he
    cases ha : nact env perf t s a with
    | error e => rw [ha] at he; cases he
    | ok r =>
      obtain ⟨s1, k⟩ := r
      rw [ha] at he
      have h1 := nact_keepsFail env perf t s s1 a k (h a (by simp)) ha hf
      cases k with
      | go => exact ih s1 (fun a ha => h a (by simp [ha])) he h1
      | ret => cases he; exact h1
      | thr e => cases he; exact h1

theorem nexec_goes {env : Env} {perf : Perf} {t : Nat} {s s' : NSt} {as : List NAct} (h : Goes env perf t s as s') (bs : List NAct) :
    nexec env perf t s (as ++ bs) = nexec env perf t s' bs := by
  induction h with
  | nil => rfl
  | cons ha _ ih =>
    rw [List.cons_append, nexec, ha]
    exact ih

/-- What is left of a run whose test() ends in state `s2`. -/
theorem nrun_body {env : Env} {perf : Perf} {d : NDef} {t : Nat} {s s1 s2 s' : NSt} {x : Option Exc} {pre post : List NAct}
    (hr : ReachesInBody env perf d t s pre s1) (hb : (d.script (s.w.tc t).runs).body = pre ++ post)
    (he : nexec env perf t s1 post = .ok (s2, x)) (h : nrun env perf d t s = .ok s') :
    match x with
    | some e => s' = { s2 with w := caught env s2.w t e }
    | none => ∃ s3 y, nexec env perf t { s2 with w := enter (conclude (markEnd env s2.w t) t) (.tearDown t) } (d.script (s.w.tc t).runs).tearDown = .ok (s3, y) ∧
        s' = match y with | some e => { s3 with w := caught env s3.w t e } | none => s3 := by
  obtain ⟨s0, hg0, hg1⟩ := hr
  unfold nrun at h
  dsimp only at h
  have e0 := nexec_goes hg0 []
  rw [List.append_nil] at e0
  rw [e0, nexec] at h
  dsimp only at h
  rw [hb, nexec_goes hg1, he] at h
  cases x with
  | some e => cases h; rfl
  | none =>
    dsimp only at h ⊢
    split at h
    · cases h
    · rename_i s3 e h3; cases h; exact ⟨s3, some e, h3, rfl⟩
    · rename_i s3 h3; cases h; exact ⟨_, none, h3, rfl⟩

theorem caught_is_error (env : Env) (w : World) (t : Nat) (e : Exc) : ((caught env w t e).tc t).status = .error := by
  simp [caught, World.setTc]

theorem caught_desc (env : Env) (w : World) (t : Nat) (x : Str) : ((caught env w t (.std x)).tc t).failDesc = x := by
  simp [caught, World.setTc]

theorem conclude_fail (env : Env) (w : World) (t : Nat) (h : (w.tc t).status = .fail) : ((conclude (markEnd env w t) t).tc t).status = .fail := by
  have : ((markEnd env w t).tc t).status = .fail := by simp [markEnd, h]
  unfold conclude
  rw [if_neg (by rw [this]; simp)]
  exact this

/-- C142: a test that fails stays failed if behind the failing statement of test() it neither calls performTest nor sets its status. -/
theorem C142_own_partial (env : Env) (perf : Perf) (d : NDef) (t : Nat) (s s1 s2 s' : NSt) (pre post : List NAct) (a : NAct) (k : Next)
    (hb : (d.script (s.w.tc t).runs).body = pre ++ a :: post) (hr : ReachesInBody env perf d t s pre s1)
    (ha : nact env perf t s1 a = .ok (s2, k)) (hf : (s2.w.tc t).status = .fail)
    (hc : ∀ b ∈ post ++ (d.script (s.w.tc t).runs).tearDown, b.mayClear = false) (h : nrun env perf d t s = .ok s') :
    (s'.w.tc t).status = .fail ∨ (s'.w.tc t).status = .error := by
  have key : ∃ s3 x, nexec env perf t s1 (a :: post) = .ok (s3, x) ∧ (s3.w.tc t).status = .fail := by
    rw [nexec, ha]
    cases k with
    | ret => exact ⟨s2, none, rfl, hf⟩
    | thr e => exact ⟨s2, some e, rfl, hf⟩
    | go =>
      dsimp only
      cases he : nexec env perf t s2 post with
      | ok r => exact ⟨r.1, r.2, rfl, nexec_keepsFail env perf t post s2 r.1 r.2 (fun b hb => hc b (by simp [hb])) he hf⟩
      | error e =>
        exfalso
        obtain ⟨s0, hg0, hg1⟩ := hr
        unfold nrun at h
        dsimp only at h
        have e0 := nexec_goes hg0 []
        rw [List.append_nil] at e0
        rw [e0, nexec] at h
        dsimp only at h
        rw [hb, nexec_goes hg1, nexec, ha] at h
        dsimp only at h
        rw [he] at h
        cases h
  obtain ⟨s3, x, hx, hf3⟩ := key
  have := nrun_body hr hb hx h
  cases x with
  | some e => rw [this]; exact .inr (caught_is_error _ _ _ _)
  | none =>
    obtain ⟨s4, y, hy, rfl⟩ := this
    cases y with
    | some e => exact .inr (caught_is_error _ _ _ _)
    | none =>
      exact .inl (nexec_keepsFail env perf t _ _ _ _ (fun b hb => hc b (by simp [hb])) hy (conclude_fail env s3.w t hf3))

/-- C142: a test that finds another value of performTest than it expects fails (its TearDown does not call performTest). -/
theorem C142_check_partial (env : Env) (perf : Perf) (d : NDef) (t : Nat) (s s1 s2 s' : NSt) (pre post : List NAct)
    (name file expr : Str) (want r line : Int)
    (hb : (d.script (s.w.tc t).runs).body = pre ++ .performEq name want file line expr :: post) (hr : ReachesInBody env perf d t s pre s1)
    (hp : perf s1 name = .ok (s2, some r)) (hw : r ≠ want)
    (hc : ∀ b ∈ (d.script (s.w.tc t).runs).tearDown, b.mayClear = false) (h : nrun env perf d t s = .ok s') :
    (s'.w.tc t).status = .fail ∨ (s'.w.tc t).status = .error := by
  have ha : nact env perf t s1 (.performEq name want file line expr) =
      .ok ({ s2 with w := s2.w.setTc t (checkFail env (s2.w.tc t) file line expr (showInt r)) }, .ret) := by
    unfold nact; dsimp only; rw [hp]; dsimp only; rw [if_neg hw]
  have hx : nexec env perf t s1 (.performEq name want file line expr :: post) =
      .ok ({ s2 with w := s2.w.setTc t (checkFail env (s2.w.tc t) file line expr (showInt r)) }, none) := by rw [nexec, ha]
  obtain ⟨s4, y, hy, rfl⟩ := nrun_body hr hb hx h
  have hf : ((s2.w.setTc t (checkFail env (s2.w.tc t) file line expr (showInt r))).tc t).status = .fail := by simp [World.setTc, checkFail]
  cases y with
  | some e => exact .inr (caught_is_error _ _ _ _)
  | none => exact .inl (nexec_keepsFail env perf t _ _ _ _ hc hy (conclude_fail env _ t hf))

/-- C142: a test that performs a test nobody registered ends with an error that names it. -/
theorem C142_unknown (env : Env) (perf : Perf) (d : NDef) (t : Nat) (s s1 s2 s' : NSt) (pre post : List NAct) (name : Str) (a : NAct)
    (hb : (d.script (s.w.tc t).runs).body = pre ++ a :: post) (hr : ReachesInBody env perf d t s pre s1)
    (ha : a = .perform name ∨ ∃ want file line expr, a = .performEq name want file line expr)
    (hp : perf s1 name = .ok (s2, none)) (h : nrun env perf d t s = .ok s') :
    (s'.w.tc t).status = .error ∧ (s'.w.tc t).failDesc = txtTest ++ name ++ txtNotFound := by
  have hx : nexec env perf t s1 (a :: post) = .ok (s2, some (.std (txtTest ++ name ++ txtNotFound))) := by
    rcases ha with rfl | ⟨want, file, line, expr, rfl⟩
    · rw [nexec, nact, hp]
    · rw [nexec, nact, hp]
  have := nrun_body hr hb hx h
  subst this
  exact ⟨caught_is_error env s2.w t (.std (txtTest ++ name ++ txtNotFound)), caught_desc env s2.w t (txtTest ++ name ++ txtNotFound)⟩

end Falcon.Fut
