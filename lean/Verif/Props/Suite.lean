import Verif.Spec.Suite
import Verif.Proofs.Console
import Verif.Props.UnitTest
/- C128: the exit code of a test program, from the scripts of its tests. -/
namespace Falcon.Fut

/-! ### Runs do not fail -/

theorem sets_fail_report (sep : Char) (a : Act) (hc : a.checksOnly = true) (h : a.sets = some .fail) : (a.report sep).isSome := by
  cases a <;> simp_all [Act.sets, Act.checksOnly, Act.report, Option.isSome_iff_ne_none]

theorem sets_cases (a : Act) (hc : a.checksOnly = true) : a.sets = none ∨ a.sets = some .fail := by
  cases a <;> simp_all [Act.sets, Act.checksOnly, Act.failed]
  all_goals (try (split <;> simp))

/-- A FAIL has a line. -/
def FailHasLine (c : Tc) : Prop := c.status = .fail → c.failLine.isSome

theorem act_failHasLine (env : Env) (t : Nat) (w : World) (a : Act) (hc : a.checksOnly = true) (h : FailHasLine (w.tc t)) :
    FailHasLine ((act env t w a).1.tc t) := by
  intro hs
  rw [act_status] at hs
  have hf := act_failure env t w a
  rcases sets_cases a hc with hn | hn
  · rw [hn] at hs
    cases hr : a.report env.sep with
    | none => rw [hr] at hf; simp only [Tc.failure, Prod.mk.injEq] at hf; rw [hf.2.1]; exact h hs
    | some x => obtain ⟨f, l, m⟩ := x; rw [hr] at hf; simp only [Tc.failure, Prod.mk.injEq] at hf; rw [hf.2.1]; rfl
  · have hr := sets_fail_report env.sep a hc hn
    cases hr' : a.report env.sep with
    | none => rw [hr'] at hr; cases hr
    | some x => obtain ⟨f, l, m⟩ := x; rw [hr'] at hf; simp only [Tc.failure, Prod.mk.injEq] at hf; rw [hf.2.1]; rfl

theorem applyAll_failHasLine (env : Env) (t : Nat) (w : World) (as : List Act) (hc : ∀ a ∈ as, a.checksOnly = true) (h : FailHasLine (w.tc t)) :
    FailHasLine ((applyAll env t w as).tc t) := by
  induction as generalizing w with
  | nil => exact h
  | cons a as ih =>
    rw [applyAll_cons]
    exact ih _ (fun x hx => hc x (by simp [hx])) (act_failHasLine env t w a (hc a (by simp)) h)

theorem FailHasLine.congr {c c' : Tc} (h : FailHasLine c) (h1 : c'.status = .fail → c.status = .fail) (h2 : c'.failLine = c.failLine) : FailHasLine c' := by
  intro hs; rw [h2]; exact h (h1 hs)

theorem run_failHasLine (env : Env) (d : TestDef) (t : Nat) (w : World) (hc : (nextScript d t w).ChecksOnly) : FailHasLine ((run env d t w).tc t) := by
  have c : ∀ w e, FailHasLine ((caught env w t e).tc t) := by
    intro w e hs; rw [caught_status] at hs; cases hs
  have h1 : FailHasLine ((afterSetUp env d t w).tc t) := by
    refine applyAll_failHasLine env t _ _ (fun a ha => hc a (script_sub_setUp ha)) ?_
    intro hs
    simp [atSetUp, enter, World.setTc] at hs
  have h2 : FailHasLine ((afterBody env d t w).tc t) := by
    refine applyAll_failHasLine env t _ _ (fun a ha => hc a (script_sub_body ha)) ?_
    refine h1.congr (fun hs => ?_) ?_
    · rw [← markBegin_status env]; exact hs
    · simp [enter, markBegin]
  have h3 : FailHasLine ((afterTearDown env d t w).tc t) := by
    refine applyAll_failHasLine env t _ _ (fun a ha => hc a (script_sub_tearDown ha)) ?_
    refine h2.congr (fun hs => ?_) ?_
    · have hs' : ((conclude (markEnd env (afterBody env d t w) t) t).tc t).status = .fail := hs
      rw [conclude_status, markEnd_status] at hs'
      cases hx : ((afterBody env d t w).tc t).status with
      | none => rw [hx] at hs'; simp only [orStream] at hs'; split at hs' <;> simp at hs'
      | success => rw [hx] at hs'; cases hs'
      | fail => rfl
      | error => rw [hx] at hs'; cases hs'
      | outOnError => rw [hx] at hs'; cases hs'
    · show ((conclude (markEnd env (afterBody env d t w) t) t).tc t).failLine = _
      unfold conclude
      split <;> simp [setStatus, World.setTc, markEnd]
  rw [run_eq]
  cases threw (nextScript d t w).setUp with
  | some e => exact c _ _
  | none =>
    cases threw (nextScript d t w).body with
    | some e => exact c _ _
    | none =>
      cases threw (nextScript d t w).tearDown with
      | some e => exact c _ _
      | none => exact h3

theorem endTest_total (env : Env) (d : TestDef) (cap : Bool) (t : Nat) (w : World) : ∃ w', endTest cap t (run env d t (beginTest cap t w)) = .ok w' := by
  cases cap with
  | false => exact ⟨_, rfl⟩
  | true => obtain ⟨w', h, _⟩ := endTest_status env d t w; exact ⟨w', h⟩

theorem performOne_total (env : Env) (defs : Nat → TestDef) (hc : ∀ t k, ((defs t).script k).ChecksOnly) (s : RunSt) (t : Nat) :
    ∃ s' f, performOne env defs s t = .ok (s', f) := by
  unfold performOne
  dsimp only
  rw [utBegin_text]
  generalize print s.w (goText defs s.u (s.count + 1) t) = w1
  obtain ⟨w2, h2⟩ := endTest_total env (defs t) s.u.capture t w1
  have hl : FailHasLine (w2.tc t) := by
    have h := run_failHasLine env (defs t) t (beginTest s.u.capture t w1) (hc t _)
    obtain ⟨_, f2, _, _, _, f6⟩ := endTest_frame _ _ _ _ h2
    exact h.congr (fun x => by rw [← f2]; exact x) f6
  have : ∃ w', utEnd defs s.u (s.count + 1) t (run env (defs t) t (beginTest s.u.capture t w1)) = .ok w' := by
    unfold utEnd
    rw [h2]
    dsimp only
    unfold showVerdict
    have htc : (showErr defs s.u t (showOut defs s.u t w2)).tc = w2.tc := by
      unfold showErr showOut
      rw [print_if w2, print_if (print w2 _)]; rfl
    rw [htc]
    split
    · exact ⟨_, rfl⟩
    · split
      · rename_i hx
        have := hl hx.2
        cases hf : (w2.tc t).failLine with
        | none => rw [hf] at this; cases this
        | some l => exact ⟨_, rfl⟩
      · split
        · exact ⟨_, rfl⟩
        · exact ⟨_, rfl⟩
  obtain ⟨w', hw⟩ := this
  rw [hw]
  dsimp only
  split
  · exact ⟨_, _, rfl⟩
  · exact ⟨_, _, rfl⟩

theorem performTests_total (env : Env) (defs : Nat → TestDef) (hc : ∀ t k, ((defs t).script k).ChecksOnly) (ts : List Nat) (s : RunSt) :
    ∃ s' k, performTests env defs s ts = .ok (s', k) := by
  induction ts generalizing s with
  | nil => exact ⟨_, _, rfl⟩
  | cons t ts ih =>
    obtain ⟨s1, f, h1⟩ := performOne_total env defs hc s t
    obtain ⟨s2, k, h2⟩ := ih s1
    unfold performTests
    rw [h1]; dsimp only; rw [h2]
    exact ⟨_, _, rfl⟩

theorem performComps_total (env : Env) (defs : Nat → TestDef) (hc : ∀ t k, ((defs t).script k).ChecksOnly) (cs : List Comp) (s : RunSt) :
    ∃ s' cs', performComps env defs s cs = .ok (s', cs') := by
  induction cs generalizing s with
  | nil => exact ⟨_, _, rfl⟩
  | cons c cs ih =>
    unfold performComps
    simp only [readClock]
    obtain ⟨s1, k, h1⟩ := performTests_total env defs hc c.tests { s with w := { s.w with tick := s.w.tick + 1 } }
    rw [h1]; dsimp only
    obtain ⟨s2, cs', h2⟩ := ih { s1 with w := { s1.w with tick := s1.w.tick + 1 } }
    rw [h2]
    exact ⟨_, _, rfl⟩

/-- Without an XML report, a run of tests that use checks only has no undefined behaviour. -/
theorem performUnitTests_total (env : Env) (fmt : Fmt) (canOpen : Bool) (defs : Nat → TestDef) (hc : ∀ t k, ((defs t).script k).ChecksOnly) (u : UT) (w : World)
    (hx : u.xmlReport = []) : ∃ d, performUnitTests env fmt canOpen defs u w = .ok d := by
  unfold performUnitTests
  dsimp only
  generalize hu : (if (init u w).1.toPerform = [] then { (init u w).1 with toPerform := (init u w).1.tests } else (init u w).1) = u1
  have hx1 : u1.xmlReport = [] := by rw [← hu]; split <;> exact hx
  have : ∃ s, runAllTests env defs u1 (init u w).2 = .ok s ∧ s.u.xmlReport = [] := by
    cases hr : runAllTests env defs u1 (init u w).2 with
    | error e =>
      exfalso
      unfold runAllTests at hr
      simp only [readClock] at hr
      obtain ⟨s', cs', h⟩ := performComps_total env defs hc (groupTests defs u1.comps u1.toPerform) { u := u1, w := { (init u w).2 with tick := (init u w).2.tick + 1 } }
      rw [h] at hr
      cases hr
    | ok s =>
      obtain ⟨xs, lp, _, _, _, _, e⟩ := runAllTests_ok _ _ _ _ _ hr
      exact ⟨s, rfl, by rw [e]; exact hx1⟩
  obtain ⟨s, hs, hsx⟩ := this
  rw [hs]
  dsimp only
  rw [if_pos hsx]
  exact ⟨_, rfl⟩

/-! ### Verdicts -/

theorem sets_none_iff (a : Act) (hc : a.checksOnly = true) : a.sets = none ↔ a.failed = none ∧ ∀ f l m, a ≠ .failCall f l m := by
  cases a <;> simp_all [Act.sets, Act.checksOnly, Act.failed]
  all_goals (try (split <;> simp))

/-- The verdict on a test performed for the first time. -/
theorem first_verdict (env : Env) (d : TestDef) (cap : Bool) (t : Nat) (w w2 : World) (hk : (nextScript d t w).KeepsStreams) (hc : (nextScript d t w).ChecksOnly)
    (he : w.content (.capErr t) = []) (hb : w.cout ≠ .capErr t) (hb' : w.cerr ≠ .capErr t) (hne : w.cout ≠ w.cerr)
    (h : endTest cap t (run env d t (beginTest cap t w)) = .ok w2) :
    (w2.tc t).status = .success ↔ (nextScript d t w).Good cap := by
  obtain ⟨_, f2, _⟩ := endTest_frame _ _ _ _ h
  rw [f2]
  have hall : ∀ a ∈ (nextScript d t w).all, a.checksOnly = true := by
    intro a ha
    simp only [Script.all, List.mem_append] at ha
    rcases ha with (ha | ha) | ha
    · exact hc a (script_sub_setUp ha)
    · exact hc a (script_sub_body ha)
    · exact hc a (script_sub_tearDown ha)
  have hsets : (∀ a ∈ (nextScript d t w).all, a.sets = none) ↔ ∀ a ∈ (nextScript d t w).all, a.failed = none ∧ ∀ f l m, a ≠ .failCall f l m :=
    forall₂_congr fun a ha => sets_none_iff a (hall a ha)
  cases cap with
  | true =>
    rw [(C83_status_partial env d t w hk hc).2.2.2, hsets]
    simp [Script.Good, he]
  | false =>
    rw [run_status]
    have hs : nextScript d t (beginTest false t w) = nextScript d t w := begin_script d false t w
    have hbt : beginTest false t w = setStatus w t .none := rfl
    have hw := wrote_afterBody env d t (beginTest false t w) (by rw [hs]; exact hk) (by rw [hbt]; exact hne)
    have hcont := hw.content (.capErr t)
    have hce : (afterBody env d t (beginTest false t w)).content (.capErr t) = [] := by
      rw [hcont, hbt]
      simp [setStatus, World.setTc, he, Ne.symm hb, Ne.symm hb']
    rw [hce, hs]
    generalize nextScript d t w = sc at *
    have hthr : ((threw sc.setUp).isSome ∨ (threw sc.body).isSome ∨ (threw sc.tearDown).isSome) ↔ sc.throws := by simp [Script.throws]
    by_cases ht : sc.throws
    · rw [if_pos (hthr.2 ht)]
      simp [Script.Good, ht]
    · rw [if_neg (fun x => ht (hthr.1 x))]
      have c1 := settled_checksOnly (executed sc.setUp ++ executed sc.body) (fun a ha => hall a (by simp only [Script.all, List.mem_append] at ha ⊢; tauto))
      have c2 := settled_checksOnly (executed sc.tearDown) (fun a ha => hall a (by simp only [Script.all, List.mem_append]; tauto))
      have hg : sc.Good false ↔ ∀ a ∈ sc.all, a.sets = none := by
        rw [hsets]; simp [Script.Good, ht]
      rw [hg]
      have hsplit : (∀ a ∈ sc.all, a.sets = none) ↔ (∀ a ∈ executed sc.setUp ++ executed sc.body, a.sets = none) ∧ ∀ a ∈ executed sc.tearDown, a.sets = none := by
        simp only [Script.all, List.mem_append]
        constructor
        · intro x; exact ⟨fun a ha => x a (by tauto), fun a ha => x a (by tauto)⟩
        · rintro ⟨x, y⟩ a (ha | ha)
          · exact x a ha
          · exact y a ha
      rw [hsplit]
      rcases c2 with ⟨e2, n2⟩ | ⟨e2, b, hb, hbs⟩
      · rw [e2]
        rcases c1 with ⟨e1, n1⟩ | ⟨e1, b, hb, hbs⟩
        · rw [e1]; simp only [Option.getD_none, orStream, if_true, true_iff]; exact ⟨n1, n2⟩
        · rw [e1]
          simp only [Option.getD_some, Option.getD_none, orStream, reduceCtorEq, false_iff]
          rintro ⟨x, _⟩
          rw [x b hb] at hbs; cases hbs
      · rw [e2]
        simp only [Option.getD_some, reduceCtorEq, false_iff]
        rintro ⟨_, x⟩
        rw [x b hb] at hbs; cases hbs

/-- Not yet performed. -/
structure Virgin (w : World) (t : Nat) : Prop where
  err  : w.content (.capErr t) = []
  runs : (w.tc t).runs = 0

theorem performed_verdicts {env : Env} {defs : Nat → TestDef} {cap l : Bool} (hk : ∀ t k, ((defs t).script k).KeepsStreams)
    (hc : ∀ t k, ((defs t).script k).ChecksOnly) {w w' : World} {vs : List (Nat × Status)} (p : Performed env defs cap l w vs w')
    (hs : Sane w) (hn : (vs.map Prod.fst).Nodup) (hv : ∀ v ∈ vs, Virgin w v.1) :
    ∀ v ∈ vs, v.2 = .success ↔ ((defs v.1).script 0).Good cap := by
  induction p with
  | done h => intro v hv; cases hv
  | test h he _ ih =>
    rename_i w w1 w2 w3 t rest _
    have hs1 : Sane w1 := hs.congr h.cout h.cerr
    obtain ⟨s, _, ht⟩ := h.text
    have hv1 : ∀ u, Virgin w u → Virgin w1 u := by
      intro u hu
      refine ⟨?_, by rw [h.tc]; exact hu.runs⟩
      rw [ht, if_neg (Ne.symm (hs.out u).2)]; exact hu.err
    have hvt : Virgin w1 t := hv1 t (hv (t, (w2.tc t).status) (List.mem_cons_self ..))
    obtain ⟨m1, m2, m3⟩ := middle env defs cap t w1 w2 (hk t _) hs1.ne he
    obtain ⟨f1, _⟩ := endTest_frame _ _ _ _ he
    rw [List.map_cons, List.nodup_cons] at hn
    intro v hvm
    rcases List.mem_cons.1 hvm with rfl | hvm
    · have := first_verdict env (defs t) cap t w1 w2 (hk t _) (hc t _) hvt.err (hs1.out t).2 (hs1.err t).2 hs1.ne he
      have hns : nextScript (defs t) t w1 = (defs t).script 0 := by unfold nextScript; rw [hvt.runs]
      rw [hns] at this
      exact this
    · refine ih (hs1.congr m1 m2) hn.2 ?_ v hvm
      intro x hx
      have hne : x.1 ≠ t := fun e => hn.1 (List.mem_map.2 ⟨x, hx, e⟩)
      have hxv := hv1 x.1 (hv x (by simp [hx]))
      refine ⟨?_, ?_⟩
      · rw [m3 (.capErr x.1) (by simp) (by simpa using hne), hxv.err, if_neg (Ne.symm (hs1.out _).2), if_neg (Ne.symm (hs1.err _).2)]; rfl
      · rw [f1 x.1 hne, run_other _ _ _ _ _ hne, begin_other _ _ _ _ hne]; exact hxv.runs

theorem registered_config (defs : Nat → TestDef) (ts : List Nat) :
    (registered defs ts).comps = [] ∧ (registered defs ts).toPerform = [] ∧ (registered defs ts).xmlReport = [] ∧ (registered defs ts).capture = true := by
  have key : ∀ (u : UT), u.comps = [] ∧ u.toPerform = [] ∧ u.xmlReport = [] ∧ u.capture = true →
      (ts.foldl (addTestCase defs) u).comps = [] ∧ (ts.foldl (addTestCase defs) u).toPerform = [] ∧ (ts.foldl (addTestCase defs) u).xmlReport = [] ∧ (ts.foldl (addTestCase defs) u).capture = true := by
    induction ts with
    | nil => intro u h; exact h
    | cons t ts ih => intro u h; exact ih _ h
  exact key {} ⟨rfl, rfl, rfl, rfl⟩

/-- C128: a test program with any list of distinct tests that use the checking macros (and do not exchange the streams'
buffers), started in a fresh process with any valid options but -x, with no test selected twice: main returns, and it returns 0
iff the script of every selected test (every registered one, if none is selected) deserves to pass. -/
theorem C128_exit_code (env : Env) (fmt : Fmt) (canOpen : Bool) (defs : Nat → TestDef) (ts : List Nat) (w : World) (exe : Str) (os : List Opt)
    (hk : ∀ t k, ((defs t).script k).KeepsStreams) (hc : ∀ t k, ((defs t).script k).ChecksOnly) (hw : Fresh w)
    (hv : ∀ o ∈ os, o.valid (findByName (registered defs ts))) (hx : ∀ o ∈ os, ∀ f, o ≠ .xml f) :
    let picked := os.filterMap (Opt.selects (findByName (registered defs ts)))
    let sel := if picked = [] then ts else picked
    sel.Nodup → ∃ ex, main env fmt canOpen defs (registered defs ts) w (exe :: os.flatMap Opt.words) = .ok ex ∧
      (ex.code = 0 ↔ ∀ t ∈ sel, ((defs t).script 0).Good (!os.contains .noCapture)) := by
  intro picked sel hnd
  obtain ⟨k1, k2, k3, k4⟩ := registered_config defs ts
  have hts := C97_registered defs ts
  have hpk : picked = os.filterMap (Opt.selects (findByName (registered defs ts))) := rfl
  have hsel : sel = if picked = [] then ts else picked := rfl
  clear_value sel
  clear_value picked
  generalize registered defs ts = r at *
  have hparse := parse_valid (detectTestName env.sep r exe) w os hv
  generalize hu : configured (detectTestName env.sep r exe) os = u at hparse
  have ux : u.xmlReport = [] := by
    rw [← hu]
    have : os.filterMap Opt.setsXml = [] := by
      rw [List.filterMap_eq_nil_iff]
      intro o ho
      cases o with
      | xml f => exact absurd rfl (hx _ ho f)
      | _ => rfl
    simp only [configured, lastSome, this]
    exact k3
  have uc : u.capture = !os.contains .noCapture := by
    rw [← hu]
    simp only [configured, detectTestName, k4, Bool.true_and]
  have ucomps : u.comps = [] := by rw [← hu]; exact k1
  have utests : u.tests = ts := by rw [← hu]; exact hts
  have uto : u.toPerform = picked := by
    rw [← hu]
    show r.toPerform ++ os.filterMap (Opt.selects (findByName (detectTestName env.sep r exe))) = picked
    rw [k2, hpk]; rfl
  have usel : (if u.toPerform = [] then u.tests else u.toPerform) = sel := by rw [uto, utests, hsel]
  obtain ⟨d, hd⟩ := performUnitTests_total env fmt canOpen defs hc u w ux
  refine ⟨⟨d.u.status, d.w, d.log, d.xml, true⟩, ?_, ?_⟩
  · unfold main
    dsimp only
    rw [hparse]
    show (match performUnitTests env fmt canOpen defs u w with | .error e => .error e | .ok d => .ok ⟨d.u.status, d.w, d.log, d.xml, true⟩ : Res Exit) = _
    rw [hd]
  · obtain ⟨order, new, _, _, hgr, hcount, hord, _⟩ := C87_order env fmt canOpen defs u w d ucomps hd
    obtain ⟨vs, w1, hp, _, _, hl, hst⟩ := C86_perform env fmt canOpen defs u w d hd
    rw [usel] at hcount
    have hvs : vs.map Prod.fst = order := by rw [← hord, hl, numbered_tests]
    have hnd' : (vs.map Prod.fst).Nodup := by
      rw [hvs, List.nodup_iff_count]
      intro a; rw [hcount]; exact List.nodup_iff_count.1 hnd a
    have hmem : ∀ t, t ∈ vs.map Prod.fst ↔ t ∈ sel := by
      intro t
      rw [hvs, ← List.count_pos_iff, hcount, List.count_pos_iff]
    have hsane : Sane (init u w).2 := ⟨hw.ne, hw.outB, hw.errB⟩
    have hver := performed_verdicts hk hc hp hsane hnd' (fun v _ => ⟨hw.err v.1, by
      show ((init u w).2.tc v.1).runs = 0
      unfold init
      dsimp only
      split
      · exact hw.runs v.1
      · exact hw.runs v.1⟩)
    rw [uc] at hver
    show d.u.status = 0 ↔ _
    rw [hst]
    constructor
    · intro h t ht
      obtain ⟨v, hvm, rfl⟩ := List.mem_map.1 ((hmem t).2 ht)
      exact (hver v hvm).1 (h v hvm)
    · intro h v hvm
      exact (hver v hvm).2 (h v.1 ((hmem v.1).1 (List.mem_map_of_mem hvm)))

/-- Non-vacuity: the process at its start; a suite of a good test and one that fails its second check. -/
example : Fresh {} := ⟨fun _ => rfl, fun _ => rfl, by decide, fun _ => by simp, fun _ => by simp⟩
example : ({ body := [.out ['x'], .check true ['f'] 3 ['e'] [], .expectNoThrow none ['f'] 4] } : Script).Good true := by
  simp [Script.Good, Script.throws, Script.all, threw, executed, Act.leaves, Act.thrown, Act.failed, errText]
example : ¬ ({ body := [.check true ['f'] 3 ['e'] [], .failNow ['f'] 4 ['m'], .step 1] } : Script).Good true := by
  simp [Script.Good, Script.throws, Script.all, threw, executed, Act.leaves, Act.thrown, Act.failed, errText]
/-- What is written to standard error only counts if it is captured. -/
example : ¬ ({ body := [.err ['x']] } : Script).Good true ∧ ({ body := [.err ['x']] } : Script).Good false := by
  simp [Script.Good, Script.throws, Script.all, threw, executed, Act.leaves, Act.thrown, Act.failed, errText]
example (fmt : Fmt) : let defs : Nat → TestDef := fun t => ⟨['A'], [if t = 0 then 'a' else 'b'], fun _ => { body := [.check (t ≠ 1) ['f'] 3 ['x'] []] }⟩
    (main {} fmt true defs (registered defs [0, 1]) {} (['p'] :: [Opt.quiet, .test "A::a".toList].flatMap Opt.words)).toOption.map Exit.code = some 0 ∧
    (main {} fmt true defs (registered defs [0, 1]) {} (['p'] :: [Opt.quiet].flatMap Opt.words)).toOption.map Exit.code = some (-1) := ⟨by rfl, by rfl⟩

end Falcon.Fut
