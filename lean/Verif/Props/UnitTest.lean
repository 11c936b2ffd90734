import Verif.Proofs.UnitTest3
/- C85-C89, C92, C93, C95, C97, C98, C109: the test runner. -/
namespace Falcon.Fut

/-! ### C85 -/

/-- C85 does not hold: a test that only writes on stderr fails without -e as well. -/
theorem C85_without_e_refuted (fmt : Fmt) :
    let defs : Nat → TestDef := fun _ => ⟨['C'], ['a'], fun _ => { body := [.err ['x']] }⟩
    (main {} fmt true defs (registered defs [0]) {} [['p'], "-q".toList]).toOption.map Exit.code = some (-1) := by
  rfl

def UT.setE (b : Bool) (u : UT) : UT := { u with erroutIsFail := b }

theorem utEnd_setE (b : Bool) (defs : Nat → TestDef) (u : UT) (n t : Nat) (w : World) : utEnd defs (u.setE b) n t w = utEnd defs u n t w := by
  have h1 : ∀ w, showOut defs (u.setE b) t w = showOut defs u t w := fun w => by unfold showOut; simp only [hasPassed_eq]; rfl
  have h2 : ∀ w, showErr defs (u.setE b) t w = showErr defs u t w := fun w => by unfold showErr; simp only [hasPassed_eq]; rfl
  have h3 : ∀ w, showVerdict defs (u.setE b) n t w = showVerdict defs u n t w := fun w => by unfold showVerdict; simp only [hasPassed_eq]; rfl
  unfold utEnd
  simp only [h1, h2, h3]
  rfl

def RunSt.setE (b : Bool) (s : RunSt) : RunSt := { s with u := s.u.setE b }

theorem performOne_setE (b : Bool) (env : Env) (defs : Nat → TestDef) (s : RunSt) (t : Nat) :
    performOne env defs (s.setE b) t = (performOne env defs s t).map (fun x => (x.1.setE b, x.2)) := by
  unfold performOne
  simp only [RunSt.setE, utEnd_setE]
  show (match utEnd defs s.u (s.count + 1) t (run env (defs t) t (utBegin defs s.u (s.count + 1) t s.w)) with | .error e => _ | .ok w => _) = _
  cases utEnd defs s.u (s.count + 1) t (run env (defs t) t (utBegin defs s.u (s.count + 1) t s.w)) with
  | error e => rfl
  | ok w =>
    simp only [hasPassed_eq]
    by_cases h : (w.tc t).status = .success
    · simp only [h, decide_true, if_true]; rfl
    · simp only [h, decide_false, Bool.false_eq_true, if_false]; rfl

theorem performTests_setE (b : Bool) (env : Env) (defs : Nat → TestDef) (ts : List Nat) (s : RunSt) :
    performTests env defs (s.setE b) ts = (performTests env defs s ts).map (fun x => (x.1.setE b, x.2)) := by
  induction ts generalizing s with
  | nil => rfl
  | cons t ts ih =>
    unfold performTests
    rw [performOne_setE]
    cases performOne env defs s t with
    | error e => rfl
    | ok x =>
      simp only [Except.map, ih]
      cases performTests env defs x.1 ts <;> rfl

theorem performComps_setE (b : Bool) (env : Env) (defs : Nat → TestDef) (cs : List Comp) (s : RunSt) :
    performComps env defs (s.setE b) cs = (performComps env defs s cs).map (fun x => (x.1.setE b, x.2)) := by
  induction cs generalizing s with
  | nil => rfl
  | cons c cs ih =>
    unfold performComps
    simp only [readClock]
    have := performTests_setE b env defs c.tests { s with w := { s.w with tick := s.w.tick + 1 } }
    simp only [RunSt.setE] at this ⊢
    rw [this]
    cases performTests env defs { s with w := { s.w with tick := s.w.tick + 1 } } c.tests with
    | error e => rfl
    | ok x =>
      simp only [Except.map]
      have := ih { x.1 with w := { x.1.w with tick := x.1.w.tick + 1 } }
      simp only [RunSt.setE] at this
      rw [this]
      cases performComps env defs { x.1 with w := { x.1.w with tick := x.1.w.tick + 1 } } cs <;> rfl

theorem runAllTests_setE (b : Bool) (env : Env) (defs : Nat → TestDef) (u : UT) (w : World) :
    runAllTests env defs (u.setE b) w = (runAllTests env defs u w).map (RunSt.setE b) := by
  unfold runAllTests
  simp only [readClock]
  have := performComps_setE b env defs (groupTests defs u.comps u.toPerform) { u := u, w := { w with tick := w.tick + 1 } }
  have h0 : RunSt.setE b { u := u, w := { w with tick := w.tick + 1 } } = { u := u.setE b, w := { w with tick := w.tick + 1 } } := rfl
  rw [h0] at this
  have h1 : groupTests defs (u.setE b).comps (u.setE b).toPerform = groupTests defs u.comps u.toPerform := rfl
  rw [h1, this]
  cases performComps env defs { u := u, w := { w with tick := w.tick + 1 } } (groupTests defs u.comps u.toPerform) <;> rfl

theorem failedList_setE (b : Bool) (u : UT) (w : World) : failedList (u.setE b) w = failedList u w := by
  unfold failedList; simp only [hasPassed_eq]; rfl

theorem report_setE (b : Bool) (fmt : Fmt) (defs : Nat → TestDef) (u : UT) (w : World) : report fmt defs (u.setE b) w = report fmt defs u w := by
  have h : showFailed defs (u.setE b) w = showFailed defs u w := by
    unfold showFailed; rw [failedList_setE]; rfl
  unfold report
  rw [h]; rfl

theorem xmlCase_setE (b : Bool) (fmt : Fmt) (defs : Nat → TestDef) (u : UT) (w : World) (cn : Str) (t : Nat) :
    xmlCase fmt defs (u.setE b) w cn t = xmlCase fmt defs u w cn t := by
  unfold xmlCase; simp only [hasPassed_eq]; rfl

theorem xmlCases_setE (b : Bool) (fmt : Fmt) (defs : Nat → TestDef) (u : UT) (w : World) (cn : Str) (ts : List Nat) :
    xmlCases fmt defs (u.setE b) w cn ts = xmlCases fmt defs u w cn ts := by
  induction ts with
  | nil => rfl
  | cons t ts ih => unfold xmlCases; rw [xmlCase_setE, ih]

theorem xmlComps_setE (b : Bool) (fmt : Fmt) (defs : Nat → TestDef) (u : UT) (w : World) (cs : List Comp) :
    xmlComps fmt defs (u.setE b) w cs = xmlComps fmt defs u w cs := by
  induction cs with
  | nil => rfl
  | cons c cs ih => unfold xmlComps; rw [xmlCases_setE, ih]; rfl

theorem xmlText_setE (b : Bool) (fmt : Fmt) (defs : Nat → TestDef) (u : UT) (w : World) : xmlText fmt defs (u.setE b) w = xmlText fmt defs u w := by
  unfold xmlText; rw [xmlComps_setE]; rfl

theorem performUnitTests_setE (b : Bool) (env : Env) (fmt : Fmt) (canOpen : Bool) (defs : Nat → TestDef) (u : UT) (w : World) :
    performUnitTests env fmt canOpen defs (u.setE b) w = (performUnitTests env fmt canOpen defs u w).map (fun d => { d with u := d.u.setE b }) := by
  unfold performUnitTests
  have hi : (init (u.setE b) w) = ((init u w).1.setE b, (init u w).2) := rfl
  simp only [hi]
  have hu : (if ((init u w).1.setE b).toPerform = [] then { (init u w).1.setE b with toPerform := ((init u w).1.setE b).tests } else (init u w).1.setE b) =
      (if (init u w).1.toPerform = [] then { (init u w).1 with toPerform := (init u w).1.tests } else (init u w).1).setE b := by
    by_cases h : (init u w).1.toPerform = []
    · rw [if_pos h, if_pos (show ((init u w).1.setE b).toPerform = [] from h)]; rfl
    · rw [if_neg h, if_neg (show ¬ ((init u w).1.setE b).toPerform = [] from h)]
  rw [hu, runAllTests_setE]
  cases runAllTests env defs (if (init u w).1.toPerform = [] then { (init u w).1 with toPerform := (init u w).1.tests } else (init u w).1) (init u w).2 with
  | error e => rfl
  | ok s =>
    simp only [Except.map]
    have e1 : (s.setE b).u = s.u.setE b := rfl
    have e2 : (s.setE b).w = s.w := rfl
    have e3 : (s.u.setE b).xmlReport = s.u.xmlReport := rfl
    rw [e1, e2, report_setE, e3]
    split
    · rfl
    · split
      · rw [xmlText_setE]
        cases xmlText fmt defs s.u (report fmt defs s.u s.w) <;> rfl
      · rfl

/-- C85 (exact): -e changes nothing: with and without it, anywhere among valid options, main returns the
same exit code and leaves the same output, verdicts and report. -/
theorem C85_e_is_noop_partial (env : Env) (fmt : Fmt) (canOpen : Bool) (defs : Nat → TestDef) (u : UT) (w : World) (exe : Str) (os os' : List Opt)
    (hv : ∀ o ∈ os ++ os', o.valid (findByName u)) :
    main env fmt canOpen defs u w (exe :: (os ++ .errFail :: os').flatMap Opt.words) = main env fmt canOpen defs u w (exe :: (os ++ os').flatMap Opt.words) := by
  have hv' : ∀ o ∈ os ++ .errFail :: os', o.valid (findByName u) := by
    intro o ho
    simp at ho
    rcases ho with h | h | h
    · exact hv o (by simp [h])
    · subst h; trivial
    · exact hv o (by simp [h])
  unfold main
  simp only
  have p1 := parse_valid (detectTestName env.sep u exe) w _ hv
  have p2 := parse_valid (detectTestName env.sep u exe) w _ hv'
  have hc : configured (detectTestName env.sep u exe) (os ++ .errFail :: os') = (configured (detectTestName env.sep u exe) (os ++ os')).setE true := by
    have h1 : ∀ {α : Type} (f : Opt → Option α) (d : α), f .errFail = none → lastSome f (os ++ .errFail :: os') d = lastSome f (os ++ os') d := by
      intro α f d hf; unfold lastSome; simp [List.filterMap_append, hf]
    unfold configured UT.setE
    rw [h1 _ _ rfl, h1 _ _ rfl, h1 _ _ rfl, h1 _ _ rfl]
    congr 1
    · rw [List.filterMap_append, List.filterMap_append, List.filterMap_cons]; rfl
    · simp
    · simp
  rw [p1, p2, hc]
  simp only
  rw [performUnitTests_setE]
  cases performUnitTests env fmt canOpen defs (configured (detectTestName env.sep u exe) (os ++ os')) w <;> rfl

/-! ### C93 -/

/-- C93: parseParams returns 0 exactly if the arguments are a sequence of valid options, and then the
settings are those of the specification: the last one wins, -t names select in order. Nothing is printed. -/
theorem C93_accepts (u u' : UT) (w w' : World) (args : List Str) :
    parseParams u w args = .ok (u', w', 0) ↔
      w' = w ∧ ∃ os : List Opt, args = os.flatMap Opt.words ∧ (∀ o ∈ os, o.valid (findByName u)) ∧ u' = configured u os := by
  constructor
  · intro h
    have := parse_out u w args
    rw [h] at this
    generalize hr : (Except.ok (u', w', 0) : Res (UT × World × Int)) = r at this
    cases this with
    | good os h1 h2 =>
      simp only [Except.ok.injEq, Prod.mk.injEq] at hr
      exact ⟨hr.2.1, os, h1, h2, hr.1⟩
    | bad => simp only [Except.ok.injEq, Prod.mk.injEq] at hr; exact absurd hr.2.2 (by decide)
    | undef => cases hr
  · rintro ⟨rfl, os, rfl, hv, rfl⟩
    exact parse_valid u w' os hv

/-- C93: otherwise it returns 1, unless it reads a level that was never written (C94). -/
theorem C93_rejects (u : UT) (w : World) (args : List Str) (h : ¬ ∃ os : List Opt, args = os.flatMap Opt.words ∧ (∀ o ∈ os, o.valid (findByName u))) :
    (∃ u' w', parseParams u w args = .ok (u', w', 1) ∧ w'.tr = w.tr) ∨ parseParams u w args = .error (.ub .uninitRead) := by
  have := parse_out u w args
  cases hp : parseParams u w args with
  | error e => rw [hp] at this; cases this; exact .inr rfl
  | ok x =>
    rw [hp] at this
    cases this with
    | good os h1 h2 => exact absurd ⟨os, h1, h2⟩ h
    | bad u' w' h1 h2 => exact .inl ⟨u', w', rfl, h1⟩

/-- C93: the reading of a command line is unique. -/
theorem C93_unambiguous (known : Str → Option Nat) (os os' : List Opt) (hv : ∀ o ∈ os, o.valid known) (hv' : ∀ o ∈ os', o.valid known)
    (h : os.flatMap Opt.words = os'.flatMap Opt.words) : os = os' := by
  induction os generalizing os' with
  | nil => cases os' with
    | nil => rfl
    | cons o' os' => cases o' <;> simp [Opt.words] at h
  | cons o os ih =>
    cases os' with
    | nil => cases o <;> simp [Opt.words] at h
    | cons o' os' =>
      simp only [List.flatMap_cons] at h
      have ho := hv o (by simp)
      have ho' := hv' o' (by simp)
      have ih := fun e => ih os' (fun x hx => hv x (by simp [hx])) (fun x hx => hv' x (by simp [hx])) e
      cases o <;> cases o' <;> simp [Opt.words] at h
      · exact congrArg _ (ih h)
      · exact congrArg _ (ih h)
      · exact congrArg _ (ih h)
      · rename_i a l a' l'
        obtain ⟨rfl, h⟩ := h
        have e1 := (readLevel_iff a l).2 ho.1
        have e2 := (readLevel_iff a l').2 ho'.1
        rw [e1] at e2
        have : l = l' := by injection e2 with e2; exact Int.ofNat.inj e2
        rw [this, ih h]
      · rw [h.1, ih h.2]
      · rw [h.1, ih h.2]
      · rw [h.1, ih h.2]
      · rw [h.1, ih h.2]

/-- Non-vacuity: a command line and its settings. -/
example : parseParams {} {} ["-q".toList, "-v".toList, "3".toList, "-c".toList, "-n".toList, "a".toList, "-n".toList, "b".toList] =
    .ok (configured {} [.quiet, .level "3".toList 3, .noCapture, .name "a".toList, .name "b".toList], {}, 0) ∧
    (configured {} [.quiet, .level "3".toList 3, .noCapture, .name "a".toList, .name "b".toList]).verbosity = 3 ∧
    (configured {} [.quiet, .level "3".toList 3, .noCapture, .name "a".toList, .name "b".toList]).name = ['b'] := by
  refine ⟨?_, by decide, by decide⟩
  exact parse_valid {} {} [.quiet, .level "3".toList 3, .noCapture, .name "a".toList, .name "b".toList] (by
    intro o ho
    simp at ho
    rcases ho with rfl | rfl | rfl | rfl | rfl
    · trivial
    · exact ⟨(readLevel_iff _ _).1 (by decide), by decide⟩
    · trivial
    · trivial
    · trivial)

/-! ### C87 -/

theorem count_grouped (component : Nat → Str) (k : Nat) (sel order : List Nat) (h : Grouped component k sel order) (t : Nat) :
    order.count t = k * sel.count t := by
  obtain ⟨cs, hp, hm, rfl⟩ := h
  have hnd : cs.Nodup := hp.imp (fun {a b} h e => by subst e; rw [← strLt_lt, strLt_irrefl] at h; cases h)
  have hrep : ∀ (n : Nat) (l : List Nat), (List.replicate n l).flatten.count t = n * l.count t := by
    intro n l
    induction n with
    | zero => simp
    | succ n ih => rw [List.replicate_succ, List.flatten_cons, List.count_append, ih, Nat.succ_mul]; omega
  have h0 : ∀ c, c ≠ component t → (sel.filter (fun x => component x = c)).count t = 0 := by
    intro c hc
    apply List.count_eq_zero_of_not_mem
    intro hm; simp at hm; exact hc hm.2.symm
  have h1 : (sel.filter (fun x => component x = component t)).count t = sel.count t := by
    rw [List.count_filter]; simp
  have key : ∀ cs : List Str, cs.Nodup →
      (cs.flatMap (fun c => (List.replicate k (sel.filter (fun x => component x = c))).flatten)).count t = if component t ∈ cs then k * sel.count t else 0 := by
    intro cs hnd
    induction cs with
    | nil => simp
    | cons c cs ih =>
      rw [List.flatMap_cons, List.count_append, ih (List.nodup_cons.1 hnd).2, hrep]
      by_cases e : c = component t
      · have : component t ∉ cs := by rw [← e]; exact (List.nodup_cons.1 hnd).1
        rw [e, h1]; simp [this]
      · have e' : ¬ component t = c := fun x => e x.symm
        rw [h0 c e]; simp [e']
  rw [key cs hnd]
  split
  · rfl
  · rename_i hn
    have : t ∉ sel := fun ht => hn ((hm _).2 ⟨t, ht, rfl⟩)
    rw [List.count_eq_zero_of_not_mem this]; simp

/-- A component map in which every component holds the selection k times. -/
structure KFold (defs : Nat → TestDef) (k : Nat) (sel : List Nat) (cs : List Comp) : Prop where
  sorted : SortedNames (cs.map Comp.name)
  mem    : ∀ n, n ∈ cs.map Comp.name → ∃ t ∈ sel, (defs t).component = n
  tests  : ∀ n, testsOf n cs = (List.replicate k (sel.filter (fun t => (defs t).component = n))).flatten

theorem KFold.nil (defs : Nat → TestDef) (sel : List Nat) : KFold defs 0 sel [] := ⟨by simp [SortedNames], by simp, by simp [testsOf]⟩

theorem KFold.next {defs : Nat → TestDef} {k : Nat} {sel : List Nat} {cs : List Comp} (h : KFold defs k sel cs) :
    KFold defs (k + 1) sel (groupTests defs cs sel) := by
  refine ⟨groupTests_sorted _ _ _ h.sorted, ?_, ?_⟩
  · intro n hn
    rcases (groupTests_mem _ _ _ _).1 hn with h' | h'
    · exact h.mem n h'
    · exact h'
  · intro n
    rw [groupTests_testsOf _ _ _ h.sorted, h.tests]
    rw [List.replicate_succ', List.flatten_append]; simp

theorem KFold.grouped {defs : Nat → TestDef} {k : Nat} {sel : List Nat} {cs : List Comp} (h : KFold defs (k + 1) sel (groupTests defs cs sel)) :
    Grouped (fun t => (defs t).component) (k + 1) sel ((groupTests defs cs sel).flatMap Comp.tests) := by
  refine ⟨(groupTests defs cs sel).map Comp.name, h.sorted.imp (fun h => (strLt_lt _ _).1 h), ?_, ?_⟩
  · intro c
    exact ⟨h.mem c, fun hc => (groupTests_mem _ _ _ _).2 (.inr hc)⟩
  · rw [flatMap_testsOf _ h.sorted]
    congr 1
    funext n
    exact h.tests n

theorem KFold.congr {defs : Nat → TestDef} {k : Nat} {sel : List Nat} {cs cs' : List Comp} (h : KFold defs k sel cs)
    (e : cs'.map (fun c => (c.name, c.tests)) = cs.map (fun c => (c.name, c.tests))) : KFold defs k sel cs' := by
  have hn : cs'.map Comp.name = cs.map Comp.name := by
    have := congrArg (List.map Prod.fst) e
    simpa [List.map_map, Function.comp_def] using this
  have ht : ∀ n, testsOf n cs' = testsOf n cs := by
    intro n
    have : ∀ l : List Comp, testsOf n l = ((l.map (fun c => (c.name, c.tests))).filter (fun x => x.1 = n)).flatMap Prod.snd := by
      intro l
      induction l with
      | nil => rfl
      | cons c cs ih =>
        rw [testsOf_cons, ih]
        by_cases h : c.name = n <;> simp [h]
    rw [this, this, e]
  exact ⟨by rw [hn]; exact h.sorted, fun n hm => h.mem n (by rw [← hn]; exact hm), fun n => by rw [ht]; exact h.tests n⟩

theorem parts_order (xs : List Part) (cs : List Comp) (h : cs = xs.map Prod.fst) (m : ∀ x ∈ xs, x.2.1.map Prod.fst = x.1.tests) :
    (xs.flatMap (·.2.1)).map Prod.fst = cs.flatMap Comp.tests := by
  subst h
  rw [List.map_flatMap, List.flatMap_map]
  induction xs with
  | nil => rfl
  | cons x xs ih =>
    rw [List.flatMap_cons, List.flatMap_cons, m x (by simp), ih (fun y hy => m y (by simp [hy]))]

theorem numbered_tests (n : Nat) (vs : List (Nat × Status)) : (numbered n vs).map (·.2.1) = vs.map Prod.fst := by
  induction vs generalizing n with
  | nil => rfl
  | cons v vs ih => simp [numbered, ih]

theorem numbered_numbers (n : Nat) (vs : List (Nat × Status)) : (numbered n vs).map (·.1) = List.range' (n + 1) vs.length := by
  induction vs generalizing n with
  | nil => rfl
  | cons v vs ih => simp [numbered, ih, List.range'_succ]

theorem numbered_passed (n : Nat) (vs : List (Nat × Status)) : (numbered n vs).map (·.2.2) = vs.map (fun v => decide (v.2 = .success)) := by
  induction vs generalizing n with
  | nil => rfl
  | cons v vs ih => simp [numbered, ih]

theorem put_tr (w : World) (b : Buf) (s : Str) : (w.put b s).tr = w.tr := rfl
theorem put_tc (w : World) (b : Buf) (s : Str) : (w.put b s).tc = w.tc := rfl

/-- C87: the first performUnitTests of a runner, for every suite and selection: the tests entered, by the trace,
are the selected ones (all if none is), grouped by component in ascending order of names, in selection order
within a component; each as often as selected; the numbers shown are 1, 2, ..., n. -/
theorem C87_order (env : Env) (fmt : Fmt) (canOpen : Bool) (defs : Nat → TestDef) (u : UT) (w : World) (d : Done) (hc : u.comps = [])
    (h : performUnitTests env fmt canOpen defs u w = .ok d) :
    let sel := if u.toPerform = [] then u.tests else u.toPerform
    ∃ order new, d.w.tr = w.tr ++ new ∧ entered new = order ∧
      Grouped (fun t => (defs t).component) 1 sel order ∧ (∀ t, order.count t = sel.count t) ∧
      d.log.map (·.2.1) = order ∧ d.log.map (·.1) = List.range' 1 order.length := by
  intro sel
  obtain ⟨xs, lp, w1, hg, hm, hp, hl, _, hw⟩ := performUnitTests_ok _ _ _ _ _ _ _ h
  rw [hc, show u.selection = sel from rfl] at hg
  have hk := (KFold.nil defs sel).next.grouped
  have ho := parts_order xs _ hg hm
  obtain ⟨new, e1, e2⟩ := hp.entered
  have htr : d.w.tr = w.tr ++ new := by
    have : (init u w).2.tr = w.tr := rfl
    rcases hw with e | ⟨s, e⟩
    · rw [e, e1, this]
    · rw [e, put_tr, e1, this]
  refine ⟨_, new, htr, e2, ?_, ?_, ?_, ?_⟩
  · rw [ho]; exact hk
  · intro t; have := count_grouped _ _ _ _ hk t; rw [ho]; simpa using this
  · rw [hl, numbered_tests]
  · rw [hl, numbered_numbers]; simp

/-- Non-vacuity: three tests in two components. -/
example (fmt : Fmt) : let defs : Nat → TestDef := fun t => ⟨[if t = 1 then 'A' else 'B'], ['t'], fun _ => {}⟩
    (performUnitTests {} fmt true defs { registered defs [0, 1, 2] with verbosity := 0 } {}).toOption.map Done.log = some [(1, 1, true), (2, 0, true), (3, 2, true)] := by rfl

/-! ### C86 -/

theorem failures_zero (vs : List (Nat × Status)) : failures vs = 0 ↔ ∀ v ∈ vs, v.2 = .success := by
  unfold failures
  rw [List.length_eq_zero_iff, List.filter_eq_nil_iff]
  simp

/-- C85 (exact): whether or not -e was given, a performed test is counted as passed iff its status is SUCCESS:
in the verdicts, in the number of failures and in the result of the run. -/
theorem C85_passed_partial (env : Env) (fmt : Fmt) (canOpen : Bool) (defs : Nat → TestDef) (u : UT) (w : World) (d : Done)
    (h : performUnitTests env fmt canOpen defs u w = .ok d) :
    ∃ vs w1, Performed env defs u.capture (decide (0 < u.verbosity)) (init u w).2 vs w1 ∧ d.log.map (·.2) = vs.map (fun v => (v.1, decide (v.2 = .success))) ∧
      d.u.failedCount = some (vs.filter (fun v => v.2 ≠ .success)).length ∧ (d.u.status = 0 ↔ ∀ v ∈ vs, v.2 = .success) := by
  obtain ⟨xs, lp, w1, hg, hm, hp, hl, hu, hw⟩ := performUnitTests_ok _ _ _ _ _ _ _ h
  refine ⟨_, w1, hp, ?_, by rw [hu]; rfl, ?_⟩
  · rw [hl]
    have : ∀ n vs, (numbered n vs).map (·.2) = vs.map (fun v => (v.1, decide (v.2 = .success))) := by
      intro n vs
      induction vs generalizing n with
      | nil => rfl
      | cons v vs ih => obtain ⟨a, b⟩ := v; simp [numbered, ih]
    exact this _ _
  · rw [hu, ← failures_zero]
    simp only
    split <;> simp_all

/-- performUnitTests returns 0 iff every performed test passed. -/
theorem C86_perform (env : Env) (fmt : Fmt) (canOpen : Bool) (defs : Nat → TestDef) (u : UT) (w : World) (d : Done)
    (h : performUnitTests env fmt canOpen defs u w = .ok d) :
    ∃ vs w1, Performed env defs u.capture (decide (0 < u.verbosity)) (init u w).2 vs w1 ∧ d.w.tr = w1.tr ∧ d.w.tc = w1.tc ∧ d.log = numbered 0 vs ∧
      (d.u.status = 0 ↔ ∀ v ∈ vs, v.2 = .success) := by
  obtain ⟨xs, lp, w1, hg, hm, hp, hl, hu, hw⟩ := performUnitTests_ok _ _ _ _ _ _ _ h
  refine ⟨_, w1, hp, ?_, ?_, hl, ?_⟩
  · rcases hw with e | ⟨s, e⟩ <;> rw [e] <;> rfl
  · rcases hw with e | ⟨s, e⟩ <;> rw [e] <;> rfl
  · rw [hu, ← failures_zero]
    simp only
    split
    · simp_all
    · rename_i hx; simp [hx]

/-- C86: main. If the arguments are valid options, tests are performed, each started from SetUp as the
trace shows, and main returns 0 iff each of them ended with SUCCESS. If they are not, no test is run, nothing
changes in any test case, and main returns non-zero. -/
theorem C86_main (env : Env) (fmt : Fmt) (canOpen : Bool) (defs : Nat → TestDef) (u : UT) (w : World) (argv : List Str) (ex : Exit)
    (h : main env fmt canOpen defs u w argv = .ok ex) :
    (∃ os : List Opt, argv.drop 1 = os.flatMap Opt.words ∧ (∀ o ∈ os, o.valid (findByName u)) ∧
      ∃ vs w0 w1, Performed env defs (configured u os).capture (decide (0 < (configured u os).verbosity)) w0 vs w1 ∧ w0.tr = w.tr ∧ ex.w.tr = w1.tr ∧ ex.w.tc = w1.tc ∧
        (ex.code = 0 ↔ ∀ v ∈ vs, v.2 = .success)) ∨
    ((¬ ∃ os : List Opt, argv.drop 1 = os.flatMap Opt.words ∧ (∀ o ∈ os, o.valid (findByName u))) ∧ ex.code ≠ 0 ∧ ex.w.tr = w.tr ∧ ex.w.tc = w.tc) := by
  have hgo : ∀ (u : UT) (w0 : World) ex, (match performUnitTests env fmt canOpen defs u w0 with
      | .error e => .error e
      | .ok d => .ok ⟨d.u.status, d.w, d.log, d.xml, true⟩ : Res Exit) = .ok ex →
      ∃ vs w1 w2, Performed env defs u.capture (decide (0 < u.verbosity)) w1 vs w2 ∧ w1.tr = w0.tr ∧ ex.w.tr = w2.tr ∧ ex.w.tc = w2.tc ∧ (ex.code = 0 ↔ ∀ v ∈ vs, v.2 = .success) := by
    intro u w0 ex h
    cases hp : performUnitTests env fmt canOpen defs u w0 with
    | error e => rw [hp] at h; cases h
    | ok d =>
      rw [hp] at h; cases h
      obtain ⟨vs, w1, p, e1, e2, _, e3⟩ := C86_perform _ _ _ _ _ _ _ hp
      exact ⟨vs, _, w1, p, rfl, e1, e2, e3⟩
  unfold main at h
  cases argv with
  | nil =>
    left
    obtain ⟨vs, w1, w2, p, e⟩ := hgo u w ex h
    refine ⟨[], rfl, by simp, vs, w1, w2, ?_, e⟩
    rw [configured_nil]; exact p
  | cons exe args =>
    simp only at h
    have hd : (exe :: args).drop 1 = args := rfl
    rw [hd]
    have ho := parse_out (detectTestName env.sep u exe) w args
    cases hp : parseParams (detectTestName env.sep u exe) w args with
    | error e => rw [hp] at h; cases h
    | ok x =>
      rw [hp] at ho
      cases ho with
      | good os h1 h2 =>
        left
        rw [hp] at h
        exact ⟨os, h1, h2, hgo (configured (detectTestName env.sep u exe) os) w ex h⟩
      | bad u' w' h1 h2 =>
        right
        rw [hp] at h; cases h
        refine ⟨?_, by simp, h1, h2⟩
        rintro ⟨os, e1, e2⟩
        rw [e1, parse_valid (detectTestName env.sep u exe) w os e2] at hp
        cases hp

/-- Non-vacuity: a failing test, and an invalid option. -/
example (fmt : Fmt) : let defs : Nat → TestDef := fun t => ⟨['A'], ['t'], fun _ => { body := [.check (t ≠ 1) ['f'] 3 ['x'] []] }⟩
    (main {} fmt true defs (registered defs [0, 1]) {} [['p'], "-q".toList]).toOption.map Exit.code = some (-1) ∧
    (main {} fmt true defs (registered defs [0, 2]) {} [['p'], "-q".toList]).toOption.map Exit.code = some 0 ∧
    (main {} fmt true defs (registered defs [0, 2]) {} [['p'], "-z".toList]).toOption.map Exit.code = some 1 := ⟨by rfl, by rfl, by rfl⟩

/-! ### C88 -/

/-- C88: in the first run of a runner, the failure count shown is the number of performed tests that
did not pass, and the sum of the counts of the components; the components' test counts add up to the
number of tests performed, which is the number of selected tests. -/
theorem C88_counts (env : Env) (fmt : Fmt) (canOpen : Bool) (defs : Nat → TestDef) (u : UT) (w : World) (d : Done) (hc : u.comps = [])
    (h : performUnitTests env fmt canOpen defs u w = .ok d) :
    d.u.failedCount = some ((d.log.filter (fun e => !e.2.2)).length) ∧
    (d.u.comps.map Comp.failures).sum = (d.log.filter (fun e => !e.2.2)).length ∧
    (d.u.comps.map (fun c => c.tests.length)).sum = d.log.length ∧ d.u.toPerform.length = d.log.length ∧
    ∀ c ∈ d.u.comps, c.failures = ((d.log.filter (fun e => (defs e.2.1).component = c.name)).filter (fun e => !e.2.2)).length := by
  obtain ⟨xs, lp, w1, hg, hm, hp, hl, hu, hw⟩ := performUnitTests_ok _ _ _ _ _ _ _ h
  rw [hc] at hg
  have hf : ∀ n vs, ((numbered n vs).filter (fun e => !e.2.2)).length = failures vs := by
    intro n vs
    induction vs generalizing n with
    | nil => rfl
    | cons v vs ih =>
      rw [failures_cons]
      unfold numbered
      by_cases e : v.2 = .success
      · simp [e, ih]
      · simp [e, ih]; omega
  have hlen : ∀ n vs, (numbered n vs).length = vs.length := by
    intro n vs
    induction vs generalizing n with
    | nil => rfl
    | cons v vs ih => simp [numbered, ih]
  have hcs : d.u.comps = xs.map Part.after := by rw [hu]
  have h0 : ∀ x ∈ xs, x.1.failures = 0 := by
    have : failuresOf (xs.map Prod.fst) = 0 := by rw [← hg, groupTests_failures]; rfl
    intro x hx
    unfold failuresOf at this
    rw [List.sum_eq_zero_iff_forall_eq_nat] at this
    exact this _ (by simp; exact ⟨x.1, ⟨x.2.1, x.2.2, hx⟩, rfl⟩)
  have hsum : (xs.map (fun x => failures x.2.1)).sum = failures (xs.flatMap (·.2.1)) := by
    clear hg hm hp hl hu hw hcs h0
    induction xs with
    | nil => rfl
    | cons x xs ih => rw [List.map_cons, List.sum_cons, ih, List.flatMap_cons, failures_append]
  have hcount : countOf (xs.map Prod.fst) = u.selection.length := by rw [← hg, groupTests_count]; simp [countOf]
  have hvs : (xs.flatMap (·.2.1)).length = countOf (xs.map Prod.fst) := by
    clear hg hp hl hu hw hcs h0 hsum hcount
    unfold countOf
    induction xs with
    | nil => rfl
    | cons x xs ih =>
      have := congrArg List.length (hm x (by simp))
      simp only [List.length_map] at this
      rw [List.flatMap_cons, List.length_append, ih (fun y hy => hm y (by simp [hy]))]
      simp [this]
  refine ⟨?_, ?_, ?_, ?_, ?_⟩
  · rw [hl, hf, hu]
  · rw [hl, hf, hcs, ← hsum, List.map_map]
    congr 1
    apply List.map_congr_left
    intro x hx
    simp [Part.after, h0 x hx]
  · rw [hl, hlen, hvs, hcs]
    unfold countOf
    rw [List.map_map, List.map_map]; rfl
  · rw [hl, hlen, hvs, hcount, hu]
  · intro c hcm
    rw [hcs] at hcm
    simp only [List.mem_map] at hcm
    obtain ⟨x, hx, rfl⟩ := hcm
    have hsorted : SortedNames ((xs.map Prod.fst).map Comp.name) := by rw [← hg]; exact groupTests_sorted _ _ _ (by simp [SortedNames])
    have hin : ∀ y ∈ xs, ∀ v ∈ y.2.1, (defs v.1).component = y.1.name := by
      intro y hy v hv
      have hvt : v.1 ∈ y.1.tests := by rw [← hm y hy]; exact List.mem_map_of_mem hv
      have : v.1 ∈ testsOf y.1.name (xs.map Prod.fst) := by
        unfold testsOf
        simp only [List.mem_flatMap, List.mem_filter, List.mem_map]
        exact ⟨y.1, ⟨⟨y, hy, rfl⟩, by simp⟩, hvt⟩
      rw [← hg, groupTests_testsOf _ _ _ (by simp [SortedNames])] at this
      simp [testsOf] at this
      exact this.2
    have hfil : ∀ n vs, ((numbered n vs).filter (fun e => (defs e.2.1).component = x.1.name)).filter (fun e => !e.2.2) =
        ((numbered n vs).filter (fun e => !e.2.2)).filter (fun e => (defs e.2.1).component = x.1.name) := by
      intro n vs; simp only [List.filter_filter]; congr 1; funext e; exact Bool.and_comm _ _
    show x.1.failures + failures x.2.1 = _
    rw [h0 x hx, Nat.zero_add, hl, show (Part.after x).name = x.1.name from rfl]
    have hcnt : ∀ n vs, ((numbered n vs).filter (fun e => (defs e.2.1).component = x.1.name) |>.filter (fun e => !e.2.2)).length =
        failures (vs.filter (fun v => (defs v.1).component = x.1.name)) := by
      intro n vs
      induction vs generalizing n with
      | nil => rfl
      | cons v vs ih =>
        unfold numbered
        by_cases e : (defs v.1).component = x.1.name
        · rw [List.filter_cons, List.filter_cons]
          simp only [e, decide_true, if_true]
          rw [failures_cons, List.filter_cons]
          by_cases e' : v.2 = .success
          · simp only [e', decide_true, Bool.not_true, Bool.false_eq_true, if_false, if_true]; rw [ih]; omega
          · simp only [e', decide_false, Bool.not_false, if_false, if_true, List.length_cons]; rw [ih]; omega
        · rw [List.filter_cons, List.filter_cons]
          simp only [e, decide_false, Bool.false_eq_true, if_false]
          exact ih _
    rw [hcnt]
    -- only this component's verdicts are left
    have hkeep : (xs.flatMap (·.2.1)).filter (fun v => (defs v.1).component = x.1.name) = x.2.1 := by
      have hsame : x.2.1.filter (fun v => (defs v.1).component = x.1.name) = x.2.1 :=
        List.filter_eq_self.2 (fun v hv => by simp [hin x hx v hv])
      obtain ⟨pre, post, rfl⟩ := List.append_of_mem hx
      rw [List.flatMap_append, List.flatMap_cons, List.filter_append, List.filter_append, hsame]
      rw [List.map_map, SortedNames, List.map_append, List.pairwise_append] at hsorted
      obtain ⟨_, s2, s3⟩ := hsorted
      have e1 : (pre.flatMap (·.2.1)).filter (fun v => (defs v.1).component = x.1.name) = [] := by
        apply List.filter_eq_nil_iff.2
        intro v hv
        simp only [List.mem_flatMap] at hv
        obtain ⟨y, hy, hv⟩ := hv
        rw [hin y (by simp [hy]) v hv]
        have := s3 y.1.name (List.mem_map.2 ⟨y, hy, rfl⟩) x.1.name (by simp)
        simp; intro e; rw [e, strLt_irrefl] at this; cases this
      have e2 : (post.flatMap (·.2.1)).filter (fun v => (defs v.1).component = x.1.name) = [] := by
        apply List.filter_eq_nil_iff.2
        intro v hv
        simp only [List.mem_flatMap] at hv
        obtain ⟨y, hy, hv⟩ := hv
        rw [hin y (by simp [hy]) v hv]
        have := (List.pairwise_cons.1 s2).1 y.1.name (List.mem_map.2 ⟨y, hy, rfl⟩)
        simp; intro e
        have e' : (Comp.name ∘ Prod.fst) x = x.1.name := rfl
        rw [e', e, strLt_irrefl] at this; cases this
      rw [e1, e2]; simp
    rw [hkeep]

/-! ### C89 -/

/-- C89 does not hold: the second call performs the only test twice. -/
theorem C89_second_refuted (fmt : Fmt) :
    let defs : Nat → TestDef := fun _ => ⟨['A'], ['t'], fun _ => {}⟩
    (do let d ← performUnitTests {} fmt true defs { registered defs [0] with verbosity := 0 } {}
        let d' ← performUnitTests {} fmt true defs d.u d.w
        pure (d.log.length, d'.log.length)).toOption = some (1, 2) := by rfl

/-- The k-th call (from 0) of performUnitTests on the same object. -/
def performedTimes (env : Env) (fmt : Fmt) (canOpen : Bool) (defs : Nat → TestDef) (u : UT) (w : World) : Nat → Res Done
  | 0 => performUnitTests env fmt canOpen defs u w
  | k + 1 => match performedTimes env fmt canOpen defs u w k with
    | .error e => .error e
    | .ok d => performUnitTests env fmt canOpen defs d.u d.w

/-- C89 (exact): the k-th call (from 0) performs every selected test k+1 times as often as selected. -/
theorem C89_kth_partial (env : Env) (fmt : Fmt) (canOpen : Bool) (defs : Nat → TestDef) (u : UT) (w : World) (hc : u.comps = []) (k : Nat) (d : Done)
    (h : performedTimes env fmt canOpen defs u w k = .ok d) :
    let sel := if u.toPerform = [] then u.tests else u.toPerform
    Grouped (fun t => (defs t).component) (k + 1) sel (d.log.map (·.2.1)) ∧ ∀ t, (d.log.map (·.2.1)).count t = (k + 1) * sel.count t := by
  intro sel
  have main : ∀ k d, performedTimes env fmt canOpen defs u w k = .ok d →
      KFold defs (k + 1) sel d.u.comps ∧ d.u.selection = sel ∧ Grouped (fun t => (defs t).component) (k + 1) sel (d.log.map (·.2.1)) := by
    have one : ∀ k (u' : UT) w' d, KFold defs k sel u'.comps → u'.selection = sel → performUnitTests env fmt canOpen defs u' w' = .ok d →
        KFold defs (k + 1) sel d.u.comps ∧ d.u.selection = sel ∧ Grouped (fun t => (defs t).component) (k + 1) sel (d.log.map (·.2.1)) := by
      intro k u' w' d hk hs h
      obtain ⟨xs, lp, w1, hg, hm, hp, hl, hu, hw⟩ := performUnitTests_ok _ _ _ _ _ _ _ h
      rw [hs] at hg
      have hk1 := hk.next
      refine ⟨?_, ?_, ?_⟩
      · rw [hu]
        refine hk1.congr ?_
        rw [hg, List.map_map, List.map_map]; rfl
      · rw [hu]
        show (if u'.selection = [] then u'.tests else u'.selection) = sel
        split
        · rename_i he
          have : u'.selection = [] := he
          have ht : u'.tests = [] := by
            unfold UT.selection at this
            split at this
            · exact this
            · rename_i hx; exact absurd this hx
          rw [ht, ← hs, this]
        · exact hs
      · rw [hl, numbered_tests, parts_order xs _ hg hm]
        exact hk1.grouped
    intro k
    induction k with
    | zero =>
      intro d h
      exact one 0 u w d (by rw [hc]; exact KFold.nil defs sel) rfl h
    | succ k ih =>
      intro d h
      unfold performedTimes at h
      cases hp : performedTimes env fmt canOpen defs u w k with
      | error e => rw [hp] at h; cases h
      | ok d1 =>
        rw [hp] at h
        obtain ⟨a, b, _⟩ := ih d1 hp
        exact one (k + 1) d1.u d1.w d a b h
  obtain ⟨_, _, g⟩ := main k d h
  exact ⟨g, fun t => count_grouped _ _ _ _ g t⟩

/-! ### C92 -/

/-- C92 does not hold for tests that put a buffer of their own choice (here: the terminal's) into std::cout. -/
theorem C92_bypass_refuted (fmt : Fmt) :
    let defs : Nat → TestDef := fun _ => ⟨['A'], ['t'], fun _ => { body := [.redirOut .stdout, .out ['x']] }⟩
    (main {} fmt true defs (registered defs [0]) {} [['p'], "-q".toList]).toOption.map (fun e => e.w.content .stdout) = some ['x'] := by rfl

/-- C92 (what holds): with verbosity 0 and capture on, a run of any suite of tests that leave the streams'
buffers in place adds nothing to any buffer but the tests' own, except the message on stderr if the
XML file cannot be opened. -/
theorem C92_silent_partial (env : Env) (fmt : Fmt) (canOpen : Bool) (defs : Nat → TestDef) (u : UT) (w : World) (d : Done)
    (hv : u.verbosity = 0) (hcap : u.capture = true) (hk : ∀ t k, ((defs t).script k).KeepsStreams)
    (h : performUnitTests env fmt canOpen defs u w = .ok d) (b : Buf) (hb : ∀ t, b ≠ .capOut t ∧ b ≠ .capErr t) :
    (b ≠ w.cerr → d.w.content b = w.content b) ∧ (u.xmlReport = [] ∨ canOpen = true → d.w.content b = w.content b) := by
  obtain ⟨xs, lp, w1, hg, hm, hp, hl, hu, hw⟩ := performUnitTests_ok _ _ _ _ _ _ _ h
  have hloud : u.loud = false := by unfold UT.loud; rw [hv]; rfl
  rw [hcap, hloud] at hp
  have hq := hp.quiet (fun v _ k => hk v.1 k) b hb
  have hs := hp.streams
  have hi : (init u w).2.content = w.content := rfl
  have hi2 : (init u w).2.cerr = w.cerr := rfl
  rw [hi] at hq
  constructor
  · intro hne
    rcases hw with e | ⟨s, e⟩
    · rw [e]; exact hq
    · rw [e]; simp only [World.put]
      rw [if_neg (by rw [hs.2, hi2]; exact hne)]; exact hq
  · intro hx
    unfold performUnitTests at h
    simp only at h
    cases h1 : runAllTests env defs (if (init u w).1.toPerform = [] then { (init u w).1 with toPerform := (init u w).1.tests } else (init u w).1) (init u w).2 with
    | error e => rw [h1] at h; cases h
    | ok s =>
      rw [h1] at h; simp only at h
      obtain ⟨xs', lp', g, m, p, l, e⟩ := runAllTests_ok _ _ _ _ _ h1
      have hu0 : ∀ v : UT, v = (if (init u w).1.toPerform = [] then { (init u w).1 with toPerform := (init u w).1.tests } else (init u w).1) →
          v.capture = true ∧ v.loud = false ∧ v.xmlReport = u.xmlReport := by
        intro v hv'
        subst hv'
        split <;> exact ⟨hcap, hloud, rfl⟩
      obtain ⟨q1, q2, q3⟩ := hu0 _ rfl
      rw [q1, q2] at p
      have hr := report_aside fmt defs s.u s.w
      have hsl : s.u.loud = false := by rw [e]; exact q2
      have hsx : s.u.xmlReport = u.xmlReport := by rw [e]; exact q3
      rw [hsl] at hr
      have p' : Performed env defs true false (init u w).2 (xs'.flatMap (·.2.1)) (report fmt defs s.u s.w) := by
        have := p.append (.done hr)
        rw [List.append_nil] at this
        exact this
      have hq' := p'.quiet (fun v _ k => hk v.1 k) b hb
      rw [hi] at hq'
      rw [hsx] at h
      split at h
      · cases h; exact hq'
      · rename_i hxr
        split at h
        · cases hxt : xmlText fmt defs s.u (report fmt defs s.u s.w) with
          | error e => rw [hxt] at h; cases h
          | ok x => rw [hxt] at h; cases h; exact hq'
        · rename_i hco
          rcases hx with hx | hx
          · exact absurd hx hxr
          · exact absurd hx hco

/-! ### C95 -/

/-- The tests listed are the registered ones that were not performed in this run or did not end with
SUCCESS the last time they were performed. -/
theorem failedList_exact (env : Env) (fmt : Fmt) (canOpen : Bool) (defs : Nat → TestDef) (u : UT) (w : World) (d : Done)
    (h : performUnitTests env fmt canOpen defs u w = .ok d) :
    ∃ vs w1, Performed env defs u.capture (decide (0 < u.verbosity)) (init u w).2 vs w1 ∧ d.log = numbered 0 vs ∧
      ∀ t, t ∈ failedList d.u d.w ↔ t ∈ u.tests ∧ lastVerdict t vs ≠ some .success := by
  obtain ⟨xs, lp, w1, hg, hm, hp, hl, hu, hw⟩ := performUnitTests_ok _ _ _ _ _ _ _ h
  refine ⟨_, w1, hp, hl, ?_⟩
  intro t
  have htc : d.w.tc = w1.tc := by rcases hw with e | ⟨s, e⟩ <;> rw [e] <;> rfl
  have htests : d.u.tests = u.tests := by rw [hu]
  unfold failedList
  simp only [List.mem_filter, hasPassed_eq, htests, htc]
  constructor
  · rintro ⟨h1, h2⟩
    refine ⟨h1, fun e => ?_⟩
    rw [hp.status, e] at h2; simp at h2
  · rintro ⟨h1, h2⟩
    refine ⟨h1, ?_⟩
    rw [hp.status]
    cases hv : lastVerdict t (xs.flatMap (·.2.1)) with
    | none =>
      have : ((init u w).2.tc t).status = .none := by simp [init, h1]
      simp [this]
    | some s =>
      rw [hv] at h2
      simp only [Option.getD_some]
      have : s ≠ .success := fun e => h2 (by rw [e])
      simp [this]

theorem numbered_false (vs : List (Nat × Status)) (n t : Nat) : (∃ m, (m, t, false) ∈ numbered n vs) ↔ ∃ s, (t, s) ∈ vs ∧ s ≠ .success := by
  induction vs generalizing n with
  | nil => simp [numbered]
  | cons v vs ih =>
    obtain ⟨a, s⟩ := v
    simp only [numbered, List.mem_cons, exists_or]
    constructor
    · rintro (⟨m, hm⟩ | hm)
      · simp only [Prod.mk.injEq] at hm
        refine ⟨s, .inl (by rw [hm.2.1]), ?_⟩
        intro e; rw [e] at hm; simp at hm
      · obtain ⟨s', h1, h2⟩ := (ih _).1 hm
        exact ⟨s', .inr h1, h2⟩
    · rintro ⟨s', h1 | h1, h2⟩
      · left
        simp only [Prod.mk.injEq] at h1
        refine ⟨n + 1, ?_⟩
        rw [h1.1, ← h1.2]; simp [h2]
      · exact .inr ((ih _).2 ⟨s', h1, h2⟩)

theorem lastVerdict_mem (t : Nat) (vs : List (Nat × Status)) (s : Status) (h : lastVerdict t vs = some s) : (t, s) ∈ vs := by
  unfold lastVerdict at h
  have := List.mem_of_getLast? h
  simp at this
  exact this

theorem lastVerdict_unique (t : Nat) (vs : List (Nat × Status)) (hn : (vs.map Prod.fst).Nodup) (s : Status) (h : (t, s) ∈ vs) : lastVerdict t vs = some s := by
  cases hl : lastVerdict t vs with
  | none =>
    unfold lastVerdict at hl
    rw [List.getLast?_eq_none_iff, List.map_eq_nil_iff, List.filter_eq_nil_iff] at hl
    exact absurd (by simp) (hl (t, s) h)
  | some s' =>
    have h' := lastVerdict_mem t vs s' hl
    obtain ⟨a, b, hab⟩ := List.append_of_mem h
    rw [hab] at h' hn
    rw [List.map_append, List.map_cons] at hn
    rw [List.nodup_append, List.nodup_cons] at hn
    simp only [List.mem_append, List.mem_cons] at h'
    rcases h' with h' | h' | h'
    · exact absurd rfl (hn.2.2 t (List.mem_map_of_mem h') t (by simp))
    · cases h'; rfl
    · exact absurd (List.mem_map_of_mem h') hn.2.1.1

/-- Without -t, in the first run, if no test is registered twice, the list names exactly
the performed tests that did not pass. -/
theorem failedList_all (env : Env) (fmt : Fmt) (canOpen : Bool) (defs : Nat → TestDef) (u : UT) (w : World) (d : Done) (hc : u.comps = []) (ht : u.toPerform = [])
    (hn : u.tests.Nodup) (h : performUnitTests env fmt canOpen defs u w = .ok d) (t : Nat) :
    t ∈ failedList d.u d.w ↔ ∃ n, (n, t, false) ∈ d.log := by
  obtain ⟨vs, w1, hp, hl, hf⟩ := failedList_exact env fmt canOpen defs u w d h
  obtain ⟨order, new, _, _, hg, hcount, ho, _⟩ := C87_order env fmt canOpen defs u w d hc h
  rw [if_pos ht] at hg hcount
  have hvs : vs.map Prod.fst = order := by rw [← ho, hl, numbered_tests]
  have hnd : order.Nodup := by
    rw [List.nodup_iff_count] at hn ⊢
    intro a; rw [hcount]; exact hn a
  rw [hf, hl, numbered_false]
  rw [← hvs] at hnd
  constructor
  · rintro ⟨h1, h2⟩
    have : t ∈ vs.map Prod.fst := by
      rw [hvs, ← List.count_pos_iff, hcount, List.count_pos_iff]; exact h1
    obtain ⟨v, hv, e⟩ := List.mem_map.1 this
    obtain ⟨a, s⟩ := v
    simp only at e; subst e
    refine ⟨s, hv, ?_⟩
    intro e; subst e
    exact h2 (lastVerdict_unique a vs hnd _ hv)
  · rintro ⟨s, h1, h2⟩
    refine ⟨?_, ?_⟩
    · rw [← List.count_pos_iff, ← hcount, ← hvs, List.count_pos_iff]
      exact List.mem_map_of_mem h1
    · rw [lastVerdict_unique t vs hnd s h1]
      simpa using h2

/-! ### C97 -/

/-- C97: tests with different (component, case) have different full names, if component names contain no
colon. -/
theorem C97_names (d d' : TestDef) (h : d.fullName = d'.fullName) (h1 : ':' ∉ d.component) (h2 : ':' ∉ d'.component) :
    d.component = d'.component ∧ d.caseName = d'.caseName := by
  unfold TestDef.fullName at h
  have hc : "::".toList = [':', ':'] := rfl
  rw [hc] at h
  have key : ∀ a b x y : Str, ':' ∉ a → ':' ∉ b → a ++ [':', ':'] ++ x = b ++ [':', ':'] ++ y → a = b ∧ x = y := by
    intro a
    induction a with
    | nil =>
      intro b x y _ hb e
      cases b with
      | nil => simp at e; exact ⟨rfl, e⟩
      | cons c cs => simp at e; simp at hb; exact absurd e.1 hb.1
    | cons c cs ih =>
      intro b x y ha hb e
      cases b with
      | nil => simp at e; simp at ha; exact absurd e.1.symm ha.1
      | cons c' cs' =>
        simp at e ha hb
        have := ih cs' x y ha.2 hb.2 (by simpa using e.2)
        exact ⟨by rw [e.1, this.1], this.2⟩
  exact key _ _ _ _ h1 h2 h

theorem registered_aux (defs : Nat → TestDef) (ts : List Nat) (u : UT) (n : Str) :
    findByName (ts.foldl (addTestCase defs) u) n = (findByName u n).or (ts.find? (fun t => (defs t).fullName == n)) := by
  induction ts generalizing u with
  | nil => simp
  | cons t ts ih =>
    rw [List.foldl_cons, ih, List.find?_cons]
    have hadd : findByName (addTestCase defs u t) n = (findByName u n).or (if (defs t).fullName == n then some t else none) := by
      unfold addTestCase findByName
      simp only
      by_cases ha : u.byName.any (fun e => e.1 == (defs t).fullName) = true
      · rw [if_pos ha]
        by_cases hn : (defs t).fullName == n
        · have hn' : (defs t).fullName = n := by simpa using hn
          rw [List.any_eq_true] at ha
          obtain ⟨e, he, hee⟩ := ha
          have : (u.byName.find? (fun e => e.1 == n)).isSome := by
            rw [List.find?_isSome]; exact ⟨e, he, by rw [← hn']; exact hee⟩
          obtain ⟨x, hx⟩ := Option.isSome_iff_exists.1 this
          rw [hx]; rfl
        · simp [hn]
      · rw [if_neg ha, List.find?_append]
        cases hf : u.byName.find? (fun e => e.1 == n) with
        | some x => rfl
        | none =>
          simp only [Option.none_or, Option.map_none, List.find?_cons]
          cases hn : (defs t).fullName == n <;> rfl
    rw [hadd]
    cases findByName u n with
    | some x => rfl
    | none => cases (defs t).fullName == n <;> rfl

/-- C97: lookup by full name finds the first registered test of that name. -/
theorem C97_lookup (defs : Nat → TestDef) (ts : List Nat) (n : Str) :
    findByName (registered defs ts) n = ts.find? (fun t => (defs t).fullName == n) := by
  rw [registered, registered_aux]; rfl

/-- C97: all tests are registered in order. -/
theorem C97_registered (defs : Nat → TestDef) (ts : List Nat) : (registered defs ts).tests = ts := by
  have : ∀ u : UT, (ts.foldl (addTestCase defs) u).tests = u.tests ++ ts := by
    induction ts with
    | nil => simp
    | cons t ts ih => intro u; rw [List.foldl_cons, ih]; simp [addTestCase]
  rw [registered, this]; rfl

/-- Non-vacuity: without the proviso two different tests share a name. -/
example : (TestDef.mk ['a', ':', ':', 'b'] ['c'] (fun _ => {})).fullName = (TestDef.mk ['a'] ['b', ':', ':', 'c'] (fun _ => {})).fullName := by rfl

/-! ### C98 -/

/-- C98: for every path dir ++ base, where dir is empty or ends in a separator and base contains none, and
base = name ++ ext, where name has no dot and ext is empty or begins with one: the default name is `name`. -/
theorem C98_name (sep : Char) (u : UT) (dir name ext : Str) (hd : dir = [] ∨ ∃ d, dir = d ++ [sep]) (hb : sep ∉ name ++ ext)
    (hn : '.' ∉ name) (he : ext = [] ∨ ∃ e, ext = '.' :: e) :
    (detectTestName sep u (dir ++ name ++ ext)).name = name ∧ (detectTestName sep u (dir ++ name ++ ext)).id = name := by
  have hbase : baseName sep (dir ++ name ++ ext) = name ++ ext := by
    unfold baseName
    rw [List.append_assoc, List.reverse_append, takeWhile_stop]
    · simp
    · intro x hx; simp only [List.mem_reverse] at hx; simp; intro e; subst e; exact hb hx
    · intro x hx
      rcases hd with rfl | ⟨d, rfl⟩
      · simp at hx
      · simp at hx; simp [hx]
  unfold detectTestName
  rw [hbase, takeWhile_stop]
  · exact ⟨rfl, rfl⟩
  · intro x hx; simp; intro e; subst e; exact hn hx
  · intro x hx
    rcases he with rfl | ⟨e, rfl⟩
    · simp at hx
    · simp at hx; simp [← hx]

/-- Every path is of that form. -/
theorem C98_every_path (sep : Char) (p : Str) : ∃ dir name ext, p = dir ++ name ++ ext ∧ (dir = [] ∨ ∃ d, dir = d ++ [sep]) ∧ sep ∉ name ++ ext ∧
    '.' ∉ name ∧ (ext = [] ∨ ∃ e, ext = '.' :: e) := by
  have h1 : ∃ dir base, p = dir ++ base ∧ (dir = [] ∨ ∃ d, dir = d ++ [sep]) ∧ sep ∉ base := by
    induction p with
    | nil => exact ⟨[], [], rfl, .inl rfl, by simp⟩
    | cons c cs ih =>
      obtain ⟨dir, base, e, h, hb⟩ := ih
      rcases h with rfl | ⟨d, rfl⟩
      · by_cases hc : c = sep
        · subst hc; exact ⟨[c], base, by simp [e], .inr ⟨[], rfl⟩, hb⟩
        · exact ⟨[], c :: base, by simp [e], .inl rfl, by simp [hb]; exact fun h => hc h.symm⟩
      · exact ⟨c :: (d ++ [sep]), base, by simp [e], .inr ⟨c :: d, rfl⟩, hb⟩
  obtain ⟨dir, base, e, h, hb⟩ := h1
  have h2 : ∃ name ext, base = name ++ ext ∧ '.' ∉ name ∧ (ext = [] ∨ ∃ e, ext = '.' :: e) := by
    clear e hb
    induction base with
    | nil => exact ⟨[], [], rfl, by simp, .inl rfl⟩
    | cons c cs ih =>
      by_cases hc : c = '.'
      · subst hc; exact ⟨[], '.' :: cs, rfl, by simp, .inr ⟨cs, rfl⟩⟩
      · obtain ⟨n, x, e, h1, h2⟩ := ih
        exact ⟨c :: n, x, by simp [e], by simp [h1]; exact fun h => hc h.symm, h2⟩
  obtain ⟨name, ext, e2, h3, h4⟩ := h2
  exact ⟨dir, name, ext, by rw [e, e2, List.append_assoc], h, by rw [← e2]; exact hb, h3, h4⟩

/-- Non-vacuity. -/
example : (detectTestName '/' {} "/a/b.c/test_x.tar.gz".toList).name = "test_x".toList := by decide

/-! ### C109 -/

/-- C109: performTest of a known name runs exactly this test, once, and returns 0 iff it ended with SUCCESS;
otherwise -1. An unknown name is refused with an exception, and no test is run. -/
theorem C109_performTest (env : Env) (defs : Nat → TestDef) (u : UT) (w : World) (name : Str) :
    (findByName u name = none ∧ performTest env defs u w name = .error (.exn .runtimeError)) ∨
    ∃ t, findByName u name = some t ∧ ∀ u' w' c, performTest env defs u w name = .ok (u', w', c) →
      ∃ new, w'.tr = w.tr ++ new ∧ entered new = [t] ∧ (c = 0 ↔ (w'.tc t).status = .success) ∧ (c = 0 ∨ c = -1) ∧ u'.status = c := by
  have hfind : findByName (init u w).1 name = findByName u name := rfl
  cases hf : findByName u name with
  | none =>
    left
    refine ⟨rfl, ?_⟩
    unfold performTest
    simp only [hfind, hf]
  | some t =>
    right
    refine ⟨t, rfl, ?_⟩
    intro u' w' c h
    unfold performTest at h
    simp only [hfind, hf, readClock] at h
    obtain ⟨w1, a1, e1⟩ := utBegin_eq defs (init u w).1 1 t (init u w).2
    rw [e1] at h
    generalize hwr : run env (defs t) t { beginTest (init u w).1.capture t w1 with tick := (beginTest (init u w).1.capture t w1).tick + 1 } = wr at h
    obtain ⟨new, t1, t2⟩ := run_entered env (defs t) t { beginTest (init u w).1.capture t w1 with tick := (beginTest (init u w).1.capture t w1).tick + 1 }
    rw [hwr] at t1
    cases he : utEnd defs { (init u w).1 with lapse := ⟨env.clock (beginTest (init u w).1.capture t w1).tick, env.clock wr.tick⟩ } 1 t { wr with tick := wr.tick + 1 } with
    | error e => rw [he] at h; cases h
    | ok w2 =>
      rw [he] at h
      obtain ⟨w3, g1, g2⟩ := utEnd_ok _ _ _ _ _ _ he
      obtain ⟨_, f2, f3, _⟩ := endTest_frame _ _ _ _ g1
      have htr : w2.tr = w.tr ++ new := by
        rw [g2.tr, f3]
        show wr.tr = _
        rw [t1]
        show (beginTest (init u w).1.capture t w1).tr ++ new = _
        rw [begin_tr, a1.tr]; rfl
      simp only [hasPassed_eq] at h
      by_cases hs : (w2.tc t).status = .success
      · simp only [hs, decide_true, if_true] at h
        cases h
        exact ⟨new, htr, t2, by simp [hs], .inl rfl, rfl⟩
      · simp only [hs, decide_false, Bool.false_eq_true, if_false] at h
        cases h
        exact ⟨new, htr, t2, by simp [hs], .inr rfl, rfl⟩

/-- Non-vacuity: a passing and a failing test by name. -/
example : let defs : Nat → TestDef := fun t => ⟨['A'], [if t = 0 then 'a' else 'b'], fun _ => { body := [.check (t ≠ 1) ['f'] 3 ['x'] []] }⟩
    let u := { registered defs [0, 1] with verbosity := 0 }
    (performTest {} defs u {} "A::a".toList).toOption.map (·.2.2) = some 0 ∧ (performTest {} defs u {} "A::b".toList).toOption.map (·.2.2) = some (-1) := ⟨by rfl, by rfl⟩

end Falcon.Fut
