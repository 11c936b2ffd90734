import Verif.Proofs.Complete
import Mathlib.Data.List.Perm.Basic
/- C156: a run of tests is always defined. -/
namespace Falcon.Fut

/-! ### The runs, exactly -/

theorem performOne_exact (env : Env) (defs : Nat → TestDef) (s : RunSt) (t : Nat) :
    (∃ s' f, performOne env defs s t = .ok (s', f) ∧ s'.w.seen = s.w.seen.after defs t ∧ s'.u.verbosity = s.u.verbosity ∧
      ¬ (1 ≤ s.u.verbosity ∧ ((defs t).script (s.w.seen.runs t)).EndsFail ∧ (s.w.seen.after defs t).placed t = false)) ∨
    (performOne env defs s t = .error (.ub .uninitRead) ∧ 1 ≤ s.u.verbosity ∧ ((defs t).script (s.w.seen.runs t)).EndsFail ∧
      (s.w.seen.after defs t).placed t = false) := by
  unfold performOne
  dsimp only
  rw [utBegin_text]
  generalize hw1 : print s.w (goText defs s.u (s.count + 1) t) = w1
  have hseen1 : w1.seen = s.w.seen := by rw [← hw1]; rfl
  obtain ⟨w2, h2⟩ := endTest_total env (defs t) s.u.capture t w1
  have hseen2 : w2.seen = s.w.seen.after defs t := by
    rw [← hseen1]
    exact seen_after (k := (beginTest s.u.capture t w1).tick) (k' := (run env (defs t) t (beginTest s.u.capture t w1)).tick) env defs s.u.capture t w1 w2 h2
  obtain ⟨_, f2, _, _, _, _⟩ := endTest_frame _ _ _ _ h2
  have hfail : (w2.tc t).status = .fail ↔ ((defs t).script (s.w.seen.runs t)).EndsFail := by
    rw [f2, run_fail]
    have : nextScript (defs t) t (beginTest s.u.capture t w1) = (defs t).script (s.w.seen.runs t) := by
      rw [begin_script, ← hseen1]; rfl
    rw [this]
  have hline : (w2.tc t).failLine = none ↔ (s.w.seen.after defs t).placed t = false := by
    rw [← hseen2]
    show _ ↔ (w2.tc t).failLine.isSome = false
    cases (w2.tc t).failLine <;> simp
  rcases utEnd_defined defs s.u (s.count + 1) t _ w2 h2 with ⟨x, e, hn⟩ | ⟨e, h⟩
  · left
    rw [e]
    dsimp only
    rw [hfail, hline] at hn
    split
    · exact ⟨_, _, rfl, by rw [← hseen2]; rfl, rfl, hn⟩
    · exact ⟨_, _, rfl, by rw [← hseen2]; rfl, rfl, hn⟩
  · right
    rw [e]
    rw [hfail, hline] at h
    exact ⟨rfl, h⟩

theorem performTests_exact (env : Env) (defs : Nat → TestDef) (ts : List Nat) (s : RunSt) :
    (∃ s' k, performTests env defs s ts = .ok (s', k) ∧ s'.w.seen = s.w.seen.afterAll defs ts ∧ s'.u.verbosity = s.u.verbosity ∧
      ¬ (1 ≤ s.u.verbosity ∧ Blind defs s.w.seen ts)) ∨
    (performTests env defs s ts = .error (.ub .uninitRead) ∧ 1 ≤ s.u.verbosity ∧ Blind defs s.w.seen ts) := by
  induction ts generalizing s with
  | nil => left; exact ⟨_, _, rfl, rfl, rfl, by simp [Blind]⟩
  | cons t ts ih =>
    unfold performTests
    rcases performOne_exact env defs s t with ⟨s1, f, e, h1, h2, h3⟩ | ⟨e, h1, h2⟩
    · rw [e]; dsimp only
      rcases ih s1 with ⟨s2, k, e2, g1, g2, g3⟩ | ⟨e2, g1, g2⟩
      · rw [e2]; left
        refine ⟨_, _, rfl, by rw [g1, h1]; rfl, by rw [g2, h2], ?_⟩
        rintro ⟨hv, hb⟩
        rcases hb with hb | hb
        · exact h3 ⟨hv, hb⟩
        · exact g3 ⟨by rw [h2]; exact hv, by rw [h1]; exact hb⟩
      · rw [e2]; right
        exact ⟨rfl, by rw [← h2]; exact g1, .inr (by rw [← h1]; exact g2)⟩
    · rw [e]; right
      exact ⟨rfl, h1, .inl h2⟩

theorem blind_append (defs : Nat → TestDef) (a b : List Nat) (s : Seen) :
    Blind defs s (a ++ b) ↔ Blind defs s a ∨ Blind defs (s.afterAll defs a) b := by
  induction a generalizing s with
  | nil => simp [Blind, Seen.afterAll]
  | cons t ts ih =>
    show (_ ∨ Blind defs (s.after defs t) (ts ++ b)) ↔ (_ ∨ Blind defs (s.after defs t) ts) ∨ Blind defs ((s.after defs t).afterAll defs ts) b
    rw [ih, or_assoc]

theorem afterAll_append (defs : Nat → TestDef) (a b : List Nat) (s : Seen) :
    s.afterAll defs (a ++ b) = (s.afterAll defs a).afterAll defs b := List.foldl_append ..

theorem performComps_exact (env : Env) (defs : Nat → TestDef) (cs : List Comp) (s : RunSt) :
    (∃ s' cs', performComps env defs s cs = .ok (s', cs') ∧ s'.w.seen = s.w.seen.afterAll defs (cs.flatMap Comp.tests) ∧
      cs'.map Comp.tests = cs.map Comp.tests ∧ s'.u.verbosity = s.u.verbosity ∧
      ¬ (1 ≤ s.u.verbosity ∧ Blind defs s.w.seen (cs.flatMap Comp.tests))) ∨
    (performComps env defs s cs = .error (.ub .uninitRead) ∧ 1 ≤ s.u.verbosity ∧ Blind defs s.w.seen (cs.flatMap Comp.tests)) := by
  induction cs generalizing s with
  | nil => left; exact ⟨_, _, rfl, rfl, rfl, rfl, by simp [Blind]⟩
  | cons c cs ih =>
    unfold performComps
    simp only [readClock]
    rw [List.flatMap_cons]
    rcases performTests_exact env defs c.tests { s with w := { s.w with tick := s.w.tick + 1 } } with ⟨s1, k, e, h1, h2, h3⟩ | ⟨e, h1, h2⟩
    · rw [e]; dsimp only
      have hh1 : s1.w.seen = s.w.seen.afterAll defs c.tests := h1
      have hh2 : s1.u.verbosity = s.u.verbosity := h2
      rcases ih { s1 with w := { s1.w with tick := s1.w.tick + 1 } } with ⟨s2, cs', e2, g1, g4, g2, g3⟩ | ⟨e2, g1, g2⟩
      · rw [e2]; left
        have gg1 : s2.w.seen = s1.w.seen.afterAll defs (cs.flatMap Comp.tests) := g1
        refine ⟨_, _, rfl, by rw [gg1, hh1, afterAll_append], by simp [g4], g2.trans hh2, ?_⟩
        rintro ⟨hv, hb⟩
        rcases (blind_append ..).1 hb with hb | hb
        · exact h3 ⟨hv, hb⟩
        · refine g3 ⟨by show 1 ≤ s1.u.verbosity; rw [hh2]; exact hv, ?_⟩
          show Blind defs s1.w.seen _
          rw [hh1]; exact hb
      · rw [e2]; right
        refine ⟨rfl, by rw [← hh2]; exact g1, (blind_append ..).2 (.inr ?_)⟩
        rw [← hh1]; exact g2
    · rw [e]; right
      exact ⟨rfl, h1, (blind_append ..).2 (.inl h2)⟩

theorem init_seen (u : UT) (w : World) : (init u w).2.seen = w.seen := by
  unfold World.seen init
  congr 1 <;> funext t <;> dsimp only <;> split <;> rfl

theorem print_all_seen (l : List Comp) (f : Comp → Str) (w : World) : (l.foldl (fun w c => print w (f c)) w).tc = w.tc := by
  induction l generalizing w with
  | nil => rfl
  | cons c l ih => rw [List.foldl_cons, ih]; rfl

theorem report_tc (fmt : Fmt) (defs : Nat → TestDef) (u : UT) (w : World) : (report fmt defs u w).tc = w.tc := by
  unfold report showComps showFailed
  split
  · show (if _ then _ else _ : World).tc = _
    split
    · rw [print_all_seen]; split <;> rfl
    · split <;> rfl
  · rfl

/-- The tests in the order in which they are performed: component by component. -/
def performOrder (defs : Nat → TestDef) (u : UT) : List Nat := (groupTests defs u.comps u.selection).flatMap Comp.tests

/-- performUnitTests without the report file -/
theorem performUnitTests_exact (env : Env) (fmt : Fmt) (canOpen : Bool) (defs : Nat → TestDef) (u : UT) (w : World)
    (hx : u.xmlReport = [] ∨ canOpen = false) :
    (∃ d, performUnitTests env fmt canOpen defs u w = .ok d ∧ d.w.seen = w.seen.afterAll defs (performOrder defs u) ∧
      ¬ (1 ≤ u.verbosity ∧ Blind defs w.seen (performOrder defs u))) ∨
    (performUnitTests env fmt canOpen defs u w = .error (.ub .uninitRead) ∧ 1 ≤ u.verbosity ∧ Blind defs w.seen (performOrder defs u)) := by
  unfold performUnitTests
  dsimp only
  have hu : (if (init u w).1.toPerform = [] then { (init u w).1 with toPerform := (init u w).1.tests } else (init u w).1) =
      { u with status := 0, failedCount := some 0, toPerform := u.selection } := by
    unfold UT.selection init
    dsimp only
    split <;> rfl
  rw [hu]
  have hi := init_seen u w
  generalize (init u w).2 = w0 at *
  unfold runAllTests
  simp only [readClock]
  rcases performComps_exact env defs (groupTests defs u.comps u.selection)
    { u := { u with status := 0, failedCount := some 0, toPerform := u.selection }, w := { w0 with tick := w0.tick + 1 } }
    with ⟨s, cs, e, h1, h2, h3, h4⟩ | ⟨e, h1, h2⟩
  · rw [e]; dsimp only
    have h1' : s.w.seen = w.seen.afterAll defs (performOrder defs u) := by rw [← hi]; exact h1
    have h4' : ¬ (1 ≤ u.verbosity ∧ Blind defs w.seen (performOrder defs u)) := by rw [← hi]; exact h4
    have hr : ∀ uu ww, ww.seen = s.w.seen → (report fmt defs uu ww).seen = w.seen.afterAll defs (performOrder defs u) := by
      intro uu ww he
      unfold World.seen at he ⊢
      rw [report_tc]
      rw [show w.seen = ⟨fun t => (w.tc t).runs, fun t => (w.tc t).failLine.isSome⟩ from rfl] at h1'
      rw [← h1']
      exact he
    split
    · left; exact ⟨_, rfl, hr _ _ rfl, h4'⟩
    · rename_i hne
      rcases hx with hx | hx
      · exfalso
        apply hne
        obtain ⟨xs, _, _, _, _, _, hsu⟩ := performComps_ok _ _ _ _ _ _ e
        rw [hsu]; exact hx
      · rw [if_neg (by rw [hx]; simp)]
        left; exact ⟨_, rfl, hr _ _ rfl, h4'⟩
  · rw [e]; right
    exact ⟨rfl, h1, by rw [← hi]; exact h2⟩

/-! ### The report file -/

theorem xmlCases_exact (fmt : Fmt) (defs : Nat → TestDef) (u : UT) (w : World) (cn : Str) (ts : List Nat) :
    (∃ e, xmlCases fmt defs u w cn ts = .error e) ↔ ∃ t ∈ ts, (w.tc t).status ≠ .success ∧ (w.tc t).failLine = none := by
  induction ts with
  | nil => simp [xmlCases]
  | cons t ts ih =>
    have hc : (∃ e, xmlCase fmt defs u w cn t = .error e) ↔ ((w.tc t).status ≠ .success ∧ (w.tc t).failLine = none) := by
      unfold xmlCase
      dsimp only
      rw [hasPassed_eq]
      by_cases h : (w.tc t).status = .success
      · simp [h]
      · simp only [h, decide_false, Bool.false_eq_true, if_false, ne_eq, not_false_eq_true, true_and]
        cases (w.tc t).failLine <;> simp
    unfold xmlCases
    simp only [List.mem_cons, exists_eq_or_imp]
    rw [← hc, ← ih]
    cases xmlCase fmt defs u w cn t with
    | error e => simp
    | ok x => cases xmlCases fmt defs u w cn ts <;> simp

theorem xmlComps_exact (fmt : Fmt) (defs : Nat → TestDef) (u : UT) (w : World) (cs : List Comp) :
    (∃ e, xmlComps fmt defs u w cs = .error e) ↔ ∃ t ∈ cs.flatMap Comp.tests, (w.tc t).status ≠ .success ∧ (w.tc t).failLine = none := by
  induction cs with
  | nil => simp [xmlComps]
  | cons c cs ih =>
    have hc := xmlCases_exact fmt defs u w c.name c.tests
    unfold xmlComps
    rw [List.flatMap_cons]
    simp only [List.mem_append, or_and_right, exists_or]
    rw [← hc, ← ih]
    cases xmlCases fmt defs u w c.name c.tests with
    | error e => simp
    | ok x => cases xmlComps fmt defs u w cs <;> simp

theorem parts_flatMap (xs : List Part) (h : ∀ x ∈ xs, x.2.1.map Prod.fst = x.1.tests) :
    xs.flatMap (fun x => x.2.1.map Prod.fst) = xs.flatMap (fun x => x.1.tests) := by
  induction xs with
  | nil => rfl
  | cons x xs ih => rw [List.flatMap_cons, List.flatMap_cons, h x (by simp), ih (fun y hy => h y (by simp [hy]))]

theorem flatMap_of_map {cs cs' : List Comp} (h : cs'.map Comp.tests = cs.map Comp.tests) : cs'.flatMap Comp.tests = cs.flatMap Comp.tests := by
  rw [List.flatMap_def, List.flatMap_def, h]

/-! ### What is performed in a first run -/

theorem intoComp_perm (n : Str) (t : Nat) (cs : List Comp) : ((intoComp n t cs).flatMap Comp.tests).Perm (cs.flatMap Comp.tests ++ [t]) := by
  induction cs with
  | nil => simp [intoComp]
  | cons c cs ih =>
    unfold intoComp
    split
    · simp only [List.flatMap_cons, List.append_assoc]
      exact List.Perm.append_left _ List.perm_append_comm
    · split
      · simp only [List.flatMap_cons]
        exact (List.perm_append_comm (l₁ := [t]))
      · simp only [List.flatMap_cons, List.append_assoc]
        exact List.Perm.append_left _ ih

theorem groupTests_perm (defs : Nat → TestDef) (cs : List Comp) (ts : List Nat) :
    ((groupTests defs cs ts).flatMap Comp.tests).Perm (cs.flatMap Comp.tests ++ ts) := by
  induction ts generalizing cs with
  | nil => simp [groupTests]
  | cons t ts ih =>
    rw [groupTests_cons]
    refine (ih _).trans ?_
    have := (intoComp_perm (defs t).component t cs).append_right ts
    simpa [List.append_assoc] using this

theorem performOrder_perm (defs : Nat → TestDef) (u : UT) (hc : u.comps = []) : (performOrder defs u).Perm u.selection := by
  unfold performOrder
  rw [hc]
  exact groupTests_perm defs [] u.selection

theorem after_other (s : Seen) (defs : Nat → TestDef) {t u : Nat} (h : u ≠ t) :
    (s.after defs t).runs u = s.runs u ∧ (s.after defs t).placed u = s.placed u := by
  simp [Seen.after, h]

theorem afterAll_other (s : Seen) (defs : Nat → TestDef) {u : Nat} (ts : List Nat) (h : u ∉ ts) :
    (s.afterAll defs ts).runs u = s.runs u ∧ (s.afterAll defs ts).placed u = s.placed u := by
  induction ts generalizing s with
  | nil => exact ⟨rfl, rfl⟩
  | cons t ts ih =>
    simp only [List.mem_cons, not_or] at h
    have := ih (s.after defs t) h.2
    rw [(after_other s defs h.1).1, (after_other s defs h.1).2] at this
    exact this

theorem afterAll_placed (s : Seen) (defs : Nat → TestDef) {u : Nat} (ts : List Nat) (hn : ts.Nodup) (h : u ∈ ts) :
    (s.afterAll defs ts).placed u = (s.placed u || decide ((defs u).script (s.runs u)).Places) := by
  induction ts generalizing s with
  | nil => cases h
  | cons t ts ih =>
    rw [List.nodup_cons] at hn
    show ((s.after defs t).afterAll defs ts).placed u = _
    by_cases hu : u = t
    · subst hu
      rw [(afterAll_other _ defs ts hn.1).2]
      simp [Seen.after]
    · rw [ih _ hn.2 (by simpa [hu] using h), (after_other s defs hu).1, (after_other s defs hu).2]

theorem blind_nodup (defs : Nat → TestDef) (ts : List Nat) (hn : ts.Nodup) (s : Seen) :
    Blind defs s ts ↔ ∃ t ∈ ts, ((defs t).script (s.runs t)).EndsFail ∧ ¬ ((defs t).script (s.runs t)).Places ∧ s.placed t = false := by
  induction ts generalizing s with
  | nil => simp [Blind]
  | cons t ts ih =>
    rw [List.nodup_cons] at hn
    unfold Blind
    rw [ih hn.2]
    simp only [List.mem_cons, exists_eq_or_imp]
    have h1 : (s.after defs t).placed t = false ↔ ¬ ((defs t).script (s.runs t)).Places ∧ s.placed t = false := by
      simp [Seen.after, and_comm]
    rw [h1]
    refine or_congr Iff.rfl (exists_congr fun v => ?_)
    by_cases hv : v = t
    · subst hv; simp [hn.1]
    · rw [(after_other s defs hv).1, (after_other s defs hv).2]

/-! ### C156 -/

/-- C156 is false (1): a test that declares itself failed with status(FAIL) makes the runner print a line number that was never
set, both in performUnitTests and in performTest. -/
theorem C156_status_refuted : ∃ defs : Nat → TestDef, ∀ fmt,
    performUnitTests {} fmt true defs (registered defs [1]) {} = .error (.ub .uninitRead) ∧
    performTest {} defs (registered defs [1]) {} "c::a".toList = .error (.ub .uninitRead) :=
  ⟨fun _ => { component := ['c'], caseName := ['a'], script := fun _ => { body := [.setStatus .fail] } }, fun _ => ⟨rfl, rfl⟩⟩

/-- C156 is false (2): a test that throws is enough when a report file is written. -/
theorem C156_xml_refuted : ∃ defs : Nat → TestDef, (∀ t k, ((defs t).script k).ChecksOnly) ∧ ∀ fmt,
    performUnitTests {} fmt true defs { registered defs [1] with xmlReport := ['r'] } {} = .error (.ub .uninitRead) ∧
    ∃ d, performUnitTests {} fmt true defs (registered defs [1]) {} = .ok d :=
  ⟨fun _ => { component := ['c'], caseName := ['a'], script := fun _ => { body := [.thrw .other] } },
    fun _ _ a ha => by simp at ha; subst ha; rfl, fun _ => ⟨rfl, _, rfl⟩⟩

/-- C156, what can go wrong: nothing but that line number; a run never ends in any other way. -/
theorem C156_only_fault (env : Env) (fmt : Fmt) (canOpen : Bool) (defs : Nat → TestDef) (u : UT) (w : World) :
    (∃ d, performUnitTests env fmt canOpen defs u w = .ok d) ∨ performUnitTests env fmt canOpen defs u w = .error (.ub .uninitRead) := by
  cases h : performUnitTests env fmt canOpen defs u w with
  | ok d => exact .inl ⟨d, rfl⟩
  | error e => right; rw [performUnitTests_error _ _ _ _ _ _ _ h]

/-- C156, exact without a report file: the run is undefined iff messages are on and some test, performed in the order of the run,
ends failed without ever having said where. -/
theorem C156_exact_partial (env : Env) (fmt : Fmt) (canOpen : Bool) (defs : Nat → TestDef) (u : UT) (w : World)
    (hx : u.xmlReport = [] ∨ canOpen = false) :
    performUnitTests env fmt canOpen defs u w = .error (.ub .uninitRead) ↔ 1 ≤ u.verbosity ∧ Blind defs w.seen (performOrder defs u) := by
  rcases performUnitTests_exact env fmt canOpen defs u w hx with ⟨d, e, -, h⟩ | ⟨e, h⟩
  · rw [e]; exact ⟨fun h => (nomatch h), fun h' => absurd h' h⟩
  · exact ⟨fun _ => h, fun _ => e⟩

/-- C156, exact for a first run of distinct tests: it is undefined iff messages are on and the script of some selected test ends
failed without saying where, and none of its earlier runs said it. -/
theorem C156_first_run_partial (env : Env) (fmt : Fmt) (canOpen : Bool) (defs : Nat → TestDef) (u : UT) (w : World)
    (hx : u.xmlReport = [] ∨ canOpen = false) (hc : u.comps = []) (hn : u.selection.Nodup) :
    performUnitTests env fmt canOpen defs u w = .error (.ub .uninitRead) ↔
      1 ≤ u.verbosity ∧ ∃ t ∈ u.selection, (nextScript (defs t) t w).EndsFail ∧ ¬ (nextScript (defs t) t w).Places ∧ (w.tc t).failLine = none := by
  have hp := performOrder_perm defs u hc
  rw [C156_exact_partial env fmt canOpen defs u w hx, blind_nodup defs _ (hp.nodup_iff.2 hn)]
  refine and_congr Iff.rfl (exists_congr fun t => ?_)
  rw [hp.mem_iff]
  have : w.seen.placed t = false ↔ (w.tc t).failLine = none := by
    show (w.tc t).failLine.isSome = false ↔ _
    cases (w.tc t).failLine <;> simp
  rw [this]
  exact Iff.rfl

/-- a test that only uses the checks says where it fails -/
theorem checksOnly_places (sc : Script) (hc : sc.ChecksOnly) (h : sc.EndsFail) : sc.Places := by
  obtain ⟨ht, hs⟩ := h
  have h1 : threw sc.setUp = none := by
    cases e : threw sc.setUp with
    | none => rfl
    | some x => exact absurd (Or.inl (by rw [e]; rfl)) ht
  have h2 : threw sc.body = none := by
    cases e : threw sc.body with
    | none => rfl
    | some x => exact absurd (Or.inr (Or.inl (by rw [e]; rfl))) ht
  have hd : sc.done = sc.all := by simp [Script.done, Script.all, h1, h2]
  have hall : ∀ a ∈ sc.all, a.checksOnly = true := by
    intro a ha
    simp only [Script.all, List.mem_append] at ha
    rcases ha with (ha | ha) | ha
    · exact hc a (by simp [executed_sub _ _ ha])
    · exact hc a (by simp [executed_sub _ _ ha])
    · exact hc a (by simp [executed_sub _ _ ha])
  rcases settled_checksOnly sc.all hall with ⟨e, -⟩ | ⟨-, a, ha, e⟩
  · rw [hs] at e; cases e
  · exact ⟨a, by rw [hd]; exact ha, by rw [places_report '/']; exact sets_fail_report '/' a (hall a ha) e⟩

theorem blind_checksOnly (defs : Nat → TestDef) (hc : ∀ t k, ((defs t).script k).ChecksOnly) (ts : List Nat) (s : Seen) : ¬ Blind defs s ts := by
  induction ts generalizing s with
  | nil => exact id
  | cons t ts ih =>
    rintro (⟨h, hp⟩ | h)
    · have := checksOnly_places _ (hc t _) h
      simp [Seen.after, this] at hp
    · exact ih _ h

/-- C156, tests that use the checks only: without a report file every run is defined, whatever ran before, with every option. -/
theorem C156_checks_only (env : Env) (fmt : Fmt) (canOpen : Bool) (defs : Nat → TestDef) (u : UT) (w : World)
    (hx : u.xmlReport = [] ∨ canOpen = false) (hc : ∀ t k, ((defs t).script k).ChecksOnly) :
    ∃ d, performUnitTests env fmt canOpen defs u w = .ok d := by
  rcases performUnitTests_exact env fmt canOpen defs u w hx with ⟨d, e, -⟩ | ⟨-, -, h⟩
  · exact ⟨d, e⟩
  · exact absurd h (blind_checksOnly defs hc _ _)

/-- the run with a report file, in terms of the run without one -/
theorem xml_cases (env : Env) (fmt : Fmt) (defs : Nat → TestDef) (u : UT) (w : World) (hx : u.xmlReport ≠ []) :
    (performUnitTests env fmt true defs u w = .error (.ub .uninitRead) ∧ performUnitTests env fmt false defs u w = .error (.ub .uninitRead)) ∨
    ∃ d, performUnitTests env fmt false defs u w = .ok d ∧ (performUnitTests env fmt true defs u w = .error (.ub .uninitRead) ↔
      ∃ t ∈ performOrder defs u, (d.w.tc t).status ≠ .success ∧ (d.w.tc t).failLine = none) := by
  unfold performUnitTests
  dsimp only
  have hu : (if (init u w).1.toPerform = [] then { (init u w).1 with toPerform := (init u w).1.tests } else (init u w).1) =
      { u with status := 0, failedCount := some 0, toPerform := u.selection } := by
    unfold UT.selection init
    dsimp only
    split <;> rfl
  rw [hu]
  generalize (init u w).2 = w0 at *
  cases hr : runAllTests env defs { u with status := 0, failedCount := some 0, toPerform := u.selection } w0 with
  | error e =>
    left
    have : e = .ub .uninitRead := by
      unfold runAllTests at hr
      simp only [readClock] at hr
      split at hr
      · rename_i e'' he'
        cases hr; exact performComps_error _ _ _ _ _ he'
      · cases hr
    rw [this]
    exact ⟨rfl, rfl⟩
  | ok s =>
    right
    dsimp only
    obtain ⟨xs, lp, h1, h2, _, _, hsu⟩ := runAllTests_ok _ _ _ _ _ hr
    have hxr : s.u.xmlReport = u.xmlReport := by rw [hsu]; rfl
    have hfc : s.u.failedCount.isSome := by rw [hsu]; rfl
    have hcs : s.u.comps.flatMap Comp.tests = performOrder defs u := by
      have h1' : groupTests defs u.comps u.selection = xs.map Prod.fst := h1
      have h3 : s.u.comps = xs.map Part.after := by rw [hsu]
      unfold performOrder
      rw [h3, h1', List.flatMap_def, List.flatMap_def, List.map_map, List.map_map]
      rfl
    have hxs : ¬ s.u.xmlReport = [] := by rw [hxr]; exact hx
    simp only [hxs, if_true, Bool.false_eq_true, if_false]
    refine ⟨_, rfl, ?_⟩
    have key := xmlComps_exact fmt defs s.u (report fmt defs s.u s.w) s.u.comps
    rw [hcs] at key
    have hk2 : (∃ t ∈ performOrder defs u, ((report fmt defs s.u s.w).tc t).status ≠ .success ∧ ((report fmt defs s.u s.w).tc t).failLine = none) ↔
        ∃ t ∈ performOrder defs u, (((report fmt defs s.u s.w).put (report fmt defs s.u s.w).cerr (txtCannotSave ++ s.u.xmlReport)).tc t).status ≠ .success ∧
          (((report fmt defs s.u s.w).put (report fmt defs s.u s.w).cerr (txtCannotSave ++ s.u.xmlReport)).tc t).failLine = none := Iff.rfl
    rw [← hk2, ← key]
    unfold xmlText
    obtain ⟨fc, hfc'⟩ := Option.isSome_iff_exists.1 hfc
    rw [hfc']
    cases hxc : xmlComps fmt defs s.u (report fmt defs s.u s.w) s.u.comps with
    | error e =>
      have := xmlComps_error _ _ _ _ _ _ hxc
      subst this
      simp
    | ok x => simp

/-- C156, exact with a report file that can be written: the run is undefined iff it is undefined without the file, or some
performed test did not pass in its last run and has never said where. -/
theorem C156_xml_partial (env : Env) (fmt : Fmt) (defs : Nat → TestDef) (u : UT) (w : World) (hx : u.xmlReport ≠ []) :
    performUnitTests env fmt true defs u w = .error (.ub .uninitRead) ↔
      (1 ≤ u.verbosity ∧ Blind defs w.seen (performOrder defs u)) ∨
      ∃ d, performUnitTests env fmt false defs u w = .ok d ∧
        ∃ t ∈ performOrder defs u, (d.w.tc t).status ≠ .success ∧ (w.seen.afterAll defs (performOrder defs u)).placed t = false := by
  rcases xml_cases env fmt defs u w hx with ⟨e1, e2⟩ | ⟨d, e, h⟩
  · exact ⟨fun _ => .inl ((C156_exact_partial env fmt false defs u w (.inr rfl)).1 e2), fun _ => e1⟩
  · rcases performUnitTests_exact env fmt false defs u w (.inr rfl) with ⟨d', e', hs, hnb⟩ | ⟨e', -⟩
    · rw [e] at e'; cases e'
      have hl : ∀ t, (d.w.tc t).failLine = none ↔ (w.seen.afterAll defs (performOrder defs u)).placed t = false := by
        intro t
        rw [← hs]
        show _ ↔ (d.w.tc t).failLine.isSome = false
        cases (d.w.tc t).failLine <;> simp
      rw [h]
      constructor
      · rintro ⟨t, ht, h1, h2⟩
        exact .inr ⟨d, e, t, ht, h1, (hl t).1 h2⟩
      · rintro (hb | ⟨d', e', t, ht, h1, h2⟩)
        · exact absurd hb hnb
        · rw [e] at e'; cases e'
          exact ⟨t, ht, h1, (hl t).2 h2⟩
    · rw [e] at e'; cases e'

/-- C156, exact with a report file, for a first run of distinct tests that use the checks only and leave the streams' buffers
alone: the run is undefined iff some selected test does not pass and does not say where (so it threw, or wrote to standard error). -/
theorem C156_report_partial (env : Env) (fmt : Fmt) (defs : Nat → TestDef) (u : UT) (w : World) (hx : u.xmlReport ≠ [])
    (hcs : u.comps = []) (hn : u.selection.Nodup) (hk : ∀ t k, ((defs t).script k).KeepsStreams) (hc : ∀ t k, ((defs t).script k).ChecksOnly)
    (hw : Sane w) (hv : ∀ t ∈ u.selection, Virgin w t) :
    performUnitTests env fmt true defs u w = .error (.ub .uninitRead) ↔
      ∃ t ∈ u.selection, ¬ ((defs t).script 0).Good u.capture ∧ ¬ ((defs t).script 0).Places ∧ (w.tc t).failLine = none := by
  have hp := performOrder_perm defs u hcs
  have hnd : (performOrder defs u).Nodup := hp.nodup_iff.2 hn
  obtain ⟨d, hd⟩ := C156_checks_only env fmt false defs u w (.inr rfl) hc
  have hst : ∀ t ∈ performOrder defs u, (d.w.tc t).status = .success ↔ ((defs t).script 0).Good u.capture := by
    obtain ⟨xs, lp, w1, h1, h2, h3, -, -, h5⟩ := performUnitTests_ok _ _ _ _ _ _ _ hd
    have hm : (xs.flatMap (·.2.1)).map Prod.fst = performOrder defs u := by
      unfold performOrder
      rw [h1, List.map_flatMap, List.flatMap_map]
      exact parts_flatMap xs h2
    have hs0 : Sane (init u w).2 := hw.congr rfl rfl
    have hv0 : ∀ v ∈ xs.flatMap (·.2.1), Virgin (init u w).2 v.1 := by
      intro v hvm
      have : v.1 ∈ u.selection := by
        rw [← hp.mem_iff, ← hm]; exact List.mem_map_of_mem hvm
      obtain ⟨a, b⟩ := hv v.1 this
      refine ⟨a, ?_⟩
      show ((init u w).2.seen).runs v.1 = 0
      rw [init_seen]; exact b
    have hpv := performed_verdicts hk hc h3 hs0 (by rw [hm]; exact hnd) hv0
    intro t ht
    have htc : d.w.tc t = w1.tc t := by rcases h5 with h5 | ⟨s, h5⟩ <;> rw [h5] <;> rfl
    rw [htc, h3.status t]
    rw [← hm] at ht
    obtain ⟨v, hvm, rfl⟩ := List.mem_map.1 ht
    have hlv : lastVerdict v.1 (xs.flatMap (·.2.1)) = some v.2 := lastVerdict_unique v.1 _ (by rw [hm]; exact hnd) v.2 hvm
    rw [hlv]
    exact hpv v hvm
  rw [C156_xml_partial env fmt defs u w hx]
  constructor
  · rintro (⟨-, h⟩ | ⟨d', e', t, ht, h1, h2⟩)
    · exact absurd h (blind_checksOnly defs hc _ _)
    · rw [hd] at e'; cases e'
      refine ⟨t, hp.mem_iff.1 ht, fun hg => h1 ((hst t ht).2 hg), ?_⟩
      rw [afterAll_placed _ defs _ hnd ht, Bool.or_eq_false_iff, decide_eq_false_iff_not] at h2
      have hr : w.seen.runs t = 0 := (hv t (hp.mem_iff.1 ht)).runs
      rw [hr] at h2
      refine ⟨h2.2, ?_⟩
      have h3 : (w.tc t).failLine.isSome = false := h2.1
      cases hl : (w.tc t).failLine <;> simp_all
  · rintro ⟨t, ht, hg, hpl, hl⟩
    have ht' := hp.mem_iff.2 ht
    refine .inr ⟨d, hd, t, ht', fun hs => hg ((hst t ht').1 hs), ?_⟩
    rw [afterAll_placed _ defs _ hnd ht', Bool.or_eq_false_iff, decide_eq_false_iff_not]
    have hr : w.seen.runs t = 0 := (hv t ht).runs
    rw [hr]
    refine ⟨?_, hpl⟩
    show (w.tc t).failLine.isSome = false
    rw [hl]; rfl

/-- C156, exact for performTest: of a test that is known, it is undefined iff messages are on and the test ends failed without
ever having said where; of a name that is not known it throws. -/
theorem C156_performTest_partial (env : Env) (defs : Nat → TestDef) (u : UT) (w : World) (name : Str) :
    match findByName u name with
    | none => performTest env defs u w name = .error (.exn .runtimeError)
    | some t => (performTest env defs u w name = .error (.ub .uninitRead) ∧ 1 ≤ u.verbosity ∧ (nextScript (defs t) t w).EndsFail ∧
          ¬ (nextScript (defs t) t w).Places ∧ (w.tc t).failLine = none) ∨
        ((∃ u' w' r, performTest env defs u w name = .ok (u', w', r)) ∧
          ¬ (1 ≤ u.verbosity ∧ (nextScript (defs t) t w).EndsFail ∧ ¬ (nextScript (defs t) t w).Places ∧ (w.tc t).failLine = none)) := by
  cases hf : findByName u name with
  | none =>
    have hf' : findByName (init u w).1 name = none := hf
    simp only [performTest, hf']
  | some t =>
    have hf' : findByName (init u w).1 name = some t := hf
    dsimp only
    unfold performTest
    simp only [hf', readClock]
    rw [utBegin_text]
    generalize hw1 : print (init u w).2 (goText defs (init u w).1 1 t) = w1
    have hseen1 : w1.seen = w.seen := by rw [← hw1, ← init_seen u w]; rfl
    have hcap : (init u w).1.capture = u.capture := rfl
    generalize hwb : ({ beginTest (init u w).1.capture t w1 with tick := (beginTest (init u w).1.capture t w1).tick + 1 } : World) = wb
    generalize hwr : ({ run env (defs t) t wb with tick := (run env (defs t) t wb).tick + 1 } : World) = wr
    have hbe : wb = beginTest u.capture t { w1 with tick := w1.tick + 1 } := by
      rw [← hwb, hcap]; cases u.capture <;> rfl
    obtain ⟨w2, h2⟩ : ∃ w2, endTest u.capture t wr = .ok w2 := by
      obtain ⟨w0, h0⟩ := endTest_total env (defs t) u.capture t { w1 with tick := w1.tick + 1 }
      rw [← hbe] at h0
      rw [← hwr]
      unfold endTest at h0 ⊢
      cases hcc : u.capture with
      | false => exact ⟨_, rfl⟩
      | true =>
        rw [hcc] at h0
        simp only [if_true] at h0 ⊢
        split at h0
        · rename_i o e ho he
          rw [ho, he]
          exact ⟨_, rfl⟩
        · cases h0
    have hseen2 : w2.seen = w.seen.after defs t := by
      rw [← hseen1]
      rw [← hwr, ← hwb, hcap] at h2
      exact seen_after env defs u.capture t w1 w2 _ h2
    obtain ⟨_, f2, _, _, _, _⟩ := endTest_frame _ _ _ _ h2
    have hns : nextScript (defs t) t wb = nextScript (defs t) t w := by
      rw [hbe, begin_script]
      have : (w1.seen).runs t = (w.seen).runs t := by rw [hseen1]
      exact congrArg (defs t).script this
    have hfail : (w2.tc t).status = .fail ↔ (nextScript (defs t) t w).EndsFail := by
      rw [f2, ← hwr, ← hns]
      exact run_fail env (defs t) t wb
    have hline : (w2.tc t).failLine = none ↔ ¬ (nextScript (defs t) t w).Places ∧ (w.tc t).failLine = none := by
      have : (w2.tc t).failLine = none ↔ w2.seen.placed t = false := by
        show _ ↔ (w2.tc t).failLine.isSome = false
        cases (w2.tc t).failLine <;> simp
      rw [this, hseen2]
      have h5 : (w.seen.after defs t).placed t = ((w.tc t).failLine.isSome || decide (nextScript (defs t) t w).Places) := by
        simp only [Seen.after, if_true]; rfl
      rw [h5, Bool.or_eq_false_iff, decide_eq_false_iff_not]
      cases (w.tc t).failLine <;> simp
    have hv : ∀ lp, ({ (init u w).1 with lapse := lp } : UT).verbosity = u.verbosity := fun _ => rfl
    rcases utEnd_defined defs { (init u w).1 with lapse := ⟨env.clock (beginTest (init u w).1.capture t w1).tick, env.clock (run env (defs t) t wb).tick⟩ } 1 t wr w2 h2
      with ⟨x, e, hn⟩ | ⟨e, h⟩
    · right
      rw [hfail, hline, hv] at hn
      refine ⟨?_, hn⟩
      rw [e]
      dsimp only
      have hb : ∀ (b : Bool) (p q : UT × World × Int), ∃ u' w' r, (if b = true then Except.ok p else .ok q : Res (UT × World × Int)) = .ok (u', w', r) := by
        intro b p q
        cases b with
        | true => exact ⟨p.1, p.2.1, p.2.2, rfl⟩
        | false => exact ⟨q.1, q.2.1, q.2.2, rfl⟩
      exact hb _ _ _
    · left
      rw [hfail, hline, hv] at h
      rw [e]
      exact ⟨rfl, h⟩

/-- C156 for main: with any valid options the program is undefined iff the run they configure is. -/
theorem C156_main (env : Env) (fmt : Fmt) (canOpen : Bool) (defs : Nat → TestDef) (u : UT) (w : World) (exe : Str) (os : List Opt)
    (hv : ∀ o ∈ os, o.valid (findByName u)) (e : Fault) :
    main env fmt canOpen defs u w (exe :: os.flatMap Opt.words) = .error e ↔
      performUnitTests env fmt canOpen defs (configured (detectTestName env.sep u exe) os) w = .error e := by
  have hp := parse_valid (detectTestName env.sep u exe) w os hv
  have hm : main env fmt canOpen defs u w (exe :: os.flatMap Opt.words) =
      match performUnitTests env fmt canOpen defs (configured (detectTestName env.sep u exe) os) w with
      | .error e => .error e
      | .ok d => .ok ⟨d.u.status, d.w, d.log, d.xml, true⟩ := by
    unfold main
    dsimp only
    rw [hp]
    rfl
  rw [hm]
  cases performUnitTests env fmt canOpen defs (configured (detectTestName env.sep u exe) os) w <;> simp

/-! non-vacuity -/

/-- declares itself failed in its second run; in the first it fails a check -/
def lateDefs : Nat → TestDef := fun _ =>
  { component := ['c'], caseName := ['a'],
    script := fun k => if k = 0 then { body := [.check false ['f'] 7 ['x'] []] } else { body := [.setStatus .fail] } }

/-- the other way round -/
def earlyDefs : Nat → TestDef := fun _ =>
  { component := ['c'], caseName := ['a'],
    script := fun k => if k = 0 then { body := [.setStatus .fail] } else { body := [.check false ['f'] 7 ['x'] []] } }

/-- selected twice, the first is fine, the second is not; both have the same two scripts -/
example : ¬ Blind lateDefs (World.seen {}) [1, 1] ∧ Blind earlyDefs (World.seen {}) [1, 1] := by
  constructor
  · simp [Blind, Seen.after, World.seen, lateDefs]; decide
  · left; decide

example : (performUnitTests {} secFmt true lateDefs { registered lateDefs [1] with toPerform := [1, 1] } {}).toOption.map (fun d => d.log) =
    some [(1, 1, false), (2, 1, false)] := by
  rfl
example (fmt : Fmt) : performUnitTests {} fmt true earlyDefs { registered earlyDefs [1] with toPerform := [1, 1] } {} = .error (.ub .uninitRead) := by
  rfl

/-- and quiet, it is fine -/
example (fmt : Fmt) : ∃ d, performUnitTests {} fmt true earlyDefs { registered earlyDefs [1] with toPerform := [1, 1], verbosity := 0 } {} = .ok d := by
  exact ⟨_, rfl⟩

end Falcon.Fut
