import Verif.Proofs.Console
import Verif.Props.UnitTest
/- C127: what a whole run shows on the console. -/
namespace Falcon.Fut

theorem failures_outcomes (os : List Outcome) : failures (os.map (fun o => (o.test, o.status))) = 0 ↔ ∀ o ∈ os, o.status = .success := by
  rw [failures_zero]
  simp

/-- C127: a first run of a suite whose tests leave the streams' buffers in place, at any verbosity, capturing or not.
There is an outcome for each selected test (all if none is selected), in the order of C87, numbered from 1; standard
output is what it was, then for each outcome exactly its report, then exactly the summary; standard error is
what it was, then what the tests wrote there themselves (if not captured), then the message about the XML file if
that could not be opened; no other buffer, except those of the tests, was touched. -/
theorem C127_console (env : Env) (fmt : Fmt) (canOpen : Bool) (defs : Nat → TestDef) (u : UT) (w : World) (d : Done)
    (hc : u.comps = []) (hk : ∀ t k, ((defs t).script k).KeepsStreams) (hs : Sane w)
    (h : performUnitTests env fmt canOpen defs u w = .ok d) :
    let sel := if u.toPerform = [] then u.tests else u.toPerform
    ∃ os w1, Conducted env defs u.capture (decide (0 < u.verbosity)) 0 (init u w).2 os w1 ∧ d.w.tc = w1.tc ∧
      os.map Outcome.number = List.range' 1 os.length ∧
      Grouped (fun t => (defs t).component) 1 sel (os.map Outcome.test) ∧
      (d.u.comps.map Comp.name).Pairwise (· < ·) ∧ (∀ c, c ∈ d.u.comps.map Comp.name ↔ ∃ t ∈ sel, (defs t).component = c) ∧
      ((∀ o ∈ os, o.inTime) → d.w.content w.cout = w.content w.cout ++ os.flatMap (fun o => Console.told u.verbosity (defs o.test).fullName o) ++
        Console.summary u.verbosity
          ((u.tests.filter (fun t => lastVerdict t (os.map (fun o => (o.test, o.status))) ≠ some .success)).map (fun t => (defs t).fullName))
          (d.u.comps.map (fun c => (c.name, fmt.g3 c.lapse.elapsed, os.all (fun o => decide ((defs o.test).component = c.name → o.status = .success)))))
          u.name (fmt.g4 d.u.lapse.elapsed) (os.all (fun o => decide (o.status = .success)))) ∧
      d.w.content w.cerr = w.content w.cerr ++ os.flatMap Outcome.directErr ++
        (if u.xmlReport ≠ [] ∧ canOpen = false then "Cannot save XML report to ".toList ++ u.xmlReport else []) ∧
      ∀ b, b ≠ w.cout → b ≠ w.cerr → (∀ t, b ≠ .capOut t ∧ b ≠ .capErr t) → d.w.content b = w.content b := by
  intro sel
  have hcounts := C88_counts env fmt canOpen defs u w d hc h
  obtain ⟨order, _, _, _, hgr, _, hord, _⟩ := C87_order env fmt canOpen defs u w d hc h
  obtain ⟨xs, lp, w1', hg, hm, hp, hl, hu, hw⟩ := performUnitTests_ok _ _ _ _ _ _ _ h
  have hnames : d.u.comps.map Comp.name = (groupTests defs [] sel).map Comp.name := by
    rw [hc, show u.selection = sel from rfl] at hg
    rw [hu, hg]; simp [Part.after]
  have hkf := (KFold.nil defs sel).next
  unfold performUnitTests at h
  simp only at h
  have hu0 : (if (init u w).1.toPerform = [] then { (init u w).1 with toPerform := (init u w).1.tests } else (init u w).1) =
      { u with status := 0, failedCount := some 0, toPerform := u.selection } := by
    clear h
    unfold UT.selection init
    simp only
    split <;> rfl
  rw [hu0] at h
  cases h1 : runAllTests env defs { u with status := 0, failedCount := some 0, toPerform := u.selection } (init u w).2 with
  | error e => rw [h1] at h; cases h
  | ok s =>
    rw [h1] at h; simp only at h
    obtain ⟨xs', lp', _, _, p, l, e⟩ := runAllTests_ok _ _ _ _ _ h1
    obtain ⟨os, q, lq⟩ := runAllTests_shows env defs hk _ (init u w).2 s (hs.congr rfl rfl) h1
    have hrep := report_text fmt defs s.u s.w
    have hxr : s.u.xmlReport = u.xmlReport := by rw [e]; rfl
    have hsv : s.u.verbosity = u.verbosity := by rw [e]; rfl
    have hst : s.u.tests = u.tests := by rw [e]; rfl
    have hsn : s.u.name = u.name := by rw [e]; rfl
    -- the result: the run's state, the log, the world after the report and perhaps the message
    have hd : d.u = s.u ∧ d.log = s.log ∧
        d.w = (report fmt defs s.u s.w).put (report fmt defs s.u s.w).cerr
          (if u.xmlReport ≠ [] ∧ canOpen = false then "Cannot save XML report to ".toList ++ u.xmlReport else []) := by
      have hnil : ∀ (x : World) (b : Buf), x.put b [] = x := by intro x b; cases x; simp [World.put]
      rw [hxr] at h
      split at h
      · rename_i hx
        cases h
        refine ⟨rfl, rfl, ?_⟩
        rw [if_neg (fun y => y.1 hx), hnil]
      · rename_i hx
        split at h
        · rename_i hco
          cases hxt : xmlText fmt defs s.u (report fmt defs s.u s.w) with
          | error e => rw [hxt] at h; cases h
          | ok x =>
            rw [hxt] at h; cases h
            refine ⟨rfl, rfl, ?_⟩
            rw [if_neg (fun y => by simp [hco] at y), hnil]
        · rename_i hco
          cases h
          refine ⟨rfl, rfl, ?_⟩
          rw [if_pos ⟨hx, by simpa using hco⟩]; rfl
    obtain ⟨d1, d2, d3⟩ := hd
    have hperf := q.cond.performed
    have hlog : d.log = os.map entry := by rw [d2, lq]
    -- verdict of the run
    have hall : decide (s.u.status = 0) = os.all (fun o => decide (o.status = .success)) := by
      have hs0 : s.u.status = if failures (xs'.flatMap (·.2.1)) = 0 then 0 else -1 := by rw [e]; rfl
      have hcnt : ∀ (n : Nat) (vs : List (Nat × Status)), (numbered n vs).map (·.2.2) = os.map (fun o => decide (o.status = .success)) →
          (failures vs = 0 ↔ ∀ o ∈ os, o.status = .success) := by
        intro n vs hh
        rw [numbered_passed] at hh
        have e1 : (∀ v ∈ vs, v.2 = .success) ↔ ∀ b ∈ vs.map (fun v => decide (v.2 = .success)), b = true := by simp
        have e2 : (∀ o ∈ os, o.status = .success) ↔ ∀ b ∈ os.map (fun o => decide (o.status = .success)), b = true := by simp
        rw [failures_zero, e1, e2, hh]
      have := hcnt 0 (xs'.flatMap (·.2.1)) (by rw [← l, lq, List.map_map]; rfl)
      rw [hs0]
      by_cases hf : failures (xs'.flatMap (·.2.1)) = 0
      · rw [if_pos hf]
        symm
        simpa using this.1 hf
      · rw [if_neg hf]
        have hx : ¬ ∀ o ∈ os, o.status = .success := fun y => hf (this.2 y)
        symm
        rw [show decide ((-1 : Int) = 0) = false from rfl, Bool.eq_false_iff]
        intro y
        exact hx (by simpa using y)
    -- the failed list
    have hfl : failedList s.u s.w = u.tests.filter (fun t => lastVerdict t (os.map (fun o => (o.test, o.status))) ≠ some .success) := by
      unfold failedList
      rw [hst]
      apply List.filter_congr
      intro t ht
      rw [hasPassed_eq, hperf.status t]
      have hi : ((init u w).2.tc t).status = .none := by simp [init, ht]
      rw [hi]
      cases lastVerdict t (os.map (fun o => (o.test, o.status))) with
      | none => simp
      | some x => cases x <;> simp
    -- the components
    have hcomps : s.u.comps.map (fun c => (c.name, fmt.g3 c.lapse.elapsed, decide (c.failures = 0))) =
        d.u.comps.map (fun c => (c.name, fmt.g3 c.lapse.elapsed, os.all (fun o => decide ((defs o.test).component = c.name → o.status = .success)))) := by
      rw [d1]
      apply List.map_congr_left
      intro c hcm
      congr 2
      rw [hcounts.2.2.2.2 c (by rw [d1]; exact hcm), hlog]
      have key : ∀ l : List Outcome, decide ((((l.map entry).filter (fun e => (defs e.2.1).component = c.name)).filter (fun e => !e.2.2)).length = 0) =
          l.all (fun o => decide ((defs o.test).component = c.name → o.status = .success)) := by
        intro l
        induction l with
        | nil => rfl
        | cons o l ih =>
          rw [List.all_cons, ← ih, List.map_cons, List.filter_cons]
          by_cases h1 : (defs o.test).component = c.name
          · by_cases h2 : o.status = .success <;> simp [entry, h1, h2]
          · simp [entry, h1]
      exact key os
    have hwtc : d.w.tc = s.w.tc := by rw [d3, hrep]; rfl
    have hcout : s.w.cout = w.cout := q.cout
    have hcerr : s.w.cerr = w.cerr := q.cerr
    have hsum := hrep
    rw [hsv, hfl, hcomps, hsn, hall] at hsum
    refine ⟨os, s.w, q.cond, hwtc, by simpa using q.nums, ?_, ?_, ?_, ?_, ?_, ?_⟩
    · rw [← hord, hlog, List.map_map] at hgr
      exact hgr
    · rw [hnames]; exact hkf.sorted.imp (fun h => (strLt_lt _ _).1 h)
    · intro c
      rw [hnames]
      exact ⟨hkf.mem c, fun hx => (groupTests_mem _ _ _ _).2 (.inr hx)⟩
    · intro hin
      have ht := q.text hin
      rw [d3, hsum, d1]
      simp only [World.put, print, hcerr, if_neg hs.ne, hcout, if_true]
      have : (init u w).2.cout = w.cout := rfl
      rw [this] at ht
      rw [ht]; rfl
    · have ht := q.errs
      have : (init u w).2.cerr = w.cerr := rfl
      rw [this] at ht
      rw [d3, hrep]
      simp only [World.put, print, hcerr, if_true, hcout, if_neg (Ne.symm hs.ne)]
      rw [ht]; rfl
    · intro b b1 b2 b3
      have ht := q.rest b b1 b2 b3
      rw [d3, hrep]
      simp only [World.put, print, hcerr, if_neg b2, hcout, if_neg b1]
      rw [ht]; rfl

/-- Non-vacuity: a failing test with output and a passing one, with the default settings. -/
example : let defs : Nat → TestDef := fun t => ⟨[if t = 0 then 'A' else 'B'], ['t'], fun _ => { body := [.out "hi".toList, .check (t ≠ 0) "src/f.cpp".toList 3 ['x'] ['7']] }⟩
    (performUnitTests {} secFmt true defs { registered defs [0, 1] with name := ['n'] } {}).toOption.map (fun d => d.w.content .stdout) = some
      ("\n======================================================================\nSTDOUT A::t\n======================================================================\nhi\n" ++
       "\n======================================================================\nFailure in case 1: A::t at f.cpp: 3\nx (Actually \"7\")\n" ++
       "[  2: B::t                                              0.000s     OK  ]\n" ++
       "\n======================================================================\nFailed cases: A::t\n======================================================================\n" ++
       "  Component A (elapsed 0s) FAILED \n  Component B (elapsed 0s) Passed\nUnit Test n (elapsed 0s) FAILED \n").toList := by
  decide +kernel
example : Sane {} := ⟨by decide, fun _ => by simp, fun _ => by simp⟩

end Falcon.Fut
