import Verif.Props.Console
/- C95: the list of failed cases in the report. -/
namespace Falcon.Fut

/-- C95 does not hold with -t: a test that was not selected is listed as failed. -/
theorem C95_selection_refuted :
    let defs : Nat → TestDef := fun t => ⟨['A'], [if t = 0 then 'a' else 'b'], fun _ => { body := [.check (t ≠ 0) ['f'] 3 ['x'] []] }⟩
    let d := (performUnitTests {} ⟨fun _ => ['0'], fun _ => ['0'], fun _ => ['0']⟩ true defs { registered defs [0, 1] with toPerform := [0], verbosity := 1 } {}).toOption
    d.map Done.log = some [(1, 0, false)] ∧
    ∃ pre rest, d.map (fun d => d.w.content .stdout) = some (pre ++ "Failed cases: A::a, A::b\n".toList ++ rest) := by
  refine ⟨by decide +kernel,
    "\n======================================================================\nFailure in case 1: A::a at f: 3\nx\n\n======================================================================\n".toList,
    "======================================================================\nUnit Test  (elapsed 0s) FAILED \n".toList, by decide +kernel⟩

/-- performUnitTests as a run and a report. -/
theorem performUnitTests_report (env : Env) (fmt : Fmt) (canOpen : Bool) (defs : Nat → TestDef) (u : UT) (w : World) (d : Done)
    (h : performUnitTests env fmt canOpen defs u w = .ok d) :
    ∃ s, runAllTests env defs { u with status := 0, failedCount := some 0, toPerform := u.selection } (init u w).2 = .ok s ∧ d.u = s.u ∧ d.log = s.log ∧
      (d.w = report fmt defs s.u s.w ∨ ∃ x, d.w = (report fmt defs s.u s.w).put (report fmt defs s.u s.w).cerr x) := by
  unfold performUnitTests at h
  simp only at h
  have hu0 : (if (init u w).1.toPerform = [] then { (init u w).1 with toPerform := (init u w).1.tests } else (init u w).1) =
      { u with status := 0, failedCount := some 0, toPerform := u.selection } := by
    clear h
    unfold UT.selection init
    simp only
    split <;> rfl
  rw [hu0] at h
  cases h1 : runAllTests env defs { u with status := 0, failedCount := some 0, toPerform := u.selection } (init u w).2 with
  | error e => rw [h1] at h; cases h
  | ok s =>
    rw [h1] at h; simp only at h
    refine ⟨s, rfl, ?_⟩
    split at h
    · cases h; exact ⟨rfl, rfl, .inl rfl⟩
    · split at h
      · split at h
        · cases h
        · cases h; exact ⟨rfl, rfl, .inl rfl⟩
      · cases h; exact ⟨rfl, rfl, .inr ⟨_, rfl⟩⟩

/-- C95 (exact): when a test of the run did not pass and the runner is not silent, the report begins with a list
of failed cases: exactly the registered tests that were not performed in this run or did not end with SUCCESS the last time they
were performed, in the order of registration. -/
theorem C95_exact_partial (env : Env) (fmt : Fmt) (canOpen : Bool) (defs : Nat → TestDef) (u : UT) (w : World) (d : Done)
    (h : performUnitTests env fmt canOpen defs u w = .ok d) :
    ∃ vs w1, Performed env defs u.capture (decide (0 < u.verbosity)) (init u w).2 vs w1 ∧ d.log = numbered 0 vs ∧ d.w.cout = w1.cout ∧
      (0 < u.verbosity → (∃ v ∈ vs, v.2 ≠ .success) → ∃ rest, d.w.content d.w.cout = w1.content w1.cout ++
        Console.failedCases ((u.tests.filter (fun t => lastVerdict t vs ≠ some .success)).map (fun t => (defs t).fullName)) ++ rest) := by
  obtain ⟨s, h1, e1, e2, hw⟩ := performUnitTests_report _ _ _ _ _ _ _ h
  obtain ⟨xs, lp, _, _, hp, hl, hu⟩ := runAllTests_ok _ _ _ _ _ h1
  refine ⟨_, s.w, hp, by rw [e2, hl], ?_, ?_⟩
  · rcases hw with e | ⟨x, e⟩ <;> rw [e, report_text] <;> rfl
  · intro hv hf
    have hsv : s.u.verbosity = u.verbosity := by rw [hu]; rfl
    have hst : s.u.tests = u.tests := by rw [hu]; rfl
    have hs0 : s.u.status ≠ 0 := by
      have : failures (xs.flatMap (·.2.1)) ≠ 0 := by
        rw [Ne, failures_zero]
        intro hall
        obtain ⟨v, hv1, hv2⟩ := hf
        exact hv2 (hall v hv1)
      rw [hu]
      simp [UT.counted, this]
    have hfl : failedList s.u s.w = u.tests.filter (fun t => lastVerdict t (xs.flatMap (·.2.1)) ≠ some .success) := by
      unfold failedList
      rw [hst]
      apply List.filter_congr
      intro t ht
      rw [hasPassed_eq, hp.status]
      cases hv : lastVerdict t (xs.flatMap (·.2.1)) with
      | none =>
        have : ((init u w).2.tc t).status = .none := by simp [init, ht]
        simp [this]
      | some x => cases x <;> simp
    have hrep := report_text fmt defs s.u s.w
    rw [hfl] at hrep
    unfold Console.summary at hrep
    rw [if_neg (by omega), if_neg (by simpa using hs0)] at hrep
    have hc : (report fmt defs s.u s.w).cout = s.w.cout := by rw [hrep]; rfl
    have hcont : ∃ rest, (report fmt defs s.u s.w).content s.w.cout = s.w.content s.w.cout ++
        Console.failedCases ((u.tests.filter (fun t => lastVerdict t (xs.flatMap (·.2.1)) ≠ some .success)).map (fun t => (defs t).fullName)) ++ rest := by
      rw [hrep]
      simp only [print, World.put, if_true, List.append_assoc]
      exact ⟨_, rfl⟩
    obtain ⟨rest, hcont⟩ := hcont
    rcases hw with e | ⟨x, e⟩
    · rw [e, hc]; exact ⟨rest, hcont⟩
    · rw [e]
      have : ((report fmt defs s.u s.w).put (report fmt defs s.u s.w).cerr x).cout = s.w.cout := hc
      rw [this]
      simp only [World.put]
      split
      · rename_i hb; rw [hcont]; exact ⟨rest ++ x, by simp⟩
      · exact ⟨rest, hcont⟩

/-- C95 (what holds): without -t, in the first run, if no test is registered twice, the list printed names exactly
the performed tests that did not pass, each once. -/
theorem C95_all_partial (env : Env) (fmt : Fmt) (canOpen : Bool) (defs : Nat → TestDef) (u : UT) (w : World) (d : Done) (hc : u.comps = []) (ht : u.toPerform = [])
    (hn : u.tests.Nodup) (hv : 0 < u.verbosity) (h : performUnitTests env fmt canOpen defs u w = .ok d) (hf : ∃ n t, (n, t, false) ∈ d.log) :
    ∃ pre rest, ∃ failed : List Nat, failed.Nodup ∧ (∀ t, t ∈ failed ↔ ∃ n, (n, t, false) ∈ d.log) ∧
      d.w.content d.w.cout = pre ++ Console.failedCases (failed.map (fun t => (defs t).fullName)) ++ rest := by
  obtain ⟨vs, w1, hp, hl, _, hr⟩ := C95_exact_partial env fmt canOpen defs u w d h
  have hall := failedList_all env fmt canOpen defs u w d hc ht hn h
  obtain ⟨vs', w1', hp', hl', hex⟩ := failedList_exact env fmt canOpen defs u w d h
  have hlog := numbered_false vs
  obtain ⟨n, t, hnt⟩ := hf
  obtain ⟨rest, e⟩ := hr hv (by
    rw [hl] at hnt
    obtain ⟨s, h1, h2⟩ := (numbered_false vs 0 t).1 ⟨n, hnt⟩
    exact ⟨(t, s), h1, h2⟩)
  refine ⟨_, rest, _, hn.filter _, ?_, e⟩
  intro t
  rw [← hall t, hex t, List.mem_filter]
  have : (lastVerdict t vs = some .success) ↔ (lastVerdict t vs' = some .success) := by
    have key : ∀ (n : Nat) (a b : List (Nat × Status)), numbered n a = numbered n b → (lastVerdict t a = some .success ↔ lastVerdict t b = some .success) := by
      intro n a b e
      have hb : ∀ (n : Nat) (a : List (Nat × Status)), ((numbered n a).filter (fun x => x.2.1 = t)).map (·.2.2) = (a.filter (fun v => v.1 = t)).map (fun v => decide (v.2 = .success)) := by
        intro n a
        induction a generalizing n with
        | nil => rfl
        | cons v a ih =>
          obtain ⟨i, x⟩ := v
          simp only [numbered, List.filter_cons]
          by_cases hi : i = t <;> simp [hi, ih]
      have e' := (hb n a).symm.trans ((by rw [e] : _ = _).trans (hb n b))
      have hlast : ∀ a : List (Nat × Status), lastVerdict t a = some .success ↔ ((a.filter (fun v => v.1 = t)).map (fun v => decide (v.2 = .success))).getLast? = some true := by
        intro a
        unfold lastVerdict
        rw [List.getLast?_map, List.getLast?_map]
        cases (a.filter (fun v => v.1 = t)).getLast? <;> simp
      rw [hlast a, hlast b, e']
    exact key 0 vs vs' (by rw [← hl, hl'])
  simp [this]

/-- The hypotheses of C95_all_partial are met: three tests, the first and the last fail. -/
example : let defs : Nat → TestDef := fun t => ⟨['A'], [if t = 0 then 'a' else if t = 1 then 'b' else 'c'], fun _ => { body := [.check (t = 1) ['f'] 3 ['x'] []] }⟩
    let u := { registered defs [0, 1, 2] with verbosity := 1 }
    u.comps = [] ∧ u.toPerform = [] ∧ u.tests.Nodup ∧ 0 < u.verbosity ∧
    ∃ d, performUnitTests {} ⟨fun _ => ['0'], fun _ => ['0'], fun _ => ['0']⟩ true defs u {} = .ok d ∧ (∃ n t, (n, t, false) ∈ d.log) ∧
      d.log = [(1, 0, false), (2, 1, true), (3, 2, false)] := by
  intro defs u
  refine ⟨rfl, rfl, by decide, by decide, ?_⟩
  have key : (performUnitTests {} ⟨fun _ => ['0'], fun _ => ['0'], fun _ => ['0']⟩ true defs u {}).toOption.map (fun d => d.log) =
      some [(1, 0, false), (2, 1, true), (3, 2, false)] := by decide +kernel
  cases hd : performUnitTests {} ⟨fun _ => ['0'], fun _ => ['0'], fun _ => ['0']⟩ true defs u {} with
  | error e => rw [hd] at key; cases key
  | ok d =>
    rw [hd] at key
    have e : d.log = [(1, 0, false), (2, 1, true), (3, 2, false)] := Option.some.inj key
    exact ⟨d, rfl, ⟨1, 0, by rw [e]; simp⟩, e⟩

end Falcon.Fut
