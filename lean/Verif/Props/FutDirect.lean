import Verif.Props.UnitTest
import Verif.Proofs.Complete
import Verif.Spec.FutDirect
/-
C92: what exactly a silent run writes.
-/
namespace Falcon.Fut

/-- The buffers of the streams after these statements. -/
def outAfter (o : Buf) (as : List Act) : Buf := as.foldl (fun o a => match a with | .redirOut b => b | _ => o) o
def errAfter (e : Buf) (as : List Act) : Buf := as.foldl (fun e a => match a with | .redirErr b => b | _ => e) e

theorem sent_append (b : Buf) (as bs : List Act) : ∀ o e, sent b o e (as ++ bs) = sent b o e as ++ sent b (outAfter o as) (errAfter e as) bs := by
  induction as with
  | nil => intro o e; rfl
  | cons a as ih =>
    intro o e
    cases a <;> simp [sent, ih, outAfter, errAfter]

theorem applyAll_sent (env : Env) (t : Nat) (as : List Act) : ∀ w : World,
    (applyAll env t w as).cout = outAfter w.cout as ∧ (applyAll env t w as).cerr = errAfter w.cerr as ∧
      ∀ b, (applyAll env t w as).content b = w.content b ++ sent b w.cout w.cerr as := by
  induction as with
  | nil => intro w; exact ⟨rfl, rfl, fun b => by simp [applyAll, sent]⟩
  | cons a as ih =>
    intro w
    obtain ⟨h1, h2, h3⟩ := ih (act env t w a).1
    rw [applyAll_cons]
    refine ⟨?_, ?_, fun b => ?_⟩
    · rw [h1]
      cases a with
      | check ok f l e x => cases ok <;> rfl
      | expectThrow o c f l ty => cases o <;> cases c <;> rfl
      | expectAnyThrow o f l => cases o <;> rfl
      | expectNoThrow o f l =>
        cases o with
        | none => rfl
        | some e => cases e <;> rfl
      | _ => rfl
    · rw [h2]
      cases a with
      | check ok f l e x => cases ok <;> rfl
      | expectThrow o c f l ty => cases o <;> cases c <;> rfl
      | expectAnyThrow o f l => cases o <;> rfl
      | expectNoThrow o f l =>
        cases o with
        | none => rfl
        | some e => cases e <;> rfl
      | _ => rfl
    · rw [h3 b]
      cases a with
      | check ok f l e x => cases ok <;> rfl
      | expectThrow o c f l ty => cases o <;> cases c <;> rfl
      | expectAnyThrow o f l => cases o <;> rfl
      | expectNoThrow o f l =>
        cases o with
        | none => rfl
        | some e => cases e <;> rfl
      | out s =>
        simp only [act, World.put, sent]
        by_cases hb : b = w.cout
        · subst hb; simp
        · rw [if_neg hb, if_neg (fun h => hb h.symm)]; simp
      | err s =>
        simp only [act, World.put, sent]
        by_cases hb : b = w.cerr
        · subst hb; simp
        · rw [if_neg hb, if_neg (fun h => hb h.symm)]; simp
      | _ => rfl

theorem run_sent (env : Env) (d : TestDef) (t : Nat) (w : World) (b : Buf) :
    (run env d t w).content b = w.content b ++ sent b w.cout w.cerr (nextScript d t w).done := by
  have s1 := applyAll_sent env t (executed (nextScript d t w).setUp) (atSetUp d t w)
  have s2 := applyAll_sent env t (executed (nextScript d t w).body) (enter (markBegin env (afterSetUp env d t w) t) (.body t))
  have s3 := applyAll_sent env t (executed (nextScript d t w).tearDown) (enter (conclude (markEnd env (afterBody env d t w) t) t) (.tearDown t))
  have c := conclude_misc (markEnd env (afterBody env d t w) t) t
  have e1 : (afterSetUp env d t w).content b = w.content b ++ sent b w.cout w.cerr (executed (nextScript d t w).setUp) := s1.2.2 b
  have e2 : (afterBody env d t w).content b = (afterSetUp env d t w).content b ++
      sent b (outAfter w.cout (executed (nextScript d t w).setUp)) (errAfter w.cerr (executed (nextScript d t w).setUp)) (executed (nextScript d t w).body) := by
    have := s2.2.2 b
    have o1 : (enter (markBegin env (afterSetUp env d t w) t) (.body t)).cout = outAfter w.cout (executed (nextScript d t w).setUp) := s1.1
    have o2 : (enter (markBegin env (afterSetUp env d t w) t) (.body t)).cerr = errAfter w.cerr (executed (nextScript d t w).setUp) := s1.2.1
    rw [o1, o2] at this
    exact this
  have e3 : (afterTearDown env d t w).content b = (afterBody env d t w).content b ++
      sent b (outAfter (outAfter w.cout (executed (nextScript d t w).setUp)) (executed (nextScript d t w).body))
        (errAfter (errAfter w.cerr (executed (nextScript d t w).setUp)) (executed (nextScript d t w).body)) (executed (nextScript d t w).tearDown) := by
    have := s3.2.2 b
    have o1 : (enter (conclude (markEnd env (afterBody env d t w) t) t) (.tearDown t)).cout =
        outAfter (outAfter w.cout (executed (nextScript d t w).setUp)) (executed (nextScript d t w).body) := by
      show (conclude (markEnd env (afterBody env d t w) t) t).cout = _
      rw [c.1]
      show (afterBody env d t w).cout = _
      have h := s2.1
      have o1 : (enter (markBegin env (afterSetUp env d t w) t) (.body t)).cout = outAfter w.cout (executed (nextScript d t w).setUp) := s1.1
      rw [o1] at h; exact h
    have o2 : (enter (conclude (markEnd env (afterBody env d t w) t) t) (.tearDown t)).cerr =
        errAfter (errAfter w.cerr (executed (nextScript d t w).setUp)) (executed (nextScript d t w).body) := by
      show (conclude (markEnd env (afterBody env d t w) t) t).cerr = _
      rw [c.2.1]
      show (afterBody env d t w).cerr = _
      have h := s2.2.1
      have o1 : (enter (markBegin env (afterSetUp env d t w) t) (.body t)).cerr = errAfter w.cerr (executed (nextScript d t w).setUp) := s1.2.1
      rw [o1] at h; exact h
    have o3 : (enter (conclude (markEnd env (afterBody env d t w) t) t) (.tearDown t)).content b = (afterBody env d t w).content b := by
      show (conclude (markEnd env (afterBody env d t w) t) t).content b = _
      rw [c.2.2.1]; rfl
    rw [o1, o2, o3] at this
    exact this
  rw [run_eq]
  unfold Script.done
  cases h1 : threw (nextScript d t w).setUp with
  | some e => simp only [(caught_misc _ _ _ _).2.2.1, e1, Option.isSome_some, if_true, List.append_nil]
  | none =>
    simp only [Option.isSome_none, Bool.false_eq_true, if_false]
    cases h2 : threw (nextScript d t w).body with
    | some e => simp only [(caught_misc _ _ _ _).2.2.1, e2, e1, Option.isSome_some, if_true, List.append_nil, sent_append, List.append_assoc]
    | none =>
      simp only [Option.isSome_none, Bool.false_eq_true, if_false]
      cases h3 : threw (nextScript d t w).tearDown with
      | some e => simp only [(caught_misc _ _ _ _).2.2.1, e3, e2, e1, sent_append, List.append_assoc]
      | none => simp only [e3, e2, e1, sent_append, List.append_assoc]

theorem captured_sent (env : Env) (d : TestDef) (t : Nat) (w w2 : World) (h : endTest true t (run env d t (beginTest true t w)) = .ok w2) (b : Buf) :
    w2.content b = w.content b ++ sent b (.capOut t) (.capErr t) (d.script (w.tc t).runs).done ∧
      ∀ u, (w2.tc u).runs = if u = t then (w.tc u).runs + 1 else (w.tc u).runs := by
  have hr := run_sent env d t (beginTest true t w) b
  have hb : ((beginTest true t w).tc t).runs = (w.tc t).runs := by simp [beginTest, setStatus, World.setTc]
  have hn : nextScript d t (beginTest true t w) = d.script (w.tc t).runs := by unfold nextScript; rw [hb]
  rw [hn] at hr
  unfold endTest at h
  simp only [if_true] at h
  split at h
  · cases h
    refine ⟨hr, fun u => ?_⟩
    by_cases hu : u = t
    · subst hu
      have := run_runs env d u (beginTest true u w)
      rw [hb] at this
      simp [World.setTc, this]
    · simp only [World.setTc, if_neg hu]
      rw [run_other _ _ _ _ _ hu]
      simp [beginTest, setStatus, World.setTc, hu]
  · cases h

theorem Performed.sent {env : Env} {defs : Nat → TestDef} {w w' : World} {vs : List (Nat × Status)} (p : Performed env defs true false w vs w')
    (b : Buf) : w'.content b = w.content b ++ sentBy defs b (fun t => (w.tc t).runs) (vs.map Prod.fst) := by
  induction p with
  | done h =>
    obtain ⟨s, hs, ht⟩ := h.text
    rw [ht, hs rfl]; simp [sentBy]
  | test h he _ ih =>
    rename_i w w1 w2 w3 t rest _
    obtain ⟨g1, g2⟩ := captured_sent env (defs t) t w1 w2 he b
    obtain ⟨s, hs, ht⟩ := h.text
    have hc : w1.content b = w.content b := by rw [ht, hs rfl]; simp
    have htc : w1.tc = w.tc := h.tc
    rw [ih, g1, hc, htc]
    simp only [List.map_cons, sentBy, List.append_assoc, List.append_cancel_left_eq]
    congr 2
    funext u
    rw [g2 u, htc]

/-- C92 (exactly): with verbosity 0 and capture on, a run of any suite, whatever its tests do, adds to every buffer
exactly what the tests, in the order in which they are performed, write into it themselves: through streams that
begin with the tests' own buffers and go wherever the tests redirect them. The only other text is the message on
stderr if the report file cannot be opened. -/
theorem C92_exact_partial (env : Env) (fmt : Fmt) (canOpen : Bool) (defs : Nat → TestDef) (u : UT) (w : World) (d : Done)
    (hv : u.verbosity = 0) (hcap : u.capture = true) (h : performUnitTests env fmt canOpen defs u w = .ok d) (b : Buf)
    (hx : u.xmlReport = [] ∨ canOpen = true ∨ b ≠ w.cerr) :
    d.w.content b = w.content b ++ sentBy defs b (fun t => (w.tc t).runs) (d.log.map (·.2.1)) := by
  have hloud : u.loud = false := by unfold UT.loud; rw [hv]; rfl
  have hi : (init u w).2.content = w.content := rfl
  have hi2 : (init u w).2.cerr = w.cerr := rfl
  have hi3 : (fun t => ((init u w).2.tc t).runs) = fun t => (w.tc t).runs := by
    funext t; simp only [init]; split <;> rfl
  obtain ⟨xs, lp, w1, hg, hm, hp, hl, hu, hw⟩ := performUnitTests_ok _ _ _ _ _ _ _ h
  rw [hcap, hloud] at hp
  have hq := hp.sent b
  have hs := hp.streams
  rw [hi, hi3, ← numbered_tests 0, ← hl] at hq
  by_cases hne : b ≠ w.cerr
  · rcases hw with e | ⟨s, e⟩
    · rw [e]; exact hq
    · rw [e]; simp only [World.put]
      rw [if_neg (by rw [hs.2, hi2]; exact hne)]; exact hq
  · have hx : u.xmlReport = [] ∨ canOpen = true := by
      rcases hx with h | h | h
      · exact .inl h
      · exact .inr h
      · exact absurd h hne
    unfold performUnitTests at h
    simp only at h
    cases h1 : runAllTests env defs (if (init u w).1.toPerform = [] then { (init u w).1 with toPerform := (init u w).1.tests } else (init u w).1) (init u w).2 with
    | error e => rw [h1] at h; cases h
    | ok s =>
      rw [h1] at h; simp only at h
      obtain ⟨xs', lp', g, m, p, l, e⟩ := runAllTests_ok _ _ _ _ _ h1
      have hu0 : ∀ v : UT, v = (if (init u w).1.toPerform = [] then { (init u w).1 with toPerform := (init u w).1.tests } else (init u w).1) →
          v.capture = true ∧ v.loud = false ∧ v.xmlReport = u.xmlReport := by
        intro v hv'
        subst hv'
        split <;> exact ⟨hcap, hloud, rfl⟩
      obtain ⟨q1, q2, q3⟩ := hu0 _ rfl
      rw [q1, q2] at p
      have hr := report_aside fmt defs s.u s.w
      have hsl : s.u.loud = false := by rw [e]; exact q2
      have hsx : s.u.xmlReport = u.xmlReport := by rw [e]; exact q3
      rw [hsl] at hr
      have p' : Performed env defs true false (init u w).2 (xs'.flatMap (·.2.1)) (report fmt defs s.u s.w) := by
        have := p.append (.done hr)
        rw [List.append_nil] at this
        exact this
      have hq' := p'.sent b
      rw [hi, hi3] at hq'
      have hlog : d.log = s.log → (xs'.flatMap (·.2.1)).map Prod.fst = d.log.map (·.2.1) := by
        intro hd; rw [hd, l, numbered_tests]
      rw [hsx] at h
      split at h
      · cases h; rw [hq', hlog rfl]
      · rename_i hxr
        split at h
        · cases hxt : xmlText fmt defs s.u (report fmt defs s.u s.w) with
          | error e => rw [hxt] at h; cases h
          | ok x => rw [hxt] at h; cases h; rw [hq', hlog rfl]
        · rename_i hco
          rcases hx with hx | hx
          · exact absurd hx hxr
          · exact absurd hx hco

/-- C92 (exactly): the standard output stays as it was exactly if the tests write nothing into it directly. -/
theorem C92_silent_iff_partial (env : Env) (fmt : Fmt) (canOpen : Bool) (defs : Nat → TestDef) (u : UT) (w : World) (d : Done)
    (hv : u.verbosity = 0) (hcap : u.capture = true) (h : performUnitTests env fmt canOpen defs u w = .ok d)
    (hx : u.xmlReport = [] ∨ canOpen = true ∨ w.cerr ≠ .stdout) :
    d.w.content .stdout = w.content .stdout ↔ sentBy defs .stdout (fun t => (w.tc t).runs) (d.log.map (·.2.1)) = [] := by
  rw [C92_exact_partial env fmt canOpen defs u w d hv hcap h .stdout (by
    rcases hx with h | h | h
    · exact .inl h
    · exact .inr (.inl h)
    · exact .inr (.inr fun e => h e.symm))]
  simp

/-- Two tests; the first writes "x" to the terminal and "y" into its own buffer, and the second after an exception nothing at all. -/
example (fmt : Fmt) :
    let defs : Nat → TestDef := fun t => if t = 0 then ⟨['A'], ['t'], fun _ => { body := [.out ['y'], .redirOut .stdout, .out ['x']] }⟩
      else ⟨['A'], ['u'], fun _ => { setUp := [.redirErr .stdout, .thrw .other], body := [.err ['z']] }⟩
    ∃ d, performUnitTests {} fmt true defs { registered defs [0, 1] with verbosity := 0 } {} = .ok d ∧ d.log.map (·.2.1) = [0, 1] ∧
      d.w.content .stdout = ['x'] ∧ sentBy defs .stdout (fun _ => 0) [0, 1] = ['x'] ∧ sentBy defs (.capOut 0) (fun _ => 0) [0, 1] = ['y'] :=
  ⟨_, rfl, rfl, rfl, rfl, rfl⟩

end Falcon.Fut
