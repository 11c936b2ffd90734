import Verif.Spec.UnitTest
import Verif.Proofs.TestCase
/- Lemmas about the test runner. -/
namespace Falcon.Fut

/-! ### Printing -/

theorem print_nil (w : World) : print w [] = w := by
  cases w; simp [print, World.put]

theorem Aside.refl (l : Bool) (w : World) : Aside l w w := ⟨rfl, rfl, rfl, rfl, [], fun _ => rfl, fun b => by simp⟩

theorem Aside.print (w : World) (s : Str) : Aside true w (print w s) :=
  ⟨rfl, rfl, rfl, rfl, s, fun h => (nomatch h), fun b => by simp [Fut.print, World.put]⟩

theorem Aside.trans {l : Bool} {w w' w'' : World} (h : Aside l w w') (h' : Aside l w' w'') : Aside l w w'' := by
  obtain ⟨s, hs, h1⟩ := h.text
  obtain ⟨s', hs', h2⟩ := h'.text
  refine ⟨h'.cout.trans h.cout, h'.cerr.trans h.cerr, h'.tc.trans h.tc, h'.tr.trans h.tr, s ++ s', fun e => by rw [hs e, hs' e]; rfl, fun b => ?_⟩
  rw [h2, h.cout, h1]
  split <;> simp

theorem Aside.tick {l : Bool} (w : World) (n : Nat) : Aside l w { w with tick := n } := ⟨rfl, rfl, rfl, rfl, [], fun _ => rfl, fun b => by simp⟩

theorem Aside.cond (l : Bool) (w : World) (s : Str) (c : Prop) [Decidable c] (h : c → l = true) : Aside l w (if c then Fut.print w s else w) := by
  split
  · rename_i hc; rw [h hc]; exact Aside.print w s
  · exact Aside.refl l w

/-- The runner prints nothing with verbosity 0. -/
def UT.loud (u : UT) : Bool := decide (0 < u.verbosity)

theorem utBegin_eq (defs : Nat → TestDef) (u : UT) (n t : Nat) (w : World) :
    ∃ w1, Aside u.loud w w1 ∧ utBegin defs u n t w = beginTest u.capture t w1 := by
  refine ⟨if u.verbosity ≥ 3 then print w (testLine n (defs t).fullName "GO".toList (-1000)) else w, ?_, rfl⟩
  exact Aside.cond _ _ _ _ (fun h => by unfold UT.loud; exact decide_eq_true (by omega))

theorem hasPassed_eq (u : UT) (w : World) (t : Nat) : hasPassed u w t = decide ((w.tc t).status = .success) := by
  unfold hasPassed
  cases (w.tc t).status <;> cases u.erroutIsFail <;> rfl

theorem hasPassed_iff (u : UT) (w : World) (t : Nat) : hasPassed u w t = true ↔ (w.tc t).status = .success := by
  rw [hasPassed_eq]; simp

theorem utEnd_ok (defs : Nat → TestDef) (u : UT) (n t : Nat) (w w' : World) (h : utEnd defs u n t w = .ok w') :
    ∃ w1, endTest u.capture t w = .ok w1 ∧ Aside u.loud w1 w' := by
  unfold utEnd at h
  cases he : endTest u.capture t w with
  | error e => rw [he] at h; cases h
  | ok w1 =>
    rw [he] at h
    refine ⟨w1, rfl, ?_⟩
    simp only [showVerdict] at h
    have a1 : Aside u.loud w1 (showOut defs u t w1) := Aside.cond _ _ _ _ (fun h => by unfold UT.loud; apply decide_eq_true; omega)
    have a2 : Aside u.loud (showOut defs u t w1) (showErr defs u t (showOut defs u t w1)) :=
      Aside.cond _ _ _ _ (fun h => by unfold UT.loud; apply decide_eq_true; omega)
    refine (a1.trans a2).trans ?_
    split at h
    · rename_i hc
      cases h
      have : u.loud = true := decide_eq_true hc.1
      rw [this]; exact Aside.print _ _
    · split at h
      · rename_i hc
        split at h
        · cases h
        · cases h
          have : u.loud = true := decide_eq_true (by omega)
          rw [this]; exact Aside.print _ _
      · split at h
        · rename_i hc
          cases h
          have : u.loud = true := decide_eq_true (by omega)
          rw [this]; exact Aside.print _ _
        · cases h
          exact Aside.refl _ _

/-! ### The loops -/

theorem Performed.prepend {env : Env} {defs : Nat → TestDef} {c l : Bool} {w w1 w2 : World} {vs : List (Nat × Status)} (h : Aside l w w1)
    (p : Performed env defs c l w1 vs w2) : Performed env defs c l w vs w2 := by
  cases p with
  | done h' => exact .done (h.trans h')
  | test h' he hp => exact .test (h.trans h') he hp

theorem Performed.append {env : Env} {defs : Nat → TestDef} {c l : Bool} {w w1 w2 : World} {vs vs' : List (Nat × Status)}
    (p : Performed env defs c l w vs w1) (p' : Performed env defs c l w1 vs' w2) : Performed env defs c l w (vs ++ vs') w2 := by
  induction p with
  | done h => exact p'.prepend h
  | test h he _ ih => exact .test h he (ih p')

theorem failures_cons (v : Nat × Status) (vs : List (Nat × Status)) : failures (v :: vs) = (if v.2 = .success then 0 else 1) + failures vs := by
  unfold failures
  by_cases h : v.2 = .success <;> simp [h]; omega

theorem failures_append (vs vs' : List (Nat × Status)) : failures (vs ++ vs') = failures vs + failures vs' := by
  simp [failures]

theorem numbered_append (n : Nat) (vs vs' : List (Nat × Status)) : numbered n (vs ++ vs') = numbered n vs ++ numbered (n + vs.length) vs' := by
  induction vs generalizing n with
  | nil => simp [numbered]
  | cons v vs ih => simp [numbered, ih]; congr 1; omega

/-- What counting does to the runner. -/
def UT.counted (u : UT) (k : Nat) : UT := { u with status := if k = 0 then u.status else -1, failedCount := u.failedCount.map (· + k) }

theorem counted_zero (u : UT) : u.counted 0 = u := by
  cases u; simp [UT.counted]
theorem counted_counted (u : UT) (a b : Nat) : (u.counted a).counted b = u.counted (a + b) := by
  simp only [UT.counted, Option.map_map]
  congr 1
  · by_cases h : b = 0 <;> by_cases h' : a = 0 <;> simp [h, h']
  · congr 1; funext x; simp; omega
theorem counted_capture (u : UT) (a : Nat) : (u.counted a).capture = u.capture := rfl
theorem counted_loud (u : UT) (a : Nat) : (u.counted a).loud = u.loud := rfl

theorem performOne_ok (env : Env) (defs : Nat → TestDef) (s s' : RunSt) (t : Nat) (f : Bool) (h : performOne env defs s t = .ok (s', f)) :
    ∃ st, Performed env defs s.u.capture s.u.loud s.w [(t, st)] s'.w ∧ s'.log = s.log ++ numbered s.count [(t, st)] ∧ s'.count = s.count + 1 ∧
      s'.u = s.u.counted (failures [(t, st)]) ∧ (if f then 1 else 0) = failures [(t, st)] := by
  unfold performOne at h
  obtain ⟨w1, a1, e1⟩ := utBegin_eq defs s.u (s.count + 1) t s.w
  simp only [e1] at h
  cases he : utEnd defs s.u (s.count + 1) t (run env (defs t) t (beginTest s.u.capture t w1)) with
  | error e => rw [he] at h; cases h
  | ok w' =>
    rw [he] at h
    obtain ⟨w2, e2, a2⟩ := utEnd_ok _ _ _ _ _ _ he
    refine ⟨(w2.tc t).status, ?_⟩
    have hst : (w'.tc t).status = (w2.tc t).status := by rw [a2.tc]
    simp only [hasPassed_eq, hst] at h
    by_cases hs : (w2.tc t).status = .success
    · simp only [hs, decide_true, if_true] at h
      cases h
      refine ⟨?_, by simp [numbered, hs], rfl, ?_, by simp [failures, hs]⟩
      · exact .test a1 e2 (.done a2)
      · simp [failures, hs, UT.counted]
    · simp only [hs, decide_false, Bool.false_eq_true, if_false] at h
      cases h
      refine ⟨?_, by simp [numbered, hs], rfl, ?_, by simp [failures, hs]⟩
      · exact .test a1 e2 (.done a2)
      · simp [failures, hs, UT.counted]

theorem performTests_ok (env : Env) (defs : Nat → TestDef) (ts : List Nat) (s s' : RunSt) (k : Nat) (h : performTests env defs s ts = .ok (s', k)) :
    ∃ vs, vs.map Prod.fst = ts ∧ Performed env defs s.u.capture s.u.loud s.w vs s'.w ∧ s'.log = s.log ++ numbered s.count vs ∧ s'.count = s.count + vs.length ∧
      s'.u = s.u.counted (failures vs) ∧ k = failures vs := by
  induction ts generalizing s k with
  | nil =>
    cases h
    exact ⟨[], rfl, .done (Aside.refl _ _), by simp [numbered], rfl, by simp [failures, counted_zero], rfl⟩
  | cons t ts ih =>
    unfold performTests at h
    cases h1 : performOne env defs s t with
    | error e => rw [h1] at h; cases h
    | ok x =>
      obtain ⟨s1, f⟩ := x
      rw [h1] at h; simp only at h
      cases h2 : performTests env defs s1 ts with
      | error e => rw [h2] at h; cases h
      | ok y =>
        obtain ⟨s2, k2⟩ := y
        rw [h2] at h; simp only at h
        cases h
        obtain ⟨st, p1, l1, c1, u1, f1⟩ := performOne_ok _ _ _ _ _ _ h1
        obtain ⟨vs, m2, p2, l2, c2, u2, f2⟩ := ih _ _ h2
        rw [u1, counted_capture, counted_loud] at p2
        refine ⟨(t, st) :: vs, by simp [m2], p1.append p2, ?_, ?_, ?_, ?_⟩
        · rw [l2, l1, c1]; simp [numbered]
        · rw [c2, c1]; simp; omega
        · rw [u2, u1, counted_counted, ← failures_append]; rfl
        · rw [f1, f2, ← failures_append]; rfl

/-- What one component contributed: the component, its verdicts, its times. -/
abbrev Part := Comp × List (Nat × Status) × Lapse

def Part.after (x : Part) : Comp := { x.1 with failures := x.1.failures + failures x.2.1, lapse := x.2.2 }

theorem performComps_ok (env : Env) (defs : Nat → TestDef) (cs cs' : List Comp) (s s' : RunSt) (h : performComps env defs s cs = .ok (s', cs')) :
    ∃ xs : List Part, cs = xs.map Prod.fst ∧ (∀ x ∈ xs, x.2.1.map Prod.fst = x.1.tests) ∧ cs' = xs.map Part.after ∧
      Performed env defs s.u.capture s.u.loud s.w (xs.flatMap (·.2.1)) s'.w ∧ s'.log = s.log ++ numbered s.count (xs.flatMap (·.2.1)) ∧
      s'.u = s.u.counted (failures (xs.flatMap (·.2.1))) := by
  induction cs generalizing s cs' with
  | nil =>
    cases h
    exact ⟨[], rfl, by simp, rfl, .done (Aside.refl _ _), by simp [numbered], by simp [failures, counted_zero]⟩
  | cons c cs ih =>
    unfold performComps at h
    simp only [readClock] at h
    cases h1 : performTests env defs { s with w := { s.w with tick := s.w.tick + 1 } } c.tests with
    | error e => rw [h1] at h; cases h
    | ok x =>
      obtain ⟨s1, k⟩ := x
      rw [h1] at h; simp only at h
      cases h2 : performComps env defs { s1 with w := { s1.w with tick := s1.w.tick + 1 } } cs with
      | error e => rw [h2] at h; cases h
      | ok y =>
        obtain ⟨s2, cs2⟩ := y
        rw [h2] at h; simp only at h
        cases h
        obtain ⟨vs, m1, p1, l1, c1, u1, f1⟩ := performTests_ok _ _ _ _ _ _ h1
        obtain ⟨xs, e2, m2, a2, p2, l2, u2⟩ := ih _ _ h2
        simp only at p1 l1 c1 u1 p2 l2 u2
        rw [u1, counted_capture, counted_loud] at p2
        refine ⟨(c, vs, _) :: xs, by rw [e2]; rfl, ?_, by rw [a2, f1]; rfl, ?_, ?_, ?_⟩
        · intro x hx; simp at hx
          rcases hx with rfl | hx
          · exact m1
          · exact m2 x hx
        · exact (p1.prepend (Aside.tick _ _)).append (p2.prepend (Aside.tick _ _))
        · rw [l2, l1, c1]; simp [numbered_append]
        · rw [u2, u1, counted_counted]; simp [failures_append]

theorem runAllTests_ok (env : Env) (defs : Nat → TestDef) (u : UT) (w : World) (s : RunSt) (h : runAllTests env defs u w = .ok s) :
    ∃ (xs : List Part) (lp : Lapse), groupTests defs u.comps u.toPerform = xs.map Prod.fst ∧ (∀ x ∈ xs, x.2.1.map Prod.fst = x.1.tests) ∧
      Performed env defs u.capture u.loud w (xs.flatMap (·.2.1)) s.w ∧ s.log = numbered 0 (xs.flatMap (·.2.1)) ∧
      s.u = { u.counted (failures (xs.flatMap (·.2.1))) with comps := xs.map Part.after, lapse := lp } := by
  unfold runAllTests at h
  simp only [readClock] at h
  cases h1 : performComps env defs { u := u, w := { w with tick := w.tick + 1 } } (groupTests defs u.comps u.toPerform) with
  | error e => rw [h1] at h; cases h
  | ok x =>
    obtain ⟨s1, cs⟩ := x
    rw [h1] at h; simp only at h
    cases h
    obtain ⟨xs, e2, m2, a2, p2, l2, u2⟩ := performComps_ok _ _ _ _ _ _ h1
    simp only at p2 l2 u2
    refine ⟨xs, _, e2, m2, ?_, by rw [l2]; simp, by rw [u2, a2]⟩
    have p3 := (p2.prepend (Aside.tick w _)).append (.done (Aside.tick s1.w (s1.w.tick + 1)))
    simpa using p3

theorem report_aside (fmt : Fmt) (defs : Nat → TestDef) (u : UT) (w : World) : Aside u.loud w (report fmt defs u w) := by
  unfold report
  by_cases hv : u.verbosity > 0
  · rw [if_pos hv]
    have hl : u.loud = true := decide_eq_true hv
    rw [hl]
    have hf : ∀ (cs : List Comp) (g : Comp → Str) (w : World), Aside true w (cs.foldl (fun w c => print w (g c)) w) := by
      intro cs g
      induction cs with
      | nil => intro w; exact Aside.refl _ _
      | cons c cs ih => intro w; exact (Aside.print w (g c)).trans (ih _)
    refine Aside.trans ?_ (Aside.print _ _)
    have a1 : Aside true w (showFailed defs u w) := Aside.cond _ _ _ _ (fun _ => rfl)
    refine a1.trans ?_
    unfold showComps
    split
    · exact hf _ _ _
    · exact Aside.refl _ _
  · rw [if_neg hv]; exact Aside.refl _ _

/-- The selection that is performed. -/
def UT.selection (u : UT) : List Nat := if u.toPerform = [] then u.tests else u.toPerform

theorem performUnitTests_ok (env : Env) (fmt : Fmt) (canOpen : Bool) (defs : Nat → TestDef) (u : UT) (w : World) (d : Done)
    (h : performUnitTests env fmt canOpen defs u w = .ok d) :
    ∃ (xs : List Part) (lp : Lapse) (w1 : World), groupTests defs u.comps u.selection = xs.map Prod.fst ∧ (∀ x ∈ xs, x.2.1.map Prod.fst = x.1.tests) ∧
      Performed env defs u.capture u.loud (init u w).2 (xs.flatMap (·.2.1)) w1 ∧ d.log = numbered 0 (xs.flatMap (·.2.1)) ∧
      d.u = { u with toPerform := u.selection, status := (if failures (xs.flatMap (·.2.1)) = 0 then 0 else -1), failedCount := some (failures (xs.flatMap (·.2.1))), comps := xs.map Part.after, lapse := lp } ∧
      (d.w = w1 ∨ ∃ s, d.w = w1.put w1.cerr s) := by
  unfold performUnitTests at h
  simp only at h
  have hu : (if (init u w).1.toPerform = [] then { (init u w).1 with toPerform := (init u w).1.tests } else (init u w).1) =
      { u with status := 0, failedCount := some 0, toPerform := u.selection } := by
    clear h
    unfold UT.selection init
    simp only
    split <;> rfl
  rw [hu] at h
  cases h1 : runAllTests env defs { u with status := 0, failedCount := some 0, toPerform := u.selection } (init u w).2 with
  | error e => rw [h1] at h; cases h
  | ok s =>
    rw [h1] at h; simp only at h
    obtain ⟨xs, lp, g, m, p, l, e⟩ := runAllTests_ok _ _ _ _ _ h1
    have hr := report_aside fmt defs s.u s.w
    have hl : s.u.loud = u.loud := by rw [e]; rfl
    rw [hl] at hr
    have p' : Performed env defs u.capture u.loud (init u w).2 (xs.flatMap (·.2.1)) (report fmt defs s.u s.w) := by
      have := p.append (.done hr)
      rw [List.append_nil] at this
      exact this
    have e' : s.u = { u with toPerform := u.selection, status := (if failures (xs.flatMap (·.2.1)) = 0 then 0 else -1), failedCount := some (failures (xs.flatMap (·.2.1))), comps := xs.map Part.after, lapse := lp } := by
      rw [e]; simp [UT.counted]
    refine ⟨xs, lp, report fmt defs s.u s.w, g, m, p', ?_⟩
    split at h
    · cases h; exact ⟨l, e', .inl rfl⟩
    · split at h
      · cases hx : xmlText fmt defs s.u (report fmt defs s.u s.w) with
        | error e => rw [hx] at h; cases h
        | ok x => rw [hx] at h; cases h; exact ⟨l, e', .inl rfl⟩
      · cases h; exact ⟨l, e', .inr ⟨_, rfl⟩⟩

end Falcon.Fut
