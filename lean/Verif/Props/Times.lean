import Verif.Proofs.Console
import Verif.Props.UnitTest
/- C129: the reported times of a run add up. -/
namespace Falcon.Fut

/-- Sum of the reported times of those tests that `calm` selects. -/
def totalMillis (calm : Nat → Bool) (os : List Outcome) : Int := ((os.filter (fun o => calm o.test)).map Outcome.millis).sum

/-- The clock does not go back. -/
def Env.Monotone (env : Env) : Prop := ∀ a b, a ≤ b → env.clock a ≤ env.clock b

theorem run_time (env : Env) (hm : env.Monotone) (d : TestDef) (t : Nat) (w : World) (h1 : threw (nextScript d t w).setUp = none) :
    w.tick ≤ (run env d t w).tick ∧ 0 ≤ ((run env d t w).tc t).lapse.elapsed ∧
      ((run env d t w).tc t).lapse.elapsed ≤ env.clock (run env d t w).tick - env.clock w.tick := by
  have hct : ∀ (x : World) (e : Exc), (caught env x t e).tick = x.tick + 1 := by
    intro x e; simp [caught, World.setTc, markEnd]
  have key : ∃ k, w.tick ≤ k ∧ k ≤ (run env d t w).tick ∧ ((run env d t w).tc t).lapse = { begin := env.clock w.tick, «end» := env.clock k } := by
    rw [run_eq, h1]
    dsimp only
    cases hb : threw (nextScript d t w).body with
    | some e =>
      dsimp only
      refine ⟨w.tick + 1, by omega, ?_, ?_⟩
      · rw [hct, (afterBody_clock env d t w).1]; omega
      · rw [caught_clock, (afterBody_clock env d t w).1, (afterBody_clock env d t w).2]
    | none =>
      dsimp only
      cases h3 : threw (nextScript d t w).tearDown with
      | some e =>
        dsimp only
        refine ⟨w.tick + 2, by omega, ?_, ?_⟩
        · rw [hct, (afterTearDown_clock env d t w).1]; omega
        · rw [caught_clock, (afterTearDown_clock env d t w).1, (afterTearDown_clock env d t w).2]
      | none =>
        dsimp only
        refine ⟨w.tick + 1, by omega, ?_, ?_⟩
        · rw [(afterTearDown_clock env d t w).1]; omega
        · exact (afterTearDown_clock env d t w).2
  obtain ⟨k, k1, k2, k3⟩ := key
  have a := hm _ _ k1
  have b := hm _ _ k2
  refine ⟨by omega, ?_, ?_⟩
  · rw [k3, (C99_monotone _ _ a).1]; omega
  · rw [k3, (C99_monotone _ _ a).1]; omega

theorem run_tick (env : Env) (d : TestDef) (t : Nat) (w : World) : w.tick ≤ (run env d t w).tick := by
  have hct : ∀ (x : World) (e : Exc), (caught env x t e).tick = x.tick + 1 := by
    intro x e; simp [caught, World.setTc, markEnd]
  rw [run_eq]
  cases h1 : threw (nextScript d t w).setUp with
  | some e => dsimp only; rw [hct, (afterSetUp_clock env d t w).1]; omega
  | none =>
    dsimp only
    cases hb : threw (nextScript d t w).body with
    | some e => dsimp only; rw [hct, (afterBody_clock env d t w).1]; omega
    | none =>
      dsimp only
      cases h3 : threw (nextScript d t w).tearDown with
      | some e => dsimp only; rw [hct, (afterTearDown_clock env d t w).1]; omega
      | none => dsimp only; rw [(afterTearDown_clock env d t w).1]; omega

/-- Tests were performed, the times of those that `calm` selects are not negative and fit into the time that passed. -/
structure Timed (env : Env) (defs : Nat → TestDef) (calm : Nat → Bool) (cap loud : Bool) (n : Nat) (w : World) (os : List Outcome) (w' : World) : Prop where
  cond : Conducted env defs cap loud n w os w'
  nn   : ∀ o ∈ os, calm o.test = true → 0 ≤ o.millis
  tick : w.tick ≤ w'.tick
  sum  : totalMillis calm os ≤ env.clock w'.tick - env.clock w.tick

theorem Timed.append {env : Env} {defs : Nat → TestDef} {calm : Nat → Bool} {cap l : Bool} {n : Nat} {w w1 w2 : World} {os os' : List Outcome}
    (p : Timed env defs calm cap l n w os w1) (p' : Timed env defs calm cap l (n + os.length) w1 os' w2) : Timed env defs calm cap l n w (os ++ os') w2 := by
  refine ⟨p.cond.append p'.cond, ?_, p.tick.trans p'.tick, ?_⟩
  · intro o ho
    rcases List.mem_append.1 ho with h | h
    · exact p.nn o h
    · exact p'.nn o h
  · have a := p.sum
    have b := p'.sum
    have : totalMillis calm (os ++ os') = totalMillis calm os + totalMillis calm os' := by simp [totalMillis]
    omega

theorem Timed.tickOnly (env : Env) (hm : env.Monotone) (defs : Nat → TestDef) (calm : Nat → Bool) (cap l : Bool) (n : Nat) (w : World) : Timed env defs calm cap l n w [] { w with tick := w.tick + 1 } := by
  refine ⟨.done (Aside.tick _ _), by simp, by simp, ?_⟩
  have := hm w.tick (w.tick + 1) (by omega)
  simp only [totalMillis, List.filter_nil, List.map_nil, List.sum_nil]
  omega

theorem endTest_clock (c : Bool) (t : Nat) (w w' : World) (h : endTest c t w = .ok w') : w'.tick = w.tick ∧ (w'.tc t).lapse = (w.tc t).lapse := by
  cases c with
  | false => cases h; exact ⟨rfl, rfl⟩
  | true =>
    unfold endTest at h
    rw [if_pos rfl] at h
    split at h
    · cases h; simp [World.setTc]
    · cases h

theorem begin_tick (c : Bool) (t : Nat) (w : World) : (beginTest c t w).tick = w.tick := by cases c <;> rfl

theorem performOne_timed (env : Env) (hm : env.Monotone) (defs : Nat → TestDef) (calm : Nat → Bool)
    (hset : ∀ t, calm t = true → ∀ k, threw ((defs t).script k).setUp = none)
    (s s' : RunSt) (t : Nat) (f : Bool) (h : performOne env defs s t = .ok (s', f)) :
    ∃ o, Timed env defs calm s.u.capture (decide (0 < s.u.verbosity)) s.count s.w [o] s'.w ∧ s'.log = s.log ++ [entry o] ∧ o.test = t := by
  unfold performOne at h
  dsimp only at h
  rw [utBegin_text] at h
  cases he : utEnd defs s.u (s.count + 1) t (run env (defs t) t (beginTest s.u.capture t (print s.w (goText defs s.u (s.count + 1) t)))) with
  | error e => rw [he] at h; cases h
  | ok w' =>
    rw [he] at h
    obtain ⟨w2, e2, a2⟩ := utEnd_text _ _ _ _ _ _ he
    have hw' : s'.w = w' ∧ s'.log = s.log ++ [(s.count + 1, t, decide ((w2.tc t).status = .success))] := by
      have hst : (w'.tc t).status = (w2.tc t).status := by rw [a2]; rfl
      simp only [hasPassed_eq, hst] at h
      by_cases hx : (w2.tc t).status = .success
      · simp only [hx, decide_true, if_true] at h
        cases h; simp [hx]
      · simp only [hx, decide_false, Bool.false_eq_true, if_false] at h
        cases h; simp [hx]
    generalize hw1 : print s.w (goText defs s.u (s.count + 1) t) = w1 at e2
    have ht1 : w1.tick = s.w.tick := by rw [← hw1]; rfl
    have t1 := run_tick env (defs t) t (beginTest s.u.capture t w1)
    rw [begin_tick, ht1] at t1
    obtain ⟨c1, c2⟩ := endTest_clock _ _ _ _ e2
    have ht2 : s'.w.tick = (run env (defs t) t (beginTest s.u.capture t w1)).tick := by rw [hw'.1, a2]; exact c1
    refine ⟨outcomeOf s.u.capture (s.count + 1) t ((defs t).script (w1.tc t).runs) (w2.tc t), ⟨?_, ?_, ?_, ?_⟩, hw'.2, rfl⟩
    · have ha1 : Aside (decide (0 < s.u.verbosity)) s.w w1 := by
        rw [← hw1]
        unfold goText
        rw [← print_if]
        exact Aside.cond _ _ _ _ (fun h => decide_eq_true (by omega))
      have ha2 : Aside (decide (0 < s.u.verbosity)) w2 s'.w := by
        rw [hw'.1]
        obtain ⟨w2', x1, x2⟩ := utEnd_ok _ _ _ _ _ _ he
        rw [hw1, e2] at x1; cases x1
        exact x2
      exact .test ha1 e2 (.done ha2)
    · intro o ho hcalm
      rw [List.mem_singleton.1 ho] at hcalm ⊢
      obtain ⟨-, t2, t3⟩ := run_time env hm (defs t) t (beginTest s.u.capture t w1) (hset t hcalm _)
      show 0 ≤ (w2.tc t).lapse.elapsed
      rw [c2]; exact t2
    · rw [ht2]; exact t1
    · rw [ht2]
      cases hcalm : calm t with
      | true =>
        obtain ⟨-, t2, t3⟩ := run_time env hm (defs t) t (beginTest s.u.capture t w1) (hset t hcalm _)
        rw [begin_tick, ht1] at t3
        have : totalMillis calm [outcomeOf s.u.capture (s.count + 1) t ((defs t).script (w1.tc t).runs) (w2.tc t)] = (w2.tc t).lapse.elapsed + 0 := by
          simp [totalMillis, outcomeOf, hcalm]
        rw [this, c2]; omega
      | false =>
        have : totalMillis calm [outcomeOf s.u.capture (s.count + 1) t ((defs t).script (w1.tc t).runs) (w2.tc t)] = 0 := by
          simp [totalMillis, outcomeOf, hcalm]
        rw [this]
        have := hm _ _ t1
        omega

theorem performTests_timed (env : Env) (hm : env.Monotone) (defs : Nat → TestDef) (calm : Nat → Bool)
    (hset : ∀ t, calm t = true → ∀ k, threw ((defs t).script k).setUp = none)
    (ts : List Nat) (s s' : RunSt) (k : Nat) (h : performTests env defs s ts = .ok (s', k)) :
    ∃ os, Timed env defs calm s.u.capture (decide (0 < s.u.verbosity)) s.count s.w os s'.w ∧ s'.log = s.log ++ os.map entry ∧ os.map Outcome.test = ts ∧
      s'.count = s.count + os.length ∧ s'.u.capture = s.u.capture ∧ s'.u.verbosity = s.u.verbosity := by
  induction ts generalizing s k with
  | nil =>
    cases h
    exact ⟨[], ⟨.done (Aside.refl _ _), by simp, by simp, by simp [totalMillis]⟩, by simp, rfl, rfl, rfl, rfl⟩
  | cons t ts ih =>
    unfold performTests at h
    cases h1 : performOne env defs s t with
    | error e => rw [h1] at h; cases h
    | ok x =>
      obtain ⟨s1, f⟩ := x
      rw [h1] at h; simp only at h
      cases h2 : performTests env defs s1 ts with
      | error e => rw [h2] at h; cases h
      | ok y =>
        obtain ⟨s2, k2⟩ := y
        rw [h2] at h; simp only at h
        cases h
        obtain ⟨st, _, _, c1, u1, _⟩ := performOne_ok _ _ _ _ _ _ h1
        obtain ⟨o, p1, l1, t1⟩ := performOne_timed _ hm _ calm hset _ _ _ _ h1
        obtain ⟨os, p2, l2, t2, c2, v1, v2⟩ := ih s1 k2 h2
        have w1 : s1.u.capture = s.u.capture := by rw [u1]; rfl
        have w2 : s1.u.verbosity = s.u.verbosity := by rw [u1]; rfl
        rw [w1, w2, c1] at p2
        refine ⟨o :: os, Timed.append p1 p2, ?_, by simp [t1, t2], ?_, v1.trans w1, v2.trans w2⟩
        · rw [l2, l1]; simp
        · rw [c2, c1]; simp; omega

/-- The times of the components against those of their tests. -/
theorem performComps_timed (env : Env) (hm : env.Monotone) (defs : Nat → TestDef) (calm : Nat → Bool)
    (hset : ∀ t, calm t = true → ∀ k, threw ((defs t).script k).setUp = none)
    (cs cs' : List Comp) (s s' : RunSt) (hcomp : ∀ c ∈ cs, ∀ t ∈ c.tests, (defs t).component = c.name) (hnd : (cs.map Comp.name).Nodup)
    (h : performComps env defs s cs = .ok (s', cs')) :
    ∃ os, Conducted env defs s.u.capture (decide (0 < s.u.verbosity)) s.count s.w os s'.w ∧ s'.log = s.log ++ os.map entry ∧ (∀ o ∈ os, calm o.test = true → 0 ≤ o.millis) ∧
      s.w.tick ≤ s'.w.tick ∧ cs'.map Comp.name = cs.map Comp.name ∧ (∀ o ∈ os, (defs o.test).component ∈ cs.map Comp.name) ∧
      (∀ c ∈ cs', totalMillis calm (os.filter (fun o => (defs o.test).component = c.name)) ≤ c.lapse.elapsed) ∧
      (cs'.map (fun c => c.lapse.elapsed)).sum ≤ env.clock s'.w.tick - env.clock s.w.tick := by
  induction cs generalizing s cs' with
  | nil =>
    cases h
    exact ⟨[], .done (Aside.refl _ _), by simp, by simp, by simp, rfl, by simp, by simp, by simp⟩
  | cons c cs ih =>
    unfold performComps at h
    simp only [readClock] at h
    cases h1 : performTests env defs { s with w := { s.w with tick := s.w.tick + 1 } } c.tests with
    | error e => rw [h1] at h; cases h
    | ok x =>
      obtain ⟨s1, k⟩ := x
      rw [h1] at h; simp only at h
      cases h2 : performComps env defs { s1 with w := { s1.w with tick := s1.w.tick + 1 } } cs with
      | error e => rw [h2] at h; cases h
      | ok y =>
        obtain ⟨s2, cs2⟩ := y
        rw [h2] at h; simp only at h
        cases h
        obtain ⟨os1, p1, l1, m1, c1, v1, v2⟩ := performTests_timed env hm defs calm hset c.tests { s with w := { s.w with tick := s.w.tick + 1 } } s1 k h1
        have hnd' := hnd
        rw [List.map_cons, List.nodup_cons] at hnd
        obtain ⟨os2, p2, l2, n2, t2, names2, comp2, le2, sum2⟩ := ih cs2 { s1 with w := { s1.w with tick := s1.w.tick + 1 } }
          (fun c hc => hcomp c (by simp [hc])) hnd.2 h2
        have q := ((Timed.tickOnly env hm defs calm s.u.capture (decide (0 < s.u.verbosity)) s.count s.w).append p1).cond.append
          (.done (Aside.tick s1.w (s1.w.tick + 1)))
        simp only [c1, v1, v2] at p2
        have hcomp1 : ∀ o ∈ os1, (defs o.test).component = c.name := by
          intro o ho
          exact hcomp c (by simp) o.test (by rw [← m1]; exact List.mem_map_of_mem ho)
        have hm1 := hm s.w.tick s1.w.tick (by have := p1.tick; simp only at this; omega)
        have hel : (Lapse.mk (env.clock s.w.tick) (env.clock s1.w.tick)).elapsed = env.clock s1.w.tick - env.clock s.w.tick := (C99_monotone _ _ hm1).1
        refine ⟨os1 ++ os2, ?_, ?_, ?_, ?_, ?_, ?_, ?_, ?_⟩
        · have := q.append (by simpa using p2)
          simpa using this
        · rw [l2, l1]; simp
        · intro o ho
          rcases List.mem_append.1 ho with h | h
          · exact p1.nn o h
          · exact n2 o h
        · have := p1.tick; simp only at this t2; omega
        · simp [names2]
        · intro o ho
          rcases List.mem_append.1 ho with h | h
          · rw [hcomp1 o h]; simp
          · simp only [List.map_cons, List.mem_cons]; exact .inr (comp2 o h)
        · intro c' hc'
          rw [List.filter_append]
          rcases List.mem_cons.1 hc' with rfl | hc'
          · have e2 : os2.filter (fun o => decide ((defs o.test).component = c.name)) = [] := by
              rw [List.filter_eq_nil_iff]
              intro o ho hx
              exact hnd.1 (by rw [← of_decide_eq_true hx]; exact comp2 o ho)
            have e1 : os1.filter (fun o => decide ((defs o.test).component = c.name)) = os1 := by
              rw [List.filter_eq_self]; intro o ho; exact decide_eq_true (hcomp1 o ho)
            dsimp only
            rw [e1, e2, List.append_nil, hel]
            have a := p1.sum
            have b := hm s.w.tick (s.w.tick + 1) (by omega)
            simp only at a
            omega
          · have hne : c'.name ≠ c.name := by
              intro e
              exact hnd.1 (by rw [← e, ← names2]; exact List.mem_map_of_mem hc')
            have e1 : os1.filter (fun o => decide ((defs o.test).component = c'.name)) = [] := by
              rw [List.filter_eq_nil_iff]
              intro o ho hx
              exact hne (by rw [← of_decide_eq_true hx]; exact hcomp1 o ho)
            rw [e1, List.nil_append]
            exact le2 c' hc'
        · simp only [List.map_cons, List.sum_cons]
          rw [hel]
          have b := hm s1.w.tick (s1.w.tick + 1) (by omega)
          simp only at sum2
          omega

theorem groupTests_component (defs : Nat → TestDef) (sel : List Nat) : ∀ c ∈ groupTests defs [] sel, ∀ t ∈ c.tests, (defs t).component = c.name := by
  intro c hc t ht
  have hs : SortedNames ([].map Comp.name) := by simp [SortedNames]
  have h : t ∈ testsOf c.name (groupTests defs [] sel) := by
    unfold testsOf
    simp only [List.mem_flatMap, List.mem_filter]
    exact ⟨c, ⟨hc, by simp⟩, ht⟩
  rw [groupTests_testsOf defs [] sel hs] at h
  simp [testsOf] at h
  exact h.2

theorem sorted_nodup {ns : List Str} (h : SortedNames ns) : ns.Nodup := by
  unfold SortedNames at h
  refine List.Pairwise.imp ?_ h
  intro a b hab e
  subst e
  rw [strLt_irrefl] at hab; cases hab

/-- C129 is false: a test whose SetUp throws is reported with more time than its component and the run. -/
theorem C129_setUp_refuted (fmt : Fmt) :
    let defs : Nat → TestDef := fun _ => ⟨['A'], ['t'], fun _ => { setUp := [.thrw .other] }⟩
    (performUnitTests { clock := fun _ => 1000 } fmt true defs { registered defs [0] with verbosity := 0 } {}).toOption.map
      (fun d => ((d.w.tc 0).lapse.elapsed, d.u.comps.map (fun c => c.lapse.elapsed), d.u.lapse.elapsed)) = some (1000, [0], 0) := by rfl

/-- C129, the part that holds of every suite: with a clock that does not go back, in a first run, no time reported for a test whose SetUp
never throws is negative, the times of such tests of a component add up to at most the time of the component - whatever the other tests
do -, and those of the components to at most the time of the run. -/
theorem C129_calm_partial (env : Env) (hm : env.Monotone) (fmt : Fmt) (canOpen : Bool) (defs : Nat → TestDef) (calm : Nat → Bool)
    (hset : ∀ t, calm t = true → ∀ k, threw ((defs t).script k).setUp = none) (u : UT) (w : World) (d : Done) (hc : u.comps = [])
    (h : performUnitTests env fmt canOpen defs u w = .ok d) :
    ∃ os w1, Conducted env defs u.capture (decide (0 < u.verbosity)) 0 (init u w).2 os w1 ∧ d.log = os.map entry ∧
      (∀ o ∈ os, calm o.test = true → 0 ≤ o.millis) ∧
      (∀ c ∈ d.u.comps, (((os.filter (fun o => (defs o.test).component = c.name)).filter (fun o => calm o.test)).map Outcome.millis).sum ≤ c.lapse.elapsed) ∧
      (d.u.comps.map (fun c => c.lapse.elapsed)).sum ≤ d.u.lapse.elapsed := by
  unfold performUnitTests at h
  simp only at h
  have hu0 : (if (init u w).1.toPerform = [] then { (init u w).1 with toPerform := (init u w).1.tests } else (init u w).1) =
      { u with status := 0, failedCount := some 0, toPerform := u.selection } := by
    clear h
    unfold UT.selection init
    simp only
    split <;> rfl
  rw [hu0] at h
  cases h1 : runAllTests env defs { u with status := 0, failedCount := some 0, toPerform := u.selection } (init u w).2 with
  | error e => rw [h1] at h; cases h
  | ok s =>
    rw [h1] at h; simp only at h
    have hd : d.u = s.u ∧ d.log = s.log := by
      split at h
      · cases h; exact ⟨rfl, rfl⟩
      · split at h
        · cases hx : xmlText fmt defs s.u (report fmt defs s.u s.w) with
          | error e => rw [hx] at h; cases h
          | ok x => rw [hx] at h; cases h; exact ⟨rfl, rfl⟩
        · cases h; exact ⟨rfl, rfl⟩
    unfold runAllTests at h1
    simp only [readClock] at h1
    rw [hc] at h1
    cases h2 : performComps env defs { u := { u with status := 0, failedCount := some 0, toPerform := u.selection, comps := [] }, w := { (init u w).2 with tick := (init u w).2.tick + 1 } }
        (groupTests defs [] u.selection) with
    | error e => rw [h2] at h1; cases h1
    | ok x =>
      obtain ⟨s1, cs⟩ := x
      rw [h2] at h1; simp only at h1
      obtain ⟨os, p, l, nn, tk, names, _, le, sm⟩ := performComps_timed env hm defs calm hset _ cs _ s1 (groupTests_component defs u.selection)
        (sorted_nodup (groupTests_sorted defs [] u.selection (by simp [SortedNames]))) h2
      cases h1
      have q := (Conducted.done (env := env) (defs := defs) (capture := u.capture) (n := 0) (loud := decide (0 < u.verbosity)) (Aside.tick (init u w).2 ((init u w).2.tick + 1))).append p
      rw [hd.1, hd.2]
      refine ⟨os, s1.w, by simpa using q, by simpa using l, nn, le, ?_⟩
      simp only at sm tk
      have hmm := hm (init u w).2.tick s1.w.tick (by omega)
      have b := hm (init u w).2.tick ((init u w).2.tick + 1) (by omega)
      show (cs.map (fun c => c.lapse.elapsed)).sum ≤ (Lapse.mk (env.clock (init u w).2.tick) (env.clock s1.w.tick)).elapsed
      rw [(C99_monotone _ _ hmm).1]
      omega

/-- C129, the part that holds: when no SetUp throws and the clock does not go back, in a first run no reported time is negative, the times
of the tests of a component add up to at most the time of the component, and those of the components to at most the time of
the run. -/
theorem C129_times_partial (env : Env) (hm : env.Monotone) (fmt : Fmt) (canOpen : Bool) (defs : Nat → TestDef)
    (hset : ∀ t k, threw ((defs t).script k).setUp = none) (u : UT) (w : World) (d : Done) (hc : u.comps = [])
    (h : performUnitTests env fmt canOpen defs u w = .ok d) :
    ∃ os w1, Conducted env defs u.capture (decide (0 < u.verbosity)) 0 (init u w).2 os w1 ∧ d.log = os.map entry ∧ (∀ o ∈ os, 0 ≤ o.millis) ∧
      (∀ c ∈ d.u.comps, ((os.filter (fun o => (defs o.test).component = c.name)).map Outcome.millis).sum ≤ c.lapse.elapsed) ∧
      (d.u.comps.map (fun c => c.lapse.elapsed)).sum ≤ d.u.lapse.elapsed := by
  obtain ⟨os, w1, a, b, c, e, f⟩ := C129_calm_partial env hm fmt canOpen defs (fun _ => true) (fun t _ k => hset t k) u w d hc h
  refine ⟨os, w1, a, b, fun o ho => c o ho rfl, fun x hx => ?_, f⟩
  have := e x hx
  rwa [List.filter_eq_self.2 (fun _ _ => rfl)] at this

/-- Non-vacuity: three tests in two components, a clock that advances by 7 ms per reading. -/
example (fmt : Fmt) : let defs : Nat → TestDef := fun t => ⟨[if t = 1 then 'A' else 'B'], ['t'], fun _ => {}⟩
    (performUnitTests { clock := fun k => 7 * (k : Int) } fmt true defs { registered defs [0, 1, 2] with verbosity := 0 } {}).toOption.map
      (fun d => ([(d.w.tc 0).lapse.elapsed, (d.w.tc 1).lapse.elapsed, (d.w.tc 2).lapse.elapsed], d.u.comps.map (fun c => c.lapse.elapsed), d.u.lapse.elapsed)) = some ([7, 7, 7], [21, 35], 77) := by rfl

/-- Non-vacuity of C129_calm_partial: the SetUp of test 2 throws, the times of tests 0 and 1 fit all the same. -/
example (fmt : Fmt) : let defs : Nat → TestDef := fun t => ⟨['A'], ['t'], fun _ => { setUp := if t = 2 then [.thrw .other] else [] }⟩
    (performUnitTests { clock := fun k => 50 + 7 * (k : Int) } fmt true defs { registered defs [0, 1, 2] with verbosity := 0 } {}).toOption.map
      (fun d => ([(d.w.tc 0).lapse.elapsed, (d.w.tc 1).lapse.elapsed, (d.w.tc 2).lapse.elapsed], d.u.comps.map (fun c => c.lapse.elapsed))) = some ([7, 7, 92], [42]) := by rfl

end Falcon.Fut
