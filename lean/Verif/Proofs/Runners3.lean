import Verif.Proofs.Runners2
import Verif.Proofs.Console
/- What one runner does has no influence on the verdicts of another one with other tests. -/
namespace Falcon.Fut

/-- The verdict on a test, and what it leaves in its error buffer, depend on the script, on what is in that buffer and on whether output is captured. -/
theorem verdict_agree (env : Env) (d d' : TestDef) (hd : d.script = d'.script) (hk : ∀ k, (d.script k).KeepsStreams) (cap : Bool) (t : Nat)
    (w w' w2 w2' : World) (hr : (w.tc t).runs = (w'.tc t).runs) (hc : w.content (.capErr t) = w'.content (.capErr t)) (hs : Sane w) (hs' : Sane w')
    (h : endTest cap t (run env d t (beginTest cap t w)) = .ok w2) (h' : endTest cap t (run env d' t (beginTest cap t w')) = .ok w2') :
    (w2.tc t).status = (w2'.tc t).status ∧ w2.content (.capErr t) = w2'.content (.capErr t) ∧ (w2.tc t).runs = (w2'.tc t).runs := by
  have key : ∀ (d : TestDef) (w w2 : World), (∀ k, (d.script k).KeepsStreams) → Sane w → endTest cap t (run env d t (beginTest cap t w)) = .ok w2 →
      (w2.tc t).status = (let sc := d.script (w.tc t).runs
        let e := if cap then w.content (.capErr t) ++ errText (executed sc.setUp ++ executed sc.body) else w.content (.capErr t)
        if (threw sc.setUp).isSome ∨ (threw sc.body).isSome ∨ (threw sc.tearDown).isSome then .error
        else (settled (executed sc.tearDown)).getD (orStream e ((settled (executed sc.setUp ++ executed sc.body)).getD .none))) ∧
      w2.content (.capErr t) = (if cap then w.content (.capErr t) ++ errText (d.script (w.tc t).runs).done else w.content (.capErr t)) ∧
      (w2.tc t).runs = (w.tc t).runs + 1 := by
    intro d w w2 hk hs h
    have hsc : nextScript d t (beginTest cap t w) = d.script (w.tc t).runs := by rw [begin_script]; rfl
    obtain ⟨f1, f2, f3, _, f5, _⟩ := endTest_frame _ _ _ _ h
    have hrun : (w2.tc t).runs = (w.tc t).runs + 1 := by
      have hb := run_bufs env d t (beginTest cap t w)
      simp only [Tc.bufs, Prod.mk.injEq] at hb
      rw [f5, hb.2.2.2.2, begin_runs]
    refine ⟨?_, ?_, hrun⟩
    · rw [f2, run_status, hsc]
      dsimp only
      have hne : (beginTest cap t w).cout ≠ (beginTest cap t w).cerr := by
        cases cap with
        | true => simp [beginTest, setStatus, World.setTc]
        | false => exact hs.ne
      have hw := (wrote_afterBody env d t (beginTest cap t w) (by rw [hsc]; exact hk _) hne).content (.capErr t)
      rw [hsc] at hw
      have : (afterBody env d t (beginTest cap t w)).content (.capErr t) =
          if cap = true then w.content (.capErr t) ++ errText (executed (d.script (w.tc t).runs).setUp ++ executed (d.script (w.tc t).runs).body) else w.content (.capErr t) := by
        rw [hw]
        cases cap with
        | true => simp [beginTest, setStatus, World.setTc]
        | false => simp [beginTest, setStatus, World.setTc, Ne.symm (hs.out t).2, Ne.symm (hs.err t).2]
      rw [this]
    · cases cap with
      | true =>
        obtain ⟨w', g1, g2, g3, g4, g5, g6⟩ := C91_captured_partial env d t w (hk _)
        rw [h] at g1; cases g1
        rw [g5, g3]; rfl
      | false =>
        cases h
        have hw := (wrote_run env d t (beginTest false t w) (by rw [hsc]; exact hk _) hs.ne).content (.capErr t)
        rw [hw]
        simp [beginTest, setStatus, World.setTc, Ne.symm (hs.out t).2, Ne.symm (hs.err t).2]
  obtain ⟨a1, a2, a3⟩ := key d w w2 hk hs h
  obtain ⟨b1, b2, b3⟩ := key d' w' w2' (by rw [← hd]; exact hk) hs' h'
  refine ⟨?_, ?_, ?_⟩
  · rw [a1, b1, hr, hc, hd]
  · rw [a2, b2, hr, hc, hd]
  · rw [a3, b3, hr]

/-- Two worlds in which the tests of `T` are in the same position: same number of runs, same text in the error buffer. -/
structure Agree (T : Nat → Prop) (w w' : World) : Prop where
  sane  : Sane w
  sane' : Sane w'
  runs  : ∀ t, T t → (w.tc t).runs = (w'.tc t).runs
  err   : ∀ t, T t → w.content (.capErr t) = w'.content (.capErr t)

theorem Agree.symm {T : Nat → Prop} {w w' : World} (a : Agree T w w') : Agree T w' w :=
  ⟨a.sane', a.sane, fun t h => (a.runs t h).symm, fun t h => (a.err t h).symm⟩

theorem Agree.printed {T : Nat → Prop} {w w1 w' : World} (a : Agree T w w') (p : Printed w w1) : Agree T w1 w' := by
  refine ⟨a.sane.congr p.cout p.cerr, a.sane', fun t h => ?_, fun t h => ?_⟩
  · rw [p.tc]; exact a.runs t h
  · rw [p.content _ (Ne.symm (a.sane.out t).2) (Ne.symm (a.sane.err t).2)]; exact a.err t h

theorem Aside.printed {l : Bool} {w w' : World} (a : Aside l w w') : Printed w w' := by
  obtain ⟨s, _, h⟩ := a.text
  exact ⟨a.cout, a.cerr, a.tc, fun b hb _ => by rw [h, if_neg hb]⟩

theorem Printed.cerr_put (w : World) (s : Str) : Printed w (w.put w.cerr s) := ⟨rfl, rfl, rfl, fun b _ h => by simp [World.put, h]⟩

theorem Agree.init {T : Nat → Prop} {w w' : World} (a : Agree T w w') (x : UT) : Agree T (init x w).2 w' := by
  refine ⟨⟨a.sane.ne, a.sane.out, a.sane.err⟩, a.sane', fun t h => ?_, a.err⟩
  rw [← a.runs t h]
  show (if t ∈ x.tests then ({ w.tc t with status := .none } : Tc) else w.tc t).runs = _
  split <;> rfl

/-- A performed test leaves the others where they were. -/
theorem one_others {env : Env} {defs : Nat → TestDef} (hk : ∀ t k, ((defs t).script k).KeepsStreams) {cap : Bool} {t u : Nat} {w w2 : World} (hs : Sane w) (hu : u ≠ t)
    (h : endTest cap t (run env (defs t) t (beginTest cap t w)) = .ok w2) :
    (w2.tc u).runs = (w.tc u).runs ∧ w2.content (.capErr u) = w.content (.capErr u) := by
  obtain ⟨m1, m2, m3⟩ := middle env defs cap t w w2 (hk t _) hs.ne h
  obtain ⟨f1, _⟩ := endTest_frame _ _ _ _ h
  refine ⟨?_, ?_⟩
  · rw [f1 u hu, run_other _ _ _ _ _ hu, begin_other _ _ _ _ hu]
  · rw [m3 (.capErr u) (by simp) (by simpa using hu), if_neg (Ne.symm (hs.out u).2), if_neg (Ne.symm (hs.err u).2)]; simp

theorem Performed.foreign {T : Nat → Prop} {env : Env} {defs : Nat → TestDef} (hk : ∀ t k, ((defs t).script k).KeepsStreams) {cap l : Bool} {w w1 w' : World}
    {vs : List (Nat × Status)} (p : Performed env defs cap l w vs w1) (hT : ∀ v ∈ vs, ¬ T v.1) (a : Agree T w w') : Agree T w1 w' := by
  induction p with
  | done h => exact a.printed h.printed
  | test h he _ ih =>
    rename_i w w1 w2 w3 t rest _
    have a1 := a.printed h.printed
    obtain ⟨m1, m2, m3⟩ := middle env defs cap t w1 w2 (hk t _) a1.sane.ne he
    refine ih (fun v hv => hT v (by simp [hv])) ⟨a1.sane.congr m1 m2, a1.sane', fun u hu => ?_, fun u hu => ?_⟩
    · have hne : u ≠ t := by rintro rfl; exact hT _ (List.mem_cons_self ..) hu
      rw [(one_others hk a1.sane hne he).1]; exact a1.runs u hu
    · have hne : u ≠ t := by rintro rfl; exact hT _ (List.mem_cons_self ..) hu
      rw [(one_others hk a1.sane hne he).2]; exact a1.err u hu

theorem Performed.agree {T : Nat → Prop} {env : Env} {defs defs' : Nat → TestDef} (hk : ∀ t k, ((defs t).script k).KeepsStreams)
    (hk' : ∀ t k, ((defs' t).script k).KeepsStreams) (hd : ∀ t, T t → (defs t).script = (defs' t).script) {cap l l' : Bool} {w w1 w' w1' : World}
    {vs vs' : List (Nat × Status)} (p : Performed env defs cap l w vs w1) (p' : Performed env defs' cap l' w' vs' w1')
    (hv : vs.map Prod.fst = vs'.map Prod.fst) (hT : ∀ v ∈ vs, T v.1) (a : Agree T w w') : vs = vs' ∧ Agree T w1 w1' := by
  induction p generalizing vs' w' with
  | done h =>
    cases p' with
    | done h' => exact ⟨rfl, ((a.printed h.printed).symm.printed h'.printed).symm⟩
    | test => simp at hv
  | test h he _ ih =>
    rename_i w w1 w2 w3 t rest _
    cases p' with
    | done => simp at hv
    | test h' he' p2' =>
      rename_i w1' w2' t' rest'
      simp only [List.map_cons, List.cons.injEq] at hv
      obtain ⟨rfl, hv⟩ := hv
      have hTt : T t := hT _ (List.mem_cons_self ..)
      have a1 := ((a.printed h.printed).symm.printed h'.printed).symm
      obtain ⟨v1, v2, v3⟩ := verdict_agree env (defs t) (defs' t) (hd t hTt) (hk t) cap t w1 w1' w2 w2' (a1.runs t hTt) (a1.err t hTt) a1.sane a1.sane' he he'
      obtain ⟨m1, m2, _⟩ := middle env defs cap t w1 w2 (hk t _) a1.sane.ne he
      obtain ⟨n1, n2, _⟩ := middle env defs' cap t w1' w2' (hk' t _) a1.sane'.ne he'
      obtain ⟨e, a3⟩ := ih p2' hv (fun v hv => hT v (by simp [hv])) ⟨a1.sane.congr m1 m2, a1.sane'.congr n1 n2, fun u hu => by
          by_cases hne : u = t
          · subst hne; exact v3
          · rw [(one_others hk a1.sane hne he).1, (one_others hk' a1.sane' hne he').1]; exact a1.runs u hu, fun u hu => by
          by_cases hne : u = t
          · subst hne; exact v2
          · rw [(one_others hk a1.sane hne he).2, (one_others hk' a1.sane' hne he').2]; exact a1.err u hu⟩
      exact ⟨by rw [v1, e], a3⟩

/-! ### The runner itself -/

/-- The runners have the same tests, names and selections. -/
structure Core (x x' : UT) : Prop where
  tests   : x.tests = x'.tests
  byName  : x.byName = x'.byName
  pick    : x.toPerform = x'.toPerform
  capture : x.capture = x'.capture
  comps   : x.comps.map (fun c => (c.name, c.tests)) = x'.comps.map (fun c => (c.name, c.tests))

theorem Core.find {x x' : UT} (h : Core x x') (n : Str) : findByName x n = findByName x' n := by simp only [findByName, h.byName]

theorem Core.selection {x x' : UT} (h : Core x x') : x.selection = x'.selection := by simp only [UT.selection, h.pick, h.tests]

theorem intoComp_core (n : Str) (t : Nat) (cs cs' : List Comp) (h : cs.map (fun c => (c.name, c.tests)) = cs'.map (fun c => (c.name, c.tests))) :
    (intoComp n t cs).map (fun c => (c.name, c.tests)) = (intoComp n t cs').map (fun c => (c.name, c.tests)) := by
  induction cs generalizing cs' with
  | nil =>
    cases cs' with
    | nil => rfl
    | cons => simp at h
  | cons c cs ih =>
    cases cs' with
    | nil => simp at h
    | cons c' cs' =>
      simp only [List.map_cons, List.cons.injEq, Prod.mk.injEq] at h
      obtain ⟨⟨h1, h2⟩, h3⟩ := h
      unfold intoComp
      rw [h1]
      split
      · simp [h1, h2, h3]
      · split
        · simp [h1, h2, h3]
        · simp only [List.map_cons, List.cons.injEq, Prod.mk.injEq]
          exact ⟨⟨h1, h2⟩, ih _ h3⟩

theorem groupTests_core (defs defs' : Nat → TestDef) (ts : List Nat) (hd : ∀ t ∈ ts, (defs t).component = (defs' t).component) (cs cs' : List Comp)
    (h : cs.map (fun c => (c.name, c.tests)) = cs'.map (fun c => (c.name, c.tests))) :
    (groupTests defs cs ts).map (fun c => (c.name, c.tests)) = (groupTests defs' cs' ts).map (fun c => (c.name, c.tests)) := by
  induction ts generalizing cs cs' with
  | nil => exact h
  | cons t ts ih =>
    rw [groupTests_cons, groupTests_cons, hd t (by simp)]
    exact ih (fun t ht => hd t (by simp [ht])) _ _ (intoComp_core _ _ _ _ h)

theorem perform_agree {T : Nat → Prop} {env : Env} {fmt : Fmt} {canOpen : Bool} {defs defs' : Nat → TestDef} (hk : ∀ t k, ((defs t).script k).KeepsStreams)
    (hk' : ∀ t k, ((defs' t).script k).KeepsStreams) (hd : ∀ t, T t → defs t = defs' t) {x x' : UT} {w w' : World} {d d' : Done}
    (h : performUnitTests env fmt canOpen defs x w = .ok d) (h' : performUnitTests env fmt canOpen defs' x' w' = .ok d') (c : Core x x')
    (hT : ∀ t, (t ∈ x.selection ∨ ∃ c ∈ x.comps, t ∈ c.tests) → T t) (a : Agree T w w') :
    d.log = d'.log ∧ d.u.status = d'.u.status ∧ Core d.u d'.u ∧ Agree T d.w d'.w := by
  have hin := perform_keeps h
  obtain ⟨xs, lp, w1, g, m, p, l, e, ew⟩ := performUnitTests_ok _ _ _ _ _ _ _ h
  obtain ⟨xs', lp', w1', g', m', p', l', e', ew'⟩ := performUnitTests_ok _ _ _ _ _ _ _ h'
  have hg := groupTests_core defs defs' x.selection (fun t ht => by rw [hd t (hT t (.inl ht))]) _ _ c.comps
  rw [c.selection, g', ← c.selection, g] at hg
  have tests : ∀ (ys : List Part), (∀ x ∈ ys, x.2.1.map Prod.fst = x.1.tests) → (ys.flatMap (·.2.1)).map Prod.fst = ((ys.map Prod.fst).map (fun c => (c.name, c.tests))).flatMap Prod.snd := by
    intro ys hy
    induction ys with
    | nil => rfl
    | cons y ys ih =>
      simp only [List.flatMap_cons, List.map_append, List.map_cons]
      rw [hy y (by simp), ih (fun x hx => hy x (by simp [hx]))]
  have hv : (xs.flatMap (·.2.1)).map Prod.fst = (xs'.flatMap (·.2.1)).map Prod.fst := by
    rw [tests xs m, tests xs' m', hg]
  have hvT : ∀ v ∈ xs.flatMap (·.2.1), T v.1 := by
    intro v hv
    simp only [List.mem_flatMap] at hv
    obtain ⟨y, hy, hvy⟩ := hv
    have h1 : v.1 ∈ y.1.tests := by rw [← m y hy]; exact List.mem_map.2 ⟨v, hvy, rfl⟩
    have h2 : Part.after y ∈ d.u.comps := by rw [e]; exact List.mem_map.2 ⟨y, hy, rfl⟩
    rcases hin.2.2.2 _ h2 v.1 h1 with h3 | h3
    · exact hT _ (.inr h3)
    · exact hT _ (.inl h3)
  rw [c.capture] at p
  obtain ⟨hvs, a1⟩ := p.agree hk hk' (fun t ht => by rw [hd t ht]) p' hv hvT ((a.init x).symm.init x').symm
  refine ⟨by rw [l, l', hvs], by rw [e, e', hvs], ?_, ?_⟩
  · rw [e, e']
    refine ⟨c.tests, c.byName, c.selection, c.capture, ?_⟩
    have : ∀ ys : List Part, (ys.map Part.after).map (fun c => (c.name, c.tests)) = (ys.map Prod.fst).map (fun c => (c.name, c.tests)) := by
      intro ys; simp [Part.after]
    rw [this, this, hg]
  · have a2 : Agree T d.w w1' := by
      rcases ew with e | ⟨s, e⟩
      · rw [e]; exact a1
      · rw [e]; exact a1.printed (Printed.cerr_put _ _)
    rcases ew' with e | ⟨s, e⟩
    · rw [e]; exact a2
    · rw [e]; exact (a2.symm.printed (Printed.cerr_put _ _)).symm

theorem perform_foreign {T : Nat → Prop} {env : Env} {fmt : Fmt} {canOpen : Bool} {defs : Nat → TestDef} (hk : ∀ t k, ((defs t).script k).KeepsStreams)
    {x : UT} {w w' : World} {d : Done} (h : performUnitTests env fmt canOpen defs x w = .ok d)
    (hT : ∀ t, (t ∈ x.selection ∨ ∃ c ∈ x.comps, t ∈ c.tests) → ¬ T t) (a : Agree T w w') : Agree T d.w w' := by
  have hin := perform_keeps h
  obtain ⟨xs, lp, w1, g, m, p, l, e, ew⟩ := performUnitTests_ok _ _ _ _ _ _ _ h
  have hvT : ∀ v ∈ xs.flatMap (·.2.1), ¬ T v.1 := by
    intro v hv
    simp only [List.mem_flatMap] at hv
    obtain ⟨y, hy, hvy⟩ := hv
    have h1 : v.1 ∈ y.1.tests := by rw [← m y hy]; exact List.mem_map.2 ⟨v, hvy, rfl⟩
    have h2 : Part.after y ∈ d.u.comps := by rw [e]; exact List.mem_map.2 ⟨y, hy, rfl⟩
    rcases hin.2.2.2 _ h2 v.1 h1 with h3 | h3
    · exact hT _ (.inr h3)
    · exact hT _ (.inl h3)
  have a1 := p.foreign hk hvT (a.init x)
  rcases ew with e | ⟨s, e⟩
  · rw [e]; exact a1
  · rw [e]; exact a1.printed (Printed.cerr_put _ _)

theorem parse_agree {x x' y y' : UT} {w w' v v' : World} {args : List Str} {c c' : Int} (k : Core x x')
    (h : parseParams x w args = .ok (y, v, c)) (h' : parseParams x' w' args = .ok (y', v', c')) : Core y y' ∧ c = c' := by
  have key : ∀ n (x x' : UT) (args : List Str), args.length ≤ n → Core x x' → parseParams x w args = .ok (y, v, c) → parseParams x' w' args = .ok (y', v', c') →
      Core y y' ∧ c = c' := by
    intro n
    induction n with
    | zero =>
      intro x x' args hl k h h'
      cases args with
      | nil => rw [parseParams.eq_def] at h h'; cases h; cases h'; exact ⟨k, rfl⟩
      | cons => simp at hl
    | succ n ih =>
      intro x x' args hl k h h'
      cases args with
      | nil => rw [parseParams.eq_def] at h h'; cases h; cases h'; exact ⟨k, rfl⟩
      | cons opt rest =>
        simp only [List.length_cons, Nat.add_le_add_iff_right] at hl
        have hinv : ∀ {y y' v v' c c'}, invalid x w = .ok (y, v, c) → invalid x' w' = .ok (y', v', c') → Core y y' ∧ c = c' := by
          intro y y' v v' c c' h h'
          obtain ⟨w1, e, _⟩ := invalid_shape x w
          obtain ⟨w1', e', _⟩ := invalid_shape x' w'
          rw [e] at h; rw [e'] at h'
          cases h; cases h'; exact ⟨k, rfl⟩
        rw [parseParams.eq_def] at h h'
        dsimp only at h h'
        by_cases e1 : opt = "-q".toList
        · rw [if_pos e1] at h h'
          refine ih _ _ _ hl ?_ h h'
          exact ⟨k.tests, k.byName, k.pick, k.capture, k.comps⟩
        rw [if_neg e1] at h h'
        by_cases e1 : opt = "-c".toList
        · rw [if_pos e1] at h h'
          refine ih _ _ _ hl ?_ h h'
          exact ⟨k.tests, k.byName, k.pick, rfl, k.comps⟩
        rw [if_neg e1] at h h'
        by_cases e1 : opt = "-e".toList
        · rw [if_pos e1] at h h'
          refine ih _ _ _ hl ?_ h h'
          exact ⟨k.tests, k.byName, k.pick, k.capture, k.comps⟩
        rw [if_neg e1] at h h'
        by_cases e1 : opt = "-h".toList
        · rw [if_pos e1] at h h'
          cases h; cases h'; exact ⟨k, rfl⟩
        rw [if_neg e1] at h h'
        cases rest with
        | nil => exact hinv h h'
        | cons a rest =>
          dsimp only at h h'
          simp only [List.length_cons] at hl
          have hl' : rest.length ≤ n := by omega
          by_cases e1 : opt = "-v".toList
          · rw [if_pos e1] at h h'
            cases hr : readLevel a with
            | none => rw [hr] at h; cases h
            | some l =>
              rw [hr] at h h'
              dsimp only at h h'
              by_cases hb : 0 ≤ l ∧ l ≤ 5
              · rw [if_pos hb] at h h'
                refine ih _ _ _ hl' ?_ h h'
                exact ⟨k.tests, k.byName, k.pick, k.capture, k.comps⟩
              · rw [if_neg hb] at h h'
                exact hinv h h'
          rw [if_neg e1] at h h'
          by_cases e1 : opt = "-t".toList
          · rw [if_pos e1, k.find] at h
            rw [if_pos e1] at h'
            cases hf : findByName x' a with
            | none => rw [hf] at h h'; cases h; cases h'; exact ⟨k, rfl⟩
            | some t =>
              rw [hf] at h h'
              refine ih _ _ _ hl' ?_ h h'
              exact ⟨k.tests, k.byName, by show x.toPerform ++ [t] = x'.toPerform ++ [t]; rw [k.pick], k.capture, k.comps⟩
          rw [if_neg e1] at h h'
          by_cases e1 : opt = "-x".toList
          · rw [if_pos e1] at h h'
            refine ih _ _ _ hl' ?_ h h'
            exact ⟨k.tests, k.byName, k.pick, k.capture, k.comps⟩
          rw [if_neg e1] at h h'
          by_cases e1 : opt = "-n".toList
          · rw [if_pos e1] at h h'
            refine ih _ _ _ hl' ?_ h h'
            exact ⟨k.tests, k.byName, k.pick, k.capture, k.comps⟩
          rw [if_neg e1] at h h'
          by_cases e1 : opt = "-i".toList
          · rw [if_pos e1] at h h'
            refine ih _ _ _ hl' ?_ h h'
            exact ⟨k.tests, k.byName, k.pick, k.capture, k.comps⟩
          rw [if_neg e1] at h h'
          exact hinv h h'
  exact key _ _ _ _ (Nat.le_refl _) k h h'

theorem argv_agree {x x' y y' : UT} {w w' v v' : World} {sep : Char} {argv : List Str} {c c' : Int} (k : Core x x')
    (h : readArgv sep x w argv = .ok (y, v, c)) (h' : readArgv sep x' w' argv = .ok (y', v', c')) : Core y y' ∧ c = c' := by
  cases argv with
  | nil => cases h; cases h'; exact ⟨k, rfl⟩
  | cons exe args => exact parse_agree (x := detectTestName sep x exe) (x' := detectTestName sep x' exe) ⟨k.tests, k.byName, k.pick, k.capture, k.comps⟩ h h'

end Falcon.Fut
