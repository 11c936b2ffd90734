import Verif.Proofs.Runners3
/- Noninterference between runners over whole histories. -/
namespace Falcon.Fut

/-- Two programs in which runner `u` and the tests of `T` are in the same position. -/
structure Rel (scripts : Nat → Nat → Script) (T : Nat → Prop) (u : Nat) (s s' : RS) : Prop where
  made   : s.made = s'.made
  single : s.single = s'.single
  freed  : s.freed = s'.freed
  defs   : ∀ t, T t → s.defs t = s'.defs t
  scr    : ∀ t, (s.defs t).script = scripts t
  scr'   : ∀ t, (s'.defs t).script = scripts t
  alive  : (s.units u).isSome = (s'.units u).isSome
  core   : ∀ x x', s.units u = some x → s'.units u = some x' → Core x x'
  w      : Agree T s.w s'.w

/-- The runner has to do with tests of `P` only. -/
structure Within (P : Nat → Prop) (x : UT) : Prop where
  tests : ∀ t ∈ x.tests, P t
  pick  : ∀ t ∈ x.toPerform, P t
  comps : ∀ c ∈ x.comps, ∀ t ∈ c.tests, P t
  known : ∀ n t, findByName x n = some t → P t

theorem Within.sel {P : Nat → Prop} {x : UT} (h : Within P x) : ∀ t, (t ∈ x.selection ∨ ∃ c ∈ x.comps, t ∈ c.tests) → P t := by
  intro t ht
  rcases ht with ht | ⟨c, hc, ht⟩
  · rcases selection_sub ht with ht | ht
    · exact h.pick t ht
    · exact h.tests t ht
  · exact h.comps c hc t ht

theorem Within.settings {P : Nat → Prop} {x x' : UT} (h : Within P x) (q : Settings x x') : Within P x' := by
  refine ⟨fun t ht => h.tests t (by rw [← q.tests]; exact ht), fun t ht => ?_, fun c hc t ht => h.comps c (by rw [← q.comps]; exact hc) t ht,
    fun n t e => h.known n t (by rw [← e]; simp only [findByName, q.byName])⟩
  rcases q.picked t ht with h1 | ⟨n, h1⟩
  · exact h.pick t h1
  · exact h.known n t h1

theorem RInv.within {scripts : Nat → Nat → Script} {h : List (ROp × ROut)} {s : RS} (i : RInv scripts h s) {P : Nat → Prop} {v : Nat} {x : UT} (e : s.units v = some x)
    (hP : ∀ t ∈ testsOfUnit h v, P t) : Within P x := by
  have ht : ∀ t ∈ x.tests, P t := fun t ht => hP t (by rw [← i.tests v x e]; exact ht)
  exact ⟨ht, fun t h1 => ht t (i.picked v x e t h1), fun c hc t h1 => ht t (i.comps v x e c hc t h1), fun n t h1 => hP t (mem_known (by rw [← i.known v x e n]; exact h1))⟩

/-- A call on another runner. -/
theorem Rel.foreign {scripts : Nat → Nat → Script} (hk : ∀ t k, (scripts t k).KeepsStreams) {T : Nat → Prop} {u : Nat} {env : Env} {fmt : Fmt} {canOpen : Bool} {s s1 s' : RS}
    {op : ROp} {out : ROut} (r : Rel scripts T u s s') (hf : op.foreign u = true) (h : rstep env fmt canOpen s op = .ok (s1, out))
    (hadd : ∀ v c n t, op = .add v c n t → ¬ T t)
    (hx : ∀ v x, v ≠ u → s.units v = some x → Within (fun t => ¬ T t) x) : Rel scripts T u s1 s' := by
  have hk1 : ∀ t k, ((s.defs t).script k).KeepsStreams := fun t k => by rw [r.scr]; exact hk t k
  have upd : ∀ v y w, v ≠ u → Agree T w s'.w → Rel scripts T u { s with units := setUnit s.units v y, w := w } s' := by
    intro v y w hv a
    refine ⟨r.made, r.single, r.freed, r.defs, r.scr, r.scr', ?_, ?_, a⟩
    · show (setUnit s.units v y u).isSome = _
      rw [setUnit_ne _ _ (Ne.symm hv)]; exact r.alive
    · intro x x' h1 h2
      have h1' : setUnit s.units v y u = some x := h1
      rw [setUnit_ne _ _ (Ne.symm hv)] at h1'
      exact r.core x x' h1' h2
  cases op with
  | make => simp [ROp.foreign] at hf
  | singleton => simp [ROp.foreign] at hf
  | dropTest t => simp [ROp.foreign] at hf
  | add v c n t =>
    have hv : v ≠ u := by simpa [ROp.foreign] using hf
    have ht : ¬ T t := hadd v c n t rfl
    unfold rstep at h
    dsimp only at h
    split at h
    · cases h
    · split at h
      · cases h
      · cases h
        have q := upd v (some (addTestCase (setName s.defs t c n) ‹UT› t)) s.w hv r.w
        refine ⟨q.made, q.single, q.freed, fun t1 h1 => ?_, fun t1 => ?_, q.scr', q.alive, q.core, q.w⟩
        · show setName s.defs t c n t1 = _
          have : t1 ≠ t := by rintro rfl; exact ht h1
          rw [setName, if_neg this]; exact r.defs t1 h1
        · show (setName s.defs t c n t1).script = _
          unfold setName
          split
          · rename_i e; rw [e]; exact r.scr t
          · exact r.scr t1
  | verbosity v n =>
    have hv : v ≠ u := by simpa [ROp.foreign] using hf
    unfold rstep at h
    dsimp only at h
    split at h
    · cases h
    · cases h; exact upd v _ s.w hv r.w
  | options v args =>
    have hv : v ≠ u := by simpa [ROp.foreign] using hf
    unfold rstep at h
    dsimp only at h
    split at h
    · cases h
    · split at h
      · cases h
      · rename_i hp
        cases h
        obtain ⟨_, p, _⟩ := parse_shape _ _ _ _ _ _ hp
        exact upd v _ _ hv (r.w.printed p)
  | perform v =>
    have hv : v ≠ u := by simpa [ROp.foreign] using hf
    unfold rstep at h
    dsimp only at h
    split at h
    · cases h
    · rename_i x e
      split at h
      · cases h
      · rename_i d hp
        cases h
        unfold runUnits at hp
        split at hp
        · cases hp
        exact upd v _ _ hv (perform_foreign hk1 hp (hx v x hv e).sel r.w)
  | performTest v name =>
    have hv : v ≠ u := by simpa [ROp.foreign] using hf
    unfold rstep at h
    dsimp only at h
    split at h
    · cases h
    · rename_i x e
      split at h
      · cases h
      split at h
      · cases h
        exact upd v _ _ hv (r.w.init x)
      · rename_i t hfn
        have htt : ¬ T t := (hx v x hv e).known name t hfn
        rcases performTest_ok env s.defs x s.w name t hfn with e' | ⟨st, w', lp, e', p⟩
        · rw [e'] at h; cases h
        · rw [e'] at h; cases h
          exact upd v _ _ hv (p.foreign hk1 (by simpa using htt) (r.w.init x))
  | main v argv =>
    have hv : v ≠ u := by simpa [ROp.foreign] using hf
    unfold rstep at h
    dsimp only at h
    split at h
    · cases h
    · rename_i x e
      split at h
      · cases h
      · rename_i x1 w1 c hp
        obtain ⟨q, p, _⟩ := readArgv_shape _ _ _ _ _ _ _ hp
        split at h
        · cases h
          exact upd v _ _ hv (r.w.printed p)
        · split at h
          · cases h
          · rename_i d hd
            cases h
            unfold runUnits at hd
            split at hd
            · cases hd
            exact upd v _ _ hv (perform_foreign hk1 hd ((hx v x hv e).settings q).sel (r.w.printed p))
  | dropUnit v =>
    have hv : v ≠ u := by simpa [ROp.foreign] using hf
    unfold rstep at h
    dsimp only at h
    split at h
    · cases h
    · cases h; exact upd v _ s.w hv r.w


/-- The same call on runner `u`, or one that concerns no runner, in both programs. -/
theorem Rel.both {scripts : Nat → Nat → Script} (hk : ∀ t k, (scripts t k).KeepsStreams) {T : Nat → Prop} {u : Nat} {env : Env} {fmt : Fmt} {canOpen : Bool} {s s1 s' s1' : RS}
    {op : ROp} {out out' : ROut} (r : Rel scripts T u s s') (hf : op.foreign u = false) (h : rstep env fmt canOpen s op = .ok (s1, out))
    (h' : rstep env fmt canOpen s' op = .ok (s1', out')) (hx : ∀ x, s.units u = some x → Within T x) : out = out' ∧ Rel scripts T u s1 s1' := by
  have hk1 : ∀ t k, ((s.defs t).script k).KeepsStreams := fun t k => by rw [r.scr]; exact hk t k
  have hk2 : ∀ t k, ((s'.defs t).script k).KeepsStreams := fun t k => by rw [r.scr']; exact hk t k
  have upd : ∀ y y' w w', (∀ x x', y = some x → y' = some x' → Core x x') → y.isSome = y'.isSome → Agree T w w' →
      Rel scripts T u { s with units := setUnit s.units u y, w := w } { s' with units := setUnit s'.units u y', w := w' } := by
    intro y y' w w' hc hi a
    refine ⟨r.made, r.single, r.freed, r.defs, r.scr, r.scr', ?_, ?_, a⟩
    · show (setUnit s.units u y u).isSome = (setUnit s'.units u y' u).isSome
      rw [setUnit_self, setUnit_self]; exact hi
    · intro x x' h1 h2
      have h1' : setUnit s.units u y u = some x := h1
      have h2' : setUnit s'.units u y' u = some x' := h2
      rw [setUnit_self] at h1' h2'
      exact hc x x' h1' h2'
  have one : ∀ {x x' : UT}, Core x x' → ∀ a b, some x = some a → some x' = some b → Core a b := by
    intro x x' c a b h1 h2; cases h1; cases h2; exact c
  have new : ∀ sg, Rel scripts T u { s.new with single := sg } { s'.new with single := sg } := by
    intro sg
    refine ⟨by show s.made + 1 = s'.made + 1; rw [r.made], rfl, r.freed, r.defs, r.scr, r.scr', ?_, ?_, r.w⟩
    · show (setUnit s.units s.made (some {}) u).isSome = (setUnit s'.units s'.made (some {}) u).isSome
      rw [← r.made]
      unfold setUnit
      split
      · rfl
      · exact r.alive
    · intro x x' h1 h2
      have h1' : setUnit s.units s.made (some {}) u = some x := h1
      have h2' : setUnit s'.units s'.made (some {}) u = some x' := h2
      rw [← r.made] at h2'
      unfold setUnit at h1' h2'
      split at h1'
      · rw [if_pos ‹_›] at h2'; cases h1'; cases h2'; exact ⟨rfl, rfl, rfl, rfl, rfl⟩
      · rw [if_neg ‹_›] at h2'; exact r.core x x' h1' h2'
  have fr : ∀ {x x' : UT}, Core x x' → touchesFreed s x = touchesFreed s' x' := by
    intro x x' c; simp only [touchesFreed, r.freed, c.tests]
  have same : ∀ v, op = .dropUnit v ∨ (∃ argv, op = .main v argv) → v = u := by
    rintro v (rfl | ⟨argv, rfl⟩) <;> simpa [ROp.foreign] using hf
  cases op with
  | make =>
    cases h; cases h'
    refine ⟨by rw [r.made], ?_⟩
    have := new s.single
    have e : ({ s'.new with single := s.single } : RS) = s'.new := by rw [r.single]; rfl
    rw [e] at this
    exact this
  | singleton =>
    unfold rstep at h h'
    rw [← r.single] at h'
    dsimp only at h h'
    split at h
    · rename_i v hv
      rw [hv] at h'
      cases h; cases h'; exact ⟨rfl, r⟩
    · rename_i hv
      rw [hv] at h'
      cases h; cases h'
      refine ⟨by rw [r.made], ?_⟩
      have := new (some s.made)
      rw [← r.made]; exact this
  | dropTest t =>
    unfold rstep at h h'
    dsimp only at h h'
    rw [← r.freed] at h'
    split at h
    · cases h
    · rw [if_neg ‹_›] at h'
      cases h; cases h'
      exact ⟨rfl, r.made, r.single, rfl, r.defs, r.scr, r.scr', r.alive, r.core, r.w⟩
  | add v c n t =>
    have hv : v = u := by simpa [ROp.foreign] using hf
    subst hv
    unfold rstep at h h'
    dsimp only at h h'
    split at h
    · cases h
    · rename_i x e
      split at h'
      · cases h'
      · rename_i x' e'
        split at h
        · cases h
        · rw [← r.freed, if_neg ‹_›] at h'
          cases h; cases h'
          have c0 := r.core x x' e e'
          have c1 : Core (addTestCase (setName s.defs t c n) x t) (addTestCase (setName s'.defs t c n) x' t) := by
            have hn : (setName s.defs t c n t).fullName = (setName s'.defs t c n t).fullName := by simp [setName, TestDef.fullName]
            refine ⟨?_, ?_, c0.pick, c0.capture, c0.comps⟩
            · show x.tests ++ [t] = x'.tests ++ [t]; rw [c0.tests]
            · unfold addTestCase; dsimp only; rw [hn, c0.byName]
          have q := upd (some (addTestCase (setName s.defs t c n) x t)) (some (addTestCase (setName s'.defs t c n) x' t)) s.w s'.w (one c1) rfl r.w
          refine ⟨rfl, q.made, q.single, rfl, fun t1 h1 => ?_, fun t1 => ?_, fun t1 => ?_, q.alive, q.core, q.w⟩
          · show setName s.defs t c n t1 = setName s'.defs t c n t1
            unfold setName
            split
            · rw [r.scr, r.scr']
            · exact r.defs t1 h1
          · show (setName s.defs t c n t1).script = _
            unfold setName
            split
            · rename_i e; rw [e]; exact r.scr t
            · exact r.scr t1
          · show (setName s'.defs t c n t1).script = _
            unfold setName
            split
            · rename_i e; rw [e]; exact r.scr' t
            · exact r.scr' t1
  | verbosity v n =>
    have hv : v = u := by simpa [ROp.foreign] using hf
    subst hv
    unfold rstep at h h'
    dsimp only at h h'
    split at h
    · cases h
    · rename_i x e
      split at h'
      · cases h'
      · rename_i x' e'
        cases h; cases h'
        have c0 := r.core x x' e e'
        exact ⟨rfl, upd _ _ _ _ (one (x := { x with verbosity := n }) (x' := { x' with verbosity := n }) ⟨c0.tests, c0.byName, c0.pick, c0.capture, c0.comps⟩) rfl r.w⟩
  | options v args =>
    have hv : v = u := by simpa [ROp.foreign] using hf
    subst hv
    unfold rstep at h h'
    dsimp only at h h'
    split at h
    · cases h
    · rename_i x e
      split at h'
      · cases h'
      · rename_i x' e'
        split at h
        · cases h
        · rename_i hp
          split at h'
          · cases h'
          · rename_i hp'
            cases h; cases h'
            obtain ⟨_, p, _⟩ := parse_shape _ _ _ _ _ _ hp
            obtain ⟨_, p', _⟩ := parse_shape _ _ _ _ _ _ hp'
            obtain ⟨c1, ec⟩ := parse_agree (r.core x x' e e') hp hp'
            exact ⟨by rw [ec], upd _ _ _ _ (one c1) rfl ((r.w.printed p).symm.printed p').symm⟩
  | perform v =>
    have hv : v = u := by simpa [ROp.foreign] using hf
    subst hv
    unfold rstep at h h'
    dsimp only at h h'
    split at h
    · cases h
    · rename_i x e
      split at h'
      · cases h'
      · rename_i x' e'
        split at h
        · cases h
        · rename_i d hd
          split at h'
          · cases h'
          · rename_i d' hd'
            cases h; cases h'
            unfold runUnits at hd hd'
            split at hd
            · cases hd
            split at hd'
            · cases hd'
            obtain ⟨l, st, c1, a⟩ := perform_agree hk1 hk2 r.defs hd hd' (r.core x x' e e') (hx x e).sel r.w
            exact ⟨by rw [l, st], upd _ _ _ _ (one c1) rfl a⟩
  | performTest v name =>
    have hv : v = u := by simpa [ROp.foreign] using hf
    subst hv
    unfold rstep at h h'
    dsimp only at h h'
    split at h
    · cases h
    · rename_i x e
      split at h'
      · cases h'
      · rename_i x' e'
        have c0 := r.core x x' e e'
        split at h
        · cases h
        split at h'
        · cases h'
        rw [← c0.find] at h'
        cases hn : findByName x name with
        | none =>
          rw [hn] at h h'
          cases h; cases h'
          refine ⟨rfl, upd _ _ _ _ (one (x := (init x s.w).1) (x' := (init x' s'.w).1) ⟨c0.tests, c0.byName, c0.pick, c0.capture, c0.comps⟩) rfl ((r.w.init x).symm.init x').symm⟩
        | some t =>
          rw [hn] at h h'
          dsimp only at h h'
          have hT : T t := (hx x e).known name t hn
          rcases performTest_ok env s.defs x s.w name t hn with e1 | ⟨st, w1, lp, e1, p⟩
          · rw [e1] at h; cases h
          rcases performTest_ok env s'.defs x' s'.w name t (by rw [← c0.find]; exact hn) with e1' | ⟨st', w1', lp', e1', p'⟩
          · rw [e1'] at h'; cases h'
          rw [e1] at h; rw [e1'] at h'
          cases h; cases h'
          rw [c0.capture] at p
          obtain ⟨ev, a⟩ := p.agree hk1 hk2 (fun t ht => by rw [r.defs t ht]) p' rfl (by simpa using hT) ((r.w.init x).symm.init x').symm
          simp only [List.cons.injEq, Prod.mk.injEq, true_and, and_true] at ev
          subst ev
          refine ⟨rfl, upd _ _ _ _ (one ?_) rfl a⟩
          exact ⟨c0.tests, c0.byName, c0.pick, c0.capture, c0.comps⟩
  | main v argv =>
    have hv : v = u := by simpa [ROp.foreign] using hf
    subst hv
    unfold rstep at h h'
    dsimp only at h h'
    split at h
    · cases h
    · rename_i x e
      split at h'
      · cases h'
      · rename_i x' e'
        split at h
        · cases h
        · rename_i x1 w1 c hp
          split at h'
          · cases h'
          · rename_i x1' w1' c' hp'
            obtain ⟨q, p, _⟩ := readArgv_shape _ _ _ _ _ _ _ hp
            obtain ⟨_, p', _⟩ := readArgv_shape _ _ _ _ _ _ _ hp'
            obtain ⟨c1, ec⟩ := argv_agree (r.core x x' e e') hp hp'
            subst ec
            have a0 := ((r.w.printed p).symm.printed p').symm
            split at h
            · rw [if_pos ‹_›] at h'
              cases h; cases h'
              exact ⟨rfl, upd none none _ _ (by simp) rfl a0⟩
            · rw [if_neg ‹_›] at h'
              split at h
              · cases h
              · rename_i d hd
                split at h'
                · cases h'
                · rename_i d' hd'
                  cases h; cases h'
                  unfold runUnits at hd hd'
                  split at hd
                  · cases hd
                  split at hd'
                  · cases hd'
                  obtain ⟨l, st, _, a⟩ := perform_agree hk1 hk2 r.defs hd hd' c1 ((hx x e).settings q).sel a0
                  exact ⟨by rw [l, st], upd none none _ _ (by simp) rfl a⟩
  | dropUnit v =>
    have hv : v = u := by simpa [ROp.foreign] using hf
    subst hv
    unfold rstep at h h'
    dsimp only at h h'
    split at h
    · cases h
    · split at h'
      · cases h'
      · cases h; cases h'
        exact ⟨rfl, upd none none _ _ (by simp) rfl r.w⟩

/-- Noninterference. -/
theorem RExec.alone_eq {scripts : Nat → Nat → Script} (hk : ∀ t k, (scripts t k).KeepsStreams) {T : Nat → Prop} {u : Nat} {env : Env} {fmt : Fmt} {canOpen : Bool}
    {s s' e e' : RS} {h k g : List (ROp × ROut)} (i : RInv scripts h s) (r : Rel scripts T u s s') (x : RExec env fmt canOpen s k e) (x' : RExec env fmt canOpen s' g e')
    (hg : g.map Prod.fst = (alone u k).map Prod.fst) (hT : ∀ t ∈ testsOfUnit (h ++ k) u, T t) (hN : ∀ v, v ≠ u → ∀ t ∈ testsOfUnit (h ++ k) v, ¬ T t) : g = alone u k := by
  induction x generalizing h s' g with
  | nil =>
    simp only [alone, List.filter_nil, List.map_nil, List.map_eq_nil_iff] at hg
    exact hg
  | cons st _ ih =>
    rename_i s s1 e op out k _
    have i1 := i.step (rstep_shape st)
    have eh : h ++ (op, out) :: k = (h ++ [(op, out)]) ++ k := by simp
    have sub : ∀ v t, t ∈ testsOfUnit h v → t ∈ testsOfUnit (h ++ (op, out) :: k) v := by
      intro v t ht; rw [testsOfUnit_append]; exact List.mem_append_left _ ht
    cases hf : op.foreign u with
    | true =>
      have ea : alone u ((op, out) :: k) = alone u k := by simp [alone, hf]
      rw [ea] at hg ⊢
      refine ih i1 (r.foreign hk hf st ?_ ?_) x' hg (by rw [← eh]; exact hT) (by rw [← eh]; exact hN)
      · rintro v c n t rfl
        have hv : v ≠ u := by simpa [ROp.foreign] using hf
        refine hN v hv t ?_
        rw [eh, testsOfUnit_append, testsOfUnit_append]
        simp [testsOfUnit, regs]
      · intro v x hv e
        exact i.within e (fun t ht => hN v hv t (sub v t ht))
    | false =>
      have ea : alone u ((op, out) :: k) = (op, out) :: alone u k := by simp [alone, hf]
      rw [ea] at hg ⊢
      cases x' with
      | nil => simp at hg
      | cons st' x2' =>
        rename_i s1' op' out' g'
        simp only [List.map_cons, List.cons.injEq] at hg
        obtain ⟨rfl, hg⟩ := hg
        obtain ⟨rfl, r1⟩ := r.both hk hf st st' (fun x e => i.within e (fun t ht => hT t (sub u t ht)))
        rw [ih i1 r1 x2' hg (by rw [← eh]; exact hT) (by rw [← eh]; exact hN)]

end Falcon.Fut
