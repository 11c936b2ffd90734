import Verif.Proofs.Runners
/- The invariant of programs with several test runners is kept by every call. -/
namespace Falcon.Fut

theorem given_snoc (h : List (ROp × ROut)) (op : ROp) (out : ROut) (u : Nat) : Given (h ++ [(op, out)]) u ↔ Given h u ∨ out = .runner u := by
  simp only [Given, List.mem_append, List.mem_singleton, Prod.mk.injEq]
  constructor
  · rintro ⟨o, ho | ⟨_, ho⟩⟩
    · exact .inl ⟨o, ho⟩
    · exact .inr ho.symm
  · rintro (⟨o, ho⟩ | ho)
    · exact ⟨o, .inl ho⟩
    · exact ⟨op, .inr ⟨rfl, ho.symm⟩⟩

theorem over_snoc (h : List (ROp × ROut)) (op : ROp) (out : ROut) (u : Nat) :
    Over (h ++ [(op, out)]) u ↔ Over h u ∨ (∃ argv, op = .main u argv) ∨ op = .dropUnit u := by
  simp only [Over, List.mem_append, List.mem_singleton, Prod.mk.injEq]
  constructor
  · rintro (⟨a, o, ho | ⟨ho, _⟩⟩ | ⟨o, ho | ⟨ho, _⟩⟩)
    · exact .inl (.inl ⟨a, o, ho⟩)
    · exact .inr (.inl ⟨a, ho.symm⟩)
    · exact .inl (.inr ⟨o, ho⟩)
    · exact .inr (.inr ho.symm)
  · rintro ((⟨a, o, ho⟩ | ⟨o, ho⟩) | ⟨a, ho⟩ | ho)
    · exact .inl ⟨a, o, .inl ho⟩
    · exact .inr ⟨o, .inl ho⟩
    · exact .inl ⟨a, out, .inr ⟨ho.symm, rfl⟩⟩
    · exact .inr ⟨out, .inr ⟨ho.symm, rfl⟩⟩

theorem deleted_snoc (h : List (ROp × ROut)) (op : ROp) (out : ROut) (t : Nat) :
    Deleted (h ++ [(op, out)]) t ↔ Deleted h t ∨ op = .dropTest t := by
  simp only [Deleted, List.mem_append, List.mem_singleton, Prod.mk.injEq]
  constructor
  · rintro ⟨o, ho | ⟨ho, _⟩⟩
    · exact .inl ⟨o, ho⟩
    · exact .inr ho.symm
  · rintro (⟨o, ho⟩ | ho)
    · exact ⟨o, .inl ho⟩
    · exact ⟨out, .inr ⟨ho.symm, rfl⟩⟩

/-- What a call does to the runners and tests, without the details of a run. -/
inductive Shape (s : RS) : ROp → ROut → RS → Prop
  | make : Shape s .make (.runner s.made) s.new
  | first : s.single = none → Shape s .singleton (.runner s.made) { s.new with single := some s.made }
  | again (u : Nat) : s.single = some u → Shape s .singleton (.runner u) s
  | add (u : Nat) (x : UT) (c n : Str) (t : Nat) : s.units u = some x → s.freed t = false →
      Shape s (.add u c n t) .done { s with defs := setName s.defs t c n, units := setUnit s.units u (some (addTestCase (setName s.defs t c n) x t)) }
  | keep (op : ROp) (out : ROut) (u : Nat) (x x' : UT) (w : World) : s.units u = some x → (∀ v, out ≠ .runner v) →
      (∀ v c n t, op ≠ .add v c n t) → (∀ v a, op ≠ .main v a) → (∀ v, op ≠ .dropUnit v) → (∀ t, op ≠ .dropTest t) → op ≠ .make → op ≠ .singleton →
      x'.tests = x.tests → x'.byName = x.byName →
      (∀ t ∈ x'.toPerform, t ∈ x.toPerform ∨ t ∈ x.tests ∨ ∃ n, findByName x n = some t) →
      (∀ c ∈ x'.comps, ∀ t ∈ c.tests, (∃ c ∈ x.comps, t ∈ c.tests) ∨ t ∈ x.toPerform ∨ t ∈ x.tests) →
      Shape s op out { s with units := setUnit s.units u (some x'), w := w }
  | gone (op : ROp) (out : ROut) (u : Nat) (x : UT) (w : World) : s.units u = some x → (∀ v, out ≠ .runner v) →
      (op = .dropUnit u ∨ ∃ a, op = .main u a) → Shape s op out { s with units := setUnit s.units u none, w := w }
  | dropTest (t : Nat) : s.freed t = false → Shape s (.dropTest t) .done { s with freed := fun v => if v = t then true else s.freed v }

theorem perform_keeps {env : Env} {fmt : Fmt} {canOpen : Bool} {defs : Nat → TestDef} {x : UT} {w : World} {d : Done}
    (h : performUnitTests env fmt canOpen defs x w = .ok d) :
    d.u.tests = x.tests ∧ d.u.byName = x.byName ∧ d.u.toPerform = x.selection ∧
      ∀ c ∈ d.u.comps, ∀ t ∈ c.tests, (∃ c ∈ x.comps, t ∈ c.tests) ∨ t ∈ x.selection := by
  obtain ⟨xs, lp, w1, g, m, p, l, e, _⟩ := performUnitTests_ok _ _ _ _ _ _ _ h
  refine ⟨by rw [e], by rw [e], by rw [e], ?_⟩
  intro c hc t ht
  rw [e] at hc
  simp only [List.mem_map] at hc
  obtain ⟨y, hy, rfl⟩ := hc
  have ht' : t ∈ y.1.tests := ht
  have hy' : y.1 ∈ groupTests defs x.comps x.selection := by rw [g]; exact List.mem_map.2 ⟨y, hy, rfl⟩
  have key : ∀ (cs : List Comp) (ts : List Nat), ∀ c ∈ groupTests defs cs ts, ∀ t ∈ c.tests, (∃ c ∈ cs, t ∈ c.tests) ∨ t ∈ ts := by
    intro cs ts
    induction ts generalizing cs with
    | nil => intro c hc t ht; exact .inl ⟨c, hc, ht⟩
    | cons a ts ih =>
      intro c hc t ht
      rw [groupTests_cons] at hc
      have one : ∀ (n : Str) (cs : List Comp), ∀ c ∈ intoComp n a cs, ∀ t ∈ c.tests, (∃ c ∈ cs, t ∈ c.tests) ∨ t = a := by
        intro n cs
        induction cs with
        | nil =>
          intro c hc t ht
          simp only [intoComp, List.mem_singleton] at hc
          subst hc
          simp at ht
          exact .inr ht
        | cons b cs ihc =>
          intro c hc t ht
          unfold intoComp at hc
          split at hc
          · rcases List.mem_cons.1 hc with rfl | hc
            · simp only [List.mem_append, List.mem_singleton] at ht
              rcases ht with ht | ht
              · exact .inl ⟨b, by simp, ht⟩
              · exact .inr ht
            · exact .inl ⟨c, by simp [hc], ht⟩
          · split at hc
            · rcases List.mem_cons.1 hc with rfl | hc
              · simp at ht; exact .inr ht
              · exact .inl ⟨c, hc, ht⟩
            · rcases List.mem_cons.1 hc with rfl | hc
              · exact .inl ⟨c, by simp, ht⟩
              · rcases ihc c hc t ht with ⟨c', h1, h2⟩ | h
                · exact .inl ⟨c', by simp [h1], h2⟩
                · exact .inr h
      rcases ih _ c hc t ht with ⟨c', h1, h2⟩ | h
      · rcases one _ _ c' h1 t h2 with h | h
        · exact .inl h
        · exact .inr (by simp [h])
      · exact .inr (by simp [h])
  exact key _ _ _ hy' _ ht'

theorem selection_sub {x : UT} {t : Nat} (h : t ∈ x.selection) : t ∈ x.toPerform ∨ t ∈ x.tests := by
  unfold UT.selection at h
  split at h
  · exact .inr h
  · exact .inl h

theorem rstep_shape {env : Env} {fmt : Fmt} {canOpen : Bool} {s s' : RS} {op : ROp} {out : ROut} (h : rstep env fmt canOpen s op = .ok (s', out)) :
    Shape s op out s' := by
  cases op with
  | make => cases h; exact .make
  | singleton =>
    unfold rstep at h
    dsimp only at h
    split at h
    · rename_i u hu; cases h; exact .again u hu
    · rename_i hu; cases h; exact .first hu
  | add u c n t =>
    unfold rstep at h
    dsimp only at h
    split at h
    · cases h
    · rename_i x hx
      split at h
      · cases h
      · rename_i hf; cases h; exact .add u x c n t hx (by simpa using hf)
  | verbosity u n =>
    unfold rstep at h
    dsimp only at h
    split at h
    · cases h
    · rename_i x hx
      cases h
      exact .keep _ _ u x _ s.w hx (by simp) (by simp) (by simp) (by simp) (by simp) (by simp) (by simp) rfl rfl (fun t ht => .inl ht)
        (fun c hc t ht => .inl ⟨c, hc, ht⟩)
  | options u args =>
    unfold rstep at h
    dsimp only at h
    split at h
    · cases h
    · rename_i x hx
      split at h
      · cases h
      · rename_i x' w' c hp
        cases h
        obtain ⟨a, _, _⟩ := parse_shape _ _ _ _ _ _ hp
        exact .keep _ _ u x _ w' hx (by simp) (by simp) (by simp) (by simp) (by simp) (by simp) (by simp) a.tests a.byName
          (fun t ht => (a.picked t ht).imp id .inr) (fun c hc t ht => .inl ⟨c, by rw [← a.comps]; exact hc, ht⟩)
  | perform u =>
    unfold rstep at h
    dsimp only at h
    split at h
    · cases h
    · rename_i x hx
      split at h
      · cases h
      · rename_i d hp
        cases h
        unfold runUnits at hp
        split at hp
        · cases hp
        obtain ⟨a, b, c, e⟩ := perform_keeps hp
        exact .keep _ _ u x _ d.w hx (by simp) (by simp) (by simp) (by simp) (by simp) (by simp) (by simp) a b
          (fun t ht => (selection_sub (c ▸ ht)).imp id .inl) (fun c hc t ht => (e c hc t ht).imp id selection_sub)
  | performTest u name =>
    unfold rstep at h
    dsimp only at h
    split at h
    · cases h
    · rename_i x hx
      split at h
      · cases h
      split at h
      · cases h
        exact .keep _ _ u x _ _ hx (by simp) (by simp) (by simp) (by simp) (by simp) (by simp) (by simp) rfl rfl (fun t ht => .inl ht)
          (fun c hc t ht => .inl ⟨c, hc, ht⟩)
      · rename_i t hf
        rcases performTest_ok env s.defs x s.w name t hf with e | ⟨st, w', lp, e, _⟩
        · rw [e] at h; cases h
        · rw [e] at h; cases h
          exact .keep _ _ u x _ _ hx (by simp) (by simp) (by simp) (by simp) (by simp) (by simp) (by simp) rfl rfl (fun t ht => .inl ht)
            (fun c hc t ht => .inl ⟨c, hc, ht⟩)
  | main u argv =>
    unfold rstep at h
    dsimp only at h
    split at h
    · cases h
    · rename_i x hx
      split at h
      · cases h
      · split at h
        · cases h
          exact .gone _ _ u x _ hx (by simp) (.inr ⟨argv, rfl⟩)
        · split at h
          · cases h
          · cases h
            exact .gone _ _ u x _ hx (by simp) (.inr ⟨argv, rfl⟩)
  | dropUnit u =>
    unfold rstep at h
    dsimp only at h
    split at h
    · cases h
    · rename_i x hx
      cases h
      exact .gone _ _ u x s.w hx (by simp) (.inl rfl)
  | dropTest t =>
    unfold rstep at h
    dsimp only at h
    split at h
    · cases h
    · rename_i hf; cases h; exact .dropTest t (by simpa using hf)

theorem knownAs_snoc (h : List (ROp × ROut)) (op : ROp) (out : ROut) (u : Nat) (n : Str) :
    knownAs (h ++ [(op, out)]) u n = (knownAs h u n).or (match op with | .add v c k t => if v = u ∧ c ++ "::".toList ++ k = n then some t else none | _ => none) := by
  unfold knownAs
  rw [regs_append, List.find?_append]
  cases (regs h u).find? (fun e => decide (e.1 = n)) with
  | some e => simp
  | none =>
    simp only [Option.map_none, Option.none_or]
    cases op <;> try (simp [regs]; done)
    rename_i v c k t
    dsimp only
    by_cases hv : v = u
    · by_cases hn : c ++ "::".toList ++ k = n
      · rw [if_pos ⟨hv, hn⟩]
        simp only [regs, List.filterMap_cons, hv, if_true, List.filterMap_nil, List.find?_cons, hn, decide_true]
        rfl
      · rw [if_neg (fun x => hn x.2)]
        simp only [regs, List.filterMap_cons, hv, if_true, List.filterMap_nil, List.find?_cons, hn, decide_false]
        rfl
    · rw [if_neg (fun x => hv x.1)]
      simp [regs, hv]

theorem find_add (defs : Nat → TestDef) (x : UT) (t : Nat) (n : Str) :
    findByName (addTestCase defs x t) n = (findByName x n).or (if (defs t).fullName = n then some t else none) := by
  unfold findByName addTestCase
  dsimp only
  by_cases ha : x.byName.any (fun e => e.1 == (defs t).fullName) = true
  · rw [if_pos ha]
    by_cases hn : (defs t).fullName = n
    · subst hn
      cases hf : x.byName.find? (fun e => e.1 == (defs t).fullName) with
      | some e => simp
      | none =>
        rw [List.find?_eq_none] at hf
        simp only [List.any_eq_true] at ha
        obtain ⟨e, he, h1⟩ := ha
        exact absurd h1 (hf e he)
    · rw [if_neg hn]; simp
  · rw [if_neg ha, List.find?_append]
    cases hf : x.byName.find? (fun e => e.1 == n) with
    | some e => simp
    | none =>
      by_cases hn : (defs t).fullName = n
      · simp [List.find?_cons, hn]
      · have : ((defs t).fullName == n) = false := by simpa using hn
        simp [List.find?_cons, this, hn]

theorem mem_known {h : List (ROp × ROut)} {u t : Nat} {n : Str} (e : knownAs h u n = some t) : t ∈ testsOfUnit h u := by
  unfold knownAs at e
  rw [Option.map_eq_some_iff] at e
  obtain ⟨a, h1, h2⟩ := e
  exact List.mem_map.2 ⟨a, List.mem_of_find?_eq_some h1, h2⟩

/-- Calls that register nothing leave the records. -/
theorem records_same (h : List (ROp × ROut)) (op : ROp) (out : ROut) (hop : ∀ v c n t, op ≠ .add v c n t) :
    (∀ u, testsOfUnit (h ++ [(op, out)]) u = testsOfUnit h u) ∧ (∀ u n, knownAs (h ++ [(op, out)]) u n = knownAs h u n) ∧
    (∀ t, namings (h ++ [(op, out)]) t = namings h t) ∧ (∀ u, regs (h ++ [(op, out)]) u = regs h u) := by
  refine ⟨fun u => ?_, fun u n => ?_, fun t => ?_, fun u => ?_⟩
  · rw [testsOfUnit_append]
    cases op <;> first | (simp [testsOfUnit, regs]; done) | exact absurd rfl (hop _ _ _ _)
  · rw [knownAs_snoc]
    cases op <;> first | (simp; done) | exact absurd rfl (hop _ _ _ _)
  · rw [namings_append]
    cases op <;> first | (simp [namings]; done) | exact absurd rfl (hop _ _ _ _)
  · rw [regs_append]
    cases op <;> first | (simp [regs]; done) | exact absurd rfl (hop _ _ _ _)

theorem RInv.step {scripts : Nat → Nat → Script} {h : List (ROp × ROut)} {s s' : RS} {op : ROp} {out : ROut} (i : RInv scripts h s) (sh : Shape s op out s') :
    RInv scripts (h ++ [(op, out)]) s' := by
  have fresh : s.units s.made = none := by
    cases hu : s.units s.made with
    | none => rfl
    | some x =>
      have := ((i.units s.made).1 (by rw [hu]; rfl)).1
      exact absurd ((i.given _).1 this) (Nat.lt_irrefl _)
  have nogive : ¬ Given h s.made := fun x => Nat.lt_irrefl _ ((i.given _).1 x)
  have mk : ∀ (op : ROp) (sg : Option Nat), (op = .make ∧ sg = s.single ∨ op = .singleton ∧ s.single = none ∧ sg = some s.made) →
      RInv scripts (h ++ [(op, .runner s.made)]) { s.new with single := sg } := by
    intro op sg hop
    have ha : ∀ v c n t, op ≠ .add v c n t := by rcases hop with ⟨rfl, _⟩ | ⟨rfl, _⟩ <;> simp
    have ho : ∀ u, Over (h ++ [(op, ROut.runner s.made)]) u ↔ Over h u := by
      intro u; rw [over_snoc]; rcases hop with ⟨rfl, _⟩ | ⟨rfl, _⟩ <;> simp
    have hd : ∀ u, Deleted (h ++ [(op, ROut.runner s.made)]) u ↔ Deleted h u := by
      intro u; rw [deleted_snoc]; rcases hop with ⟨rfl, _⟩ | ⟨rfl, _⟩ <;> simp
    have hg : ∀ u, Given (h ++ [(op, ROut.runner s.made)]) u ↔ Given h u ∨ u = s.made := by
      intro u; rw [given_snoc]; simp [eq_comm]
    obtain ⟨r1, r2, r3, r4⟩ := records_same h op (.runner s.made) ha
    have reg0 : testsOfUnit h s.made = [] ∧ ∀ n, knownAs h s.made n = none := by
      have : regs h s.made = [] := i.reg _ nogive
      simp [testsOfUnit, knownAs, this]
    have hu : ∀ u x, (RS.new s).units u = some x → (u = s.made ∧ x = {}) ∨ s.units u = some x := by
      intro u x hx
      simp only [RS.new, setUnit] at hx
      split at hx
      · rename_i e; cases hx; exact .inl ⟨e, rfl⟩
      · exact .inr hx
    refine ⟨fun u => ?_, fun u => ?_, fun t => ?_, fun u => ?_, fun u x hx => ?_, fun u x hx => ?_, fun u x hx => ?_, fun u x hx => ?_, fun t => ?_, fun u hu => ?_, fun u hu => ?_⟩
    · rw [hg, i.given]; simp only [RS.new]; omega
    · rw [hg, ho]
      simp only [RS.new, setUnit]
      by_cases e : u = s.made
      · subst e
        simp only [if_true, Option.isSome_some, or_true, true_and, true_iff]
        exact fun x => nogive (i.main _ x)
      · simp only [if_neg e, e, or_false]; exact i.units u
    · rw [hd]; exact i.freed t
    · simp only [List.mem_append, List.mem_singleton, Prod.mk.injEq, ROut.runner.injEq]
      rw [← i.single]
      rcases hop with ⟨rfl, rfl⟩ | ⟨rfl, hn, rfl⟩
      · simp
      · simp [hn, eq_comm]
    · rw [r1]
      rcases hu u x hx with ⟨rfl, rfl⟩ | hx
      · rw [reg0.1]
      · exact i.tests u x hx
    · intro n
      rw [r2]
      rcases hu u x hx with ⟨rfl, rfl⟩ | hx
      · rw [reg0.2]; rfl
      · exact i.known u x hx n
    · rcases hu u x hx with ⟨rfl, rfl⟩ | hx
      · simp
      · exact i.picked u x hx
    · rcases hu u x hx with ⟨rfl, rfl⟩ | hx
      · simp
      · exact i.comps u x hx
    · rw [r3]; exact i.defs t
    · rw [hg]; exact .inl (i.main u ((ho u).1 hu))
    · rw [r4]; exact i.reg u (fun x => hu ((hg u).2 (.inl x)))
  cases sh with
  | make => exact mk .make s.single (.inl ⟨rfl, rfl⟩)
  | first hn => exact mk .singleton (some s.made) (.inr ⟨rfl, hn, rfl⟩)
  | again u hu =>
    have hgu : Given h u := ⟨_, (i.single u).1 hu⟩
    obtain ⟨r1, r2, r3, r4⟩ := records_same h .singleton (.runner u) (by simp)
    have hg : ∀ v, Given (h ++ [(ROp.singleton, ROut.runner u)]) v ↔ Given h v := by
      intro v; rw [given_snoc]; simp only [ROut.runner.injEq, or_iff_left_iff_imp]; rintro rfl; exact hgu
    have ho : ∀ v, Over (h ++ [(ROp.singleton, ROut.runner u)]) v ↔ Over h v := by intro v; rw [over_snoc]; simp
    have hd : ∀ v, Deleted (h ++ [(ROp.singleton, ROut.runner u)]) v ↔ Deleted h v := by intro v; rw [deleted_snoc]; simp
    refine ⟨fun v => by rw [hg]; exact i.given v, fun v => by rw [hg, ho]; exact i.units v, fun t => by rw [hd]; exact i.freed t, fun v => ?_,
      fun v x hx => by rw [r1]; exact i.tests v x hx, fun v x hx n => by rw [r2]; exact i.known v x hx n, i.picked, i.comps,
      fun t => by rw [r3]; exact i.defs t, fun v hv => (hg v).2 (i.main v ((ho v).1 hv)), fun v hv => by rw [r4]; exact i.reg v (fun x => hv ((hg v).2 x))⟩
    simp only [List.mem_append, List.mem_singleton, Prod.mk.injEq, ROut.runner.injEq, true_and]
    rw [← i.single]
    constructor
    · exact .inl
    · rintro (x | rfl)
      · exact x
      · exact hu
  | add u x c n t hx hf =>
    have hg : ∀ v, Given (h ++ [(ROp.add u c n t, ROut.done)]) v ↔ Given h v := by intro v; rw [given_snoc]; simp
    have ho : ∀ v, Over (h ++ [(ROp.add u c n t, ROut.done)]) v ↔ Over h v := by intro v; rw [over_snoc]; simp
    have hd : ∀ v, Deleted (h ++ [(ROp.add u c n t, ROut.done)]) v ↔ Deleted h v := by intro v; rw [deleted_snoc]; simp
    have hgu := ((i.units u).1 (by rw [hx]; rfl)).1
    have ht : ∀ v, testsOfUnit (h ++ [(ROp.add u c n t, ROut.done)]) v = if v = u then testsOfUnit h v ++ [t] else testsOfUnit h v := by
      intro v
      rw [testsOfUnit_append]
      by_cases e : v = u
      · subst e; simp [testsOfUnit, regs]
      · rw [if_neg e]
        have : ¬ u = v := fun x => e x.symm
        simp [testsOfUnit, regs, this]
    have hname : (setName s.defs t c n t).fullName = c ++ "::".toList ++ n := by simp [setName, TestDef.fullName]
    have hu : ∀ v y, (setUnit s.units u (some (addTestCase (setName s.defs t c n) x t))) v = some y →
        (v = u ∧ y = addTestCase (setName s.defs t c n) x t) ∨ (v ≠ u ∧ s.units v = some y) := by
      intro v y hy
      unfold setUnit at hy
      split at hy
      · rename_i e; cases hy; exact .inl ⟨e, rfl⟩
      · rename_i e; exact .inr ⟨e, hy⟩
    have htests : (addTestCase (setName s.defs t c n) x t).tests = x.tests ++ [t] := rfl
    refine ⟨fun v => by rw [hg]; exact i.given v, fun v => ?_, fun t => by rw [hd]; exact i.freed t, fun v => ?_,
      fun v y hy => ?_, fun v y hy k => ?_, fun v y hy a ha => ?_, fun v y hy a ha b hb => ?_, fun a => ?_, fun v hv => (hg v).2 (i.main v ((ho v).1 hv)), fun v hv => ?_⟩
    · rw [hg, ho]
      show (setUnit s.units u _ v).isSome = true ↔ _
      unfold setUnit
      split
      · rename_i e; subst e
        simp only [Option.isSome_some, true_iff]
        exact (i.units v).1 (by rw [hx]; rfl)
      · exact i.units v
    · simp only [List.mem_append, List.mem_singleton, Prod.mk.injEq, reduceCtorEq, false_and, or_false]
      exact i.single v
    · rw [ht]
      rcases hu v y hy with ⟨rfl, rfl⟩ | ⟨e, hy⟩
      · rw [if_pos rfl, htests, i.tests v x hx]
      · rw [if_neg e]; exact i.tests v y hy
    · rw [knownAs_snoc]
      rcases hu v y hy with ⟨rfl, rfl⟩ | ⟨e, hy⟩
      · rw [find_add, hname, i.known v x hx]
        simp
      · rw [i.known v y hy]
        have : ¬ (u = v ∧ c ++ "::".toList ++ n = k) := fun x => e x.1.symm
        dsimp only
        rw [if_neg this]; simp
    · rcases hu v y hy with ⟨rfl, rfl⟩ | ⟨e, hy⟩
      · rw [htests]; exact List.mem_append_left _ (i.picked v x hx a ha)
      · exact i.picked v y hy a ha
    · rcases hu v y hy with ⟨rfl, rfl⟩ | ⟨e, hy⟩
      · rw [htests]; exact List.mem_append_left _ (i.comps v x hx a ha b hb)
      · exact i.comps v y hy a ha b hb
    · rw [namings_append]
      show setName s.defs t c n a = _
      unfold setName
      by_cases e : a = t
      · subst e
        rw [if_pos rfl, i.defs a]
        simp [namings]
      · rw [if_neg e, i.defs a]
        have : ¬ t = a := fun x => e x.symm
        simp [namings, this]
    · have : ¬ u = v := by rintro rfl; exact hv ((hg u).2 hgu)
      rw [regs_append, i.reg v (fun x => hv ((hg v).2 x))]
      simp [regs, this]
  | keep _ _ u x x' w hx hr ha hm hdu hdt _ hs e1 e2 e3 e4 =>
    obtain ⟨r1, r2, r3, r4⟩ := records_same h op out ha
    have hg : ∀ v, Given (h ++ [(op, out)]) v ↔ Given h v := by intro v; rw [given_snoc]; simp [hr v]
    have ho : ∀ v, Over (h ++ [(op, out)]) v ↔ Over h v := by intro v; rw [over_snoc]; simp [hm v, hdu v]
    have hd : ∀ v, Deleted (h ++ [(op, out)]) v ↔ Deleted h v := by intro v; rw [deleted_snoc]; simp [hdt v]
    have hu : ∀ v y, (setUnit s.units u (some x')) v = some y → (v = u ∧ y = x') ∨ (v ≠ u ∧ s.units v = some y) := by
      intro v y hy
      unfold setUnit at hy
      split at hy
      · rename_i e; cases hy; exact .inl ⟨e, rfl⟩
      · rename_i e; exact .inr ⟨e, hy⟩
    have hfn : ∀ n, findByName x' n = findByName x n := by intro n; simp only [findByName, e2]
    refine ⟨fun v => by rw [hg]; exact i.given v, fun v => ?_, fun t => by rw [hd]; exact i.freed t, fun v => ?_,
      fun v y hy => ?_, fun v y hy k => ?_, fun v y hy a ha => ?_, fun v y hy a ha b hb => ?_, fun a => by rw [r3]; exact i.defs a,
      fun v hv => (hg v).2 (i.main v ((ho v).1 hv)), fun v hv => by rw [r4]; exact i.reg v (fun x => hv ((hg v).2 x))⟩
    · rw [hg, ho]
      show (setUnit s.units u _ v).isSome = true ↔ _
      unfold setUnit
      split
      · rename_i e; subst e
        simp only [Option.isSome_some, true_iff]
        exact (i.units v).1 (by rw [hx]; rfl)
      · exact i.units v
    · simp only [List.mem_append, List.mem_singleton, Prod.mk.injEq]
      have : ¬ (ROp.singleton = op ∧ ROut.runner v = out) := fun x => hr v x.2.symm
      simp only [this, or_false]
      exact i.single v
    · rw [r1]
      rcases hu v y hy with ⟨rfl, rfl⟩ | ⟨e, hy⟩
      · rw [e1, i.tests v x hx]
      · exact i.tests v y hy
    · rw [r2]
      rcases hu v y hy with ⟨rfl, rfl⟩ | ⟨e, hy⟩
      · rw [hfn, i.known v x hx]
      · exact i.known v y hy k
    · rcases hu v y hy with ⟨rfl, rfl⟩ | ⟨e, hy⟩
      · rw [e1]
        rcases e3 a ha with h1 | h1 | ⟨n, h1⟩
        · exact i.picked v x hx a h1
        · exact h1
        · rw [i.known v x hx] at h1
          rw [i.tests v x hx]; exact mem_known h1
      · exact i.picked v y hy a ha
    · rcases hu v y hy with ⟨rfl, rfl⟩ | ⟨e, hy⟩
      · rw [e1]
        rcases e4 a ha b hb with ⟨c, h1, h2⟩ | h1 | h1
        · exact i.comps v x hx c h1 b h2
        · exact i.picked v x hx b h1
        · exact h1
      · exact i.comps v y hy a ha b hb
  | gone _ _ u x w hx hr hop =>
    have ha : ∀ v c n t, op ≠ .add v c n t := by rcases hop with rfl | ⟨a, rfl⟩ <;> simp
    obtain ⟨r1, r2, r3, r4⟩ := records_same h op out ha
    have hgu := (i.units u).1 (by rw [hx]; rfl)
    have hg : ∀ v, Given (h ++ [(op, out)]) v ↔ Given h v := by intro v; rw [given_snoc]; simp [hr v]
    have ho : ∀ v, Over (h ++ [(op, out)]) v ↔ Over h v ∨ v = u := by
      intro v; rw [over_snoc]
      rcases hop with rfl | ⟨a, rfl⟩
      · simp [eq_comm]
      · simp [eq_comm]
    have hd : ∀ v, Deleted (h ++ [(op, out)]) v ↔ Deleted h v := by
      intro v; rw [deleted_snoc]; rcases hop with rfl | ⟨a, rfl⟩ <;> simp
    have hu : ∀ v y, (setUnit s.units u none) v = some y → s.units v = some y := by
      intro v y hy
      unfold setUnit at hy
      split at hy
      · cases hy
      · exact hy
    refine ⟨fun v => by rw [hg]; exact i.given v, fun v => ?_, fun t => by rw [hd]; exact i.freed t, fun v => ?_,
      fun v y hy => by rw [r1]; exact i.tests v y (hu v y hy), fun v y hy k => by rw [r2]; exact i.known v y (hu v y hy) k,
      fun v y hy => i.picked v y (hu v y hy), fun v y hy => i.comps v y (hu v y hy), fun a => by rw [r3]; exact i.defs a,
      fun v hv => (hg v).2 ?_, fun v hv => by rw [r4]; exact i.reg v (fun x => hv ((hg v).2 x))⟩
    · rw [hg, ho]
      show (setUnit s.units u _ v).isSome = true ↔ _
      unfold setUnit
      split
      · rename_i e; simp [e]
      · rename_i e; simp only [e, or_false]; exact i.units v
    · simp only [List.mem_append, List.mem_singleton, Prod.mk.injEq]
      have : ¬ (ROp.singleton = op ∧ ROut.runner v = out) := fun x => hr v x.2.symm
      simp only [this, or_false]
      exact i.single v
    · rcases (ho v).1 hv with h1 | rfl
      · exact i.main v h1
      · exact hgu.1
  | dropTest t hf =>
    obtain ⟨r1, r2, r3, r4⟩ := records_same h (.dropTest t) .done (by simp)
    have hg : ∀ v, Given (h ++ [(ROp.dropTest t, ROut.done)]) v ↔ Given h v := by intro v; rw [given_snoc]; simp
    have ho : ∀ v, Over (h ++ [(ROp.dropTest t, ROut.done)]) v ↔ Over h v := by intro v; rw [over_snoc]; simp
    refine ⟨fun v => by rw [hg]; exact i.given v, fun v => by rw [hg, ho]; exact i.units v, fun a => ?_, fun v => ?_,
      fun v x hx => by rw [r1]; exact i.tests v x hx, fun v x hx n => by rw [r2]; exact i.known v x hx n, i.picked, i.comps,
      fun t => by rw [r3]; exact i.defs t, fun v hv => (hg v).2 (i.main v ((ho v).1 hv)), fun v hv => by rw [r4]; exact i.reg v (fun x => hv ((hg v).2 x))⟩
    · rw [deleted_snoc]
      by_cases e : a = t
      · simp [e]
      · have : ¬ t = a := fun x => e x.symm
        simp only [if_neg e, ROp.dropTest.injEq, this, or_false]
        exact i.freed a
    · simp only [List.mem_append, List.mem_singleton, Prod.mk.injEq, reduceCtorEq, false_and, or_false]
      exact i.single v

theorem RExec.inv {env : Env} {fmt : Fmt} {canOpen : Bool} {scripts : Nat → Nat → Script} {h k : List (ROp × ROut)} {s s' : RS} (i : RInv scripts h s)
    (x : RExec env fmt canOpen s k s') : RInv scripts (h ++ k) s' := by
  induction x generalizing h with
  | nil => simpa using i
  | cons hs _ ih =>
    have := ih (i.step (rstep_shape hs))
    simpa using this

theorem RExec.rinv {env : Env} {fmt : Fmt} {canOpen : Bool} {scripts : Nat → Nat → Script} {w : World} {h : List (ROp × ROut)} {s : RS}
    (x : RExec env fmt canOpen (rstart scripts w) h s) : RInv scripts h s := by
  simpa using x.inv (RInv.start scripts w)

end Falcon.Fut
