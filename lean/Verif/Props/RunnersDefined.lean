import Verif.Props.RunnersBad
import Verif.Props.Complete
import Verif.Props.Level
/- C144 and C156 together: programs with several runners whose tests use the checks only and which ask for no report file are
undefined exactly when they break the rules about lifetimes. -/
namespace Falcon.Fut

/-- The command-line words of the call ask for no report file, and none of them is blank. -/
def ROp.Plain : ROp → Prop
  | .options _ args => ∀ a ∈ args, a ≠ "-x".toList ∧ ∃ c ∈ a, ¬ White c
  | .main _ argv => ∀ a ∈ argv.tail, a ≠ "-x".toList ∧ ∃ c ∈ a, ¬ White c
  | _ => True

theorem readLevel_some {a : Str} (h : ∃ c ∈ a, ¬ White c) : ∃ l, readLevel a = some l := by
  cases hr : readLevel a with
  | some l => exact ⟨l, rfl⟩
  | none =>
    have := (C94_unset_partial {} {} a).1 (by rw [parse_v, hr])
    obtain ⟨c, hc, hn⟩ := h
    exact absurd (this c hc) hn

theorem parse_plain (args : List Str) (ha : ∀ a ∈ args, a ≠ "-x".toList ∧ ∃ c ∈ a, ¬ White c) (u : UT) (w : World) :
    ∃ u' w' c, parseParams u w args = .ok (u', w', c) ∧ u'.xmlReport = u.xmlReport := by
  have key : ∀ n (args : List Str) (u : UT), args.length ≤ n → (∀ a ∈ args, a ≠ "-x".toList ∧ ∃ c ∈ a, ¬ White c) →
      ∃ u' w' c, parseParams u w args = .ok (u', w', c) ∧ u'.xmlReport = u.xmlReport := by
    intro n
    induction n with
    | zero =>
      intro args u hl _
      cases args with
      | nil => exact ⟨u, w, 0, rfl, rfl⟩
      | cons => simp at hl
    | succ n ih =>
      intro args u hl ha
      cases args with
      | nil => exact ⟨u, w, 0, rfl, rfl⟩
      | cons opt rest =>
        have hr : ∀ a ∈ rest, a ≠ "-x".toList ∧ ∃ c ∈ a, ¬ White c := fun a h => ha a (List.mem_cons_of_mem _ h)
        have hlr : rest.length ≤ n := by simp at hl; omega
        rw [parseParams.eq_def]; dsimp only
        split
        · exact ih rest { u with verbosity := 0 } hlr hr
        split
        · exact ih rest { u with capture := false } hlr hr
        split
        · exact ih rest { u with erroutIsFail := true } hlr hr
        split
        · exact ⟨_, _, _, rfl, rfl⟩
        cases rest with
        | nil => exact ⟨_, _, _, rfl, rfl⟩
        | cons a rest =>
          have hr' : ∀ a ∈ rest, a ≠ "-x".toList ∧ ∃ c ∈ a, ¬ White c := fun a h => hr a (List.mem_cons_of_mem _ h)
          have hlr' : rest.length ≤ n := by simp at hlr; omega
          dsimp only
          split
          · obtain ⟨l, hl⟩ := readLevel_some (hr a (by simp)).2
            rw [hl]; dsimp only
            split
            · exact ih rest { u with verbosity := l.toNat } hlr' hr'
            · exact ⟨_, _, _, rfl, rfl⟩
          split
          · cases hf : findByName u a with
            | none => exact ⟨_, _, _, rfl, rfl⟩
            | some t => exact ih rest { u with toPerform := u.toPerform ++ [t] } hlr' hr'
          split
          · rename_i hx; exact absurd hx (ha opt (by simp)).1
          split
          · exact ih rest { u with name := a } hlr' hr'
          split
          · exact ih rest { u with id := a } hlr' hr'
          · exact ⟨_, _, _, rfl, rfl⟩
  exact key _ args u (Nat.le_refl _) ha

theorem readArgv_plain (sep : Char) (argv : List Str) (ha : ∀ a ∈ argv.tail, a ≠ "-x".toList ∧ ∃ c ∈ a, ¬ White c) (u : UT) (w : World) :
    ∃ u' w' c, readArgv sep u w argv = .ok (u', w', c) ∧ u'.xmlReport = u.xmlReport := by
  cases argv with
  | nil => exact ⟨u, w, 0, rfl, rfl⟩
  | cons exe args =>
    obtain ⟨u', w', c, e, hx⟩ := parse_plain args ha (detectTestName sep u exe) w
    exact ⟨u', w', c, e, hx⟩

/-- no live runner has a report file to write -/
def NoReport (s : RS) : Prop := ∀ u x, s.units u = some x → x.xmlReport = []

theorem noReport_set {s : RS} (hn : NoReport s) {u : Nat} {x' : Option UT} (hx : ∀ x, x' = some x → x.xmlReport = []) :
    ∀ v x, setUnit s.units u x' v = some x → x.xmlReport = [] := by
  intro v x h
  by_cases e : v = u
  · subst e; rw [setUnit_self] at h; exact hx x h
  · rw [setUnit_ne _ _ e] at h; exact hn v x h

theorem rstep_noReport {env : Env} {fmt : Fmt} {canOpen : Bool} {s s' : RS} {op : ROp} {out : ROut} (hn : NoReport s) (hp : op.Plain)
    (h : rstep env fmt canOpen s op = .ok (s', out)) : NoReport s' := by
  cases op with
  | make => cases h; exact noReport_set hn (by rintro x ⟨⟩; rfl)
  | singleton =>
    unfold rstep at h; dsimp only at h
    split at h
    · cases h; exact hn
    · cases h; exact noReport_set hn (by rintro x ⟨⟩; rfl)
  | add u c n t =>
    unfold rstep at h; dsimp only at h
    split at h
    · cases h
    · rename_i x hx
      split at h
      · cases h
      · cases h; exact noReport_set hn (by rintro y ⟨⟩; exact hn u x hx)
  | verbosity u n =>
    unfold rstep at h; dsimp only at h
    split at h
    · cases h
    · rename_i x hx; cases h; exact noReport_set hn (by rintro y ⟨⟩; exact hn u x hx)
  | options u args =>
    unfold rstep at h; dsimp only at h
    split at h
    · cases h
    · rename_i x hx
      obtain ⟨u', w', c, e, he⟩ := parse_plain args hp x s.w
      rw [e] at h; cases h
      exact noReport_set hn (by rintro y ⟨⟩; rw [he]; exact hn u x hx)
  | perform u =>
    unfold rstep at h; dsimp only at h
    split at h
    · cases h
    · rename_i x hx
      split at h
      · cases h
      · rename_i d hd
        cases h
        unfold runUnits at hd
        split at hd
        · cases hd
        · obtain ⟨xs, lp, w1, g, m, p, l, e, -⟩ := performUnitTests_ok _ _ _ _ _ _ _ hd
          exact noReport_set hn (by rintro y ⟨⟩; rw [e]; exact hn u x hx)
  | performTest u name =>
    unfold rstep at h; dsimp only at h
    split at h
    · cases h
    · rename_i x hx
      split at h
      · cases h
      · split at h
        · cases h; exact noReport_set hn (by rintro y ⟨⟩; exact hn u x hx)
        · rename_i t hf
          rcases performTest_ok env s.defs x s.w name t hf with e | ⟨st, w', lp, e, _⟩
          · rw [e] at h; cases h
          · rw [e] at h; cases h
            exact noReport_set hn (by rintro y ⟨⟩; exact hn u x hx)
  | main u argv =>
    unfold rstep at h; dsimp only at h
    split at h
    · cases h
    · split at h
      · cases h
      · split at h
        · cases h; exact noReport_set hn (by rintro y ⟨⟩)
        · split at h
          · cases h
          · cases h; exact noReport_set hn (by rintro y ⟨⟩)
  | dropUnit u =>
    unfold rstep at h; dsimp only at h
    split at h
    · cases h
    · cases h; exact noReport_set hn (by rintro y ⟨⟩)
  | dropTest t =>
    unfold rstep at h; dsimp only at h
    split at h
    · cases h
    · cases h; exact hn

theorem rexec_noReport {env : Env} {fmt : Fmt} {canOpen : Bool} {s s' : RS} {h : List (ROp × ROut)} (r : RExec env fmt canOpen s h s')
    (hn : NoReport s) (hp : ∀ e ∈ h, e.1.Plain) : NoReport s' := by
  induction r with
  | nil => exact hn
  | cons h1 _ ih => exact ih (rstep_noReport hn (hp _ List.mem_cons_self) h1) (fun e he => hp e (List.mem_cons_of_mem _ he))

/-- C144 with C156: let all tests use the checks only, and let no report file be asked for and no word on a command line be blank. Then after any history a call
gives a result exactly if it keeps the rules: its runner was handed out, not deleted, and had no main(); the tests it goes through exist; nothing is deleted twice. -/
theorem C144_defined_partial (env : Env) (fmt : Fmt) (canOpen : Bool) (scripts : Nat → Nat → Script) (w : World) (h : List (ROp × ROut)) (s : RS)
    (hc : ∀ t k, (scripts t k).ChecksOnly) (hp : ∀ e ∈ h, e.1.Plain)
    (r : RExec env fmt canOpen (rstart scripts w) h s) (op : ROp) (hop : op.Plain) :
    (∃ s' out, rstep env fmt canOpen s op = .ok (s', out)) ↔ Sound h (Accepts h) op := by
  have hs := C144_sound_partial env fmt canOpen scripts w h s r op
  have i := r.rinv
  have hcd : ∀ t k, ((s.defs t).script k).ChecksOnly := by intro t k; rw [i.defs t]; exact hc t k
  have hn : NoReport s := rexec_noReport r (fun u x hx => by cases hx) hp
  have hu : rstep env fmt canOpen s op ≠ .error (.ub .uninitRead) := by
    have run : ∀ (x : UT) (v : World), x.xmlReport = [] → runUnits env fmt canOpen s x v ≠ .error (.ub .uninitRead) := by
      intro x v hx e
      unfold runUnits at e
      split at e
      · cases e
      · obtain ⟨d, hd⟩ := C156_checks_only env fmt canOpen s.defs x v (.inl hx) hcd
        rw [hd] at e; cases e
    intro e
    cases op with
    | make => cases e
    | singleton => unfold rstep at e; dsimp only at e; split at e <;> cases e
    | add u c n t =>
      unfold rstep at e; dsimp only at e
      split at e
      · cases e
      · split at e <;> cases e
    | verbosity u n => unfold rstep at e; dsimp only at e; split at e <;> cases e
    | options u args =>
      unfold rstep at e; dsimp only at e
      split at e
      · cases e
      · rename_i x hx
        obtain ⟨u', w', c, e', -⟩ := parse_plain args hop x s.w
        rw [e'] at e; cases e
    | perform u =>
      unfold rstep at e; dsimp only at e
      split at e
      · cases e
      · rename_i x hx
        cases hr : runUnits env fmt canOpen s x s.w with
        | ok d => rw [hr] at e; cases e
        | error f => rw [hr] at e; cases e; exact run x s.w (hn u x hx) hr
    | performTest u name =>
      unfold rstep at e; dsimp only at e
      split at e
      · cases e
      · rename_i x hx
        split at e
        · cases e
        · split at e
          · cases e
          · rename_i t hf
            have hpt := C156_performTest_partial env s.defs x s.w name
            rw [hf] at hpt
            dsimp only at hpt
            rcases hpt with ⟨-, -, h1, h2, -⟩ | ⟨⟨u', w', c, h1⟩, -⟩
            · exact h2 (checksOnly_places _ (hcd t _) h1)
            · rw [h1] at e; cases e
    | main u argv =>
      unfold rstep at e; dsimp only at e
      split at e
      · cases e
      · rename_i x hx
        obtain ⟨u', w', c, e', hx'⟩ := readArgv_plain env.sep argv hop x s.w
        rw [e'] at e
        dsimp only at e
        split at e
        · cases e
        · cases hr : runUnits env fmt canOpen s u' w' with
          | ok d => rw [hr] at e; cases e
          | error f => rw [hr] at e; cases e; exact run u' w' (by rw [hx']; exact hn u x hx) hr
    | dropUnit u => unfold rstep at e; dsimp only at e; split at e <;> cases e
    | dropTest t => unfold rstep at e; dsimp only at e; split at e <;> cases e
  constructor
  · rintro ⟨s', out, e⟩
    apply Classical.byContradiction
    intro hns
    rcases hs.2 hns with e' | e' <;> rw [e'] at e <;> cases e
  · intro hso
    rcases hs.1 hso with ⟨⟨s', out⟩, e⟩ | e
    · exact ⟨s', out, e⟩
    · exact absurd e hu

/-- C144 with C156, the whole program: if every call keeps the rules, given what the earlier ones gave back, the program runs to its end. -/
theorem C144_program_partial (env : Env) (fmt : Fmt) (canOpen : Bool) (scripts : Nat → Nat → Script) (w : World) (ops : List ROp)
    (hc : ∀ t k, (scripts t k).ChecksOnly) (hp : ∀ op ∈ ops, op.Plain) :
    (∃ h s, RExec env fmt canOpen (rstart scripts w) h s ∧ h.map Prod.fst = ops) ↔
    ∀ before op after, ops = before ++ op :: after → ∀ h s, RExec env fmt canOpen (rstart scripts w) h s → h.map Prod.fst = before → Sound h (Accepts h) op := by
  constructor
  · rintro ⟨h, s, r, rfl⟩ before op after e h' s' r' hb
    -- the history is determined by the calls
    have det : ∀ {q : RS} {h1 : List (ROp × ROut)} {q1 : RS}, RExec env fmt canOpen q h1 q1 → ∀ {h2 : List (ROp × ROut)} {q2 : RS}, RExec env fmt canOpen q h2 q2 →
        ∀ op after, h1.map Prod.fst = h2.map Prod.fst ++ op :: after → ∃ y, rstep env fmt canOpen q2 op = .ok y := by
      intro q h1 q1 r1
      induction r1 with
      | nil => intro h2 q2 _ op after e; simp at e
      | cons hs _ ih =>
        intro h2 q2 r2 op after e
        cases r2 with
        | nil => simp at e; rw [← e.1]; exact ⟨_, hs⟩
        | cons hs2 r2 =>
          simp at e
          obtain ⟨rfl, e⟩ := e
          rw [hs] at hs2; cases hs2
          exact ih r2 op after (by simpa using e)
    have hpl : ∀ e ∈ h', e.1.Plain := by
      intro x hx
      refine hp _ ?_
      rw [e, ← hb]
      exact List.mem_append_left _ (List.mem_map.2 ⟨x, hx, rfl⟩)
    have hop : op.Plain := hp op (by rw [e]; simp)
    obtain ⟨y, hy⟩ := det r r' op after (by rw [hb]; exact e)
    exact (C144_defined_partial env fmt canOpen scripts w h' s' hc hpl r' op hop).1 ⟨y.1, y.2, hy⟩
  · intro hall
    have snoc : ∀ {q q1 q2 : RS} {h1 : List (ROp × ROut)} {op : ROp} {out : ROut}, RExec env fmt canOpen q h1 q1 → rstep env fmt canOpen q1 op = .ok (q2, out) →
        RExec env fmt canOpen q (h1 ++ [(op, out)]) q2 := by
      intro q q1 q2 h1 op out r1 hs
      induction r1 with
      | nil => exact .cons hs .nil
      | cons h _ ih => exact .cons h (ih hs)
    have key : ∀ k, k ≤ ops.length → ∃ h s, RExec env fmt canOpen (rstart scripts w) h s ∧ h.map Prod.fst = ops.take k := by
      intro k
      induction k with
      | zero => intro _; exact ⟨[], _, .nil, rfl⟩
      | succ k ih =>
        intro hk
        obtain ⟨h, s, r, e⟩ := ih (by omega)
        have hlt : k < ops.length := by omega
        have hsplit : ops = ops.take k ++ ops[k] :: ops.drop (k + 1) := by
          rw [← List.drop_eq_getElem_cons hlt, List.take_append_drop]
        have hso := hall _ _ _ hsplit h s r e
        have hpl : ∀ x ∈ h, x.1.Plain := by
          intro x hx
          have : x.1 ∈ ops.take k := by rw [← e]; exact List.mem_map.2 ⟨x, hx, rfl⟩
          exact hp _ (List.mem_of_mem_take this)
        obtain ⟨s', out, hs⟩ := (C144_defined_partial env fmt canOpen scripts w h s hc hpl r ops[k] (hp _ (List.getElem_mem _))).2 hso
        exact ⟨_, _, snoc r hs, by rw [List.map_append, e, List.take_succ_eq_append_getElem hlt]; rfl⟩
    obtain ⟨h, s, r, e⟩ := key ops.length (Nat.le_refl _)
    exact ⟨h, s, r, by rw [e, List.take_length]⟩

/-- The hypotheses are met by the program with two runners, a failing test, options and main() of Props/RunnersBad, which runs to its end. -/
example : ∀ t k, (mixedTests t k).ChecksOnly := by
  intro t k a ha
  unfold mixedTests at ha
  split at ha
  · simp only [List.nil_append, List.append_nil, List.mem_singleton] at ha; subst ha; rfl
  · simp at ha
example : ∀ op ∈ mixed, op.Plain := by
  have h : mixed.all (fun op => match op with
      | .options _ args => args.all fun a => a != "-x".toList && a.any fun c => !([' ', '\t', '\n', '\x0b', '\x0c', '\r'].contains c)
      | .main _ argv => argv.tail.all fun a => a != "-x".toList && a.any fun c => !([' ', '\t', '\n', '\x0b', '\x0c', '\r'].contains c)
      | _ => true) = true := by decide +kernel
  intro op hop
  have := List.all_eq_true.1 h op hop
  cases op <;> first
    | trivial
    | (intro a ha
       have h1 := List.all_eq_true.1 this a ha
       rw [Bool.and_eq_true] at h1
       refine ⟨by simpa using h1.1, ?_⟩
       obtain ⟨c, hc, h2⟩ := List.any_eq_true.1 h1.2
       exact ⟨c, hc, by simpa [White] using h2⟩)

end Falcon.Fut
