import Verif.Spec.Complete
import Verif.Props.Suite
import Verif.Proofs.Runners
/- Which tests make the runner read a line number that was never set. -/
namespace Falcon.Fut

theorem places_report (sep : Char) (a : Act) : a.places = (a.report sep).isSome := by
  cases a <;> simp [Act.places, Act.report]

theorem act_placed (env : Env) (t : Nat) (w : World) (a : Act) :
    ((act env t w a).1.tc t).failLine.isSome = ((w.tc t).failLine.isSome || a.places) := by
  have h := act_failure env t w a
  rw [places_report env.sep]
  cases hr : a.report env.sep with
  | none => rw [hr] at h; simp only [Tc.failure, Prod.mk.injEq] at h; rw [h.2.1]; simp
  | some x => obtain ⟨f, l, m⟩ := x; rw [hr] at h; simp only [Tc.failure, Prod.mk.injEq] at h; rw [h.2.1]; simp

theorem applyAll_placed (env : Env) (t : Nat) (w : World) (as : List Act) :
    ((applyAll env t w as).tc t).failLine.isSome = ((w.tc t).failLine.isSome || as.any Act.places) := by
  induction as generalizing w with
  | nil => simp [applyAll]
  | cons a as ih => rw [applyAll_cons, ih, act_placed]; simp [Bool.or_assoc]

theorem afterSetUp_placed (env : Env) (d : TestDef) (t : Nat) (w : World) :
    ((afterSetUp env d t w).tc t).failLine.isSome = ((w.tc t).failLine.isSome || (executed (nextScript d t w).setUp).any Act.places) := by
  rw [afterSetUp, applyAll_placed]; simp [atSetUp, enter, World.setTc]
theorem afterBody_placed (env : Env) (d : TestDef) (t : Nat) (w : World) :
    ((afterBody env d t w).tc t).failLine.isSome = ((w.tc t).failLine.isSome || (executed (nextScript d t w).setUp).any Act.places ||
      (executed (nextScript d t w).body).any Act.places) := by
  rw [afterBody, applyAll_placed, ← afterSetUp_placed env]; simp [enter, markBegin]
theorem afterTearDown_placed (env : Env) (d : TestDef) (t : Nat) (w : World) :
    ((afterTearDown env d t w).tc t).failLine.isSome = ((w.tc t).failLine.isSome || (executed (nextScript d t w).setUp).any Act.places ||
      (executed (nextScript d t w).body).any Act.places || (executed (nextScript d t w).tearDown).any Act.places) := by
  rw [afterTearDown, applyAll_placed, ← afterBody_placed env]
  congr 1
  show ((conclude (markEnd env (afterBody env d t w) t) t).tc t).failLine.isSome = _
  unfold conclude
  split <;> simp [setStatus, World.setTc, markEnd]

theorem caught_placed (env : Env) (w : World) (t : Nat) (e : Exc) : ((caught env w t e).tc t).failLine = (w.tc t).failLine := by
  simp [caught, World.setTc, markEnd]

theorem places_any (sc : Script) : decide sc.Places = sc.done.any Act.places := by
  rw [Bool.eq_iff_iff, decide_eq_true_iff, List.any_eq_true]; rfl

theorem run_placed (env : Env) (d : TestDef) (t : Nat) (w : World) :
    ((run env d t w).tc t).failLine.isSome = ((w.tc t).failLine.isSome || decide (nextScript d t w).Places) := by
  rw [run_eq, places_any]
  unfold Script.done
  cases h1 : threw (nextScript d t w).setUp with
  | some e => simp [caught_placed, afterSetUp_placed]
  | none =>
    cases h2 : threw (nextScript d t w).body with
    | some e => simp [caught_placed, afterBody_placed, Bool.or_assoc]
    | none =>
      cases h3 : threw (nextScript d t w).tearDown with
      | some e => simp [caught_placed, afterTearDown_placed, Bool.or_assoc]
      | none => simp [afterTearDown_placed, Bool.or_assoc]

theorem run_fail (env : Env) (d : TestDef) (t : Nat) (w : World) :
    ((run env d t w).tc t).status = .fail ↔ (nextScript d t w).EndsFail := by
  rw [run_status]
  unfold Script.EndsFail
  have hthr : ((threw (nextScript d t w).setUp).isSome ∨ (threw (nextScript d t w).body).isSome ∨ (threw (nextScript d t w).tearDown).isSome) ↔
      (nextScript d t w).throws := Iff.rfl
  by_cases ht : (nextScript d t w).throws
  · rw [if_pos (hthr.2 ht)]; simp [ht]
  · rw [if_neg (fun x => ht (hthr.1 x))]
    have ha : settled (nextScript d t w).all = (settled (executed (nextScript d t w).tearDown)).or
        (settled (executed (nextScript d t w).setUp ++ executed (nextScript d t w).body)) := settled_append _ _
    rw [ha]
    simp only [ht, not_false_eq_true, true_and]
    generalize settled (executed (nextScript d t w).tearDown) = a
    generalize settled (executed (nextScript d t w).setUp ++ executed (nextScript d t w).body) = b
    generalize (afterBody env d t w).content (.capErr t) = c
    have ho : orStream c .none ≠ .fail := by unfold orStream; dsimp only; split <;> simp
    cases a with
    | some s => simp
    | none =>
      cases b with
      | none => simpa using ho
      | some s => cases s <;> simp [orStream]; split <;> simp

theorem run_runs (env : Env) (d : TestDef) (t : Nat) (w : World) : ((run env d t w).tc t).runs = (w.tc t).runs + 1 := by
  have := run_bufs env d t w
  simp only [Tc.bufs, Prod.mk.injEq] at this
  exact this.2.2.2.2

theorem begin_line (c : Bool) (t : Nat) (w : World) : ((beginTest c t w).tc t).failLine = (w.tc t).failLine := by
  cases c <;> simp [beginTest, setStatus, World.setTc]

theorem begin_next (d : TestDef) (c : Bool) (t : Nat) (w : World) : nextScript d t (beginTest c t w) = nextScript d t w := begin_script d c t w

/-- what is known after a test was performed -/
theorem seen_after (env : Env) (defs : Nat → TestDef) (c : Bool) (t : Nat) (w w' : World) (k : Nat)
    (h : endTest c t { run env (defs t) t { beginTest c t w with tick := k } with tick := k' } = .ok w') : w'.seen = w.seen.after defs t := by
  obtain ⟨f1, f2, f3, f4, f5, f6⟩ := endTest_frame _ _ _ _ h
  have e : nextScript (defs t) t { beginTest c t w with tick := k } = (defs t).script (w.tc t).runs := by
    have := begin_script (defs t) c t w
    exact this
  unfold World.seen Seen.after
  congr 1
  · funext u
    by_cases hu : u = t
    · subst hu
      simp only [if_true]
      rw [f5]
      show ((run env (defs u) u { beginTest c u w with tick := k }).tc u).runs = _
      rw [run_runs]
      show ((beginTest c u w).tc u).runs + 1 = _
      rw [begin_runs]
    · simp only [hu, if_false]
      rw [f1 u hu]
      show ((run env (defs t) t { beginTest c t w with tick := k }).tc u).runs = _
      rw [run_other _ _ _ _ _ hu]
      show ((beginTest c t w).tc u).runs = _
      rw [begin_other _ _ _ _ hu]
  · funext u
    by_cases hu : u = t
    · subst hu
      simp only [if_true]
      rw [f6]
      show ((run env (defs u) u { beginTest c u w with tick := k }).tc u).failLine.isSome = _
      rw [run_placed, e]
      show (((beginTest c u w).tc u).failLine.isSome || _) = _
      rw [begin_line]
    · simp only [hu, if_false]
      rw [f1 u hu]
      show ((run env (defs t) t { beginTest c t w with tick := k }).tc u).failLine.isSome = _
      rw [run_other _ _ _ _ _ hu]
      show ((beginTest c t w).tc u).failLine.isSome = _
      rw [begin_other _ _ _ _ hu]

theorem seen_print (w : World) (s : Str) : (print w s).seen = w.seen := rfl

/-- what endTest of the runner does once the capture has ended -/
theorem utEnd_defined (defs : Nat → TestDef) (u : UT) (n t : Nat) (w w1 : World) (h : endTest u.capture t w = .ok w1) :
    (∃ s, utEnd defs u n t w = .ok (print w1 s) ∧ ¬ (1 ≤ u.verbosity ∧ (w1.tc t).status = .fail ∧ (w1.tc t).failLine = none)) ∨
    (utEnd defs u n t w = .error (.ub .uninitRead) ∧ 1 ≤ u.verbosity ∧ (w1.tc t).status = .fail ∧ (w1.tc t).failLine = none) := by
  unfold utEnd
  rw [h]
  dsimp only
  have hp : ∃ s, showErr defs u t (showOut defs u t w1) = print w1 s := by
    unfold showErr showOut
    rw [print_if w1, print_if (print w1 _)]
    exact ⟨_, print_print _ _ _⟩
  obtain ⟨s, hs⟩ := hp
  rw [hs]
  unfold showVerdict
  have ht : (print w1 s).tc = w1.tc := rfl
  rw [ht]
  split
  · rename_i hx
    left
    exact ⟨_, by rw [print_print], fun hy => by rw [hx.2] at hy; simp at hy⟩
  · split
    · rename_i hx
      cases hl : (w1.tc t).failLine with
      | none => right; exact ⟨rfl, hx.1, hx.2, rfl⟩
      | some l => left; dsimp only; exact ⟨_, by rw [print_print], by simp⟩
    · rename_i hx
      split
      · left; exact ⟨_, by rw [print_print], fun hy => hx ⟨hy.1, hy.2.1⟩⟩
      · left; exact ⟨_, rfl, fun hy => hx ⟨hy.1, hy.2.1⟩⟩

end Falcon.Fut
