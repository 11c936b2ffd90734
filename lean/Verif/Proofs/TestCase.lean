import Verif.Spec.TestCase
/- Lemmas about single test cases. -/
namespace Falcon.Fut

def Act.next (a : Act) : Next :=
  match a.thrown with
  | some e => .thr e
  | none => if a.leaves then .ret else .go

theorem act_next (env : Env) (t : Nat) (w : World) (a : Act) : (act env t w a).2 = a.next := by
  cases a with
  | check ok f l e x => cases ok <;> rfl
  | expectThrow o c f l ty => cases o <;> cases c <;> rfl
  | expectAnyThrow o f l => cases o <;> rfl
  | expectNoThrow o f l =>
    cases o with
    | none => rfl
    | some e => cases e <;> rfl
  | _ => rfl

theorem thrown_leaves (a : Act) (e : Exc) (h : a.thrown = some e) : a.leaves = true := by
  cases a with
  | thrw => rfl
  | expectThrow o c f l ty => cases o <;> cases c <;> simp_all [Act.thrown, Act.leaves]
  | _ => simp [Act.thrown] at h

def applyAll (env : Env) (t : Nat) (w : World) (as : List Act) : World := as.foldl (fun w a => (act env t w a).1) w

theorem applyAll_nil (env : Env) (t : Nat) (w : World) : applyAll env t w [] = w := rfl
theorem applyAll_cons (env : Env) (t : Nat) (w : World) (a : Act) (as : List Act) : applyAll env t w (a :: as) = applyAll env t (act env t w a).1 as := rfl
theorem applyAll_append (env : Env) (t : Nat) (w : World) (as bs : List Act) : applyAll env t w (as ++ bs) = applyAll env t (applyAll env t w as) bs := by
  simp [applyAll, List.foldl_append]

theorem executed_ne_nil {a : Act} {as : List Act} : executed (a :: as) ≠ [] := by
  unfold executed; split <;> simp

theorem threw_cons (a : Act) (as : List Act) : threw (a :: as) = if a.leaves then a.thrown else threw as := by
  unfold threw
  by_cases h : a.leaves = true
  · simp [executed, h]
  · simp only [executed, h]
    cases as with
    | nil =>
      cases hh : a.thrown with
      | none => simp [executed, hh]
      | some e => exact absurd (thrown_leaves a e hh) h
    | cons b bs =>
      cases hb : executed (b :: bs) with
      | nil => exact absurd hb executed_ne_nil
      | cons c cs => simp [List.getLast?_cons_cons]

theorem exec_eq (env : Env) (t : Nat) (w : World) (as : List Act) : exec env t w as = (applyAll env t w (executed as), threw as) := by
  induction as generalizing w with
  | nil => rfl
  | cons a as ih =>
    have hn := act_next env t w a
    rw [threw_cons]
    unfold exec
    cases h : act env t w a with
    | mk w' n =>
      rw [h] at hn
      simp only at hn
      subst hn
      unfold Act.next
      cases ht : a.thrown with
      | some e =>
        have hl := thrown_leaves a e ht
        simp [executed, hl, applyAll, h]
      | none =>
        by_cases hl : a.leaves = true
        · simp [executed, hl, applyAll, h]
        · simp [executed, hl, applyAll_cons, h, ih]

/-! ### What a statement leaves alone -/

/-- Fields of a test case the statements of tests do not touch. -/
def Tc.frame (c : Tc) : Str × Str × Option Buf × Option Buf × Lapse × Nat := (c.outStr, c.errStr, c.outbuf, c.errbuf, c.lapse, c.runs)

theorem act_other (env : Env) (t u : Nat) (w : World) (a : Act) (h : u ≠ t) : ((act env t w a).1.tc u) = w.tc u := by
  cases a with
  | check ok f l e x => cases ok <;> simp [act, World.setTc, h]
  | expectThrow o c f l ty => cases o <;> cases c <;> simp [act, World.setTc, h]
  | expectAnyThrow o f l => cases o <;> simp [act, World.setTc, h]
  | expectNoThrow o f l =>
    cases o with
    | none => rfl
    | some e => cases e <;> simp [act, World.setTc, h]
  | _ => simp [act, World.setTc, World.put, h]

theorem act_frame (env : Env) (t : Nat) (w : World) (a : Act) : ((act env t w a).1.tc t).frame = (w.tc t).frame := by
  cases a with
  | check ok f l e x => cases ok <;> simp [act, World.setTc, Tc.frame, checkFail]
  | expectThrow o c f l ty => cases o <;> cases c <;> simp [act, World.setTc, Tc.frame, checkFail]
  | expectAnyThrow o f l => cases o <;> simp [act, World.setTc, Tc.frame, checkFail]
  | expectNoThrow o f l =>
    cases o with
    | none => rfl
    | some e => cases e <;> simp [act, World.setTc, Tc.frame, checkFail]
  | _ => simp [act, World.setTc, World.put, Tc.frame, failMember, checkFail]

theorem act_status (env : Env) (t : Nat) (w : World) (a : Act) : ((act env t w a).1.tc t).status = a.sets.getD (w.tc t).status := by
  cases a with
  | check ok f l e x => cases ok <;> simp [act, World.setTc, checkFail, Act.sets, Act.failed]
  | expectThrow o c f l ty => cases o <;> cases c <;> simp [act, World.setTc, checkFail, Act.sets, Act.failed]
  | expectAnyThrow o f l => cases o <;> simp [act, World.setTc, checkFail, Act.sets, Act.failed]
  | expectNoThrow o f l =>
    cases o with
    | none => rfl
    | some e => cases e <;> simp [act, World.setTc, checkFail, Act.sets, Act.failed]
  | _ => simp [act, World.setTc, World.put, failMember, checkFail, Act.sets, Act.failed]

theorem act_tick (env : Env) (t : Nat) (w : World) (a : Act) : (act env t w a).1.tick = w.tick := by
  cases a with
  | check ok f l e x => cases ok <;> rfl
  | expectThrow o c f l ty => cases o <;> cases c <;> rfl
  | expectAnyThrow o f l => cases o <;> rfl
  | expectNoThrow o f l =>
    cases o with
    | none => rfl
    | some e => cases e <;> rfl
  | _ => rfl

/-- Statements that keep the streams: where they write. -/
theorem act_streams (env : Env) (t : Nat) (w : World) (a : Act) (h : a.keepsStreams = true) :
    (act env t w a).1.cout = w.cout ∧ (act env t w a).1.cerr = w.cerr ∧
    ∀ b, (act env t w a).1.content b = w.content b ++ (if b = w.cout then outText [a] else []) ++ (if b = w.cerr then errText [a] else []) := by
  cases a with
  | check ok f l e x => cases ok <;> simp [act, World.setTc, outText, errText]
  | expectThrow o c f l ty => cases o <;> cases c <;> simp [act, World.setTc, outText, errText]
  | expectAnyThrow o f l => cases o <;> simp [act, World.setTc, outText, errText]
  | expectNoThrow o f l =>
    cases o with
    | none => simp [act, outText, errText]
    | some e => cases e <;> simp [act, World.setTc, outText, errText]
  | redirOut => cases h
  | redirErr => cases h
  | out s =>
    refine ⟨rfl, rfl, fun b => ?_⟩
    by_cases e : b = w.cout <;> simp [act, World.put, outText, errText, e]
  | err s =>
    refine ⟨rfl, rfl, fun b => ?_⟩
    by_cases e : b = w.cerr <;> simp [act, World.put, outText, errText, e]
  | _ => simp [act, World.setTc, outText, errText]

theorem outText_cons (a : Act) (as : List Act) : outText (a :: as) = outText [a] ++ outText as := by simp [outText]
theorem errText_cons (a : Act) (as : List Act) : errText (a :: as) = errText [a] ++ errText as := by simp [errText]
theorem outText_append (as bs : List Act) : outText (as ++ bs) = outText as ++ outText bs := by simp [outText]
theorem errText_append (as bs : List Act) : errText (as ++ bs) = errText as ++ errText bs := by simp [errText]

theorem applyAll_other (env : Env) (t u : Nat) (w : World) (as : List Act) (h : u ≠ t) : (applyAll env t w as).tc u = w.tc u := by
  induction as generalizing w with
  | nil => rfl
  | cons a as ih => rw [applyAll_cons, ih, act_other _ _ _ _ _ h]

theorem applyAll_frame (env : Env) (t : Nat) (w : World) (as : List Act) : ((applyAll env t w as).tc t).frame = (w.tc t).frame := by
  induction as generalizing w with
  | nil => rfl
  | cons a as ih => rw [applyAll_cons, ih, act_frame]

theorem applyAll_tick (env : Env) (t : Nat) (w : World) (as : List Act) : (applyAll env t w as).tick = w.tick := by
  induction as generalizing w with
  | nil => rfl
  | cons a as ih => rw [applyAll_cons, ih, act_tick]

theorem settled_cons (a : Act) (as : List Act) : settled (a :: as) = (settled as).or a.sets := by
  unfold settled
  cases h : a.sets with
  | none => rw [List.filterMap_cons, h]; simp
  | some s =>
    rw [List.filterMap_cons, h]
    simp only [List.getLast?_cons]
    cases hh : (as.filterMap Act.sets).getLast? <;> rfl

theorem settled_append (as bs : List Act) : settled (as ++ bs) = (settled bs).or (settled as) := by
  induction as with
  | nil => simp [settled]
  | cons a as ih => rw [List.cons_append, settled_cons, ih, settled_cons]; cases settled bs <;> simp

theorem applyAll_status (env : Env) (t : Nat) (w : World) (as : List Act) : ((applyAll env t w as).tc t).status = (settled as).getD (w.tc t).status := by
  induction as generalizing w with
  | nil => rfl
  | cons a as ih =>
    rw [applyAll_cons, ih, act_status, settled_cons]
    cases settled as <;> simp

theorem applyAll_streams (env : Env) (t : Nat) (w : World) (as : List Act) (h : ∀ a ∈ as, a.keepsStreams = true) (hne : w.cout ≠ w.cerr) :
    (applyAll env t w as).cout = w.cout ∧ (applyAll env t w as).cerr = w.cerr ∧
    ∀ b, (applyAll env t w as).content b = w.content b ++ (if b = w.cout then outText as else []) ++ (if b = w.cerr then errText as else []) := by
  induction as generalizing w with
  | nil => simp [applyAll, outText, errText]
  | cons a as ih =>
    obtain ⟨h1, h2, h3⟩ := act_streams env t w a (h a (by simp))
    obtain ⟨k1, k2, k3⟩ := ih (act env t w a).1 (fun b hb => h b (by simp [hb])) (by rw [h1, h2]; exact hne)
    refine ⟨by rw [applyAll_cons, k1, h1], by rw [applyAll_cons, k2, h2], fun b => ?_⟩
    rw [applyAll_cons, k3, h3, h1, h2, outText_cons a as, errText_cons a as]
    by_cases e1 : b = w.cout
    · have e2 : b ≠ w.cerr := by rw [e1]; exact hne
      simp [e1, hne]
    · by_cases e2 : b = w.cerr
      · have : ¬ w.cerr = w.cout := fun e => hne e.symm
        simp [e2, this]
      · simp [e1, e2]

theorem executed_sub (as : List Act) : ∀ a ∈ executed as, a ∈ as := by
  induction as with
  | nil => simp [executed]
  | cons b bs ih =>
    intro a ha
    unfold executed at ha
    split at ha
    · simp at ha; simp [ha]
    · simp at ha
      rcases ha with rfl | ha
      · simp
      · simp [ih a ha]

end Falcon.Fut

namespace Falcon.Fut

/-! ### run() -/

/-- The trace marks of executed statements. -/
def stepsOf (t : Nat) (as : List Act) : List Ev := as.filterMap fun a => match a with | .step n => some (.step t n) | _ => none

theorem act_tr (env : Env) (t : Nat) (w : World) (a : Act) : (act env t w a).1.tr = w.tr ++ stepsOf t [a] := by
  cases a with
  | check ok f l e x => cases ok <;> simp [act, World.setTc, stepsOf]
  | expectThrow o c f l ty => cases o <;> cases c <;> simp [act, World.setTc, stepsOf]
  | expectAnyThrow o f l => cases o <;> simp [act, World.setTc, stepsOf]
  | expectNoThrow o f l =>
    cases o with
    | none => simp [act, stepsOf]
    | some e => cases e <;> simp [act, World.setTc, stepsOf]
  | _ => simp [act, World.setTc, World.put, stepsOf]

theorem stepsOf_cons (t : Nat) (a : Act) (as : List Act) : stepsOf t (a :: as) = stepsOf t [a] ++ stepsOf t as := by
  have : a :: as = [a] ++ as := rfl
  rw [this]; simp only [stepsOf, List.filterMap_append]

theorem applyAll_tr (env : Env) (t : Nat) (w : World) (as : List Act) : (applyAll env t w as).tr = w.tr ++ stepsOf t as := by
  induction as generalizing w with
  | nil => simp [applyAll, stepsOf]
  | cons a as ih => rw [applyAll_cons, ih, act_tr, stepsOf_cons t a as, List.append_assoc]

/-- The world when SetUp is entered. -/
def atSetUp (d : TestDef) (t : Nat) (w : World) : World :=
  enter (w.setTc t { w.tc t with status := .none, runs := (w.tc t).runs + 1 }) (.setUp t)
def afterSetUp (env : Env) (d : TestDef) (t : Nat) (w : World) : World := applyAll env t (atSetUp d t w) (executed (nextScript d t w).setUp)
def afterBody (env : Env) (d : TestDef) (t : Nat) (w : World) : World :=
  applyAll env t (enter (markBegin env (afterSetUp env d t w) t) (.body t)) (executed (nextScript d t w).body)
def afterTearDown (env : Env) (d : TestDef) (t : Nat) (w : World) : World :=
  applyAll env t (enter (conclude (markEnd env (afterBody env d t w) t) t) (.tearDown t)) (executed (nextScript d t w).tearDown)

theorem run_eq (env : Env) (d : TestDef) (t : Nat) (w : World) : run env d t w =
    (match threw (nextScript d t w).setUp with
     | some e => caught env (afterSetUp env d t w) t e
     | none => match threw (nextScript d t w).body with
       | some e => caught env (afterBody env d t w) t e
       | none => match threw (nextScript d t w).tearDown with
         | some e => caught env (afterTearDown env d t w) t e
         | none => afterTearDown env d t w) := by
  unfold run
  simp only [exec_eq]
  show (match (applyAll env t (atSetUp d t w) (executed (nextScript d t w).setUp), threw (nextScript d t w).setUp) with
    | (w, some e) => _ | (w, none) => _) = _
  cases threw (nextScript d t w).setUp with
  | some e => rfl
  | none =>
    show (match (afterBody env d t w, threw (nextScript d t w).body) with
      | (w, some e) => _ | (w, none) => _) = _
    cases threw (nextScript d t w).body with
    | some e => rfl
    | none =>
      show (match (afterTearDown env d t w, threw (nextScript d t w).tearDown) with
        | (w, some e) => _ | (w, none) => _) = _
      cases threw (nextScript d t w).tearDown <;> rfl

theorem caught_status (env : Env) (w : World) (t : Nat) (e : Exc) : ((caught env w t e).tc t).status = .error := by
  simp [caught, World.setTc]

/-- Everything of the framework's bookkeeping but the lapse and the run counter. -/
def Tc.bufs (c : Tc) : Str × Str × Option Buf × Option Buf × Nat := (c.outStr, c.errStr, c.outbuf, c.errbuf, c.runs)

theorem frame_bufs {c c' : Tc} (h : c.frame = c'.frame) : c.bufs = c'.bufs := by
  simp only [Tc.frame, Tc.bufs, Prod.mk.injEq] at h ⊢
  exact ⟨h.1, h.2.1, h.2.2.1, h.2.2.2.1, h.2.2.2.2.2⟩

theorem applyAll_bufs (env : Env) (t : Nat) (w : World) (as : List Act) : ((applyAll env t w as).tc t).bufs = (w.tc t).bufs := frame_bufs (applyAll_frame env t w as)

theorem conclude_other (w : World) (t u : Nat) (h : u ≠ t) : (conclude w t).tc u = w.tc u := by
  unfold conclude; split <;> simp [setStatus, World.setTc, h]
theorem conclude_bufs (w : World) (t : Nat) : ((conclude w t).tc t).bufs = (w.tc t).bufs := by
  unfold conclude; split <;> simp [setStatus, World.setTc, Tc.bufs]
theorem conclude_misc (w : World) (t : Nat) : (conclude w t).cout = w.cout ∧ (conclude w t).cerr = w.cerr ∧ (conclude w t).content = w.content ∧ (conclude w t).tr = w.tr ∧ (conclude w t).tick = w.tick := by
  unfold conclude; split <;> simp [setStatus, World.setTc]

theorem markEnd_bufs (env : Env) (w : World) (t : Nat) : ((markEnd env w t).tc t).bufs = (w.tc t).bufs := by simp [markEnd, Tc.bufs]
theorem markBegin_bufs (env : Env) (w : World) (t : Nat) : ((markBegin env w t).tc t).bufs = (w.tc t).bufs := by simp [markBegin, Tc.bufs]
theorem markEnd_other (env : Env) (w : World) (t u : Nat) (h : u ≠ t) : (markEnd env w t).tc u = w.tc u := by simp [markEnd, h]
theorem markBegin_other (env : Env) (w : World) (t u : Nat) (h : u ≠ t) : (markBegin env w t).tc u = w.tc u := by simp [markBegin, h]
theorem markEnd_status (env : Env) (w : World) (t : Nat) : ((markEnd env w t).tc t).status = (w.tc t).status := by simp [markEnd]
theorem markBegin_status (env : Env) (w : World) (t : Nat) : ((markBegin env w t).tc t).status = (w.tc t).status := by simp [markBegin]

theorem caught_bufs (env : Env) (w : World) (t : Nat) (e : Exc) : ((caught env w t e).tc t).bufs = (w.tc t).bufs := by
  simp [caught, World.setTc, Tc.bufs, markEnd]
theorem caught_other (env : Env) (w : World) (t u : Nat) (e : Exc) (h : u ≠ t) : (caught env w t e).tc u = w.tc u := by
  simp [caught, World.setTc, markEnd, h]
theorem caught_misc (env : Env) (w : World) (t : Nat) (e : Exc) : (caught env w t e).cout = w.cout ∧ (caught env w t e).cerr = w.cerr ∧ (caught env w t e).content = w.content ∧ (caught env w t e).tr = w.tr := by
  simp [caught, World.setTc, markEnd]

theorem afterSetUp_bufs (env : Env) (d : TestDef) (t : Nat) (w : World) :
    ((afterSetUp env d t w).tc t).bufs = { w.tc t with runs := (w.tc t).runs + 1 : Tc }.bufs := by
  rw [afterSetUp, applyAll_bufs]; simp [atSetUp, enter, World.setTc, Tc.bufs]
theorem afterBody_bufs (env : Env) (d : TestDef) (t : Nat) (w : World) :
    ((afterBody env d t w).tc t).bufs = { w.tc t with runs := (w.tc t).runs + 1 : Tc }.bufs := by
  rw [afterBody, applyAll_bufs]
  show ((markBegin env (afterSetUp env d t w) t).tc t).bufs = _
  rw [markBegin_bufs, afterSetUp_bufs]
theorem afterTearDown_bufs (env : Env) (d : TestDef) (t : Nat) (w : World) :
    ((afterTearDown env d t w).tc t).bufs = { w.tc t with runs := (w.tc t).runs + 1 : Tc }.bufs := by
  rw [afterTearDown, applyAll_bufs]
  show ((conclude (markEnd env (afterBody env d t w) t) t).tc t).bufs = _
  rw [conclude_bufs, markEnd_bufs, afterBody_bufs]

theorem run_bufs (env : Env) (d : TestDef) (t : Nat) (w : World) : ((run env d t w).tc t).bufs = { w.tc t with runs := (w.tc t).runs + 1 : Tc }.bufs := by
  rw [run_eq]
  cases threw (nextScript d t w).setUp with
  | some e => simp only [caught_bufs, afterSetUp_bufs]
  | none =>
    cases threw (nextScript d t w).body with
    | some e => simp only [caught_bufs, afterBody_bufs]
    | none =>
      cases threw (nextScript d t w).tearDown with
      | some e => simp only [caught_bufs, afterTearDown_bufs]
      | none => simp only [afterTearDown_bufs]

theorem afterSetUp_other (env : Env) (d : TestDef) (t u : Nat) (w : World) (h : u ≠ t) : (afterSetUp env d t w).tc u = w.tc u := by
  rw [afterSetUp, applyAll_other _ _ _ _ _ h]; simp [atSetUp, enter, World.setTc, h]
theorem afterBody_other (env : Env) (d : TestDef) (t u : Nat) (w : World) (h : u ≠ t) : (afterBody env d t w).tc u = w.tc u := by
  rw [afterBody, applyAll_other _ _ _ _ _ h]
  show (markBegin env (afterSetUp env d t w) t).tc u = _
  rw [markBegin_other _ _ _ _ h, afterSetUp_other _ _ _ _ _ h]
theorem afterTearDown_other (env : Env) (d : TestDef) (t u : Nat) (w : World) (h : u ≠ t) : (afterTearDown env d t w).tc u = w.tc u := by
  rw [afterTearDown, applyAll_other _ _ _ _ _ h]
  show (conclude (markEnd env (afterBody env d t w) t) t).tc u = _
  rw [conclude_other _ _ _ h, markEnd_other _ _ _ _ h, afterBody_other _ _ _ _ _ h]

theorem run_other (env : Env) (d : TestDef) (t u : Nat) (w : World) (h : u ≠ t) : (run env d t w).tc u = w.tc u := by
  rw [run_eq]
  cases threw (nextScript d t w).setUp with
  | some e => simp only [caught_other _ _ _ _ _ h, afterSetUp_other _ _ _ _ _ h]
  | none =>
    cases threw (nextScript d t w).body with
    | some e => simp only [caught_other _ _ _ _ _ h, afterBody_other _ _ _ _ _ h]
    | none =>
      cases threw (nextScript d t w).tearDown with
      | some e => simp only [caught_other _ _ _ _ _ h, afterTearDown_other _ _ _ _ _ h]
      | none => simp only [afterTearDown_other _ _ _ _ _ h]

/-! Status -/

theorem afterBody_status (env : Env) (d : TestDef) (t : Nat) (w : World) :
    ((afterBody env d t w).tc t).status = (settled (executed (nextScript d t w).setUp ++ executed (nextScript d t w).body)).getD .none := by
  rw [afterBody, applyAll_status]
  show (settled _).getD ((markBegin env (afterSetUp env d t w) t).tc t).status = _
  rw [markBegin_status, afterSetUp, applyAll_status, settled_append]
  have : ((atSetUp d t w).tc t).status = .none := by simp [atSetUp, enter, World.setTc]
  rw [this]
  cases settled (executed (nextScript d t w).body) <;> simp

/-- Status given by line 219-221 to a test that is still NONE. -/
def orStream (errCaptured : Str) : Status → Status
  | .none => if errCaptured = [] then .success else .outOnError
  | s => s

theorem conclude_status (w : World) (t : Nat) : ((conclude w t).tc t).status = orStream (w.content (.capErr t)) (w.tc t).status := by
  unfold conclude
  cases h : (w.tc t).status with
  | none => rw [if_pos rfl]; simp [setStatus, World.setTc, orStream]
  | _ => rw [if_neg (by simp)]; rw [h]; rfl

theorem run_status (env : Env) (d : TestDef) (t : Nat) (w : World) :
    ((run env d t w).tc t).status =
      if (threw (nextScript d t w).setUp).isSome ∨ (threw (nextScript d t w).body).isSome ∨ (threw (nextScript d t w).tearDown).isSome then .error
      else (settled (executed (nextScript d t w).tearDown)).getD
        (orStream ((afterBody env d t w).content (.capErr t)) ((settled (executed (nextScript d t w).setUp ++ executed (nextScript d t w).body)).getD .none)) := by
  rw [run_eq]
  cases threw (nextScript d t w).setUp with
  | some e => simp [caught_status]
  | none =>
    cases threw (nextScript d t w).body with
    | some e => simp [caught_status]
    | none =>
      cases threw (nextScript d t w).tearDown with
      | some e => simp [caught_status]
      | none =>
        simp only [Option.isSome_none, Bool.false_eq_true, or_self, if_false]
        rw [afterTearDown, applyAll_status]
        show (settled _).getD ((conclude (markEnd env (afterBody env d t w) t) t).tc t).status = _
        rw [conclude_status, markEnd_status, afterBody_status]
        rfl

/-! Streams -/

theorem atSetUp_streams (d : TestDef) (t : Nat) (w : World) : (atSetUp d t w).cout = w.cout ∧ (atSetUp d t w).cerr = w.cerr ∧ (atSetUp d t w).content = w.content := by
  simp [atSetUp, enter, World.setTc]

structure Wrote (w w' : World) (o e : Str) : Prop where
  cout : w'.cout = w.cout
  cerr : w'.cerr = w.cerr
  content : ∀ b, w'.content b = w.content b ++ (if b = w.cout then o else []) ++ (if b = w.cerr then e else [])

theorem Wrote.trans {w w' w'' : World} {o e o' e' : Str} (h : Wrote w w' o e) (h' : Wrote w' w'' o' e') (hne : w.cout ≠ w.cerr) :
    Wrote w w'' (o ++ o') (e ++ e') := by
  refine ⟨by rw [h'.cout, h.cout], by rw [h'.cerr, h.cerr], fun b => ?_⟩
  rw [h'.content, h.content, h.cout, h.cerr]
  by_cases e1 : b = w.cout
  · subst e1; simp [hne]
  · by_cases e2 : b = w.cerr
    · subst e2; simp [e1]
    · simp [e1, e2]

theorem Wrote.same {w w' : World} (h1 : w'.cout = w.cout) (h2 : w'.cerr = w.cerr) (h3 : w'.content = w.content) : Wrote w w' [] [] :=
  ⟨h1, h2, fun b => by simp [h3]⟩

theorem Wrote.then {w w' w'' : World} {o e : Str} (h : Wrote w w' o e) (h1 : w''.cout = w'.cout) (h2 : w''.cerr = w'.cerr) (h3 : w''.content = w'.content) : Wrote w w'' o e :=
  ⟨by rw [h1, h.cout], by rw [h2, h.cerr], fun b => by rw [h3, h.content]⟩

theorem wrote_applyAll (env : Env) (t : Nat) (w : World) (as : List Act) (h : ∀ a ∈ as, a.keepsStreams = true) (hne : w.cout ≠ w.cerr) :
    Wrote w (applyAll env t w as) (outText as) (errText as) := by
  obtain ⟨h1, h2, h3⟩ := applyAll_streams env t w as h hne
  exact ⟨h1, h2, h3⟩

theorem wrote_afterSetUp (env : Env) (d : TestDef) (t : Nat) (w : World) (hk : (nextScript d t w).KeepsStreams) (hne : w.cout ≠ w.cerr) :
    Wrote w (afterSetUp env d t w) (outText (executed (nextScript d t w).setUp)) (errText (executed (nextScript d t w).setUp)) := by
  obtain ⟨h1, h2, h3⟩ := atSetUp_streams d t w
  have := (Wrote.same h1 h2 h3).trans (wrote_applyAll env t (atSetUp d t w) (executed (nextScript d t w).setUp)
    (fun a ha => hk a (by simp [executed_sub _ a ha])) (by rw [h1, h2]; exact hne)) hne
  exact this

theorem wrote_afterBody (env : Env) (d : TestDef) (t : Nat) (w : World) (hk : (nextScript d t w).KeepsStreams) (hne : w.cout ≠ w.cerr) :
    Wrote w (afterBody env d t w) (outText (executed (nextScript d t w).setUp ++ executed (nextScript d t w).body))
      (errText (executed (nextScript d t w).setUp ++ executed (nextScript d t w).body)) := by
  have h0 := wrote_afterSetUp env d t w hk hne
  have h1 := h0.then (w'' := enter (markBegin env (afterSetUp env d t w) t) (.body t)) rfl rfl rfl
  have := h1.trans (wrote_applyAll env t _ (executed (nextScript d t w).body) (fun a ha => hk a (by simp [executed_sub _ a ha])) (by rw [h1.cout, h1.cerr]; exact hne)) hne
  rw [outText_append, errText_append]
  exact this

theorem wrote_afterTearDown (env : Env) (d : TestDef) (t : Nat) (w : World) (hk : (nextScript d t w).KeepsStreams) (hne : w.cout ≠ w.cerr) :
    Wrote w (afterTearDown env d t w) (outText (nextScript d t w).all) (errText (nextScript d t w).all) := by
  have h0 := wrote_afterBody env d t w hk hne
  obtain ⟨c1, c2, c3, _⟩ := conclude_misc (markEnd env (afterBody env d t w) t) t
  have h1 := h0.then (w'' := enter (conclude (markEnd env (afterBody env d t w) t) t) (.tearDown t)) c1 c2 c3
  have := h1.trans (wrote_applyAll env t _ (executed (nextScript d t w).tearDown) (fun a ha => hk a (by simp [executed_sub _ a ha])) (by rw [h1.cout, h1.cerr]; exact hne)) hne
  rw [Script.all, outText_append, errText_append]
  exact this

theorem wrote_run (env : Env) (d : TestDef) (t : Nat) (w : World) (hk : (nextScript d t w).KeepsStreams) (hne : w.cout ≠ w.cerr) :
    Wrote w (run env d t w) (outText (nextScript d t w).done) (errText (nextScript d t w).done) := by
  have cg : ∀ w' o e x, Wrote w w' o e → Wrote w (caught env w' t x) o e := by
    intro w' o e x h
    obtain ⟨c1, c2, c3, _⟩ := caught_misc env w' t x
    have := h.trans (Wrote.same (w' := caught env w' t x) c1 c2 c3) hne
    simpa using this
  rw [run_eq]
  cases h1 : threw (nextScript d t w).setUp with
  | some e =>
    have := cg _ _ _ e (wrote_afterSetUp env d t w hk hne)
    simpa [Script.done, h1] using this
  | none =>
    cases h2 : threw (nextScript d t w).body with
    | some e =>
      have := cg _ _ _ e (wrote_afterBody env d t w hk hne)
      simpa [Script.done, h1, h2] using this
    | none =>
      have h := wrote_afterTearDown env d t w hk hne
      cases h3 : threw (nextScript d t w).tearDown with
      | some e =>
        have := cg _ _ _ e h
        simpa [Script.done, Script.all, h1, h2] using this
      | none =>
        simpa [Script.done, Script.all, h1, h2] using h

/-! Trace -/

theorem run_tr (env : Env) (d : TestDef) (t : Nat) (w : World) : (run env d t w).tr = w.tr ++ ([.setUp t] ++ stepsOf t (executed (nextScript d t w).setUp) ++
    (if (threw (nextScript d t w).setUp).isSome then [] else [.body t] ++ stepsOf t (executed (nextScript d t w).body) ++
      (if (threw (nextScript d t w).body).isSome then [] else [.tearDown t] ++ stepsOf t (executed (nextScript d t w).tearDown)))) := by
  have a1 : (afterSetUp env d t w).tr = w.tr ++ ([.setUp t] ++ stepsOf t (executed (nextScript d t w).setUp)) := by
    rw [afterSetUp, applyAll_tr]; simp [atSetUp, enter, World.setTc]
  have a2 : (afterBody env d t w).tr = w.tr ++ ([.setUp t] ++ stepsOf t (executed (nextScript d t w).setUp) ++ ([.body t] ++ stepsOf t (executed (nextScript d t w).body))) := by
    rw [afterBody, applyAll_tr]
    show (afterSetUp env d t w).tr ++ [.body t] ++ _ = _
    rw [a1]; simp
  have a3 : (afterTearDown env d t w).tr = w.tr ++ ([.setUp t] ++ stepsOf t (executed (nextScript d t w).setUp) ++ ([.body t] ++ stepsOf t (executed (nextScript d t w).body) ++ ([.tearDown t] ++ stepsOf t (executed (nextScript d t w).tearDown)))) := by
    rw [afterTearDown, applyAll_tr]
    show (conclude (markEnd env (afterBody env d t w) t) t).tr ++ [.tearDown t] ++ _ = _
    rw [(conclude_misc _ _).2.2.2.1]
    show (afterBody env d t w).tr ++ [.tearDown t] ++ _ = _
    rw [a2]; simp
  rw [run_eq]
  cases h1 : threw (nextScript d t w).setUp with
  | some e => simp [(caught_misc _ _ _ _).2.2.2, a1]
  | none =>
    cases h2 : threw (nextScript d t w).body with
    | some e => simp [(caught_misc _ _ _ _).2.2.2, a2]
    | none =>
      cases h3 : threw (nextScript d t w).tearDown with
      | some e => simp [(caught_misc _ _ _ _).2.2.2, a3]
      | none => simp [a3]

end Falcon.Fut
