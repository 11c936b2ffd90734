import Verif.Proofs.TestCase
/- C83, C84, C90, C91, C99, C101: single test cases. -/
namespace Falcon.Fut

theorem begin_streams (t : Nat) (w : World) : (beginTest true t w).cout = .capOut t ∧ (beginTest true t w).cerr = .capErr t ∧ (beginTest true t w).content = w.content := by
  simp [beginTest, setStatus, World.setTc]

theorem begin_runs (c : Bool) (t : Nat) (w : World) : ((beginTest c t w).tc t).runs = (w.tc t).runs := by
  cases c <;> simp [beginTest, setStatus, World.setTc]

theorem begin_bufs (t : Nat) (w : World) : ((beginTest true t w).tc t).outbuf = some w.cout ∧ ((beginTest true t w).tc t).errbuf = some w.cerr := by
  simp [beginTest, setStatus, World.setTc]

/-- endTest when beginTest saved the buffers. -/
theorem endTest_ok (t : Nat) (w : World) (o e : Buf) (ho : (w.tc t).outbuf = some o) (he : (w.tc t).errbuf = some e) :
    endTest true t w = .ok { w.setTc t { w.tc t with outStr := w.content (.capOut t), errStr := w.content (.capErr t) } with cout := o, cerr := e } := by
  unfold endTest
  rw [if_pos rfl, ho, he]

theorem begin_script (d : TestDef) (c : Bool) (t : Nat) (w : World) : nextScript d t (beginTest c t w) = nextScript d t w := by
  simp only [nextScript, begin_runs]

theorem settled_checksOnly (as : List Act) (h : ∀ a ∈ as, a.checksOnly = true) :
    (settled as = none ∧ ∀ a ∈ as, a.sets = none) ∨ (settled as = some .fail ∧ ∃ a ∈ as, a.sets = some .fail) := by
  induction as with
  | nil => left; simp [settled]
  | cons a as ih =>
    rw [settled_cons]
    have ha : a.sets = none ∨ a.sets = some .fail := by
      have := h a (by simp)
      cases a with
      | setStatus s => cases this
      | failCall => exact .inr rfl
      | _ => simp only [Act.sets]; split <;> simp
    rcases ih (fun b hb => h b (by simp [hb])) with ⟨h1, h2⟩ | ⟨h1, b, hb, h2⟩
    · rcases ha with ha | ha
      · left; exact ⟨by rw [h1, ha]; rfl, by intro b hb; simp at hb; rcases hb with rfl | hb; exact ha; exact h2 b hb⟩
      · right; exact ⟨by rw [h1, ha]; rfl, a, by simp, ha⟩
    · right; exact ⟨by rw [h1]; rfl, b, by simp [hb], h2⟩

theorem script_sub_setUp {sc : Script} {a : Act} (h : a ∈ executed sc.setUp) : a ∈ sc.setUp ++ sc.body ++ sc.tearDown := by simp [executed_sub _ a h]
theorem script_sub_body {sc : Script} {a : Act} (h : a ∈ executed sc.body) : a ∈ sc.setUp ++ sc.body ++ sc.tearDown := by simp [executed_sub _ a h]
theorem script_sub_tearDown {sc : Script} {a : Act} (h : a ∈ executed sc.tearDown) : a ∈ sc.setUp ++ sc.body ++ sc.tearDown := by simp [executed_sub _ a h]

/-! ### C83 -/

/-- C83 does not hold: what TearDown writes on stderr is captured but does not count, and what an
earlier run wrote counts although this run wrote nothing. -/
theorem C83_streams_refuted :
    (let d : TestDef := ⟨[], [], fun _ => { tearDown := [.err ['x']] }⟩
     let w := run {} d 0 (beginTest true 0 {})
     (w.tc 0).status = .success ∧ w.content (.capErr 0) = ['x']) ∧
    (let d : TestDef := ⟨[], [], fun k => if k = 0 then { body := [.err ['x']] } else {}⟩
     let w := run {} d 0 (beginTest true 0 (run {} d 0 (beginTest true 0 {})))
     (w.tc 0).status = .outOnError) := by
  constructor
  · exact ⟨by rfl, by rfl⟩
  · rfl

/-- C83 (exact): the status after run() of any test that does not exchange the streams, for any history.
The standard error text that counts is what SetUp and test() wrote, in this or any earlier run (plus
what TearDown wrote in earlier runs). -/
theorem C83_status_exact_partial (env : Env) (d : TestDef) (t : Nat) (w : World) (hk : (nextScript d t w).KeepsStreams) :
    let sc := nextScript d t w
    ((run env d t (beginTest true t w)).tc t).status =
      if (threw sc.setUp).isSome ∨ (threw sc.body).isSome ∨ (threw sc.tearDown).isSome then .error
      else (settled (executed sc.tearDown)).getD
        (match (settled (executed sc.setUp ++ executed sc.body)).getD .none with
         | .none => if w.content (.capErr t) = [] ∧ errText (executed sc.setUp ++ executed sc.body) = [] then .success else .outOnError
         | s => s) := by
  intro sc
  rw [run_status, begin_script]
  obtain ⟨b1, b2, b3⟩ := begin_streams t w
  have hw := wrote_afterBody env d t (beginTest true t w) (by rw [begin_script]; exact hk) (by rw [b1, b2]; simp)
  have hc := hw.content (.capErr t)
  rw [b1, b2, b3, begin_script] at hc
  simp only [if_true, reduceCtorEq, if_false, List.append_nil] at hc
  rw [hc]
  have : ∀ s, orStream (w.content (.capErr t) ++ errText (executed (nextScript d t w).setUp ++ executed (nextScript d t w).body)) s =
      (match s with
         | .none => if w.content (.capErr t) = [] ∧ errText (executed sc.setUp ++ executed sc.body) = [] then .success else .outOnError
         | s => s) := by
    intro s; cases s <;> simp [orStream, sc]
  rw [this]

/-- C83 for tests that use checks only: ERROR iff something threw; otherwise FAIL iff a check failed that
was executed; otherwise OUT_ON_ERROR_STREAM iff SetUp or test() wrote on stderr or an earlier run did;
otherwise SUCCESS. -/
theorem C83_status_partial (env : Env) (d : TestDef) (t : Nat) (w : World) (hk : (nextScript d t w).KeepsStreams) (hc : (nextScript d t w).ChecksOnly) :
    let sc := nextScript d t w
    let st := ((run env d t (beginTest true t w)).tc t).status
    (st = .error ↔ sc.throws) ∧
    (st = .fail ↔ ¬ sc.throws ∧ ∃ a ∈ sc.all, a.sets = some .fail) ∧
    (st = .outOnError ↔ ¬ sc.throws ∧ (∀ a ∈ sc.all, a.sets = none) ∧
      (w.content (.capErr t) ≠ [] ∨ errText (executed sc.setUp ++ executed sc.body) ≠ [])) ∧
    (st = .success ↔ ¬ sc.throws ∧ (∀ a ∈ sc.all, a.sets = none) ∧
      w.content (.capErr t) = [] ∧ errText (executed sc.setUp ++ executed sc.body) = []) := by
  intro sc st
  have hst : st = _ := C83_status_exact_partial env d t w hk
  have hthr : ((threw sc.setUp).isSome ∨ (threw sc.body).isSome ∨ (threw sc.tearDown).isSome) ↔ sc.throws := by
    simp [Script.throws]
  have hst2 : st = (if sc.throws then .error else (settled (executed sc.tearDown)).getD
        (match (settled (executed sc.setUp ++ executed sc.body)).getD .none with
         | .none => if w.content (.capErr t) = [] ∧ errText (executed sc.setUp ++ executed sc.body) = [] then .success else .outOnError
         | s => s)) := by
    rw [hst]
    by_cases h : sc.throws
    · rw [if_pos h, if_pos (hthr.2 h)]
    · rw [if_neg h, if_neg (fun x => h (hthr.1 x))]
  clear_value st
  by_cases ht : sc.throws
  · rw [if_pos ht] at hst2
    simp [hst2, ht]
  · rw [if_neg ht] at hst2
    have c1 := settled_checksOnly (executed sc.setUp ++ executed sc.body) (fun a ha => by
      simp at ha
      rcases ha with ha | ha
      · exact hc a (script_sub_setUp ha)
      · exact hc a (script_sub_body ha))
    have c2 := settled_checksOnly (executed sc.tearDown) (fun a ha => hc a (script_sub_tearDown ha))
    rcases c2 with ⟨e2, n2⟩ | ⟨e2, b, hb, hbs⟩
    · rw [e2] at hst2
      simp only [Option.getD_none] at hst2
      rcases c1 with ⟨e1, n1⟩ | ⟨e1, b, hb, hbs⟩
      · rw [e1] at hst2
        simp only [Option.getD_none] at hst2
        have hall : ∀ a ∈ sc.all, a.sets = none := by
          intro a ha; simp only [Script.all, List.mem_append] at ha
          rcases ha with ha | ha
          · exact n1 a (by simpa using ha)
          · exact n2 a ha
        have hno : ¬ ∃ a ∈ sc.all, a.sets = some .fail := by
          rintro ⟨a, ha, h⟩; rw [hall a ha] at h; cases h
        by_cases hx : w.content (.capErr t) = [] ∧ errText (executed sc.setUp ++ executed sc.body) = []
        · rw [if_pos hx] at hst2
          have hn : ¬ (w.content (.capErr t) ≠ [] ∨ errText (executed sc.setUp ++ executed sc.body) ≠ []) := by
            rintro (h | h); exact h hx.1; exact h hx.2
          refine ⟨by simp [hst2, ht], ?_, ?_, ?_⟩
          · constructor
            · intro h; rw [hst2] at h; cases h
            · intro h; exact absurd h.2 hno
          · constructor
            · intro h; rw [hst2] at h; cases h
            · intro h; exact absurd h.2.2 hn
          · exact ⟨fun _ => ⟨ht, hall, hx⟩, fun _ => hst2⟩
        · rw [if_neg hx] at hst2
          refine ⟨by simp [hst2, ht], ?_, ?_, ?_⟩
          · constructor
            · intro h; rw [hst2] at h; cases h
            · intro h; exact absurd h.2 hno
          · refine ⟨fun _ => ⟨ht, hall, ?_⟩, fun _ => hst2⟩
            by_cases h1 : w.content (.capErr t) = []
            · right; intro h2; exact hx ⟨h1, h2⟩
            · left; exact h1
          · constructor
            · intro h; rw [hst2] at h; cases h
            · intro h; exact absurd h.2.2 hx
      · rw [e1] at hst2
        simp only [Option.getD_some] at hst2
        have hin : b ∈ sc.all := by simp only [Script.all, List.mem_append]; exact .inl (by simpa using hb)
        have hno : ¬ ∀ a ∈ sc.all, a.sets = none := fun h => by rw [h b hin] at hbs; cases hbs
        refine ⟨by simp [hst2, ht], ⟨fun _ => ⟨ht, b, hin, hbs⟩, fun _ => hst2⟩, ?_, ?_⟩
        · constructor
          · intro h; rw [hst2] at h; cases h
          · intro h; exact absurd h.2.1 hno
        · constructor
          · intro h; rw [hst2] at h; cases h
          · intro h; exact absurd h.2.1 hno
    · rw [e2] at hst2
      simp only [Option.getD_some] at hst2
      have hin : b ∈ sc.all := by simp only [Script.all, List.mem_append]; exact .inr hb
      have hno : ¬ ∀ a ∈ sc.all, a.sets = none := fun h => by rw [h b hin] at hbs; cases hbs
      refine ⟨by simp [hst2, ht], ⟨fun _ => ⟨ht, b, hin, hbs⟩, fun _ => hst2⟩, ?_, ?_⟩
      · constructor
        · intro h; rw [hst2] at h; cases h
        · intro h; exact absurd h.2.1 hno
      · constructor
        · intro h; rw [hst2] at h; cases h
        · intro h; exact absurd h.2.1 hno

/-- Non-vacuity: a test with a failing check behind output. -/
example : (Script.mk [] [.out ['a'], .check false ['f'] 3 ['x'] []] []).KeepsStreams ∧ (Script.mk [] [.out ['a'], .check false ['f'] 3 ['x'] []] []).ChecksOnly := by
  constructor <;> (intro a ha; simp at ha; rcases ha with rfl | rfl <;> rfl)

/-! ### C84 -/

/-- C84 does not hold: when test() throws, TearDown is not called although SetUp completed. -/
theorem C84_teardown_refuted :
    let d : TestDef := ⟨[], [], fun _ => { body := [.thrw .other] }⟩
    (run {} d 0 {}).tr = [.setUp 0, .body 0] := by rfl

/-- C84 (exact): SetUp is entered first; test() iff SetUp did not throw; TearDown iff neither did; in this
order, each once, in every run of every test. -/
theorem C84_order_partial (env : Env) (d : TestDef) (t : Nat) (w : World) :
    let sc := nextScript d t w
    ∃ new, (run env d t w).tr = w.tr ++ new ∧
      new.filter (fun e => match e with | .step _ _ => false | _ => true) =
        [.setUp t] ++ (if threw sc.setUp = none then [.body t] ++ (if threw sc.body = none then [.tearDown t] else []) else []) := by
  intro sc
  have hs : ∀ as, (stepsOf t as).filter (fun e => match e with | .step _ _ => false | _ => true) = [] := by
    intro as
    apply List.filter_eq_nil_iff.2
    intro e he
    simp only [stepsOf, List.mem_filterMap] at he
    obtain ⟨a, _, ha⟩ := he
    cases a <;> simp at ha
    subst ha; simp
  refine ⟨_, run_tr env d t w, ?_⟩
  simp only [List.filter_append, hs]
  show _ = [Ev.setUp t] ++ (if threw (nextScript d t w).setUp = none then [.body t] ++ (if threw (nextScript d t w).body = none then [.tearDown t] else []) else [])
  cases h1 : threw (nextScript d t w).setUp <;> cases h2 : threw (nextScript d t w).body <;> simp [hs]

/-! ### C91 -/

/-- C91 does not hold with capture off (-c): a test that exchanges cout's buffer leaves it so. -/
theorem C91_no_capture_refuted :
    let d : TestDef := ⟨[], [], fun _ => { body := [.redirOut (.other 0)] }⟩
    (endTest false 0 (run {} d 0 (beginTest false 0 {}))).toOption.map World.cout = some (.other 0) := by rfl

/-- C91: with capture on, after endTest both streams write where they wrote before beginTest, whatever the
test did (throw, fail, exchange the buffers), and endTest never fails. -/
theorem C91_restored_partial (env : Env) (d : TestDef) (t : Nat) (w : World) :
    ∃ w', endTest true t (run env d t (beginTest true t w)) = .ok w' ∧ w'.cout = w.cout ∧ w'.cerr = w.cerr := by
  have hb := run_bufs env d t (beginTest true t w)
  obtain ⟨h1, h2⟩ := begin_bufs t w
  simp only [Tc.bufs, Prod.mk.injEq] at hb
  obtain ⟨_, _, b3, b4, _⟩ := hb
  rw [h1] at b3; rw [h2] at b4
  exact ⟨_, endTest_ok t _ _ _ b3 b4, rfl, rfl⟩

/-- C91: what a test that does not exchange the buffers writes is in capturedOut/capturedErr, behind what
its earlier runs wrote; nothing of it reaches any other buffer. -/
theorem C91_captured_partial (env : Env) (d : TestDef) (t : Nat) (w : World) (hk : (nextScript d t w).KeepsStreams) :
    ∃ w', endTest true t (run env d t (beginTest true t w)) = .ok w' ∧
      (w'.tc t).outStr = w.content (.capOut t) ++ outText (nextScript d t w).done ∧
      (w'.tc t).errStr = w.content (.capErr t) ++ errText (nextScript d t w).done ∧
      w'.content (.capOut t) = (w'.tc t).outStr ∧ w'.content (.capErr t) = (w'.tc t).errStr ∧
      ∀ b, b ≠ .capOut t → b ≠ .capErr t → w'.content b = w.content b := by
  have hb := run_bufs env d t (beginTest true t w)
  obtain ⟨h1, h2⟩ := begin_bufs t w
  simp only [Tc.bufs, Prod.mk.injEq] at hb
  obtain ⟨_, _, b3, b4, _⟩ := hb
  rw [h1] at b3; rw [h2] at b4
  obtain ⟨s1, s2, s3⟩ := begin_streams t w
  have hw := wrote_run env d t (beginTest true t w) (by rw [begin_script]; exact hk) (by rw [s1, s2]; simp)
  have hc := hw.content
  rw [s1, s2, s3, begin_script] at hc
  refine ⟨_, endTest_ok t _ _ _ b3 b4, ?_, ?_, ?_, ?_, ?_⟩
  · simp [World.setTc]; rw [hc]; simp
  · simp [World.setTc]; rw [hc]; simp
  · simp [World.setTc]
  · simp [World.setTc]
  · intro b n1 n2
    show (run env d t (beginTest true t w)).content b = _
    rw [hc]; simp [n1, n2]

/-! ### C90 -/

/-- One test performed as the runner does it. -/
def performOnce (env : Env) (d : TestDef) (t : Nat) (w : World) : Res World := endTest true t (run env d t (beginTest true t w))

/-- The test performed n+1 times: the status it has after each. -/
def statuses (env : Env) (d : TestDef) (t : Nat) (w : World) : Nat → List Status
  | 0 => []
  | n + 1 => match performOnce env d t w with
    | .ok w' => (w'.tc t).status :: statuses env d t w' n
    | .error _ => []

/-- C90 does not hold: a test that always does the same, writing on stderr in TearDown only, passes the
first time and fails from the second time on. -/
theorem C90_teardown_refuted :
    let d : TestDef := ⟨[], [], fun _ => { tearDown := [.err ['x']] }⟩
    statuses {} d 0 {} 3 = [.success, .outOnError, .outOnError] := by decide

theorem endTest_status (env : Env) (d : TestDef) (t : Nat) (w : World) : ∃ w', performOnce env d t w = .ok w' ∧
    (w'.tc t).status = ((run env d t (beginTest true t w)).tc t).status ∧ (w'.tc t).runs = (w.tc t).runs + 1 ∧ w'.content = (run env d t (beginTest true t w)).content := by
  have hb := run_bufs env d t (beginTest true t w)
  obtain ⟨h1, h2⟩ := begin_bufs t w
  simp only [Tc.bufs, Prod.mk.injEq] at hb
  obtain ⟨_, _, b3, b4, b5⟩ := hb
  rw [h1] at b3; rw [h2] at b4; rw [begin_runs] at b5
  refine ⟨_, endTest_ok t _ _ _ b3 b4, ?_, ?_, rfl⟩
  · simp [World.setTc]
  · simp [World.setTc]; exact b5

/-- C90 (what holds): a test that always does the same and writes nothing on stderr in TearDown (or in a
function that then throws) has the same status every time it is performed, starting from the first. -/
theorem C90_same_verdict_partial (env : Env) (d : TestDef) (t : Nat) (w : World) (sc : Script) (hd : ∀ k, d.script k = sc) (hk : sc.KeepsStreams)
    (hw : w.content (.capErr t) = []) (htd : sc.throws ∨ errText (executed sc.tearDown) = []) (n : Nat) :
    ∃ s, ∀ x ∈ statuses env d t w n, x = s := by
  have hsc : ∀ w, nextScript d t w = sc := fun w => hd _
  -- the status, given what was captured before
  let f := fun (clean : Bool) => if (threw sc.setUp).isSome ∨ (threw sc.body).isSome ∨ (threw sc.tearDown).isSome then Status.error
      else (settled (executed sc.tearDown)).getD
        (match (settled (executed sc.setUp ++ executed sc.body)).getD .none with
         | .none => if clean = true ∧ errText (executed sc.setUp ++ executed sc.body) = [] then .success else .outOnError
         | s => s)
  have hf : ∀ w, ((run env d t (beginTest true t w)).tc t).status = f (decide (w.content (.capErr t) = [])) := by
    intro w
    have := C83_status_exact_partial env d t w (by rw [hsc]; exact hk)
    simp only [hsc] at this
    rw [this]; simp [f]
  by_cases ht : sc.throws
  · refine ⟨.error, ?_⟩
    have hfe : ∀ c, f c = .error := fun c => by
      simp only [f]; rw [if_pos]; simpa [Script.throws] using ht
    clear hw
    induction n generalizing w with
    | zero => simp [statuses]
    | succ n ih =>
      obtain ⟨w', e, e2, _, _⟩ := endTest_status env d t w
      simp only [statuses, e]
      intro x hx
      simp at hx
      rcases hx with rfl | hx
      · rw [e2, hf, hfe]
      · exact ih w' x hx
  · have htd' : errText (executed sc.tearDown) = [] := by rcases htd with h | h; exact absurd h ht; exact h
    have hnt : threw sc.setUp = none ∧ threw sc.body = none ∧ threw sc.tearDown = none := by
      simp only [Script.throws, not_or, Bool.not_eq_true, Option.isSome_eq_false_iff, Option.isNone_iff_eq_none] at ht
      exact ht
    by_cases he : errText (executed sc.setUp ++ executed sc.body) = []
    · -- nothing is ever captured
      refine ⟨f true, ?_⟩
      induction n generalizing w with
      | zero => simp [statuses]
      | succ n ih =>
        obtain ⟨w', e, e2, e3, e4⟩ := endTest_status env d t w
        simp only [statuses, e]
        intro x hx
        simp at hx
        rcases hx with rfl | hx
        · rw [e2, hf, hw]; rfl
        · refine ih w' ?_ x hx
          obtain ⟨w2, g, _, g2, _, g4, _⟩ := C91_captured_partial env d t w (by rw [hsc]; exact hk)
          have : w2 = w' := by unfold performOnce at e; rw [g] at e; cases e; rfl
          subst this
          rw [g4, g2, hw, hsc]
          rw [errText_append] at he
          have h12 := List.append_eq_nil_iff.1 he
          simp [Script.done, hnt, errText_append, h12.1, h12.2, htd']
    · have hff : ∀ c, f c = f false := by
        intro c; simp only [f]
        split
        · rfl
        · congr 1; split <;> simp [he]
      refine ⟨f false, ?_⟩
      clear hw
      induction n generalizing w with
      | zero => simp [statuses]
      | succ n ih =>
        obtain ⟨w', e, e2, _, _⟩ := endTest_status env d t w
        simp only [statuses, e]
        intro x hx
        simp at hx
        rcases hx with rfl | hx
        · rw [e2, hf, hff]
        · exact ih w' x hx

/-- C90, exactly: a test that always does the same, performed for the first time with nothing captured, has the same status every time, if and only if
it throws, or TearDown writes nothing on stderr, or SetUp or test() already do, or the status is settled by a check or by the test itself. -/
theorem C90_exact_partial (env : Env) (d : TestDef) (t : Nat) (w : World) (sc : Script) (hd : ∀ k, d.script k = sc) (hk : sc.KeepsStreams)
    (hw : w.content (.capErr t) = []) :
    (∀ n, ∃ s, ∀ x ∈ statuses env d t w n, x = s) ↔
      (sc.throws ∨ errText (executed sc.tearDown) = [] ∨ errText (executed sc.setUp ++ executed sc.body) ≠ [] ∨
        (settled (executed sc.tearDown)).isSome ∨ (settled (executed sc.setUp ++ executed sc.body)).getD .none ≠ .none) := by
  have hsc : ∀ w, nextScript d t w = sc := fun w => hd _
  constructor
  · intro H
    by_cases ht : sc.throws
    · exact .inl ht
    by_cases h2 : errText (executed sc.tearDown) = []
    · exact .inr (.inl h2)
    by_cases h3 : errText (executed sc.setUp ++ executed sc.body) ≠ []
    · exact .inr (.inr (.inl h3))
    replace h3 := Decidable.not_not.1 h3
    by_cases h4 : (settled (executed sc.tearDown)).isSome
    · exact .inr (.inr (.inr (.inl h4)))
    by_cases h5 : (settled (executed sc.setUp ++ executed sc.body)).getD .none ≠ .none
    · exact .inr (.inr (.inr (.inr h5)))
    replace h5 := Decidable.not_not.1 h5
    exfalso
    obtain ⟨s, hs⟩ := H 2
    obtain ⟨w1, e, e2, -, -⟩ := endTest_status env d t w
    obtain ⟨w2, g, g2, -, -⟩ := endTest_status env d t w1
    simp only [statuses, e, g] at hs
    have heq : (w1.tc t).status = (w2.tc t).status := (hs _ (by simp)).trans (hs _ (by simp)).symm
    have hnt : ¬ ((threw sc.setUp).isSome ∨ (threw sc.body).isSome ∨ (threw sc.tearDown).isSome) := by simpa [Script.throws] using ht
    have h4' : settled (executed sc.tearDown) = none := by simpa using h4
    have c1 : w1.content (.capErr t) ≠ [] := by
      obtain ⟨w3, k, _, k2, _, k4, _⟩ := C91_captured_partial env d t w (by rw [hsc]; exact hk)
      have : w3 = w1 := by unfold performOnce at e; rw [k] at e; cases e; rfl
      subst this
      rw [k4, k2, hw, hsc]
      have hnt' : threw sc.setUp = none ∧ threw sc.body = none ∧ threw sc.tearDown = none := by
        simp only [not_or, Bool.not_eq_true, Option.isSome_eq_false_iff, Option.isNone_iff_eq_none] at hnt
        exact hnt
      simp [Script.done, hnt', errText_append, h2]
    have s1 := C83_status_exact_partial env d t w (by rw [hsc]; exact hk)
    have s2 := C83_status_exact_partial env d t w1 (by rw [hsc]; exact hk)
    simp only [hsc, if_neg hnt, h4', Option.getD_none, h5] at s1 s2
    rw [if_pos ⟨hw, h3⟩] at s1
    rw [if_neg (fun h => c1 h.1)] at s2
    rw [e2, g2, s1, s2] at heq
    cases heq
  · intro H n
    rcases H with h | h | H
    · exact C90_same_verdict_partial env d t w sc hd hk hw (.inl h) n
    · exact C90_same_verdict_partial env d t w sc hd hk hw (.inr h) n
    have hconst : ∃ s, ∀ w, ((run env d t (beginTest true t w)).tc t).status = s := by
      have hs := fun w => C83_status_exact_partial env d t w (by rw [hsc]; exact hk)
      simp only [hsc] at hs
      by_cases ht : (threw sc.setUp).isSome ∨ (threw sc.body).isSome ∨ (threw sc.tearDown).isSome
      · exact ⟨.error, fun w => by rw [hs, if_pos ht]⟩
      rcases H with h | h | h
      · refine ⟨(settled (executed sc.tearDown)).getD
            (match (settled (executed sc.setUp ++ executed sc.body)).getD .none with | .none => .outOnError | s => s), fun w => ?_⟩
        rw [hs, if_neg ht]
        congr 1
        split <;> simp [h]
      · obtain ⟨s, h⟩ := Option.isSome_iff_exists.1 h
        exact ⟨s, fun w => by rw [hs, if_neg ht, h]; rfl⟩
      · refine ⟨(settled (executed sc.tearDown)).getD ((settled (executed sc.setUp ++ executed sc.body)).getD .none), fun w => ?_⟩
        rw [hs, if_neg ht]
        congr 1
        split
        · rename_i h'; exact absurd h' h
        · rfl
    obtain ⟨s, hs⟩ := hconst
    refine ⟨s, ?_⟩
    clear hw
    induction n generalizing w with
    | zero => simp [statuses]
    | succ n ih =>
      obtain ⟨w', e, e2, _, _⟩ := endTest_status env d t w
      simp only [statuses, e]
      intro x hx
      simp at hx
      rcases hx with rfl | hx
      · rw [e2, hs]
      · exact ih w' x hx

/-- Non-vacuity: the statuses of a failing test, three times. -/
example : statuses {} ⟨[], [], fun _ => { body := [.err ['x'], .check false ['f'] 3 ['x'] []] }⟩ 0 {} 3 = [.fail, .fail, .fail] := by decide

/-- Non-vacuity of C90_exact_partial: a test on either side. -/
example : let good : Script := { body := [.check false ['f'] 3 ['x'] []], tearDown := [.err ['x']] }
    let bad : Script := { tearDown := [.err ['x']] }
    (∀ n, ∃ s, ∀ x ∈ statuses {} ⟨[], [], fun _ => good⟩ 0 {} n, x = s) ∧ ¬ (∀ n, ∃ s, ∀ x ∈ statuses {} ⟨[], [], fun _ => bad⟩ 0 {} n, x = s) := by
  refine ⟨(C90_exact_partial {} ⟨[], [], fun _ => _⟩ 0 {} _ (fun _ => rfl) (by simp [Script.KeepsStreams, Act.keepsStreams]) rfl).2 (by decide), fun H => ?_⟩
  exact absurd ((C90_exact_partial {} ⟨[], [], fun _ => _⟩ 0 {} _ (fun _ => rfl) (by simp [Script.KeepsStreams, Act.keepsStreams]) rfl).1 H) (by decide)

/-! ### C101 -/

/-- C101 does not hold: FAIL does not end the test, and the last failure is the one reported. -/
theorem C101_fail_refuted :
    let d : TestDef := ⟨[], [], fun _ => { body := [.failNow ['f'] 1 ['a'], .step 7, .failNow ['f'] 2 ['b']] }⟩
    let w := run {} d 0 {}
    w.tr = [.setUp 0, .body 0, .step 0 7, .tearDown 0] ∧ (w.tc 0).failDesc = ['b'] ∧ (w.tc 0).failLine = some 2 := by
  decide

/-- What is reported of a statement: base name of the file, line, message. -/
def Act.report (sep : Char) : Act → Option (Str × Int × Str)
  | .failCall f l m => some (f, l, m)
  | a => a.failed.map fun x => (lastPart sep x.1, x.2)

def Tc.failure (c : Tc) : Str × Option Int × Str := (c.failFile, c.failLine, c.failDesc)

theorem takeWhile_all {α : Type} (p : α → Bool) (l : List α) (h : ∀ x ∈ l, p x = true) : l.takeWhile p = l := by
  induction l with
  | nil => rfl
  | cons c cs ih => rw [List.takeWhile_cons, if_pos (h c (by simp)), ih (fun x hx => h x (by simp [hx]))]

theorem of_mem_takeWhile {α : Type} (p : α → Bool) (l : List α) {x : α} (h : x ∈ l.takeWhile p) : p x = true := by
  induction l with
  | nil => cases h
  | cons c cs ih =>
    rw [List.takeWhile_cons] at h
    split at h
    · rcases List.mem_cons.1 h with rfl | h
      · assumption
      · exact ih h
    · cases h

theorem lastPart_eq (sep : Char) (f : Str) : lastPart sep f = baseName sep f := by
  unfold baseName
  induction f with
  | nil => rfl
  | cons c cs ih =>
    rw [lastPart]
    split
    · rename_i h
      rw [ih, List.reverse_cons, List.takeWhile_append]
      split
      · rename_i h2
        have e2 := (List.takeWhile_sublist _).eq_of_length h2
        have hall : sep ∉ cs := by
          intro hx
          have hm : sep ∈ cs.reverse.takeWhile (· ≠ sep) := by rw [e2]; simpa using hx
          simpa using of_mem_takeWhile _ _ hm
        have hc : c = sep := by
          rcases List.mem_cons.1 h with h | h
          · exact h.symm
          · exact absurd h hall
        rw [e2]
        simp [hc]
      · rfl
    · rename_i h
      rw [takeWhile_all _ _ (fun x hx => by
        have : x ≠ sep := fun e => h (by rw [← e]; exact List.mem_reverse.1 hx)
        simpa using this), List.reverse_reverse]

theorem failed_check (ok : Bool) (f : Str) (l : Int) (e x : Str) : (Act.check ok f l e x).failed =
    if ok then none else some (f, l, if visible x = [] then e else e ++ txtActually ++ visible x ++ txtClose) := by cases ok <;> rfl
theorem cstr_visible (s : Str) : cstr s = visible s := by
  unfold cstr
  induction s with
  | nil => rfl
  | cons c cs ih => rw [List.takeWhile_cons, visible]; by_cases h : c = '\x00' <;> simp [h, ← ih]
@[simp] theorem cstr_nil : cstr [] = [] := rfl
theorem failed_throw (c : Bool) (f : Str) (l : Int) (ty : Str) : (Act.expectThrow none c f l ty).failed = some (f, l, txtExpected ++ ty ++ txtNotThrown) := rfl
theorem failed_throw' (x : Exc) (c : Bool) (f : Str) (l : Int) (ty : Str) : (Act.expectThrow (some x) c f l ty).failed = none := rfl
theorem failed_any (f : Str) (l : Int) : (Act.expectAnyThrow none f l).failed = some (f, l, txtNoThrow) := rfl
theorem failed_any' (x : Exc) (f : Str) (l : Int) : (Act.expectAnyThrow (some x) f l).failed = none := rfl
theorem failed_std (what f : Str) (l : Int) : (Act.expectNoThrow (some (.std what)) f l).failed = some (f, l, txtExc ++ what ++ txtQuote) := rfl
theorem failed_other (f : Str) (l : Int) : (Act.expectNoThrow (some .other) f l).failed = some (f, l, txtUnknown) := rfl

theorem act_failure (env : Env) (t : Nat) (w : World) (a : Act) :
    ((act env t w a).1.tc t).failure = match a.report env.sep with | some (f, l, m) => (f, some l, m) | none => (w.tc t).failure := by
  cases a with
  | check ok f l e x => cases ok <;> simp [act, World.setTc, checkFail, Act.report, failed_check, Tc.failure, lastPart_eq, cstr_visible]
  | expectThrow o c f l ty => cases o <;> cases c <;> simp [act, World.setTc, checkFail, Act.report, failed_throw, failed_throw', Tc.failure, lastPart_eq]
  | expectAnyThrow o f l => cases o <;> simp [act, World.setTc, checkFail, Act.report, failed_any, failed_any', Tc.failure, lastPart_eq]
  | expectNoThrow o f l =>
    cases o with
    | none => rfl
    | some e => cases e <;> simp [act, World.setTc, checkFail, Act.report, failed_std, failed_other, Tc.failure, lastPart_eq]
  | _ => simp [act, World.setTc, World.put, failMember, checkFail, Act.report, Act.failed, Tc.failure, lastPart_eq]

def lastReport (sep : Char) (as : List Act) : Option (Str × Int × Str) := (as.filterMap (Act.report sep)).getLast?

theorem lastReport_cons (sep : Char) (a : Act) (as : List Act) : lastReport sep (a :: as) = (lastReport sep as).or (a.report sep) := by
  unfold lastReport
  cases h : a.report sep with
  | none => rw [List.filterMap_cons, h]; simp
  | some s =>
    rw [List.filterMap_cons, h]
    simp only [List.getLast?_cons]
    cases hh : (as.filterMap (Act.report sep)).getLast? <;> rfl

theorem lastReport_append (sep : Char) (as bs : List Act) : lastReport sep (as ++ bs) = (lastReport sep bs).or (lastReport sep as) := by
  induction as with
  | nil => simp [lastReport]
  | cons a as ih => rw [List.cons_append, lastReport_cons, ih, lastReport_cons]; cases lastReport sep bs <;> simp

theorem applyAll_failure (env : Env) (t : Nat) (w : World) (as : List Act) :
    ((applyAll env t w as).tc t).failure = match lastReport env.sep as with | some (f, l, m) => (f, some l, m) | none => (w.tc t).failure := by
  induction as generalizing w with
  | nil => rfl
  | cons a as ih =>
    rw [applyAll_cons, ih, lastReport_cons, act_failure]
    cases lastReport env.sep as <;> simp

/-- A registered test whose functions do the same each time. -/
def testDoing (sc : Script) : TestDef := ⟨[], [], fun _ => sc⟩

theorem executed_cut (pre post : List Act) (f : Str) (l : Int) (e a : Str) :
    executed (pre ++ .check false f l e a :: post) = executed (pre ++ [.check false f l e a]) := by
  induction pre with
  | nil => simp [executed, Act.leaves]
  | cons b bs ih => simp only [List.cons_append, executed, ih]

theorem executed_mem (pre post : List Act) (a : Act) (ha : a ∉ pre) :
    a ∈ executed (pre ++ a :: post) ↔ ∀ x ∈ pre, x.leaves = false := by
  induction pre with
  | nil => simp only [List.nil_append, executed]; split <;> simp
  | cons b bs ih =>
    have hb : a ≠ b := fun h => ha (by simp [h])
    have ih := ih (fun h => ha (by simp [h]))
    simp only [List.cons_append, executed]
    by_cases hl : b.leaves = true
    · simp [hl, hb]
    · simp [hl, hb, ih]

theorem executed_sublist (as : List Act) : ∀ x ∈ executed as, x ∈ as := by
  induction as with
  | nil => simp [executed]
  | cons a as ih =>
    intro x hx; unfold executed at hx
    split at hx
    · simp at hx; simp [hx]
    · rcases List.mem_cons.1 hx with h | h
      · simp [h]
      · simp [ih x h]

theorem run_congr (env : Env) (s1 s2 : Script) (t : Nat) (w : World) (h1 : executed s1.setUp = executed s2.setUp)
    (h2 : executed s1.body = executed s2.body) (h3 : executed s1.tearDown = executed s2.tearDown) :
    run env (testDoing s1) t w = run env (testDoing s2) t w := by
  simp only [run, testDoing, exec_eq, threw, h1, h2, h3]

/-- C101 (what holds, 1): a failed check of the EXPECT_EQ kind ends the function it stands in: the run of the test,
with all its effects, is the same whatever stands behind the check. (FAIL and the exception checks do not end it.) -/
theorem C101_check_returns_partial (env : Env) (t : Nat) (w : World) (sc : Script) (pre post : List Act) (f : Str) (l : Int) (e a : Str) :
    run env (testDoing { sc with setUp := pre ++ .check false f l e a :: post }) t w =
      run env (testDoing { sc with setUp := pre ++ [.check false f l e a] }) t w ∧
    run env (testDoing { sc with body := pre ++ .check false f l e a :: post }) t w =
      run env (testDoing { sc with body := pre ++ [.check false f l e a] }) t w ∧
    run env (testDoing { sc with tearDown := pre ++ .check false f l e a :: post }) t w =
      run env (testDoing { sc with tearDown := pre ++ [.check false f l e a] }) t w :=
  ⟨run_congr _ _ _ _ _ (executed_cut ..) rfl rfl, run_congr _ _ _ _ _ rfl (executed_cut ..) rfl,
    run_congr _ _ _ _ _ rfl rfl (executed_cut ..)⟩

/-- C101 (2): which statements let the function go on: a marked statement (one that does not occur before it, nor in SetUp or TearDown) is executed
exactly if all that stands before it is no return, no exception and no failed check of the EXPECT_EQ kind (given
that SetUp throws nothing). -/
theorem C101_goes_on_partial (env : Env) (t : Nat) (w : World) (sc : Script) (pre post : List Act) (n : Nat)
    (hs : threw sc.setUp = none) (h1 : Act.step n ∉ sc.setUp) (h2 : Act.step n ∉ pre) (h3 : Act.step n ∉ sc.tearDown) :
    ∃ new, (run env (testDoing { sc with body := pre ++ .step n :: post }) t w).tr = w.tr ++ new ∧
      (Ev.step t n ∈ new ↔ ∀ x ∈ pre, x.leaves = false) := by
  have mem : ∀ as, Ev.step t n ∈ stepsOf t as ↔ Act.step n ∈ as := by
    intro as
    induction as with
    | nil => simp [stepsOf]
    | cons a as ih =>
      have : stepsOf t (a :: as) = stepsOf t [a] ++ stepsOf t as := by simp [stepsOf, List.filterMap_cons]; cases a <;> simp
      rw [this, List.mem_append, ih, List.mem_cons]
      cases a <;> simp [stepsOf]
  have no : ∀ as, Act.step n ∉ as → Ev.step t n ∉ stepsOf t (executed as) := fun as h hm => h (executed_sublist _ _ ((mem _).1 hm))
  refine ⟨_, run_tr env _ t w, ?_⟩
  have hb : Ev.step t n ∈ stepsOf t (executed (pre ++ .step n :: post)) ↔ ∀ x ∈ pre, x.leaves = false := by
    rw [mem]; exact executed_mem pre post _ h2
  have e : nextScript (testDoing { sc with body := pre ++ .step n :: post }) t w = { sc with body := pre ++ .step n :: post } := rfl
  rw [e]
  simp only [hs, Option.isSome_none, Bool.false_eq_true, if_false, List.mem_append, List.mem_singleton, reduceCtorEq, false_or, hb, no _ h1]
  constructor
  · rintro (h | h)
    · exact h
    · exfalso
      split at h
      · simp at h
      · rcases List.mem_append.1 h with h | h
        · simp at h
        · exact no _ h3 h
  · exact .inl

/- Both kinds occur: behind a FAIL the marked statement is executed, behind a failed check it is not. -/
example : ((run {} (testDoing { body := [.failNow ['f'] 1 ['a'], .step 7] }) 0 {}).tr, (run {} (testDoing { body := [.check false ['f'] 1 ['a'] [], .step 7] }) 0 {}).tr) =
    ([.setUp 0, .body 0, .step 0 7, .tearDown 0], [.setUp 0, .body 0, .tearDown 0]) := by rfl

/-- C101 (3): a test that does not throw is reported with the last failure that was executed, with the base name
of its file; it is the first one if no FAIL and no exception check failed before. -/
theorem C101_reported_partial (env : Env) (d : TestDef) (t : Nat) (w : World) (hn : ¬ (nextScript d t w).throws) (f : Str) (l : Int) (m : Str)
    (h : lastReport env.sep (nextScript d t w).all = some (f, l, m)) :
    ((run env d t w).tc t).failure = (f, some l, m) := by
  simp only [Script.throws, not_or, Bool.not_eq_true, Option.isSome_eq_false_iff, Option.isNone_iff_eq_none] at hn
  rw [run_eq, hn.1, hn.2.1, hn.2.2]
  simp only
  have e1 : ∀ w : World, ((conclude w t).tc t).failure = (w.tc t).failure := by
    intro w; unfold conclude; split <;> simp [setStatus, World.setTc, Tc.failure]
  rw [afterTearDown, applyAll_failure]
  have e2 : ((enter (conclude (markEnd env (afterBody env d t w) t) t) (.tearDown t)).tc t).failure = ((afterBody env d t w).tc t).failure := by
    show ((conclude (markEnd env (afterBody env d t w) t) t).tc t).failure = _
    rw [e1]; simp [markEnd, Tc.failure]
  rw [e2, afterBody, applyAll_failure]
  have e3 : ((enter (markBegin env (afterSetUp env d t w) t) (.body t)).tc t).failure = ((afterSetUp env d t w).tc t).failure := by
    simp [enter, markBegin, Tc.failure]
  rw [e3, afterSetUp, applyAll_failure]
  rw [Script.all, lastReport_append, lastReport_append] at h
  cases h3 : lastReport env.sep (executed (nextScript d t w).tearDown) with
  | some x => rw [h3] at h; simp at h; subst h; rfl
  | none =>
    rw [h3] at h
    cases h2 : lastReport env.sep (executed (nextScript d t w).body) with
    | some x => rw [h2] at h; simp at h; subst h; rfl
    | none =>
      rw [h2] at h; simp at h
      rw [h]

/-! ### C99 -/

/-- A clock that shows the time of day: milliseconds since midnight. -/
def timeOfDay (ms : Int) : Int := ms % 86400000

/-- C99, epoch clock: with a clock that does not go back, elapsed() is the difference. -/
theorem C99_monotone (b e : Int) (h : b ≤ e) : (Lapse.mk b e).elapsed = e - b ∧ (Lapse.mk b 0).elapsedNow e = e - b := by
  constructor
  · unfold Lapse.elapsed; rw [if_neg]; simp only; omega
  · unfold Lapse.elapsedNow; rw [if_neg]; simp only; omega

/-- C99, time-of-day clock (Windows): correct whenever less than a day passed, across midnight as well. -/
theorem C99_time_of_day (b e : Int) (h : b ≤ e) (hd : e - b < 86400000) :
    (Lapse.mk (timeOfDay b) (timeOfDay e)).elapsed = e - b ∧ (Lapse.mk (timeOfDay b) 0).elapsedNow (timeOfDay e) = e - b := by
  have hm : msecsInADay = 86400000 := rfl
  unfold Lapse.elapsed Lapse.elapsedNow timeOfDay
  rw [hm]
  simp only
  constructor <;> split <;> omega

/-- C99: longer times come out modulo one day on such a clock. -/
theorem C99_modulo_day (b e : Int) (h : b ≤ e) : (Lapse.mk (timeOfDay b) (timeOfDay e)).elapsed = (e - b) % 86400000 := by
  have hm : msecsInADay = 86400000 := rfl
  unfold Lapse.elapsed timeOfDay
  rw [hm]
  simp only
  split <;> omega

/-- C99, Unix clock: the reading is the time in microseconds divided by 1000, rounded down, so a
difference of two readings is off by less than 1 ms. -/
theorem C99_unix_clock (sec usec : Int) (h0 : 0 ≤ usec) : markUnix sec usec = (sec * 1000000 + usec) / 1000 := by
  unfold markUnix
  rw [Int.tdiv_eq_ediv_of_nonneg h0]; omega

theorem C99_unix_error (s1 u1 s2 u2 : Int) (h1 : 0 ≤ u1) (h2 : 0 ≤ u2) :
    let exact := (s2 * 1000000 + u2) - (s1 * 1000000 + u1)
    let measured := 1000 * (markUnix s2 u2 - markUnix s1 u1)
    exact - 1000 < measured ∧ measured < exact + 1000 := by
  intro exact measured
  simp only [exact, measured, C99_unix_clock _ _ h1, C99_unix_clock _ _ h2]
  omega

/-- C99, Windows clock: for a valid time of day it is the milliseconds since midnight, and the time of day can be
read back from it. -/
theorem C99_win_clock (h m s ms : Int) (hh : 0 ≤ h ∧ h < 24) (hm : 0 ≤ m ∧ m < 60) (hs : 0 ≤ s ∧ s < 60) (hms : 0 ≤ ms ∧ ms < 1000) :
    let t := markWin h m s ms
    0 ≤ t ∧ t < 86400000 ∧ t / 3600000 = h ∧ t / 60000 % 60 = m ∧ t / 1000 % 60 = s ∧ t % 1000 = ms := by
  intro t
  have e : t = h * 3600000 + m * 60000 + s * 1000 + ms := by show markWin h m s ms = _; unfold markWin; omega
  clear_value t
  subst e
  refine ⟨by omega, by omega, by omega, by omega, by omega, by omega⟩

/-- Non-vacuity: from 23:59:59.900 to 0:00:00.200. -/
example : (Lapse.mk (timeOfDay 86399900) (timeOfDay 86400200)).elapsed = 300 := by decide

/-! ### C126 -/

theorem act_clock (env : Env) (t : Nat) (w : World) (a : Act) :
    (act env t w a).1.tick = w.tick ∧ ∀ u, ((act env t w a).1.tc u).lapse = (w.tc u).lapse := by
  cases a with
  | check ok f l e x => cases ok <;> simp [act, World.setTc] <;> intro u <;> split <;> simp_all [checkFail]
  | failNow f l m => simp [act, World.setTc] <;> intro u <;> split <;> simp_all [checkFail]
  | expectThrow o c f l ty => cases o <;> cases c <;> simp [act, World.setTc] <;> intro u <;> split <;> simp_all [checkFail]
  | expectAnyThrow o f l => cases o <;> simp [act, World.setTc] <;> intro u <;> split <;> simp_all [checkFail]
  | expectNoThrow o f l =>
    cases o with
    | none => simp [act]
    | some e => cases e <;> simp [act, World.setTc] <;> intro u <;> split <;> simp_all [checkFail]
  | setStatus s => simp [act, World.setTc] <;> intro u <;> split <;> simp_all
  | failCall f l r => simp [act, World.setTc] <;> intro u <;> split <;> simp_all [failMember]
  | _ => simp [act, World.put]

theorem applyAll_clock (env : Env) (t : Nat) (w : World) (as : List Act) :
    (applyAll env t w as).tick = w.tick ∧ ∀ u, ((applyAll env t w as).tc u).lapse = (w.tc u).lapse := by
  induction as generalizing w with
  | nil => exact ⟨rfl, fun _ => rfl⟩
  | cons a as ih =>
    rw [applyAll_cons]
    obtain ⟨h1, h2⟩ := ih (act env t w a).1
    obtain ⟨g1, g2⟩ := act_clock env t w a
    exact ⟨h1.trans g1, fun u => (h2 u).trans (g2 u)⟩

theorem afterSetUp_clock (env : Env) (d : TestDef) (t : Nat) (w : World) :
    (afterSetUp env d t w).tick = w.tick ∧ ((afterSetUp env d t w).tc t).lapse = (w.tc t).lapse := by
  obtain ⟨h1, h2⟩ := applyAll_clock env t (atSetUp d t w) (executed (nextScript d t w).setUp)
  refine ⟨h1, (h2 t).trans ?_⟩
  simp [atSetUp, enter, World.setTc]

theorem afterBody_clock (env : Env) (d : TestDef) (t : Nat) (w : World) :
    (afterBody env d t w).tick = w.tick + 1 ∧
    ((afterBody env d t w).tc t).lapse = { (w.tc t).lapse with begin := env.clock w.tick } := by
  obtain ⟨h1, h2⟩ := applyAll_clock env t (enter (markBegin env (afterSetUp env d t w) t) (.body t)) (executed (nextScript d t w).body)
  obtain ⟨g1, g2⟩ := afterSetUp_clock env d t w
  refine ⟨h1.trans ?_, (h2 t).trans ?_⟩
  · simp [enter, markBegin, g1]
  · simp [enter, markBegin, g1, g2]

theorem afterTearDown_clock (env : Env) (d : TestDef) (t : Nat) (w : World) :
    (afterTearDown env d t w).tick = w.tick + 2 ∧
    ((afterTearDown env d t w).tc t).lapse = { begin := env.clock w.tick, «end» := env.clock (w.tick + 1) } := by
  obtain ⟨h1, h2⟩ := applyAll_clock env t (enter (conclude (markEnd env (afterBody env d t w) t) t) (.tearDown t)) (executed (nextScript d t w).tearDown)
  obtain ⟨g1, g2⟩ := afterBody_clock env d t w
  have hc : ∀ x : World, (conclude x t).tick = x.tick ∧ ((conclude x t).tc t).lapse = (x.tc t).lapse := by
    intro x; unfold conclude; split <;> simp [setStatus, World.setTc]
  obtain ⟨c1, c2⟩ := hc (markEnd env (afterBody env d t w) t)
  refine ⟨h1.trans ?_, (h2 t).trans ?_⟩
  · show (conclude (markEnd env (afterBody env d t w) t) t).tick = _
    rw [c1]; simp [markEnd, g1]
  · show ((conclude (markEnd env (afterBody env d t w) t) t).tc t).lapse = _
    rw [c2]; simp [markEnd, g1, g2]

theorem caught_clock (env : Env) (w : World) (t : Nat) (e : Exc) :
    ((caught env w t e).tc t).lapse = { (w.tc t).lapse with «end» := env.clock w.tick } := by
  simp [caught, World.setTc, markEnd]

/-- C126 is false: when SetUp throws the begin of the test was never marked; the time reported for
the first test of a process is the time since the epoch of the clock. -/
theorem C126_setUp_throws_refuted (now : Int) (hn : 0 ≤ now) :
    let d : TestDef := ⟨[], [], fun _ => { setUp := [.thrw .other] }⟩
    ((run { clock := fun _ => now } d 0 {}).tc 0).lapse.elapsed = now := by
  show (Lapse.mk 0 now).elapsed = now
  unfold Lapse.elapsed
  rw [if_neg (by simp only; omega)]
  simp

/-- C126, the part that holds: when SetUp and TearDown do not throw, the reported time of a test is
the difference between the clock reading made when test() is entered (the first one in run(), number
`w.tick`) and the one made when it has returned or thrown (the second one) - whatever the test does,
whatever was measured before; for a clock that does not go back it is exactly the difference. -/
theorem C126_elapsed_partial (env : Env) (d : TestDef) (t : Nat) (w : World)
    (h1 : threw (nextScript d t w).setUp = none) (h2 : threw (nextScript d t w).tearDown = none)
    (hm : env.clock w.tick ≤ env.clock (w.tick + 1)) :
    ((run env d t w).tc t).lapse.elapsed = env.clock (w.tick + 1) - env.clock w.tick := by
  have key : ((run env d t w).tc t).lapse = { begin := env.clock w.tick, «end» := env.clock (w.tick + 1) } := by
    rw [run_eq, h1]
    dsimp only
    cases hb : threw (nextScript d t w).body with
    | some e =>
      dsimp only
      rw [caught_clock, (afterBody_clock env d t w).1, (afterBody_clock env d t w).2]
    | none =>
      dsimp only
      rw [h2]
      exact (afterTearDown_clock env d t w).2
  rw [key]
  exact (C99_monotone _ _ hm).1

/-- C126, TearDown throws: the time includes that of TearDown. -/
theorem C126_tearDown_throws (env : Env) (d : TestDef) (t : Nat) (w : World) (e : Exc)
    (h1 : threw (nextScript d t w).setUp = none) (h2 : threw (nextScript d t w).body = none)
    (h3 : threw (nextScript d t w).tearDown = some e) (hm : env.clock w.tick ≤ env.clock (w.tick + 2)) :
    ((run env d t w).tc t).lapse.elapsed = env.clock (w.tick + 2) - env.clock w.tick := by
  have key : ((run env d t w).tc t).lapse = { begin := env.clock w.tick, «end» := env.clock (w.tick + 2) } := by
    rw [run_eq, h1]
    dsimp only
    rw [h2]
    dsimp only
    rw [h3]
    dsimp only
    rw [caught_clock, (afterTearDown_clock env d t w).1, (afterTearDown_clock env d t w).2]
  rw [key]
  exact (C99_monotone _ _ hm).1

/-- C126, exactly: the clock readings between which the time is reported, for every test and history. When SetUp throws, from whatever was marked last
(by an earlier run, or the epoch) to the moment SetUp threw; when SetUp and test() do not throw but TearDown does, from the begin of test() to the moment TearDown
threw; otherwise from the begin of test() to its end. -/
theorem C126_exact_partial (env : Env) (d : TestDef) (t : Nat) (w : World) :
    ((run env d t w).tc t).lapse =
      if (threw (nextScript d t w).setUp).isSome then { begin := (w.tc t).lapse.begin, «end» := env.clock w.tick }
      else if (threw (nextScript d t w).body).isNone ∧ (threw (nextScript d t w).tearDown).isSome
        then { begin := env.clock w.tick, «end» := env.clock (w.tick + 2) }
      else { begin := env.clock w.tick, «end» := env.clock (w.tick + 1) } := by
  rw [run_eq]
  cases h1 : threw (nextScript d t w).setUp with
  | some e => simp [caught_clock, (afterSetUp_clock env d t w).1, (afterSetUp_clock env d t w).2]
  | none =>
    cases hb : threw (nextScript d t w).body with
    | some e => simp [caught_clock, (afterBody_clock env d t w).1, (afterBody_clock env d t w).2]
    | none =>
      cases h2 : threw (nextScript d t w).tearDown with
      | some e => simp [caught_clock, (afterTearDown_clock env d t w).1, (afterTearDown_clock env d t w).2]
      | none => simp [(afterTearDown_clock env d t w).2]

/-- non-vacuity: a test that fails a check, on a clock that advances by 7 ms per reading -/
example : let d : TestDef := ⟨[], [], fun _ => { body := [.out ['x'], .check false ['f'] 3 ['e'] ['a']] }⟩
    let w := run { clock := fun k => 1000 + 7 * (k : Int) } d 0 (beginTest true 0 {})
    (w.tc 0).lapse.elapsed = 7 ∧ (w.tc 0).status = .fail := by decide

end Falcon.Fut
