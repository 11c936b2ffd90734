import Verif.Proofs.LogDiags
import Verif.Props.LogSystem
/-
C137: getDiags() while the system runs.
-/
namespace Falcon.Log

variable {rx : Rx} {n k : Nat} {t b : Bool} {w0 w1 w2 w3 : DSt} {es : List DEv} {j : Nat} {a a' : DAct} {d : Diags}

/-- One getDiags() call of observer `j`, from the moment before it begins (`w0`) to the moment it has
returned `d` (`w3`), with everything observed in between. -/
structure OneCall (rx : Rx) (w0 w3 : DSt) (j : Nat) (d : Diags) (es : List DEv) : Prop where
  ran : ∃ w1 w2 a a', dstep rx w0 a = some (w1, .call j) ∧ DExec rx w1 w2 es ∧ dstep rx w2 a' = some (w3, .ret j d)
  same : ∀ d', .ret j d' ∉ es

/-- C137: each number of the answer was right at some moment during the call, in the order in which
getDiags() reads them; the listeners counted as enabled were asked one after the other, all of them in
the list of active listeners, and that list did not change in between. -/
theorem C137_moments_partial (h : OneCall rx w0 w3 j d es) :
    ∃ asked : List (LId × Bool), d.enabledListeners = (asked.filter Prod.snd).length ∧
      Passes rx w0.base (moments d asked) w3.base (devs es) := by
  obtain ⟨⟨w1, w2, a, a', h1, h2, h3⟩, hn⟩ := h
  obtain ⟨d0, hc, hb⟩ := dstep_call h1
  obtain ⟨st, d1, h4, h5⟩ := dexec_prog hb hc h2 hn
  obtain ⟨st', d1', h6, h7, h8⟩ := dstep_ret h3
  rw [h4] at h6
  cases h6
  rw [h8]
  exact h5.read h7

/-- C137: the counters of the answer lie between what they were when the call began and what they were
when it returned. -/
theorem C137_between_partial (h : OneCall rx w0 w3 j d es) :
    ((getDiags w0.base).msgsCreated ≤ d.msgsCreated ∧ d.msgsCreated ≤ (getDiags w3.base).msgsCreated) ∧
    ((getDiags w0.base).msgsDiscarded ≤ d.msgsDiscarded ∧ d.msgsDiscarded ≤ (getDiags w3.base).msgsDiscarded) ∧
    ((getDiags w0.base).msgReceived ≤ d.msgReceived ∧ d.msgReceived ≤ (getDiags w3.base).msgReceived) ∧
    ((getDiags w0.base).maxMsgQueueSize ≤ d.maxMsgQueueSize ∧ d.maxMsgQueueSize ≤ (getDiags w3.base).maxMsgQueueSize) := by
  obtain ⟨asked, _, hp⟩ := C137_moments_partial h
  have at' : ∀ {P : St → Prop}, P ∈ moments d asked → ∃ sm, Older w0.base sm ∧ P sm ∧ Older sm w3.base := by
    intro P hP
    obtain ⟨i, hi⟩ := List.getElem?_of_mem hP
    obtain ⟨sm, e1, e2, h1, h2, h3, _⟩ := hp.at hi
    exact ⟨sm, exec_older h1, h2, exec_older h3⟩
  obtain ⟨s1, a1, b1, c1⟩ := at' (P := fun s => s.unpooled = d.msgsCreated) (by simp [moments, firstMoments])
  obtain ⟨s2, a2, b2, c2⟩ := at' (P := fun s => s.destroyed = d.msgsDiscarded) (by simp [moments, firstMoments])
  obtain ⟨s3, a3, b3, c3⟩ := at' (P := fun s => s.received = d.msgReceived) (by simp [moments])
  obtain ⟨s4, a4, b4, c4⟩ := at' (P := fun s => s.maxQ = d.maxMsgQueueSize) (by simp [moments])
  simp only [getDiags]
  rw [← b1, ← b2, ← b3, ← b4]
  exact ⟨⟨a1.1, c1.1⟩, ⟨a2.2.1, c2.2.1⟩, ⟨a3.2.2.1, c3.2.2.1⟩, ⟨a4.2.2.2, c4.2.2.2⟩⟩

/-- C137: of two calls, by whatever threads, one of which returned before the other began, the later
one never reports a smaller counter. -/
theorem C137_monotone_partial {w4 w5 : DSt} {es' es'' : List DEv} {j' : Nat} {d' : Diags} (h : OneCall rx w0 w3 j d es)
    (h' : DExec rx w3 w4 es') (h'' : OneCall rx w4 w5 j' d' es'') :
    d.msgsCreated ≤ d'.msgsCreated ∧ d.msgsDiscarded ≤ d'.msgsDiscarded ∧ d.msgReceived ≤ d'.msgReceived ∧
    d.maxMsgQueueSize ≤ d'.maxMsgQueueSize := by
  obtain ⟨h1, h2, h3, h4⟩ := C137_between_partial h
  obtain ⟨g1, g2, g3, g4⟩ := C137_between_partial h''
  obtain ⟨o1, o2, o3, o4⟩ := exec_older (dexec_base h')
  simp only [getDiags] at h1 h2 h3 h4 g1 g2 g3 g4
  exact ⟨by omega, by omega, by omega, by omega⟩

/-- C137: a call during which no other thread does anything returns exactly the state. -/
theorem C137_exact_partial (h : OneCall rx w0 w3 j d es) (hq : devs es = []) : d = getDiags w0.base ∧ w3.base = w0.base := by
  obtain ⟨asked, he, hp⟩ := C137_moments_partial h
  obtain ⟨h1, h2⟩ := hp.quiet hq
  refine ⟨?_, h1⟩
  have a1 := h2 (fun s => s.unpooled = d.msgsCreated) (by simp [moments, firstMoments])
  have a2 := h2 (fun s => s.destroyed = d.msgsDiscarded) (by simp [moments, firstMoments])
  have a3 := h2 (fun s => s.active.length = d.activeListeners) (by simp [moments, firstMoments])
  have a4 := h2 (fun s => s.received = d.msgReceived) (by simp [moments])
  have a5 := h2 (fun s => s.maxQ = d.maxMsgQueueSize) (by simp [moments])
  have a6 := h2 (fun s => s.pool.length = d.poolSize) (by simp [moments])
  have a7 := h2 (fun s => s.pending.length = d.pendingListeners) (by simp [moments])
  have a8 := h2 (fun s => s.active = asked.map Prod.fst) (by simp [moments])
  have a9 : ∀ p ∈ asked, (w0.base.lst p.1).enabled = p.2 := fun p hp =>
    (h2 (fun s => s.active = asked.map Prod.fst ∧ (s.lst p.1).enabled = p.2) (by
      simp only [moments, List.mem_append]
      exact .inl (.inr (List.mem_map.2 ⟨p, hp, rfl⟩)))).2
  have a10 : d.enabledListeners = (w0.base.active.filter fun l => (w0.base.lst l).enabled).length := by
    rw [he, a8, List.filter_map, List.length_map]
    congr 1
    apply List.filter_congr
    intro p hp
    exact (a9 p hp).symm
  unfold getDiags
  rw [a1, a2, a3, a4, a5, a6, a7, ← a10]

/-- C137: whatever happens meanwhile, the pool is reported with at most 64 messages, and no more
listeners are reported enabled than were active when the loop over them began. -/
theorem C137_bounds_partial {es0 : List DEv} (h0 : DExec rx (dinit n k t b) w0 es0) (h : OneCall rx w0 w3 j d es) :
    d.poolSize ≤ 64 ∧ ∃ sm e1 e2, Exec rx w0.base sm e1 ∧ Exec rx sm w3.base e2 ∧ d.enabledListeners ≤ sm.active.length := by
  obtain ⟨asked, he, hp⟩ := C137_moments_partial h
  constructor
  · have hm : (fun s : St => s.pool.length = d.poolSize) ∈ moments d asked := by simp [moments]
    obtain ⟨i, hi⟩ := List.getElem?_of_mem hm
    obtain ⟨sm, e1, e2, h1, h2, _, _⟩ := hp.at hi
    have hb := dexec_base h0
    have := (C40_accounting (hb.append h1)).1
    rwa [h2] at this
  · have hm : (fun s : St => s.active = asked.map Prod.fst) ∈ moments d asked := by simp [moments]
    obtain ⟨i, hi⟩ := List.getElem?_of_mem hm
    obtain ⟨sm, e1, e2, h1, h2, h3, _⟩ := hp.at hi
    refine ⟨sm, e1, e2, h1, h3, ?_⟩
    rw [he, h2, List.length_map]
    exact List.length_filter_le _ _

/-- C137: the call runs into undefined behaviour only if the list of active listeners was changed while
it was looking through it: by the logging thread, which began with a message that brought new listeners
or removed detached ones. -/
theorem C137_fault_partial {u : UB} (h1 : dstep rx w0 a = some (w1, .call j)) (h2 : DExec rx w1 w2 es)
    (hn : ∀ d, .ret j d ∉ es) (h3 : dstep rx w2 a' = some (w3, .fault j u)) :
    ∃ sm e1 e2, Exec rx w0.base sm e1 ∧ Exec rx sm w2.base e2 ∧ devs es = e1 ++ e2 ∧ w2.base.active ≠ sm.active := by
  obtain ⟨d0, hc, hb⟩ := dstep_call h1
  obtain ⟨st, d1, h4, h5⟩ := dexec_prog hb hc h2 hn
  cases a' with
  | base a => simp only [dstep] at h3; split at h3 <;> cases h3
  | call i d => simp only [dstep] at h3; split at h3 <;> cases h3
  | obs i =>
    simp only [dstep] at h3
    split at h3
    · rename_i st' d' hi
      split at h3 <;> cases h3
      rename_i hr
      rw [h4] at hi
      cases hi
      cases st with
      | each all rest =>
        cases rest with
        | nil => cases hr
        | cons l rest =>
          simp only [dread] at hr
          split at hr
          · cases hr
          · rename_i hact
            obtain ⟨asked, _, _, hp⟩ := h5
            have hm : (fun s : St => s.active = all) ∈ firstMoments d1 ++ [fun s : St => s.active = all] ++ eachMoment all asked := by simp
            obtain ⟨i, hi⟩ := List.getElem?_of_mem hm
            obtain ⟨sm, e1, e2, g1, g2, g3, g4⟩ := hp.at hi
            exact ⟨sm, e1, e2, g1, g3, g4, by rw [g2]; exact hact⟩
      | _ => cases hr
    · cases h3

/-! ### the books do not balance -/

/-- At every moment the system has discarded at most as many messages as it and its clients made. -/
theorem C137_discarded_le_created {s : St} {ev : List Ev} (h : Exec rx (init n t b) s ev) :
    (getDiags s).msgsDiscarded ≤ (getDiags s).msgsCreated + s.external := by
  refine (exec_inv (fun s ev => Mem s ev ∧ s.destroyed ≤ s.unpooled + s.external) ⟨?_, Nat.zero_le _⟩ ?_ h).2
  · exact exec_mem (rx := rx) .nil
  · rintro s ev e s' ⟨hm, hd⟩ hs
    refine ⟨hm.step hs, ?_⟩
    have hb := hm.balance
    cases hs <;> try (first | exact hd | (simp only; omega))
    case disposeDelete hl hp _ =>
      simp only
      rw [hl] at hb
      simp only [lHeld] at hb
      have := hm.bound
      omega

/-! ### witnesses -/

theorem DExec.split {w w' : DSt} {es1 es2 : List DEv} (h : DExec rx w w' (es1 ++ es2)) :
    ∃ wm, DExec rx w wm es1 ∧ DExec rx wm w' es2 := by
  generalize he : es1 ++ es2 = es at h
  induction h generalizing es2 with
  | nil =>
    obtain ⟨rfl, rfl⟩ := List.append_eq_nil_iff.1 he
    exact ⟨w, .nil, .nil⟩
  | @snoc x x' es a e h1 hs ih =>
    rcases List.eq_nil_or_concat es2 with h2 | ⟨es3, e', h2⟩
    · subst h2; rw [List.append_nil] at he; subst he; exact ⟨x', .snoc h1 hs, .nil⟩
    · subst h2
      rw [List.concat_eq_append, ← List.append_assoc] at he
      obtain ⟨h3, h4⟩ := List.append_inj' he rfl
      cases h4
      obtain ⟨wm, g1, g2⟩ := ih h3
      exact ⟨wm, g1, by rw [List.concat_eq_append]; exact .snoc g2 hs⟩

theorem DExec.one {w w' : DSt} {e : DEv} (h : DExec rx w w' [e]) : ∃ a, dstep rx w a = some (w', e) := by
  generalize he : [e] = es at h
  cases h with
  | nil => cases he
  | @snoc x _ es1 a e' h1 hs =>
    rcases es1 with _ | ⟨y, es1⟩
    · simp at he
      subst he
      generalize hn : ([] : List DEv) = z at h1
      cases h1 with
      | nil => exact ⟨a, hs⟩
      | snoc => simp at hn
    · simp at he

theorem onecall_of_exec (h : DExec rx w0 w3 (.call j :: (es ++ [.ret j d]))) (hn : ∀ d', .ret j d' ∉ es) : OneCall rx w0 w3 j d es := by
  obtain ⟨w1, h1, h2⟩ := DExec.split (es1 := [.call j]) h
  obtain ⟨w2, h3, h4⟩ := DExec.split h2
  obtain ⟨a, h5⟩ := h1.one
  obtain ⟨a', h6⟩ := h4.one
  exact ⟨⟨w1, w2, a, a', h5, h3, h6⟩, hn⟩

/-- Is this a whole getDiags() call of observer 0, and with which result? -/
def diagsOf : List DEv → Option Diags
  | .call 0 :: es => match es.getLast? with
    | some (.ret 0 d) => if es.dropLast.all (fun e => match e with | .ret _ _ => false | _ => true) then some d else none
    | _ => none
  | _ => none

theorem onecall_of_run {as0 as : List DAct} {es0 : List DEv} (h0 : drun rx (dinit n k t b) as0 = some (w0, es0))
    (h : drun rx w0 as = some (w3, es)) (hc : diagsOf es = some d) :
    ∃ es', DExec rx (dinit n k t b) w0 es0 ∧ OneCall rx w0 w3 0 d es' ∧ es = .call 0 :: (es' ++ [.ret 0 d]) := by
  unfold diagsOf at hc
  split at hc
  · rename_i es1
    split at hc
    · rename_i d1 hl
      split at hc
      · rename_i ha
        cases hc
        have he : es1 = es1.dropLast ++ [.ret 0 d] := by
          obtain ⟨ys, hy⟩ := List.getLast?_eq_some_iff.1 hl
          rw [hy]; simp
        have hx := dexec_of_drun as h
        rw [he] at hx
        refine ⟨es1.dropLast, dexec_of_drun _ h0, onecall_of_exec hx ?_, by rw [← he]⟩
        intro d' hd
        have := List.all_eq_true.1 ha _ hd
        simp at this
      · cases hc
    · cases hc
  · cases hc

/-- Nothing filled in yet. -/
def noDiags : Diags := { poolSize := 0, maxMsgQueueSize := 0, msgReceived := 0, msgsCreated := 0, msgsDiscarded := 0, pendingListeners := 0, activeListeners := 0, enabledListeners := 0 }

def msg0 : Msg := { file := ['f'], line := 1, level := 0, cat := [], text := ['t'] }

/-- One log() call by client 0. -/
def oneLog : List DAct := (.base (.call 0 (.log msg0))) :: List.replicate 4 (.base (.cli 0))

/-- 65 log() calls, then the logging thread serves them all. -/
def sixtyfive : List DAct := (List.replicate 65 oneLog).flatten ++ (List.replicate 65 (List.replicate 5 (.base .log))).flatten

/-- The call of the witness: getDiags() reads the first counter, then 65 messages are logged and served. -/
def tornCall : List DAct := [.call 0 noDiags, .obs 0] ++ sixtyfive ++ List.replicate 8 (.obs 0)

/-- C137 is false, the books: getDiags() can report more messages discarded than were ever created,
although no client made one of its own, at no moment is that so, and the logging thread touched the
list of listeners at no time. -/
theorem C137_books_refuted : ∃ w0 w3 es0 es d, DExec demoRx (dinit 1 1 false true) w0 es0 ∧ OneCall demoRx w0 w3 0 d es ∧
    w3.base.external = 0 ∧ d.msgsCreated = 0 ∧ d.msgsDiscarded = 1 ∧ d.poolSize + d.msgsDiscarded ≠ 64 + d.msgsCreated := by
  have h0 : drun demoRx (dinit 1 1 false true) [] = some (dinit 1 1 false true, []) := rfl
  have h1 : ((drun demoRx (dinit 1 1 false true) tornCall).map fun r => (r.1.base.external, diagsOf r.2)) =
      some (0, some { poolSize := 64, maxMsgQueueSize := 65, msgReceived := 65, msgsCreated := 0, msgsDiscarded := 1, pendingListeners := 0, activeListeners := 0, enabledListeners := 0 }) := by
    decide +kernel
  cases h2 : drun demoRx (dinit 1 1 false true) tornCall with
  | none => rw [h2] at h1; cases h1
  | some r =>
    rw [h2] at h1
    simp only [Option.map_some, Option.some.injEq, Prod.mk.injEq] at h1
    obtain ⟨h3, h4⟩ := h1
    obtain ⟨es', g1, g2, _⟩ := onecall_of_run h0 (w3 := r.1) (es := r.2) h2 h4
    exact ⟨_, _, _, _, _, g1, g2, h3, rfl, rfl, by decide⟩

/-- Listeners 1 and 2 are in service, only the first is enabled. -/
def twoListeners : List DAct :=
  [.base (.call 0 (.enable 2 false)), .base (.call 0 (.addListener 1)), .base (.call 0 (.addListener 2))] ++ oneLog ++ List.replicate 15 (.base .log)

/-- Between the questions to the two, the first is disabled and then the second enabled. -/
def tornCount : List DAct :=
  [.call 0 noDiags] ++ List.replicate 5 (.obs 0) ++ [.base (.call 0 (.enable 1 false)), .base (.call 0 (.enable 2 true))] ++ List.replicate 6 (.obs 0)

/-- C137 is false, the listeners: getDiags() can report two listeners enabled although at no moment of
the execution more than one of those in service was; the logging thread sleeps all the time. -/
theorem C137_enabled_refuted : ∃ w0 w3 es0 es d, DExec demoRx (dinit 1 1 false true) w0 es0 ∧ OneCall demoRx w0 w3 0 d es ∧
    d.enabledListeners = 2 ∧ w0.base.lt = .wait false ∧ w3.base.lt = .wait false ∧
    (∀ i w e, drun demoRx w0 (tornCount.take i) = some (w, e) → (getDiags w.base).enabledListeners ≤ 1) ∧
    drun demoRx w0 tornCount = some (w3, .call 0 :: (es ++ [.ret 0 d])) := by
  cases h0 : drun demoRx (dinit 1 1 false true) twoListeners with
  | none => exact absurd h0 (by decide +kernel)
  | some r0 =>
    have h1 : ((drun demoRx (dinit 1 1 false true) twoListeners).bind fun r => (drun demoRx r.1 tornCount).map fun r' => (r.1.base.lt, r'.1.base.lt, diagsOf r'.2)) =
      some (.wait false, .wait false, some { poolSize := 64, maxMsgQueueSize := 1, msgReceived := 1, msgsCreated := 0, msgsDiscarded := 0, pendingListeners := 0, activeListeners := 2, enabledListeners := 2 }) := by
      decide +kernel
    have hb : ((drun demoRx (dinit 1 1 false true) twoListeners).map fun r => (List.range 15).all fun i =>
        match drun demoRx r.1 (tornCount.take i) with | some x => decide ((getDiags x.1.base).enabledListeners ≤ 1) | none => true) = some true := by
      decide +kernel
    rw [h0] at h1 hb
    simp only [Option.bind_some, Option.map_some, Option.some.injEq] at h1 hb
    cases h2 : drun demoRx r0.1 tornCount with
    | none => rw [h2] at h1; cases h1
    | some r =>
      rw [h2] at h1
      simp only [Option.map_some, Option.some.injEq, Prod.mk.injEq] at h1
      obtain ⟨h3, h4, h5⟩ := h1
      obtain ⟨es', g1, g2, g3⟩ := onecall_of_run (w0 := r0.1) (es0 := r0.2) h0 (w3 := r.1) (es := r.2) h2 h5
      refine ⟨_, _, _, _, _, g1, g2, rfl, h3, h4, ?_, by rw [h2, ← g3]⟩
      intro i w e hi
      have : ∀ i < 15, ∀ w e, drun demoRx r0.1 (tornCount.take i) = some (w, e) → (getDiags w.base).enabledListeners ≤ 1 := by
        intro i hi w e hw
        have := List.all_eq_true.1 hb i (List.mem_range.2 hi)
        rw [hw] at this
        simpa using this
      by_cases hlt : i < 15
      · exact this i hlt w e hi
      · have e1 : tornCount.take i = tornCount.take 14 := by
          rw [List.take_of_length_le (by show 14 ≤ i; omega), List.take_of_length_le (by decide)]
        rw [e1] at hi
        exact this 14 (by omega) w e hi

/-- A concrete case for the theorems above: a call in a running system during which a client logs. -/
example : ∃ w0 w3 es0 es d, DExec demoRx (dinit 1 1 false true) w0 es0 ∧ OneCall demoRx w0 w3 0 d es ∧ devs es ≠ [] := by
  obtain ⟨w0, w3, es0, es, d, h1, h2, h3, h4, h5, h6⟩ := C137_books_refuted
  refine ⟨w0, w3, es0, es, d, h1, h2, fun hq => ?_⟩
  have hx := (C137_exact_partial h2 hq).1
  have := C137_discarded_le_created (dexec_base h1)
  have he := (C137_exact_partial h2 hq).2
  rw [← hx, ← he] at this
  omega

end Falcon.Log
