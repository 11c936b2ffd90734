import Verif.Proofs.LogMutexReact
import Verif.Props.LogMutex
/- C167: listeners that use the log system, with explicit mutexes. -/
namespace Falcon.LogM
open Falcon.Log (Str Addr LId Msg Rx Lst Op Ev Stage Mtx Exec init dispatched accepted exec_wake)

variable {rx : Rx} {n : Nat} {t b : Bool} {r : FRst} {as : List FRAct} {es : List Ev}

/-- C167: whatever listeners do in onMessage, what the log system does is a run of the system with one more client thread; so everything proved about
these (C164, C165, C166) holds. -/
theorem C167_same_rules_partial (h : FRExec rx n (frinit n t b) r as es) : ∃ bs, frun rx (finit (n + 1) t b) bs = some (r.base, es) := by
  obtain ⟨bs, h, -⟩ := base_run h
  exact ⟨bs, h⟩

/-- C167: for instance: messages, also those logged in onMessage, are served in the order in which they were accepted, nothing undefined happens, and no
two threads are ever about to access the same variable in conflict. -/
theorem C167_order_partial (h : FRExec rx n (frinit n t b) r as es) :
    dispatched es <+: accepted es ∧ (∀ u, .fault u ∉ es) ∧ ∀ a a', ¬ Conflict rx r.base a a' := by
  obtain ⟨bs, h⟩ := C167_same_rules_partial h
  exact ⟨(C164_fifo h).1, (C164_fifo h).2, C164_race_free h⟩

/-- C167: listeners are called without any mutex held, and the logging thread, in its loop and in onMessage, never has two at a time: it never waits
for a mutex it has. -/
theorem C167_unlocked_partial (h : FRExec rx n (frinit n t b) r as es) :
    (∀ d, r.cur = some d → ∀ x, r.base.mtx x ≠ some none) ∧
    (r.dead = false → ∀ x y, LoggerHolds n r x → LoggerHolds n r y → x = y) := by
  obtain ⟨bs, hb⟩ := C167_same_rules_partial h
  obtain ⟨hI, -⟩ := sim_init hb
  have hw := within_run h
  have no : ∀ d, r.cur = some d → ∀ x, r.base.mtx x ≠ some none := by
    intro d hd x hx
    obtain ⟨a, rem, hl⟩ := hw.here d hd
    have := (hI.own.log x).1 hx
    rw [hl] at this; cases this
  refine ⟨no, fun hdead x y hx hy => ?_⟩
  cases hc : r.cur with
  | some d =>
    rcases hx with hx | hx
    · exact absurd hx (no d hc x)
    rcases hy with hy | hy
    · exact absurd hy (no d hc y)
    exact C164_one_mutex hb hx hy
  | none =>
    have idle := hw.out hc hdead
    rcases hx with hx | hx
    · rcases hy with hy | hy
      · exact C164_one_mutex hb hx hy
      · exact absurd hy ((C164_released hb).1 n idle)
    · exact absurd hx ((C164_released hb).1 n idle)

/-- C167: listeners that do not throw and leave start() and stop() alone never terminate the program. -/
theorem C167_survives_partial (h : FRExec rx n (frinit n t b) r as es) (hm : AllMild as) : r.dead = false := (gentle_run h hm).alive

/-- C167: and there is no deadlock: a listener at work can go on or waits for a thread that can; as long as a listener is at work or a call has not
returned, some thread can go on. -/
theorem C167_no_deadlock_partial (h : FRExec rx n (frinit n t b) r as es) (hm : AllMild as) :
    (∀ d, r.cur = some d → Proceeds rx n r none ∨ ∃ j, j ≠ n ∧ Proceeds rx n r (some j)) ∧
    ((∃ (i : Nat) (pc : FPc), r.base.cl[i]? = some pc ∧ pc ≠ .idle) → ∃ o, Proceeds rx n r o) := by
  obtain ⟨bs, hb⟩ := C167_same_rules_partial h
  obtain ⟨hI, es', hx, -⟩ := sim_init hb
  have hw := within_run h
  have hg := gentle_run h hm
  have inner : ∀ d, r.cur = some d → Proceeds rx n r none ∨ ∃ j, j ≠ n ∧ Proceeds rx n r (some j) := fun d hd => inner_moves hI hw hg hd
  refine ⟨inner, ?_⟩
  rintro ⟨i, pc, hi, hp⟩
  cases hc : r.cur with
  | some d =>
    rcases inner d hc with h | ⟨j, -, h⟩
    · exact ⟨_, h⟩
    · exact ⟨_, h⟩
  | none =>
    obtain ⟨o, ho⟩ := someone_moves (rx := rx) hI (exec_wake hx) hi hp
    cases o with
    | none =>
      refine ⟨none, fun d => ?_⟩
      obtain ⟨⟨f, e⟩, ho⟩ := ho
      simp only [frstep, hg.alive, Bool.false_eq_true, if_false, hc, ho]
      exact ⟨_, rfl⟩
    | some j =>
      by_cases hj : j = n
      · subst hj
        obtain ⟨x, ho⟩ := ho
        simp only [fstep, hw.out hc hg.alive, resumeF] at ho
        cases ho
      · refine ⟨some j, ?_⟩
        obtain ⟨⟨f, e⟩, ho⟩ := ho
        simp only [Proceeds, frstep, hg.alive, hj, Bool.false_eq_true, or_self, if_false, via, ho]
        exact ⟨_, rfl⟩

/-- C167: onMessage returns: however the threads are scheduled, and whatever the listener calls, the logging thread makes at most 16 steps for each of its calls,
16 more if it was in the middle of one, until onMessage is left or the program ends. -/
theorem C167_returns_partial (h : FRExec rx n (frinit n t b) r as es) {d : Doing} (hd : r.cur = some d) {r' : FRst} {bs : List FRAct} {es' : List Ev}
    (h' : FRExec rx n r r' bs es') (hin : ∀ cs r1 es1, cs <+: bs → FRExec rx n r r1 cs es1 → r1.cur ≠ none) :
    bs.countP (fun a => match a with | .log _ => true | _ => false) ≤ 16 * d.reqs.length + 16 := by
  have key : bs.countP (fun a => match a with | .log _ => true | _ => false) + toDo n r' ≤ toDo n r := by
    induction h' with
    | nil => simp
    | @snoc r1 r2 bs1 es1 a es2 hx hs ih =>
      have ih := ih fun cs r1 es1 hp => hin cs r1 es1 (hp.trans (List.prefix_append _ _))
      have := toDo_step (h.append hx) hs (hin _ _ _ (List.prefix_append _ _) hx)
      rw [List.countP_append]
      cases a <;> simp only [List.countP_cons, List.countP_nil] <;> simp at this ⊢ <;> omega
  have : toDo n r ≤ 16 * d.reqs.length + 16 := by
    unfold toDo
    split
    · omega
    · rw [hd]
      have hle : ∀ pc, crank pc ≤ 15 := fun p => by cases p <;> simp [crank] <;> split <;> omega
      cases hc : r.base.cl[n]? with
      | none => simp only; omega
      | some pc => have := hle pc; simp only; omega
  omega

/-! ### What goes wrong -/

/-- A schedule, executed. -/
def frrun (rx : Rx) (n : Nat) : FRst → List FRAct → Option FRst
  | r, [] => some r
  | r, a :: as => match frstep rx n r a with
    | none => none
    | some (r', _) => frrun rx n r' as

theorem FRExec.of_run {r0 : FRst} {pre : List FRAct} (h0 : FRExec rx n r0 r pre es) {r' : FRst} (h : frrun rx n r as = some r') :
    ∃ es', FRExec rx n r0 r' (pre ++ as) es' := by
  induction as generalizing r pre es with
  | nil => simp only [frrun] at h; cases h; exact ⟨es, by simpa using h0⟩
  | cons a as ih =>
    simp only [frrun] at h
    split at h
    · cases h
    · rename_i r1 e1 hs
      obtain ⟨es', h'⟩ := ih (h0.snoc hs) h
      exact ⟨es', by simpa using h'⟩

/-- One thread adds a listener and logs a message; the logging thread hands it to the listener, which does `d`. -/
def handed (d : Doing) : List FRAct :=
  [.req 0 (.op (.addListener 7)), .cli 0, .cli 0, .cli 0, .req 0 (.op (.log Msg.default))] ++ List.replicate 11 (.cli 0) ++ List.replicate 14 (.log d)

/-- C167 is false: a listener that calls stop() ends the program: the logging thread joins itself. -/
theorem C167_stop_inside_refuted : ∃ r es, FRExec Falcon.Log.demoRx 1 (frinit 1 false true) r (handed ⟨[.op .stop], false⟩ ++ List.replicate 8 (.log ⟨[], false⟩)) es ∧ r.dead = true := by
  have h : (frrun Falcon.Log.demoRx 1 (frinit 1 false true) (handed ⟨[.op .stop], false⟩ ++ List.replicate 8 (.log ⟨[], false⟩))).map FRst.dead = some true := by decide +kernel
  cases hr : frrun Falcon.Log.demoRx 1 (frinit 1 false true) (handed ⟨[.op .stop], false⟩ ++ List.replicate 8 (.log ⟨[], false⟩)) with
  | none => rw [hr] at h; cases h
  | some r =>
    rw [hr] at h
    obtain ⟨es, hx⟩ := FRExec.of_run .nil hr
    exact ⟨r, es, hx, Option.some.inj h⟩

/-- The logging thread goes through the listeners. -/
def calling : FLt → Bool
  | .send _ _ => true
  | _ => false

theorem calling_iff {p : FLt} (h : calling p = true) : ∃ a rem, p = .send a rem := by
  cases p <;> first | (cases h; done) | exact ⟨_, _, rfl⟩

/-- C167 is false: a listener that calls start() while a thread is in stop(): the one waits for the mutex the other has, the other for the end of the one;
nothing can happen any more. -/
theorem C167_deadlock_refuted : ∃ r as es, FRExec Falcon.Log.demoRx 1 (frinit 1 false true) r as es ∧ r.dead = false ∧ r.base.cl[0]? = some .sJoin ∧
    r.cur = some ⟨[], false⟩ ∧ ∀ a, frstep Falcon.Log.demoRx 1 r a = none := by
  let as : List FRAct := handed ⟨[.op .start], false⟩ ++ [.req 0 (.op .stop)] ++ List.replicate 6 (.cli 0) ++ [.log ⟨[], false⟩]
  have h : (frrun Falcon.Log.demoRx 1 (frinit 1 false true) as).map (fun r => (r.dead, r.cur, r.base.cl, calling r.base.lt, (r.base.mtx .thread).isSome)) =
      some (false, some ⟨[], false⟩, [.sJoin, .tLock], true, true) := by decide +kernel
  cases hr : frrun Falcon.Log.demoRx 1 (frinit 1 false true) as with
  | none => rw [hr] at h; cases h
  | some r =>
    rw [hr] at h
    obtain ⟨es, hx⟩ := FRExec.of_run .nil hr
    have h := Option.some.inj h
    simp only [Prod.mk.injEq] at h
    obtain ⟨h1, h2, h3, h4', h5'⟩ := h
    obtain ⟨o, h5⟩ := Option.isSome_iff_exists.1 h5'
    obtain ⟨x, rem, h4⟩ := calling_iff h4'
    refine ⟨r, _, es, hx, h1, by rw [h3]; rfl, h2, fun a => ?_⟩
    have out : ∀ i, i ≠ 1 → r.base.cl[i]? = some .sJoin ∨ r.base.cl[i]? = none := by
      intro i hi
      rw [h3]
      cases i with
      | zero => exact .inl rfl
      | succ i => cases i with
        | zero => exact absurd rfl hi
        | succ i => exact .inr rfl
    cases a with
    | req i q =>
      by_cases hi : i = 1
      · simp [frstep, hi]
      · simp only [frstep, h1, hi, Bool.false_eq_true, or_self, if_false, via]
        rcases out i hi with ho | ho <;> cases q <;> simp only [Req.by, fstep, ho]
    | cli i =>
      by_cases hi : i = 1
      · simp [frstep, hi]
      · simp only [frstep, h1, hi, Bool.false_eq_true, or_self, if_false, via]
        rcases out i hi with ho | ho <;> simp only [fstep, ho, resumeF, h4]
    | spurious => simp only [frstep, h1, Bool.false_eq_true, if_false, via, fstep, h4]
    | log d =>
      have ho : r.base.cl[1]? = some .tLock := by rw [h3]; rfl
      simp only [frstep, h1, Bool.false_eq_true, if_false, h2, within, ho, via, fstep, resumeF, acquire, h5]

/- Mild listeners at work: one that logs, reads the statistics and its own category; the run goes on to the end of onMessage, and the message it logged
is in the queue. -/
example : (frrun Falcon.Log.demoRx 1 (frinit 1 false true) (handed ⟨[.op (.log Msg.default), .diags, .categ 7], false⟩)).map
    (fun r => (r.cur, r.base.cl)) = some (some ⟨[.op (.log Msg.default), .diags, .categ 7], false⟩, [.idle, .idle]) := by decide +kernel
example : (frrun Falcon.Log.demoRx 1 (frinit 1 false true) (handed ⟨[.op (.log Msg.default), .diags, .categ 7], false⟩ ++ List.replicate 23 (.log ⟨[], false⟩))).map
    (fun r => (r.cur, r.base.cl, r.base.queue.length)) = some (none, [.idle, .idle], 1) := by decide +kernel

end Falcon.LogM
