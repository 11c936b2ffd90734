import Verif.Proofs.LogReact
import Verif.Props.LogSystem
/-
C132: listeners that call the log system from onMessage, or throw.
-/
namespace Falcon.Log

variable {rx : Rx} {n : Nat} {t b : Bool} {r r' : RSt} {as : List RAct} {es : List Ev}

/-- C132: whatever listeners do in onMessage, what the log system does is an execution of the system
with one more client: everything proved about those (C38-C54, C103, C113, C130) holds. -/
theorem C132_same_rules_partial (h : RExec rx n (rinit n t b) r as es) : Exec rx (init (n + 1) t b) r.base es := h.base

/-- In particular messages logged from onMessage are served like all others, in order, and no
memory error occurs. -/
theorem C132_fifo_partial (h : RExec rx n (rinit n t b) r as es) :
    dispatched es <+: accepted es ∧ ∀ u, .fault u ∉ es := ⟨C38_fifo h.base, C39_memory_safe h.base⟩

/-- `re` neither throws nor calls start() or stop(). -/
def Harmless (re : Reaction) : Prop := re.throws = false ∧ .start ∉ re.ops ∧ .stop ∉ re.ops

/-- Every reaction in the schedule is harmless. -/
def AllHarmless (as : List RAct) : Prop := ∀ re, .log re ∈ as → Harmless re

theorem Harmless.tame {re : Reaction} (h : Harmless re) : re.Tame :=
  ⟨h.1, fun _ ho => ⟨fun e => h.2.1 (e ▸ ho), fun e => h.2.2 (e ▸ ho)⟩⟩

theorem AllHarmless.tame (h : AllHarmless as) : ∀ a ∈ as, a.Tame := by
  intro a ha
  cases a with
  | log re => exact (h re ha).tame
  | _ => trivial

/-- C132: with harmless listeners the program is never terminated. -/
theorem C132_survives_partial (h : RExec rx n (rinit n t b) r as es) (ht : AllHarmless as) : r.dead = false :=
  (rexec_inv h ht.tame).alive

/-- C132: and the logging thread is never blocked inside onMessage. -/
theorem C132_not_blocked_partial (h : RExec rx n (rinit n t b) r as es) (ht : AllHarmless as) (re re' : Reaction) (hc : r.cur = some re) :
    rstep rx n r (.log re') ≠ none := by
  obtain ⟨r1, es1, h1, _⟩ := inside_step (rx := rx) (re' := re') (exec_mem h.base) (rexec_inv h ht.tame) hc
  rw [h1]; simp

/-- Steps of the logging thread in a schedule. -/
def logSteps (as : List RAct) : Nat := (as.filter fun a => match a with | .log _ => true | _ => false).length

theorem logSteps_snoc (as : List RAct) (a : RAct) : logSteps (as ++ [a]) = logSteps as + match a with | .log _ => 1 | _ => 0 := by
  unfold logSteps
  cases a <;> simp

/-- C132: onMessage returns: five steps of the logging thread per call, and five more, are enough,
whatever the other threads do meanwhile. -/
theorem C132_returns_partial (h : RExec rx n (rinit n t b) r as es) (ht : AllHarmless as) (re : Reaction) (hc : r.cur = some re)
    {as' : List RAct} {es' : List Ev} (h' : RExec rx n r r' as' es') (ht' : AllHarmless as') (hl : logSteps as' > 5 * re.ops.length + 5) :
    ∃ r1 as1 es1, as1 <+: as' ∧ RExec rx n r r1 as1 es1 ∧ r1.cur = none := by
  have key : ∀ {r' : RSt} {as' : List RAct} {es' : List Ev}, RExec rx n r r' as' es' → AllHarmless as' →
      (∃ r1 as1 es1, as1 <+: as' ∧ RExec rx n r r1 as1 es1 ∧ r1.cur = none) ∨ r'.todo n + logSteps as' ≤ r.todo n := by
    intro r' as' es' h'
    induction h' with
    | nil => intro _; right; simp [logSteps]
    | @snoc r1 r2 as1 es1 a es2 hx hs ih =>
      intro ht'
      have hta : AllHarmless as1 := fun re hre => ht' re (by simp [hre])
      rcases ih hta with ⟨r3, as3, es3, h1, h2, h3⟩ | hle
      · left; exact ⟨r3, as3, es3, h1.trans (List.prefix_append _ _), h2, h3⟩
      · have hall : ∀ a ∈ as ++ as1, a.Tame := fun a ha => by
          rcases List.mem_append.1 ha with ha | ha
          · exact ht.tame a ha
          · exact hta.tame a ha
        have hx' := h.append hx
        have hinv := rexec_inv hx' hall
        cases hcur : r1.cur with
        | none => left; exact ⟨r1, as1, es1, List.prefix_append _ _, hx, hcur⟩
        | some cur =>
          right
          rw [logSteps_snoc]
          cases a with
          | log re' =>
            obtain ⟨r3, es3, b1, _, b3, _⟩ := inside_step (rx := rx) (re' := re') (exec_mem hx'.base) hinv hcur
            rw [b1] at hs; cases hs
            show r2.todo n + (logSteps as1 + 1) ≤ _
            omega
          | call i op =>
            simp only [rstep, hinv.alive, Bool.false_eq_true, false_or] at hs
            split at hs
            · cases hs
            · rename_i hne
              obtain ⟨s', e, h1, rfl, _⟩ := viaBase_some hs
              have := (hinv.via h1 hne).2
              show _ + (logSteps as1 + 0) ≤ _
              omega
          | cli i =>
            simp only [rstep, hinv.alive, Bool.false_eq_true, false_or] at hs
            split at hs
            · cases hs
            · rename_i hne
              obtain ⟨s', e, h1, rfl, _⟩ := viaBase_some hs
              have := (hinv.via h1 hne).2
              show _ + (logSteps as1 + 0) ≤ _
              omega
          | spurious =>
            simp only [rstep, hinv.alive, Bool.false_eq_true, if_false] at hs
            obtain ⟨s', e, h1, rfl, _⟩ := viaBase_some hs
            have := (hinv.via h1 trivial).2
            show _ + (logSteps as1 + 0) ≤ _
            omega
  rcases key h' ht' with h | h
  · exact h
  · exfalso
    have hw : r.todo n ≤ 5 * re.ops.length + 5 := by
      unfold RSt.todo
      rw [hc]
      show _ + 1 + (match r.base.cl[n]? with | some pc => pc.work | none => 0) ≤ _
      split
      · rename_i pc _
        have : pc.work ≤ 4 := by cases pc <;> simp [CPc.work]
        omega
      · omega
    omega

/-! ### stop() from another thread -/

/-- While the logging thread sleeps nobody is past the notification in stop(). -/
def Quiet (s : St) : Prop := s.lt = .wait false → ∀ (i : Nat), s.cl[i]? ≠ some .stopLock ∧ s.cl[i]? ≠ some .stopJoin

theorem exec_quiet {s : St} {k : Nat} (h : Exec rx (init k t b) s es) : Quiet s := by
  induction h with
  | nil =>
    intro _ i
    simp only [init, List.getElem?_replicate]
    split <;> simp
  | @snoc s s' es a e hx hst ih =>
    have hw := exec_wake hx
    have hst := step_rel hst
    have keep : ∀ (i : Nat) (pc' : CPc), pc' ≠ .stopLock → pc' ≠ .stopJoin → (s.lt = .wait false → ∀ j : Nat,
        (s.cl.set i pc')[j]? ≠ some .stopLock ∧ (s.cl.set i pc')[j]? ≠ some .stopJoin) := by
      intro i pc' h1 h2 hl j
      constructor
      · intro hj
        rcases set_get? hj with ⟨_, h⟩ | ⟨_, h⟩
        · exact h1 h.symm
        · exact (ih hl j).1 h
      · intro hj
        rcases set_get? hj with ⟨_, h⟩ | ⟨_, h⟩
        · exact h2 h.symm
        · exact (ih hl j).2 h
    cases hst with
    | callLog i m hi => exact keep i _ (by simp) (by simp)
    | callLogPtr i m hi => exact keep i _ (by simp) (by simp)
    | callStop i hi => exact keep i _ (by simp) (by simp)
    | reject i m hi _ => exact keep i _ (by simp) (by simp)
    | pass i m hi _ => exact keep i _ (by simp) (by simp)
    | allocPool i m p a hi _ => exact keep i _ (by simp) (by simp)
    | allocNew i m hi _ => exact keep i _ (by simp) (by simp)
    | construct i m a hi _ => exact keep i _ (by simp) (by simp)
    | extNew i m hi => exact keep i _ (by simp) (by simp)
    | enqueue i m a hi => exact fun h => absurd h notify_eq_wait
    | stopSet i hi => exact keep i _ (by simp) (by simp)
    | stopNotify i hi => exact fun h => absurd h notify_eq_wait
    | stopNone i hi _ hl => exact keep i _ (by simp) (by simp)
    | stopLock i hi _ hl => exact fun h => absurd hi (ih h i).1
    | stopJoin i hi hl => intro h; cases h
    | sleep _ hterm _ =>
      intro _ i
      constructor
      · intro hi
        have := hw.stopping i _ hi (.inr (.inl rfl)); rw [hterm] at this; cases this
      · intro hi
        have := hw.stopping i _ hi (.inr (.inr rfl)); rw [hterm] at this; cases this
    | addListener => exact ih
    | detach => exact ih
    | level => exact ih
    | enable => exact ih
    | llevel => exact ih
    | category => exact ih
    | categoryThrow => exact ih
    | startAgain => exact ih
    | constructFault => exact ih
    | gotFault => exact ih
    | doneFault => exact ih
    | testFault => exact ih
    | testEnabled a l rem m _ _ => intro h; revert h; dsimp only; split <;> (intro h; cases h)
    | testLevel a l rem m _ _ => intro h; revert h; dsimp only; split <;> (intro h; cases h)
    | testCategory a l rem m _ _ => intro h; revert h; dsimp only; split <;> (intro h; cases h)
    | _ => intro h; cases h

/-- The logging thread alone, `k` steps; in each state in which it enters onMessage the listener does
what `beh` says. -/
def logAlone (rx : Rx) (self : Nat) (beh : RSt → Reaction) : Nat → RSt → Option (RSt × List Ev)
  | 0, r => some (r, [])
  | k + 1, r =>
    match rstep rx self r (.log (beh r)) with
    | none => none
    | some (r', es) =>
      match logAlone rx self beh k r' with
      | none => none
      | some (r'', es') => some (r'', es ++ es')

theorem ends_alone (beh : RSt → Reaction) (hb : ∀ r, (beh r).Tame) (i : Nat) : ∀ (c k : Nat) (r : RSt) (es : List Ev),
    Exec rx (init (n + 1) t b) r.base es → RInv n r → r.base.cl[i]? = some .stopJoin → roundCost r.base ≤ c → r.todo n ≤ k →
    ∃ m r' es', logAlone rx n beh m r = some (r', es') ∧ RInv n r' ∧ r'.base.lt = .exited ∧ r'.base.cl[i]? = some .stopJoin := by
  intro c
  induction c with
  | zero =>
    intro k r es he hinv hi hc hk
    have hw := exec_wake he
    by_cases hx : r.base.lt = .exited
    · exact ⟨0, r, [], rfl, hinv, hx, hi⟩
    · exfalso
      have h1 : r.base.lt ≠ .none := hw.joinable (by rw [(hw.holder i).1 hi]; simp)
      have h2 : r.base.lt ≠ .wait false := fun h => (exec_quiet he h i).2 hi
      have ht := hw.stopping i _ hi (.inr (.inr rfl))
      obtain ⟨s', e, _, b2, _⟩ := log_progress_term (rx := rx) (exec_mem he) (exec_clean he) ht h2 h1 hx
      omega
  | succ c ihc =>
    intro k
    induction k with
    | zero =>
      intro r es he hinv hi hc hk
      have hw := exec_wake he
      have hcur : r.cur = none := by
        cases h : r.cur with
        | none => rfl
        | some re => simp only [RSt.todo, h] at hk; omega
      by_cases hx : r.base.lt = .exited
      · exact ⟨0, r, [], rfl, hinv, hx, hi⟩
      have h1 : r.base.lt ≠ .none := hw.joinable (by rw [(hw.holder i).1 hi]; simp)
      have h2 : r.base.lt ≠ .wait false := fun h => (exec_quiet he h i).2 hi
      have ht := hw.stopping i _ hi (.inr (.inr rfl))
      obtain ⟨s', e, b1, b2, b3, _⟩ := log_progress_term (rx := rx) (exec_mem he) (exec_clean he) ht h2 h1 hx
      have hs : rstep rx n r (.log (beh r)) = some ({ r with base := s', cur := enters (beh r) e }, [e]) := by
        simp only [rstep, hinv.alive, Bool.false_eq_true, if_false, hcur, b1]
      have hinv' := hinv.step (exec_mem he) (a := .log (beh r)) (hb r) hs
      obtain ⟨m, r'', es'', d1, d2⟩ := ihc _ _ _ (.snoc he b1) hinv' (by show s'.cl[i]? = _; rw [b3]; exact hi) (by show roundCost s' ≤ c; omega) (Nat.le_refl _)
      exact ⟨m + 1, r'', [e] ++ es'', by simp only [logAlone, hs, d1], d2⟩
    | succ k ihk =>
      intro r es he hinv hi hc hk
      cases hcur : r.cur with
      | none => exact ihk r es he hinv hi hc (by simp [RSt.todo, hcur])
      | some re =>
        obtain ⟨ht, ⟨a, rem, hl⟩, _⟩ := hinv.within re hcur
        have hne : i ≠ n := by
          rintro rfl
          obtain ⟨_, _, pc, hpc, hp⟩ := hinv.within re hcur
          rw [hi] at hpc; cases hpc; exact hp
        obtain ⟨r1, es1, b1, b2, b3, b4, b5, _, _, b8⟩ := inside_step (rx := rx) (re' := beh r) (exec_mem he) hinv hcur
        have he1 : ∃ es2, Exec rx (init (n + 1) t b) r1.base es2 := by
          rcases rstep_base b1 with ⟨h1, _⟩ | ⟨x, e, h1, _⟩
          · exact ⟨es, by rw [h1]; exact he⟩
          · exact ⟨_, .snoc he h1⟩
        obtain ⟨es2, he1⟩ := he1
        have hrc : roundCost r1.base = roundCost r.base := by
          unfold roundCost; rw [b4, hl]; dsimp only; rw [b5]
        obtain ⟨m, r'', es'', d1, d2⟩ := ihk r1 es2 he1 b2 (by rw [b8 i hne]; exact hi) (by omega) (by omega)
        exact ⟨m + 1, r'', es1 ++ es'', by simp only [logAlone, b1, d1], d2⟩

/-- C132: a thread waiting in stop() gets out, even if every listener keeps logging: the logging
thread alone comes to its end, and then stop() returns. -/
theorem C132_stop_partial (h : RExec rx n (rinit n t b) r as es) (ht : AllHarmless as) (i : Nat) (hi : r.base.cl[i]? = some .stopJoin)
    (beh : RSt → Reaction) (hb : ∀ r, Harmless (beh r)) :
    ∃ k r1 es1 r2, logAlone rx n beh k r = some (r1, es1) ∧ rstep rx n r1 (.cli i) = some (r2, [.stopped i]) := by
  obtain ⟨k, r1, es1, h1, h2, h3, h4⟩ := ends_alone beh (fun r => (hb r).tame) i _ _ r es h.base (rexec_inv h ht.tame) hi (Nat.le_refl _) (Nat.le_refl _)
  have hne : i ≠ n := by
    rintro rfl
    cases hc : r1.cur with
    | none => have := h2.outside hc; rw [h4] at this; cases this
    | some re =>
      obtain ⟨_, _, pc, hpc, hp⟩ := h2.within re hc
      rw [h4] at hpc; cases hpc; exact hp
  refine ⟨k, r1, es1, { r1 with base := { r1.base with lt := .none, mtxThread := none, cl := r1.base.cl.set i .idle }, cur := r1.cur }, h1, ?_⟩
  simp only [rstep, h2.alive, Bool.false_eq_true, false_or, if_neg hne, viaBase, step, h4, Log.resume, h3]

/-! ### what goes wrong -/

/-- A schedule, executed. -/
def rrun (rx : Rx) (self : Nat) : RSt → List RAct → Option (RSt × List Ev)
  | r, [] => some (r, [])
  | r, a :: as =>
    match rstep rx self r a with
    | none => none
    | some (r', es) =>
      match rrun rx self r' as with
      | none => none
      | some (r'', es') => some (r'', es ++ es')

theorem rexec_of_rrun (as : List RAct) : ∀ {r r' : RSt} {es : List Ev}, rrun rx n r as = some (r', es) → RExec rx n r r' as es := by
  induction as with
  | nil => intro r r' es h; cases h; exact .nil
  | cons a as ih =>
    intro r r' es h
    simp only [rrun] at h
    split at h
    · cases h
    · rename_i r1 es1 h1
      split at h
      · cases h
      · rename_i r2 es2 h2
        cases h
        have := (RExec.snoc .nil h1).append (ih h2)
        simpa using this

def quietly : Reaction := ⟨[], false⟩

/-- One message is logged and its delivery begins; the listener does `re`. -/
def reactActs (re : Reaction) : List RAct :=
  [.call 0 (.addListener 7), .call 0 (.log (demoMsg 1)), .cli 0, .cli 0, .cli 0, .cli 0,
   .log quietly, .log quietly, .log quietly, .log quietly, .log quietly, .log quietly, .log re]

/-- C132 is false: an exception leaving onMessage terminates the program. -/
theorem C132_throw_refuted : ∃ r es, RExec demoRx 1 (rinit 1 false true) r (reactActs ⟨[], true⟩ ++ [.log quietly]) es ∧
    .deliver 7 (demoMsg 1) ∈ es ∧ r.dead = true := by
  refine ⟨_, _, rexec_of_rrun _ rfl, by decide, rfl⟩

/-- ... in every execution in which a listener throws. -/
theorem C132_throw_always_refuted (hc : r.cur = some ⟨[], true⟩) (hi : r.base.cl[n]? = some .idle) (hd : r.dead = false) (re : Reaction) :
    rstep rx n r (.log re) = some ({ r with dead := true }, []) := by
  simp [rstep, hd, hc, inside, hi]

/-- The logging thread is about to end the program: onMessage has made all its calls and throws, or it
called stop(), which is about to join the thread it runs in. -/
def Dying (n : Nat) (r : RSt) : Prop :=
  ∃ cur, r.cur = some cur ∧ ((r.base.cl[n]? = some .idle ∧ cur.ops = [] ∧ cur.throws = true) ∨ r.base.cl[n]? = some .stopJoin)

/-- C132, exactly: the program is terminated by the steps of the logging thread in such states and by
no others; and nothing happens afterwards. -/
theorem C132_dies_partial (a : RAct) :
    (r.dead = true → rstep rx n r a = none) ∧
    (r.dead = false → (∃ re, a = .log re) ∧ Dying n r → ∃ r' es', rstep rx n r a = some (r', es') ∧ r'.dead = true) ∧
    (∀ r' es', rstep rx n r a = some (r', es') → r'.dead = true → (∃ re, a = .log re) ∧ Dying n r) := by
  refine ⟨fun h => ?_, ?_, ?_⟩
  · cases a <;> simp [rstep, h]
  · rintro h ⟨⟨re, rfl⟩, cur, hc, ⟨h1, h2, h3⟩ | h1⟩
    · exact ⟨_, _, by simp only [rstep, h, hc, inside, h1, h2, h3]; rfl, rfl⟩
    · exact ⟨_, _, by simp only [rstep, h, hc, inside, h1]; rfl, rfl⟩
  · intro r' es' h hd
    have via : ∀ {c : Option Reaction} {a : Act} , viaBase rx r c a = some (r', es') → r.dead = true := by
      intro c a h
      unfold viaBase at h
      split at h
      · cases h
      · cases h; exact hd
    cases hr : r.dead with
    | true => cases a <;> simp [rstep, hr] at h
    | false =>
      cases a with
      | call i op => simp only [rstep] at h; split at h; · cases h
                     · rw [via h] at hr; cases hr
      | cli i => simp only [rstep] at h; split at h; · cases h
                 · rw [via h] at hr; cases hr
      | spurious => simp only [rstep] at h; split at h; · cases h
                    · rw [via h] at hr; cases hr
      | log re =>
        refine ⟨⟨re, rfl⟩, ?_⟩
        simp only [rstep, hr, Bool.false_eq_true, if_false] at h
        split at h
        · rename_i cur hc
          refine ⟨cur, hc, ?_⟩
          unfold inside at h
          split at h
          · cases h
          · rename_i hi
            split at h
            · rename_i ho
              split at h
              · rename_i ht; exact .inl ⟨hi, ho, ht⟩
              · cases h; rw [hr] at hd; cases hd
            · rw [via h] at hr; cases hr
          · rename_i hi; exact .inr hi
          · rw [via h] at hr; cases hr
        · split at h
          · cases h
          · cases h; cases hd

/-- C132 is false: stop() called in onMessage terminates the program. -/
theorem C132_stop_inside_refuted : ∃ r es, RExec demoRx 1 (rinit 1 false true) r (reactActs ⟨[.stop], false⟩ ++ List.replicate 5 (.log quietly)) es ∧
    .call 1 .stop ∈ es ∧ r.dead = true := by
  refine ⟨_, _, rexec_of_rrun _ rfl, by decide, rfl⟩

/-- Two threads wait for each other: client `i` joins the logging thread, which is in onMessage and
wants the mutex client `i` holds, for start() or stop(). -/
def Deadlocked (n i : Nat) (r : RSt) : Prop :=
  i ≠ n ∧ r.dead = false ∧ r.base.cl[i]? = some .stopJoin ∧ r.base.mtxThread = some i ∧ (∃ a rem, r.base.lt = .send a rem) ∧
  ((∃ re ops, r.cur = some re ∧ re.ops = .start :: ops ∧ r.base.cl[n]? = some .idle) ∨ (∃ re, r.cur = some re ∧ r.base.cl[n]? = some .stopLock))

/-- Then neither of them moves, now or ever. -/
theorem C132_deadlock_forever_refuted (i : Nat) (hd : Deadlocked n i r) :
    (∀ re, rstep rx n r (.log re) = none) ∧ rstep rx n r (.cli i) = none ∧
    ∀ {r' : RSt} {as : List RAct} {es : List Ev}, RExec rx n r r' as es → Deadlocked n i r' := by
  have stuck : ∀ {r : RSt}, Deadlocked n i r → (∀ re, rstep rx n r (.log re) = none) ∧ rstep rx n r (.cli i) = none := by
    intro r ⟨hne, hde, hj, hm, ⟨a, rem, hl⟩, hc⟩
    refine ⟨fun re => ?_, ?_⟩
    · rcases hc with ⟨re', ops, h1, h2, h3⟩ | ⟨re', h1, h2⟩
      · simp [rstep, hde, h1, inside, h3, h2, viaBase, step, beginCall, hm]
      · simp [rstep, hde, h1, inside, h2, viaBase, step, Log.resume, hm]
    · simp [rstep, hde, hne, viaBase, step, hj, Log.resume, hl]
  refine ⟨(stuck hd).1, (stuck hd).2, ?_⟩
  intro r' as es h
  induction h with
  | nil => exact hd
  | @snoc r1 r2 as1 es1 a es2 hx hs ih =>
    obtain ⟨s1, s2⟩ := stuck ih
    have via : ∀ (x : Act) (s' : St) (e : Ev), x.Foreign n → x.Foreign i → step rx r1.base x = some (s', e) →
        Deadlocked n i { r1 with base := s', cur := r1.cur } := by
      intro x s' e hf hf' hst
      obtain ⟨hne, hde, hj, hm, ⟨a, rem, hl⟩, hc⟩ := ih
      obtain ⟨o1, o2⟩ := other_step hst hf
      obtain ⟨o3, _⟩ := other_step hst hf'
      have hmx : s'.mtxThread = some i := by
        have := step_rel hst
        cases this with
        | stopLock j hj2 hm2 hl2 => rw [hm] at hm2; cases hm2
        | stopJoin j hj2 hl2 => rw [hl] at hl2; cases hl2
        | _ => exact hm
      refine ⟨hne, hde, o3.trans hj, hmx, ⟨a, rem, (o2 a rem hl).1⟩, ?_⟩
      rcases hc with ⟨re', ops, h1, h2, h3⟩ | ⟨re', h1, h2⟩
      · exact .inl ⟨re', ops, h1, h2, o1.trans h3⟩
      · exact .inr ⟨re', h1, o1.trans h2⟩
    have hde := ih.2.1
    cases a with
    | log re => rw [s1 re] at hs; cases hs
    | call j op =>
      simp only [rstep, hde, Bool.false_eq_true, false_or] at hs
      split at hs
      · cases hs
      · rename_i hne
        obtain ⟨s', e, h1, rfl, _⟩ := viaBase_some hs
        by_cases hji : j = i
        · subst hji
          exfalso
          simp only [step, ih.2.2.1] at h1; cases h1
        · exact via (.call j op) s' e hne hji h1
    | cli j =>
      by_cases hji : j = i
      · subst hji; rw [s2] at hs; cases hs
      simp only [rstep, hde, Bool.false_eq_true, false_or] at hs
      split at hs
      · cases hs
      · rename_i hne
        obtain ⟨s', e, h1, rfl, _⟩ := viaBase_some hs
        exact via (.cli j) s' e hne hji h1
    | spurious =>
      simp only [rstep, hde, Bool.false_eq_true, if_false] at hs
      obtain ⟨s', e, h1, rfl, _⟩ := viaBase_some hs
      exact via .spurious s' e trivial trivial h1

/-- C132 is false: such states occur, with start() and with stop() in onMessage. -/
theorem C132_deadlock_refuted :
    (∃ r as es, RExec demoRx 1 (rinit 1 false true) r as es ∧ Deadlocked 1 0 r ∧ (∃ op, op = Op.start ∧ ∃ re, .log re ∈ as ∧ op ∈ re.ops)) ∧
    (∃ r as es, RExec demoRx 1 (rinit 1 false true) r as es ∧ Deadlocked 1 0 r ∧ .call 1 .stop ∈ es) := by
  constructor
  · refine ⟨_, reactActs ⟨[.start], false⟩ ++ [.call 0 .stop, .cli 0, .cli 0, .cli 0], _, rexec_of_rrun _ rfl,
      ⟨by decide, rfl, rfl, rfl, ⟨_, _, rfl⟩, .inl ⟨_, _, rfl, rfl, rfl⟩⟩, .start, rfl, ⟨[.start], false⟩, by decide, by decide⟩
  · refine ⟨_, reactActs ⟨[.stop], false⟩ ++ [.call 0 .stop, .cli 0, .cli 0, .cli 0, .log quietly, .log quietly, .log quietly], _, rexec_of_rrun _ rfl,
      ⟨by decide, rfl, rfl, rfl, ⟨_, _, rfl⟩, .inr ⟨_, rfl, rfl⟩⟩, by decide⟩

/-- Non-vacuity: a listener logs a message of its own and detaches itself while another thread is in
stop(). -/
example : ∃ r as es, RExec demoRx 1 (rinit 1 false true) r as es ∧ AllHarmless as ∧ r.base.cl[0]? = some .stopJoin ∧
    r.cur = some ⟨[.detach 7], false⟩ ∧ accepted es = [demoMsg 1, demoMsg 2] := by
  refine ⟨_, reactActs ⟨[.log (demoMsg 2), .detach 7], false⟩ ++ [.log quietly, .log quietly, .call 0 .stop, .cli 0, .cli 0, .cli 0,
     .log quietly, .log quietly, .log quietly], _, rexec_of_rrun _ rfl, ?_, rfl, rfl, rfl⟩
  intro re hre
  have : re = quietly ∨ re = ⟨[.log (demoMsg 2), .detach 7], false⟩ := by
    simp [reactActs] at hre; rcases hre with h | h | h <;> simp [h, quietly]
  rcases this with rfl | rfl <;> exact ⟨rfl, by decide, by decide⟩

/-! ### C133: coming to rest -/

/-- A step of the logging thread within a round. -/
theorem round_progress {s : St} (hm : Mem s es) (hc : CleanOk s) (hw : ∀ x, s.lt ≠ .wait x) (h0 : s.lt ≠ .top)
    (h1 : s.lt ≠ .none) (h2 : s.lt ≠ .exited) :
    ∃ s' e, step rx s .log = some (s', e) ∧ roundCost s' < roundCost s ∧ s'.queue = s.queue ∧ s'.terminated = s.terminated ∧
      s'.lt ≠ .none ∧ s'.lt ≠ .exited := by
  simp only [step]
  cases hl : s.lt with
  | none => exact absurd hl h1
  | exited => exact absurd hl h2
  | top => exact absurd hl h0
  | wait x => exact absurd hl (hw x)
  | got a =>
    obtain ⟨m, hh⟩ := hm.lt_alive (a := a) (by simp [hl, lHolds])
    simp only [logStep, hl, hh]
    refine ⟨_, _, rfl, ?_, rfl, rfl, by simp, by simp⟩
    simp only [roundCost, hl, listeners, List.length_append]
    omega
  | send a rem =>
    cases rem with
    | nil =>
      obtain ⟨m, hh⟩ := hm.lt_alive (a := a) (by simp [hl, lHolds])
      simp only [logStep, hl, hh]
      refine ⟨_, _, rfl, ?_, rfl, rfl, by simp, by simp⟩
      simp only [roundCost, hl, List.length_nil]; omega
    | cons l rem =>
      simp only [logStep, hl]
      refine ⟨_, _, rfl, ?_, rfl, rfl, by simp, by simp⟩
      simp only [roundCost, hl, List.length_cons]; omega
  | test a l st rem =>
    obtain ⟨m, hh⟩ := hm.lt_alive (a := a) (by simp [hl, lHolds])
    cases st with
    | enabled =>
      simp only [logStep, hl, hh]
      refine ⟨_, _, rfl, ?_, rfl, rfl, by simp only; split <;> simp, by simp only; split <;> simp⟩
      cases (s.lst l).enabled <;> simp only [roundCost, hl, if_true, if_false, Bool.false_eq_true] <;> omega
    | level =>
      simp only [logStep, hl, hh]
      refine ⟨_, _, rfl, ?_, rfl, rfl, by simp only; split <;> simp, by simp only; split <;> simp⟩
      by_cases h : (s.lst l).level ≥ m.level <;> simp only [roundCost, hl, h, if_true, if_false] <;> omega
    | category =>
      simp only [logStep, hl, hh]
      refine ⟨_, _, rfl, ?_, rfl, rfl, by simp only; split <;> simp, by simp only; split <;> simp⟩
      cases checkCategory rx (s.lst l) m.cat <;> simp only [roundCost, hl, if_true, if_false, Bool.false_eq_true] <;> omega
    | call =>
      simp only [logStep, hl, hh]
      refine ⟨_, _, rfl, ?_, rfl, rfl, by simp, by simp⟩
      simp only [roundCost, hl]; omega
  | clean a kept rest =>
    have hk := hc a kept rest hl
    cases rest with
    | cons l rest =>
      simp only [logStep, hl]
      refine ⟨_, _, rfl, ?_, rfl, rfl, by simp, by simp⟩
      simp only [roundCost, hl, List.length_cons]; omega
    | nil =>
      simp only [logStep, hl]
      refine ⟨_, _, rfl, ?_, rfl, rfl, by simp, by simp⟩
      simp only [roundCost, hl, List.length_nil]; omega
  | dispose a =>
    obtain ⟨m, hh⟩ := hm.lt_alive (a := a) (by simp [hl, lHolds])
    simp only [logStep, hl]
    refine ⟨_, _, rfl, ?_, ?_, ?_, by simp, by simp⟩
    · simp only [dispose, hh]
      split <;> simp only [roundCost, hl] <;> omega
    · simp only [dispose, hh]; split <;> rfl
    · simp only [dispose, hh]; split <;> rfl

/-- `op` puts a message into the queue. -/
def Op.logs : Op → Bool
  | .log _ | .logPtr _ => true
  | _ => false

/-- The listener is harmless and does not log. -/
def Silent (re : Reaction) : Prop := Harmless re ∧ ∀ op ∈ re.ops, op.logs = false

/-- A call in onMessage that is neither start(), stop() nor one that logs is one step. -/
theorem self_call_quiet {s : St} {op : Op} (hi : s.cl[n]? = some .idle) (h1 : op ≠ .start) (h2 : op ≠ .stop) (h3 : op.logs = false) :
    ∃ s' e, step rx s (.call n op) = some (s', e) ∧ s'.cl = s.cl ∧ s'.lt = s.lt ∧ s'.active = s.active ∧ s'.queue = s.queue ∧
      s'.terminated = s.terminated := by
  simp only [step, hi]
  cases op with
  | log m => cases h3
  | logPtr m => cases h3
  | stop => exact absurd rfl h2
  | start => exact absurd rfl h1
  | category l re =>
    simp only [beginCall]
    split
    · exact ⟨_, _, rfl, rfl, rfl, rfl, rfl, rfl⟩
    · exact ⟨_, _, rfl, rfl, rfl, rfl, rfl, rfl⟩
  | _ => exact ⟨_, _, rfl, rfl, rfl, rfl, rfl, rfl⟩

theorem rests_alone (beh : RSt → Reaction) (hb : ∀ r, Silent (beh r)) : ∀ (q c k : Nat) (r : RSt) (es : List Ev),
    Exec rx (init (n + 1) t b) r.base es → r.dead = false → r.base.cl[n]? = some .idle → (∀ re, r.cur = some re → Silent re ∧ ∃ a rem, r.base.lt = .send a rem) →
    r.base.terminated = false → r.base.lt ≠ .none → r.base.lt ≠ .exited →
    r.base.queue.length ≤ q → roundCost r.base ≤ c → (∀ re, r.cur = some re → re.ops.length < k) →
    ∃ m r' es', logAlone rx n beh m r = some (r', es') ∧ r'.base.lt = .wait false ∧ r'.base.queue = [] := by
  intro q
  induction q with
  | zero =>
    intro c
    induction c with
    | zero =>
      intro k r es he hde hi hcur ht h1 h2 hq hc hk
      have hlen : r.base.queue = [] := List.length_eq_zero_iff.1 (by omega)
      refine ⟨0, r, [], rfl, ?_, hlen⟩
      revert hc h1 h2
      unfold roundCost
      cases r.base.lt with
      | wait x => cases x <;> simp
      | test a l st rem => cases st <;> simp
      | _ => simp
    | succ c ihc =>
      intro k
      induction k with
      | zero =>
        intro r es he hde hi hcur ht h1 h2 hq hc hk
        have hcn : r.cur = none := by
          cases h : r.cur with
          | none => rfl
          | some re => exact absurd (hk re h) (by omega)
        have hlen : r.base.queue = [] := List.length_eq_zero_iff.1 (by omega)
        by_cases hw : r.base.lt = .wait false
        · exact ⟨0, r, [], rfl, hw, hlen⟩
        by_cases htop : r.base.lt = .top ∨ r.base.lt = .wait true
        · have hst : step rx r.base .log = some ({ r.base with lt := .wait false }, .sleep) := by
            have hh : head r.base = ({ r.base with lt := .wait false }, .sleep) := by unfold head; split <;> simp_all
            simp only [step]
            rcases htop with h | h <;> simp only [logStep, h, hh]
          refine ⟨1, { r with base := { r.base with lt := .wait false }, cur := none }, [.sleep], ?_, rfl, hlen⟩
          simp [logAlone, rstep, hde, hcn, hst, enters]
        · have hw' : ∀ x, r.base.lt ≠ .wait x := by
            intro x h; cases x
            · exact hw h
            · exact htop (.inr h)
          obtain ⟨s', e, b1, b2, b3, b4, b5, b6⟩ := round_progress (rx := rx) (exec_mem he) (exec_clean he) hw' (fun h => htop (.inl h)) h1 h2
          obtain ⟨c1, c2⟩ := log_step_cl b1
          have hs : rstep rx n r (.log (beh r)) = some ({ r with base := s', cur := enters (beh r) e }, [e]) := by
            simp only [rstep, hde, Bool.false_eq_true, if_false, hcn, b1]
          obtain ⟨m, r'', es'', d1, d2⟩ := ihc ((beh r).ops.length + 1) { r with base := s', cur := enters (beh r) e } _ (.snoc he b1) hde
            (by show s'.cl[n]? = _; rw [c1]; exact hi) (by
              intro re hre
              unfold enters at hre
              dsimp only at hre
              split at hre
              · cases hre; exact ⟨hb r, c2 _ _ rfl⟩
              · cases hre) (b4.trans ht) b5 b6 (by show s'.queue.length ≤ 0; rw [b3]; exact hq) (by show roundCost s' ≤ c; omega) (by
              intro re hre
              unfold enters at hre
              dsimp only at hre
              split at hre
              · cases hre; omega
              · cases hre)
          exact ⟨m + 1, r'', [e] ++ es'', by simp only [logAlone, hs, d1], d2⟩
      | succ k ihk =>
        intro r es he hde hi hcur ht h1 h2 hq hc hk
        cases hcn : r.cur with
        | none => exact ihk r es he hde hi hcur ht h1 h2 hq hc (fun re h => by rw [hcn] at h; cases h)
        | some re =>
          obtain ⟨hsil, a, rem, hl⟩ := hcur re hcn
          cases hop : re.ops with
          | nil =>
            have hs : rstep rx n r (.log (beh r)) = some ({ r with cur := none }, []) := by
              simp [rstep, hde, hcn, inside, hi, hop, hsil.1.1]
            obtain ⟨m, r'', es'', d1, d2⟩ := ihk { r with cur := none } es he hde hi (fun _ h => by cases h) ht h1 h2 hq hc (fun _ h => by cases h)
            exact ⟨m + 1, r'', [] ++ es'', by simp only [logAlone, hs, d1], d2⟩
          | cons op ops =>
            have hne1 : op ≠ .start := by rintro rfl; exact hsil.1.2.1 (by simp [hop])
            have hne2 : op ≠ .stop := by rintro rfl; exact hsil.1.2.2 (by simp [hop])
            obtain ⟨s', e, b1, b2, b3, b4, b5, b6⟩ := self_call_quiet (rx := rx) hi hne1 hne2 (hsil.2 op (by simp [hop]))
            have hs : rstep rx n r (.log (beh r)) = some ({ r with base := s', cur := some { re with ops := ops } }, [e]) := by
              simp only [rstep, hde, Bool.false_eq_true, if_false, hcn, inside, hi, hop, viaBase, b1]
            have hlt := hk re hcn
            rw [hop, List.length_cons] at hlt
            obtain ⟨m, r'', es'', d1, d2⟩ := ihk { r with base := s', cur := some { re with ops := ops } } _ (.snoc he b1) hde
              (by show s'.cl[n]? = _; rw [b2]; exact hi) (by
                intro re2 hre
                cases hre
                refine ⟨⟨⟨hsil.1.1, fun h => hsil.1.2.1 (by rw [hop]; exact List.mem_cons_of_mem _ h), fun h => hsil.1.2.2 (by rw [hop]; exact List.mem_cons_of_mem _ h)⟩,
                  fun o ho => hsil.2 o (by rw [hop]; exact List.mem_cons_of_mem _ ho)⟩, a, rem, b3.trans hl⟩)
              (b6.trans ht) (by show s'.lt ≠ _; rw [b3]; exact h1) (by show s'.lt ≠ _; rw [b3]; exact h2)
              (by show s'.queue.length ≤ 0; rw [b5]; exact hq)
              (by show roundCost s' ≤ _; have : roundCost s' = roundCost r.base := by
                    unfold roundCost; rw [b3, hl]; dsimp only; rw [b4]
                  omega)
              (by intro re2 hre; cases hre; show ops.length < k; omega)
            exact ⟨m + 1, r'', [e] ++ es'', by simp only [logAlone, hs, d1], d2⟩
  | succ q ihq =>
    intro c
    induction c with
    | zero =>
      intro k r es he hde hi hcur ht h1 h2 hq hc hk
      have hw : r.base.lt = .wait false := by
        revert hc h1 h2
        unfold roundCost
        cases r.base.lt with
        | wait x => cases x <;> simp
        | test a l st rem => cases st <;> simp
        | _ => simp
      exact ⟨0, r, [], rfl, hw, (exec_wake he).queue hw⟩
    | succ c ihc =>
      intro k
      induction k with
      | zero =>
        intro r es he hde hi hcur ht h1 h2 hq hc hk
        have hcn : r.cur = none := by
          cases h : r.cur with
          | none => rfl
          | some re => exact absurd (hk re h) (by omega)
        by_cases hw : r.base.lt = .wait false
        · exact ⟨0, r, [], rfl, hw, (exec_wake he).queue hw⟩
        by_cases htop : r.base.lt = .top ∨ r.base.lt = .wait true
        · cases hqq : r.base.queue with
          | nil =>
            have hst : step rx r.base .log = some ({ r.base with lt := .wait false }, .sleep) := by
              have hh : head r.base = ({ r.base with lt := .wait false }, .sleep) := by unfold head; split <;> simp_all
              simp only [step]
              rcases htop with h | h <;> simp only [logStep, h, hh]
            refine ⟨1, { r with base := { r.base with lt := .wait false }, cur := none }, [.sleep], ?_, rfl, hqq⟩
            simp [logAlone, rstep, hde, hcn, hst, enters]
          | cons x qs =>
            have hst : step rx r.base .log = some ({ r.base with queue := qs, lt := .got x }, .take) := by
              have hh : head r.base = ({ r.base with queue := qs, lt := .got x }, .take) := by unfold head; split <;> simp_all
              simp only [step]
              rcases htop with h | h <;> simp only [logStep, h, hh]
            have hs : rstep rx n r (.log (beh r)) = some ({ r with base := { r.base with queue := qs, lt := .got x }, cur := none }, [.take]) := by
              simp [rstep, hde, hcn, hst, enters]
            have hlen : qs.length ≤ q := by rw [hqq, List.length_cons] at hq; omega
            obtain ⟨m, r'', es'', d1, d2⟩ := ihq _ 0 { r with base := { r.base with queue := qs, lt := .got x }, cur := none } _ (.snoc he hst) hde hi
              (fun _ h => by cases h) ht (by simp) (by simp) hlen (Nat.le_refl _) (fun _ h => by cases h)
            exact ⟨m + 1, r'', [.take] ++ es'', by simp only [logAlone, hs, d1], d2⟩
        · have hw' : ∀ x, r.base.lt ≠ .wait x := by
            intro x h; cases x
            · exact hw h
            · exact htop (.inr h)
          obtain ⟨s', e, b1, b2, b3, b4, b5, b6⟩ := round_progress (rx := rx) (exec_mem he) (exec_clean he) hw' (fun h => htop (.inl h)) h1 h2
          obtain ⟨c1, c2⟩ := log_step_cl b1
          have hs : rstep rx n r (.log (beh r)) = some ({ r with base := s', cur := enters (beh r) e }, [e]) := by
            simp only [rstep, hde, Bool.false_eq_true, if_false, hcn, b1]
          obtain ⟨m, r'', es'', d1, d2⟩ := ihc ((beh r).ops.length + 1) { r with base := s', cur := enters (beh r) e } _ (.snoc he b1) hde
            (by show s'.cl[n]? = _; rw [c1]; exact hi) (by
              intro re hre
              unfold enters at hre
              dsimp only at hre
              split at hre
              · cases hre; exact ⟨hb r, c2 _ _ rfl⟩
              · cases hre) (b4.trans ht) b5 b6 (by show s'.queue.length ≤ _; rw [b3]; exact hq) (by show roundCost s' ≤ c; omega) (by
              intro re hre
              unfold enters at hre
              dsimp only at hre
              split at hre
              · cases hre; omega
              · cases hre)
          exact ⟨m + 1, r'', [e] ++ es'', by simp only [logAlone, hs, d1], d2⟩
      | succ k ihk =>
        intro r es he hde hi hcur ht h1 h2 hq hc hk
        cases hcn : r.cur with
        | none => exact ihk r es he hde hi hcur ht h1 h2 hq hc (fun re h => by rw [hcn] at h; cases h)
        | some re =>
          obtain ⟨hsil, a, rem, hl⟩ := hcur re hcn
          cases hop : re.ops with
          | nil =>
            have hs : rstep rx n r (.log (beh r)) = some ({ r with cur := none }, []) := by
              simp [rstep, hde, hcn, inside, hi, hop, hsil.1.1]
            obtain ⟨m, r'', es'', d1, d2⟩ := ihk { r with cur := none } es he hde hi (fun _ h => by cases h) ht h1 h2 hq hc (fun _ h => by cases h)
            exact ⟨m + 1, r'', [] ++ es'', by simp only [logAlone, hs, d1], d2⟩
          | cons op ops =>
            have hne1 : op ≠ .start := by rintro rfl; exact hsil.1.2.1 (by simp [hop])
            have hne2 : op ≠ .stop := by rintro rfl; exact hsil.1.2.2 (by simp [hop])
            obtain ⟨s', e, b1, b2, b3, b4, b5, b6⟩ := self_call_quiet (rx := rx) hi hne1 hne2 (hsil.2 op (by simp [hop]))
            have hs : rstep rx n r (.log (beh r)) = some ({ r with base := s', cur := some { re with ops := ops } }, [e]) := by
              simp only [rstep, hde, Bool.false_eq_true, if_false, hcn, inside, hi, hop, viaBase, b1]
            have hlt := hk re hcn
            rw [hop, List.length_cons] at hlt
            obtain ⟨m, r'', es'', d1, d2⟩ := ihk { r with base := s', cur := some { re with ops := ops } } _ (.snoc he b1) hde
              (by show s'.cl[n]? = _; rw [b2]; exact hi) (by
                intro re2 hre
                cases hre
                refine ⟨⟨⟨hsil.1.1, fun h => hsil.1.2.1 (by rw [hop]; exact List.mem_cons_of_mem _ h), fun h => hsil.1.2.2 (by rw [hop]; exact List.mem_cons_of_mem _ h)⟩,
                  fun o ho => hsil.2 o (by rw [hop]; exact List.mem_cons_of_mem _ ho)⟩, a, rem, b3.trans hl⟩)
              (b6.trans ht) (by show s'.lt ≠ _; rw [b3]; exact h1) (by show s'.lt ≠ _; rw [b3]; exact h2)
              (by show s'.queue.length ≤ _; rw [b5]; exact hq)
              (by show roundCost s' ≤ _; have : roundCost s' = roundCost r.base := by
                    unfold roundCost; rw [b3, hl]; dsimp only; rw [b4]
                  omega)
              (by intro re2 hre; cases hre; show ops.length < k; omega)
            exact ⟨m + 1, r'', [e] ++ es'', by simp only [logAlone, hs, d1], d2⟩

/-- C133: once no thread logs, stop() has not been called and listeners do not log, the logging
thread alone empties the queue and goes to sleep: whatever the listeners do otherwise. -/
theorem C133_drains_partial (h : RExec rx n (rinit n t b) r as es) (ht : AllHarmless as) (hc : r.cur = none)
    (hterm : r.base.terminated = false) (hl : r.base.lt ≠ .none) (beh : RSt → Reaction) (hb : ∀ r, Silent (beh r)) :
    ∃ k r' es', logAlone rx n beh k r = some (r', es') ∧ r'.base.lt = .wait false ∧ r'.base.queue = [] := by
  have hinv := rexec_inv h ht.tame
  refine rests_alone beh hb _ _ 0 r es h.base hinv.alive (hinv.outside hc) (fun re hre => by rw [hc] at hre; cases hre) hterm hl ?_
    (Nat.le_refl _) (Nat.le_refl _) (fun re hre => by rw [hc] at hre; cases hre)
  intro hx
  have := (exec_wake h.base).exited hx
  rw [hterm] at this; cases this

/-- Steps of the logging thread alone are an execution. -/
theorem rexec_of_alone (beh : RSt → Reaction) : ∀ (k : Nat) {r r' : RSt} {es : List Ev}, logAlone rx n beh k r = some (r', es) →
    ∃ as, RExec rx n r r' as es ∧ ∀ a ∈ as, ∃ r, a = .log (beh r) := by
  intro k
  induction k with
  | zero => intro r r' es h; cases h; exact ⟨[], .nil, by simp⟩
  | succ k ih =>
    intro r r' es h
    simp only [logAlone] at h
    split at h
    · cases h
    · rename_i r1 es1 h1
      split at h
      · cases h
      · rename_i r2 es2 h2
        cases h
        obtain ⟨as, a1, a2⟩ := ih h2
        refine ⟨[.log (beh r)] ++ as, ?_, ?_⟩
        · have := (RExec.snoc .nil h1).append a1
          simpa using this
        · intro a ha
          rcases List.mem_append.1 ha with ha | ha
          · exact ⟨r, by simpa using ha⟩
          · exact a2 a ha

/-- The state when message `x` waits in the queue, `y` on top of the pool. -/
def feed (k : Nat) (hp : Addr → Option Msg) (x y : Addr) : RSt :=
  { base := { level := 5, unpooled := 0, destroyed := 0, maxQ := 1, received := k, queue := [x], terminated := false,
              pool := List.range 62 ++ [y], pending := [], active := [7], mtxThread := none, lt := .top, cl := [.idle, .idle],
              lst := fun _ => {}, heap := hp, next := 64, external := 0 },
    cur := none, dead := false }

/-- The listener that logs a message for each one it gets. -/
def echo : Reaction := ⟨[.log (demoMsg 1)], false⟩

def feedEs : List Ev :=
  [.take, .dispatch (demoMsg 1) [7], .tau, .tested 7 (demoMsg 1) .enabled true, .tested 7 (demoMsg 1) .level true,
   .tested 7 (demoMsg 1) .category true, .deliver 7 (demoMsg 1), .call 1 (.log (demoMsg 1)), .pass 1 (demoMsg 1), .tau, .tau,
   .accept 1 (demoMsg 1), .done (demoMsg 1), .tau, .tau, .tau]

theorem feed_round (k : Nat) (hp : Addr → Option Msg) (x y : Addr) (hx : hp x = some (demoMsg 1)) (hy : hp y = some m0) (hne : x ≠ y) :
    logAlone demoRx 1 (fun _ => echo) 17 (feed k hp x y) = some (feed (k + 1) (setHeap hp y (some (demoMsg 1))) y x, feedEs) := by
  have h1 : setHeap hp y (some (demoMsg 1)) x = some (demoMsg 1) := by rw [setHeap_ne _ _ hne]; exact hx
  have h2 : (List.range 62).length = 62 := by simp
  simp only [demoMsg] at h1 hx
  simp [logAlone, rstep, feed, inside, viaBase, step, logStep, head, beginCall, Log.resume, enters, echo, hx, hy, h1, allocate, dispose, h2,
    checkCategory, demoMsg, threshold, notify, feedEs]

/-- A call of log() by a thread of the program. -/
def callerLogs : Ev → Bool
  | .call i (.log _) | .call i (.logPtr _) => i = 0
  | _ => false

theorem feed_from (j : Nat) : ∀ (k : Nat) (hp : Addr → Option Msg) (x y : Addr) (m0 : Msg), hp x = some (demoMsg 1) → hp y = some m0 → x ≠ y →
    ∃ r as es, RExec demoRx 1 (feed k hp x y) r as es ∧ AllHarmless as ∧ es.filter callerLogs = [] ∧ (dispatched es).length = j ∧ r.base.queue ≠ [] ∧
      r.base.terminated = false := by
  induction j with
  | zero => intro k hp x y m0 _ _ _; exact ⟨_, [], [], .nil, by simp [AllHarmless], rfl, rfl, by simp [feed], rfl⟩
  | succ j ih =>
    intro k hp x y m0 hx hy hne
    obtain ⟨as, a1, a2⟩ := rexec_of_alone _ _ (feed_round k hp x y hx hy hne)
    have hx' : setHeap hp y (some (demoMsg 1)) x = some (demoMsg 1) := by rw [setHeap_ne _ _ hne]; exact hx
    obtain ⟨r, as', es', b1, b2, b3, b4, b5⟩ := ih (k + 1) _ y x _ (setHeap_self _ _ _) hx' hne.symm
    refine ⟨r, as ++ as', feedEs ++ es', a1.append b1, ?_, ?_, ?_, b5⟩
    · intro re hre
      rcases List.mem_append.1 hre with h | h
      · obtain ⟨_, h⟩ := a2 _ h
        cases h
        exact ⟨rfl, by simp [echo], by simp [echo]⟩
      · exact b2 re h
    · rw [List.filter_append, b3]; rfl
    · have : dispatched (feedEs ++ es') = dispatched feedEs ++ dispatched es' := by simp [dispatched]
      rw [this, List.length_append, b4]
      show 1 + j = j + 1
      omega

/-- C133 is false: a listener that logs one message for each one it gets keeps the queue full for
ever. One call of log() is made, and for every `j` there is an execution in which `j` messages have
been served and another waits. -/
theorem C133_feedback_refuted (j : Nat) : ∃ r as es, RExec demoRx 1 (rinit 1 false true) r as es ∧ AllHarmless as ∧
    (es.filter callerLogs).length = 1 ∧ (dispatched es).length = j + 1 ∧ r.base.queue ≠ [] ∧ r.base.terminated = false := by
  have h0 : ∃ hp es0, rrun demoRx 1 (rinit 1 false true) (reactActs echo ++ List.replicate 10 (.log quietly)) = some (feed 1 hp 62 63, es0) ∧
      hp 62 = some (demoMsg 1) ∧ hp 63 = some (demoMsg 1) ∧ (es0.filter callerLogs).length = 1 ∧ (dispatched es0).length = 1 :=
    ⟨_, _, rfl, rfl, rfl, rfl, rfl⟩
  obtain ⟨hp, es0, h1, h2, h3, h4, h5⟩ := h0
  obtain ⟨r, as, es, b1, b2, b3, b4, b5⟩ := feed_from j 1 hp 62 63 _ h2 h3 (by decide)
  refine ⟨r, _, es0 ++ es, (rexec_of_rrun _ h1).append b1, ?_, ?_, ?_, b5⟩
  · intro re hre
    rcases List.mem_append.1 hre with h | h
    · have : re = quietly ∨ re = echo := by
        simp [reactActs] at h
        first
        | (rcases h with h | h | h <;> simp [h])
        | (rcases h with h | h <;> simp [h])
      rcases this with rfl | rfl <;> exact ⟨rfl, by decide, by decide⟩
    · exact b2 re h
  · rw [List.filter_append, b3, List.append_nil]; exact h4
  · have : dispatched (es0 ++ es) = dispatched es0 ++ dispatched es := by simp [dispatched]
    rw [this, List.length_append, h5, b4]; omega

/-- Non-vacuity of C133_drains_partial: two messages wait, and the listener detaches itself when it
gets one. -/
example : ∃ r as es, RExec demoRx 1 (rinit 1 false true) r as es ∧ AllHarmless as ∧ r.cur = none ∧ r.base.terminated = false ∧ r.base.lt = .top ∧
    r.base.queue.length = 2 ∧ ∀ r : RSt, Silent ((fun _ => ⟨[.detach 7], false⟩ : RSt → Reaction) r) :=
  ⟨_, [.call 0 (.addListener 7), .call 0 (.log (demoMsg 1)), .cli 0, .cli 0, .cli 0, .cli 0, .call 0 (.log (demoMsg 2)), .cli 0, .cli 0, .cli 0, .cli 0],
    _, rexec_of_rrun _ rfl, by simp [AllHarmless], rfl, rfl, rfl, rfl, fun _ => ⟨⟨rfl, by simp, by simp⟩, by simp [Op.logs]⟩⟩

end Falcon.Log
