import Verif.Model.LogReact
import Verif.Proofs.LogRun
import Verif.Proofs.LogStop
/-
Executions with reacting listeners: projection to the base system, invariant, progress.
-/
namespace Falcon.Log

theorem viaBase_some {rx : Rx} {r r' : RSt} {cur : Option Reaction} {a : Act} {es : List Ev} (h : viaBase rx r cur a = some (r', es)) :
    ∃ s' e, step rx r.base a = some (s', e) ∧ r' = { r with base := s', cur := cur } ∧ es = [e] := by
  unfold viaBase at h
  split at h
  · cases h
  · rename_i s' e hs
    cases h; exact ⟨s', e, hs, rfl, rfl⟩

/-- A step of the reacting system is at most one step of the base system. -/
theorem rstep_base {rx : Rx} {self : Nat} {r r' : RSt} {a : RAct} {es : List Ev} (h : rstep rx self r a = some (r', es)) :
    (r'.base = r.base ∧ es = []) ∨ ∃ b e, step rx r.base b = some (r'.base, e) ∧ es = [e] := by
  cases a with
  | call i op =>
    simp only [rstep] at h
    split at h
    · cases h
    · obtain ⟨s', e, h1, rfl, rfl⟩ := viaBase_some h; exact .inr ⟨_, e, h1, rfl⟩
  | cli i =>
    simp only [rstep] at h
    split at h
    · cases h
    · obtain ⟨s', e, h1, rfl, rfl⟩ := viaBase_some h; exact .inr ⟨_, e, h1, rfl⟩
  | spurious =>
    simp only [rstep] at h
    split at h
    · cases h
    · obtain ⟨s', e, h1, rfl, rfl⟩ := viaBase_some h; exact .inr ⟨_, e, h1, rfl⟩
  | log re =>
    simp only [rstep] at h
    split at h
    · cases h
    split at h
    · rename_i cur _
      unfold inside at h
      split at h
      · cases h
      · split at h
        · split at h <;> cases h <;> exact .inl ⟨rfl, rfl⟩
        · obtain ⟨s', e, h1, rfl, rfl⟩ := viaBase_some h; exact .inr ⟨_, e, h1, rfl⟩
      · cases h; exact .inl ⟨rfl, rfl⟩
      · obtain ⟨s', e, h1, rfl, rfl⟩ := viaBase_some h; exact .inr ⟨_, e, h1, rfl⟩
    · split at h
      · cases h
      · rename_i s' e hs
        cases h; exact .inr ⟨_, e, hs, rfl⟩

theorem RExec.base {rx : Rx} {self : Nat} {r0 r : RSt} {as : List RAct} {es : List Ev} (h : RExec rx self r0 r as es) :
    Exec rx r0.base r.base es := by
  induction h with
  | nil => exact .nil
  | snoc _ hs ih =>
    rcases rstep_base hs with ⟨h1, h2⟩ | ⟨b, e, h1, h2⟩
    · rw [h1, h2, List.append_nil]; exact ih
    · rw [h2]; exact .snoc ih h1

theorem RExec.append {rx : Rx} {self : Nat} {r0 r1 r2 : RSt} {as1 as2 : List RAct} {es1 es2 : List Ev}
    (h1 : RExec rx self r0 r1 as1 es1) (h2 : RExec rx self r1 r2 as2 es2) : RExec rx self r0 r2 (as1 ++ as2) (es1 ++ es2) := by
  induction h2 with
  | nil => simpa using h1
  | snoc _ hs ih => rw [← List.append_assoc, ← List.append_assoc]; exact .snoc ih hs

/-- A reaction that neither throws nor starts or stops the service. -/
def Reaction.Tame (re : Reaction) : Prop := re.throws = false ∧ ∀ op ∈ re.ops, op ≠ .start ∧ op ≠ .stop

def RAct.Tame : RAct → Prop
  | .log re => re.Tame
  | _       => True

/-- Positions inside a call other than stop(). -/
def CPc.plain : CPc → Prop
  | .stopSet | .stopNotify | .stopLock | .stopJoin => False
  | _ => True

/-- Steps the thread has still to take in its call. -/
def CPc.work : CPc → Nat
  | .check _ => 4
  | .alloc _ => 3
  | .construct _ _ => 2
  | .extNew _ => 2
  | .enqueue _ _ => 1
  | _ => 0

structure RInv (n : Nat) (r : RSt) : Prop where
  alive  : r.dead = false
  outside : r.cur = none → r.base.cl[n]? = some .idle
  within : ∀ re, r.cur = some re → re.Tame ∧ (∃ a rem, r.base.lt = .send a rem) ∧ ∃ pc, r.base.cl[n]? = some pc ∧ pc.plain

/-- A step of a thread other than number `n`, and not of the logging thread. -/
def Act.Foreign (n : Nat) : Act → Prop
  | .call i _ => i ≠ n
  | .cli i => i ≠ n
  | .log => False
  | .spurious => True

/-- Steps of other threads leave the logging thread's position in its call, and it where it is
while it is in onMessage. -/
theorem other_step {rx : Rx} {s s' : St} {a : Act} {e : Ev} {n : Nat} (hs : step rx s a = some (s', e))
    (ha : a.Foreign n) :
    s'.cl[n]? = s.cl[n]? ∧ (∀ a rem, s.lt = .send a rem → s'.lt = .send a rem ∧ s'.active = s.active) := by
  cases a with
  | log => exact ha.elim
  | spurious =>
    simp only [step] at hs
    split at hs
    · rename_i hl
      cases hs
      exact ⟨rfl, fun a rem h => by rw [hl] at h; cases h⟩
    · cases hs
  | call i op =>
    have hne : i ≠ n := ha
    simp only [step] at hs
    split at hs
    · cases op with
      | log m => cases hs; exact ⟨List.getElem?_set_ne hne, fun a rem h => ⟨h, rfl⟩⟩
      | logPtr m => cases hs; exact ⟨List.getElem?_set_ne hne, fun a rem h => ⟨h, rfl⟩⟩
      | stop => cases hs; exact ⟨List.getElem?_set_ne hne, fun a rem h => ⟨h, rfl⟩⟩
      | addListener l => cases hs; exact ⟨rfl, fun a rem h => ⟨h, rfl⟩⟩
      | level l => cases hs; exact ⟨rfl, fun a rem h => ⟨h, rfl⟩⟩
      | enable l b => cases hs; exact ⟨rfl, fun a rem h => ⟨h, rfl⟩⟩
      | detach l => cases hs; exact ⟨rfl, fun a rem h => ⟨h, rfl⟩⟩
      | llevel l k => cases hs; exact ⟨rfl, fun a rem h => ⟨h, rfl⟩⟩
      | category l re =>
        simp only [beginCall] at hs
        split at hs <;> cases hs <;> exact ⟨rfl, fun a rem h => ⟨h, rfl⟩⟩
      | start =>
        simp only [beginCall] at hs
        split at hs
        · cases hs
        · split at hs
          · rename_i hl
            cases hs
            exact ⟨rfl, fun a rem h => by rw [hl] at h; cases h⟩
          · cases hs; exact ⟨rfl, fun a rem h => ⟨h, rfl⟩⟩
    · cases hs
  | cli i =>
    have hne : i ≠ n := ha
    simp only [step] at hs
    split at hs
    · rename_i pc hi
      cases pc with
      | idle => cases hs
      | check m =>
        simp only [resume] at hs
        split at hs <;> cases hs <;> exact ⟨List.getElem?_set_ne hne, fun a rem h => ⟨h, rfl⟩⟩
      | alloc m =>
        simp only [resume, allocate] at hs
        split at hs <;> cases hs <;> exact ⟨List.getElem?_set_ne hne, fun a rem h => ⟨h, rfl⟩⟩
      | construct m a =>
        simp only [resume] at hs
        split at hs <;> cases hs
        · exact ⟨rfl, fun a rem h => ⟨h, rfl⟩⟩
        · exact ⟨List.getElem?_set_ne hne, fun a rem h => ⟨h, rfl⟩⟩
      | extNew m => cases hs; exact ⟨List.getElem?_set_ne hne, fun a rem h => ⟨h, rfl⟩⟩
      | enqueue m a =>
        cases hs
        exact ⟨List.getElem?_set_ne hne, fun a rem h => ⟨by show notify s.lt = _; rw [h]; rfl, rfl⟩⟩
      | stopSet => cases hs; exact ⟨List.getElem?_set_ne hne, fun a rem h => ⟨h, rfl⟩⟩
      | stopNotify =>
        cases hs
        exact ⟨List.getElem?_set_ne hne, fun a rem h => ⟨by show notify s.lt = _; rw [h]; rfl, rfl⟩⟩
      | stopLock =>
        simp only [resume] at hs
        split at hs
        · cases hs
        · split at hs
          · cases hs; exact ⟨List.getElem?_set_ne hne, fun a rem h => ⟨h, rfl⟩⟩
          · cases hs; exact ⟨List.getElem?_set_ne hne, fun a rem h => ⟨h, rfl⟩⟩
      | stopJoin =>
        simp only [resume] at hs
        split at hs
        · rename_i hl
          cases hs
          exact ⟨List.getElem?_set_ne hne, fun a rem h => by rw [hl] at h; cases h⟩
        · cases hs
    · cases hs

/-- The logging thread's own step does not touch the clients, and leaves onMessage behind. -/
theorem log_step_cl {rx : Rx} {s s' : St} {e : Ev} (hs : step rx s .log = some (s', e)) :
    s'.cl = s.cl ∧ (∀ l m, e = .deliver l m → ∃ a rem, s'.lt = .send a rem) := by
  simp only [step, Log.logStep] at hs
  split at hs
  · cases hs
  · cases hs
  · unfold head at hs; split at hs <;> cases hs <;> exact ⟨rfl, by intros; contradiction⟩
  · unfold head at hs; split at hs <;> cases hs <;> exact ⟨rfl, by intros; contradiction⟩
  · cases hs
  · split at hs <;> cases hs <;> exact ⟨rfl, by intros; contradiction⟩
  · cases hs; exact ⟨rfl, by intros; contradiction⟩
  · split at hs <;> cases hs <;> exact ⟨rfl, by intros; contradiction⟩
  · split at hs
    · cases hs; exact ⟨rfl, by intros; contradiction⟩
    · split at hs <;> cases hs
      · exact ⟨rfl, by intros; contradiction⟩
      · exact ⟨rfl, by intros; contradiction⟩
      · exact ⟨rfl, by intros; contradiction⟩
      · exact ⟨rfl, fun _ _ _ => ⟨_, _, rfl⟩⟩
  · cases hs; exact ⟨rfl, by intros; contradiction⟩
  · cases hs; exact ⟨rfl, by intros; contradiction⟩
  · cases hs
    refine ⟨?_, ?_⟩
    · unfold dispose; split
      · rfl
      · split <;> rfl
    · intro l m h
      unfold dispose at h
      split at h
      · cases h
      · split at h <;> cases h

/-- A call begun inside onMessage, other than start() and stop(): possible, and leaves the logging
thread where it is. -/
theorem self_call {rx : Rx} {s : St} {n : Nat} {op : Op} (hi : s.cl[n]? = some .idle) (h1 : op ≠ .start) (h2 : op ≠ .stop) :
    ∃ s' e pc, step rx s (.call n op) = some (s', e) ∧ s'.cl[n]? = some pc ∧ pc.plain ∧ pc.work ≤ 4 ∧ s'.lt = s.lt ∧ s'.active = s.active ∧
      s'.terminated = s.terminated ∧ s'.mtxThread = s.mtxThread ∧ (∀ i, i ≠ n → s'.cl[i]? = s.cl[i]?) := by
  simp only [step, hi]
  cases op with
  | log m => exact ⟨_, _, _, rfl, set_self? hi, trivial, Nat.le_refl _, rfl, rfl, rfl, rfl, fun i h => List.getElem?_set_ne (Ne.symm h)⟩
  | logPtr m => exact ⟨_, _, _, rfl, set_self? hi, trivial, (by show 2 ≤ 4; omega), rfl, rfl, rfl, rfl, fun i h => List.getElem?_set_ne (Ne.symm h)⟩
  | stop => exact absurd rfl h2
  | start => exact absurd rfl h1
  | addListener l => exact ⟨_, _, _, rfl, hi, trivial, by decide, rfl, rfl, rfl, rfl, fun i h => rfl⟩
  | level l => exact ⟨_, _, _, rfl, hi, trivial, by decide, rfl, rfl, rfl, rfl, fun i h => rfl⟩
  | enable l b => exact ⟨_, _, _, rfl, hi, trivial, by decide, rfl, rfl, rfl, rfl, fun i h => rfl⟩
  | detach l => exact ⟨_, _, _, rfl, hi, trivial, by decide, rfl, rfl, rfl, rfl, fun i h => rfl⟩
  | llevel l k => exact ⟨_, _, _, rfl, hi, trivial, by decide, rfl, rfl, rfl, rfl, fun i h => rfl⟩
  | category l re =>
    simp only [beginCall]
    split
    · exact ⟨_, _, _, rfl, hi, trivial, by decide, rfl, rfl, rfl, rfl, fun i h => rfl⟩
    · exact ⟨_, _, _, rfl, hi, trivial, by decide, rfl, rfl, rfl, rfl, fun i h => rfl⟩

/-- A call continued inside onMessage. -/
theorem self_cli {rx : Rx} {s : St} {es : List Ev} {n : Nat} {pc : CPc} {a : Addr} {rem : List LId} (hm : Mem s es) (hi : s.cl[n]? = some pc)
    (hl : s.lt = .send a rem) (hp : pc.plain) (h0 : pc ≠ .idle) :
    ∃ s' e pc', step rx s (.cli n) = some (s', e) ∧ s'.cl[n]? = some pc' ∧ pc'.plain ∧ pc'.work < pc.work ∧ s'.lt = s.lt ∧ s'.active = s.active ∧
      s'.terminated = s.terminated ∧ s'.mtxThread = s.mtxThread ∧ (∀ i, i ≠ n → s'.cl[i]? = s.cl[i]?) := by
  simp only [step, hi]
  cases pc with
  | idle => exact absurd rfl h0
  | check m =>
    simp only [resume]
    split
    · exact ⟨_, _, _, rfl, set_self? hi, trivial, (by show 0 < 4; omega), rfl, rfl, rfl, rfl, fun i h => List.getElem?_set_ne (Ne.symm h)⟩
    · exact ⟨_, _, _, rfl, set_self? hi, trivial, (by show 3 < 4; omega), rfl, rfl, rfl, rfl, fun i h => List.getElem?_set_ne (Ne.symm h)⟩
  | alloc m =>
    simp only [resume, allocate]
    split
    · exact ⟨_, _, _, rfl, set_self? hi, trivial, (by show 2 < 3; omega), rfl, rfl, rfl, rfl, fun i h => List.getElem?_set_ne (Ne.symm h)⟩
    · exact ⟨_, _, _, rfl, set_self? hi, trivial, (by show 2 < 3; omega), rfl, rfl, rfl, rfl, fun i h => List.getElem?_set_ne (Ne.symm h)⟩
  | construct m a =>
    obtain ⟨_, _, ⟨old, ho⟩, _⟩ := hm.notqueue_of_cl hi (a := a) (by simp [cHolds])
    simp only [resume, ho]
    exact ⟨_, _, _, rfl, set_self? hi, trivial, (by show 1 < 2; omega), rfl, rfl, rfl, rfl, fun i h => List.getElem?_set_ne (Ne.symm h)⟩
  | extNew m =>
    simp only [resume]
    exact ⟨_, _, _, rfl, set_self? hi, trivial, (by show 1 < 2; omega), rfl, rfl, rfl, rfl, fun i h => List.getElem?_set_ne (Ne.symm h)⟩
  | enqueue m a =>
    simp only [resume]
    exact ⟨_, _, _, rfl, set_self? hi, trivial, (by show 0 < 1; omega), (by show notify s.lt = s.lt; rw [hl]; rfl), rfl, rfl, rfl,
      fun i h => List.getElem?_set_ne (Ne.symm h)⟩
  | stopSet => exact hp.elim
  | stopNotify => exact hp.elim
  | stopLock => exact hp.elim
  | stopJoin => exact hp.elim

/-- What remains to be done in onMessage, at most. -/
def RSt.todo (n : Nat) (r : RSt) : Nat :=
  match r.cur with
  | none => 0
  | some re => 5 * re.ops.length + 1 + match r.base.cl[n]? with | some pc => pc.work | none => 0

/-- A step inside onMessage: always possible, and it brings the return nearer. -/
theorem inside_step {rx : Rx} {n : Nat} {r : RSt} {re re' : Reaction} {es : List Ev} (hm : Mem r.base es) (h : RInv n r) (hc : r.cur = some re) :
    ∃ r' es', rstep rx n r (.log re') = some (r', es') ∧ RInv n r' ∧ r'.todo n < r.todo n ∧
      r'.base.lt = r.base.lt ∧ r'.base.active = r.base.active ∧ r'.base.terminated = r.base.terminated ∧ r'.base.mtxThread = r.base.mtxThread ∧
      (∀ i, i ≠ n → r'.base.cl[i]? = r.base.cl[i]?) := by
  obtain ⟨ht, ⟨a, rem, hl⟩, pc, hi, hp⟩ := h.within re hc
  have hstep : rstep rx n r (.log re') = inside rx n r re := by
    simp only [rstep, h.alive, Bool.false_eq_true, if_false, hc]
  rw [hstep]
  by_cases h0 : pc = .idle
  · subst h0
    cases hop : re.ops with
    | nil =>
      refine ⟨{ r with cur := none }, [], ?_, ⟨h.alive, fun _ => hi, fun _ h => by cases h⟩, ?_, rfl, rfl, rfl, rfl, fun _ _ => rfl⟩
      · simp only [inside, hi, hop, ht.1, Bool.false_eq_true, if_false]
      · simp only [RSt.todo, hc]; omega
    | cons op ops =>
      have htop := ht.2 op (by simp [hop])
      obtain ⟨s', e, pc', b1, b2, b3, b4, b5, b6, b7, b8, b9⟩ := self_call (rx := rx) hi htop.1 htop.2
      refine ⟨{ r with base := s', cur := some { re with ops := ops } }, [e], ?_, ⟨h.alive, (fun h => by cases h), ?_⟩, ?_, b5, b6, b7, b8, b9⟩
      · simp only [inside, hi, hop, viaBase, b1]
      · intro re2 h2
        cases h2
        exact ⟨⟨ht.1, fun o ho => ht.2 o (by simp [hop, ho])⟩, ⟨a, rem, by rw [← hl]; exact b5⟩, pc', b2, b3⟩
      · simp only [RSt.todo, hc, hi, b2, hop, List.length_cons]; omega
  · obtain ⟨s', e, pc', b1, b2, b3, b4, b5, b6, b7, b8, b9⟩ := self_cli (rx := rx) hm hi hl hp h0
    refine ⟨{ r with base := s', cur := some re }, [e], ?_, ⟨h.alive, (fun h => by cases h), ?_⟩, ?_, b5, b6, b7, b8, b9⟩
    · have : inside rx n r re = viaBase rx r (some re) (.cli n) := by
        simp only [inside, hi]
        cases pc <;> first | rfl | exact absurd rfl h0 | exact hp.elim
      rw [this, viaBase, b1]
    · intro re2 h2
      cases h2
      exact ⟨ht, ⟨a, rem, by rw [← hl]; exact b5⟩, pc', b2, b3⟩
    · simp only [RSt.todo, hc, hi, b2]; omega

/-- A step of another thread. -/
theorem RInv.via {rx : Rx} {n : Nat} {r : RSt} {a : Act} {s' : St} {e : Ev} (h : RInv n r) (hs : step rx r.base a = some (s', e))
    (ha : a.Foreign n) :
    RInv n { r with base := s', cur := r.cur } ∧ ({ r with base := s', cur := r.cur } : RSt).todo n = r.todo n := by
  obtain ⟨h1, h2⟩ := other_step hs ha
  refine ⟨⟨h.alive, fun hc => h1.trans (h.outside hc), ?_⟩, ?_⟩
  · intro re hc
    obtain ⟨ht, ⟨a, rem, hl⟩, pc, hi, hp⟩ := h.within re hc
    exact ⟨ht, ⟨a, rem, (h2 a rem hl).1⟩, pc, h1.trans hi, hp⟩
  · simp only [RSt.todo, h1]

theorem RInv.step {rx : Rx} {n : Nat} {r r' : RSt} {a : RAct} {es es' : List Ev} (hm : Mem r.base es) (h : RInv n r) (ht : a.Tame)
    (hs : rstep rx n r a = some (r', es')) : RInv n r' := by
  cases a with
  | call i op =>
    simp only [rstep, h.alive, Bool.false_eq_true, false_or] at hs
    split at hs
    · cases hs
    · rename_i hne
      obtain ⟨s', e, h1, rfl, _⟩ := viaBase_some hs
      exact (h.via h1 hne).1
  | cli i =>
    simp only [rstep, h.alive, Bool.false_eq_true, false_or] at hs
    split at hs
    · cases hs
    · rename_i hne
      obtain ⟨s', e, h1, rfl, _⟩ := viaBase_some hs
      exact (h.via h1 hne).1
  | spurious =>
    simp only [rstep, h.alive, Bool.false_eq_true, if_false] at hs
    obtain ⟨s', e, h1, rfl, _⟩ := viaBase_some hs
    exact (h.via h1 trivial).1
  | log re =>
    cases hc : r.cur with
    | some cur =>
      obtain ⟨r1, es1, b1, b2, _⟩ := inside_step (rx := rx) (re' := re) hm h hc
      rw [b1] at hs; cases hs; exact b2
    | none =>
      simp only [rstep, h.alive, Bool.false_eq_true, if_false, hc] at hs
      split at hs
      · cases hs
      · rename_i s' e hst
        cases hs
        obtain ⟨h1, h2⟩ := log_step_cl hst
        refine ⟨rfl, fun _ => by show s'.cl[n]? = _; rw [h1]; exact h.outside hc, ?_⟩
        intro re2 hre
        have hre : enters re e = some re2 := hre
        unfold enters at hre
        split at hre
        · cases hre
          refine ⟨ht, h2 _ _ rfl, .idle, by show s'.cl[n]? = _; rw [h1]; exact h.outside hc, trivial⟩
        · cases hre

theorem rexec_inv {rx : Rx} {n : Nat} {t b : Bool} {r : RSt} {as : List RAct} {es : List Ev} (h : RExec rx n (rinit n t b) r as es)
    (ht : ∀ a ∈ as, a.Tame) : RInv n r := by
  induction h with
  | nil =>
    refine ⟨rfl, fun _ => ?_, fun _ h => by cases h⟩
    simp [rinit, init]
  | snoc hx hs ih => exact (ih (fun a ha => ht a (by simp [ha]))).step (exec_mem hx.base) (ht _ (by simp)) hs

end Falcon.Log
