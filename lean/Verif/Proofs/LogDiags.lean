import Verif.Spec.LogDiags
import Verif.Proofs.LogMem
/-
getDiags() while the system runs.
-/
namespace Falcon.Log

variable {rx : Rx} {s s' s1 : St} {Ps : List (St → Prop)} {es es1 es2 : List Ev}

theorem Passes.step {a : Act} {e : Ev} (h : Passes rx s Ps s' es) (hs : step rx s' a = some (s1, e)) :
    Passes rx s Ps s1 (es ++ [e]) := by
  induction h with
  | done h => exact .done (.snoc h hs)
  | next h hp _ ih => rw [List.append_assoc]; exact .next h hp (ih hs)

theorem Passes.snoc {P : St → Prop} (h : Passes rx s Ps s' es) (hp : P s') : Passes rx s (Ps ++ [P]) s' es := by
  induction h with
  | done h =>
    have := Passes.next (P := P) h hp (.done .nil)
    rwa [List.append_nil] at this
  | next h hp' _ ih => exact .next h hp' (ih hp)

theorem Passes.exec (h : Passes rx s Ps s' es) : Exec rx s s' es := by
  induction h with
  | done h => exact h
  | next h _ _ ih => exact h.append ih

/-- The moments in order: what holds at one of them, and the executions before and after. -/
theorem Passes.at {P : St → Prop} {k : Nat} (h : Passes rx s Ps s' es) (hk : Ps[k]? = some P) :
    ∃ sm e1 e2, Exec rx s sm e1 ∧ P sm ∧ Exec rx sm s' e2 ∧ es = e1 ++ e2 := by
  induction h generalizing k with
  | done h => simp at hk
  | next h hp hr ih =>
    cases k with
    | zero => cases hk; exact ⟨_, _, _, h, hp, hr.exec, rfl⟩
    | succ k =>
      obtain ⟨sm, e1, e2, h1, h2, h3, rfl⟩ := ih (by simpa using hk)
      exact ⟨sm, _, e2, h.append h1, h2, h3, by simp⟩

theorem Exec.nil_eq (h : Exec rx s s' es) (he : es = []) : s' = s := by
  cases h with
  | nil => rfl
  | snoc => simp at he

theorem Passes.quiet (h : Passes rx s Ps s' es) (he : es = []) : s' = s ∧ ∀ P ∈ Ps, P s := by
  induction h with
  | done h => exact ⟨h.nil_eq he, by simp⟩
  | next h hp _ ih =>
    obtain ⟨h1, h2⟩ := List.append_eq_nil_iff.1 he
    have := h.nil_eq h1
    subst this
    obtain ⟨h3, h4⟩ := ih h2
    refine ⟨h3, fun P hP => ?_⟩
    rcases List.mem_cons.1 hP with e | e
    · subst e; exact hp
    · exact h4 P e

theorem devs_append (es es' : List DEv) : devs (es ++ es') = devs es ++ devs es' := by simp [devs]

/-- What is known of a call at each of its points; `s0` is the state when it began. -/
def Prog (rx : Rx) (s0 s : St) (es : List Ev) : DStage → Diags → Prop
  | .created, _ => Passes rx s0 [] s es
  | .discarded, d => Passes rx s0 ((firstMoments d).take 1) s es
  | .active, d => Passes rx s0 ((firstMoments d).take 2) s es
  | .begin, d => Passes rx s0 (firstMoments d) s es
  | .each all rest, d => ∃ asked : List (LId × Bool), all = asked.map Prod.fst ++ rest ∧ d.enabledListeners = (asked.filter Prod.snd).length ∧
      Passes rx s0 (firstMoments d ++ [fun s : St => s.active = all] ++ eachMoment all asked) s es
  | .received, d => ∃ asked : List (LId × Bool), d.enabledListeners = (asked.filter Prod.snd).length ∧
      Passes rx s0 (firstMoments d ++ [fun s : St => s.active = asked.map Prod.fst] ++ eachMoment (asked.map Prod.fst) asked) s es
  | .maxQ, d => ∃ asked : List (LId × Bool), d.enabledListeners = (asked.filter Prod.snd).length ∧
      Passes rx s0 (firstMoments d ++ [fun s : St => s.active = asked.map Prod.fst] ++ eachMoment (asked.map Prod.fst) asked ++
        [fun s : St => s.received = d.msgReceived]) s es
  | .pool, d => ∃ asked : List (LId × Bool), d.enabledListeners = (asked.filter Prod.snd).length ∧
      Passes rx s0 (firstMoments d ++ [fun s : St => s.active = asked.map Prod.fst] ++ eachMoment (asked.map Prod.fst) asked ++
        [fun s : St => s.received = d.msgReceived, fun s => s.maxQ = d.maxMsgQueueSize]) s es
  | .pending, d => ∃ asked : List (LId × Bool), d.enabledListeners = (asked.filter Prod.snd).length ∧
      Passes rx s0 (firstMoments d ++ [fun s : St => s.active = asked.map Prod.fst] ++ eachMoment (asked.map Prod.fst) asked ++
        [fun s : St => s.received = d.msgReceived, fun s => s.maxQ = d.maxMsgQueueSize, fun s => s.pool.length = d.poolSize]) s es

theorem Prog.step {s0 : St} {a : Act} {e : Ev} {st : DStage} {d : Diags} (h : Prog rx s0 s' es st d)
    (hs : Falcon.Log.step rx s' a = some (s1, e)) : Prog rx s0 s1 (es ++ [e]) st d := by
  cases st with
  | created => exact Passes.step h hs
  | discarded => exact Passes.step h hs
  | active => exact Passes.step h hs
  | begin => exact Passes.step h hs
  | each => obtain ⟨k, h1, h2, h3⟩ := h; exact ⟨k, h1, h2, h3.step hs⟩
  | received => obtain ⟨k, h1, h2⟩ := h; exact ⟨k, h1, h2.step hs⟩
  | maxQ => obtain ⟨k, h1, h2⟩ := h; exact ⟨k, h1, h2.step hs⟩
  | pool => obtain ⟨k, h1, h2⟩ := h; exact ⟨k, h1, h2.step hs⟩
  | pending => obtain ⟨k, h1, h2⟩ := h; exact ⟨k, h1, h2.step hs⟩

/-- What is known when the call returns. -/
def Done (rx : Rx) (s0 s : St) (es : List Ev) (d : Diags) : Prop :=
  ∃ asked : List (LId × Bool), d.enabledListeners = (asked.filter Prod.snd).length ∧ Passes rx s0 (moments d asked) s es

theorem Prog.read {s0 : St} {st : DStage} {d d' : Diags} {o : Option DStage} (h : Prog rx s0 s es st d)
    (hr : dread s st d = some (o, d')) : match o with | some st' => Prog rx s0 s es st' d' | none => Done rx s0 s es d' := by
  cases st with
  | created => cases hr; exact Passes.snoc h rfl
  | discarded => cases hr; exact Passes.snoc h rfl
  | active => cases hr; exact Passes.snoc h rfl
  | begin =>
    cases hr
    refine ⟨[], rfl, rfl, ?_⟩
    have := Passes.snoc (P := fun t => t.active = s.active) h rfl
    simpa [eachMoment, firstMoments] using this
  | each all rest =>
    obtain ⟨asked, h1, h2, h3⟩ := h
    cases rest with
    | nil =>
      cases hr
      rw [List.append_nil] at h1
      subst h1
      exact ⟨asked, h2, h3⟩
    | cons l rest =>
      simp only [dread] at hr
      split at hr
      · rename_i hact
        cases hr
        refine ⟨asked ++ [(l, (s.lst l).enabled)], by rw [h1]; simp, ?_, ?_⟩
        · rw [List.filter_append, List.length_append, ← h2]
          cases (s.lst l).enabled <;> rfl
        · have := Passes.snoc (P := fun t => t.active = all ∧ (t.lst l).enabled = (s.lst l).enabled) h3 ⟨hact, rfl⟩
          have e : eachMoment all (asked ++ [(l, (s.lst l).enabled)]) =
              eachMoment all asked ++ [fun t => t.active = all ∧ (t.lst l).enabled = (s.lst l).enabled] := by
            simp [eachMoment]
          rw [e, ← List.append_assoc]
          exact this
      · cases hr
  | received =>
    cases hr
    obtain ⟨asked, h1, h2⟩ := h
    exact ⟨asked, h1, h2.snoc rfl⟩
  | maxQ =>
    cases hr
    obtain ⟨asked, h1, h2⟩ := h
    refine ⟨asked, h1, ?_⟩
    have := h2.snoc (P := fun t => t.maxQ = s.maxQ) rfl
    rw [List.append_assoc] at this
    exact this
  | pool =>
    cases hr
    obtain ⟨asked, h1, h2⟩ := h
    refine ⟨asked, h1, ?_⟩
    have := h2.snoc (P := fun t => t.pool.length = s.pool.length) rfl
    rw [List.append_assoc] at this
    exact this
  | pending =>
    cases hr
    obtain ⟨asked, h1, h2⟩ := h
    refine ⟨asked, h1, ?_⟩
    have := h2.snoc (P := fun t => t.pending.length = s.pending.length) rfl
    rw [List.append_assoc] at this
    exact this

theorem dget_set {α : Type} {l : List α} {i j : Nat} {x : α} (h : i ≠ j) : (l.set i x)[j]? = l[j]? := by
  rw [List.getElem?_set, if_neg h]

/-- A call in progress. -/
theorem dexec_prog {w1 w2 : DSt} {des : List DEv} {j : Nat} {d0 : Diags} {s0 : St} (h0 : w1.base = s0)
    (hc : w1.obs[j]? = some (some (.created, d0))) (h : DExec rx w1 w2 des)
    (hn : ∀ d, .ret j d ∉ des) : ∃ st d, w2.obs[j]? = some (some (st, d)) ∧ Prog rx s0 w2.base (devs des) st d := by
  induction h with
  | nil => exact ⟨_, _, hc, by subst h0; exact Passes.done .nil⟩
  | @snoc w w' es a e _ hs ih =>
    obtain ⟨st, d, h1, h2⟩ := ih (fun d hd => hn d (List.mem_append_left _ hd))
    rw [devs_append]
    cases a with
    | base a =>
      simp only [dstep] at hs
      split at hs
      · rename_i s' e' hst
        cases hs
        exact ⟨st, d, h1, h2.step hst⟩
      · cases hs
    | call i d' =>
      simp only [dstep] at hs
      split at hs
      · rename_i hi
        cases hs
        have hne : i ≠ j := by rintro rfl; rw [h1] at hi; cases hi
        refine ⟨st, d, by rw [dget_set hne]; exact h1, ?_⟩
        simpa [devs] using h2
      · cases hs
    | obs i =>
      simp only [dstep] at hs
      split at hs
      · rename_i st' d' hi
        by_cases hne : i = j
        · subst hne
          rw [h1] at hi
          cases hi
          have hlt : i < w.obs.length := by
            rcases Nat.lt_or_ge i w.obs.length with h | h
            · exact h
            · rw [List.getElem?_eq_none h] at h1; cases h1
          cases hr : dread w.base st d with
          | none =>
            rw [hr] at hs; cases hs
            refine ⟨st, d, h1, ?_⟩
            simpa [devs] using h2
          | some r =>
            obtain ⟨o, d'⟩ := r
            have := h2.read hr
            rw [hr] at hs
            cases o with
            | none => cases hs; exact absurd (List.mem_append_right _ (List.mem_singleton.2 rfl)) (hn d')
            | some st'' =>
              cases hs
              refine ⟨st'', d', by simp [hlt], ?_⟩
              simpa [devs] using this
        · split at hs <;> cases hs
          · refine ⟨st, d, h1, ?_⟩
            simpa [devs] using h2
          · refine ⟨st, d, by rw [dget_set hne]; exact h1, ?_⟩
            simpa [devs] using h2
          · refine ⟨st, d, by rw [dget_set hne]; exact h1, ?_⟩
            simpa [devs] using h2
      · cases hs

theorem dstep_ret {w w' : DSt} {j : Nat} {a : DAct} {d' : Diags} (h : dstep rx w a = some (w', .ret j d')) :
    ∃ st d, w.obs[j]? = some (some (st, d)) ∧ dread w.base st d = some (none, d') ∧ w'.base = w.base := by
  cases a with
  | base a => simp only [dstep] at h; split at h <;> cases h
  | call i d => simp only [dstep] at h; split at h <;> cases h
  | obs i =>
    simp only [dstep] at h
    split at h
    · rename_i hi
      split at h <;> cases h
      rename_i hr
      exact ⟨_, _, hi, hr, rfl⟩
    · cases h

theorem dstep_call {w w' : DSt} {j : Nat} {a : DAct} (h : dstep rx w a = some (w', .call j)) :
    ∃ d, w'.obs[j]? = some (some (.created, d)) ∧ w'.base = w.base := by
  cases a with
  | base a => simp only [dstep] at h; split at h <;> cases h
  | call i d =>
    simp only [dstep] at h
    split at h
    · rename_i hi
      cases h
      have hlt : j < w.obs.length := by
        rcases Nat.lt_or_ge j w.obs.length with h | h
        · exact h
        · rw [List.getElem?_eq_none h] at hi; cases hi
      exact ⟨d, by simp [hlt], rfl⟩
    · cases h
  | obs i =>
    simp only [dstep] at h
    split at h
    · split at h <;> cases h
    · cases h

theorem dexec_base {w0 w : DSt} {des : List DEv} (h : DExec rx w0 w des) : Exec rx w0.base w.base (devs des) := by
  induction h with
  | nil => exact .nil
  | @snoc w w' es a e _ hs ih =>
    rw [devs_append]
    cases a with
    | base a =>
      simp only [dstep] at hs
      split at hs
      · rename_i s' e' hst
        cases hs
        exact .snoc ih hst
      · cases hs
    | call i d' =>
      simp only [dstep] at hs
      split at hs <;> cases hs
      simpa [devs] using ih
    | obs i =>
      simp only [dstep] at hs
      split at hs
      · split at hs <;> cases hs <;> simpa [devs] using ih
      · cases hs

/-- The counters only grow. -/
def Older (s s' : St) : Prop :=
  s.unpooled ≤ s'.unpooled ∧ s.destroyed ≤ s'.destroyed ∧ s.received ≤ s'.received ∧ s.maxQ ≤ s'.maxQ

theorem exec_older (h : Exec rx s s' es) : Older s s' := by
  refine exec_inv (fun t _ => Older s t) ⟨Nat.le_refl _, Nat.le_refl _, Nat.le_refl _, Nat.le_refl _⟩ ?_ h
  rintro t es e t' ⟨h1, h2, h3, h4⟩ hs
  cases hs <;> refine ⟨?_, ?_, ?_, ?_⟩ <;> first | assumption | (simp only; omega) | (simp only; split <;> omega)

theorem DExec.append {w0 w1 w2 : DSt} {es1 es2 : List DEv} (h1 : DExec rx w0 w1 es1) (h2 : DExec rx w1 w2 es2) :
    DExec rx w0 w2 (es1 ++ es2) := by
  induction h2 with
  | nil => simpa using h1
  | snoc _ hst ih => rw [← List.append_assoc]; exact .snoc ih hst

theorem dexec_of_drun {w w' : DSt} {es : List DEv} (as : List DAct) (h : drun rx w as = some (w', es)) : DExec rx w w' es := by
  induction as generalizing w es with
  | nil => cases h; exact .nil
  | cons a as ih =>
    simp only [drun] at h
    split at h
    · cases h
    · rename_i w1 e h1
      split at h
      · cases h
      · rename_i w2 es2 h2
        cases h
        exact DExec.append (es1 := [e]) (.snoc .nil h1) (ih h2)

end Falcon.Log
