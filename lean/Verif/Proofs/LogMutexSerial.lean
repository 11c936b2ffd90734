import Verif.Proofs.LogMutexReact
import Verif.Spec.LogMutexSerial
/-
A listener at work: its calls, one after the other, and nothing else of the logging thread.
-/
namespace Falcon.LogM
open Falcon.Log (Str Addr LId Msg Rx Lst Op Ev Stage Mtx LPc CPc Exec init)

variable {rx : Rx} {n : Nat} {t b : Bool} {r r' : FRst} {as : List FRAct} {es : List Ev} {f f' : FSt}

/-- The call a thread has begun that has not been seen yet. -/
def unseen : FPc → List Op
  | .lLock l | .lPush l => [.addListener l]
  | .cLock l re | .cRegex l re => [.category l re]
  | .tLock | .tTest => [.start]
  | _ => []

/-- The call begun with this step by thread `i`. -/
def begun (i : Nat) : FAct → List Op
  | .call k o => if k = i then [o] else []
  | _ => []

theorem callsBy_append (i : Nat) (a b : List Ev) : callsBy i (a ++ b) = callsBy i a ++ callsBy i b := by simp [callsBy, List.filterMap_append]
theorem opsOf_append (a b : List Req) : opsOf (a ++ b) = opsOf a ++ opsOf b := by simp [opsOf, List.filterMap_append]

/-- Nobody but the logging thread in its loop produces these events. -/
theorem quiet_other {a : FAct} {e : Option Ev} (h : fstep rx f a = some (f', e)) (ha : a ≠ .log) : ∀ x ∈ e.toList, LoopEv x = false := by
  intro x hx
  obtain rfl : e = some x := by cases e <;> simp_all
  clear hx
  cases a with
  | log => exact absurd rfl ha
  | spurious => simp only [fstep] at h; split at h <;> cases h
  | call i op =>
    simp only [fstep] at h
    split at h
    · cases op <;> simp only [beginF] at h <;> cases h <;> rfl
    · cases h
  | diags i => simp only [fstep] at h; split at h <;> cases h
  | categ i l => simp only [fstep] at h; split at h <;> cases h
  | cli i =>
    simp only [fstep] at h
    split at h
    · rename_i pc _
      cases pc <;> simp only [resumeF, acquire, release] at h
      all_goals
        repeat' split at h
        all_goals first | (cases h; done) | (cases h; rfl)
    · cases h

/-- A step of another thread shows no call of this one. -/
theorem calls_other {a : FAct} {e : Option Ev} {i : Nat} (h : fstep rx f a = some (f', e)) (ha : a.thread ≠ some i) : callsBy i e.toList = [] := by
  cases a with
  | log =>
    have h : logStepF rx f = some (f', e) := h
    unfold logStepF at h
    simp only [acquireL, releaseL] at h
    repeat' split at h
    all_goals first | (cases h; done) | (cases h; rfl)
  | spurious => simp only [fstep] at h; split at h <;> cases h; rfl
  | call k op =>
    have hi : k ≠ i := fun e => ha (by simp [FAct.thread, e])
    simp only [fstep] at h
    split at h
    · cases op <;> simp only [beginF] at h <;> cases h <;> simp [callsBy, hi]
    · cases h
  | diags k => simp only [fstep] at h; split at h <;> cases h; rfl
  | categ k l => simp only [fstep] at h; split at h <;> cases h; rfl
  | cli k =>
    have hi : k ≠ i := fun e => ha (by simp [FAct.thread, e])
    simp only [fstep] at h
    split at h
    · rename_i pc _
      cases pc <;> simp only [resumeF, acquire, release] at h
      all_goals
        repeat' split at h
        all_goals first | (cases h; done) | (cases h; rfl) | (cases h; simp [callsBy, hi]; done)
    · cases h

/-- Every call is seen once, in order. -/
theorem calls_step {a : FAct} {e : Option Ev} {i : Nat} {pc : FPc} (h : fstep rx f a = some (f', e)) (hi : f.cl[i]? = some pc) :
    ∃ pc', f'.cl[i]? = some pc' ∧ unseen pc ++ begun i a = callsBy i e.toList ++ unseen pc' := by
  by_cases ha : a.thread ≠ some i
  · refine ⟨pc, (keep_cl h ha).trans hi, ?_⟩
    have hb : begun i a = [] := by
      cases a <;> try rfl
      simp only [begun]
      rw [if_neg (fun e => ha (by simp [FAct.thread, e]))]
    rw [calls_other h ha, hb]; simp
  replace ha := Decidable.not_not.1 ha
  have hlt := (List.getElem?_eq_some_iff.1 hi).1
  have set : ∀ p : FPc, (f.cl.set i p)[i]? = some p := fun p => by simp [hlt]
  have aq : ∀ x, unseen (afterQuery x) = [] := fun x => by cases x <;> rfl
  cases a with
  | log => cases ha
  | spurious => cases ha
  | call k op =>
    obtain rfl : k = i := by simpa [FAct.thread] using ha
    simp only [fstep, hi] at h
    cases pc <;> try (cases h; done)
    simp only [Option.some.injEq] at h
    cases op <;> simp only [beginF] at h <;> cases h
    all_goals first
      | exact ⟨_, set _, by simp [begun, callsBy, unseen]⟩
      | exact ⟨_, hi, by simp [begun, callsBy, unseen]⟩
  | diags k =>
    obtain rfl : k = i := by simpa [FAct.thread] using ha
    simp only [fstep, hi] at h
    cases pc <;> cases h
    exact ⟨_, set _, rfl⟩
  | categ k l =>
    obtain rfl : k = i := by simpa [FAct.thread] using ha
    simp only [fstep, hi] at h
    cases pc <;> cases h
    exact ⟨_, set _, rfl⟩
  | cli k =>
    obtain rfl : k = i := by simpa [FAct.thread] using ha
    simp only [fstep, hi] at h
    cases pc <;> simp only [resumeF, acquire, release] at h
    all_goals
      repeat' split at h
      all_goals first
        | (cases h; done)
        | (cases h; exact ⟨_, set _, rfl⟩)
        | (cases h; exact ⟨_, set _, (aq _).symm⟩)
        | (cases h; exact ⟨_, set _, by simp [begun, callsBy, unseen]⟩)
        | (cases h; exact ⟨_, hi, by simp [begun, callsBy, unseen]⟩)

/-- A listener at work that began with `d`, and has been seen doing `es`. -/
structure Serial (n : Nat) (d : Doing) (r : FRst) (es : List Ev) : Prop where
  quiet : ∀ x ∈ es, LoopEv x = false
  rest  : ∃ d', r.cur = some d' ∧ d'.throws = d.throws ∧
    ∃ made pc, d.reqs = made ++ d'.reqs ∧ r.base.cl[n]? = some pc ∧ opsOf made = callsBy n es ++ unseen pc

theorem Serial.via {d d' : Doing} {es es' : List Ev} {a : FAct} {qs : List Req} (S : Serial n d r es) (hc : ∃ d0, r.cur = some d0 ∧ d0.throws = d'.throws ∧ d0.reqs = qs ++ d'.reqs)
    (h : via rx r (some d') a = some (r', es')) (ha : a ≠ .log) (hq : opsOf qs = begun n a) : Serial n d r' (es ++ es') := by
  unfold LogM.via at h
  split at h
  · cases h
  rename_i f e hs
  cases h
  obtain ⟨d0, hd0, h1, h2⟩ := hc
  obtain ⟨d1, hd1, g1, made, pc, g2, g3, g4⟩ := S.rest
  rw [hd0] at hd1
  cases hd1
  obtain ⟨pc', k1, k2⟩ := calls_step hs g3
  refine ⟨?_, d', rfl, h1 ▸ g1, made ++ qs, pc', ?_, k1, ?_⟩
  · intro x hx
    rcases List.mem_append.1 hx with hx | hx
    · exact S.quiet x hx
    · exact quiet_other hs ha x hx
  · rw [g2, h2, List.append_assoc]
  · rw [opsOf_append, g4, hq, callsBy_append, List.append_assoc, k2, List.append_assoc]

theorem Serial.step {d : Doing} {es es' : List Ev} {a : FRAct} (S : Serial n d r es) (h : frstep rx n r a = some (r', es')) (hin : r'.cur ≠ none) :
    Serial n d r' (es ++ es') := by
  obtain ⟨d1, hd1, -⟩ := S.rest
  cases a with
  | req i q =>
    simp only [frstep] at h
    split at h
    · cases h
    · rename_i hc
      rw [hd1] at h
      refine S.via ⟨d1, hd1, rfl, (List.nil_append _).symm⟩ h (q.by_ne_log i) ?_
      cases q <;> simp [Req.by, begun, opsOf]
      intro e; exact absurd (.inr e) hc
  | cli i =>
    simp only [frstep] at h
    split at h
    · cases h
    · rw [hd1] at h
      exact S.via ⟨d1, hd1, rfl, (List.nil_append _).symm⟩ h (by simp) rfl
  | spurious =>
    simp only [frstep] at h
    split at h
    · cases h
    · rw [hd1] at h
      exact S.via ⟨d1, hd1, rfl, (List.nil_append _).symm⟩ h (by simp) rfl
  | log d2 =>
    simp only [frstep] at h
    split at h
    · cases h
    rw [hd1] at h
    dsimp only at h
    unfold within at h
    have keep : Serial n d { r with dead := true } (es ++ []) := by
      rw [List.append_nil]; exact ⟨S.quiet, S.rest⟩
    split at h
    · cases h
    · split at h
      · split at h
        · cases h; exact keep
        · cases h; exact absurd rfl hin
      · rename_i q qs hq
        refine S.via (qs := [q]) (d' := { d1 with reqs := qs }) ⟨d1, hd1, rfl, by simp [hq]⟩ h (q.by_ne_log n) ?_
        cases q <;> simp [Req.by, begun, opsOf]
    · cases h; exact keep
    · exact S.via ⟨d1, hd1, rfl, (List.nil_append _).symm⟩ h (by simp) rfl

theorem serial_run {d : Doing} {r1 : FRst} {bs : List FRAct} {es' : List Ev} (S : Serial n d r1 []) (h : FRExec rx n r1 r' bs es')
    (hin : ∀ cs r2 es2, cs <+: bs → FRExec rx n r1 r2 cs es2 → r2.cur ≠ none) : Serial n d r' es' := by
  induction h with
  | nil => exact S
  | snoc h hs ih =>
    refine (ih fun cs r2 es2 hp he => hin cs r2 es2 (hp.trans (List.prefix_append _ _)) he).step hs ?_
    exact hin _ _ _ (List.prefix_refl _) (h.snoc hs)

/-- onMessage is entered with an event that says so, by the logging thread, out of its loop. -/
theorem entered_step {a : FRAct} {es' : List Ev} (h : frstep rx n r a = some (r', es')) :
    ((∃ l m, .deliver l m ∈ es') ↔ r.cur = none ∧ r'.cur ≠ none) ∧ ((∃ l m, .deliver l m ∈ es') → ∃ d, a = .log d ∧ r'.cur = some d) := by
  have none_of : ∀ {e : Option Ev}, (∀ x ∈ e.toList, LoopEv x = false) → ¬ ∃ l m, Ev.deliver l m ∈ e.toList := by
    rintro e he ⟨l, m, hm⟩
    exact absurd (he _ hm) (by simp [LoopEv])
  have v : ∀ {cur : Option Doing} {x : FAct}, via rx r cur x = some (r', es') → x ≠ .log → (r.cur = none → cur = none) →
      (((∃ l m, .deliver l m ∈ es') ↔ r.cur = none ∧ r'.cur ≠ none) ∧ ((∃ l m, .deliver l m ∈ es') → ∃ d, a = .log d ∧ r'.cur = some d)) := by
    intro cur x hv hx hc
    unfold LogM.via at hv
    split at hv
    · cases hv
    rename_i f e hs
    cases hv
    have := none_of (quiet_other hs hx)
    exact ⟨⟨fun h => absurd h this, fun h => absurd (hc h.1) h.2⟩, fun h => absurd h this⟩
  cases a with
  | req i q =>
    simp only [frstep] at h
    split at h
    · cases h
    · exact v h (q.by_ne_log i) id
  | cli i =>
    simp only [frstep] at h
    split at h
    · cases h
    · exact v h (by simp) id
  | spurious =>
    simp only [frstep] at h
    split at h
    · cases h
    · exact v h (by simp) id
  | log d =>
    simp only [frstep] at h
    split at h
    · cases h
    split at h
    · rename_i cur hc
      have hn : ∀ {x : Prop}, ¬ (r.cur = none ∧ x) := fun h => by rw [hc] at h; cases h.1
      unfold within at h
      split at h
      · cases h
      · split at h
        · split at h <;> cases h <;> exact ⟨⟨fun h => (by obtain ⟨l, m, h⟩ := h; cases h), fun h => absurd h hn⟩, fun h => (by obtain ⟨l, m, h⟩ := h; cases h)⟩
        · rename_i q qs _
          exact v h (q.by_ne_log n) (fun h => by rw [hc] at h; cases h)
      · cases h; exact ⟨⟨fun h => (by obtain ⟨l, m, h⟩ := h; cases h), fun h => absurd h hn⟩, fun h => (by obtain ⟨l, m, h⟩ := h; cases h)⟩
      · exact v h (by simp) (fun h => by rw [hc] at h; cases h)
    · rename_i hc
      split at h
      · cases h
      · rename_i f e hs
        cases h
        refine ⟨⟨fun h => ⟨hc, ?_⟩, fun h => ?_⟩, fun h => ⟨d, rfl, ?_⟩⟩
        · obtain ⟨l, m, h⟩ := h
          obtain rfl : e = some (.deliver l m) := by cases e <;> simp_all
          simp [begins]
        · have h2 := h.2
          cases e with
          | none => exact absurd rfl h2
          | some e => cases e <;> first | exact absurd rfl h2 | exact ⟨_, _, by simp; exact ⟨rfl, rfl⟩⟩
        · obtain ⟨l, m, h⟩ := h
          obtain rfl : e = some (.deliver l m) := by cases e <;> simp_all
          rfl

/-- onMessage returns when there is nothing left to do. -/
theorem left_step' {a : FRAct} {es' : List Ev} {d : Doing} (h : frstep rx n r a = some (r', es')) (hd : r.cur = some d) (hr : r'.cur = none) :
    d.reqs = [] ∧ d.throws = false ∧ r.base.cl[n]? = some .idle ∧ es' = [] ∧ r'.base = r.base := by
  have v : ∀ {d' : Doing} {x : FAct}, via rx r (some d') x = some (r', es') → False := by
    intro d' x hv
    unfold LogM.via at hv
    split at hv <;> cases hv
    cases hr
  cases a with
  | req i q => simp only [frstep, hd] at h; split at h; cases h; exact (v h).elim
  | cli i => simp only [frstep, hd] at h; split at h; cases h; exact (v h).elim
  | spurious => simp only [frstep, hd] at h; split at h; cases h; exact (v h).elim
  | log d2 =>
    simp only [frstep, hd] at h
    split at h
    · cases h
    unfold within at h
    split at h
    · cases h
    · rename_i hi
      split at h
      · rename_i hq
        split at h
        · cases h; rw [show ({ r with dead := true } : FRst).cur = r.cur from rfl, hd] at hr; cases hr
        · rename_i ht
          cases h; exact ⟨hq, by simpa using ht, hi, rfl, rfl⟩
      · exact (v h).elim
    · cases h; rw [show ({ r with dead := true } : FRst).cur = r.cur from rfl, hd] at hr; cases hr
    · exact (v h).elim

end Falcon.LogM
