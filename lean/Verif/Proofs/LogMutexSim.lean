import Verif.Proofs.LogMutex
/-
Every step of the log system with explicit mutexes is a step, or nothing, of the one with atomic critical sections.
-/
namespace Falcon.LogM
open Falcon.Log (Str Addr LId Msg Rx Lst Op Ev Stage Mtx LPc CPc St Act Exec setHeap setLst threshold checkCategory notify init Mem step cHolds lHolds)

variable {rx : Rx}

/-- One step of the fine system seen from the coarse one. -/
def Sim (rx : Rx) (f f' : FSt) (e : Option Ev) : Prop :=
  (e = none ∧ abs f' = abs f) ∨ ∃ a v, e = some v ∧ step rx (abs f) a = some (abs f', v)

section
variable {f : FSt} {i : Nat} {pc pc' : FPc}

theorem cl_keep {cl : List FPc} (hi : cl[i]? = some pc) (h : cabs pc' = cabs pc) : (cl.set i pc').map cabs = cl.map cabs := by
  rw [List.map_set, h]
  apply List.ext_getElem?
  intro j
  by_cases hj : i = j
  · subst hj
    have hlt := (List.getElem?_eq_some_iff.1 hi).1
    simp [hlt, (List.getElem?_eq_some_iff.1 hi).2]
  · rw [List.getElem?_set_ne hj]

theorem inc_to {cl : List FPc} (hi : cl[i]? = some pc) :
    (cl.set i pc').countP isInc + (if isInc pc = true then 1 else 0) = cl.countP isInc + (if isInc pc' = true then 1 else 0) := by
  have hlt := (List.getElem?_eq_some_iff.1 hi).1
  have he := (List.getElem?_eq_some_iff.1 hi).2
  rw [List.countP_set hlt, he]
  have : isInc pc = true → 0 < cl.countP isInc := fun h => List.countP_pos_iff.2 ⟨pc, List.mem_iff_getElem?.2 ⟨i, hi⟩, h⟩
  by_cases h : isInc pc = true
  · have := this h; simp [h]; omega
  · simp [h]

theorem inc_keep {cl : List FPc} (hi : cl[i]? = some pc) (h : isInc pc' = isInc pc) : (cl.set i pc').countP isInc = cl.countP isInc := by
  have := inc_to (pc' := pc') hi; rw [h] at this; omega

theorem cl_get (hi : f.cl[i]? = some pc) : (abs f).cl[i]? = some (cabs pc) := by simp [abs, absWith, hi]

/-- A client that only takes or releases a mutex, or moves on. -/
theorem abs_keep {M : Mtx → Option Tid} (hi : f.cl[i]? = some pc) (hd : due M (f.cl.set i pc') = due f.mtx f.cl)
    (hc : cabs pc' = cabs pc) (hn : isInc pc' = isInc pc) :
    abs { f with mtx := M, cl := f.cl.set i pc' } = abs f := by
  unfold abs
  show absWith _ (due M (f.cl.set i pc')) = _
  rw [hd]
  simp only [absWith, cl_keep hi hc, inc_keep hi hn]

theorem doomed_wake (p : FLt) : doomed (wake p) = doomed p := by cases p <;> rfl
theorem lholds_wake (p : FLt) : lholds (wake p) = lholds p := by cases p <;> rfl

/-- What the invariant needs when a client moves. -/
theorem Inv.move {f f' : FSt} (hI : Inv f) (hi : f.cl[i]? = some pc) (hcl : f'.cl = f.cl.set i pc')
    (hown : Own f'.mtx f'.cl (lholds f'.lt))
    (hp1 : ∀ m, pc' = .aPop m → f'.pool ≠ []) (hp2 : f'.pool = f.pool ∨ holds pc = some .pool)
    (hlt : f'.lt = f.lt ∨ f'.lt = wake f.lt ∨ f'.lt = .none ∨ f'.lt = .top)
    (hq : f.queue ≠ [] → f'.queue ≠ []) (ht : f'.terminated = f.terminated ∨ holds pc = some .message)
    (hh : ∀ a, a < f.next → (∃ m, f.heap a = some m) → a < f'.next ∧ ∃ m, f'.heap a = some m) : Inv f' := by
  have lt_of : ∀ p, f'.lt = p → p ≠ .none → p ≠ .top → (∀ w, p ≠ .sleep w) → f.lt = p := by
    intro p h h1 h2 h3
    rcases hlt with h4 | h4 | h4 | h4
    · rw [← h4, h]
    · rw [h] at h4
      cases hl : f.lt with
      | sleep w => rw [hl] at h4; exact absurd h4 (h3 _)
      | _ => rw [hl] at h4; exact h4.symm
    · rw [h] at h4; exact absurd h4 h1
    · rw [h] at h4; exact absurd h4 h2
  refine ⟨hown, ?_, ?_, ?_, ?_⟩
  · intro j m hj
    rw [hcl] at hj
    by_cases hij : i = j
    · subst hij
      rw [List.getElem?_set_self (List.getElem?_eq_some_iff.1 hi).1] at hj
      exact hp1 m (Option.some.inj hj)
    · rw [List.getElem?_set_ne hij] at hj
      rcases hp2 with h | h
      · rw [h]; exact hI.pool j m hj
      · have h1 := (hI.own.at hi .pool).2 h
        have h2 := (hI.own.at hj .pool).2 rfl
        rw [h1] at h2
        exact absurd (Option.some.inj (Option.some.inj h2)) hij
  · intro w h
    have h1 := lt_of _ h (by simp) (by simp) (by simp)
    have h2 := hI.pop w h1
    refine ⟨hq h2.1, ?_⟩
    rcases ht with h3 | h3
    · rw [h3]; exact h2.2
    · have h4 := (hI.own.at hi .message).2 h3
      have h5 := (hI.own.log .message).2 (by rw [h1]; rfl)
      rw [h4] at h5; cases h5
  · intro a h
    have h1 := lt_of _ h (by simp) (by simp) (by simp)
    have h2 := hI.push a h1
    rcases hp2 with h3 | h3
    · rw [h3]; exact h2
    · have h4 := (hI.own.at hi .pool).2 h3
      have h5 := (hI.own.log .pool).2 (by rw [h1]; rfl)
      rw [h4] at h5; cases h5
  · intro a h
    have h1 : doomed f.lt = some a := by
      rcases hlt with h3 | h3 | h3 | h3
      · rw [← h3]; exact h
      · rw [h3, doomed_wake] at h; exact h
      · rw [h3] at h; cases h
      · rw [h3] at h; cases h
    exact hh a (hI.old a h1).1 (hI.old a h1).2

/-- A client takes a mutex. -/
theorem sim_acq {x : Mtx} {f' : FSt} {e : Option Ev} (h : acquire f i x pc' = some (f', e))
    (hI : Inv f) (hi : f.cl[i]? = some pc) (hp : holds pc = none) (hp' : holds pc' = some x)
    (hpl : plain pc' = true) (hc : cabs pc' = cabs pc) (hn : isInc pc' = isInc pc) (hne : ∀ m, pc' ≠ .aPop m) : Inv f' ∧ Sim rx f f' e := by
  unfold acquire at h
  split at h
  · cases h
  · rename_i hx
    cases h
    refine ⟨hI.move hi rfl (hI.own.acq hi hp hx hp') (fun m e => absurd e (hne m)) (.inl rfl) (.inl rfl) id (.inl rfl) (fun a h1 h2 => ⟨h1, h2⟩), ?_⟩
    exact .inl ⟨rfl, abs_keep hi (due_acq hI.own hi hp hx hpl) hc hn⟩

/-- A client releases a mutex. -/
theorem sim_rel {x : Mtx} {f' : FSt} {e : Option Ev} (h : release f i x pc' = some (f', e))
    (hI : Inv f) (hi : f.cl[i]? = some pc) (hp : holds pc = some x) (hp' : holds pc' = none)
    (hpl : plain pc = true) (hc : cabs pc' = cabs pc) (hn : isInc pc' = isInc pc) (hne : ∀ m, pc' ≠ .aPop m) : Inv f' ∧ Sim rx f f' e := by
  unfold release at h
  cases h
  refine ⟨hI.move hi rfl (hI.own.rel hi hp hp') (fun m e => absurd e (hne m)) (.inl rfl) (.inl rfl) id (.inl rfl) (fun a h1 h2 => ⟨h1, h2⟩), ?_⟩
  exact .inl ⟨rfl, abs_keep hi (due_rel hI.own hi hp hpl) hc hn⟩

end

theorem hDue_set {p : FLt} {a : Addr} {v : Option Msg} (h : Addr → Option Msg) (hd : doomed p ≠ some a) :
    hDue p (setHeap h a v) = setHeap (hDue p h) a v := by
  unfold hDue
  cases hp : doomed p with
  | none => rfl
  | some b =>
    have hb : b ≠ a := by rintro rfl; exact hd hp
    funext x
    simp only [setHeap]
    by_cases h1 : x = b
    · subst h1; simp [hb]
    · simp [h1]

theorem hDue_get {p : FLt} {a : Addr} {m : Msg} {h : Addr → Option Msg} (he : hDue p h a = some m) : h a = some m ∧ doomed p ≠ some a := by
  unfold hDue at he
  cases hp : doomed p with
  | none => rw [hp] at he; exact ⟨he, by simp⟩
  | some b =>
    rw [hp] at he
    simp only [setHeap] at he
    by_cases h1 : a = b
    · simp [h1] at he
    · simp only [if_neg h1] at he; exact ⟨he, by simp [Ne.symm h1]⟩

theorem notify_tabs {p : FLt} (h : ∀ w, p ≠ .sleep w) : notify (tabs p) = tabs p := by
  cases p with
  | sleep w => exact absurd rfl (h w)
  | test w => cases w <;> rfl
  | pop w => cases w <;> rfl
  | cUnl a l b rem => cases b <;> rfl
  | _ => rfl

theorem tabs_wake (p : FLt) : tabs (wake p) = notify (tabs p) := by
  cases p with
  | test w => cases w <;> rfl
  | pop w => cases w <;> rfl
  | cUnl a l b rem => cases b <;> rfl
  | _ => rfl

theorem notify_notify (p : LPc) : notify (notify p) = notify p := by cases p <;> rfl

theorem tDue_wake (n : Bool) (p : FLt) : tDue n (wake p) = notify (tDue n p) := by
  cases n <;> simp [tDue, tabs_wake, notify_notify]

theorem dDue_wake (p : FLt) : dDue (wake p) = dDue p := by cases p <;> rfl
theorem rDue_wake (p : FLt) : rDue (wake p) = rDue p := by cases p <;> rfl
theorem pDue_wake (p : FLt) (q : List LId) : pDue (wake p) q = pDue p q := by cases p <;> rfl
theorem hDue_wake (p : FLt) (h : Addr → Option Msg) : hDue (wake p) h = hDue p h := by unfold hDue; rw [doomed_wake]

theorem tDue_none (n : Bool) : tDue n .none = .none := by cases n <;> rfl
theorem tDue_top (n : Bool) : tDue n .top = .top := by cases n <;> rfl
theorem tDue_exited (n : Bool) : tDue n .exited = .exited := by cases n <;> rfl
theorem tDue_eq {n : Bool} {p : FLt} (h : ∀ w, p ≠ .sleep w) : tDue n p = tabs p := by
  cases n
  · rfl
  · exact notify_tabs h

theorem tabs_none {p : FLt} (h : tabs p = .none) : p = .none := by
  cases p with
  | none => rfl
  | test w => cases w <;> cases h
  | pop w => cases w <;> cases h
  | cUnl a l b rem => cases b <;> cases h
  | _ => cases h

theorem tDue_ne_none {n : Bool} {p : FLt} (h : p ≠ .none) : tDue n p ≠ .none := by
  intro e
  cases n with
  | false => exact h (tabs_none e)
  | true =>
    have e : notify (tabs p) = .none := e
    exact h (tabs_none (Falcon.Log.notify_eq_none e))

end Falcon.LogM
