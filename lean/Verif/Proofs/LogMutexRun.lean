import Verif.Proofs.LogMutexCli
import Verif.Proofs.LogMutexLog
import Verif.Spec.LogMutex
/-
Runs of the log system with explicit mutexes.
-/
namespace Falcon.LogM
open Falcon.Log (Str Addr LId Msg Rx Lst Op Ev Stage Mtx LPc CPc St Act Exec setHeap setLst threshold checkCategory notify init Mem step cHolds lHolds)

variable {rx : Rx}

theorem set_same {α : Type} {cl : List α} {i : Nat} {a : α} (h : cl[i]? = some a) : cl.set i a = cl := by
  have hlt := (List.getElem?_eq_some_iff.1 h).1
  apply List.ext_getElem?
  intro j
  by_cases hj : i = j
  · subst hj; rw [List.getElem?_set_self hlt, h]
  · rw [List.getElem?_set_ne hj]

theorem lst_due (t : LId → Option Str) (ls : LId → Lst) (l : LId) (g : Lst → Lst)
    (hg : ∀ o v, lDue o (g v) = g (lDue o v)) :
    (fun k => lDue (t k) (setLst ls l (g (ls l)) k)) = setLst (fun k => lDue (t k) (ls k)) l (g (lDue (t l) (ls l))) := by
  funext k
  simp only [setLst]
  by_cases h : k = l
  · subst h; simp [hg]
  · simp [h]

theorem Inv.lstOnly {f f' : FSt} (hI : Inv f) (h1 : f'.mtx = f.mtx) (h2 : f'.cl = f.cl) (h3 : f'.lt = f.lt) (h4 : f'.pool = f.pool)
    (h5 : f'.queue = f.queue) (h6 : f'.terminated = f.terminated) (h7 : f'.next = f.next) (h8 : f'.heap = f.heap) : Inv f' := by
  refine ⟨?_, ?_, ?_, ?_, ?_⟩
  · rw [h1, h2, h3]; exact hI.own
  · rw [h2, h4]; exact hI.pool
  · rw [h3, h5, h6]; exact hI.pop
  · rw [h3, h4]; exact hI.push
  · rw [h3, h7, h8]; exact hI.old

theorem sim_go {f : FSt} {i : Nat} {pc' : FPc} (hI : Inv f) (hi : f.cl[i]? = some .idle) (h1 : holds pc' = none) (h2 : plain pc' = true)
    (hc : cabs pc' = .idle) (hn : isInc pc' = false) (hne : ∀ m, pc' ≠ .aPop m) :
    Inv { f with cl := f.cl.set i pc' } ∧ Sim rx f { f with cl := f.cl.set i pc' } none :=
  ⟨hI.move hi rfl (hI.own.same hi h1) (fun m e => absurd e (hne m)) (.inl rfl) (.inl rfl) id (.inl rfl) (fun _ h1 h2 => ⟨h1, h2⟩),
   .inl ⟨rfl, abs_keep hi (due_same hI.own hi rfl h2) hc hn⟩⟩

theorem sim_call {f : FSt} {i : Nat} {pc' : FPc} {op : Op} {c : CPc} (hI : Inv f) (hi : f.cl[i]? = some .idle) (h1 : holds pc' = none) (h2 : plain pc' = true)
    (hc : cabs pc' = c) (hn : isInc pc' = false) (hne : ∀ m, pc' ≠ .aPop m)
    (hb : ∀ s : St, Falcon.Log.beginCall rx s i op = some ({ s with cl := s.cl.set i c }, .call i op)) :
    Inv { f with cl := f.cl.set i pc' } ∧ Sim rx f { f with cl := f.cl.set i pc' } (some (.call i op)) := by
  refine ⟨hI.move hi rfl (hI.own.same hi h1) (fun m e => absurd e (hne m)) (.inl rfl) (.inl rfl) id (.inl rfl) (fun _ h1 h2 => ⟨h1, h2⟩),
    .inr ⟨.call i op, _, rfl, ?_⟩⟩
  refine commit (due_same hI.own hi rfl h2) ?_
  have hg := cl_get hi
  simp only [step, hg, cabs, hb]
  simp only [abs, absWith, List.map_set, hc, inc_keep hi (pc' := pc') hn]

theorem sim_begin {f f' : FSt} {i : Nat} {op : Op} {e : Option Ev} (hI : Inv f) (hi : f.cl[i]? = some .idle)
    (h : beginF f i op = (f', e)) : Inv f' ∧ Sim rx f f' e := by
  have hg := cl_get hi
  cases op with
  | log m => simp only [beginF] at h; cases h; exact sim_call hI hi rfl rfl rfl rfl (by simp) (fun _ => rfl)
  | logPtr m => simp only [beginF] at h; cases h; exact sim_call hI hi rfl rfl rfl rfl (by simp) (fun _ => rfl)
  | stop => simp only [beginF] at h; cases h; exact sim_call hI hi rfl rfl rfl rfl (by simp) (fun _ => rfl)
  | addListener l => simp only [beginF] at h; cases h; exact sim_go hI hi rfl rfl rfl rfl (by simp)
  | category l re => simp only [beginF] at h; cases h; exact sim_go hI hi rfl rfl rfl rfl (by simp)
  | start => simp only [beginF] at h; cases h; exact sim_go hI hi rfl rfl rfl rfl (by simp)
  | level n =>
    simp only [beginF] at h; cases h
    refine ⟨hI.lstOnly rfl rfl rfl rfl rfl rfl rfl rfl, .inr ⟨.call i (.level n), _, rfl, ?_⟩⟩
    simp only [step, hg, cabs, Falcon.Log.beginCall]; rfl
  | enable l b =>
    simp only [beginF] at h; cases h
    refine ⟨hI.lstOnly rfl rfl rfl rfl rfl rfl rfl rfl, .inr ⟨.call i (.enable l b), _, rfl, ?_⟩⟩
    refine commit (f' := { f with lst := setLst f.lst l { f.lst l with enabled := b } }) rfl ?_
    simp only [step, hg, cabs, Falcon.Log.beginCall]
    have := lst_due (due f.mtx f.cl).text f.lst l (fun v => { v with enabled := b }) (fun o v => by cases o <;> rfl)
    simp only [abs, absWith, this]
  | detach l =>
    simp only [beginF] at h; cases h
    refine ⟨hI.lstOnly rfl rfl rfl rfl rfl rfl rfl rfl, .inr ⟨.call i (.detach l), _, rfl, ?_⟩⟩
    refine commit (f' := { f with lst := setLst f.lst l { f.lst l with detached := true } }) rfl ?_
    simp only [step, hg, cabs, Falcon.Log.beginCall]
    have := lst_due (due f.mtx f.cl).text f.lst l (fun v => { v with detached := true }) (fun o v => by cases o <;> rfl)
    simp only [abs, absWith, this]
  | llevel l n =>
    simp only [beginF] at h; cases h
    refine ⟨hI.lstOnly rfl rfl rfl rfl rfl rfl rfl rfl, .inr ⟨.call i (.llevel l n), _, rfl, ?_⟩⟩
    refine commit (f' := { f with lst := setLst f.lst l { f.lst l with level := n } }) rfl ?_
    simp only [step, hg, cabs, Falcon.Log.beginCall]
    have := lst_due (due f.mtx f.cl).text f.lst l (fun v => { v with level := n }) (fun o v => by cases o <;> rfl)
    simp only [abs, absWith, this]

/-- As `Sim`, up to internal steps. -/
def SimT (rx : Rx) (f f' : FSt) (e : Option Ev) : Prop :=
  (e = none ∧ abs f' = abs f) ∨ ∃ a v, (e = some v ∨ (e = none ∧ v = .tau)) ∧ step rx (abs f) a = some (abs f', v)

theorem Sim.t {f f' : FSt} {e : Option Ev} (h : Sim rx f f' e) : SimT rx f f' e := by
  rcases h with h | ⟨a, v, h1, h2⟩
  · exact .inl h
  · exact .inr ⟨a, v, .inl h1, h2⟩

theorem sim_spurious {f : FSt} (hI : Inv f) (h : f.lt = .sleep false) :
    Inv { f with lt := .sleep true } ∧ SimT rx f { f with lt := .sleep true } none := by
  constructor
  · refine ⟨?_, hI.pool, ?_, ?_, ?_⟩
    · have := hI.own; rw [h] at this; exact this
    · intro w e; cases e
    · intro w e; cases e
    · intro w e; cases e
  · cases hn : (due f.mtx f.cl).note with
    | true =>
      refine .inl ⟨rfl, still (f' := { f with lt := .sleep true }) rfl ?_⟩
      simp only [abs, absWith, h, hn, dDue, rDue, pDue, hDue, doomed, tDue, tabs, notify, if_true]
    | false =>
      refine .inr ⟨.spurious, .tau, .inr ⟨rfl, rfl⟩, commit (f' := { f with lt := .sleep true }) rfl ?_⟩
      simp only [step, abs, absWith, h, hn, dDue, rDue, pDue, hDue, doomed, tDue, tabs, Bool.false_eq_true, if_false]

theorem sim_step {f f' : FSt} {a : FAct} {e : Option Ev} {es : List Ev} (hI : Inv f) (hm : Mem (abs f) es)
    (h : fstep rx f a = some (f', e)) : Inv f' ∧ SimT rx f f' e := by
  cases a with
  | call i op =>
    simp only [fstep] at h
    split at h
    · rename_i hi
      have := sim_begin (rx := rx) hI hi (Option.some.inj h)
      exact ⟨this.1, this.2.t⟩
    · cases h
  | diags i =>
    simp only [fstep] at h
    split at h
    · rename_i hi
      cases h
      have := sim_go (rx := rx) (pc' := .qLock .message) hI hi rfl rfl rfl rfl (by simp)
      exact ⟨this.1, this.2.t⟩
    · cases h
  | categ i l =>
    simp only [fstep] at h
    split at h
    · rename_i hi
      cases h
      have := sim_go (rx := rx) (pc' := .qLock (.category l)) hI hi rfl rfl rfl rfl (by simp)
      exact ⟨this.1, this.2.t⟩
    · cases h
  | cli i =>
    simp only [fstep] at h
    split at h
    · rename_i pc hi
      have := sim_cli (rx := rx) hI hm hi h
      exact ⟨this.1, this.2.t⟩
    · cases h
  | log =>
    simp only [fstep] at h
    have := sim_log (rx := rx) hI hm h
    exact ⟨this.1, this.2.t⟩
  | spurious =>
    simp only [fstep] at h
    split at h
    · rename_i hl
      cases h
      exact sim_spurious hI hl
    · cases h

theorem visible_append (es es' : List Ev) : visible (es ++ es') = visible es ++ visible es' := List.filter_append ..

theorem sim_run {as : List FAct} {n : Nat} {t b : Bool} {f f' : FSt} {es es0 : List Ev} (hI : Inv f) (h0 : Exec rx (init n t b) (abs f) es0)
    (h : frun rx f as = some (f', es)) :
    Inv f' ∧ ∃ es', Exec rx (init n t b) (abs f') es' ∧ visible es' = visible es0 ++ visible es := by
  induction as generalizing f es es0 with
  | nil => simp only [frun] at h; cases h; exact ⟨hI, es0, h0, by simp [visible]⟩
  | cons a as ih =>
    simp only [frun] at h
    split at h
    · cases h
    · rename_i f1 e h1
      split at h
      · cases h
      · rename_i f2 es2 h2
        cases h
        obtain ⟨i1, s1⟩ := sim_step hI (Falcon.Log.exec_mem h0) h1
        rcases s1 with ⟨rfl, hab⟩ | ⟨a', v, hv, hs⟩
        · obtain ⟨i2, es', x1, x2⟩ := ih i1 (hab ▸ h0) h2
          exact ⟨i2, es', x1, by simpa using x2⟩
        · obtain ⟨i2, es', x1, x2⟩ := ih i1 (h0.snoc hs) h2
          refine ⟨i2, es', x1, ?_⟩
          rw [x2, visible_append, visible_append, List.append_assoc]
          rcases hv with rfl | ⟨rfl, rfl⟩
          · rfl
          · rfl

theorem sim_init {as : List FAct} {n : Nat} {t b : Bool} {f : FSt} {es : List Ev} (h : frun rx (finit n t b) as = some (f, es)) :
    Inv f ∧ ∃ es', Exec rx (init n t b) (abs f) es' ∧ visible es' = visible es := by
  have := sim_run (rx := rx) (es0 := []) (inv_init n t b) (by rw [abs_init]; exact .nil) h
  simpa [visible] using this

end Falcon.LogM
