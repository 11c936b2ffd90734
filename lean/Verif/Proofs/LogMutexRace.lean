import Verif.Proofs.LogMutexLive
/-
Memory accesses of the log system with explicit mutexes.
-/
namespace Falcon.LogM
open Falcon.Log (Str Addr LId Msg Rx Lst Op Ev Stage Mtx LPc CPc St Act Exec setHeap setLst threshold checkCategory notify init Mem step cHolds lHolds Loc rd wr ard awr)

variable {rx : Rx} {f f' : FSt}

theorem same_refl (x : Loc) : FSame f f x := by cases x <;> simp [FSame]

theorem wake_none {p : FLt} : wake p = .none ↔ p = .none := by cases p <;> simp [wake]

theorem lst_ne {ls : LId → Lst} {l k : LId} {v : Lst} (h : k ≠ l) : setLst ls l v k = ls k := by simp [setLst, h]
theorem lst_eq {ls : LId → Lst} {l : LId} {v : Lst} : setLst ls l v l = v := by simp [setLst]

/-- Whatever a step changes is among its writes, or is an object it creates. -/
theorem writes {a : FAct} {e : Option Ev} (h : fstep rx f a = some (f', e)) (x : Loc) (hx : ¬ FSame f f' x) :
    (∃ acc ∈ ffoot f a, acc.loc = x ∧ acc.write = true) ∨ x = .msg f.next := by
  have noop : ∀ (M : Mtx → Option Tid) (c : List FPc), FSame f { f with mtx := M, cl := c } x := by intro M c; cases x <;> simp [FSame]
  cases a with
  | spurious =>
    simp only [fstep] at h
    split at h
    · rename_i hl; cases h; exfalso; apply hx; cases x <;> simp [FSame, hl]
    · cases h
  | diags i => simp only [fstep] at h; split at h <;> cases h; exact absurd (noop _ _) hx
  | categ i l => simp only [fstep] at h; split at h <;> cases h; exact absurd (noop _ _) hx
  | call i op =>
    simp only [fstep] at h
    split at h
    · have h := Option.some.inj h
      cases op with
      | level n =>
        simp only [beginF] at h; cases h
        simp only [ffoot, fcall]
        cases x <;> first | exact .inl ⟨_, List.mem_singleton.2 rfl, rfl, rfl⟩ | (exfalso; apply hx; simp [FSame])
      | enable l b =>
        simp only [beginF] at h; cases h
        simp only [ffoot, fcall]
        cases x
        case lEnabled k =>
          by_cases hk : k = l
          · subst hk; exact .inl ⟨_, List.mem_singleton.2 rfl, rfl, rfl⟩
          · exfalso; apply hx; simp [FSame, lst_ne hk]
        all_goals first
          | (exfalso; apply hx; simp [FSame]; done)
          | (rename_i k; exfalso; apply hx; by_cases hk : k = l
             · subst hk; simp [FSame, lst_eq]
             · simp [FSame, lst_ne hk])
      | detach l =>
        simp only [beginF] at h; cases h
        simp only [ffoot, fcall]
        cases x
        case lDetached k =>
          by_cases hk : k = l
          · subst hk; exact .inl ⟨_, List.mem_singleton.2 rfl, rfl, rfl⟩
          · exfalso; apply hx; simp [FSame, lst_ne hk]
        all_goals first
          | (exfalso; apply hx; simp [FSame]; done)
          | (rename_i k; exfalso; apply hx; by_cases hk : k = l
             · subst hk; simp [FSame, lst_eq]
             · simp [FSame, lst_ne hk])
      | llevel l n =>
        simp only [beginF] at h; cases h
        simp only [ffoot, fcall]
        cases x
        case lLevel k =>
          by_cases hk : k = l
          · subst hk; exact .inl ⟨_, List.mem_singleton.2 rfl, rfl, rfl⟩
          · exfalso; apply hx; simp [FSame, lst_ne hk]
        all_goals first
          | (exfalso; apply hx; simp [FSame]; done)
          | (rename_i k; exfalso; apply hx; by_cases hk : k = l
             · subst hk; simp [FSame, lst_eq]
             · simp [FSame, lst_ne hk])
      | _ => simp only [beginF] at h; cases h; exact absurd (noop _ _) hx
    · cases h
  | cli i =>
    simp only [fstep] at h
    cases hi : f.cl[i]? with
    | none => rw [hi] at h; cases h
    | some pc =>
      simp only [hi] at h
      simp only [ffoot, hi]
      have acq : ∀ y p, acquire f i y p = some (f', e) → FSame f f' x := by
        intro y p h; unfold acquire at h; split at h <;> cases h; exact noop _ _
      have rel : ∀ y p, release f i y p = some (f', e) → FSame f f' x := by
        intro y p h; unfold release at h; cases h; exact noop _ _
      cases pc <;> simp only [resumeF] at h <;> first
        | (cases h; done)
        | exact absurd (acq _ _ h) hx
        | exact absurd (rel _ _ h) hx
        | skip
      case check m => split at h <;> cases h <;> exact absurd (noop _ _) hx
      case aTest m =>
        split at h <;> cases h
        · cases x
          case msg a =>
            by_cases ha : a = f.next
            · subst ha; exact .inr rfl
            · exfalso; apply hx; simp [FSame, setHeap, ha]
          all_goals (exfalso; apply hx; simp [FSame])
        · exact absurd (noop _ _) hx
      case aPop m =>
        split at h <;> cases h
        · exact absurd (same_refl x) hx
        · cases x <;> first | (exact .inl ⟨wr .pool, by simp [fcli], rfl, rfl⟩) | (exfalso; apply hx; simp [FSame])
      case aInc m a =>
        cases h; cases x <;> first | (exact .inl ⟨awr .unpooled, by simp [fcli], rfl, rfl⟩) | (exfalso; apply hx; simp [FSame])
      case construct m a =>
        split at h <;> cases h
        · exact absurd (same_refl x) hx
        · cases x
          case msg b =>
            by_cases hb : b = a
            · subst hb; exact .inl ⟨wr (.msg b), by simp [fcli], rfl, rfl⟩
            · exfalso; apply hx; simp [FSame, setHeap, hb]
          all_goals (exfalso; apply hx; simp [FSame])
      case extNew m =>
        cases h
        cases x
        case msg a =>
          by_cases ha : a = f.next
          · subst ha; exact .inr rfl
          · exfalso; apply hx; simp [FSame, setHeap, ha]
        all_goals (exfalso; apply hx; simp [FSame])
      case ePush m a => cases h; cases x <;> first | (exact .inl ⟨wr .queue, by simp [fcli], rfl, rfl⟩) | (exfalso; apply hx; simp [FSame])
      case eMax => cases h; cases x <;> first | (exact .inl ⟨wr .maxQ, by simp [fcli], rfl, rfl⟩) | (exfalso; apply hx; simp [FSame])
      case eNotify => cases h; exfalso; apply hx; cases x <;> simp [FSame, wake_none]
      case sSet => cases h; cases x <;> first | (exact .inl ⟨wr .terminated, by simp [fcli], rfl, rfl⟩) | (exfalso; apply hx; simp [FSame])
      case sNotify => cases h; exfalso; apply hx; cases x <;> simp [FSame, wake_none]
      case sTTest => split at h <;> cases h <;> exact absurd (noop _ _) hx
      case sJoin =>
        split at h
        · cases h; cases x <;> first | (exact .inl ⟨wr .thread, by simp [fcli], rfl, rfl⟩) | (exfalso; apply hx; simp [FSame])
        · cases h
      case lPush l => cases h; cases x <;> first | (exact .inl ⟨wr .pending, by simp [fcli], rfl, rfl⟩) | (exfalso; apply hx; simp [FSame])
      case cRegex l re =>
        split at h <;> cases h
        · cases x
          case lCategory k =>
            by_cases hk : k = l
            · subst hk; exact .inl ⟨wr (.lCategory k), by simp [fcli], rfl, rfl⟩
            · exfalso; apply hx; simp [FSame, lst_ne hk]
          all_goals first
            | (exfalso; apply hx; simp [FSame]; done)
            | (rename_i k; exfalso; apply hx; by_cases hk : k = l
               · subst hk; simp [FSame, lst_eq]
               · simp [FSame, lst_ne hk])
        · exact absurd (noop _ _) hx
      case cText l re =>
        cases h
        cases x
        case lCategory k =>
          by_cases hk : k = l
          · subst hk; exact .inl ⟨wr (.lCategory k), by simp [fcli], rfl, rfl⟩
          · exfalso; apply hx; simp [FSame, lst_ne hk]
        all_goals first
          | (exfalso; apply hx; simp [FSame]; done)
          | (rename_i k; exfalso; apply hx; by_cases hk : k = l
             · subst hk; simp [FSame, lst_eq]
             · simp [FSame, lst_ne hk])
      case tTest =>
        split at h <;> cases h
        · cases x <;> first | (exact .inl ⟨wr .thread, by simp [fcli], rfl, rfl⟩) | (exfalso; apply hx; simp [FSame])
        · exact absurd (noop _ _) hx
  | log =>
    simp only [fstep] at h
    simp only [ffoot]
    have mv : ∀ (M : Mtx → Option Tid) (p : FLt), f.lt ≠ .none → p ≠ .none → FSame f { f with mtx := M, lt := p } x := by
      intro M p h1 h2; cases x <;> simp [FSame, h1, h2]
    have acq : ∀ y p, f.lt ≠ .none → p ≠ .none → acquireL f y p = some (f', e) → FSame f f' x := by
      intro y p h1 h2 h; unfold acquireL at h; split at h <;> cases h; exact mv _ _ h1 h2
    have rel : ∀ y p, f.lt ≠ .none → p ≠ .none → releaseL f y p = some (f', e) → FSame f f' x := by
      intro y p h1 h2 h; unfold releaseL at h; cases h; exact mv _ _ h1 h2
    have nn : ∀ {b : Bool} {p q : FLt}, p ≠ .none → q ≠ .none → (if b = true then p else q) ≠ .none := by
      intro b p q h1 h2; cases b <;> assumption
    cases hl : f.lt <;> simp only [logStepF, hl] at h
    case none => cases h
    case exited => cases h
    case top => exact absurd (acq _ _ (by simp [hl]) (by simp) h) hx
    case sleep w =>
      cases w with
      | true => exact absurd (acq _ _ (by simp [hl]) (by simp) h) hx
      | false => cases h
    case test w =>
      split at h <;> cases h <;> exact absurd (mv _ _ (by simp [hl]) (by simp)) hx
    case pop w =>
      split at h <;> cases h
      · exact absurd (same_refl x) hx
      · cases x <;> first | (exact .inl ⟨wr .queue, by simp [flog], rfl, rfl⟩) | (exfalso; apply hx; simp [FSame, hl])
    case taken a => exact absurd (rel _ _ (by simp [hl]) (by simp) h) hx
    case exit => exact absurd (rel _ _ (by simp [hl]) (by simp) h) hx
    case got a => exact absurd (acq _ _ (by simp [hl]) (by simp) h) hx
    case nCopy a =>
      split at h <;> cases h
      · exact absurd (same_refl x) hx
      · cases x <;> first | (exact .inl ⟨wr .active, by simp [flog], rfl, rfl⟩) | (exfalso; apply hx; simp [FSame, hl])
    case nClear a ls =>
      cases h; cases x <;> first | (exact .inl ⟨wr .pending, by simp [flog], rfl, rfl⟩) | (exfalso; apply hx; simp [FSame, hl])
    case nUnlock a ls => exact absurd (rel _ _ (by simp [hl]) (by simp) h) hx
    case recv a ls =>
      cases h; cases x <;> first | (exact .inl ⟨wr .received, by simp [flog], rfl, rfl⟩) | (exfalso; apply hx; simp [FSame, hl])
    case send a ls =>
      cases ls with
      | nil => dsimp only at h; split at h <;> cases h
               · exact absurd (same_refl x) hx
               · exact absurd (mv _ _ (by simp [hl]) (by simp)) hx
      | cons l ls => cases h; exact absurd (mv _ _ (by simp [hl]) (by simp)) hx
    case probe a l st rem =>
      cases hh : f.heap a with
      | none => simp only [hh] at h; cases h; exact absurd (same_refl x) hx
      | some m =>
        simp only [hh] at h
        cases st with
        | enabled => cases h; exact absurd (mv _ _ (by simp [hl]) (nn (by simp) (by simp))) hx
        | level =>
          cases h
          refine absurd (mv _ _ (by simp [hl]) ?_) hx
          split <;> simp
        | category =>
          dsimp only at h
          split at h
          · cases h; exact absurd (mv _ _ (by simp [hl]) (by simp)) hx
          · exact absurd (acq _ _ (by simp [hl]) (by simp) h) hx
        | call => cases h; exact absurd (mv _ _ (by simp [hl]) (by simp)) hx
    case cHold a l rem =>
      split at h <;> cases h
      · exact absurd (same_refl x) hx
      · exact absurd (mv _ _ (by simp [hl]) (by simp)) hx
    case cUnl a l b rem => exact absurd (rel _ _ (by simp [hl]) (nn (by simp) (by simp)) h) hx
    case clean a kept rest =>
      cases rest with
      | nil => cases h; cases x <;> first | (exact .inl ⟨wr .active, by simp [flog], rfl, rfl⟩) | (exfalso; apply hx; simp [FSame, hl])
      | cons l ls => cases h; exact absurd (mv _ _ (by simp [hl]) (by simp)) hx
    case disp a => exact absurd (acq _ _ (by simp [hl]) (by simp) h) hx
    case dTest a => split at h <;> cases h <;> exact absurd (mv _ _ (by simp [hl]) (by simp)) hx
    case dPush a =>
      cases h; cases x <;> first | (exact .inl ⟨wr .pool, by simp [flog], rfl, rfl⟩) | (exfalso; apply hx; simp [FSame, hl])
    case dUnl => exact absurd (rel _ _ (by simp [hl]) (by simp) h) hx
    case dUnlF a => exact absurd (rel _ _ (by simp [hl]) (by simp) h) hx
    case dInc a =>
      cases h; cases x <;> first | (exact .inl ⟨awr .destroyed, by simp [flog], rfl, rfl⟩) | (exfalso; apply hx; simp [FSame, hl])
    case dDel a =>
      split at h <;> cases h
      · exact absurd (same_refl x) hx
      · cases x
        case msg b =>
          by_cases hb : b = a
          · subst hb; exact .inl ⟨wr (.msg b), by simp [flog], rfl, rfl⟩
          · exfalso; apply hx; simp [FSame, setHeap, hb]
        all_goals (exfalso; apply hx; simp [FSame, hl])

/-- How an access of thread `t` is protected. -/
def Safe (f : FSt) (t : Tid) (x : Race.Access Loc Mtx) : Prop :=
  match x.loc with
  | .queue | .maxQ | .terminated => f.mtx .message = some t
  | .pool => f.mtx .pool = some t
  | .pending => f.mtx .listeners = some t
  | .thread => f.mtx .thread = some t
  | .lCategory l => f.mtx (.category l) = some t
  | .received | .active => t = none
  | .msg a => match t with
    | some i => ∃ m, f.cl[i]? = some (.construct m a)
    | none => lHolds a (tabs f.lt) = 1 ∨ doomed f.lt = some a
  | _ => x.atomic = true

theorem safe (hI : Inv f) (a : FAct) (x : Race.Access Loc Mtx) (hx : x ∈ ffoot f a) : Safe f a.thread x := by
  cases a with
  | call i op => cases op <;> simp [ffoot, fcall, awr] at hx <;> subst hx <;> rfl
  | diags i => simp [ffoot] at hx
  | categ i l => simp [ffoot] at hx
  | spurious => simp [ffoot] at hx
  | cli i =>
    simp only [ffoot] at hx
    split at hx
    · rename_i pc hi
      have own := fun y => (hI.own.at hi y).2
      cases pc
      case qHold y =>
        cases y <;> simp [fcli, rd] at hx <;> subst hx <;> exact own _ rfl
      case construct m a => simp [fcli, wr] at hx; subst hx; exact ⟨m, hi⟩
      all_goals first
        | (simp [fcli] at hx; done)
        | (simp [fcli, rd, wr, ard, awr] at hx; subst hx; first | rfl | exact own _ rfl)
        | (simp [fcli, rd, wr, ard, awr] at hx; rcases hx with rfl | rfl <;> exact own _ rfl)
        | (simp [fcli, rd, wr, ard, awr] at hx; rcases hx with rfl | rfl | rfl <;> exact own _ rfl)
    · simp at hx
  | log =>
    simp only [ffoot] at hx
    have own := fun y => (hI.own.log y).2
    cases hl : f.lt <;> rw [hl] at hx own
    case probe a l st rem =>
      cases st <;> simp [flog, rd, ard] at hx
      all_goals first
        | (rcases hx with rfl | rfl <;> simp [Safe, FAct.thread, hl, tabs, lHolds]; done)
        | (subst hx; simp [Safe, FAct.thread, hl, tabs, lHolds])
    case clean a kept rest =>
      cases rest <;> simp [flog, rd, wr, ard] at hx
      · subst hx; rfl
      · rcases hx with rfl | rfl | rfl <;> rfl
    case send a ls =>
      simp [flog, rd] at hx
      rcases hx with rfl | rfl
      · rfl
      · simp [Safe, FAct.thread, hl, tabs, lHolds]
    case nCopy a =>
      simp [flog, rd, wr] at hx
      rcases hx with rfl | rfl | rfl | rfl
      · simp [Safe, FAct.thread, hl, tabs, lHolds]
      · exact own _ rfl
      · rfl
      · rfl
    case cHold a l rem =>
      simp [flog, rd] at hx
      rcases hx with rfl | rfl
      · simp [Safe, FAct.thread, hl, tabs, lHolds]
      · exact own _ rfl
    case dDel a => simp [flog, wr] at hx; subst hx; simp [Safe, FAct.thread, hl, doomed]
    all_goals first
      | (simp [flog] at hx; done)
      | (simp [flog, rd, wr, ard, awr] at hx; subst hx; first | rfl | exact own _ rfl)
      | (simp [flog, rd, wr, ard, awr] at hx; rcases hx with rfl | rfl <;> first | rfl | exact own _ rfl)

theorem lHolds_due {a : Addr} {n : Bool} {p : FLt} (h : lHolds a (tabs p) = 1) : lHolds a (tDue n p) = 1 := by
  cases n
  · exact h
  · show lHolds a (notify (tabs p)) = 1
    cases hq : tabs p <;> rw [hq] at h <;> simp [lHolds, notify] at h ⊢ <;> assumption

/-- Two threads never access one location at once, one of them writing. -/
theorem no_conflict {es : List Ev} (hI : Inv f) (hm : Mem (abs f) es) (a a' : FAct) : ¬ Conflict rx f a a' := by
  rintro ⟨hne, _, _, x, hx, y, hy, h1, _, h3⟩
  have sx := safe hI a x hx
  have sy := safe hI a' y hy
  have msg : ∀ {i : Nat} {b : Addr} {m : Msg}, f.cl[i]? = some (.construct m b) → ¬ (lHolds b (tabs f.lt) = 1 ∨ doomed f.lt = some b) := by
    intro i b m hi h
    have hq := hm.notqueue_of_cl (cl_get hi) (a := b) (by simp [cHolds, cabs])
    rcases h with h | h
    · have h' : lHolds b (abs f).lt = 1 := lHolds_due h
      omega
    · obtain ⟨v, hv⟩ := hq.2.2.1
      exact (hDue_get hv).2 h
  unfold Safe at sx sy
  rw [← h1] at sy
  cases hloc : x.loc <;> rw [hloc] at sx sy <;> dsimp only at sx sy
  case msg b =>
    cases ht : a.thread with
    | none =>
      rw [ht] at sx
      cases ht' : a'.thread with
      | none => exact hne (ht.trans ht'.symm)
      | some j => rw [ht'] at sy; obtain ⟨m, hj⟩ := sy; exact msg hj sx
    | some i =>
      rw [ht] at sx
      obtain ⟨m, hi⟩ := sx
      cases ht' : a'.thread with
      | none => rw [ht'] at sy; exact msg hi sy
      | some j =>
        rw [ht'] at sy; obtain ⟨m', hj⟩ := sy
        have hij : j ≠ i := by rintro rfl; exact hne (ht.trans ht'.symm)
        have := (hm.notqueue_of_cl (cl_get hi) (a := b) (by simp [cHolds, cabs])).2.2.2 j _ hij (cl_get hj)
        simp [cHolds, cabs] at this
  case active => exact hne (sx.trans sy.symm)
  case received => exact hne (sx.trans sy.symm)
  all_goals first
    | exact h3 ⟨sx, sy⟩
    | exact hne (Option.some.inj (sx.symm.trans sy))

end Falcon.LogM
