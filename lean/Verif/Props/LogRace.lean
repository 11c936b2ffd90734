import Verif.Model.LogRace
import Verif.Props.LogSystem
import Mathlib.Tactic.ByContra
/-
C134: data races in the log system.
-/
namespace Falcon.Log

variable {rx : Rx} {n : Nat} {t b : Bool} {s : St} {es : List Ev}

/-- Location `x` has the same contents in both states. -/
def Loc.Same (s s' : St) : Loc → Prop
  | .level => s.level = s'.level
  | .unpooled => s.unpooled = s'.unpooled
  | .destroyed => s.destroyed = s'.destroyed
  | .maxQ => s.maxQ = s'.maxQ
  | .received => s.received = s'.received
  | .queue => s.queue = s'.queue
  | .terminated => s.terminated = s'.terminated
  | .pool => s.pool = s'.pool
  | .pending => s.pending = s'.pending
  | .active => s.active = s'.active
  | .thread => (s.lt = .none) = (s'.lt = .none)
  | .lCategory l => (s.lst l).category = (s'.lst l).category ∧ (s.lst l).regex = (s'.lst l).regex
  | .lLevel l => (s.lst l).level = (s'.lst l).level
  | .lEnabled l => (s.lst l).enabled = (s'.lst l).enabled
  | .lDetached l => (s.lst l).detached = (s'.lst l).detached
  | .msg a => s.heap a = s'.heap a

theorem notify_none {p : LPc} : (notify p = .none) = (p = .none) := by
  cases p <;> simp [notify]

/-- The accesses are complete, writes: whatever a step changes is among its writes, or is a message
object the step creates. -/
theorem C134_writes_complete {s' : St} {a : Act} {e : Ev} (h : step rx s a = some (s', e)) (x : Loc) (hx : ¬x.Same s s') :
    (∃ acc ∈ foot rx s a, acc.loc = x ∧ acc.write = true) ∨ x = .msg s.next := by
  have hne : ∀ (l k : LId) (f : LId → Lst) (v : Lst), k ≠ l → setLst f l v k = f k := by intro l k f v h; simp [setLst, h]
  cases a with
  | spurious =>
    exfalso; apply hx
    simp only [step] at h
    split at h
    · rename_i hl
      cases h
      cases x <;> simp [Loc.Same, hl]
    · cases h
  | call i op =>
    simp only [step] at h
    split at h
    · cases op with
      | log m => cases h; exfalso; apply hx; cases x <;> simp [Loc.Same]
      | logPtr m => cases h; exfalso; apply hx; cases x <;> simp [Loc.Same]
      | stop => cases h; exfalso; apply hx; cases x <;> simp [Loc.Same]
      | addListener l =>
        cases h
        cases x
        case pending => left; exact ⟨wr .pending [.listeners], by simp [foot, callFoot], rfl, rfl⟩
        all_goals (exfalso; apply hx; simp [Loc.Same])
      | level k =>
        cases h
        cases x
        case level => left; exact ⟨awr .level, by simp [foot, callFoot], rfl, rfl⟩
        all_goals (exfalso; apply hx; simp [Loc.Same])
      | enable l v =>
        cases h
        cases x
        case lEnabled k =>
          by_cases hk : k = l
          · subst hk; left; exact ⟨awr (.lEnabled k), by simp [foot, callFoot], rfl, rfl⟩
          · exfalso; apply hx; simp [Loc.Same, hne l k _ _ hk]
        all_goals (exfalso; apply hx; simp [Loc.Same, setLst]; try (split <;> simp_all))
      | detach l =>
        cases h
        cases x
        case lDetached k =>
          by_cases hk : k = l
          · subst hk; left; exact ⟨awr (.lDetached k), by simp [foot, callFoot], rfl, rfl⟩
          · exfalso; apply hx; simp [Loc.Same, hne l k _ _ hk]
        all_goals (exfalso; apply hx; simp [Loc.Same, setLst]; try (split <;> simp_all))
      | llevel l v =>
        cases h
        cases x
        case lLevel k =>
          by_cases hk : k = l
          · subst hk; left; exact ⟨awr (.lLevel k), by simp [foot, callFoot], rfl, rfl⟩
          · exfalso; apply hx; simp [Loc.Same, hne l k _ _ hk]
        all_goals (exfalso; apply hx; simp [Loc.Same, setLst]; try (split <;> simp_all))
      | category l re =>
        simp only [beginCall, setCategory] at h
        by_cases hv : rx.valid re
        · simp only [hv, if_true] at h
          cases h
          cases x
          case lCategory k =>
            by_cases hk : k = l
            · subst hk; left; exact ⟨wr (.lCategory k) [.category k], by simp [foot, callFoot, hv], rfl, rfl⟩
            · exfalso; apply hx; simp [Loc.Same, hne l k _ _ hk]
          all_goals (exfalso; apply hx; simp [Loc.Same, setLst]; try (split <;> simp_all))
        · simp only [hv, if_false, Bool.false_eq_true] at h
          cases h
          exfalso; apply hx; cases x <;> simp [Loc.Same]
      | start =>
        simp only [beginCall] at h
        split at h
        · cases h
        · split at h
          · rename_i hl
            cases h
            cases x
            case thread => left; exact ⟨wr .thread [.thread], by simp [foot, callFoot, hl], rfl, rfl⟩
            all_goals (exfalso; apply hx; simp [Loc.Same])
          · cases h; exfalso; apply hx; cases x <;> simp [Loc.Same]
    · cases h
  | cli i =>
    simp only [step] at h
    cases hi : s.cl[i]? with
    | none => rw [hi] at h; cases h
    | some pc =>
      rw [hi] at h
      cases pc with
      | idle => cases h
      | check m =>
        simp only [Log.resume] at h
        split at h <;> (cases h; exfalso; apply hx; cases x <;> simp [Loc.Same])
      | alloc m =>
        simp only [Log.resume, allocate] at h
        cases hp : s.pool.getLast? with
        | none =>
          have hp' : s.pool = [] := by simpa using hp
          rw [hp] at h
          cases h
          cases x
          case unpooled => left; exact ⟨awr .unpooled, by simp [foot, hi, cliFoot, hp'], rfl, rfl⟩
          case msg a =>
            by_cases ha : a = s.next
            · right; rw [ha]
            · exfalso; apply hx; simp [Loc.Same, setHeap_ne _ _ ha]
          all_goals (exfalso; apply hx; simp [Loc.Same])
        | some y =>
          have hp' : s.pool ≠ [] := by rintro h; rw [h] at hp; cases hp
          rw [hp] at h
          cases h
          cases x
          case pool => left; exact ⟨wr .pool [.pool], by simp [foot, hi, cliFoot, hp'], rfl, rfl⟩
          all_goals (exfalso; apply hx; simp [Loc.Same])
      | construct m a =>
        simp only [Log.resume] at h
        split at h
        · cases h; exfalso; apply hx; cases x <;> simp [Loc.Same]
        · cases h
          cases x
          case msg y =>
            by_cases ha : y = a
            · subst ha; left; exact ⟨wr (.msg y), by simp [foot, hi, cliFoot], rfl, rfl⟩
            · exfalso; apply hx; simp [Loc.Same, setHeap_ne _ _ ha]
          all_goals (exfalso; apply hx; simp [Loc.Same])
      | extNew m =>
        cases h
        cases x
        case msg a =>
          by_cases ha : a = s.next
          · right; rw [ha]
          · exfalso; apply hx; simp [Loc.Same, setHeap_ne _ _ ha]
        all_goals (exfalso; apply hx; simp [Loc.Same])
      | enqueue m a =>
        cases h
        cases x
        case queue => left; exact ⟨wr .queue [.message], by simp [foot, hi, cliFoot], rfl, rfl⟩
        case maxQ => left; exact ⟨wr .maxQ [.message], by simp [foot, hi, cliFoot], rfl, rfl⟩
        all_goals (exfalso; apply hx; simp [Loc.Same, notify_none])
      | stopSet =>
        cases h
        cases x
        case terminated => left; exact ⟨wr .terminated [.message], by simp [foot, hi, cliFoot], rfl, rfl⟩
        all_goals (exfalso; apply hx; simp [Loc.Same])
      | stopNotify => cases h; exfalso; apply hx; cases x <;> simp [Loc.Same, notify_none]
      | stopLock =>
        simp only [Log.resume] at h
        split at h
        · cases h
        · split at h <;> (cases h; exfalso; apply hx; cases x <;> simp [Loc.Same])
      | stopJoin =>
        simp only [Log.resume] at h
        split at h
        · cases h
          cases x
          case thread => left; exact ⟨wr .thread [.thread], by simp [foot, hi, cliFoot], rfl, rfl⟩
          all_goals (exfalso; apply hx; simp [Loc.Same])
        · cases h
  | log =>
    simp only [step] at h
    simp only [foot]
    have hd : ∀ {s' : St} {e : Ev}, some (head s) = some (s', e) → s.lt ≠ .none → ¬x.Same s s' → x = .queue := by
      intro s' e h h0 hx
      unfold head at h
      split at h <;> (cases h; cases x <;> first | rfl | (exfalso; apply hx; simp [Loc.Same, h0]))
    cases hl : s.lt with
    | none => simp [logStep, hl] at h
    | exited => simp [logStep, hl] at h
    | top =>
      simp only [logStep, hl] at h
      have := hd h (by simp [hl]) hx
      subst this
      left; exact ⟨wr .queue [.message], by simp [logFoot, hl], rfl, rfl⟩
    | wait y =>
      cases y with
      | false => simp [logStep, hl] at h
      | true =>
        simp only [logStep, hl] at h
        have := hd h (by simp [hl]) hx
        subst this
        left; exact ⟨wr .queue [.message], by simp [logFoot, hl], rfl, rfl⟩
    | got a =>
      simp only [logStep, hl] at h
      split at h
      · cases h; exfalso; apply hx; cases x <;> simp [Loc.Same]
      · cases h
        cases x
        case active => left; exact ⟨wr .active [.listeners], by simp [logFoot, hl], rfl, rfl⟩
        case pending => left; exact ⟨wr .pending [.listeners], by simp [logFoot, hl], rfl, rfl⟩
        case received => left; exact ⟨wr .received, by simp [logFoot, hl], rfl, rfl⟩
        all_goals (exfalso; apply hx; simp [Loc.Same, hl])
    | send a rem =>
      cases rem with
      | nil =>
        simp only [logStep, hl] at h
        split at h <;> (cases h; exfalso; apply hx; cases x <;> simp [Loc.Same, hl])
      | cons l rem => simp only [logStep, hl] at h; cases h; exfalso; apply hx; cases x <;> simp [Loc.Same, hl]
    | test a l st rem =>
      simp only [logStep, hl] at h
      split at h
      · cases h; exfalso; apply hx; cases x <;> simp [Loc.Same]
      · exfalso; apply hx
        cases st with
        | enabled => cases h; cases x <;> simp [Loc.Same, hl]; (split <;> simp)
        | level => cases h; cases x <;> simp [Loc.Same, hl]; (split <;> simp)
        | category => cases h; cases x <;> simp [Loc.Same, hl]; (split <;> simp)
        | call => cases h; cases x <;> simp [Loc.Same, hl]
    | clean a kept rest =>
      cases rest with
      | cons l rest => simp only [logStep, hl] at h; cases h; exfalso; apply hx; cases x <;> simp [Loc.Same, hl]
      | nil =>
        simp only [logStep, hl] at h; cases h
        cases x
        case active => left; exact ⟨wr .active, by simp [logFoot, hl], rfl, rfl⟩
        all_goals (exfalso; apply hx; simp [Loc.Same, hl])
    | dispose a =>
      simp only [logStep, hl, dispose] at h
      by_cases hp : s.pool.length < threshold
      · simp only [hp, if_true] at h
        cases h
        cases x
        case pool => left; exact ⟨wr .pool [.pool], by simp [logFoot, hl, hp], rfl, rfl⟩
        all_goals (exfalso; apply hx; simp [Loc.Same, hl])
      · simp only [hp, if_false] at h
        split at h
        · cases h; exfalso; apply hx; cases x <;> simp [Loc.Same, hl]
        · cases h
          cases x
          case destroyed => left; exact ⟨awr .destroyed, by simp [logFoot, hl, hp], rfl, rfl⟩
          case msg y =>
            by_cases ha : y = a
            · subst ha; left; exact ⟨wr (.msg y), by simp [logFoot, hl, hp], rfl, rfl⟩
            · exfalso; apply hx; simp [Loc.Same, setHeap_ne _ _ ha]
          all_goals (exfalso; apply hx; simp [Loc.Same, hl])

/-- Control: everything that is not data. -/
def Ctl (s s' : St) : Prop := s.cl = s'.cl ∧ s.lt = s'.lt ∧ s.mtxThread = s'.mtxThread ∧ s.next = s'.next

/-- The accesses are complete, reads: two states that agree on the locations a step accesses make the
same step, and write the same. -/
theorem C134_reads_complete {s1 s2 s1' : St} {a : Act} {e : Ev} (hc : Ctl s1 s2) (hf : ∀ acc ∈ foot rx s1 a, acc.loc.Same s1 s2)
    (h : step rx s1 a = some (s1', e)) :
    ∃ s2', step rx s2 a = some (s2', e) ∧ Ctl s1' s2' ∧ ∀ acc ∈ foot rx s1 a, acc.loc.Same s1' s2' := by
  obtain ⟨c1, c2, c3, c4⟩ := hc
  cases a with
  | spurious =>
    simp only [step, ← c2] at h ⊢
    split at h
    · cases h; exact ⟨_, rfl, ⟨c1, rfl, c3, c4⟩, by simp [foot]⟩
    · cases h
  | call i op =>
    simp only [step, ← c1] at h ⊢
    split at h
    · cases op with
      | log m => cases h; exact ⟨_, rfl, ⟨by simp [c1], c2, c3, c4⟩, by simp [foot, callFoot]⟩
      | logPtr m => cases h; exact ⟨_, rfl, ⟨by simp [c1], c2, c3, c4⟩, by simp [foot, callFoot]⟩
      | stop => cases h; exact ⟨_, rfl, ⟨by simp [c1], c2, c3, c4⟩, by simp [foot, callFoot]⟩
      | addListener l =>
        cases h; refine ⟨_, rfl, ⟨c1, c2, c3, c4⟩, ?_⟩
        simp [foot, callFoot, wr, Loc.Same] at hf ⊢; simp [hf]
      | level k =>
        cases h; refine ⟨_, rfl, ⟨c1, c2, c3, c4⟩, ?_⟩
        simp [foot, callFoot, awr, Loc.Same] at hf ⊢
      | enable l v =>
        cases h; refine ⟨_, rfl, ⟨c1, c2, c3, c4⟩, ?_⟩
        simp [foot, callFoot, awr, Loc.Same, setLst] at hf ⊢
      | detach l =>
        cases h; refine ⟨_, rfl, ⟨c1, c2, c3, c4⟩, ?_⟩
        simp [foot, callFoot, awr, Loc.Same, setLst] at hf ⊢
      | llevel l v =>
        cases h; refine ⟨_, rfl, ⟨c1, c2, c3, c4⟩, ?_⟩
        simp [foot, callFoot, awr, Loc.Same, setLst] at hf ⊢
      | category l re =>
        simp only [beginCall, setCategory] at h ⊢
        by_cases hv : rx.valid re
        · simp only [hv, if_true] at h ⊢
          cases h; refine ⟨_, rfl, ⟨c1, c2, c3, c4⟩, ?_⟩
          simp [foot, callFoot, wr, Loc.Same, setLst, hv] at hf ⊢
        · simp only [hv, if_false, Bool.false_eq_true] at h ⊢
          cases h; exact ⟨_, rfl, ⟨c1, c2, c3, c4⟩, hf⟩
      | start =>
        simp only [beginCall, ← c3, ← c2] at h ⊢
        split at h
        · cases h
        · split at h
          · rename_i hl
            cases h; exact ⟨_, rfl, ⟨c1, rfl, by first | rfl | exact c3, c4⟩, by simp [foot, callFoot, hl, rd, wr, Loc.Same]⟩
          · cases h; exact ⟨_, rfl, ⟨c1, c2, c3, c4⟩, hf⟩
    · cases h
  | cli i =>
    simp only [step, ← c1] at h ⊢
    cases hi : s1.cl[i]? with
    | none => rw [hi] at h; cases h
    | some pc =>
      rw [hi] at h
      simp only [foot, hi] at hf ⊢
      cases pc with
      | idle => cases h
      | check m =>
        have hl : s1.level = s2.level := hf (ard .level) (by simp [cliFoot])
        simp only [Log.resume, ← hl] at h ⊢
        split at h <;> (cases h; rename_i hm; simp only [hm, if_true, if_false]; exact ⟨_, rfl, ⟨by simp [c1], c2, c3, c4⟩, by simp [cliFoot, ard, Loc.Same, hl]⟩)
      | alloc m =>
        have hpo : s1.pool = s2.pool := hf (rd .pool [.pool]) (by simp only [cliFoot]; split <;> simp)
        simp only [Log.resume, allocate, ← hpo] at h ⊢
        cases hp : s1.pool.getLast? with
        | none =>
          have hp' : s1.pool = [] := by simpa using hp
          rw [hp] at h
          cases h
          refine ⟨_, rfl, ⟨by simp [c1, c4], c2, c3, by simp [c4]⟩, ?_⟩
          simp [cliFoot, hp', rd, awr, Loc.Same] at hf ⊢
          simp [hf]
        | some y =>
          have hp' : s1.pool ≠ [] := by rintro h; rw [h] at hp; cases hp
          rw [hp] at h
          cases h
          refine ⟨_, rfl, ⟨by simp [c1], c2, c3, c4⟩, ?_⟩
          simp [cliFoot, hp', rd, wr, Loc.Same]
      | construct m a =>
        have hh : s1.heap a = s2.heap a := hf (wr (.msg a)) (by simp [cliFoot])
        simp only [Log.resume, ← hh] at h ⊢
        split at h
        · cases h; exact ⟨_, rfl, ⟨c1, c2, c3, c4⟩, hf⟩
        · cases h; exact ⟨_, rfl, ⟨by simp [c1], c2, c3, c4⟩, by simp [cliFoot, wr, Loc.Same, setHeap]⟩
      | extNew m =>
        cases h
        exact ⟨_, rfl, ⟨by simp [c1, c4], c2, c3, by simp [c4]⟩, by simp [cliFoot]⟩
      | enqueue m a =>
        cases h
        simp only [cliFoot, wr, rd, List.mem_cons, List.not_mem_nil, or_false, forall_eq_or_imp, forall_eq, Loc.Same] at hf ⊢
        exact ⟨_, rfl, ⟨by simp [c1], by simp [c2], c3, c4⟩, by simp [hf], by simp [hf], by simp [hf]⟩
      | stopSet => cases h; exact ⟨_, rfl, ⟨by simp [c1], c2, c3, c4⟩, by simp [cliFoot, wr, Loc.Same]⟩
      | stopNotify => cases h; exact ⟨_, rfl, ⟨by simp [c1], by simp [c2], c3, c4⟩, by simp [cliFoot]⟩
      | stopLock =>
        simp only [Log.resume, ← c3, ← c2] at h ⊢
        split at h
        · cases h
        · split at h
          · cases h; exact ⟨_, rfl, ⟨by simp [c1], by simp [c2], by simp [c3], c4⟩, by simp [cliFoot, rd, Loc.Same, c2]⟩
          · cases h; exact ⟨_, rfl, ⟨by simp [c1], by simp [c2], rfl, c4⟩, by simp [cliFoot, rd, Loc.Same, c2]⟩
      | stopJoin =>
        simp only [Log.resume, ← c2] at h ⊢
        split at h
        · cases h; exact ⟨_, rfl, ⟨by simp [c1], rfl, rfl, c4⟩, by simp [cliFoot, rd, wr, Loc.Same]⟩
        · cases h
  | log =>
    simp only [step] at h ⊢
    simp only [foot] at hf ⊢
    have hd : ∀ {s1' : St} {e : Ev}, some (head s1) = some (s1', e) → s1.queue = s2.queue → s1.terminated = s2.terminated →
        ∃ s2', some (head s2) = some (s2', e) ∧ Ctl s1' s2' ∧ s1'.queue = s2'.queue ∧ s1'.terminated = s2'.terminated := by
      intro s1' e h hq ht
      unfold head at h ⊢
      rw [← hq, ← ht]
      split at h <;> cases h
      · rename_i h1; refine ⟨_, rfl, ⟨c1, rfl, c3, c4⟩, ?_, ?_⟩ <;> simp_all
      · rename_i h1 h2; refine ⟨_, rfl, ⟨c1, rfl, c3, c4⟩, ?_, ?_⟩ <;> simp_all
      · rename_i h1 h2; refine ⟨_, rfl, ⟨c1, rfl, c3, c4⟩, ?_, ?_⟩ <;> simp_all
    cases hl : s1.lt with
    | none => simp [logStep, hl] at h
    | exited => simp [logStep, hl] at h
    | top =>
      simp only [logStep, hl, ← c2] at h ⊢
      simp only [logFoot, hl, rd, wr, List.mem_cons, List.not_mem_nil, or_false, forall_eq_or_imp, forall_eq, Loc.Same] at hf ⊢
      obtain ⟨s2', a1, a2, a3, a4⟩ := hd h hf.1 hf.2.1
      exact ⟨s2', a1, a2, a3, a4, a3⟩
    | wait y =>
      cases y with
      | false => simp [logStep, hl] at h
      | true =>
        simp only [logStep, hl, ← c2] at h ⊢
        simp only [logFoot, hl, rd, wr, List.mem_cons, List.not_mem_nil, or_false, forall_eq_or_imp, forall_eq, Loc.Same] at hf ⊢
        obtain ⟨s2', a1, a2, a3, a4⟩ := hd h hf.1 hf.2.1
        exact ⟨s2', a1, a2, a3, a4, a3⟩
    | got a =>
      simp only [logStep, hl, ← c2] at h ⊢
      simp only [logFoot, hl, rd, wr, List.mem_cons, List.not_mem_nil, or_false, forall_eq_or_imp, forall_eq, Loc.Same] at hf ⊢
      obtain ⟨f1, f2, f3, f4, f5, f6⟩ := hf
      simp only [← f1, ← f2, ← f3]
      split at h
      · cases h; exact ⟨_, rfl, ⟨c1, c2, c3, c4⟩, f1, f2, f3, f4, f5, f6⟩
      · cases h; exact ⟨_, rfl, ⟨c1, rfl, c3, c4⟩, f1, rfl, rfl, rfl, by simp [f5], rfl⟩
    | send a rem =>
      simp only [logFoot, hl, rd, wr, List.mem_cons, List.not_mem_nil, or_false, forall_eq_or_imp, forall_eq, Loc.Same] at hf ⊢
      cases rem with
      | nil =>
        simp only [logStep, hl, ← c2, ← hf.1, ← hf.2] at h ⊢
        split at h
        · cases h; exact ⟨_, rfl, ⟨c1, c2, c3, c4⟩, hf⟩
        · cases h; exact ⟨_, rfl, ⟨c1, rfl, c3, c4⟩, hf.1, by first | rfl | exact hf.2⟩
      | cons l rem =>
        simp only [logStep, hl, ← c2] at h ⊢
        cases h; exact ⟨_, rfl, ⟨c1, rfl, c3, c4⟩, hf⟩
    | test a l st rem =>
      cases st with
      | enabled =>
        simp only [logFoot, hl, rd, ard, List.mem_cons, List.not_mem_nil, or_false, forall_eq_or_imp, forall_eq, Loc.Same] at hf ⊢
        simp only [logStep, hl, ← c2, ← hf.1, ← hf.2] at h ⊢
        split at h
        · cases h; exact ⟨_, rfl, ⟨c1, c2, c3, c4⟩, hf⟩
        · cases h; exact ⟨_, rfl, ⟨c1, rfl, c3, c4⟩, hf⟩
      | level =>
        simp only [logFoot, hl, rd, ard, List.mem_cons, List.not_mem_nil, or_false, forall_eq_or_imp, forall_eq, Loc.Same] at hf ⊢
        simp only [logStep, hl, ← c2, ← hf.1, ← hf.2] at h ⊢
        split at h
        · cases h; exact ⟨_, rfl, ⟨c1, c2, c3, c4⟩, hf⟩
        · cases h; exact ⟨_, rfl, ⟨c1, rfl, c3, c4⟩, hf⟩
      | category =>
        have h1 : s1.heap a = s2.heap a := hf (rd (.msg a)) (by simp only [logFoot, hl]; split <;> (try split) <;> simp)
        simp only [logStep, hl, ← c2, ← h1] at h ⊢
        split at h
        · cases h; exact ⟨_, rfl, ⟨c1, c2, c3, c4⟩, hf⟩
        · rename_i m hm
          have hcc : checkCategory rx (s1.lst l) m.cat = checkCategory rx (s2.lst l) m.cat := by
            by_cases hcat : m.cat = []
            · simp [checkCategory, hcat]
            · have h2 := hf (rd (.lCategory l) [.category l]) (by simp [logFoot, hl, hm, hcat])
              obtain ⟨h2, h3⟩ : (s1.lst l).category = (s2.lst l).category ∧ (s1.lst l).regex = (s2.lst l).regex := h2
              simp only [checkCategory, h2, h3]
          simp only [← hcc]
          cases h; refine ⟨_, rfl, ⟨c1, rfl, c3, c4⟩, ?_⟩
          intro acc hacc
          have h4 := hf acc hacc
          have h5 : acc.loc = .msg a ∨ acc.loc = .lCategory l := by
            simp only [logFoot, hl, hm] at hacc
            split at hacc <;> simp [rd] at hacc
            · simp [hacc]
            · rcases hacc with h | h <;> simp [h]
          rcases h5 with h5 | h5 <;> (rw [h5] at h4 ⊢; exact h4)
      | call =>
        simp only [logFoot, hl, rd, ard, List.mem_cons, List.not_mem_nil, or_false, forall_eq, Loc.Same] at hf ⊢
        simp only [logStep, hl, ← c2, ← hf] at h ⊢
        split at h
        · cases h; exact ⟨_, rfl, ⟨c1, c2, c3, c4⟩, hf⟩
        · cases h; exact ⟨_, rfl, ⟨c1, rfl, c3, c4⟩, hf⟩
    | clean a kept rest =>
      cases rest with
      | cons l rest =>
        simp only [logFoot, hl, rd, wr, ard, List.mem_cons, List.not_mem_nil, or_false, forall_eq_or_imp, forall_eq, Loc.Same] at hf ⊢
        simp only [logStep, hl, ← c2, ← hf.2.1] at h ⊢
        cases h; exact ⟨_, rfl, ⟨c1, rfl, c3, c4⟩, hf⟩
      | nil =>
        simp only [logFoot, hl, rd, wr, ard, List.mem_cons, List.not_mem_nil, or_false, forall_eq, Loc.Same] at hf ⊢
        simp only [logStep, hl, ← c2] at h ⊢
        cases h; exact ⟨_, rfl, ⟨c1, rfl, c3, c4⟩, rfl⟩
    | dispose a =>
      by_cases hp : s1.pool.length < threshold
      · simp only [logFoot, hl, hp, if_true, rd, wr, List.mem_cons, List.not_mem_nil, or_false, forall_eq_or_imp, forall_eq, Loc.Same] at hf ⊢
        simp only [logStep, dispose, hl, ← c2, ← hf.1, hp, if_true] at h ⊢
        cases h; exact ⟨_, rfl, ⟨c1, rfl, c3, c4⟩, rfl, rfl⟩
      · simp only [logFoot, hl, hp, if_false, rd, wr, awr, List.mem_cons, List.not_mem_nil, or_false, forall_eq_or_imp, forall_eq, Loc.Same] at hf ⊢
        simp only [logStep, dispose, hl, ← c2, ← hf.1, ← hf.2.2, hp, if_false] at h ⊢
        split at h
        · cases h; exact ⟨_, rfl, ⟨c1, rfl, c3, c4⟩, hf⟩
        · cases h; exact ⟨_, rfl, ⟨c1, rfl, c3, c4⟩, by first | rfl | exact hf.1, by simp [hf], by simp [setHeap]⟩

/-! ### no data race -/

/-- Two different threads are about to make accesses that are a data race. -/
def DataRace (rx : Rx) (s : St) (a b : Act) : Prop :=
  a.thread ≠ b.thread ∧ step rx s a ≠ none ∧ step rx s b ≠ none ∧ ∃ x ∈ foot rx s a, ∃ y ∈ foot rx s b, Race.Clash x y

/-- What makes an access of thread `th` safe. -/
def Guarded (s : St) (th : Option Nat) (x : Acc) : Prop :=
  match x.loc with
  | .level | .unpooled | .destroyed => x.atomic = true
  | .lLevel _ | .lEnabled _ | .lDetached _ => x.atomic = true
  | .queue | .maxQ | .terminated => .message ∈ x.held
  | .pool => .pool ∈ x.held
  | .pending => .listeners ∈ x.held
  | .thread => .thread ∈ x.held
  | .lCategory l => .category l ∈ x.held
  | .active | .received => th = none
  | .msg a => match th with
    | none => lHolds a s.lt = 1
    | some i => ∃ pc, s.cl[i]? = some pc ∧ cHolds a pc = 1

theorem guarded (a : Act) (x : Acc) (hx : x ∈ foot rx s a) : Guarded s a.thread x := by
  cases a with
  | spurious => simp [foot] at hx
  | call i op =>
    simp only [foot] at hx
    cases op <;> simp only [callFoot] at hx
    case log => simp at hx
    case logPtr => simp at hx
    case stop => simp at hx
    case category l re =>
      split at hx
      · simp [wr] at hx; subst hx; simp [Guarded]
      · simp at hx
    case start =>
      split at hx
      · simp [wr, rd] at hx; rcases hx with rfl | rfl <;> simp [Guarded]
      · simp [rd] at hx; subst hx; simp [Guarded]
    all_goals (simp [wr, awr] at hx; subst hx; simp [Guarded])
  | cli i =>
    simp only [foot] at hx
    cases hi : s.cl[i]? with
    | none => simp [hi] at hx
    | some pc =>
      rw [hi] at hx
      cases pc <;> simp only [cliFoot] at hx
      case idle => simp at hx
      case extNew => simp at hx
      case stopNotify => simp at hx
      case check => simp [ard] at hx; subst hx; simp [Guarded]
      case alloc =>
        split at hx <;> (simp [rd, wr, awr] at hx; rcases hx with rfl | rfl <;> simp [Guarded])
      case construct m a =>
        simp [wr] at hx; subst hx
        show ∃ pc, s.cl[i]? = some pc ∧ cHolds a pc = 1
        exact ⟨_, hi, by simp [cHolds]⟩
      case enqueue => simp [rd, wr] at hx; rcases hx with rfl | rfl | rfl <;> simp [Guarded]
      case stopSet => simp [wr] at hx; subst hx; simp [Guarded]
      case stopLock => simp [rd] at hx; subst hx; simp [Guarded]
      case stopJoin => simp [rd, wr] at hx; rcases hx with rfl | rfl <;> simp [Guarded]
  | log =>
    simp only [foot] at hx
    unfold logFoot at hx
    simp only [Act.thread]
    cases hl : s.lt with
    | none => simp [hl] at hx
    | exited => simp [hl] at hx
    | top => simp [hl, rd, wr] at hx; rcases hx with rfl | rfl | rfl <;> simp [Guarded]
    | wait y =>
      cases y
      · simp [hl] at hx
      · simp [hl, rd, wr] at hx; rcases hx with rfl | rfl | rfl <;> simp [Guarded]
    | got a => simp [hl, rd, wr] at hx; rcases hx with rfl | rfl | rfl | rfl | rfl | rfl <;> simp [Guarded, hl, lHolds]
    | send a rem => simp [hl, rd] at hx; rcases hx with rfl | rfl <;> simp [Guarded, hl, lHolds]
    | test a l st rem =>
      cases st with
      | enabled => simp [hl, rd, ard] at hx; rcases hx with rfl | rfl <;> simp [Guarded, hl, lHolds]
      | level => simp [hl, rd, ard] at hx; rcases hx with rfl | rfl <;> simp [Guarded, hl, lHolds]
      | call => simp [hl, rd] at hx; subst hx; simp [Guarded, hl, lHolds]
      | category =>
        simp only [hl] at hx
        split at hx
        · split at hx
          · simp [rd] at hx; subst hx; simp [Guarded, hl, lHolds]
          · simp [rd] at hx; rcases hx with rfl | rfl <;> simp [Guarded, hl, lHolds]
        · simp [rd] at hx; subst hx; simp [Guarded, hl, lHolds]
    | clean a kept rest =>
      cases rest with
      | nil => simp [hl, wr] at hx; subst hx; simp [Guarded]
      | cons l rest => simp [hl, rd, wr, ard] at hx; rcases hx with rfl | rfl | rfl <;> simp [Guarded]
    | dispose a =>
      simp only [hl] at hx
      split at hx
      · simp [rd, wr] at hx; rcases hx with rfl | rfl <;> simp [Guarded]
      · simp [rd, wr, awr] at hx; rcases hx with rfl | rfl | rfl <;> simp [Guarded, hl, lHolds]

/-- Two threads hold different message objects. -/
theorem two_holders {i j : Nat} {p q : CPc} {a : Addr} (hm : Mem s es) (hi : s.cl[i]? = some p) (hj : s.cl[j]? = some q)
    (hp : cHolds a p = 1) (hq : cHolds a q = 1) : i = j := by
  by_contra hne
  have h1 := sum_set (cHolds a) s.cl i p .idle hi
  have h2 : (s.cl.set i .idle)[j]? = some q := by rw [List.getElem?_set_ne hne]; exact hj
  have h3 := sum_ge (cHolds a) _ j q h2
  have h4 := hm.count a
  have h5 := cnt_le (s.heap a)
  have h6 : cHolds a .idle = 0 := rfl
  omega

theorem client_not_logger {i : Nat} {p : CPc} {a : Addr} (hm : Mem s es) (hi : s.cl[i]? = some p)
    (hp : cHolds a p = 1) (hl : lHolds a s.lt = 1) : False := by
  have h3 := sum_ge (cHolds a) _ i p hi
  have h4 := hm.count a
  have h5 := cnt_le (s.heap a)
  omega

/-- Guarded accesses of different threads do not clash. -/
theorem no_clash (hm : Mem s es) {th th' : Option Nat} {x y : Acc} (hne : th ≠ th') (hx : Guarded s th x) (hy : Guarded s th' y) :
    ¬Race.Clash x y := by
  rintro ⟨h1, _, h3, h4⟩
  unfold Guarded at hx hy
  rw [← h1] at hy
  cases hloc : x.loc <;> rw [hloc] at hx hy <;> dsimp only at hx hy
  case msg a =>
    cases th with
    | none =>
      cases th' with
      | none => exact hne rfl
      | some j => obtain ⟨p, hj, hp⟩ := hy; exact client_not_logger hm hj hp hx
    | some i =>
      obtain ⟨p, hi, hp⟩ := hx
      cases th' with
      | none => exact client_not_logger hm hi hp hy
      | some j =>
        obtain ⟨q, hj, hq⟩ := hy
        exact hne (by rw [two_holders hm hi hj hp hq])
  case active => exact hne (hx.trans hy.symm)
  case received => exact hne (hx.trans hy.symm)
  all_goals first
    | exact h3 ⟨hx, hy⟩
    | exact h4 _ hx hy

/-- C134: in no execution are two threads about to make conflicting accesses, as long as getDiags()
and category() are not called. -/
theorem C134_race_free_partial (h : Exec rx (init n t b) s es) (a a' : Act) : ¬DataRace rx s a a' := by
  rintro ⟨hne, _, _, x, hx, y, hy, hc⟩
  exact no_clash (exec_mem h) hne (guarded a x hx) (guarded a' y hy) hc

/-- The members declared std::atomic, logsystem.h 266-268 and 173-175. -/
def Loc.IsAtomic : Loc → Prop
  | .level | .unpooled | .destroyed | .lLevel _ | .lEnabled _ | .lDetached _ => True
  | _ => False

/-- C134: an access counts as atomic exactly when it is to one of the members declared std::atomic; all
others are plain accesses. -/
theorem C134_atomics_partial (a : Act) (x : Acc) (hx : x ∈ foot rx s a) : x.atomic = true ↔ x.loc.IsAtomic := by
  cases a with
  | spurious => simp [foot] at hx
  | call i op =>
    simp only [foot] at hx
    cases op <;> simp only [callFoot] at hx
    case log | logPtr | stop => simp at hx
    case category => split at hx <;> simp [wr] at hx; subst hx; simp [Loc.IsAtomic]
    case start => split at hx <;> simp [rd, wr] at hx <;> rcases hx with rfl | rfl <;> simp [Loc.IsAtomic]
    all_goals (simp [wr, awr] at hx; subst hx; simp [Loc.IsAtomic])
  | cli i =>
    simp only [foot] at hx
    split at hx
    · rename_i pc _
      cases pc <;> simp only [cliFoot] at hx
      case alloc => split at hx <;> (simp [rd, wr, awr] at hx; rcases hx with rfl | rfl <;> simp [Loc.IsAtomic])
      all_goals (simp [rd, wr, ard] at hx <;> (try rcases hx with rfl | rfl | rfl) <;> (try subst hx) <;> simp [Loc.IsAtomic])
    · simp at hx
  | log =>
    simp only [foot, logFoot] at hx
    repeat' split at hx
    all_goals (simp [rd, wr, ard, awr] at hx <;> (try rcases hx with rfl | rfl | rfl | rfl | rfl | rfl) <;> (try subst hx) <;> simp [Loc.IsAtomic])

/-- A thread that makes query `q` and the thread of step `a` are about to make a data race. -/
def QueryRace (rx : Rx) (s : St) (q : Query) (a : Act) : Prop :=
  step rx s a ≠ none ∧ ∃ x ∈ queryFoot s q, ∃ y ∈ foot rx s a, Race.Clash x y

/-- level(), isEnabled() and isDetached() may be called at any time. -/
theorem C134_getters_safe_partial (l : LId) (a : Act) : ¬QueryRace rx s (.levels l) a := by
  rintro ⟨_, x, hx, y, hy, h1, _, h3, _⟩
  have hg := guarded a y hy
  have hxa : x.atomic = true ∧ (x.loc = .level ∨ x.loc = .lLevel l ∨ x.loc = .lEnabled l ∨ x.loc = .lDetached l) := by
    simp [queryFoot, ard] at hx; rcases hx with rfl | rfl | rfl | rfl <;> simp
  apply h3 ⟨hxa.1, _⟩
  rcases hxa.2 with h | h | h | h <;> (rw [h] at h1; simpa [Guarded, ← h1] using hg)

/-- C134, getDiags(): it is a data race exactly when the logging thread begins with a message or is
removing detached listeners; it is never one with a client. -/
theorem C134_diags_exact_partial (h : Exec rx (init n t b) s es) (a : Act) :
    QueryRace rx s .diags a ↔ a = .log ∧ ((∃ x, s.lt = .got x) ∨ ∃ x kept rest, s.lt = .clean x kept rest) := by
  constructor
  · rintro ⟨hs, x, hx, y, hy, h1, h2, h3, h4⟩
    have hg := guarded a y hy
    have hxw : x.write = false := by
      simp [queryFoot, ard, rd] at hx
      rcases hx with rfl | rfl | rfl | ⟨l, _, rfl⟩ | rfl | rfl | rfl | rfl <;> rfl
    have hyw : y.write = true := by rcases h2 with h | h; · rw [hxw] at h; cases h
                                    · exact h
    have hloc : x.loc = .active ∨ x.loc = .received := by
      unfold Guarded at hg
      rw [← h1] at hg
      simp [queryFoot, ard, rd] at hx
      rcases hx with rfl | rfl | rfl | ⟨l, _, rfl⟩ | rfl | rfl | rfl | rfl
      · exact absurd ⟨rfl, hg⟩ h3
      · exact absurd ⟨rfl, hg⟩ h3
      · exact .inl rfl
      · exact absurd ⟨rfl, hg⟩ h3
      · exact .inr rfl
      · exact absurd hg (h4 _ (by simp))
      · exact absurd hg (h4 _ (by simp))
      · exact absurd hg (h4 _ (by simp))
    have hth : a.thread = none := by
      unfold Guarded at hg
      rw [← h1] at hg
      rcases hloc with h | h <;> (rw [h] at hg; exact hg)
    cases a with
    | call i op => cases hth
    | cli i => cases hth
    | spurious => simp [foot] at hy
    | log =>
      refine ⟨rfl, ?_⟩
      simp only [foot] at hy
      unfold logFoot at hy
      cases hl : s.lt with
      | got z => exact .inl ⟨z, rfl⟩
      | clean z k r => exact .inr ⟨z, k, r, rfl⟩
      | test z l st rem =>
        exfalso
        cases st <;> simp only [hl] at hy
        case category =>
          revert hy; split
          · split
            · intro hy; simp [rd] at hy; subst hy; cases hyw
            · intro hy; simp [rd] at hy; rcases hy with rfl | rfl <;> cases hyw
          · intro hy; simp [rd] at hy; subst hy; cases hyw
        case call => simp [rd] at hy; subst hy; cases hyw
        all_goals (simp [rd, ard] at hy; rcases hy with rfl | rfl <;> cases hyw)
      | dispose z =>
        exfalso
        simp only [hl] at hy
        rw [h1] at hloc
        split at hy
        · simp [rd, wr] at hy; rcases hy with rfl | rfl <;> simp at hloc
        · simp [rd, wr, awr] at hy; rcases hy with rfl | rfl | rfl <;> simp at hloc
      | wait z =>
        exfalso
        rw [h1] at hloc
        cases z
        · simp [hl] at hy
        · simp [hl, rd, wr] at hy; rcases hy with rfl | rfl | rfl <;> simp at hloc
      | top => exfalso; rw [h1] at hloc; simp [hl, rd, wr] at hy; rcases hy with rfl | rfl | rfl <;> simp at hloc
      | send z r => exfalso; simp [hl, rd] at hy; rcases hy with rfl | rfl <;> cases hyw
      | none => simp [hl] at hy
      | exited => simp [hl] at hy
  · rintro ⟨rfl, hl⟩
    refine ⟨?_, rd .active, by simp [queryFoot], ?_⟩
    · rcases hl with ⟨x, hl⟩ | ⟨x, k, r, hl⟩
      · simp only [step, logStep, hl]; split <;> simp
      · cases r <;> simp [step, logStep, hl]
    · rcases hl with ⟨x, hl⟩ | ⟨x, k, r, hl⟩
      · exact ⟨wr .active [.listeners], by simp [foot, logFoot, hl], rfl, .inr rfl, by simp [rd], by simp [rd]⟩
      · exact ⟨wr .active, by cases r <;> simp [foot, logFoot, hl], rfl, .inr rfl, by simp [rd], by simp [rd]⟩

/-- C134, category(): the text it returns a reference to races exactly with category(expression) for
a valid expression on the same listener. -/
theorem C134_category_exact_partial (l : LId) (a : Act) (hs : step rx s a ≠ none) :
    QueryRace rx s (.category l) a ↔ ∃ i re, a = .call i (.category l re) ∧ rx.valid re = true := by
  constructor
  · rintro ⟨_, x, hx, y, hy, h1, h2, h3, h4⟩
    simp [queryFoot, rd] at hx; subst hx
    have hyw : y.write = true := by rcases h2 with h | h; · cases h
                                    · exact h
    have hyl : y.loc = .lCategory l := h1.symm
    cases a with
    | spurious => simp [foot] at hy
    | call i op =>
      simp only [foot] at hy
      cases op <;> simp only [callFoot] at hy
      case category k re hs =>
        split at hy
        · rename_i hv
          simp [wr] at hy; subst hy
          cases hyl
          exact ⟨i, re, rfl, hv⟩
        · simp at hy
      case start =>
        exfalso
        split at hy
        · simp [wr, rd] at hy; rcases hy with rfl | rfl <;> cases hyl
        · simp [rd] at hy; subst hy; cases hyl
      case log => simp at hy
      case logPtr => simp at hy
      case stop => simp at hy
      all_goals (exfalso; simp [wr, awr] at hy; subst hy; cases hyl)
    | cli i =>
      exfalso
      simp only [foot] at hy
      cases hi : s.cl[i]? with
      | none => simp [hi] at hy
      | some pc =>
        rw [hi] at hy
        cases pc <;> simp only [cliFoot] at hy
        case idle => simp at hy
        case extNew => simp at hy
        case stopNotify => simp at hy
        case check => simp [ard] at hy; subst hy; cases hyl
        case alloc => split at hy <;> (simp [rd, wr, awr] at hy; rcases hy with rfl | rfl <;> cases hyl)
        case construct => simp [wr] at hy; subst hy; cases hyl
        case enqueue => simp [rd, wr] at hy; rcases hy with rfl | rfl | rfl <;> cases hyl
        case stopSet => simp [wr] at hy; subst hy; cases hyl
        case stopLock => simp [rd] at hy; subst hy; cases hyl
        case stopJoin => simp [rd, wr] at hy; rcases hy with rfl | rfl <;> cases hyl
    | log =>
      exfalso
      simp only [foot] at hy
      unfold logFoot at hy
      cases hl : s.lt with
      | none => simp [hl] at hy
      | exited => simp [hl] at hy
      | top => simp [hl, rd, wr] at hy; rcases hy with rfl | rfl | rfl <;> cases hyl
      | wait z =>
        cases z
        · simp [hl] at hy
        · simp [hl, rd, wr] at hy; rcases hy with rfl | rfl | rfl <;> cases hyl
      | got z => simp [hl, rd, wr] at hy; rcases hy with rfl | rfl | rfl | rfl | rfl | rfl <;> cases hyl
      | send z r => simp [hl, rd] at hy; rcases hy with rfl | rfl <;> cases hyl
      | clean z k r =>
        cases r with
        | nil => simp [hl, wr] at hy; subst hy; cases hyl
        | cons l r => simp [hl, rd, wr, ard] at hy; rcases hy with rfl | rfl | rfl <;> cases hyl
      | dispose z =>
        simp only [hl] at hy
        split at hy
        · simp [rd, wr] at hy; rcases hy with rfl | rfl <;> cases hyl
        · simp [rd, wr, awr] at hy; rcases hy with rfl | rfl | rfl <;> cases hyl
      | test z k st rem =>
        cases st <;> simp only [hl] at hy
        case category =>
          revert hy; split
          · split
            · intro hy; simp [rd] at hy; subst hy; cases hyw
            · intro hy; simp [rd] at hy; rcases hy with rfl | rfl <;> cases hyw
          · intro hy; simp [rd] at hy; subst hy; cases hyw
        case call => simp [rd] at hy; subst hy; cases hyw
        all_goals (simp [rd, ard] at hy; rcases hy with rfl | rfl <;> cases hyw)
  · rintro ⟨i, re, rfl, hv⟩
    exact ⟨hs, rd (.lCategory l), by simp [queryFoot], wr (.lCategory l) [.category l], by simp [foot, callFoot, hv], rfl, .inr rfl,
      by simp [rd], by simp [rd]⟩

/-- C134 is false: getDiags() while a message is being served is a data race, on the list of active
listeners it walks. -/
theorem C134_diags_refuted : ∃ s es, Exec demoRx (init 1 false true) s es ∧ QueryRace demoRx s .diags .log := by
  have h : ∃ s es, run demoRx (init 1 false true) [.call 0 (.addListener 7), .call 0 (.log (demoMsg 1)), .cli 0, .cli 0, .cli 0, .cli 0, .log] = some (s, es) ∧
      ∃ x, s.lt = .got x := ⟨_, _, rfl, _, rfl⟩
  obtain ⟨s, es, h1, h2⟩ := h
  exact ⟨s, es, exec_of_run _ h1, (C134_diags_exact_partial (exec_of_run _ h1) .log).2 ⟨rfl, .inl h2⟩⟩

/-- C134 is false: the text category() returns is a data race with category(expression) in another
thread. -/
theorem C134_category_refuted : ∃ s es a, Exec demoRx (init 1 false true) s es ∧ QueryRace demoRx s (.category 7) a := by
  refine ⟨_, _, .call 0 (.category 7 ['x']), .nil, (C134_category_exact_partial 7 _ (by simp [step, init, beginCall, setCategory, demoRx])).2 ⟨0, ['x'], rfl, rfl⟩⟩

/-- Non-vacuity of C134_race_free_partial: a state in which a client constructs a message, another waits
for the pool and the logging thread serves a third message; all three can move, and the logging thread
and the client access message objects. -/
example : ∃ s es, Exec demoRx (init 2 false true) s es ∧ step demoRx s (.cli 0) ≠ none ∧ step demoRx s (.cli 1) ≠ none ∧ step demoRx s .log ≠ none ∧
    (∃ a x, x ∈ foot demoRx s (.cli 0) ∧ x.loc = .msg a ∧ x.write = true) ∧ (∃ a x, x ∈ foot demoRx s .log ∧ x.loc = .msg a) := by
  have h : ∃ s es, run demoRx (init 2 false true) [.call 0 (.log (demoMsg 1)), .cli 0, .cli 0, .cli 0, .cli 0, .log, .call 0 (.log (demoMsg 2)), .cli 0, .cli 0,
      .call 1 (.log (demoMsg 3)), .cli 1] = some (s, es) ∧ s.cl = [.construct (demoMsg 2) 62, .alloc (demoMsg 3)] ∧ s.lt = .got 63 ∧ s.heap 62 = some Msg.default ∧
      s.heap 63 = some (demoMsg 1) := ⟨_, _, rfl, rfl, rfl, rfl, rfl⟩
  obtain ⟨s, es, h1, h2, h3, h4, h5⟩ := h
  refine ⟨s, es, exec_of_run _ h1, ?_, ?_, ?_, ⟨62, wr (.msg 62), by simp [foot, h2, cliFoot], rfl, rfl⟩, 63, rd (.msg 63), by simp [foot, logFoot, h3], rfl⟩
  · simp [step, h2, Log.resume, h4]
  · simp [step, h2, Log.resume]
  · simp [step, logStep, h3, h5]

end Falcon.Log
