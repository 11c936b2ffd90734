import Verif.Spec.LogFail
import Verif.Proofs.LogMem
/-
Executions in which memory runs out: the memory invariant.
-/
namespace Falcon.Log

/-- Ghost state: what was lost counts as discarded. -/
def adj (k : Nat) (s : St) : St := { s with destroyed := k + s.destroyed }

/-- Nothing depends on the counter of discarded messages. -/
theorem Step.adj {rx : Rx} {s s' : St} {e : Ev} (k : Nat) (h : Step rx s e s') : Step rx (adj k s) e (adj k s') := by
  cases h with
  | callLog => apply Step.callLog <;> assumption
  | callLogPtr => apply Step.callLogPtr <;> assumption
  | callStop => apply Step.callStop <;> assumption
  | addListener => apply Step.addListener <;> assumption
  | detach => apply Step.detach <;> assumption
  | level => apply Step.level <;> assumption
  | enable => apply Step.enable <;> assumption
  | llevel => apply Step.llevel <;> assumption
  | category => apply Step.category <;> assumption
  | categoryThrow => apply Step.categoryThrow <;> assumption
  | start => apply Step.start <;> assumption
  | startAgain => apply Step.startAgain <;> assumption
  | reject => apply Step.reject <;> assumption
  | pass => apply Step.pass <;> assumption
  | allocPool => apply Step.allocPool <;> assumption
  | allocNew => apply Step.allocNew <;> assumption
  | constructFault => apply Step.constructFault <;> assumption
  | construct => apply Step.construct <;> assumption
  | extNew => apply Step.extNew <;> assumption
  | enqueue => apply Step.enqueue <;> assumption
  | stopSet => apply Step.stopSet <;> assumption
  | stopNotify => apply Step.stopNotify <;> assumption
  | stopNone => apply Step.stopNone <;> assumption
  | stopLock => apply Step.stopLock <;> assumption
  | stopJoin => apply Step.stopJoin <;> assumption
  | spurious => apply Step.spurious <;> assumption
  | exit => apply Step.exit <;> assumption
  | sleep => apply Step.sleep <;> assumption
  | take => apply Step.take <;> assumption
  | gotFault => apply Step.gotFault <;> assumption
  | dispatch => apply Step.dispatch <;> assumption
  | next => apply Step.next <;> assumption
  | doneFault => apply Step.doneFault <;> assumption
  | done => apply Step.done <;> assumption
  | testFault => apply Step.testFault <;> assumption
  | testEnabled => apply Step.testEnabled <;> assumption
  | testLevel => apply Step.testLevel <;> assumption
  | testCategory => apply Step.testCategory <;> assumption
  | deliver => apply Step.deliver <;> assumption
  | cleanOne => apply Step.cleanOne <;> assumption
  | cleanEnd => apply Step.cleanEnd <;> assumption
  | disposePool => apply Step.disposePool <;> assumption
  | disposeFault => apply Step.disposeFault <;> assumption
  | disposeDelete => apply Step.disposeDelete <;> assumption

theorem evs_snoc (es : List FEv) (e : FEv) : evs (es ++ [e]) = evs es ++ (match e with | .ev e => [e] | _ => []) := by
  unfold evs
  rw [List.filterMap_append]
  cases e <;> rfl

/-- A client leaves its call without holding anything. -/
theorem Mem.leave {s : St} {es : List Ev} (h : Mem s es) (i : Nat) (pc : CPc) (hi : s.cl[i]? = some pc) (hh : ∀ a, cHolds a pc = 0) (hd : cHeld pc = 0)
    (k : Nat) : Mem { s with unpooled := s.unpooled + k, destroyed := s.destroyed + k, cl := s.cl.set i .idle } es := by
  refine ⟨fun a => ?_, h.fresh, h.bound, ?_, ?_, h.fifo, h.nofault⟩
  · have h1 := sum_set (cHolds a) s.cl i pc .idle hi
    have h2 := h.count a
    have h3 : cHolds a .idle = 0 := rfl
    rw [hh a] at h1
    simp only
    omega
  · have h1 := sum_set cHeld s.cl i pc .idle hi
    have h2 := h.balance
    have h3 : cHeld .idle = 0 := rfl
    simp only
    omega
  · intro j m a hj
    rcases set_get? hj with ⟨_, e⟩ | ⟨_, hj'⟩
    · cases e
    · exact h.ready j m a hj'

/-- A client loses the object it holds. -/
theorem Mem.lose {s : St} {es : List Ev} (h : Mem s es) (i : Nat) (m : Msg) (a : Addr) (hi : s.cl[i]? = some (.construct m a)) :
    Mem { s with heap := setHeap s.heap a none, destroyed := s.destroyed + 1, cl := s.cl.set i .idle } es := by
  obtain ⟨n1, n2, ⟨m0, n3⟩, n4⟩ := h.notqueue_of_cl hi (a := a) (by simp [cHolds])
  refine ⟨fun b => ?_, ?_, h.bound, ?_, ?_, ?_, h.nofault⟩
  · have h1 := sum_set (cHolds b) s.cl i _ .idle hi
    have h2 := h.count b
    simp only [cHolds] at h1
    simp only
    by_cases e : b = a
    · subst e
      rw [n3] at h2
      simp only [setHeap_self, cnt, if_true] at h1 h2 ⊢
      omega
    · rw [setHeap_ne _ _ e]
      rw [if_neg (Ne.symm e)] at h1
      omega
  · intro b hb
    by_cases e : b = a
    · subst e; simp [setHeap_self] at hb
    · exact h.fresh b (by simpa [setHeap_ne _ _ e] using hb)
  · have h1 := sum_set cHeld s.cl i _ .idle hi
    have h2 := h.balance
    simp only [cHeld] at h1
    simp only
    omega
  · intro j m' b hj
    rcases set_get? hj with ⟨_, e⟩ | ⟨hne, hj'⟩
    · cases e
    · have hb : b ≠ a := by
        rintro rfl
        have := n4 j _ hne hj'
        simp [cHolds] at this
      simp only
      rw [setHeap_ne _ _ hb]
      exact h.ready j m' b hj'
  · have hq : s.queue.map (setHeap s.heap a none) = s.queue.map s.heap := map_setHeap _ _ _ _ n1
    have hf : inflight { s with heap := setHeap s.heap a none, destroyed := s.destroyed + 1, cl := s.cl.set i .idle } = inflight s := by
      unfold inflight
      simp only
      cases hl : s.lt with
      | got b =>
        have : b ≠ a := by rintro rfl; simp [hl, lHolds] at n2
        simp only [setHeap_ne _ _ this]
      | _ => rfl
    rw [hf]
    simp only
    rw [hq]
    exact h.fifo

theorem Mem.lsts {s : St} {es : List Ev} (h : Mem s es) (g : LId → Lst) : Mem { s with lst := g } es :=
  ⟨h.count, h.fresh, h.bound, h.balance, h.ready, h.fifo, h.nofault⟩

theorem fstep_mem {rx : Rx} {f f' : FSt} {es : List FEv} {a : FAct} {e : FEv} (h : Mem (adj (f.lost.length + f.phantom) f.base) (evs es))
    (hs : fstep rx f a = some (f', e)) : Mem (adj (f'.lost.length + f'.phantom) f'.base) (evs (es ++ [e])) := by
  rw [evs_snoc]
  cases a with
  | ok a =>
    simp only [fstep] at hs
    split at hs
    · cases hs
    · split at hs
      · cases hs
      · rename_i s' e' hst
        cases hs
        exact h.step ((step_rel hst).adj _)
  | fail a =>
    simp only [fstep] at hs
    split at hs
    · cases hs
    · cases a with
      | spurious => cases hs
      | call i op =>
        simp only at hs
        split at hs
        · cases op <;> simp only [failCall] at hs
          case addListener => cases hs; simpa using h
          case category => split at hs <;> cases hs; simpa using h
          case start => split at hs <;> cases hs; simpa using h
          all_goals cases hs
        · cases hs
      | cli i =>
        simp only at hs
        split at hs
        · rename_i pc hi
          cases pc <;> simp only [failCli] at hs
          case alloc m =>
            split at hs <;> cases hs
            have := h.leave i (.alloc m) hi (fun _ => rfl) rfl 1
            have e1 : (f.lost.length + (f.phantom + 1)) + f.base.destroyed = f.lost.length + f.phantom + f.base.destroyed + 1 := by omega
            simp only [adj, e1, List.append_nil]
            exact this
          case construct m a =>
            cases hs
            have := h.lose i m a hi
            have e1 : ((f.lost ++ [a]).length + f.phantom) + f.base.destroyed = f.lost.length + f.phantom + f.base.destroyed + 1 := by
              rw [List.length_append, List.length_singleton]; omega
            simp only [adj, e1, List.append_nil]
            exact this
          case extNew m =>
            cases hs
            have := h.leave i (.extNew m) hi (fun _ => rfl) rfl 0
            simpa [adj] using this
          case enqueue => cases hs; simpa using h
          all_goals cases hs
        · cases hs
      | log =>
        simp only [failLog] at hs
        split at hs
        · split at hs <;> cases hs; simpa using h
        · split at hs
          · split at hs <;> cases hs; simpa using h
          · cases hs
        · split at hs <;> cases hs; simpa using h
        · cases hs
  | failLate a =>
    cases a with
    | call i op =>
      cases op <;> simp only [fstep] at hs
      case category l re =>
        split at hs
        · cases hs
        · split at hs
          · split at hs <;> cases hs
            rw [List.append_nil]
            exact h.lsts (setLst f.base.lst l { f.base.lst l with regex := some re })
          · cases hs
      all_goals cases hs
    | _ => simp [fstep] at hs

theorem fexec_mem {rx : Rx} {n : Nat} {t b : Bool} {f : FSt} {es : List FEv} (h : FExec rx (finit n t b) f es) :
    Mem (adj (f.lost.length + f.phantom) f.base) (evs es) := by
  induction h with
  | nil => simpa [finit, adj, evs] using Mem.initial n t b
  | snoc _ hs ih => exact fstep_mem ih hs

/-- Lost storage is what its name says: it is in no hands, and each address is lost once. -/
structure Lost (f : FSt) : Prop where
  gone  : ∀ a ∈ f.lost, f.base.heap a = none ∧ a < f.base.next
  nodup : f.lost.Nodup

theorem step_fresh {rx : Rx} {s s' : St} {e : Ev} (h : Step rx s e s') (a : Addr) (ha : s.heap a = none) (hn : a < s.next) :
    s'.heap a = none ∧ a < s'.next := by
  cases h with
  | allocNew i m hi hp =>
    refine ⟨?_, Nat.lt_succ_of_lt hn⟩
    show setHeap _ _ _ a = none
    rw [setHeap_ne _ _ (Nat.ne_of_lt hn)]; exact ha
  | extNew i m hi =>
    refine ⟨?_, Nat.lt_succ_of_lt hn⟩
    show setHeap _ _ _ a = none
    rw [setHeap_ne _ _ (Nat.ne_of_lt hn)]; exact ha
  | construct i m b hi hb =>
    refine ⟨?_, hn⟩
    show setHeap _ _ _ a = none
    rw [setHeap_ne _ _ (by rintro rfl; exact hb ha)]; exact ha
  | disposeDelete b hl hp hb =>
    refine ⟨?_, hn⟩
    show setHeap _ _ _ a = none
    by_cases hba : a = b
    · subst hba; rw [setHeap_self]
    · rw [setHeap_ne _ _ hba]; exact ha
  | _ => exact ⟨ha, hn⟩

theorem fstep_lost {rx : Rx} {f f' : FSt} {es : List FEv} {a : FAct} {e : FEv} (hm : Mem (adj (f.lost.length + f.phantom) f.base) (evs es)) (h : Lost f)
    (hs : fstep rx f a = some (f', e)) : Lost f' := by
  cases a with
  | ok a =>
    simp only [fstep] at hs
    split at hs
    · cases hs
    · split at hs
      · cases hs
      · rename_i s' e' hst
        cases hs
        exact ⟨fun x hx => step_fresh (step_rel hst) x (h.gone x hx).1 (h.gone x hx).2, h.nodup⟩
  | fail a =>
    simp only [fstep] at hs
    split at hs
    · cases hs
    · cases a with
      | spurious => cases hs
      | call i op =>
        simp only at hs
        split at hs
        · cases op <;> simp only [failCall] at hs
          case addListener => cases hs; exact h
          case category => split at hs <;> cases hs; exact h
          case start => split at hs <;> cases hs; exact h
          all_goals cases hs
        · cases hs
      | cli i =>
        simp only at hs
        split at hs
        · rename_i pc hi
          cases pc <;> simp only [failCli] at hs
          case alloc m => split at hs <;> cases hs; exact ⟨h.gone, h.nodup⟩
          case construct m a =>
            cases hs
            obtain ⟨_, _, ⟨m0, n3⟩, _⟩ := hm.notqueue_of_cl hi (a := a) (by simp [cHolds])
            have n3 : f.base.heap a = some m0 := n3
            have hna : a ∉ f.lost := fun hx => by rw [(h.gone a hx).1] at n3; cases n3
            refine ⟨?_, ?_⟩
            · intro x hx
              have hx0 : x ∈ f.lost ++ [a] := hx
              rcases List.mem_append.1 hx0 with hx1 | hx1
              · refine ⟨?_, (h.gone x hx1).2⟩
                show setHeap _ _ _ x = none
                have hxa : x ≠ a := fun e => hna (e ▸ hx1)
                rw [setHeap_ne _ _ (by first | exact hxa | exact hxa.symm)]
                exact (h.gone x hx1).1
              · have : x = a := by simpa using hx1
                subst this
                exact ⟨setHeap_self _ _ _, hm.fresh x (show (f.base.heap x).isSome by simp [n3])⟩
            · show (f.lost ++ [a]).Nodup
              rw [List.nodup_append]
              exact ⟨h.nodup, by simp, fun x hx y hy => by
                have : y = a := by simpa using hy
                subst this; rintro rfl; exact hna hx⟩
          case extNew m => cases hs; exact ⟨h.gone, h.nodup⟩
          case enqueue => cases hs; exact ⟨h.gone, h.nodup⟩
          all_goals cases hs
        · cases hs
      | log =>
        simp only [failLog] at hs
        split at hs
        · split at hs <;> cases hs; exact ⟨h.gone, h.nodup⟩
        · split at hs
          · split at hs <;> cases hs; exact ⟨h.gone, h.nodup⟩
          · cases hs
        · split at hs <;> cases hs; exact ⟨h.gone, h.nodup⟩
        · cases hs
  | failLate a =>
    cases a with
    | call i op =>
      cases op <;> simp only [fstep] at hs
      case category l re =>
        split at hs
        · cases hs
        · split at hs
          · split at hs <;> cases hs
            exact ⟨h.gone, h.nodup⟩
          · cases hs
      all_goals cases hs
    | _ => simp [fstep] at hs

theorem fexec_lost {rx : Rx} {n : Nat} {t b : Bool} {f : FSt} {es : List FEv} (h : FExec rx (finit n t b) f es) : Lost f := by
  induction h with
  | nil => exact ⟨by simp [finit], by simp [finit]⟩
  | snoc hx hs ih => exact fstep_lost (fexec_mem hx) ih hs

end Falcon.Log
