import Verif.Proofs.LogMutexReact
import Verif.Proofs.LogMutexWork
import Verif.Spec.LogMutexFeed
/-
Listeners that use the log system: the account of a run.
-/
namespace Falcon.LogM
open Falcon.Log (Str Addr LId Msg Rx Lst Op Ev Stage Mtx LPc CPc Exec init exec_mem exec_wake)

variable {rx : Rx} {f f' : FSt}

/-- Listeners still to be offered the message. -/
def left : FLt → Nat
  | .nClear _ ls | .nUnlock _ ls | .recv _ ls | .send _ ls => ls.length
  | .probe _ _ _ rem | .cHold _ _ rem | .cUnl _ _ _ rem => rem.length + 1
  | _ => 0

/-- A message was taken and not yet dispatched. -/
def inHand : FLt → Nat
  | .taken _ | .got _ | .nCopy _ => 1
  | _ => 0

def isDlv : Ev → Bool
  | .deliver _ _ => true
  | _ => false

def isDsp : Ev → Bool
  | .dispatch _ _ => true
  | _ => false

def dlvs (es : List Ev) : Nat := es.countP isDlv
def dsps (es : List Ev) : Nat := es.countP isDsp

def isLogAct : FAct → Bool
  | .call _ (.log _) | .call _ (.logPtr _) => true
  | _ => false

theorem dlvs_append (a b : List Ev) : dlvs (a ++ b) = dlvs a + dlvs b := List.countP_append
theorem dsps_append (a b : List Ev) : dsps (a ++ b) = dsps a + dsps b := List.countP_append
theorem logCalls_append (a b : List Ev) : logCalls (a ++ b) = logCalls a + logCalls b := List.countP_append

/-- The logging thread moves. -/
theorem feed_log {e : Option Ev} (h : logStepF rx f = some (f', e)) (hu : ∀ u, e ≠ some (.fault u)) :
    left f'.lt + dlvs e.toList ≤ left f.lt + dsps e.toList * lis f ∧
    f'.queue.length + inHand f'.lt + dsps e.toList ≤ f.queue.length + inHand f.lt ∧ logCalls e.toList = 0 := by
  unfold logStepF at h
  simp only [acquireL, releaseL] at h
  split at h
  all_goals
    rename_i hl
    repeat' split at h
    all_goals
      first
      | (cases h; done)
      | (cases h; exact absurd rfl (hu _))
      | (cases h; simp_all [left, inHand, dlvs, dsps, logCalls, isDlv, isDsp]; done)
      | (cases h; refine ⟨?_, ?_, ?_⟩ <;> simp [hl, left, inHand, dlvs, dsps, logCalls, isDlv, isDsp, lis, act, pend]; done)
      | (cases h; refine ⟨?_, ?_, ?_⟩ <;> simp [hl, left, inHand, dlvs, dsps, logCalls, isDlv, isDsp, lis, act, pend] <;> omega)

/-- Nobody else offers messages to listeners. -/
theorem feed_other {a : FAct} {e : Option Ev} (h : fstep rx f a = some (f', e)) (ha : a ≠ .log) :
    left f'.lt = left f.lt ∧ inHand f'.lt = inHand f.lt ∧ dlvs e.toList = 0 ∧ dsps e.toList = 0 := by
  cases a with
  | log => exact absurd rfl ha
  | spurious => simp only [fstep] at h; split at h <;> cases h; rename_i hl; simp [hl, left, inHand, dlvs, dsps]
  | call i op =>
    simp only [fstep] at h
    split at h
    · cases op <;> simp only [beginF] at h <;> cases h <;> exact ⟨rfl, rfl, rfl, rfl⟩
    · cases h
  | diags i => simp only [fstep] at h; split at h <;> cases h; exact ⟨rfl, rfl, rfl, rfl⟩
  | categ i l => simp only [fstep] at h; split at h <;> cases h; exact ⟨rfl, rfl, rfl, rfl⟩
  | cli i =>
    have wk : ∀ l : FLt, left (wake l) = left l ∧ inHand (wake l) = inHand l := by
      intro l; cases l <;> try exact ⟨rfl, rfl⟩
    simp only [fstep] at h
    split at h
    · rename_i pc _
      cases pc <;> simp only [resumeF, acquire, release] at h
      all_goals
        repeat' split at h
        all_goals
          first
          | (cases h; done)
          | (cases h; exact ⟨rfl, rfl, rfl, rfl⟩)
          | (cases h; exact ⟨(wk _).1, (wk _).2, rfl, rfl⟩)
          | (cases h; simp_all [left, inHand, dlvs, dsps, isDlv, isDsp]; done)
    · cases h

/-- What is observed of calls of log. -/
theorem feed_call {a : FAct} {e : Option Ev} (h : fstep rx f a = some (f', e)) : logCalls e.toList = [a].countP isLogAct := by
  cases a with
  | log =>
    have h : logStepF rx f = some (f', e) := h
    unfold logStepF at h
    simp only [acquireL, releaseL] at h
    repeat' split at h
    all_goals first | (cases h; done) | (cases h; rfl)
  | spurious => simp only [fstep] at h; split at h <;> cases h; rfl
  | call i op =>
    simp only [fstep] at h
    split at h
    · cases op <;> simp only [beginF] at h <;> cases h <;> rfl
    · cases h
  | diags i => simp only [fstep] at h; split at h <;> cases h; rfl
  | categ i l => simp only [fstep] at h; split at h <;> cases h; rfl
  | cli i =>
    simp only [fstep] at h
    split at h
    · rename_i pc _
      cases pc <;> simp only [resumeF, acquire, release] at h
      all_goals
        repeat' split at h
        all_goals first | (cases h; done) | (cases h; rfl)
    · cases h

/-- Calls bring messages, and nothing else does. -/
theorem feed_que {a : FAct} {e : Option Ev} (h : fstep rx f a = some (f', e)) (hu : ∀ u, e ≠ some (.fault u)) :
    que f' + inHand f'.lt + dsps e.toList ≤ que f + inHand f.lt + [a].countP isLogAct := by
  have same : que f' = que f → a ≠ .log → que f' + inHand f'.lt + dsps e.toList ≤ que f + inHand f.lt + [a].countP isLogAct := by
    intro h1 h2
    obtain ⟨-, k2, -, k4⟩ := feed_other h h2
    omega
  cases a with
  | log =>
    have h : logStepF rx f = some (f', e) := h
    have := (feed_log h hu).2.1
    simp only [que, log_frame h]
    omega
  | spurious => exact same (by simp only [fstep] at h; split at h <;> cases h; rfl) (by simp)
  | cli i =>
    obtain ⟨-, k2, -, k4⟩ := feed_other h (by simp)
    simp only [fstep] at h
    split at h
    · rename_i pc hi
      have := (less_cli hi h hu).1
      omega
    · cases h
  | call i op =>
    obtain ⟨-, k2, -, k4⟩ := feed_other h (by simp)
    rw [k2, k4]
    simp only [fstep] at h
    split at h
    · rename_i hi
      have set : ∀ p, sumOf enq (f.cl.set i p) = sumOf enq f.cl + enq p := by
        intro p
        have := sumOf_set (w := enq) hi p
        have z : enq .idle = 0 := rfl
        omega
      cases op <;> simp only [beginF] at h <;> cases h <;> simp only [que, set, enq, List.countP_cons, List.countP_nil, isLogAct] <;> simp <;> omega
    · cases h
  | diags i =>
    refine same ?_ (by simp)
    simp only [fstep] at h; split at h <;> cases h
    rename_i hi
    have := sumOf_set (w := enq) hi (.qLock .message)
    simp only [que, enq] at this ⊢; omega
  | categ i l =>
    refine same ?_ (by simp)
    simp only [fstep] at h; split at h <;> cases h
    rename_i hi
    have := sumOf_set (w := enq) hi (.qLock (.category l))
    simp only [que, enq] at this ⊢; omega

/-! ### The account -/

variable {n q : Nat} {t b : Bool} {r r' : FRst} {as : List FRAct} {es : List Ev}

/-- Calls the running onMessage has still to make. -/
def owed (r : FRst) : Nat := match r.cur with | some d => d.reqs.length | none => 0

/-- A call of onMessage is under way. -/
def busy (r : FRst) : Nat := if r.cur.isSome && !r.dead then 1 else 0

structure Tally (rx : Rx) (n : Nat) (t b : Bool) (q : Nat) (r : FRst) (as : List FRAct) (es : List Ev) (bs : List FAct) (mine : Nat) : Prop where
  run   : frun rx (finit (n + 1) t b) bs = some (r.base, es)
  calls : bs.countP isCall = asks as + mine
  logs  : bs.countP isLogAct = logCalls es
  spur  : bs.count .spurious = as.count .spurious
  len   : as.length + busy r ≤ bs.length + dlvs es
  own   : mine + owed r ≤ q * dlvs es
  adds  : adds bs + owed r + q * left r.base.lt ≤ asksToAdd as * (1 + q) ^ dsps es
  dlv   : dlvs es + left r.base.lt ≤ dsps es * LogM.adds bs
  taken : dsps es + que r.base + inHand r.base.lt ≤ logCalls es

theorem adds_snoc (as : List FAct) (a : FAct) : adds (as ++ [a]) = adds as + adds [a] := List.countP_append

theorem finit_lis (n : Nat) (t b : Bool) : lis (finit n t b) = 0 := by
  have : ∀ k, sumOf addr (List.replicate k .idle) = 0 := by intro k; induction k <;> simp_all [sumOf, addr, List.replicate_succ]
  simp only [lis, finit]
  cases b <;> simp [act, pend, this]

theorem lis_le {bs : List FAct} {f : FSt} (h : frun rx (finit n t b) bs = some (f, es)) : lis f ≤ adds bs := by
  obtain ⟨hI, es0, h1, -⟩ := sim_init (rx := rx) (n := n) (t := t) (b := b) (as := []) (f := finit n t b) (es := []) rfl
  exact (run_work (L := adds bs) hI h1 (by rw [finit_lis]; omega) h).2

/-- A step of the log system, in the account. `sl`: the call that begins with it is one of a listener. -/
theorem Tally.base {bs : List FAct} {self : Nat} {a : FRAct} {a' : FAct} {e : Option Ev} {f' : FSt} (T : Tally rx n t b q r as es bs self) (hs : fstep rx r.base a' = some (f', e))
    (hu : ∀ u, e ≠ some (.fault u)) (sl : Nat) (h1 : [a'].countP isCall = asks [a] + sl) (h2 : [a'].count .spurious = [a].count .spurious)
    (hb : r'.base = f') (h3 : 1 + busy r' ≤ 1 + busy r + dlvs e.toList) (h4 : sl + owed r' ≤ owed r + q * dlvs e.toList)
    (h5 : LogM.adds [a'] + owed r' ≤ asksToAdd [a] + owed r + q * dlvs e.toList) :
    Tally rx n t b q r' (as ++ [a]) (es ++ e.toList) (bs ++ [a']) (self + sl) := by
  subst hb
  have hrun := frun_append T.run (frun_one hs)
  have hlis : lis r.base ≤ LogM.adds bs := lis_le T.run
  have hl : left r'.base.lt + dlvs e.toList ≤ left r.base.lt + dsps e.toList * lis r.base := by
    by_cases hlog : a' = .log
    · subst hlog; exact (feed_log hs hu).1
    · obtain ⟨k1, k2, k3, k4⟩ := feed_other hs hlog; rw [k1, k3, k4]; simp
  have hk : dsps e.toList ≤ 1 := by
    cases e with
    | none => simp [dsps]
    | some e => simp only [dsps, Option.toList]; exact List.countP_le_length
  have asksS : asks (as ++ [a]) = asks as + asks [a] := List.countP_append
  have addS : asksToAdd (as ++ [a]) = asksToAdd as + asksToAdd [a] := List.countP_append
  refine ⟨hrun, ?_, ?_, ?_, ?_, ?_, ?_, ?_, ?_⟩
  · rw [List.countP_append, T.calls, h1, asksS]; omega
  · rw [List.countP_append, T.logs, logCalls_append, feed_call hs]
  · rw [List.count_append, List.count_append, T.spur, h2]
  · have := T.len
    rw [dlvs_append]; simp only [List.length_append, List.length_singleton]; omega
  · have := T.own
    rw [dlvs_append, Nat.mul_add]; omega
  · rw [dsps_append, adds_snoc, addS]
    have key := T.adds
    have hq : q * left r'.base.lt + q * dlvs e.toList ≤ q * left r.base.lt + q * (dsps e.toList * lis r.base) := by
      rw [← Nat.mul_add, ← Nat.mul_add]; exact Nat.mul_le_mul_left q hl
    have hp : 1 ≤ (1 + q) ^ (dsps es + dsps e.toList) := Nat.one_le_pow _ _ (by omega)
    have h6 : asksToAdd [a] ≤ asksToAdd [a] * (1 + q) ^ (dsps es + dsps e.toList) := by
      calc asksToAdd [a] = asksToAdd [a] * 1 := (Nat.mul_one _).symm
        _ ≤ _ := Nat.mul_le_mul_left _ hp
    rw [Nat.add_mul]
    have h7 : q * (dsps e.toList * lis r.base) + asksToAdd as * (1 + q) ^ dsps es ≤ asksToAdd as * (1 + q) ^ (dsps es + dsps e.toList) := by
      rcases Nat.le_one_iff_eq_zero_or_eq_one.1 hk with h0 | h0
      · rw [h0]; simp
      · rw [h0, Nat.one_mul, Nat.pow_succ, ← Nat.mul_assoc, Nat.mul_add, Nat.mul_one]
        have : q * lis r.base ≤ asksToAdd as * (1 + q) ^ dsps es * q := by
          rw [Nat.mul_comm q]
          exact Nat.mul_le_mul_right q (by omega)
        omega
    omega
  · rw [dlvs_append, dsps_append, adds_snoc, Nat.add_mul, Nat.mul_add, Nat.mul_add]
    have := T.dlv
    have h8 : dsps e.toList * lis r.base ≤ dsps e.toList * LogM.adds bs := Nat.mul_le_mul_left _ hlis
    omega
  · have := T.taken
    have h9 := feed_que hs hu
    rw [← feed_call hs] at h9
    rw [dsps_append, logCalls_append]; omega

theorem Tally.init (rx : Rx) (n : Nat) (t b : Bool) (q : Nat) : Tally rx n t b q (frinit n t b) [] [] [] 0 := by
  have hq : que (finit (n + 1) t b) = 0 := by
    have : ∀ k, sumOf enq (List.replicate k .idle) = 0 := by intro k; induction k <;> simp_all [sumOf, enq, List.replicate_succ]
    simp only [que, finit, this]; rfl
  have hlt : left (finit (n + 1) t b).lt = 0 ∧ inHand (finit (n + 1) t b).lt = 0 := by cases b <;> exact ⟨rfl, rfl⟩
  refine ⟨rfl, rfl, rfl, rfl, ?_, ?_, ?_, ?_, ?_⟩
  · simp [busy, frinit]
  · simp [owed, frinit]
  · simp [owed, frinit, hlt.1, LogM.adds, asksToAdd]
  · simp [dlvs, frinit, hlt.1]
  · simp [dsps, logCalls, frinit, hq, hlt.2]

theorem Tally.exists (h : FRExec rx n (frinit n t b) r as es) (hq : Brief q as) : ∃ bs self, Tally rx n t b q r as es bs self := by
  induction h with
  | nil => exact ⟨[], 0, .init rx n t b q⟩
  | @snoc r r' as es a es' hx hs ih =>
    have hf := no_fault hx hs
    obtain ⟨bs, self, T⟩ := ih fun d hd => hq d (by simp [hd])
    have nf : ∀ e : Option Ev, es' = e.toList → ∀ u, e ≠ some (.fault u) := by
      rintro e rfl u rfl
      exact hf u (by simp)
    have other : ∀ a', via rx r r.cur a' = some (r', es') → a' ≠ .log → [a'].countP isCall = asks [a] → [a'].count .spurious = [a].count .spurious →
        LogM.adds [a'] ≤ asksToAdd [a] → ∃ bs self, Tally rx n t b q r' (as ++ [a]) (es ++ es') bs self := by
      intro a' h hlog h1 h2 h5
      unfold via at h
      split at h
      · cases h
      · rename_i f e hs'
        cases h
        refine ⟨_, _, T.base hs' (nf e rfl) 0 h1 h2 rfl ?_ ?_ ?_⟩
        · simp [busy]
        · simp [owed]
        · simp only [owed]; omega
    cases a with
    | req i rq =>
      simp only [frstep] at hs
      split at hs
      · cases hs
      · refine other _ hs (rq.by_ne_log i) ?_ ?_ ?_
        · cases rq <;> rfl
        · cases rq <;> rfl
        · cases rq with
          | op o => cases o <;> simp [Req.by, LogM.adds, asksToAdd]
          | _ => simp [Req.by, LogM.adds, asksToAdd]
    | cli i =>
      simp only [frstep] at hs
      split at hs
      · cases hs
      · exact other _ hs (by simp) rfl rfl (by simp [LogM.adds])
    | spurious =>
      simp only [frstep] at hs
      split at hs
      · cases hs
      · exact other _ hs (by simp) rfl rfl (by simp [LogM.adds])
    | log d0 =>
      simp only [frstep] at hs
      split at hs
      · cases hs
      rename_i hd
      have hd : r.dead = false := by simpa using hd
      split at hs
      · rename_i d hcur
        have stay : r'.base = r.base → es' = [] → owed r' ≤ owed r → 1 + busy r' ≤ busy r → ∃ bs self, Tally rx n t b q r' (as ++ [.log d0]) (es ++ es') bs self := by
          intro h1 h2 h3 h4
          subst h2
          rw [List.append_nil]
          have e1 : asks (as ++ [.log d0]) = asks as := by simp [asks]
          have e2 : asksToAdd (as ++ [.log d0]) = asksToAdd as := by simp [asksToAdd]
          have := T.len; have := T.own; have := T.adds
          refine ⟨bs, self, by rw [h1]; exact T.run, by rw [e1]; exact T.calls, T.logs, by rw [T.spur]; simp, ?_, by omega, ?_, by rw [h1]; exact T.dlv, by rw [h1]; exact T.taken⟩
          · simp only [List.length_append, List.length_singleton]; omega
          · rw [e2, h1]; omega
        have hb : busy r = 1 := by simp [busy, hcur, hd]
        unfold within at hs
        split at hs
        · cases hs
        · split at hs
          · rename_i hreq
            split at hs
            · cases hs; exact stay rfl rfl (Nat.le_refl _) (by rw [hb]; simp [busy])
            · cases hs; exact stay rfl rfl (by simp [owed]) (by rw [hb]; simp [busy])
          · rename_i rq qs hreq
            unfold via at hs
            split at hs
            · cases hs
            · rename_i f e hs'
              cases hs
              have o1 : owed r = qs.length + 1 := by simp [owed, hcur, hreq]
              refine ⟨_, _, T.base hs' (nf e rfl) 1 ?_ ?_ rfl ?_ ?_ ?_⟩
              · cases rq <;> rfl
              · cases rq <;> rfl
              · rw [hb]; simp [busy, hd]
              · rw [o1]; simp only [owed]; omega
              · rw [o1]
                have : LogM.adds [rq.by n] ≤ 1 := List.countP_le_length
                simp only [owed]; omega
        · cases hs; exact stay rfl rfl (Nat.le_refl _) (by rw [hb]; simp [busy])
        · unfold via at hs
          split at hs
          · cases hs
          · rename_i f e hs'
            cases hs
            refine ⟨_, _, T.base hs' (nf e rfl) 0 rfl rfl rfl ?_ ?_ ?_⟩
            · simp [busy, hcur]
            · simp [owed, hcur]
            · have : LogM.adds [FAct.cli n] = 0 := rfl
              simp only [owed, hcur]; omega
      · rename_i hcur
        split at hs
        · cases hs
        · rename_i f e hs'
          cases hs
          have hq0 := hq d0 (by simp)
          have o0 : owed r = 0 := by simp [owed, hcur]
          have b0 : busy r = 0 := by simp [busy, hcur]
          have key : 1 + busy { r with base := f, cur := begins d0 e } ≤ 1 + dlvs e.toList ∧ owed { r with base := f, cur := begins d0 e } ≤ q * dlvs e.toList := by
            cases e with
            | none => simp [busy, owed, begins]
            | some e => cases e <;> simp [busy, owed, begins, dlvs, isDlv, hd, hq0]
          refine ⟨_, _, T.base hs' (nf e rfl) 0 rfl rfl rfl ?_ ?_ ?_⟩
          · rw [b0]; exact key.1
          · rw [o0]; have := key.2; omega
          · rw [o0]
            have := key.2
            have : LogM.adds [FAct.log] = 0 := rfl
            omega

end Falcon.LogM
