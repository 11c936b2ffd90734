import Verif.Proofs.LogMutexFeed
import Verif.Proofs.LogLatency
import Verif.Spec.LogMutexWait
/-
Listeners that use the log system: how long a message waits.
-/
namespace Falcon.LogM
open Falcon.Log (Str Addr LId Msg Rx Lst Op Ev Stage Mtx LPc CPc Exec init exec_mem exec_wake accepted finished added StopCalled exec_calm)

variable {rx : Rx} {f f' : FSt}

/-- A message was taken and is not yet finished. -/
def onHand : FLt → Nat
  | .taken _ | .got _ | .nCopy _ | .nClear _ _ | .nUnlock _ _ | .recv _ _ | .send _ _ | .probe _ _ _ _ | .cHold _ _ _ | .cUnl _ _ _ _ => 1
  | _ => 0

/-- Steps of the logging thread until it is finished with a message. -/
def wrank (W P L : Nat) : FLt → Nat
  | .send _ rem => 1 + P * rem.length
  | .probe _ _ .call rem => W + 2 + P * rem.length
  | .cUnl _ _ _ rem => W + 3 + P * rem.length
  | .cHold _ _ rem => W + 4 + P * rem.length
  | .probe _ _ .category rem => W + 5 + P * rem.length
  | .probe _ _ .level rem => W + 6 + P * rem.length
  | .probe _ _ .enabled rem => W + 7 + P * rem.length
  | .recv _ ls => 2 + P * ls.length
  | .nUnlock _ ls => 3 + P * ls.length
  | .nClear _ ls => 4 + P * ls.length
  | .nCopy _ => 5 + P * L
  | .got _ => 6 + P * L
  | .taken _ => 7 + P * L
  | .pop _ => 8 + P * L
  | .test _ => 9 + P * L
  | .top | .none | .exited | .sleep _ => 10 + P * L
  | .exit => 11 + P * L
  | .dUnl => 11 + P * L
  | .dDel _ => 11 + P * L
  | .dPush _ => 12 + P * L
  | .dInc _ => 12 + P * L
  | .dUnlF _ => 13 + P * L
  | .dTest _ => 14 + P * L
  | .disp _ => 15 + P * L
  | .clean _ _ rest => 16 + rest.length + P * L

def fins (es : List Ev) : Nat := (finished es).length
def accs (es : List Ev) : Nat := (accepted es).length
def adds' (es : List Ev) : Nat := (added es).length

theorem fins_append (a b : List Ev) : fins (a ++ b) = fins a + fins b := by simp [fins, finished, List.filterMap_append]
theorem accs_append (a b : List Ev) : accs (a ++ b) = accs a + accs b := by simp [accs, accepted, List.filterMap_append]
theorem adds'_append (a b : List Ev) : adds' (a ++ b) = adds' a + adds' b := by simp [adds', added, List.filterMap_append]

/-- The logging thread moves. -/
theorem wait_log {W P L K : Nat} {e : Option Ev} (h : logStepF rx f = some (f', e)) (hu : ∀ u, e ≠ some (.fault u)) (hL : act f.lt f.active + pend f.lt f.pending ≤ L)
    (ht : f.terminated = false) (hq : onHand f.lt = 0 → f.queue ≠ []) (hP : P = W + 7) (hK : K = 16 + L + P * L) :
    1 + wrank W P L f'.lt + W * dlvs e.toList ≤ wrank W P L f.lt + fins e.toList * K := by
  have hm := Nat.mul_le_mul_left P hL
  unfold logStepF at h
  simp only [acquireL, releaseL] at h
  split at h
  all_goals
    rename_i hl
    simp only [hl, act, pend, Nat.mul_add] at hL hm
    repeat' split at h
    all_goals
      first
      | (cases h; done)
      | (cases h; exact absurd rfl (hu _))
      | (rename_i h1; rw [ht] at h1; cases h1; done)
      | (cases h; simp [hl, wrank, dlvs, isDlv, fins, finished]; done)
      | (cases h; simp [hl, wrank, dlvs, isDlv, fins, finished, Nat.mul_add]; omega)
      | (cases h; simp [hl, wrank, dlvs, isDlv, fins, finished, Nat.mul_add]; split <;> simp <;> omega)
      | (simp_all [onHand]; done)

/-- Nobody else makes it longer. -/
theorem wait_other {W P L : Nat} {a : FAct} {e : Option Ev} (h : fstep rx f a = some (f', e)) (ha : a ≠ .log) :
    wrank W P L f'.lt = wrank W P L f.lt ∧ fins e.toList = 0 := by
  have wk : ∀ l : FLt, wrank W P L (wake l) = wrank W P L l := by intro l; cases l <;> rfl
  cases a with
  | log => exact absurd rfl ha
  | spurious => simp only [fstep] at h; split at h <;> cases h; rename_i hl; simp [hl, wrank, fins, finished]
  | call i op =>
    simp only [fstep] at h
    split at h
    · cases op <;> simp only [beginF] at h <;> cases h <;> exact ⟨rfl, rfl⟩
    · cases h
  | diags i => simp only [fstep] at h; split at h <;> cases h; exact ⟨rfl, rfl⟩
  | categ i l => simp only [fstep] at h; split at h <;> cases h; exact ⟨rfl, rfl⟩
  | cli i =>
    simp only [fstep] at h
    split at h
    · rename_i pc _
      cases pc <;> simp only [resumeF, acquire, release] at h
      all_goals
        repeat' split at h
        all_goals
          first
          | (cases h; done)
          | (cases h; exact ⟨rfl, rfl⟩)
          | (cases h; exact ⟨wk _, rfl⟩)
          | (cases h; simp_all [wrank, fins, finished]; done)
    · cases h

/-- The books: every accepted message is finished, in hand or in the queue; the listeners there are were added. -/
structure Books (f : FSt) (es : List Ev) : Prop where
  msgs : accs es = fins es + onHand f.lt + f.queue.length
  lsts : act f.lt f.active + pend f.lt f.pending ≤ adds' es

theorem Books.init (n : Nat) (t b : Bool) : Books (finit n t b) [] := by
  constructor <;> cases b <;> simp [finit, accs, accepted, fins, finished, onHand, act, pend, adds']

theorem Books.step {es : List Ev} {a : FAct} {e : Option Ev} (B : Books f es) (h : fstep rx f a = some (f', e)) (hu : ∀ u, e ≠ some (.fault u)) :
    Books f' (es ++ e.toList) := by
  obtain ⟨b1, b2⟩ := B
  have wk : ∀ l : FLt, onHand (wake l) = onHand l := by intro l; cases l <;> rfl
  have wk1 : ∀ (l : FLt) x, act (wake l) x = act l x := by intro l x; cases l <;> rfl
  have wk2 : ∀ (l : FLt) x, pend (wake l) x = pend l x := by intro l x; cases l <;> rfl
  suffices H : accs e.toList + onHand f.lt + f.queue.length = fins e.toList + onHand f'.lt + f'.queue.length ∧
      act f'.lt f'.active + pend f'.lt f'.pending ≤ act f.lt f.active + pend f.lt f.pending + adds' e.toList by
    constructor
    · rw [accs_append, fins_append]; omega
    · rw [adds'_append]; omega
  cases a with
  | log =>
    have h : logStepF rx f = some (f', e) := h
    unfold logStepF at h
    simp only [acquireL, releaseL] at h
    split at h
    all_goals
      rename_i hl
      repeat' split at h
      all_goals
        first
        | (cases h; done)
        | (cases h; exact absurd rfl (hu _))
        | (cases h; constructor <;> simp [hl, act, pend, onHand, accs, accepted, fins, finished, adds', added]; done)
        | (cases h; constructor <;> simp [hl, act, pend, onHand, accs, accepted, fins, finished, adds', added] <;> omega)
        | (cases h; constructor <;> simp_all [act, pend, onHand, accs, accepted, fins, finished, adds', added] <;> omega)
        | (cases h; constructor <;> simp [hl, act, pend, onHand, accs, accepted, fins, finished, adds', added] <;> split <;> simp <;> omega)
  | spurious => simp only [fstep] at h; split at h <;> cases h; rename_i hl; simp [hl, act, pend, onHand, accs, accepted, fins, finished]
  | call i op =>
    simp only [fstep] at h
    split at h
    · cases op <;> simp only [beginF] at h <;> cases h <;> simp [act, pend, accs, accepted, fins, finished]
    · cases h
  | diags i => simp only [fstep] at h; split at h <;> cases h; simp [act, pend, accs, accepted, fins, finished]
  | categ i l => simp only [fstep] at h; split at h <;> cases h; simp [act, pend, accs, accepted, fins, finished]
  | cli i =>
    simp only [fstep] at h
    split at h
    · rename_i pc _
      cases pc <;> simp only [resumeF, acquire, release] at h
      all_goals
        repeat' split at h
        all_goals
          first
          | (cases h; done)
          | (cases h; simp [accs, accepted, fins, finished]; done)
          | (cases h; simp [wk, wk1, wk2, accs, accepted, fins, finished]; done)
          | (cases h; simp [accs, accepted, fins, finished, adds', added]; omega)
          | (cases h; simp_all [act, pend, onHand, accs, accepted, fins, finished, adds', added]; done)
          | (cases h; constructor <;> simp [accs, accepted, fins, finished, adds', added, pend] <;> (try split) <;> (try simp) <;> omega)
    · cases h

/-! ### The account of a waiting message -/

variable {n q : Nat} {b : Bool} {r r' : FRst} {as : List FRAct} {es : List Ev}

theorem books_run {t : Bool} (h : FRExec rx n (frinit n t b) r as es) : Books r.base es := by
  induction h with
  | nil => exact .init _ _ _
  | snoc hx hs ih =>
    have hf := no_fault hx hs
    rcases frstep_cases hs with ⟨a', e, h3, rfl⟩ | ⟨h3, rfl⟩
    · exact ih.step h3 fun u hu => hf u (by simp [hu])
    · rw [h3, List.append_nil]; exact ih

theorem calm_run (h : FRExec rx n (frinit n false b) r as es) (hs : ¬ StopCalled es) : r.base.terminated = false := by
  obtain ⟨bs, hb, -⟩ := base_run h
  obtain ⟨hI, es1, hx, hv⟩ := sim_init hb
  refine (exec_calm hx ?_).1.term
  rintro ⟨i, hi⟩
  have h1 : Ev.call i .stop ∈ visible es1 := by simp [visible, hi]
  rw [hv] at h1
  exact hs ⟨i, (List.mem_filter.1 h1).1⟩

def isTurn : FRAct → Bool
  | .log _ => true
  | _ => false

/-- What is left to do until message number `j` is finished. -/
def wait (n q L j : Nat) (r : FRst) (es : List Ev) : Nat :=
  (j - fins es) * perMessage q L + wrank (16 * q + 1) (16 * q + 8) L r.base.lt + toDo n r

theorem wait_step {L j : Nat} {a : FRAct} {es' : List Ev} (h : FRExec rx n (frinit n false b) r as es) (hs : frstep rx n r a = some (r', es'))
    (hst : ¬ StopCalled es) (hL : adds' es ≤ L) (hj : j < accs es) (hn : fins (es ++ es') ≤ j) (hq : ∀ d, a = .log d → d.reqs.length ≤ q) :
    (if isTurn a then 1 else 0) + wait n q L j r' (es ++ es') ≤ wait n q L j r es := by
  have hf := no_fault h hs
  have B := books_run h
  have hw := within_run h
  have hw' := within_run (h.snoc hs)
  have b1 := B.msgs
  have b2 := B.lsts
  have nf : ∀ e : Option Ev, es' = e.toList → ∀ u, e ≠ some (.fault u) := by
    rintro e rfl u rfl
    exact hf u (by simp)
  rw [fins_append] at hn
  unfold wait
  rw [fins_append]
  by_cases hc : r.cur = none
  · have z : ∀ r : FRst, Within n r → r.cur = none → toDo n r = 0 := by
      intro r hw hc
      unfold toDo
      split
      · rfl
      · rename_i hd
        rw [hw.out hc (by simpa using hd), hc]; rfl
    have z1 := z r hw hc
    have other : ∀ a', via rx r r.cur a' = some (r', es') → a' ≠ .log → isTurn a = false →
        (if isTurn a then 1 else 0) + ((j - (fins es + fins es')) * perMessage q L + wrank (16 * q + 1) (16 * q + 8) L r'.base.lt + toDo n r') ≤
        (j - fins es) * perMessage q L + wrank (16 * q + 1) (16 * q + 8) L r.base.lt + toDo n r := by
      intro a' h ha ht
      unfold via at h
      split at h
      · cases h
      · rename_i f e hs'
        cases h
        obtain ⟨k1, k2⟩ := wait_other (W := 16 * q + 1) (P := 16 * q + 8) (L := L) hs' ha
        have z2 := z _ hw' hc
        rw [z1, z2, k2, k1, ht]
        simp
    cases a with
    | req i rq => simp only [frstep] at hs; split at hs; cases hs; exact other _ hs (rq.by_ne_log i) rfl
    | cli i => simp only [frstep] at hs; split at hs; cases hs; exact other _ hs (by simp) rfl
    | spurious => simp only [frstep] at hs; split at hs; cases hs; exact other _ hs (by simp) rfl
    | log d0 =>
      have hq0 := hq d0 rfl
      simp only [frstep, hc] at hs
      split at hs
      · cases hs
      rename_i hd
      split at hs
      · cases hs
      rename_i f e hs'
      cases hs
      have key := wait_log (W := 16 * q + 1) (P := 16 * q + 8) (L := L) (K := perMessage q L) hs' (nf e rfl) (by omega) (calm_run h hst)
        (by intro h0 hq0; rw [h0, hq0] at b1; simp at b1; omega) rfl (by simp only [perMessage, Nat.add_mul]; omega)
      have td : toDo n { r with base := f, cur := begins d0 e } ≤ (16 * q + 1) * dlvs e.toList := by
        by_cases hb : begins d0 e = none
        · rw [z _ hw' hb]; omega
        · have : dlvs e.toList = 1 ∧ begins d0 e = some d0 := by
            cases e with
            | none => exact absurd rfl hb
            | some e => cases e <;> first | exact absurd rfl hb | exact ⟨rfl, rfl⟩
          rw [this.1]
          have hi : f.cl[n]? = some .idle := by rw [keep_cl hs' (by simp [FAct.thread])]; exact hw.out hc (by simpa using hd)
          simp only [toDo, this.2, hi, crank]
          split <;> omega
      rw [z1]
      simp only [isTurn, if_true]
      have : (j - (fins es + fins e.toList)) * perMessage q L + fins e.toList * perMessage q L = (j - fins es) * perMessage q L := by
        rw [← Nat.add_mul]; congr 1; omega
      omega
  · obtain ⟨d, hd⟩ := Option.ne_none_iff_exists'.1 hc
    have td := toDo_step h hs hc
    have td : (if isTurn a then 1 else 0) + toDo n r' ≤ toDo n r := by cases a <;> exact td
    have nolog : ∀ a' cur, via rx r cur a' = some (r', es') → a' ≠ .log → fins es' = 0 ∧ wrank (16 * q + 1) (16 * q + 8) L r'.base.lt = wrank (16 * q + 1) (16 * q + 8) L r.base.lt := by
      intro a' cur h ha
      unfold via at h
      split at h
      · cases h
      · rename_i f e hs'
        cases h
        obtain ⟨k1, k2⟩ := wait_other (W := 16 * q + 1) (P := 16 * q + 8) (L := L) hs' ha
        exact ⟨k2, k1⟩
    have key : fins es' = 0 ∧ wrank (16 * q + 1) (16 * q + 8) L r'.base.lt = wrank (16 * q + 1) (16 * q + 8) L r.base.lt := by
      cases a with
      | req i rq => simp only [frstep] at hs; split at hs; cases hs; exact nolog _ _ hs (rq.by_ne_log i)
      | cli i => simp only [frstep] at hs; split at hs; cases hs; exact nolog _ _ hs (by simp)
      | spurious => simp only [frstep] at hs; split at hs; cases hs; exact nolog _ _ hs (by simp)
      | log d0 =>
        simp only [frstep, hd] at hs
        split at hs
        · cases hs
        unfold within at hs
        split at hs
        · cases hs
        · split at hs
          · split at hs <;> cases hs <;> exact ⟨rfl, rfl⟩
          · rename_i rq qs hreq
            exact nolog _ _ hs (rq.by_ne_log n)
        · cases hs; exact ⟨rfl, rfl⟩
        · exact nolog _ _ hs (by simp)
    rw [key.1, key.2]
    simp only [Nat.add_zero]
    omega

/-- Of the listeners in service some have still to be asked. -/
theorem left_step {a : FAct} {e : Option Ev} (h : fstep rx f a = some (f', e)) (hu : ∀ u, e ≠ some (.fault u)) (hl : left f.lt ≤ f.active.length) :
    left f'.lt + dlvs e.toList ≤ f'.active.length := by
  cases a with
  | log =>
    have h : logStepF rx f = some (f', e) := h
    unfold logStepF at h
    simp only [acquireL, releaseL] at h
    split at h
    all_goals
      rename_i hp
      simp only [hp, left] at hl
      repeat' split at h
      all_goals
        first
        | (cases h; done)
        | (cases h; exact absurd rfl (hu _))
        | (cases h; simp [left, dlvs, isDlv]; done)
        | (cases h; simp [left, dlvs, isDlv] <;> (try simp at hl) <;> omega)
        | (cases h; simp [left, dlvs, isDlv]; split <;> simp <;> omega)
  | spurious => simp only [fstep] at h; split at h <;> cases h; simp [left, dlvs]
  | call i op =>
    simp only [fstep] at h
    split at h
    · cases op <;> simp only [beginF] at h <;> cases h <;> exact hl
    · cases h
  | diags i => simp only [fstep] at h; split at h <;> cases h; exact hl
  | categ i l => simp only [fstep] at h; split at h <;> cases h; exact hl
  | cli i =>
    have wk : ∀ l : FLt, left (wake l) = left l := by intro l; cases l <;> rfl
    simp only [fstep] at h
    split at h
    · rename_i pc _
      cases pc <;> simp only [resumeF, acquire, release] at h
      all_goals
        repeat' split at h
        all_goals
          first
          | (cases h; done)
          | (cases h; exact hl)
          | (cases h; simp only [wk]; exact hl)
          | (cases h; simp_all [left, dlvs, isDlv]; done)
    · cases h

/-- Only the logging thread takes listeners into service. -/
theorem keep_active {a : FAct} {e : Option Ev} (h : fstep rx f a = some (f', e)) (ha : a ≠ .log) : f'.active = f.active := by
  cases a with
  | log => exact absurd rfl ha
  | spurious => simp only [fstep] at h; split at h <;> cases h; rfl
  | call i op =>
    simp only [fstep] at h
    split at h
    · cases op <;> simp only [beginF] at h <;> cases h <;> rfl
    · cases h
  | diags i => simp only [fstep] at h; split at h <;> cases h; rfl
  | categ i l => simp only [fstep] at h; split at h <;> cases h; rfl
  | cli i =>
    simp only [fstep] at h
    split at h
    · rename_i pc _
      cases pc <;> simp only [resumeF, acquire, release] at h
      all_goals
        repeat' split at h
        all_goals first | (cases h; done) | (cases h; rfl)
    · cases h

/-- What a call of onMessage has still to do, and whom the message has still to be offered. -/
structure Room (n q : Nat) (r : FRst) : Prop where
  left : left r.base.lt + (if r.cur.isSome then 1 else 0) ≤ r.base.active.length
  toDo : toDo n r ≤ 16 * q + 1

theorem room_run {t : Bool} (h : FRExec rx n (frinit n t b) r as es) (hq : Brief q as) : Room n q r := by
  induction h with
  | nil =>
    refine ⟨by cases b <;> simp [frinit, finit, LogM.left], ?_⟩
    have : (finit (n + 1) t b).cl[n]? = some .idle := by simp [finit]
    simp [LogM.toDo, frinit, this, crank]
  | @snoc r r' as es a es' hx hs ih =>
    have hf := no_fault hx hs
    have hw := within_run hx
    have hw' := within_run (hx.snoc hs)
    obtain ⟨i1, i2⟩ := ih fun d hd => hq d (by simp [hd])
    have nf : ∀ e : Option Ev, es' = e.toList → ∀ u, e ≠ some (.fault u) := by
      rintro e rfl u rfl
      exact hf u (by simp)
    have z : ∀ r : FRst, Within n r → r.cur = none → LogM.toDo n r = 0 := by
      intro r hw hc
      unfold LogM.toDo
      split
      · rfl
      · rename_i hd
        rw [hw.out hc (by simpa using hd), hc]; rfl
    by_cases hc : r.cur = none
    · have other : ∀ a', via rx r r.cur a' = some (r', es') → Room n q r' := by
        intro a' h
        unfold via at h
        split at h
        · cases h
        · rename_i f e hs'
          cases h
          have := left_step hs' (nf e rfl) (by omega)
          exact ⟨by simp only [hc]; simp; omega, by rw [z _ hw' hc]; omega⟩
      cases a with
      | req i rq => simp only [frstep] at hs; split at hs; cases hs; exact other _ hs
      | cli i => simp only [frstep] at hs; split at hs; cases hs; exact other _ hs
      | spurious => simp only [frstep] at hs; split at hs; cases hs; exact other _ hs
      | log d0 =>
        have hq0 := hq d0 (by simp)
        simp only [frstep, hc] at hs
        split at hs
        · cases hs
        rename_i hd
        split at hs
        · cases hs
        rename_i f e hs'
        cases hs
        have h1 := left_step hs' (nf e rfl) (by omega)
        by_cases hb : begins d0 e = none
        · exact ⟨by simp only [hb]; simp; omega, by rw [z _ hw' hb]; omega⟩
        · have : dlvs e.toList = 1 ∧ begins d0 e = some d0 := by
            cases e with
            | none => exact absurd rfl hb
            | some e => cases e <;> first | exact absurd rfl hb | exact ⟨rfl, rfl⟩
          have hi : f.cl[n]? = some .idle := by rw [keep_cl hs' (by simp [FAct.thread])]; exact hw.out hc (by simpa using hd)
          refine ⟨by simp only [this.2]; simp; omega, ?_⟩
          simp only [LogM.toDo, this.2, hi, crank]
          split <;> omega
    · have td := toDo_step hx hs hc
      obtain ⟨d, hd⟩ := Option.ne_none_iff_exists'.1 hc
      have i1' : LogM.left r.base.lt + 1 ≤ r.base.active.length := by rw [hd] at i1; exact i1
      have key : LogM.left r'.base.lt + 1 ≤ r'.base.active.length := by
        have nolog : ∀ a' cur, via rx r cur a' = some (r', es') → a' ≠ .log → LogM.left r'.base.lt + 1 ≤ r'.base.active.length := by
          intro a' cur h ha
          unfold via at h
          split at h
          · cases h
          · rename_i f e hs'
            cases h
            have h1 := (feed_other hs' ha).1
            have h2 : f.active = r.base.active := keep_active hs' ha
            simp only [h1, h2]; exact i1'
        cases a with
        | req i rq => simp only [frstep] at hs; split at hs; cases hs; exact nolog _ _ hs (rq.by_ne_log i)
        | cli i => simp only [frstep] at hs; split at hs; cases hs; exact nolog _ _ hs (by simp)
        | spurious => simp only [frstep] at hs; split at hs; cases hs; exact nolog _ _ hs (by simp)
        | log d0 =>
          simp only [frstep, hd] at hs
          split at hs
          · cases hs
          unfold within at hs
          split at hs
          · cases hs
          · split at hs
            · split at hs <;> cases hs <;> exact i1'
            · rename_i rq qs hreq
              exact nolog _ _ hs (rq.by_ne_log n)
          · cases hs; exact i1'
          · exact nolog _ _ hs (by simp)
      refine ⟨by split <;> omega, ?_⟩
      have : LogM.toDo n r' ≤ LogM.toDo n r := by cases a <;> simp only at td <;> omega
      omega

/-- What waiting costs at most. -/
theorem wait_le {t : Bool} {L j : Nat} (h : FRExec rx n (frinit n t b) r as es) (hq : Brief q as) (hL : adds' es ≤ L) (hj : fins es ≤ j) :
    wait n q L j r es ≤ (j + 1 - fins es) * perMessage q L := by
  have B := (books_run h).lsts
  obtain ⟨h1, h2⟩ := room_run h hq
  have hw := within_run h
  have e : j + 1 - fins es = j - fins es + 1 := by omega
  rw [e, Nat.add_mul, Nat.one_mul]
  unfold wait
  have hk : perMessage q L = 16 + L + (16 * q + 8) * L := by simp only [perMessage, Nat.add_mul]; omega
  suffices H : wrank (16 * q + 1) (16 * q + 8) L r.base.lt + toDo n r ≤ perMessage q L by omega
  rw [hk]
  by_cases hc : r.cur = none
  · have z : toDo n r = 0 := by
      unfold toDo
      split
      · rfl
      · rename_i hd
        rw [hw.out hc (by simpa using hd), hc]; rfl
    rw [z]
    rw [hc] at h1
    have h1 : left r.base.lt ≤ r.base.active.length := h1
    cases hp : r.base.lt with
    | probe a l st rem =>
      rw [hp] at h1 B
      simp only [left, act, pend] at h1 B
      have hm := Nat.mul_le_mul_left (16 * q + 8) (Nat.le_trans h1 (Nat.le_trans (Nat.le_add_right _ _) (Nat.le_trans B hL)))
      rw [Nat.mul_succ] at hm
      cases st <;> simp only [wrank] <;> omega
    | cHold a l rem =>
      rw [hp] at h1 B
      simp only [left, act, pend] at h1 B
      have hm := Nat.mul_le_mul_left (16 * q + 8) (Nat.le_trans h1 (Nat.le_trans (Nat.le_add_right _ _) (Nat.le_trans B hL)))
      rw [Nat.mul_succ] at hm
      simp only [wrank]; omega
    | cUnl a l c rem =>
      rw [hp] at h1 B
      simp only [left, act, pend] at h1 B
      have hm := Nat.mul_le_mul_left (16 * q + 8) (Nat.le_trans h1 (Nat.le_trans (Nat.le_add_right _ _) (Nat.le_trans B hL)))
      rw [Nat.mul_succ] at hm
      simp only [wrank]; omega
    | send a ls | recv a ls | nUnlock a ls | nClear a ls =>
      rw [hp] at h1 B
      simp only [left, act, pend] at h1 B
      have hm := Nat.mul_le_mul_left (16 * q + 8) (Nat.le_trans h1 (Nat.le_trans (Nat.le_add_right _ _) (Nat.le_trans B hL)))
      simp only [wrank]; omega
    | clean a kept rest =>
      rw [hp] at B
      simp only [act, pend] at B
      simp only [wrank]; omega
    | _ => simp only [wrank]; omega
  · obtain ⟨d, hd⟩ := Option.ne_none_iff_exists'.1 hc
    obtain ⟨a, rem, hp⟩ := hw.here d hd
    rw [hp, hd] at h1
    rw [hp] at B
    simp only [left, act, pend, Option.isSome, if_true] at h1 B
    have hm := Nat.mul_le_mul_left (16 * q + 8) (Nat.le_trans h1 (Nat.le_trans (Nat.le_add_right _ _) (Nat.le_trans B hL)))
    rw [Nat.mul_succ] at hm
    rw [hp]
    simp only [wrank]; omega

end Falcon.LogM
