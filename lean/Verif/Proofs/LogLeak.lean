import Verif.Model.LogLeak
import Verif.Proofs.LogRun
import Verif.Proofs.LogStop
/-
The account of the string buffers along executions.
-/
namespace Falcon.Log

def sumTo (f : Nat → Nat) : Nat → Nat
  | 0 => 0
  | n + 1 => sumTo f n + f n

theorem sumTo_congr {f g : Nat → Nat} : ∀ (n : Nat), (∀ a, a < n → f a = g a) → sumTo f n = sumTo g n
  | 0, _ => rfl
  | n + 1, h => by
    show sumTo f n + f n = sumTo g n + g n
    rw [sumTo_congr n (fun a ha => h a (by omega)), h n (by omega)]

theorem sumTo_le {f g : Nat → Nat} : ∀ (n : Nat), (∀ a, a < n → f a ≤ g a) → sumTo f n ≤ sumTo g n
  | 0, _ => Nat.le_refl _
  | n + 1, h => by
    have h1 := sumTo_le n (fun a ha => h a (by omega))
    have h2 := h n (by omega)
    show sumTo f n + f n ≤ sumTo g n + g n
    omega

theorem sumTo_update {f g : Nat → Nat} {a : Nat} : ∀ (n : Nat), a < n → (∀ b, b ≠ a → g b = f b) →
    sumTo g n + f a = sumTo f n + g a
  | 0, h, _ => by omega
  | n + 1, h, e => by
    show sumTo g n + g n + f a = sumTo f n + f n + g a
    by_cases hn : a = n
    · subst hn
      rw [sumTo_congr a (fun b hb => e b (by omega))]; omega
    · have := sumTo_update n (by omega) e
      rw [e n (Ne.symm hn)]; omega

theorem sumTo_add {f g : Nat → Nat} : ∀ (n : Nat), sumTo (fun a => f a + g a) n = sumTo f n + sumTo g n
  | 0 => rfl
  | n + 1 => by
    have := sumTo_add (f := f) (g := g) n
    show sumTo (fun a => f a + g a) n + (f n + g n) = sumTo f n + f n + (sumTo g n + g n)
    omega

theorem sumTo_const (c : Nat) : ∀ (n : Nat), sumTo (fun _ => c) n = c * n
  | 0 => rfl
  | n + 1 => by
    show sumTo (fun _ => c) n + c = c * (n + 1)
    rw [sumTo_const c n, Nat.mul_succ]

theorem sumTo_zero {f : Nat → Nat} (n : Nat) (h : ∀ a, a < n → f a = 0) : sumTo f n = 0 := by
  rw [sumTo_congr n h, sumTo_const]; omega

theorem sum_count (f : Nat → Nat) (n : Nat) : ∀ (l : List Nat), (∀ a ∈ l, a < n) →
    (l.map f).sum = sumTo (fun a => l.count a * f a) n
  | [], _ => (sumTo_zero n (fun a _ => by simp)).symm
  | x :: l, h => by
    rw [List.map_cons, List.sum_cons, sum_count f n l (fun a ha => h a (by simp [ha]))]
    have hx := h x (by simp)
    have := sumTo_update (f := fun a => l.count a * f a) (g := fun a => (x :: l).count a * f a) n hx
      (fun b hb => by simp [Ne.symm hb])
    simp only [List.count_cons_self, Nat.add_mul] at this
    omega

/-- Buffers of the object at an address. -/
def bufsAt (cap : Nat) (h : Addr → Option Msg) (a : Addr) : Nat :=
  match h a with
  | some m => bufs cap m
  | none   => 0

def deadAt (h : Addr → Option Msg) (a : Addr) : Nat := 1 - cnt (h a)

theorem bufs_le (cap : Nat) (m : Msg) : bufs cap m ≤ 3 := by
  unfold bufs
  split <;> split <;> split <;> omega

theorem bufs_default (cap : Nat) : bufs cap Msg.default = 0 := by simp [bufs, Msg.default]

def live (cap : Nat) (s : St) : Nat := sumTo (bufsAt cap s.heap) s.next
def dead (s : St) : Nat := sumTo (deadAt s.heap) s.next

theorem live_le (cap : Nat) (s : St) : live cap s + 3 * dead s ≤ 3 * s.next := by
  have h1 : sumTo (fun a => bufsAt cap s.heap a + (deadAt s.heap a + (deadAt s.heap a + deadAt s.heap a))) s.next
      ≤ sumTo (fun _ => 3) s.next := by
    apply sumTo_le
    intro a _
    unfold bufsAt deadAt
    cases s.heap a with
    | none => simp [cnt]
    | some m => have := bufs_le cap m; simp [cnt]; omega
  rw [sumTo_add, sumTo_add, sumTo_add, sumTo_const] at h1
  unfold live dead; omega

theorem sum_setHeap {cap : Nat} {h : Addr → Option Msg} {a n : Nat} {v : Option Msg} (ha : a < n) :
    sumTo (bufsAt cap (setHeap h a v)) n + bufsAt cap h a = sumTo (bufsAt cap h) n + bufsAt cap (setHeap h a v) a :=
  sumTo_update n ha (fun b hb => by unfold bufsAt; rw [setHeap_ne h v hb])

theorem dead_setHeap {h : Addr → Option Msg} {a n : Nat} {v : Option Msg} (ha : a < n) :
    sumTo (deadAt (setHeap h a v)) n + deadAt h a = sumTo (deadAt h) n + deadAt (setHeap h a v) a :=
  sumTo_update n ha (fun b hb => by unfold deadAt; rw [setHeap_ne h v hb])

theorem sum_fresh {cap : Nat} {h : Addr → Option Msg} {n : Nat} {m : Msg} :
    sumTo (bufsAt cap (setHeap h n (some m))) (n + 1) = sumTo (bufsAt cap h) n + bufs cap m := by
  show sumTo _ n + bufsAt cap (setHeap h n (some m)) n = _
  rw [sumTo_congr (g := bufsAt cap h) n (fun b hb => by unfold bufsAt; rw [setHeap_ne h _ (Nat.ne_of_lt hb)])]
  congr 1
  unfold bufsAt; rw [setHeap_self]

theorem dead_fresh {h : Addr → Option Msg} {n : Nat} {m : Msg} :
    sumTo (deadAt (setHeap h n (some m))) (n + 1) = sumTo (deadAt h) n := by
  show sumTo _ n + deadAt (setHeap h n (some m)) n = _
  rw [sumTo_congr (g := deadAt h) n (fun b hb => by unfold deadAt; rw [setHeap_ne h _ (Nat.ne_of_lt hb)])]
  unfold deadAt; rw [setHeap_self]; simp [cnt]

/-- Objects whose buffers are made but whose message is not in the queue yet. -/
def cBufs (cap : Nat) : CPc → Nat
  | .enqueue m _ => bufs cap m
  | _ => 0

/-- Buffers of messages put into the queue. -/
def sent (cap : Nat) (es : List Ev) : Nat := ((accepted es).map (bufs cap)).sum

structure Account (cap : Nat) (s : St) (es : List Ev) (g : Buffers) : Prop where
  balance : g.made = g.lost + g.freed + live cap s
  freed   : g.freed ≤ 3 * dead s
  next    : s.next = threshold + s.unpooled + s.external
  made    : g.made = sent cap es + (s.cl.map (cBufs cap)).sum

theorem sent_snoc (cap : Nat) (es : List Ev) (e : Ev) : sent cap (es ++ [e]) = sent cap es + sent cap [e] := by
  simp [sent, accepted_append]

/-- A step that touches neither the heap nor the buffers. -/
theorem Account.quiet {cap : Nat} {s s' : St} {es : List Ev} {e : Ev} {g : Buffers} (h : Account cap s es g)
    (h1 : s'.heap = s.heap) (h2 : s'.next = s.next) (h3 : s'.unpooled = s.unpooled) (h4 : s'.external = s.external)
    (h5 : sent cap [e] + (s'.cl.map (cBufs cap)).sum = (s.cl.map (cBufs cap)).sum) : Account cap s' (es ++ [e]) g := by
  refine ⟨?_, ?_, ?_, ?_⟩
  · have := h.balance; unfold live at *; rw [h1, h2]; exact this
  · have := h.freed; unfold dead at *; rw [h1, h2]; exact this
  · rw [h2, h3, h4]; exact h.next
  · rw [sent_snoc, h.made]; omega

/-- The client's position after a step, in the sum. -/
theorem cBufs_set {cap : Nat} {s : St} {i : Nat} {pc : CPc} (pc' : CPc) (hi : s.cl[i]? = some pc) :
    ((s.cl.set i pc').map (cBufs cap)).sum + cBufs cap pc = (s.cl.map (cBufs cap)).sum + cBufs cap pc' :=
  sum_set (cBufs cap) s.cl i pc pc' hi

/-- A step that changes only the client's position, neither of them `enqueue`. -/
theorem Account.move {cap : Nat} {s s' : St} {es : List Ev} {e : Ev} {g : Buffers} {i : Nat} {pc pc' : CPc} (h : Account cap s es g)
    (hi : s.cl[i]? = some pc) (h0 : s'.cl = s.cl.set i pc') (hc : cBufs cap pc = 0) (hc' : cBufs cap pc' = 0)
    (h1 : s'.heap = s.heap) (h2 : s'.next = s.next) (h3 : s'.unpooled = s.unpooled) (h4 : s'.external = s.external)
    (he : accepted [e] = []) : Account cap s' (es ++ [e]) g := by
  refine h.quiet h1 h2 h3 h4 ?_
  have := cBufs_set (cap := cap) pc' hi
  rw [h0]
  simp only [sent, he, List.map_nil, List.sum_nil]; omega

theorem beginCall_account {cap : Nat} {rx : Rx} {s s' : St} {i : Nat} {op : Op} {e : Ev} {es : List Ev} {g : Buffers}
    (hi : s.cl[i]? = some .idle) (hs : beginCall rx s i op = some (s', e)) (h : Account cap s es g) :
    Account cap s' (es ++ [e]) g := by
  cases op with
  | log m => cases hs; exact h.move hi rfl rfl rfl rfl rfl rfl rfl rfl
  | logPtr m => cases hs; exact h.move hi rfl rfl rfl rfl rfl rfl rfl rfl
  | stop => cases hs; exact h.move hi rfl rfl rfl rfl rfl rfl rfl rfl
  | addListener l => cases hs; exact h.quiet rfl rfl rfl rfl (by simp [sent, accepted])
  | level l => cases hs; exact h.quiet rfl rfl rfl rfl (by simp [sent, accepted])
  | enable l b => cases hs; exact h.quiet rfl rfl rfl rfl (by simp [sent, accepted])
  | detach l => cases hs; exact h.quiet rfl rfl rfl rfl (by simp [sent, accepted])
  | llevel l n => cases hs; exact h.quiet rfl rfl rfl rfl (by simp [sent, accepted])
  | category l re =>
    simp only [beginCall] at hs
    split at hs <;> cases hs <;> exact h.quiet rfl rfl rfl rfl (by simp [sent, accepted])
  | start =>
    simp only [beginCall] at hs
    split at hs
    · cases hs
    · split at hs <;> cases hs <;> exact h.quiet rfl rfl rfl rfl (by simp [sent, accepted])

theorem Account.resume {cap : Nat} {s s' : St} {i : Nat} {e : Ev} {es : List Ev} {g : Buffers} {pc : CPc}
    (hm : Mem s es) (hi : s.cl[i]? = some pc) (hs : Log.resume s i pc = some (s', e)) (h : Account cap s es g) :
    Account cap s' (es ++ [e]) (charge cap s g (.cli i)) := by
  cases pc with
  | idle => cases hs
  | check m =>
    have hg : charge cap s g (.cli i) = g := by simp [charge, hi]
    rw [hg]
    simp only [Log.resume] at hs
    split at hs <;> cases hs <;> exact h.move hi rfl rfl rfl rfl rfl rfl rfl rfl
  | alloc m =>
    have hg : charge cap s g (.cli i) = g := by simp [charge, hi]
    rw [hg]
    simp only [Log.resume, allocate] at hs
    cases hp : s.pool.getLast? with
    | some a =>
      rw [hp] at hs; cases hs
      exact h.move hi rfl rfl rfl rfl rfl rfl rfl rfl
    | none =>
      rw [hp] at hs; cases hs
      have hc := cBufs_set (cap := cap) (.construct m s.next) hi
      refine ⟨?_, ?_, ?_, ?_⟩
      · have := h.balance
        show g.made = g.lost + g.freed + sumTo (bufsAt cap (setHeap s.heap s.next (some Msg.default))) (s.next + 1)
        rw [sum_fresh, bufs_default]; exact this
      · show g.freed ≤ 3 * sumTo (deadAt (setHeap s.heap s.next (some Msg.default))) (s.next + 1)
        rw [dead_fresh]; exact h.freed
      · show s.next + 1 = threshold + (s.unpooled + 1) + s.external
        rw [h.next]; exact (Nat.succ_add (threshold + s.unpooled) s.external).symm
      · show g.made = sent cap (es ++ [Ev.tau]) + ((s.cl.set i (.construct m s.next)).map (cBufs cap)).sum
        have e1 : sent cap [Ev.tau] = 0 := rfl
        have e2 : cBufs cap (CPc.alloc m) = 0 := rfl
        have e3 : cBufs cap (CPc.construct m s.next) = 0 := rfl
        rw [sent_snoc, h.made]; omega
  | construct m a =>
    obtain ⟨_, _, ⟨old, ho⟩, _⟩ := hm.notqueue_of_cl hi (a := a) (by simp [cHolds])
    have ha : a < s.next := hm.fresh a (by simp [ho])
    have hg : charge cap s g (.cli i) = { g with lost := g.lost + bufs cap old, made := g.made + bufs cap m } := by
      simp [charge, hi, ho]
    rw [hg]
    simp only [Log.resume, ho] at hs
    cases hs
    have hc := cBufs_set (cap := cap) (.enqueue m a) hi
    have h1 := sum_setHeap (cap := cap) (h := s.heap) (v := some m) ha
    have h2 := dead_setHeap (h := s.heap) (v := some m) ha
    have e1 : bufsAt cap s.heap a = bufs cap old := by simp [bufsAt, ho]
    have e2 : bufsAt cap (setHeap s.heap a (some m)) a = bufs cap m := by simp [bufsAt, setHeap_self]
    have e3 : deadAt s.heap a = 0 := by simp [deadAt, ho, cnt]
    have e4 : deadAt (setHeap s.heap a (some m)) a = 0 := by simp [deadAt, setHeap_self, cnt]
    rw [e1, e2] at h1
    rw [e3, e4] at h2
    refine ⟨?_, ?_, h.next, ?_⟩
    · show g.made + bufs cap m = g.lost + bufs cap old + g.freed + sumTo (bufsAt cap (setHeap s.heap a (some m))) s.next
      have := h.balance
      unfold live at this; omega
    · show g.freed ≤ 3 * sumTo (deadAt (setHeap s.heap a (some m))) s.next
      have := h.freed
      unfold dead at this; omega
    · show g.made + bufs cap m = sent cap (es ++ [Ev.tau]) + ((s.cl.set i (.enqueue m a)).map (cBufs cap)).sum
      have e1 : sent cap [Ev.tau] = 0 := rfl
      have e2 : cBufs cap (CPc.construct m a) = 0 := rfl
      have e3 : cBufs cap (CPc.enqueue m a) = bufs cap m := rfl
      rw [sent_snoc, h.made]; omega
  | extNew m =>
    have hg : charge cap s g (.cli i) = { g with made := g.made + bufs cap m } := by simp [charge, hi]
    rw [hg]
    cases hs
    have hc := cBufs_set (cap := cap) (.enqueue m s.next) hi
    refine ⟨?_, ?_, ?_, ?_⟩
    · have := h.balance
      show g.made + bufs cap m = g.lost + g.freed + sumTo (bufsAt cap (setHeap s.heap s.next (some m))) (s.next + 1)
      rw [sum_fresh]; unfold live at this; omega
    · show g.freed ≤ 3 * sumTo (deadAt (setHeap s.heap s.next (some m))) (s.next + 1)
      rw [dead_fresh]; exact h.freed
    · show s.next + 1 = threshold + s.unpooled + (s.external + 1)
      rw [h.next]; rfl
    · show g.made + bufs cap m = sent cap (es ++ [Ev.tau]) + ((s.cl.set i (.enqueue m s.next)).map (cBufs cap)).sum
      have e1 : sent cap [Ev.tau] = 0 := rfl
      have e2 : cBufs cap (CPc.extNew m) = 0 := rfl
      have e3 : cBufs cap (CPc.enqueue m s.next) = bufs cap m := rfl
      rw [sent_snoc, h.made]; omega
  | enqueue m a =>
    have hg : charge cap s g (.cli i) = g := by simp [charge, hi]
    rw [hg]
    cases hs
    have hc := cBufs_set (cap := cap) .idle hi
    have e1 : sent cap [Ev.accept i m] = bufs cap m := by simp [sent, accepted]
    have e2 : cBufs cap (CPc.enqueue m a) = bufs cap m := rfl
    have e3 : cBufs cap CPc.idle = 0 := rfl
    refine h.quiet rfl rfl rfl rfl ?_
    show sent cap [Ev.accept i m] + ((s.cl.set i CPc.idle).map (cBufs cap)).sum = _
    omega
  | stopSet =>
    have hg : charge cap s g (.cli i) = g := by simp [charge, hi]
    rw [hg]; cases hs
    exact h.move hi rfl rfl rfl rfl rfl rfl rfl rfl
  | stopNotify =>
    have hg : charge cap s g (.cli i) = g := by simp [charge, hi]
    rw [hg]; cases hs
    exact h.move hi rfl rfl rfl rfl rfl rfl rfl rfl
  | stopLock =>
    have hg : charge cap s g (.cli i) = g := by simp [charge, hi]
    rw [hg]
    simp only [Log.resume] at hs
    split at hs
    · cases hs
    · split at hs <;> cases hs <;> exact h.move hi rfl rfl rfl rfl rfl rfl rfl rfl
  | stopJoin =>
    have hg : charge cap s g (.cli i) = g := by simp [charge, hi]
    rw [hg]
    simp only [Log.resume] at hs
    split at hs <;> cases hs
    exact h.move hi rfl rfl rfl rfl rfl rfl rfl rfl

theorem Account.logStep {cap : Nat} {rx : Rx} {s s' : St} {e : Ev} {es : List Ev} {g : Buffers}
    (hm : Mem s es) (hs : Log.logStep rx s = some (s', e)) (h : Account cap s es g) :
    Account cap s' (es ++ [e]) (charge cap s g .log) := by
  by_cases hd : ∃ a, s.lt = .dispose a
  · obtain ⟨a, hl⟩ := hd
    obtain ⟨m, ho⟩ := hm.lt_alive (a := a) (by simp [hl, lHolds])
    have ha : a < s.next := hm.fresh a (by simp [ho])
    by_cases hp : s.pool.length < threshold
    · have hg : charge cap s g .log = g := by simp [charge, hl, hp]
      rw [hg]
      simp only [Log.logStep, hl, dispose, hp, if_true] at hs
      cases hs
      exact h.quiet rfl rfl rfl rfl (by simp [sent, accepted])
    · have hg : charge cap s g .log = { g with freed := g.freed + bufs cap m } := by simp [charge, hl, hp, ho]
      rw [hg]
      simp only [Log.logStep, hl, dispose, hp, if_false, ho] at hs
      cases hs
      have h1 := sum_setHeap (cap := cap) (h := s.heap) (v := none) ha
      have h2 := dead_setHeap (h := s.heap) (v := none) ha
      have e1 : bufsAt cap s.heap a = bufs cap m := by simp [bufsAt, ho]
      have e2 : bufsAt cap (setHeap s.heap a none) a = 0 := by simp [bufsAt, setHeap_self]
      have e3 : deadAt s.heap a = 0 := by simp [deadAt, ho, cnt]
      have e4 : deadAt (setHeap s.heap a none) a = 1 := by simp [deadAt, setHeap_self, cnt]
      rw [e1, e2] at h1
      rw [e3, e4] at h2
      refine ⟨?_, ?_, h.next, ?_⟩
      · show g.made = g.lost + (g.freed + bufs cap m) + sumTo (bufsAt cap (setHeap s.heap a none)) s.next
        have := h.balance
        unfold live at this; omega
      · show g.freed + bufs cap m ≤ 3 * sumTo (deadAt (setHeap s.heap a none)) s.next
        have := h.freed
        have := bufs_le cap m
        unfold dead at *; omega
      · rw [sent_snoc, h.made]; simp [sent, accepted]
  · have hg : charge cap s g .log = g := by
      simp only [charge]
      split
      · rename_i a hl; exact absurd ⟨a, hl⟩ hd
      · rfl
    rw [hg]
    have hq : s'.heap = s.heap ∧ s'.next = s.next ∧ s'.unpooled = s.unpooled ∧ s'.external = s.external ∧
        s'.cl = s.cl ∧ accepted [e] = [] := by
      simp only [Log.logStep] at hs
      split at hs
      · cases hs
      · cases hs
      · unfold head at hs; split at hs <;> cases hs <;> simp [accepted]
      · unfold head at hs; split at hs <;> cases hs <;> simp [accepted]
      · cases hs
      · split at hs <;> cases hs <;> simp [accepted]
      · cases hs; simp [accepted]
      · split at hs <;> cases hs <;> simp [accepted]
      · split at hs
        · cases hs; simp [accepted]
        · split at hs <;> cases hs <;> simp [accepted]
      · cases hs; simp [accepted]
      · cases hs; simp [accepted]
      · rename_i a hl; exact absurd ⟨a, hl⟩ hd
    obtain ⟨q1, q2, q3, q4, q5, q6⟩ := hq
    exact h.quiet q1 q2 q3 q4 (by rw [q5]; simp [sent, q6])

theorem LExec.exec {cap : Nat} {rx : Rx} {s0 s : St} {es : List Ev} {g : Buffers} (h : LExec cap rx s0 s es g) : Exec rx s0 s es := by
  induction h with
  | nil => exact .nil
  | snoc _ hs ih => exact .snoc ih hs

theorem exec_account {cap n : Nat} {rx : Rx} {t b : Bool} {s : St} {es : List Ev} {g : Buffers}
    (h : LExec cap rx (init n t b) s es g) : Account cap s es g := by
  induction h with
  | nil =>
    have hh : ∀ a, a < 64 → (init n t b).heap a = some Msg.default := fun a ha => by simp [init, threshold, ha]
    refine ⟨?_, Nat.zero_le _, rfl, ?_⟩
    · show 0 = 0 + 0 + sumTo (bufsAt cap (init n t b).heap) 64
      rw [sumTo_zero 64 (fun a ha => by simp [bufsAt, hh a ha, bufs_default])]
    · show 0 = sent cap [] + ((List.replicate n CPc.idle).map (cBufs cap)).sum
      simp [sent, accepted, cBufs]
  | @snoc s s' es a e g hx hs ih =>
    have hm := exec_mem hx.exec
    cases a with
    | call i op =>
      simp only [step] at hs
      split at hs
      · rename_i hi; exact beginCall_account hi hs ih
      · cases hs
    | cli i =>
      simp only [step] at hs
      split at hs
      · rename_i pc hi; exact ih.resume hm hi hs
      · cases hs
    | log => exact ih.logStep hm hs
    | spurious =>
      simp only [step] at hs
      split at hs
      · cases hs; exact ih.quiet rfl rfl rfl rfl (by simp [sent, accepted])
      · cases hs

theorem destroyFrees_live {cap : Nat} {s : St} {es : List Ev} (hm : Mem s es) (hi : ∀ pc ∈ s.cl, pc = .idle) (hl : s.lt = .none) :
    destroyFrees cap s = live cap s := by
  have hz : ∀ a, (s.cl.map (cHolds a)).sum = 0 := by
    intro a
    generalize s.cl = cl at hi
    induction cl with
    | nil => rfl
    | cons pc cl ih =>
      rw [List.map_cons, List.sum_cons, ih (fun pc h => hi pc (by simp [h])), hi pc (by simp)]; rfl
  have hc : ∀ a, (s.queue ++ s.pool).count a = cnt (s.heap a) := by
    intro a
    have := hm.count a
    rw [hz a, hl] at this
    simp only [lHolds] at this
    rw [List.count_append]; omega
  have key : destroyFrees cap s = ((s.queue ++ s.pool).map (bufsAt cap s.heap)).sum := rfl
  rw [key, sum_count _ s.next]
  · unfold live
    apply sumTo_congr
    intro a _
    rw [hc a]
    unfold bufsAt
    cases s.heap a <;> simp [cnt]
  · intro a ha
    have h1 : 0 < (s.queue ++ s.pool).count a := List.count_pos_iff.2 ha
    rw [hc a] at h1
    apply hm.fresh
    cases hh : s.heap a with
    | none => rw [hh] at h1; simp [cnt] at h1
    | some m => rfl

end Falcon.Log
