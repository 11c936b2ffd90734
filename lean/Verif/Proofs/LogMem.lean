import Verif.Proofs.LogStep
/-
Memory, accounting and FIFO invariant of the log system.
-/
namespace Falcon.Log

/-- Does the client / the logging thread hold the message object `a`? -/
def cHolds (a : Addr) : CPc → Nat
  | .construct _ b => if b = a then 1 else 0
  | .enqueue _ b   => if b = a then 1 else 0
  | _              => 0

def lHolds (a : Addr) : LPc → Nat
  | .got b        => if b = a then 1 else 0
  | .send b _     => if b = a then 1 else 0
  | .test b _ _ _ => if b = a then 1 else 0
  | .clean b _ _  => if b = a then 1 else 0
  | .dispose b    => if b = a then 1 else 0
  | _             => 0

/-- Number of objects held. -/
def cHeld : CPc → Nat
  | .construct _ _ => 1
  | .enqueue _ _   => 1
  | _              => 0

def lHeld : LPc → Nat
  | .got _        => 1
  | .send _ _     => 1
  | .test _ _ _ _ => 1
  | .clean _ _ _  => 1
  | .dispose _    => 1
  | _             => 0

theorem sum_set (f : CPc → Nat) : ∀ (cl : List CPc) (i : Nat) (pc pc' : CPc), cl[i]? = some pc →
    ((cl.set i pc').map f).sum + f pc = (cl.map f).sum + f pc'
  | [], i, pc, pc', h => by simp at h
  | c :: cl, 0, pc, pc', h => by
    simp at h; subst h; simp; omega
  | c :: cl, i + 1, pc, pc', h => by
    have := sum_set f cl i pc pc' (by simpa using h)
    simp only [List.set_cons_succ, List.map_cons, List.sum_cons]; omega

theorem sum_ge (f : CPc → Nat) : ∀ (cl : List CPc) (i : Nat) (pc : CPc), cl[i]? = some pc → f pc ≤ (cl.map f).sum
  | [], i, pc, h => by simp at h
  | c :: cl, 0, pc, h => by simp at h; subst h; simp
  | c :: cl, i + 1, pc, h => by
    have := sum_ge f cl i pc (by simpa using h)
    simp only [List.map_cons, List.sum_cons]; omega

def cnt : Option Msg → Nat
  | some _ => 1
  | none   => 0

theorem cnt_le (o : Option Msg) : cnt o ≤ 1 := by cases o <;> simp [cnt]

def inflight (s : St) : List (Option Msg) :=
  match s.lt with
  | .got a => [s.heap a]
  | _      => []

structure Mem (s : St) (es : List Ev) : Prop where
  /-- every allocated object is in exactly one place, and nothing else is anywhere -/
  count : ∀ a, s.pool.count a + s.queue.count a + (s.cl.map (cHolds a)).sum + lHolds a s.lt
            = cnt (s.heap a)
  fresh : ∀ a, (s.heap a).isSome → a < s.next
  bound : s.pool.length ≤ threshold
  balance : threshold + s.unpooled + s.external
      = s.pool.length + s.destroyed + s.queue.length + (s.cl.map cHeld).sum + lHeld s.lt
  ready : ∀ (i : Nat) (m : Msg) (a : Addr), s.cl[i]? = some (CPc.enqueue m a) → s.heap a = some m
  fifo : (accepted es).map some = (dispatched es).map some ++ inflight s ++ s.queue.map s.heap
  nofault : ∀ u, Ev.fault u ∉ es

theorem setHeap_self (h : Addr → Option Msg) (a : Addr) (v : Option Msg) : setHeap h a v a = v := by simp [setHeap]
theorem setHeap_ne (h : Addr → Option Msg) {a b : Addr} (v : Option Msg) (e : b ≠ a) : setHeap h a v b = h b := by
  simp [setHeap, e]

theorem map_setHeap (h : Addr → Option Msg) (a : Addr) (v : Option Msg) (q : List Addr) (hn : a ∉ q) :
    q.map (setHeap h a v) = q.map h := by
  apply List.map_congr_left
  intro b hb
  exact setHeap_ne h v (by rintro rfl; exact hn hb)

theorem accepted_append (es es' : List Ev) : accepted (es ++ es') = accepted es ++ accepted es' := by
  simp [accepted]
theorem dispatched_append (es es' : List Ev) : dispatched (es ++ es') = dispatched es ++ dispatched es' := by
  simp [dispatched]

theorem notify_lHolds (a : Addr) (p : LPc) : lHolds a (notify p) = lHolds a p := by cases p <;> rfl
theorem notify_lHeld (p : LPc) : lHeld (notify p) = lHeld p := by cases p <;> rfl

theorem set_get? {cl : List CPc} {i j : Nat} {pc' pc : CPc} (h : (cl.set i pc')[j]? = some pc) :
    (j = i ∧ pc = pc') ∨ (j ≠ i ∧ cl[j]? = some pc) := by
  rw [List.getElem?_set] at h
  split at h
  · rename_i e; subst e
    split at h
    · left; exact ⟨rfl, (Option.some.inj h).symm⟩
    · cases h
  · rename_i e; right; exact ⟨fun e' => e e'.symm, h⟩

/-- How an object is known to be allocated. -/
theorem Mem.alive {s : St} {es : List Ev} (h : Mem s es) {a : Addr}
    (hp : 0 < s.pool.count a + s.queue.count a + (s.cl.map (cHolds a)).sum + lHolds a s.lt) : ∃ m, s.heap a = some m := by
  have := h.count a
  cases e : s.heap a with
  | some m => exact ⟨m, rfl⟩
  | none => rw [e] at this; simp only [cnt] at this; omega

theorem Mem.lt_alive {s : St} {es : List Ev} (h : Mem s es) {a : Addr} (hl : lHolds a s.lt = 1) : ∃ m, s.heap a = some m :=
  h.alive (by omega)

theorem count_pos_of_mem {a : Addr} {l : List Addr} (h : a ∈ l) : 0 < l.count a := List.count_pos_iff.2 h

theorem Mem.notqueue_of_lt {s : St} {es : List Ev} (h : Mem s es) {a : Addr} (hl : lHolds a s.lt = 1) : a ∉ s.queue := by
  intro hm
  have h1 := count_pos_of_mem hm
  have h2 := h.count a
  have := cnt_le (s.heap a); omega

theorem Mem.notqueue_of_cl {s : St} {es : List Ev} (h : Mem s es) {a : Addr} {i : Nat} {pc : CPc}
    (hi : s.cl[i]? = some pc) (hc : cHolds a pc = 1) : a ∉ s.queue ∧ lHolds a s.lt = 0 ∧
      (∃ m, s.heap a = some m) ∧ ∀ j pc', j ≠ i → s.cl[j]? = some pc' → cHolds a pc' = 0 := by
  have h1 := sum_ge (cHolds a) s.cl i pc hi
  have h2 := h.count a
  refine ⟨fun hm => ?_, ?_, h.alive (by omega), ?_⟩
  · have h3 := count_pos_of_mem hm
    have := cnt_le (s.heap a); omega
  · have := cnt_le (s.heap a); omega
  · intro j pc' hj hj'
    have h4 := sum_set (cHolds a) s.cl i pc .idle hi
    have h5 := sum_ge (cHolds a) (s.cl.set i .idle) j pc' (by rw [List.getElem?_set_ne (Ne.symm hj)]; exact hj')
    have h6 : cHolds a .idle = 0 := rfl
    have := cnt_le (s.heap a); omega

theorem Mem.next_free {s : St} {es : List Ev} (h : Mem s es) : s.heap s.next = none := by
  cases e : s.heap s.next with
  | none => rfl
  | some m => exact absurd (h.fresh s.next (by simp [e])) (Nat.lt_irrefl _)

theorem Mem.next_unused {s : St} {es : List Ev} (h : Mem s es) :
    s.pool.count s.next = 0 ∧ s.queue.count s.next = 0 ∧ (s.cl.map (cHolds s.next)).sum = 0 ∧ lHolds s.next s.lt = 0 := by
  have := h.count s.next
  rw [h.next_free] at this
  simp only [cnt] at this
  omega

/-- steps of a client that hold nothing before and after and change no memory -/
theorem Mem.client {s s' : St} {es : List Ev} {e : Ev} (h : Mem s es) (i : Nat) (pc pc' : CPc)
    (hi : s.cl[i]? = some pc) (hcl : s'.cl = s.cl.set i pc')
    (hh : ∀ a, cHolds a pc = 0 ∧ cHolds a pc' = 0) (hd : cHeld pc = 0 ∧ cHeld pc' = 0)
    (hr : ∀ m a, pc' ≠ CPc.enqueue m a)
    (e1 : s'.pool = s.pool) (e2 : s'.queue = s.queue) (e3 : s'.heap = s.heap) (e4 : s'.next = s.next)
    (e5 : s'.unpooled = s.unpooled) (e6 : s'.destroyed = s.destroyed) (e7 : s'.external = s.external)
    (e8 : ∀ a, lHolds a s'.lt = lHolds a s.lt) (e9 : lHeld s'.lt = lHeld s.lt) (e10 : inflight s' = inflight s)
    (hev : accepted [e] = [] ∧ dispatched [e] = [] ∧ ∀ u, e ≠ .fault u) : Mem s' (es ++ [e]) := by
  refine ⟨fun a => ?_, ?_, ?_, ?_, ?_, ?_, ?_⟩
  · have h1 := sum_set (cHolds a) s.cl i pc pc' hi
    rw [(hh a).1, (hh a).2] at h1
    rw [e1, e2, e3, e8, hcl]
    have := h.count a
    omega
  · rw [e3, e4]; exact h.fresh
  · rw [e1]; exact h.bound
  · have h1 := sum_set cHeld s.cl i pc pc' hi
    rw [hd.1, hd.2] at h1
    rw [e1, e2, e5, e6, e7, e9, hcl]
    have := h.balance
    omega
  · intro j m a hj
    rw [hcl] at hj
    rcases set_get? hj with ⟨-, e⟩ | ⟨-, hj'⟩
    · exact absurd e.symm (hr m a)
    · rw [e3]; exact h.ready j m a hj'
  · rw [accepted_append, dispatched_append, hev.1, hev.2.1, e2, e3, e10, List.append_nil, List.append_nil]; exact h.fifo
  · intro u hu
    rcases List.mem_append.1 hu with hu | hu
    · exact h.nofault u hu
    · simp at hu; exact hev.2.2 u hu.symm

/-- steps that change no memory at all, only the logging thread's counter and listener data -/
theorem Mem.plain {s s' : St} {es : List Ev} {e : Ev} (h : Mem s es)
    (hcl : s'.cl = s.cl)
    (e1 : s'.pool = s.pool) (e2 : s'.queue = s.queue) (e3 : s'.heap = s.heap) (e4 : s'.next = s.next)
    (e5 : s'.unpooled = s.unpooled) (e6 : s'.destroyed = s.destroyed) (e7 : s'.external = s.external)
    (e8 : ∀ a, lHolds a s'.lt = lHolds a s.lt) (e9 : lHeld s'.lt = lHeld s.lt)
    (hev : accepted [e] = [] ∧ (dispatched [e]).map some ++ inflight s' = inflight s ∧ ∀ u, e ≠ .fault u) :
    Mem s' (es ++ [e]) := by
  refine ⟨fun a => ?_, ?_, ?_, ?_, ?_, ?_, ?_⟩
  · rw [e1, e2, e3, e8, hcl]; exact h.count a
  · rw [e3, e4]; exact h.fresh
  · rw [e1]; exact h.bound
  · rw [e1, e2, e5, e6, e7, e9, hcl]; exact h.balance
  · rw [hcl, e3]; exact h.ready
  · rw [accepted_append, dispatched_append, hev.1, e2, e3, List.append_nil, List.map_append,
      List.append_assoc ((dispatched es).map some), hev.2.1]; exact h.fifo
  · intro u hu
    rcases List.mem_append.1 hu with hu | hu
    · exact h.nofault u hu
    · simp at hu; exact hev.2.2 u hu.symm

theorem Mem.step {rx : Rx} {s s' : St} {es : List Ev} {e : Ev} (h : Mem s es) (hs : Step rx s e s') :
    Mem s' (es ++ [e]) := by
  have nf : ∀ (s' : St) (u : UB) {a : Addr}, s.heap a = none → (∃ m, s.heap a = some m) → Mem s' (es ++ [.fault u]) := by
    rintro s' u a h1 ⟨m, h2⟩; rw [h1] at h2; cases h2
  have inot : inflight { s with lt := notify s.lt } = inflight s := by
    unfold inflight; cases s.lt <;> rfl
  cases hs with
  | callLog i m hi => exact h.client i _ _ hi rfl (by simp [cHolds]) (by simp [cHeld]) (by simp) rfl rfl rfl rfl rfl rfl rfl (fun _ => rfl) rfl rfl (by simp [accepted, dispatched])
  | callLogPtr i m hi => exact h.client i _ _ hi rfl (by simp [cHolds]) (by simp [cHeld]) (by simp) rfl rfl rfl rfl rfl rfl rfl (fun _ => rfl) rfl rfl (by simp [accepted, dispatched])
  | callStop i hi => exact h.client i _ _ hi rfl (by simp [cHolds]) (by simp [cHeld]) (by simp) rfl rfl rfl rfl rfl rfl rfl (fun _ => rfl) rfl rfl (by simp [accepted, dispatched])
  | addListener i l hi => exact h.plain rfl rfl rfl rfl rfl rfl rfl rfl (fun _ => rfl) rfl (by simp [accepted, dispatched, inflight])
  | detach i l hi => exact h.plain rfl rfl rfl rfl rfl rfl rfl rfl (fun _ => rfl) rfl (by simp [accepted, dispatched, inflight])
  | level i n hi => exact h.plain rfl rfl rfl rfl rfl rfl rfl rfl (fun _ => rfl) rfl (by simp [accepted, dispatched, inflight])
  | enable i l b hi => exact h.plain rfl rfl rfl rfl rfl rfl rfl rfl (fun _ => rfl) rfl (by simp [accepted, dispatched, inflight])
  | llevel i l n hi => exact h.plain rfl rfl rfl rfl rfl rfl rfl rfl (fun _ => rfl) rfl (by simp [accepted, dispatched, inflight])
  | category i l re hi hv => exact h.plain rfl rfl rfl rfl rfl rfl rfl rfl (fun _ => rfl) rfl (by simp [accepted, dispatched, inflight])
  | categoryThrow i l re hi hv => exact h.plain rfl rfl rfl rfl rfl rfl rfl rfl (fun _ => rfl) rfl (by simp [accepted, dispatched])
  | start i hi hm hl => exact h.plain rfl rfl rfl rfl rfl rfl rfl rfl (fun _ => by simp [hl, lHolds]) (by simp [hl, lHeld]) (by simp [accepted, dispatched, inflight, hl])
  | startAgain i hi hm hl => exact h.plain rfl rfl rfl rfl rfl rfl rfl rfl (fun _ => rfl) rfl (by simp [accepted, dispatched])
  | reject i m hi hl => exact h.client i _ _ hi rfl (by simp [cHolds]) (by simp [cHeld]) (by simp) rfl rfl rfl rfl rfl rfl rfl (fun _ => rfl) rfl rfl (by simp [accepted, dispatched])
  | pass i m hi hl => exact h.client i _ _ hi rfl (by simp [cHolds]) (by simp [cHeld]) (by simp) rfl rfl rfl rfl rfl rfl rfl (fun _ => rfl) rfl rfl (by simp [accepted, dispatched])
  | stopSet i hi => exact h.client i _ _ hi rfl (by simp [cHolds]) (by simp [cHeld]) (by simp) rfl rfl rfl rfl rfl rfl rfl (fun _ => rfl) rfl rfl (by simp [accepted, dispatched])
  | stopNotify i hi => exact h.client i _ _ hi rfl (by simp [cHolds]) (by simp [cHeld]) (by simp) rfl rfl rfl rfl rfl rfl rfl (fun _ => notify_lHolds _ _) (notify_lHeld _) inot (by simp [accepted, dispatched])
  | stopNone i hi hm hl => exact h.client i _ _ hi rfl (by simp [cHolds]) (by simp [cHeld]) (by simp) rfl rfl rfl rfl rfl rfl rfl (fun _ => rfl) rfl rfl (by simp [accepted, dispatched])
  | stopLock i hi hm hl => exact h.client i _ _ hi rfl (by simp [cHolds]) (by simp [cHeld]) (by simp) rfl rfl rfl rfl rfl rfl rfl (fun _ => rfl) rfl rfl (by simp [accepted, dispatched])
  | stopJoin i hi hl => exact h.client i _ _ hi rfl (by simp [cHolds]) (by simp [cHeld]) (by simp) rfl rfl rfl rfl rfl rfl rfl (fun _ => by simp [hl, lHolds]) (by simp [hl, lHeld]) (by simp [inflight, hl]) (by simp [accepted, dispatched])
  | spurious hl => exact h.plain rfl rfl rfl rfl rfl rfl rfl rfl (fun _ => by simp [hl, lHolds]) (by simp [hl, lHeld]) (by simp [accepted, dispatched, inflight, hl])
  | exit hl ht =>
    rcases hl with hl | hl <;>
      exact h.plain rfl rfl rfl rfl rfl rfl rfl rfl (fun _ => by simp [hl, lHolds]) (by simp [hl, lHeld]) (by simp [accepted, dispatched, inflight, hl])
  | sleep hl ht hq =>
    rcases hl with hl | hl <;>
      exact h.plain rfl rfl rfl rfl rfl rfl rfl rfl (fun _ => by simp [hl, lHolds]) (by simp [hl, lHeld]) (by simp [accepted, dispatched, inflight, hl])
  | dispatch a m hl hh => exact h.plain rfl rfl rfl rfl rfl rfl rfl rfl (fun _ => by simp [hl, lHolds]) (by simp [hl, lHeld]) (by simp [accepted, dispatched, inflight, hl, hh])
  | next a l rem hl => exact h.plain rfl rfl rfl rfl rfl rfl rfl rfl (fun _ => by simp [hl, lHolds]) (by simp [hl, lHeld]) (by simp [accepted, dispatched, inflight, hl])
  | done a m hl hh => exact h.plain rfl rfl rfl rfl rfl rfl rfl rfl (fun _ => by simp [hl, lHolds]) (by simp [hl, lHeld]) (by simp [accepted, dispatched, inflight, hl])
  | testEnabled a l rem m hl hh =>
    exact h.plain rfl rfl rfl rfl rfl rfl rfl rfl (fun _ => by simp only [hl]; split <;> simp [lHolds])
      (by simp only [hl]; split <;> simp [lHeld])
      ⟨by simp [accepted], by
        have : inflight s = [] := by simp [inflight, hl]
        rw [this]; simp only [inflight]; split <;> first | rfl | (rename_i hx; split at hx <;> cases hx), by simp⟩
  | testLevel a l rem m hl hh =>
    exact h.plain rfl rfl rfl rfl rfl rfl rfl rfl (fun _ => by simp only [hl]; split <;> simp [lHolds])
      (by simp only [hl]; split <;> simp [lHeld])
      ⟨by simp [accepted], by
        have : inflight s = [] := by simp [inflight, hl]
        rw [this]; simp only [inflight]; split <;> first | rfl | (rename_i hx; split at hx <;> cases hx), by simp⟩
  | testCategory a l rem m hl hh =>
    exact h.plain rfl rfl rfl rfl rfl rfl rfl rfl (fun _ => by simp only [hl]; split <;> simp [lHolds])
      (by simp only [hl]; split <;> simp [lHeld])
      ⟨by simp [accepted], by
        have : inflight s = [] := by simp [inflight, hl]
        rw [this]; simp only [inflight]; split <;> first | rfl | (rename_i hx; split at hx <;> cases hx), by simp⟩
  | deliver a l rem m hl hh => exact h.plain rfl rfl rfl rfl rfl rfl rfl rfl (fun _ => by simp [hl, lHolds]) (by simp [hl, lHeld]) (by simp [accepted, dispatched, inflight, hl])
  | cleanOne a kept l rest hl => exact h.plain rfl rfl rfl rfl rfl rfl rfl rfl (fun _ => by simp [hl, lHolds]) (by simp [hl, lHeld]) (by simp [accepted, dispatched, inflight, hl])
  | cleanEnd a kept hl => exact h.plain rfl rfl rfl rfl rfl rfl rfl rfl (fun _ => by simp [hl, lHolds]) (by simp [hl, lHeld]) (by simp [accepted, dispatched, inflight, hl])
  | gotFault a hl hh => exact nf _ _ hh (h.lt_alive (by simp [hl, lHolds]))
  | doneFault a hl hh => exact nf _ _ hh (h.lt_alive (by simp [hl, lHolds]))
  | testFault a l st rem hl hh => exact nf _ _ hh (h.lt_alive (by simp [hl, lHolds]))
  | disposeFault a hl hp hh => exact nf _ _ hh (h.lt_alive (by simp [hl, lHolds]))
  | constructFault i m a hi hh => exact nf _ _ hh (h.notqueue_of_cl hi (by simp [cHolds])).2.2.1
  | take a q hl ht hq =>
    have hz : lHeld s.lt = 0 ∧ inflight s = [] ∧ ∀ b, lHolds b s.lt = 0 := by
      rcases hl with hl | hl <;> simp [hl, lHeld, inflight, lHolds]
    refine ⟨fun b => ?_, h.fresh, h.bound, ?_, h.ready, ?_, ?_⟩
    · have := h.count b
      rw [hz.2.2, hq, List.count_cons] at this
      simp only [lHolds, beq_iff_eq] at this ⊢
      omega
    · have := h.balance
      rw [hz.1, hq, List.length_cons] at this
      simp only [lHeld]; omega
    · have := h.fifo
      rw [hz.2.1, hq] at this
      rw [accepted_append, dispatched_append]
      simpa [accepted, dispatched, inflight] using this
    · intro u hu
      rcases List.mem_append.1 hu with hu | hu
      · exact h.nofault u hu
      · simp at hu
  | enqueue i m a hi =>
    have hr := h.ready i m a hi
    refine ⟨fun b => ?_, h.fresh, h.bound, ?_, ?_, ?_, ?_⟩
    · have h1 := sum_set (cHolds b) s.cl i _ .idle hi
      have h2 := h.count b
      simp only [cHolds] at h1
      simp only [notify_lHolds, List.count_append, List.count_singleton, beq_iff_eq]
      omega
    · have h1 := sum_set cHeld s.cl i _ .idle hi
      have h2 := h.balance
      simp only [cHeld] at h1
      simp only [notify_lHeld, List.length_append, List.length_singleton]
      omega
    · intro j m' a' hj
      rcases set_get? hj with ⟨-, e⟩ | ⟨-, hj'⟩
      · cases e
      · exact h.ready j m' a' hj'
    · have e1 : inflight { s with queue := s.queue ++ [a], maxQ := max s.maxQ (s.queue.length + 1), lt := notify s.lt, cl := s.cl.set i .idle } = inflight s := by
        unfold inflight; cases s.lt <;> rfl
      rw [e1, accepted_append, dispatched_append]
      have := h.fifo
      simp only [accepted, dispatched, List.filterMap_cons, List.filterMap_nil, List.append_nil, List.map_append,
        List.map_cons, List.map_nil, hr] at this ⊢
      rw [this, List.append_assoc _ (s.queue.map s.heap)]
    · intro u hu
      rcases List.mem_append.1 hu with hu | hu
      · exact h.nofault u hu
      · simp at hu
  | allocPool i m p a hi hp =>
    refine ⟨fun b => ?_, h.fresh, ?_, ?_, ?_, ?_, ?_⟩
    · have h1 := sum_set (cHolds b) s.cl i _ (.construct m a) hi
      have h2 := h.count b
      rw [hp] at h2
      simp only [cHolds] at h1
      simp only [List.count_append, List.count_singleton, beq_iff_eq] at h2
      simp only
      omega
    · have := h.bound; rw [hp] at this; simp at this ⊢; omega
    · have h1 := sum_set cHeld s.cl i _ (.construct m a) hi
      have h2 := h.balance
      rw [hp] at h2
      simp only [cHeld] at h1
      simp only [List.length_append, List.length_singleton] at h2
      simp only
      omega
    · intro j m' a' hj
      rcases set_get? hj with ⟨-, e⟩ | ⟨-, hj'⟩
      · cases e
      · exact h.ready j m' a' hj'
    · rw [accepted_append, dispatched_append]
      simpa [accepted, dispatched, inflight] using h.fifo
    · intro u hu
      rcases List.mem_append.1 hu with hu | hu
      · exact h.nofault u hu
      · simp at hu
  | allocNew i m hi hp =>
    obtain ⟨u1, u2, u3, u4⟩ := h.next_unused
    have hnf := h.next_free
    refine ⟨fun b => ?_, ?_, h.bound, ?_, ?_, ?_, ?_⟩
    · have h1 := sum_set (cHolds b) s.cl i _ (.construct m s.next) hi
      have h2 := h.count b
      simp only [cHolds] at h1
      simp only
      by_cases e : b = s.next
      · subst e
        simp only [setHeap_self, if_true, cnt] at h1 ⊢
        omega
      · rw [setHeap_ne _ _ e]
        rw [if_neg (Ne.symm e)] at h1
        omega
    · intro b hb
      by_cases e : b = s.next
      · subst e; exact Nat.lt_succ_self _
      · have hb' : (s.heap b).isSome := by simpa [setHeap_ne _ _ e] using hb
        exact Nat.lt_succ_of_lt (h.fresh b hb')
    · have h1 := sum_set cHeld s.cl i _ (.construct m s.next) hi
      have h2 := h.balance
      simp only [cHeld] at h1
      simp only
      omega
    · intro j m' a' hj
      rcases set_get? hj with ⟨-, e⟩ | ⟨-, hj'⟩
      · cases e
      · have hr := h.ready j m' a' hj'
        show setHeap s.heap s.next _ a' = _
        rw [setHeap_ne _ _ (by rintro rfl; rw [hnf] at hr; cases hr)]; exact hr
    · rw [accepted_append, dispatched_append]
      have e1 : inflight { s with unpooled := s.unpooled + 1, heap := setHeap s.heap s.next (some Msg.default), next := s.next + 1, cl := s.cl.set i (.construct m s.next) } = inflight s := by
        unfold inflight
        cases hl : s.lt <;> try rfl
        rename_i a
        simp only [hl, lHolds] at u4 ⊢
        rw [setHeap_ne _ _ (by rintro rfl; simp at u4)]
      rw [e1]
      show _ = _ ++ s.queue.map (setHeap _ _ _)
      rw [map_setHeap _ _ _ _ (by intro hm; have := count_pos_of_mem hm; omega)]
      simpa [accepted, dispatched] using h.fifo
    · intro u hu
      rcases List.mem_append.1 hu with hu | hu
      · exact h.nofault u hu
      · simp at hu
  | extNew i m hi =>
    obtain ⟨u1, u2, u3, u4⟩ := h.next_unused
    have hnf := h.next_free
    refine ⟨fun b => ?_, ?_, h.bound, ?_, ?_, ?_, ?_⟩
    · have h1 := sum_set (cHolds b) s.cl i _ (.enqueue m s.next) hi
      have h2 := h.count b
      simp only [cHolds] at h1
      simp only
      by_cases e : b = s.next
      · subst e
        simp only [setHeap_self, if_true, cnt] at h1 ⊢
        omega
      · rw [setHeap_ne _ _ e]
        rw [if_neg (Ne.symm e)] at h1
        omega
    · intro b hb
      by_cases e : b = s.next
      · subst e; exact Nat.lt_succ_self _
      · have hb' : (s.heap b).isSome := by simpa [setHeap_ne _ _ e] using hb
        exact Nat.lt_succ_of_lt (h.fresh b hb')
    · have h1 := sum_set cHeld s.cl i _ (.enqueue m s.next) hi
      have h2 := h.balance
      simp only [cHeld] at h1
      simp only
      omega
    · intro j m' a' hj
      rcases set_get? hj with ⟨-, e⟩ | ⟨-, hj'⟩
      · cases e; exact setHeap_self ..
      · have hr := h.ready j m' a' hj'
        show setHeap s.heap s.next _ a' = _
        rw [setHeap_ne _ _ (by rintro rfl; rw [hnf] at hr; cases hr)]; exact hr
    · rw [accepted_append, dispatched_append]
      have e1 : inflight { s with heap := setHeap s.heap s.next (some m), next := s.next + 1, external := s.external + 1, cl := s.cl.set i (.enqueue m s.next) } = inflight s := by
        unfold inflight
        cases hl : s.lt <;> try rfl
        rename_i a
        simp only [hl, lHolds] at u4 ⊢
        rw [setHeap_ne _ _ (by rintro rfl; simp at u4)]
      rw [e1]
      show _ = _ ++ s.queue.map (setHeap _ _ _)
      rw [map_setHeap _ _ _ _ (by intro hm; have := count_pos_of_mem hm; omega)]
      simpa [accepted, dispatched] using h.fifo
    · intro u hu
      rcases List.mem_append.1 hu with hu | hu
      · exact h.nofault u hu
      · simp at hu
  | construct i m a hi hh =>
    obtain ⟨n1, n2, ⟨m0, n3⟩, n4⟩ := h.notqueue_of_cl hi (a := a) (by simp [cHolds])
    refine ⟨fun b => ?_, ?_, h.bound, ?_, ?_, ?_, ?_⟩
    · have h1 := sum_set (cHolds b) s.cl i _ (.enqueue m a) hi
      have h2 := h.count b
      simp only [cHolds] at h1
      simp only
      by_cases e : b = a
      · subst e
        rw [n3] at h2
        simp only [setHeap_self, cnt] at h2 ⊢
        omega
      · rw [setHeap_ne _ _ e]
        omega
    · intro b hb
      by_cases e : b = a
      · subst e; exact h.fresh b (by simp [n3])
      · exact h.fresh b (by simpa [setHeap_ne _ _ e] using hb)
    · have h1 := sum_set cHeld s.cl i _ (.enqueue m a) hi
      have h2 := h.balance
      simp only [cHeld] at h1
      simp only
      omega
    · intro j m' a' hj
      rcases set_get? hj with ⟨-, e⟩ | ⟨hj1, hj'⟩
      · cases e; exact setHeap_self ..
      · have hr := h.ready j m' a' hj'
        show setHeap s.heap a _ a' = _
        rw [setHeap_ne _ _ (by rintro rfl; have := n4 j _ hj1 hj'; simp [cHolds] at this)]; exact hr
    · rw [accepted_append, dispatched_append]
      have e1 : inflight { s with heap := setHeap s.heap a (some m), cl := s.cl.set i (.enqueue m a) } = inflight s := by
        unfold inflight
        cases hl : s.lt <;> try rfl
        rename_i b
        simp only [hl, lHolds] at n2 ⊢
        rw [setHeap_ne _ _ (by rintro rfl; simp at n2)]
      rw [e1]
      show _ = _ ++ s.queue.map (setHeap _ _ _)
      rw [map_setHeap _ _ _ _ n1]
      simpa [accepted, dispatched] using h.fifo
    · intro u hu
      rcases List.mem_append.1 hu with hu | hu
      · exact h.nofault u hu
      · simp at hu
  | disposePool a hl hp =>
    refine ⟨fun b => ?_, h.fresh, ?_, ?_, h.ready, ?_, ?_⟩
    · have := h.count b
      simp only [hl, lHolds] at this ⊢
      simp only [List.count_append, List.count_singleton, beq_iff_eq]
      omega
    · simp; omega
    · have := h.balance
      simp only [hl, lHeld] at this ⊢
      simp only [List.length_append, List.length_singleton]
      omega
    · rw [accepted_append, dispatched_append]
      simpa [accepted, dispatched, inflight, hl] using h.fifo
    · intro u hu
      rcases List.mem_append.1 hu with hu | hu
      · exact h.nofault u hu
      · simp at hu
  | disposeDelete a hl hp hh =>
    have n1 := h.notqueue_of_lt (a := a) (by simp [hl, lHolds])
    obtain ⟨m0, n3⟩ := h.lt_alive (a := a) (by simp [hl, lHolds])
    refine ⟨fun b => ?_, ?_, h.bound, ?_, ?_, ?_, ?_⟩
    · have h2 := h.count b
      simp only [hl, lHolds] at h2 ⊢
      by_cases e : b = a
      · subst e
        rw [n3] at h2
        simp only [setHeap_self, cnt, if_true] at h2 ⊢
        omega
      · rw [setHeap_ne _ _ e]
        rw [if_neg (Ne.symm e)] at h2
        omega
    · intro b hb
      by_cases e : b = a
      · subst e; exact h.fresh b (by simp [n3])
      · exact h.fresh b (by simpa [setHeap_ne _ _ e] using hb)
    · have h2 := h.balance
      simp only [hl, lHeld] at h2 ⊢
      omega
    · intro j m' a' hj
      have hr := h.ready j m' a' hj
      have hj' : s.cl[j]? = some (.enqueue m' a') := hj
      have := (h.notqueue_of_cl hj' (a := a') (by simp [cHolds])).2.1
      show setHeap s.heap a _ a' = _
      rw [setHeap_ne _ _ (by rintro rfl; simp [hl, lHolds] at this)]; exact hr
    · rw [accepted_append, dispatched_append]
      show _ = _ ++ s.queue.map (setHeap _ _ _)
      rw [map_setHeap _ _ _ _ n1]
      simpa [accepted, dispatched, inflight, hl] using h.fifo
    · intro u hu
      rcases List.mem_append.1 hu with hu | hu
      · exact h.nofault u hu
      · simp at hu

theorem Mem.initial (n : Nat) (t b : Bool) : Mem (init n t b) [] := by
  have z : ∀ (f : CPc → Nat), f .idle = 0 → ((List.replicate n CPc.idle).map f).sum = 0 := by
    intro f hf; rw [List.map_replicate, hf]; induction n with
    | zero => rfl
    | succ n ih => simp [List.replicate_succ, ih]
  have l0 : ∀ a, lHolds a (if b then LPc.top else LPc.none) = 0 := by intro a; cases b <;> rfl
  refine ⟨fun a => ?_, ?_, ?_, ?_, ?_, ?_, by simp⟩
  · show (List.range threshold).count a + _ + _ + _ = _
    rw [show ((init n t b).cl.map (cHolds a)).sum = 0 from z _ rfl, show lHolds a (init n t b).lt = 0 from l0 a]
    show _ + ([] : List Addr).count a + 0 + 0 = cnt (if a < threshold then some Msg.default else none)
    by_cases h : a < threshold
    · rw [if_pos h, List.nodup_range.count, if_pos (by simpa using h)]; rfl
    · rw [if_neg h, List.count_eq_zero_of_not_mem (by simpa using h)]; rfl
  · intro a ha
    simp only [init] at ha ⊢
    by_cases h : a < threshold
    · exact h
    · rw [if_neg h] at ha; cases ha
  · simp [init]
  · rw [show ((init n t b).cl.map cHeld).sum = 0 from z _ rfl]
    cases b <;> simp [init, lHeld]
  · intro i m a hi
    simp [init, List.getElem?_replicate] at hi
  · cases b <;> simp [init, accepted, dispatched, inflight]

theorem exec_mem {rx : Rx} {n : Nat} {t b : Bool} {s : St} {es : List Ev} (h : Exec rx (init n t b) s es) : Mem s es :=
  exec_inv _ (Mem.initial n t b) (fun _ _ _ _ h hs => h.step hs) h

end Falcon.Log
