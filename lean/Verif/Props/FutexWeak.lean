import Verif.Proofs.FutexWeak
import Verif.Props.Futex
/-
C136: a Futex protects data on machines with weak memory order.
-/
namespace Falcon.Futex
variable {σ τ ω : Type}

/-- C136: no data race. Whenever a thread is about to access the guarded data it knows all accesses made before (they
happen before its own), so the only version it can read is the newest. -/
theorem C136_no_race (c : Client σ τ ω) (spin : BitVec 32) (g : σ) (prog : Nat → List ω) (w : WSt σ τ ω)
    (h : WReach codeOrders c spin g prog w) (i : Nat) : ¬RacesFor w i := by
  obtain ⟨top, s, hi⟩ := h.inv rfl rfl
  rintro ⟨f, fs, l, hpc, hne⟩
  have hh : WHolds w i := ⟨_, _, hpc⟩
  rcases hi.phase with ⟨_, _, d⟩ | ⟨k, _, _, d, _, e⟩
  · exact d i hh
  · rw [d i hh] at hne; exact hne e

/-- C136: mutual exclusion. -/
theorem C136_mutual_exclusion (c : Client σ τ ω) (spin : BitVec 32) (g : σ) (prog : Nat → List ω) (w : WSt σ τ ω)
    (h : WReach codeOrders c spin g prog w) (i j : Nat) (hi : WHolds w i) (hj : WHolds w j) : i = j := by
  obtain ⟨top, s, hv⟩ := h.inv rfl rfl
  rcases hv.phase with ⟨_, _, d⟩ | ⟨k, _, _, d, _⟩
  · exact absurd hi (d i)
  · rw [d i hi, d j hj]

/-- C136: nothing can be seen that could not be seen without weak memory: every state that can be reached is, thread by
thread, reached with one value per location at a time as well. -/
theorem C136_as_sequentially_consistent (c : Client σ τ ω) (spin : BitVec 32) (g : σ) (prog : Nat → List ω) (w : WSt σ τ ω)
    (h : WReach codeOrders c spin g prog w) :
    ∃ s, Reach c spin g prog s ∧ s.th = w.th ∧ s.hist = w.hist ∧ newest w = some s.shared := by
  obtain ⟨top, s, hi⟩ := h.inv rfl rfl
  exact ⟨s, hi.sc, hi.th, hi.hist, hi.shared⟩

/-- C136: when every thread is done there is one order of all operations, agreeing with every thread's program, that
explains the data and every result. -/
theorem C136_final_state (c : Client σ τ ω) (spin : BitVec 32) (g : σ) (prog : Nat → List ω) (w : WSt σ τ ω)
    (h : WReach codeOrders c spin g prog w) (hd : ∀ i, (w.th i).pc = .out ∧ (w.th i).todo = []) :
    ∃ order : List (Nat × ω), (∀ i, ofThread i order = prog i) ∧ newest w = some (sequential c g order).1 ∧
      ∀ i, (w.th i).results = ofThread i (sequential c g order).2 := by
  obtain ⟨s, h1, h2, h3, h4⟩ := C136_as_sequentially_consistent c spin g prog w h
  obtain ⟨order, a, b, d⟩ := C25_final_state c spin g prog s h1 (fun i => by rw [Done, h2]; exact hd i)
  exact ⟨order, a, by rw [h4, b], fun i => by rw [← h2]; exact d i⟩

/-- C136: whenever nobody is inside, a thread that tries can get the lock with its next attempt. -/
theorem C136_acquires_when_free (c : Client σ τ ω) (spin : BitVec 32) (g : σ) (prog : Nat → List ω) (w : WSt σ τ ω)
    (h : WReach codeOrders c spin g prog w) (i : Nat) (sc : BitVec 32) (hi : (w.th i).pc = .trying sc)
    (hfree : ∀ j, ¬WHolds w j) : ∃ ch w', wstep codeOrders c spin w i ch = some w' ∧ WHolds w' i := by
  obtain ⟨top, s, hv⟩ := h.inv rfl rfl
  obtain ⟨a, _, _⟩ : top.val = false ∧ top.data + 1 = w.vers.length ∧ ∀ i, ¬WHolds w i := by
    rcases hv.phase with x | ⟨k, _, b, _⟩
    · exact x
    · exact absurd b (hfree k)
  obtain ⟨k, hk⟩ := List.getElem?_of_mem hv.mem
  obtain ⟨op, tl, e⟩ := List.exists_cons_of_ne_nil (hv.sc.inv.work i sc (by rw [hv.th]; exact hi))
  rw [hv.th] at e
  have h1 : ¬top.time < (w.view i).lock := Nat.not_lt.2 (hv.seen i)
  have h2 : top.time < top.time + 1 ∧ unused w.mem top.time (top.time + 1) = true := by
    refine ⟨Nat.lt_succ_self _, ?_⟩
    unfold unused
    rw [List.all_eq_true]
    intro m hm
    simp only [decide_eq_true_eq]
    exact .inl (hv.newest m hm)
  have e1 : ∃ w', wstep codeOrders c spin w i { msg := k, time := top.time + 1 } = some w' ∧ w'.th = upd w.th i { w.th i with pc := .inside (c.micro op) (c.start op) } := by
    unfold wstep
    simp only [hi, e, hk]
    rw [if_neg h1]
    simp only [a, retry, Bool.not_false, Bool.and_self, Bool.not_true, Bool.or_self, Bool.false_eq_true, if_false]
    rw [if_pos h2]
    exact ⟨_, rfl, by rw [← e]⟩
  obtain ⟨w', e2, e3⟩ := e1
  exact ⟨_, w', e2, c.micro op, c.start op, by rw [e3]; simp⟩

/-- C136: the thread that is inside is told so by isLocked(), whatever messages the machine lets it read. -/
theorem C136_holder_sees_locked (c : Client σ τ ω) (spin : BitVec 32) (g : σ) (prog : Nat → List ω) (w : WSt σ τ ω)
    (h : WReach codeOrders c spin g prog w) (i : Nat) (hi : WHolds w i) (ch : Choice) (b : Bool)
    (hb : wIsLocked w i ch = some b) : b = true := by
  obtain ⟨top, s, hv⟩ := h.inv rfl rfl
  obtain ⟨k, a, _, d, e1, e2⟩ : ∃ k, top.val = true ∧ WHolds w k ∧ (∀ j, WHolds w j → j = k) ∧ (w.view k).lock = top.time ∧
      (w.view k).data + 1 = w.vers.length := by
    rcases hv.phase with ⟨_, _, d⟩ | x
    · exact absurd hi (d i)
    · exact x
  rw [← d i hi] at e1
  unfold wIsLocked at hb
  split at hb
  · cases hb
  · rename_i m hm
    split at hb
    · cases hb
    · rename_i hold
      have hmm := List.mem_of_getElem? hm
      injection hb with hb
      cases hmv : m.val with
      | true => rw [← hb, hmv]
      | false =>
        rcases hv.attached m hmm hmv with rfl | ⟨m', h1, h2, h3⟩
        · rw [a] at hmv; cases hmv
        · have := hv.newest m' h1; omega

/-- C136: isLocked() always has an answer, and the right one is among those the machine allows: any thread may be told
whether somebody is inside. -/
theorem C136_isLocked_can_be_right (c : Client σ τ ω) (spin : BitVec 32) (g : σ) (prog : Nat → List ω) (w : WSt σ τ ω)
    (h : WReach codeOrders c spin g prog w) (i : Nat) :
    ∃ ch b, wIsLocked w i ch = some b ∧ (b = true ↔ ∃ j, WHolds w j) := by
  obtain ⟨top, s, hv⟩ := h.inv rfl rfl
  obtain ⟨k, hk⟩ := List.getElem?_of_mem hv.mem
  refine ⟨{ msg := k }, top.val, ?_, ?_⟩
  · unfold wIsLocked
    simp only [hk]
    rw [if_neg (Nat.not_lt.2 (hv.seen i))]
  · rcases hv.phase with ⟨a, _, d⟩ | ⟨j, a, b, _⟩
    · rw [a]; exact ⟨(fun x => nomatch x), fun ⟨j, hj⟩ => absurd hj (d j)⟩
    · rw [a]; exact ⟨fun _ => ⟨j, b⟩, fun _ => rfl⟩

/-- A schedule reaches its final state. -/
theorem wreach_of_wrun {o : Orders} {c : Client σ τ ω} {spin : BitVec 32} {g : σ} {prog : Nat → List ω} (cs : List (Nat × Choice)) :
    ∀ {w w' : WSt σ τ ω}, WReach o c spin g prog w → wrun o c spin w cs = some w' → WReach o c spin g prog w' := by
  induction cs with
  | nil => intro w w' h e; cases e; exact h
  | cons p cs ih =>
    intro w w' h e
    obtain ⟨i, ch⟩ := p
    unfold wrun at e
    split at e
    · cases e
    · rename_i w1 h1; exact ih (.step i ch h h1) e

/-- Thread 0 adds one to the counter, then thread 1 gets the lock. -/
def handOver : List (Nat × Choice) :=
  [(0, {}), (0, { msg := 0, time := 5 }), (0, { ver := 0 }), (0, { ver := 1 }), (0, { start := 7, time := 9 }),
   (1, {}), (1, { msg := 0, spurious := true }), (1, { msg := 0, time := 12 })]

/-- What the schedule shows: which version thread 1 knows, how many there are, whether thread 1 is inside. -/
def afterHandOver (o : Orders) : Option (Nat × Nat × Bool) :=
  (wrun o counter 0 (winitial 0 demoProg) handOver).map fun w =>
    ((w.view 1).data, w.vers.length, match (w.th 1).pc with | .inside (_ :: _) _ => true | _ => false)

/-- C136: the orders written in the code are needed and enough: lock() must acquire and unlock() must release. -/
theorem C136_orders_needed (o : Orders) :
    (∀ w, WReach o counter 0 0 demoProg w → ∀ i, ¬RacesFor w i) ↔ o.lockAcquire = true ∧ o.unlockRelease = true := by
  constructor
  · intro hall
    apply Classical.byContradiction
    intro hno
    have key : afterHandOver o = some (0, 3, true) := by
      rcases o with ⟨_ | _, _ | _, _ | _⟩ <;> first | (exact absurd ⟨rfl, rfl⟩ hno) | decide
    unfold afterHandOver at key
    rw [Option.map_eq_some_iff] at key
    obtain ⟨w, hw, e⟩ := key
    simp only [Prod.mk.injEq] at e
    obtain ⟨e1, e2, e3⟩ := e
    refine hall w (wreach_of_wrun _ .init hw) 1 ?_
    split at e3
    · rename_i f fs l hpc
      exact ⟨f, fs, l, hpc, by rw [e1, e2]; decide⟩
    · cases e3
  · rintro ⟨ho, hu⟩ w h i ⟨f, fs, l, hpc, hne⟩
    obtain ⟨top, s, hi⟩ := h.inv ho hu
    have hh : WHolds w i := ⟨_, _, hpc⟩
    rcases hi.phase with ⟨_, _, d⟩ | ⟨k, _, _, d, _, e⟩
    · exact d i hh
    · rw [d i hh] at hne; exact hne e

/-- Non-vacuity: with the orders of the code thread 1 knows the newest of three versions ... -/
example : afterHandOver codeOrders = some (2, 3, true) := by decide
/-- ... and both increments count; thread 1 cannot read an old version. -/
example : (wrun codeOrders counter 0 (winitial 0 demoProg) (handOver ++ [(1, { ver := 2 }), (1, { ver := 3 }), (1, { start := 12, time := 13 })])).map newest
    = some (some 2) := by decide
example : (wrun codeOrders counter 0 (winitial 0 demoProg) (handOver ++ [(1, { ver := 0 })])).isNone = true := by decide
/-- With a relaxed store in unlock() an increment can get lost. -/
example : (wrun ⟨true, true, false⟩ counter 0 (winitial 0 demoProg) (handOver ++ [(1, { ver := 0 }), (1, { ver := 3 }), (1, { start := 12, time := 13 })])).map newest
    = some (some 1) := by decide
/-- The machine is weak: while thread 0 is inside, thread 1's isLocked() may still return false. -/
example : (wrun codeOrders counter 0 (winitial 0 demoProg) (handOver.take 2)).bind (fun w => wIsLocked w 1 { msg := 1 }) = some false := by decide
/-- Thread 1 cannot take a lock that is held, nor get between two read-modify-writes. -/
example : (wrun codeOrders counter 0 (winitial 0 demoProg) (handOver.take 2 ++ [(1, ({} : Choice)), (1, { msg := 1, time := 3 })])).isNone = true := by decide

end Falcon.Futex
