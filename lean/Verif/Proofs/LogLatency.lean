import Verif.Proofs.LogFair
import Verif.Proofs.LogRun
/-
How many steps of the logging thread a message has to wait for.
-/
namespace Falcon.Log

variable {rx : Rx}

/-- Steps of the logging thread until it looks at the queue again, with `L` listeners. -/
def rankL (L : Nat) (s : St) : Nat :=
  match s.lt with
  | .none | .exited | .got _ => 0
  | .top | .wait _ => 1
  | .send _ rem => 5 * rem.length + L + 4
  | .test _ _ .enabled rem => 5 * rem.length + L + 8
  | .test _ _ .level rem => 5 * rem.length + L + 7
  | .test _ _ .category rem => 5 * rem.length + L + 6
  | .test _ _ .call rem => 5 * rem.length + L + 5
  | .clean _ _ rest => rest.length + 3
  | .dispose _ => 2

theorem busy_stepL {L : Nat} {s s' : St} {es : List Ev} {e : Ev} (hm : Mem s es) (hb : busy s.lt = true) (hL : s.active.length ≤ L)
    (h : step rx s .log = some (s', e)) : rankL L s' < rankL L s ∧ dispatched [e] = [] := by
  simp only [step] at h
  cases hl : s.lt with
  | none | exited | top | wait | got => simp [hl, busy] at hb
  | send a rem =>
    cases rem with
    | nil =>
      obtain ⟨m, hh⟩ := hm.lt_alive (a := a) (by simp [hl, lHolds])
      simp only [logStep, hl, hh] at h; cases h
      refine ⟨?_, rfl⟩
      simp only [rankL, hl, List.length_nil]; omega
    | cons l rem =>
      simp only [logStep, hl] at h; cases h
      refine ⟨?_, rfl⟩
      simp only [rankL, hl, List.length_cons]; omega
  | test a l st rem =>
    obtain ⟨m, hh⟩ := hm.lt_alive (a := a) (by simp [hl, lHolds])
    cases st with
    | enabled =>
      simp only [logStep, hl, hh] at h; cases h
      refine ⟨?_, rfl⟩
      cases (s.lst l).enabled <;> simp [rankL, hl] <;> omega
    | level =>
      simp only [logStep, hl, hh] at h; cases h
      refine ⟨?_, rfl⟩
      by_cases h : (s.lst l).level ≥ m.level <;> simp [rankL, hl, h] <;> omega
    | category =>
      simp only [logStep, hl, hh] at h; cases h
      refine ⟨?_, rfl⟩
      cases checkCategory rx (s.lst l) m.cat <;> simp [rankL, hl] <;> omega
    | call =>
      simp only [logStep, hl, hh] at h; cases h
      refine ⟨?_, rfl⟩
      simp only [rankL, hl]; omega
  | clean a kept rest =>
    cases rest with
    | cons l rest =>
      simp only [logStep, hl] at h; cases h
      refine ⟨?_, rfl⟩
      simp only [rankL, hl, List.length_cons]; omega
    | nil =>
      simp only [logStep, hl] at h; cases h
      refine ⟨?_, rfl⟩
      simp only [rankL, hl, List.length_nil]; omega
  | dispose a =>
    obtain ⟨m, hh⟩ := hm.lt_alive (a := a) (by simp [hl, lHolds])
    simp only [logStep, hl, dispose, hh] at h
    split at h <;> (cases h; simp [rankL, hl, dispatched])

theorem rankL_aside {L : Nat} {s s' : St} {e : Ev} (h : Aside s s' e) (h1 : s.lt ≠ .none) (h2 : s.lt ≠ .exited) :
    rankL L s' = rankL L s := by
  obtain ⟨-, hl⟩ := rank_aside h h1 h2
  unfold rankL
  rcases hl with hl | hl
  · rw [hl]
  · rw [hl]; cases s.lt <;> rfl

theorem added_append (es es' : List Ev) : added (es ++ es') = added es ++ added es' := by
  simp [added, List.filterMap_append]

/-- No more listeners than were ever added. -/
theorem exec_listeners {n : Nat} {t b : Bool} {s : St} {es : List Ev} (h : Exec rx (init n t b) s es) :
    listeners s ≤ (added es).length := by
  have key : listeners s ≤ (added es).length ∧ CleanOk s := by
    refine exec_inv (fun s es => listeners s ≤ (added es).length ∧ CleanOk s) ?_ ?_ h
    · exact ⟨by simp [listeners, init, added], by intro a k r e; cases b <;> cases e⟩
    · rintro s es e s' ⟨h1, h2⟩ hs
      refine ⟨?_, h2.step hs⟩
      rw [added_append, List.length_append]
      unfold listeners at h1 ⊢
      cases hs with
      | addListener i l hi => rw [show (added [Ev.did i (.addListener l)]).length = 1 from rfl]; simp only [List.length_append, List.length_singleton]; omega
      | dispatch a m hl hh => simp; omega
      | cleanEnd a kept hl => have := h2 a kept [] hl; simp at this ⊢; omega
      | _ => exact Nat.le_trans h1 (Nat.le_add_right _ _)
  exact key.1

/-- Steps of the logging thread until message `j` is finished, at most. -/
def phi (L j : Nat) (s : St) (es : List Ev) : Nat := (j + 1 - (dispatched es).length) * (6 * L + 5) + rankL L s

/-- Where things stand while message `j` is waiting. -/
structure Waits (n : Nat) (b : Bool) (rx : Rx) (j : Nat) (s : St) (es : List Ev) : Prop where
  exec : Exec rx (init n false b) s es
  calm : ¬ StopCalled es
  run  : s.lt ≠ .none
  acc  : j < (accepted es).length
  fin  : (finished es).length ≤ j

theorem Waits.least {n : Nat} {b : Bool} {j : Nat} {s : St} {es : List Ev} (h : Waits n b rx j s es) (L : Nat) :
    L + 4 ≤ phi L j s es ∧ (serving s.lt = false → (dispatched es).length ≤ j) := by
  obtain ⟨c, hc, hc1, hc2⟩ := exec_finished h.exec
  have hlen := congrArg List.length hc
  rw [List.length_append] at hlen
  have hf := h.fin
  have part : serving s.lt = false → (dispatched es).length ≤ j := by
    intro hs
    have : c = [] := by
      cases c with
      | nil => rfl
      | cons x c => rw [hc2 (by simp)] at hs; cases hs
    subst this
    simp at hlen; omega
  refine ⟨?_, part⟩
  cases hs : serving s.lt with
  | false =>
    have := part hs
    unfold phi
    have h1 : 1 ≤ j + 1 - (dispatched es).length := by omega
    have := Nat.mul_le_mul_right (6 * L + 5) h1
    omega
  | true =>
    have : L + 4 ≤ rankL L s := by
      unfold rankL
      cases hl : s.lt with
      | send a rem => simp
      | test a l st rem => cases st <;> simp <;> omega
      | _ => rw [hl] at hs; cases hs
    unfold phi; omega

/-- The most it can be. -/
theorem Waits.most {n : Nat} {b : Bool} {j : Nat} {s : St} {es : List Ev} (h : Waits n b rx j s es) {L : Nat} (hL : listeners s ≤ L) :
    phi L j s es ≤ (j + 1 - (finished es).length) * (6 * L + 5) + L + 3 := by
  obtain ⟨c, hc, hc1, hc2⟩ := exec_finished h.exec
  have hlen := congrArg List.length hc
  rw [List.length_append] at hlen
  have hf := h.fin
  have hse := exec_serve h.exec
  have hcl := exec_clean h.exec
  unfold listeners at hL
  unfold phi
  by_cases hs : serving s.lt = true
  · -- the message being served, if it is counted as dispatched
    have hr : rankL L s ≤ 6 * L + 4 := by
      unfold rankL
      cases hl : s.lt with
      | send a rem => have := hse.1 _ _ hl; simp; omega
      | test a l st rem => have := hse.2 _ _ _ _ hl; cases st <;> simp <;> omega
      | _ => rw [hl] at hs; cases hs
    have hd : (dispatched es).length = (finished es).length + 1 := by
      rw [hlen]
      obtain ⟨r, h1, h2⟩ := exec_round h.exec
      have h3 : dispatched es = finished es ++ r.current := Round.run_current h1
      have h4 := congrArg List.length h3
      rw [List.length_append] at h4
      have h5 : r.current.length = 1 := by
        unfold roundOf at h2
        cases hl : s.lt with
        | send a rem =>
          obtain ⟨m, hh⟩ := (exec_mem h.exec).lt_alive (a := a) (by simp [hl, lHolds])
          simp only [hl, hh] at h2; cases h2; rfl
        | test a l st rem =>
          obtain ⟨m, hh⟩ := (exec_mem h.exec).lt_alive (a := a) (by simp [hl, lHolds])
          cases st <;> simp only [hl, hh] at h2 <;> cases h2 <;> rfl
        | _ => rw [hl] at hs; cases hs
      omega
    have e : j + 1 - (finished es).length = (j + 1 - (dispatched es).length) + 1 := by omega
    rw [e, Nat.add_mul]
    omega
  · have hr : rankL L s ≤ L + 3 := by
      unfold rankL
      cases hl : s.lt with
      | send a rem => rw [hl] at hs; exact absurd rfl hs
      | test a l st rem => rw [hl] at hs; exact absurd rfl hs
      | clean a k r => have := hcl _ _ _ hl; simp; omega
      | _ => simp
    have : j + 1 - (dispatched es).length ≤ j + 1 - (finished es).length := by omega
    have := Nat.mul_le_mul_right (6 * L + 5) this
    omega

theorem Waits.step {n : Nat} {b : Bool} {j : Nat} {s s' : St} {es : List Ev} {a : Act} {e : Ev} (h : Waits n b rx j s es) {L : Nat}
    (hL : listeners s ≤ L) (h1 : Log.step rx s a = some (s', e)) (hc : ¬ StopCalled (es ++ [e])) :
    j < (finished (es ++ [e])).length ∨ (Waits n b rx j s' (es ++ [e]) ∧ phi L j s' (es ++ [e]) + (if a = .log then 1 else 0) ≤ phi L j s es) := by
  by_cases hf : j < (finished (es ++ [e])).length
  · exact .inl hf
  right
  obtain ⟨hcalm, -⟩ := exec_calm h.exec h.calm
  have hst := hcalm.step (step_rel h1) (fun i e1 => hc ⟨i, by simp [e1]⟩)
  refine ⟨⟨.snoc h.exec h1, hc, hst.2 h.run, by rw [accepted_append, List.length_append]; have := h.acc; omega, by omega⟩, ?_⟩
  by_cases ha : a = .log
  · subst ha
    rw [if_pos rfl]
    have hm := exec_mem h.exec
    have hnd := (h.least L).2
    have top : (s.lt = .top ∨ s.lt = .wait true) → some (head s) = some (s', e) → phi L j s' (es ++ [e]) + 1 ≤ phi L j s es := by
      intro ht h2
      have hd := hnd (by rcases ht with ht | ht <;> rw [ht] <;> rfl)
      have hq : s.queue ≠ [] := by
        intro hq
        have hlen := congrArg List.length hm.fifo
        have hi : inflight s = [] := by rcases ht with ht | ht <;> simp [inflight, ht]
        simp only [List.length_append, List.length_map, hq, hi, List.length_nil] at hlen
        have := h.acc
        omega
      obtain ⟨x, q, hq⟩ := List.exists_cons_of_ne_nil hq
      rw [head_take hcalm.term hq] at h2
      cases h2
      have hr : rankL L s = 1 := by rcases ht with ht | ht <;> simp [rankL, ht]
      unfold phi
      rw [hr, dispatched_append]
      simp [dispatched, rankL]
    have work : busy s.lt = true → phi L j s' (es ++ [e]) + 1 ≤ phi L j s es := by
      intro hb
      obtain ⟨h2, h3⟩ := busy_stepL (L := L) hm hb (by unfold listeners at hL; omega) h1
      unfold phi
      rw [dispatched_append, h3, List.append_nil]
      omega
    cases hl : s.lt with
    | none => exact absurd hl h.run
    | exited => exact absurd hl hcalm.live
    | top => exact top (.inl hl) (by simpa [Log.step, logStep, hl] using h1)
    | wait w =>
      cases w with
      | true => exact top (.inr hl) (by simpa [Log.step, logStep, hl] using h1)
      | false => simp [Log.step, logStep, hl] at h1
    | got x =>
      have hd := hnd (by rw [hl]; rfl)
      obtain ⟨m, hh⟩ := hm.lt_alive (a := x) (by simp [hl, lHolds])
      simp only [Log.step, logStep, hl, hh] at h1
      cases h1
      unfold phi
      rw [dispatched_append, List.length_append]
      have e1 : j + 1 - (dispatched es).length = (j + 1 - ((dispatched es).length + 1)) + 1 := by omega
      have e2 : (dispatched [Ev.dispatch m (s.active ++ s.pending)]).length = 1 := rfl
      rw [e2, e1, Nat.add_mul]
      unfold listeners at hL
      simp only [rankL, hl, List.length_append]
      omega
    | _ => exact work (by rw [hl]; rfl)
  · rw [if_neg ha]
    have hs := client_aside ha h1
    unfold phi
    rw [dispatched_append, hs.quiet.1, List.append_nil, rankL_aside hs h.run hcalm.live]
    omega

theorem Waits.run_ {n : Nat} {b : Bool} {j : Nat} {L : Nat} (as : List Act) : ∀ {s s' : St} {es es' : List Ev}, Waits n b rx j s es →
    Log.run rx s as = some (s', es') → ¬ StopCalled (es ++ es') → (added (es ++ es')).length ≤ L →
    j < (finished (es ++ es')).length ∨ (Waits n b rx j s' (es ++ es') ∧ phi L j s' (es ++ es') + as.count .log ≤ phi L j s es) := by
  induction as with
  | nil =>
    intro s s' es es' h h1 _ _
    cases h1
    right
    simpa using h
  | cons a as ih =>
    intro s s' es es' h h1 hc hL
    simp only [Log.run] at h1
    split at h1
    · cases h1
    · rename_i s1 e1 h2
      split at h1
      · cases h1
      · rename_i s2 es2 h3
        cases h1
        have e : es ++ e1 :: es2 = (es ++ [e1]) ++ es2 := by simp
        rw [e] at hc hL ⊢
        have hl : listeners s ≤ L := by
          have := exec_listeners h.exec
          rw [added_append, added_append, List.length_append, List.length_append] at hL
          omega
        rcases h.step hl h2 (fun ⟨i, hi⟩ => hc ⟨i, List.mem_append_left _ hi⟩) with h4 | ⟨h4, h5⟩
        · left
          rw [finished_append, List.length_append]
          omega
        · rcases ih h4 h3 hc hL with h6 | ⟨h6, h7⟩
          · exact .inl h6
          · refine .inr ⟨h6, ?_⟩
            rw [List.count_cons]
            generalize phi L j s' (es ++ [e1] ++ es2) = x at h7 ⊢
            by_cases ha : a = .log
            · subst ha
              rw [if_pos rfl] at h5
              rw [if_pos (by rfl)]; omega
            · rw [if_neg ha] at h5
              rw [if_neg (by simpa using ha)]; omega

/-- a message that is finished is the message that was accepted -/
theorem finished_is {n : Nat} {t b : Bool} {s : St} {es : List Ev} (he : Exec rx (init n t b) s es) {j : Nat} {m : Msg}
    (hj : (accepted es)[j]? = some m) (hlt : j < (finished es).length) : (finished es)[j]? = some m := by
  have hfi := (exec_mem he).fifo
  obtain ⟨c, hc, -⟩ := exec_finished he
  rw [hc] at hfi
  have : ((accepted es).map some)[j]? = some (some m) := by simp [hj]
  rw [hfi, List.map_append, List.append_assoc, List.append_assoc, List.getElem?_append_left (by simpa using hlt), List.getElem?_map] at this
  cases hx : (finished es)[j]? with
  | none => rw [hx] at this; cases this
  | some y => rw [hx] at this; simp at this; rw [this]

end Falcon.Log
