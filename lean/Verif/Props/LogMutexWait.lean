import Verif.Proofs.LogMutexWait
import Verif.Props.LogMutexFeed
import Verif.Props.LogMutexRest
/- C169: however much listeners use the log system, a message waits only for those accepted before it. -/
namespace Falcon.LogM
open Falcon.Log (Str Addr LId Msg Rx Lst Op Ev Stage Mtx accepted finished added StopCalled finished_is)

variable {rx : Rx} {n q L j : Nat} {b : Bool} {r r' : FRst} {as bs : List FRAct} {es es' : List Ev} {m : Msg}

theorem wrank_pos (W P L : Nat) (p : FLt) : 1 ≤ wrank W P L p := by
  cases p with
  | probe a l st rem => cases st <;> simp only [wrank] <;> omega
  | _ => simp only [wrank]; omega

theorem turns_append (as bs : List FRAct) : turns (as ++ bs) = turns as + turns bs := List.countP_append

theorem wait_run (h : FRExec rx n (frinit n false b) r as es) (h' : FRExec rx n r r' bs es') (hs : ¬ StopCalled (es ++ es')) (hq : Brief q (as ++ bs))
    (hL : adds' (es ++ es') ≤ L) (hj : j < accs es) (hn : fins (es ++ es') ≤ j) : turns bs + wait n q L j r' (es ++ es') ≤ wait n q L j r es := by
  induction h' with
  | nil => simp [turns]
  | @snoc r1 r2 bs es1 a es2 hx hst ih =>
    have hx' := h.append hx
    rw [← List.append_assoc, fins_append] at hn
    rw [← List.append_assoc, adds'_append] at hL
    have s1 : ¬ StopCalled (es ++ es1) := fun ⟨i, hi⟩ => hs ⟨i, by rw [← List.append_assoc]; exact List.mem_append_left _ hi⟩
    have h1 := ih s1 (fun d hd => hq d (by rcases List.mem_append.1 hd with h | h <;> simp [h])) (by omega) (by omega)
    have h2 := wait_step (q := q) (L := L) (j := j) hx' hst s1 (by omega) (by rw [accs_append]; omega) (by rw [fins_append]; omega)
      (fun d hd => hq d (by simp [hd]))
    rw [turns_append, ← List.append_assoc]
    have : turns [a] = if isTurn a then 1 else 0 := by cases a <;> rfl
    omega

/-- C169: once a message is accepted, the logging thread is finished with it after as many steps as the messages accepted before it need, at a fixed rate. It does not matter
what is logged later, by the program or by listeners, nor what the other threads do. -/
theorem C169_waits (h : FRExec rx n (frinit n false b) r as es) (h' : FRExec rx n r r' bs es') (hs : ¬ StopCalled (es ++ es')) (hq : Brief q (as ++ bs))
    (hL : (added (es ++ es')).length ≤ L) (hj : (accepted es)[j]? = some m) (ht : (j + 1 - (finished es).length) * perMessage q L ≤ turns bs) :
    (finished (es ++ es'))[j]? = some m := by
  have hj' : j < accs es := (List.getElem?_eq_some_iff.1 hj).1
  have hx := h.append h'
  have done : j < fins (es ++ es') := by
    apply Nat.lt_of_not_le
    intro hn
    have h1 := wait_run h h' hs hq hL hj' hn
    have h0 : fins es ≤ j := by rw [fins_append] at hn; omega
    have h2 := wait_le (q := q) (L := L) (j := j) h (fun d hd => hq d (by simp [hd])) (by have h3 : adds' (es ++ es') ≤ L := hL; rw [adds'_append] at h3; omega) h0
    have h3 : (j + 1 - fins es) * perMessage q L ≤ turns bs := ht
    have h4 : 1 ≤ wait n q L j r' (es ++ es') := by
      have := wrank_pos (16 * q + 1) (16 * q + 8) L r'.base.lt
      unfold wait; omega
    omega
  obtain ⟨cs, hb, -⟩ := base_run hx
  obtain ⟨-, es0, h1, h2⟩ := sim_init hb
  have hf : finished (es ++ es') = finished es0 := by unfold finished; rw [← visible_map _ rfl (es ++ es'), ← visible_map _ rfl es0, h2]
  have ha : accepted (es ++ es') = accepted es0 := by unfold accepted; rw [← visible_map _ rfl (es ++ es'), ← visible_map _ rfl es0, h2]
  rw [hf]
  refine finished_is h1 ?_ ?_
  · rw [← ha, Falcon.Log.accepted, List.filterMap_append]
    exact (List.getElem?_append_left hj').trans hj
  · rw [← hf]; exact done

/-- C169: in particular the message next in turn, or the one in hand, is finished within one such time. -/
theorem C169_next (h : FRExec rx n (frinit n false b) r as es) (h' : FRExec rx n r r' bs es') (hs : ¬ StopCalled (es ++ es')) (hq : Brief q (as ++ bs))
    (hL : (added (es ++ es')).length ≤ L) (hw : (finished es).length < (accepted es).length) (ht : perMessage q L ≤ turns bs) :
    (finished es).length < (finished (es ++ es')).length := by
  have hj : (accepted es)[(finished es).length]? = some ((accepted es)[(finished es).length]) := List.getElem?_eq_getElem hw
  have e : (finished es).length + 1 - (finished es).length = 1 := by omega
  have := C169_waits h h' hs hq hL hj (by rw [e, Nat.one_mul]; exact ht)
  exact (List.getElem?_eq_some_iff.1 this).1

/-! ### The hypotheses are met, and without listeners no better bound holds -/

/-- As `frrun`, with what was observed. -/
def frrunE (rx : Rx) (n : Nat) : FRst → List FRAct → Option (FRst × List Ev)
  | r, [] => some (r, [])
  | r, a :: as => match frstep rx n r a with
    | none => none
    | some (r', es) => match frrunE rx n r' as with
      | none => none
      | some (r'', es') => some (r'', es ++ es')

theorem FRExec.of_runE {r : FRst} {x : FRst × List Ev} (h : frrunE rx n r as = some x) : FRExec rx n r x.1 as x.2 := by
  induction as generalizing r x with
  | nil => simp only [frrunE] at h; cases h; exact .nil
  | cons a as ih =>
    simp only [frrunE] at h
    split at h
    · cases h
    · rename_i r1 e1 hs
      split at h
      · cases h
      · rename_i r2 e2 hr
        cases h
        have := FRExec.append (FRExec.nil.snoc hs) (ih hr)
        simpa using this

/-- A thread logs two message objects of its own; the logging thread finishes the first one. -/
def twoOwn : List FRAct :=
  .req 0 (.op (.logPtr Msg.default)) :: List.replicate 6 (.cli 0) ++ (.req 0 (.op (.logPtr Msg.default)) :: List.replicate 6 (.cli 0)) ++ List.replicate 10 (.log ⟨[], false⟩)

def quiet (es : List Ev) : Bool := es.all fun e => match e with | .call _ .stop => false | _ => true

theorem quiet_not {es : List Ev} (h : quiet es = true) : ¬ StopCalled es := by
  rintro ⟨i, hi⟩
  have := List.all_eq_true.1 h _ hi
  cases this

def brief (q : Nat) (as : List FRAct) : Bool := as.all fun a => match a with | .log d => d.reqs.length ≤ q | _ => true

theorem brief_is {as : List FRAct} (h : brief q as = true) : Brief q as := by
  intro d hd
  have := List.all_eq_true.1 h _ hd
  simpa using this

/-- A run and how it goes on, with what is known of both. -/
theorem two_runs {α : Type} {rx : Rx} {n : Nat} {r0 : FRst} {as bs : List FRAct} {g : FRst × List Ev → FRst × List Ev → α} {v : α}
    (h : ((frrunE rx n r0 as).bind fun x => (frrunE rx n x.1 bs).map fun y => g x y) = some v) :
    ∃ x y, FRExec rx n r0 x.1 as x.2 ∧ FRExec rx n x.1 y.1 bs y.2 ∧ g x y = v := by
  cases h1 : frrunE rx n r0 as with
  | none => rw [h1] at h; cases h
  | some x =>
    rw [h1] at h
    cases h2 : frrunE rx n x.1 bs with
    | none => simp [h2] at h
    | some y =>
      simp [h2] at h
      exact ⟨x, y, .of_runE h1, .of_runE h2, h⟩

/-- C169: with one step less than `perMessage` the message can still be waiting. -/
theorem C169_tight : ∃ r as es, FRExec Falcon.Log.demoRx 1 (frinit 1 false true) r as es ∧ (accepted es).length = 2 ∧ (finished es).length = 1 ∧
    ∃ r' bs es', FRExec Falcon.Log.demoRx 1 r r' bs es' ∧ Brief 0 (as ++ bs) ∧ ¬ StopCalled (es ++ es') ∧ added (es ++ es') = [] ∧
      turns bs + 1 = perMessage 0 0 ∧ (finished (es ++ es')).length = 1 := by
  have h : ((frrunE Falcon.Log.demoRx 1 (frinit 1 false true) twoOwn).bind fun x => (frrunE Falcon.Log.demoRx 1 x.1 (List.replicate 15 (.log ⟨[], false⟩))).map fun y =>
      ((accepted x.2).length, (finished x.2).length, quiet (x.2 ++ y.2), added (x.2 ++ y.2), (finished (x.2 ++ y.2)).length)) = some (2, 1, true, [], 1) := by decide +kernel
  obtain ⟨x, y, h1, h2, h3⟩ := two_runs h
  simp only [Prod.mk.injEq] at h3
  exact ⟨_, _, _, h1, h3.1, h3.2.1, _, _, _, h2, brief_is (by decide +kernel), quiet_not h3.2.2.1, h3.2.2.2.1, by decide, h3.2.2.2.2⟩

/-- Two listeners, each of which answers every message with another one; two messages of the program wait, and the logging thread makes steps enough for both. -/
def busyAs : List FRAct :=
  (.req 0 (.op (.addListener 7)) :: List.replicate 3 (.cli 0)) ++ (.req 0 (.op (.addListener 8)) :: List.replicate 3 (.cli 0)) ++
  (.req 0 (.op (.log Msg.default)) :: List.replicate 11 (.cli 0)) ++ (.req 0 (.op (.log Msg.default)) :: List.replicate 11 (.cli 0))

example : ∃ r es r' es', FRExec Falcon.Log.demoRx 1 (frinit 1 false true) r busyAs es ∧ FRExec Falcon.Log.demoRx 1 r r' (List.replicate 132 (.log ⟨[.op (.log Msg.default)], false⟩)) es' ∧
    ¬ StopCalled (es ++ es') ∧ Brief 1 (busyAs ++ List.replicate 132 (.log ⟨[.op (.log Msg.default)], false⟩)) ∧ (added (es ++ es')).length ≤ 2 ∧ (accepted es)[1]? = some Msg.default ∧
    (1 + 1 - (finished es).length) * perMessage 1 2 ≤ turns (List.replicate 132 (.log ⟨[.op (.log Msg.default)], false⟩)) ∧ (accepted (es ++ es')).length > 3 ∧
    (finished (es ++ es'))[1]? = some Msg.default := by
  have h : ((frrunE Falcon.Log.demoRx 1 (frinit 1 false true) busyAs).bind fun x => (frrunE Falcon.Log.demoRx 1 x.1 (List.replicate 132 (.log ⟨[.op (.log Msg.default)], false⟩))).map fun y =>
      (decide ((accepted x.2)[1]? = some Msg.default), (finished x.2).length, quiet (x.2 ++ y.2), (added (x.2 ++ y.2)).length, decide ((accepted (x.2 ++ y.2)).length > 3))) = some (true, 0, true, 2, true) := by decide +kernel
  obtain ⟨x, y, h1, h2, h3⟩ := two_runs h
  simp only [Prod.mk.injEq] at h3
  obtain ⟨e1, e2, e3, e4, e5⟩ := h3
  have hq : Brief 1 (busyAs ++ List.replicate 132 (.log ⟨[.op (.log Msg.default)], false⟩)) := brief_is (by decide +kernel)
  have ht : (1 + 1 - (finished x.2).length) * perMessage 1 2 ≤ turns (List.replicate 132 (.log ⟨[.op (.log Msg.default)], false⟩)) := by rw [e2]; decide +kernel
  exact ⟨x.1, x.2, y.1, y.2, h1, h2, quiet_not e3, hq, by omega, of_decide_eq_true e1, ht, of_decide_eq_true e5, C169_waits h1 h2 (quiet_not e3) hq (L := 2) (by omega) (of_decide_eq_true e1) ht⟩

end Falcon.LogM
