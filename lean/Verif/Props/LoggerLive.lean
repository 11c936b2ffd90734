import Verif.Proofs.LoggerLiveEnd
/-
C161: the line of every LOG statement appears in the file.
-/
namespace Falcon.LoggerJoint
open Falcon.Log (St Ev Act Rx Msg Str LId Exec addCalls detachedIn receivedBy served levelIn WantsIn accepted StartCalled)
open Falcon.Logger (W Stm emitsAll)
open Falcon.LogStream (OS Tm written readFile Legible shouldSee)

variable {rx : Rx} {n : Nat} {b : Bool} {s0 : St} {es0 : List Ev} {l : LId} {min : Int} {prog : Nat → List Stm} {g : Nat → JAct}

/-- a complete shuffle cannot be longer -/
theorem shuffle_end {T1 T2 : List (Nat × Msg)} (hp : T1 <+: T2) (ht : ∀ p ∈ T2, p.1 < n)
    (he : ∀ i, i < n → (T1.filter fun p => decide (p.1 = i)).map Prod.snd = (T2.filter fun p => decide (p.1 = i)).map Prod.snd) : T2 = T1 := by
  obtain ⟨R, rfl⟩ := hp
  cases R with
  | nil => simp
  | cons p R =>
    exfalso
    have h1 := congrArg List.length (he p.1 (ht p (by simp)))
    simp at h1

/-- **C161**. Threads execute LOG and LOG_BLOCK statements and category changes; the log system's flag is initialised, it
has been started, a listener is registered and configured (history `es0`) and then left alone; nobody calls stop. If every
thread gets to move again and again, then from some time on the file holds exactly the lines of all statements: a shuffle of the
threads' complete lists. -/
theorem C161_eventually_partial (h0 : Exec rx (Falcon.Log.init n false b) s0 es0) (hsetup : ∀ i op, .call i op ∉ es0)
    (hadd : addCalls l es0 = 1) (hdet : detachedIn l es0 = false) (hb : b = true ∨ StartCalled es0)
    (hp : ∀ i, Program (prog i)) (hf : Fair n g) (hq : Undisturbed l g)
    (sep : Char) (hm : ∀ i, ∀ m ∈ emitsAll min (levelIn es0) [] (prog i), Legible sep m)
    (o : OS) (ho : o.Plain) (he : o.text = []) :
    ∃ K, ∀ k, K ≤ k → ∀ es, es = es0 ++ (jforever rx min (start (levelIn es0) prog) s0 g k).2.2 →
      ∀ times : List Tm, times.length = (receivedBy l es).length → (∀ x ∈ times, x.Valid) →
      ∃ lines, readFile (written sep o (times.zip (receivedBy l es))).text = lines.map some ∧
        Shuffle n (fun i => linesOf sep min (levelIn es0) (fun m => decide (WantsIn rx l es0 m)) (prog i)) lines := by
  have hu : ∀ k i, g k ≠ .system (.call i .stop) := fun k i e => (hq k i _ e).1 rfl
  have hlev : ∀ k j v, .did j (.level v) ∉ (jforever rx min (start (levelIn es0) prog) s0 g k).2.2 := by
    intro k j v hv
    obtain ⟨k', hk'⟩ := jforever_did k j _ (.inl hv)
    exact (hq k' j _ hk').2.2 v rfl
  have hla : ∀ k, Falcon.Log.LeftAlone l (jforever rx min (start (levelIn es0) prog) s0 g k).2.2 := by
    intro k j op hv
    obtain ⟨k', hk'⟩ := jforever_did k j _ (.inl hv)
    exact (hq k' j _ hk').2.1
  have hparts := fun k => accepted_parts h0 hsetup hp (jforever_run (rx := rx) (min := min) (w0 := start (levelIn es0) prog) (s0 := s0) (g := g) k).choose_spec (hlev k)
  obtain ⟨K1, hK1⟩ := live_all (min := min) (lv := levelIn es0) h0 hsetup hp hu hf
  obtain ⟨K2, hK2, hserv⟩ := live_served (min := min) (lv := levelIn es0) (prog := prog) h0 hsetup hb hu hf K1
  have hset := Falcon.Log.setup_accepted h0 hsetup
  have hacc : ∀ k, accepted (es0 ++ (jforever rx min (start (levelIn es0) prog) s0 g k).2.2)
      = accepted (jforever rx min (start (levelIn es0) prog) s0 g k).2.2 := by
    intro k; rw [Falcon.Log.accepted_append, hset, List.nil_append]
  refine ⟨K2, fun k hk es hes times hl hv => ?_⟩
  subst hes
  obtain ⟨as, ha⟩ := jforever_run (rx := rx) (min := min) (w0 := start (levelIn es0) prog) (s0 := s0) (g := g) k
  refine C160_complete h0 hsetup hadd hdet hp ha (hlev k) (hla k) sep hm o ho he times hl hv (hK1 k (by omega)) ?_
  -- nothing came into the queue after the threads' ends
  have hsame : tagged (jforever rx min (start (levelIn es0) prog) s0 g k).2.2 = tagged (jforever rx min (start (levelIn es0) prog) s0 g K1).2.2 := by
    refine shuffle_end (n := n) ?_ (hparts k).2.1 ?_
    · obtain ⟨r, hr⟩ := jforever_prefix (rx := rx) (min := min) (w0 := start (levelIn es0) prog) (s0 := s0) (g := g) (k := K1) (k' := k) (by omega)
      rw [← hr]
      unfold tagged
      rw [List.filterMap_append]
      exact List.prefix_append _ _
    · intro i hi
      have e1 := tagged_of (jforever rx min (start (levelIn es0) prog) s0 g K1).2.2 i
      have e2 := tagged_of (jforever rx min (start (levelIn es0) prog) s0 g k).2.2 i
      rw [e1, e2]
      rw [((hparts k).2.2 i).2 (hK1 k (by omega) i hi).1 (hK1 k (by omega) i hi).2]
      exact ((hparts K1).2.2 i).2 (hK1 K1 (by omega) i hi).1 (hK1 K1 (by omega) i hi).2
  have hlen : (accepted (jforever rx min (start (levelIn es0) prog) s0 g k).2.2).length
      = (accepted (jforever rx min (start (levelIn es0) prog) s0 g K1).2.2).length := by
    rw [← tagged_snd, ← tagged_snd, hsame]
  -- all of it is served
  have hex : Exec rx (Falcon.Log.init n false b) (jforever rx min (start (levelIn es0) prog) s0 g k).2.1
      (es0 ++ (jforever rx min (start (levelIn es0) prog) s0 g k).2.2) := (hparts k).1
  obtain ⟨c, hc, -⟩ := Falcon.Log.exec_finished hex
  have hfifo := (Falcon.Log.C38_fifo hex).length_le
  rw [hc, List.length_append, hacc] at hfifo
  have hmono : served (es0 ++ (jforever rx min (start (levelIn es0) prog) s0 g K2).2.2)
      ≤ served (es0 ++ (jforever rx min (start (levelIn es0) prog) s0 g k).2.2) := by
    obtain ⟨r, hr⟩ := jforever_prefix (rx := rx) (min := min) (w0 := start (levelIn es0) prog) (s0 := s0) (g := g) (k := K2) (k' := k) (by omega)
    rw [← hr, ← List.append_assoc]
    rw [served_finished, served_finished, Falcon.Log.finished_append _ r, List.length_append]
    omega
  rw [hacc] at hserv
  have e1 := served_finished (es0 ++ (jforever rx min (start (levelIn es0) prog) s0 g k).2.2)
  show served (es0 ++ (jforever rx min (start (levelIn es0) prog) s0 g k).2.2)
    = (accepted (jforever rx min (start (levelIn es0) prog) s0 g k).2.2).length
  omega

/-- A schedule that meets the hypotheses: the two threads and the logging thread in turn. -/
def inTurn (k : Nat) : JAct :=
  if k % 5 = 0 then .compose 0 else if k % 5 = 1 then .compose 1 else if k % 5 = 2 then .system (.cli 0)
  else if k % 5 = 3 then .system (.cli 1) else .system .log

theorem inTurn_fair : Fair 2 inTurn := by
  intro k
  refine ⟨⟨5 * k + 4, by omega, ?_⟩, fun i hi => ?_⟩
  · have : (5 * k + 4) % 5 = 4 := by omega
    simp [inTurn, this]
  · rcases (by omega : i = 0 ∨ i = 1) with rfl | rfl
    · refine ⟨⟨5 * k, by omega, ?_⟩, 5 * k + 2, by omega, ?_⟩
      · simp [inTurn]
      · have : (5 * k + 2) % 5 = 2 := by omega
        simp [inTurn, this]
    · refine ⟨⟨5 * k + 1, by omega, ?_⟩, 5 * k + 3, by omega, ?_⟩
      · have : (5 * k + 1) % 5 = 1 := by omega
        simp [inTurn, this]
      · have : (5 * k + 3) % 5 = 3 := by omega
        simp [inTurn, this]

theorem inTurn_undisturbed : Undisturbed l inTurn := by
  intro k i op h
  simp only [inTurn] at h
  repeat' split at h
  all_goals simp at h

/-- The set-up of `Props/LoggerJoint.lean` and this schedule: after 300 moves the file is complete. -/
example : ((Falcon.Log.run Falcon.Log.demoRx (Falcon.Log.init 2 false true) demoSetup).map fun r =>
      let q := jforever Falcon.Log.demoRx 5 (start 3 demoProg) r.1 inTurn 300
      readFile (written '/' {} ((List.replicate 3 ⟨2020, 1, 2, 3, 4, 5⟩).zip (receivedBy 7 (r.2 ++ q.2.2)))).text)
    = some [some ⟨"INFO".toList, [], "b.cpp".toList, 1, "n = 12".toList⟩, some ⟨"ERR ".toList, [], "c.cpp".toList, 7, "xy".toList⟩,
            some ⟨"WARN".toList, "net".toList, "b.cpp".toList, 3, "up".toList⟩] := by decide +kernel

/-- **C161** is false without `m_terminated` being initialised (logsystem.cpp 40-47 does not do it): if the memory it is in
happens to hold something other than zero, no line is ever written, whatever the threads log and however they are scheduled. -/
theorem C161_uninitialised_refuted (h0 : Exec rx (Falcon.Log.init n true b) s0 es0) (lv : Int) (k : Nat) (sep : Char) (o : OS)
    (he : o.text = []) (times : List Tm) :
    (written sep o (times.zip (receivedBy l (es0 ++ (jforever rx min (start lv prog) s0 g k).2.2)))).text = [] := by
  have hx : Exec rx s0 (jforever rx min (start lv prog) s0 g k).2.1 (jforever rx min (start lv prog) s0 g k).2.2 := by
    rw [← jforever_system]
    exact Falcon.Log.forever_exec k
  have h := Falcon.Log.C52_uninitialised_refuted (Falcon.Log.Exec.append h0 hx)
  have hr : receivedBy l (es0 ++ (jforever rx min (start lv prog) s0 g k).2.2) = [] := by
    have h2 := h.2
    unfold Falcon.Log.deliveries at h2
    unfold receivedBy
    rw [List.filterMap_eq_nil_iff] at h2 ⊢
    intro e he
    have := h2 e he
    cases e with
    | deliver j m => cases this
    | _ => rfl
  rw [hr]
  simp [written, he]

example : linesOf '/' 5 3 (fun _ => true) (demoProg 1) ≠ [] := by decide +kernel

end Falcon.LoggerJoint
