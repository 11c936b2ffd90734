import Verif.Proofs.LoggerJoint
/-
C160: from LOG statements to lines of a file.
-/
namespace Falcon.LoggerJoint
open Falcon.Log (St Ev Act Rx Msg Str LId Exec addCalls detachedIn LeftAlone receivedBy served levelIn WantsIn)
open Falcon.Logger (W Stm emitsAll outOf)
open Falcon.LogStream (OS Tm written readFile Legible shouldSee)

variable {rx : Rx} {n : Nat} {t b : Bool} {s0 s : St} {es0 es1 : List Ev} {l : LId} {min : Int}
  {prog : Nat → List Stm} {as : List JAct} {w : W}

/-- Shuffled lists, entry by entry. -/
theorem shuffle_map {β γ : Type} (f : β → γ) (T : List (Nat × β)) (hT : ∀ p ∈ T, p.1 < n) :
    Shuffle n (fun i => (((T.filter fun p => p.1 = i).map Prod.snd)).map f) ((T.map Prod.snd).map f) := by
  refine ⟨T.map fun p => (p.1, f p.2), by simp [List.map_map, Function.comp_def], ?_, fun i _ => ?_⟩
  · intro p hp
    obtain ⟨q, hq, rfl⟩ := List.mem_map.1 hp
    exact hT q hq
  · show _ = List.map f (List.map Prod.snd _)
    rw [List.filter_map, List.map_map, List.map_map]
    rfl

/-- What the joint run says about the threads' messages. -/
theorem accepted_parts (h0 : Exec rx (Falcon.Log.init n t b) s0 es0) (hsetup : ∀ i op, .call i op ∉ es0)
    (hp : ∀ i, Program (prog i)) (hrun : jrun rx min (start (levelIn es0) prog) s0 as = some (w, s, es1))
    (hlev : ∀ j v, .did j (.level v) ∉ es1) :
    Exec rx (Falcon.Log.init n t b) s (es0 ++ es1) ∧ (∀ p ∈ tagged es1, p.1 < n) ∧
    ∀ i, Falcon.Log.acceptedBy i es1 <+: emitsAll min (levelIn es0) [] (prog i) ∧
      ((w.th i).todo = [] → s.cl[i]? = some .idle → Falcon.Log.acceptedBy i es1 = emitsAll min (levelIn es0) [] (prog i)) := by
  obtain ⟨sched, hw, hx, ho, hptr, hlt⟩ := jrun_parts as (start_steady (levelIn es0) prog hp) hrun
  have hall := Falcon.Log.Exec.append h0 hx
  have hn := Falcon.Log.exec_length h0
  have hout : ∀ i, logCalls i es1 = outOf w i := fun i => by rw [ho i]; rfl
  have key : ∀ i, Falcon.Log.loggedBy i (levelIn es0) es1 = outOf w i := by
    intro i
    rw [loggedBy_eq i _ es1 hptr, hout i, List.filter_eq_self]
    intro m hm
    have := (emitted_prefix min (levelIn es0) prog hp sched i).1.mem (hw ▸ hm)
    simpa using emits_level min (prog i) (levelIn es0) [] (fun s hs => (hp i s hs).2) m this
  refine ⟨hall, ?_, fun i => ?_⟩
  · intro p hpm
    have h1 := (Falcon.Log.C130_program_order hall hsetup hlev p.1).1
    rw [key] at h1
    have h2 : p.2 ∈ Falcon.Log.acceptedBy p.1 es1 := by
      rw [← tagged_of]
      exact List.mem_map.2 ⟨p, List.mem_filter.2 ⟨hpm, by simp⟩, rfl⟩
    have h3 := h1.mem h2
    rw [← hout] at h3
    have := hlt p.1 (List.ne_nil_of_mem h3)
    omega
  · obtain ⟨h1, -, h3⟩ := Falcon.Log.C130_program_order hall hsetup hlev i
    obtain ⟨e1, e2⟩ := emitted_prefix min (levelIn es0) prog hp sched i
    rw [← hw] at e1 e2
    rw [key] at h1 h3
    exact ⟨h1.trans e1, fun ht hi => by rw [h3 hi, e2 ht]⟩

/-- **C160**, at any moment. A listener is registered, configured and then left alone, the general level is set (history
`es0`); then any number of threads execute LOG and LOG_BLOCK statements and category changes, each message being passed to the log
system, in any interleaving of composing, queueing and dispatching. At every moment the file that the listener writes
consists of complete lines, and these are, shuffled, beginnings of what the threads' statements say: each thread's lines in the
order of its statements, none twice, none left out in between, none that no statement produced. -/
theorem C160_any_time (h0 : Exec rx (Falcon.Log.init n t b) s0 es0) (hsetup : ∀ i op, .call i op ∉ es0)
    (hadd : addCalls l es0 = 1) (hdet : detachedIn l es0 = false)
    (hp : ∀ i, Program (prog i)) (hrun : jrun rx min (start (levelIn es0) prog) s0 as = some (w, s, es1))
    (hlev : ∀ j v, .did j (.level v) ∉ es1) (ha : LeftAlone l es1)
    (sep : Char) (hm : ∀ i, ∀ m ∈ emitsAll min (levelIn es0) [] (prog i), Legible sep m)
    (o : OS) (ho : o.Plain) (he : o.text = []) (times : List Tm)
    (hl : times.length = (receivedBy l (es0 ++ es1)).length) (hv : ∀ x ∈ times, x.Valid) :
    ∃ lines, readFile (written sep o (times.zip (receivedBy l (es0 ++ es1)))).text = lines.map some ∧
      ShuffleOfPrefixes n (fun i => linesOf sep min (levelIn es0) (fun m => decide (WantsIn rx l es0 m)) (prog i)) lines := by
  obtain ⟨hall, htag, hacc⟩ := accepted_parts h0 hsetup hp hrun hlev
  have hm' : ∀ m ∈ Falcon.Log.accepted es1, Legible sep m := by
    intro m hmm
    rw [← tagged_snd] at hmm
    obtain ⟨p, hpm, rfl⟩ := List.mem_map.1 hmm
    refine hm p.1 _ ((hacc p.1).1.mem ?_)
    rw [← tagged_of]
    exact List.mem_map.2 ⟨p, List.mem_filter.2 ⟨hpm, by simp⟩, rfl⟩
  have hf := (Falcon.Log.C130_log_file hall hsetup hadd hdet ha sep o ho he times hl hv hm').1
  generalize readFile (written sep o (times.zip (receivedBy l (es0 ++ es1)))).text = file at hf ⊢
  generalize hW : (fun m => decide (WantsIn rx l es0 m)) = Wt at hf ⊢
  obtain ⟨k, hk⟩ : ∃ k, file = (((Falcon.Log.accepted es1).filter Wt).map (fun m => some (shouldSee sep m))).take k :=
    ⟨_, List.prefix_iff_eq_take.1 hf⟩
  let T := ((tagged es1).filter fun p => Wt p.2).take k
  have hT : ∀ p ∈ T, p.1 < n := fun p hp => htag p (List.mem_filter.1 (List.mem_of_mem_take hp)).1
  have hsnd : (T.map Prod.snd) = ((Falcon.Log.accepted es1).filter Wt).take k := by
    show (List.take k _).map _ = _
    rw [List.map_take]
    congr 1
    rw [← tagged_snd, List.filter_map]
    rfl
  refine ⟨(T.map Prod.snd).map (shouldSee sep), ?_, _, ?_, shuffle_map (shouldSee sep) T hT⟩
  · rw [hk, hsnd, ← List.map_take, List.map_map]; rfl
  · intro i _
    have h1 : T.filter (fun p => decide (p.1 = i)) <+: ((tagged es1).filter fun p => Wt p.2).filter fun p => decide (p.1 = i) :=
      (List.take_prefix k _).filter _
    have h2 : (((tagged es1).filter fun p => Wt p.2).filter fun p => decide (p.1 = i)).map Prod.snd
        = (Falcon.Log.acceptedBy i es1).filter Wt := by
      rw [← tagged_of, List.filter_map, List.filter_filter, List.filter_filter]
      congr 1
      apply List.filter_congr
      intro p _
      simp [Bool.and_comm, Function.comp_def]
    refine List.IsPrefix.map _ ?_
    have h3 := h1.map Prod.snd
    rw [h2] at h3
    exact h3.trans ((hacc i).1.filter Wt)

/-- **C160**. When all threads have executed all their statements and the log system has served every message, the file
consists of exactly the lines the statements ask for: a shuffle of the threads' complete lists of lines. -/
theorem C160_complete (h0 : Exec rx (Falcon.Log.init n t b) s0 es0) (hsetup : ∀ i op, .call i op ∉ es0)
    (hadd : addCalls l es0 = 1) (hdet : detachedIn l es0 = false)
    (hp : ∀ i, Program (prog i)) (hrun : jrun rx min (start (levelIn es0) prog) s0 as = some (w, s, es1))
    (hlev : ∀ j v, .did j (.level v) ∉ es1) (ha : LeftAlone l es1)
    (sep : Char) (hm : ∀ i, ∀ m ∈ emitsAll min (levelIn es0) [] (prog i), Legible sep m)
    (o : OS) (ho : o.Plain) (he : o.text = []) (times : List Tm)
    (hl : times.length = (receivedBy l (es0 ++ es1)).length) (hv : ∀ x ∈ times, x.Valid)
    (hdone : ∀ i, i < n → (w.th i).todo = [] ∧ s.cl[i]? = some .idle)
    (hserved : served (es0 ++ es1) = (Falcon.Log.accepted es1).length) :
    ∃ lines, readFile (written sep o (times.zip (receivedBy l (es0 ++ es1)))).text = lines.map some ∧
      Shuffle n (fun i => linesOf sep min (levelIn es0) (fun m => decide (WantsIn rx l es0 m)) (prog i)) lines := by
  obtain ⟨hall, htag, hacc⟩ := accepted_parts h0 hsetup hp hrun hlev
  have hm' : ∀ m ∈ Falcon.Log.accepted es1, Legible sep m := by
    intro m hmm
    rw [← tagged_snd] at hmm
    obtain ⟨p, hpm, rfl⟩ := List.mem_map.1 hmm
    refine hm p.1 _ ((hacc p.1).1.mem ?_)
    rw [← tagged_of]
    exact List.mem_map.2 ⟨p, List.mem_filter.2 ⟨hpm, by simp⟩, rfl⟩
  have hf := (Falcon.Log.C130_log_file hall hsetup hadd hdet ha sep o ho he times hl hv hm').2 hserved
  rw [hf]
  generalize (fun m => decide (WantsIn rx l es0 m)) = Wt
  have hT : ∀ p ∈ (tagged es1).filter fun p => Wt p.2, p.1 < n := fun p hp => htag p (List.mem_filter.1 hp).1
  have hsnd : (((tagged es1).filter fun p => Wt p.2).map Prod.snd) = (Falcon.Log.accepted es1).filter Wt := by
    rw [← tagged_snd, List.filter_map]
    rfl
  refine ⟨((Falcon.Log.accepted es1).filter Wt).map (shouldSee sep), by rw [List.map_map]; rfl, ?_⟩
  rw [← hsnd]
  obtain ⟨T, h1, h2, h3⟩ := shuffle_map (shouldSee sep) _ hT
  refine ⟨T, h1, h2, fun i hi => ?_⟩
  rw [h3 i hi]
  have hq := (hacc i).2 (hdone i hi).1 (hdone i hi).2
  show List.map _ (List.map _ _) = List.map _ (List.filter Wt (emitsAll min (levelIn es0) [] (prog i)))
  rw [← hq]
  congr 1
  rw [← tagged_of, List.filter_map, List.filter_filter, List.filter_filter]
  congr 1
  apply List.filter_congr
  intro p _
  simp [Bool.and_comm, Function.comp_def]

/-! ### a run that meets the hypotheses -/

/-- Two threads: three statements (one above the general level) and a LOG_BLOCK. -/
def demoProg : Nat → List Stm
  | 0 => [.log "a/b.cpp".toList 1 3 none [.text "n = ".toList, .num 12], .log "a/b.cpp".toList 2 4 none [.text "no".toList],
          .category "net".toList, .log "a/b.cpp".toList 3 2 none [.text "up".toList]]
  | 1 => [.block "c.cpp".toList 7 1 [.text "x".toList, .text "y".toList]]
  | _ => []

/-- The listener is number 7; the general level is 3. -/
def demoSetup : List Act := [.call 0 (.addListener 7), .call 1 (.level 3)]

/-- Thread 0 composes its first message, thread 1 composes and queues, ..., the logging thread serves. -/
def demoActs : List JAct :=
  List.replicate 4 (.compose 0) ++ List.replicate 5 (.compose 1) ++
  List.replicate 4 (.system (.cli 1)) ++ List.replicate 4 (.system (.cli 0)) ++
  List.replicate 7 (.compose 0) ++ List.replicate 11 (.system .log) ++ List.replicate 4 (.system (.cli 0)) ++
  List.replicate 22 (.system .log)

/-- Set-up and run, with what `C160_complete` asks for. -/
def demoRun : Option (List Ev × W × St × List Ev) :=
  (Falcon.Log.run Falcon.Log.demoRx (Falcon.Log.init 2 false true) demoSetup).bind fun r =>
    (jrun Falcon.Log.demoRx 5 (start 3 demoProg) r.1 demoActs).map fun q => (r.2, q.1, q.2.1, q.2.2)

example : demoRun.map (fun q => (levelIn q.1, addCalls 7 q.1, detachedIn 7 q.1,
    q.1.any (fun e => match e with | .call _ _ => true | _ => false))) = some (3, 1, false, false) := by decide +kernel
example : demoRun.map (fun q => q.2.2.2.all (fun e => match e with | .did _ _ => false | _ => true)) = some true := by decide +kernel
example : demoRun.map (fun q => ([0, 1].map fun i => (q.2.1.th i).todo.length, q.2.2.1.cl)) = some ([0, 0], [.idle, .idle]) := by
  decide +kernel
example : demoRun.map (fun q => (served (q.1 ++ q.2.2.2), (Falcon.Log.accepted q.2.2.2).length, (receivedBy 7 (q.1 ++ q.2.2.2)).length))
    = some (3, 3, 3) := by decide +kernel
example : ∀ i, Program (demoProg i) := by
  intro i s hs
  rcases i with _ | _ | i
  · simp [demoProg] at hs; rcases hs with rfl | rfl | rfl | rfl <;> exact ⟨by decide, by simp⟩
  · simp [demoProg] at hs; subst hs; exact ⟨by decide, by simp⟩
  · cases hs

/-- The file of this run: thread 1's line first, then thread 0's two lines. -/
example : demoRun.map (fun q => readFile (written '/' {} ((List.replicate 3 ⟨2020, 1, 2, 3, 4, 5⟩).zip (receivedBy 7 (q.1 ++ q.2.2.2)))).text)
    = some [some ⟨"ERR ".toList, [], "c.cpp".toList, 7, "xy".toList⟩, some ⟨"INFO".toList, [], "b.cpp".toList, 1, "n = 12".toList⟩,
            some ⟨"WARN".toList, "net".toList, "b.cpp".toList, 3, "up".toList⟩] := by decide +kernel

end Falcon.LoggerJoint
