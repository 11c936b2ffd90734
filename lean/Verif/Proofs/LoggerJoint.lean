import Verif.Spec.LoggerJoint
import Verif.Props.LogFile
import Verif.Props.Logger
import Verif.Proofs.LogFairStop
/-
Helper lemmas for threads that log through the log system.
-/
namespace Falcon.LoggerJoint
open Falcon.Log (St Ev Act Rx Msg Str LId Exec)
open Falcon.Logger (W Th Stm emitsAll outOf runS Ready Piece)

/-- Operations that are parts of statements. -/
def isPart : Logger.Op → Bool
  | .put _ => true
  | .putCat _ => true
  | .lput _ => true
  | _ => false

/-- Operations that do not change the general level. -/
def keepsLevel : Logger.Op → Bool
  | .level _ => false
  | .log _ _ _ ps => ps.all isPart
  | .block _ _ _ ps _ => ps.all isPart
  | .blockTest _ _ ps _ => ps.all isPart
  | _ => true

theorem keeps_of_part {o : Logger.Op} (h : isPart o = true) : keepsLevel o = true := by
  cases o <;> simp_all [isPart, keepsLevel]

def Steady (t : Th) : Prop := ∀ o ∈ t.todo, keepsLevel o = true

theorem steady_parts {ps rest : List Logger.Op} (hp : ps.all isPart = true) (hr : ∀ o ∈ rest, keepsLevel o = true) :
    ∀ o ∈ ps ++ rest, keepsLevel o = true := by
  intro o ho
  rcases List.mem_append.1 ho with h | h
  · exact keeps_of_part (List.all_eq_true.1 hp o h)
  · exact hr o h

/-- One step: the level stays, at most one message comes out, the threads stay steady. -/
theorem step_steady (min : Int) (w : W) (i : Nat) (h : Steady (w.th i)) :
    (Logger.step min w i).level = w.level ∧ Steady ((Logger.step min w i).th i) ∧
    ((Logger.step min w i).out = w.out ∨ ∃ m, (Logger.step min w i).out = w.out ++ [(i, m)]) := by
  have a : ∀ t : Th, Steady t → (Logger.setTh w i t).level = w.level ∧ Steady ((Logger.setTh w i t).th i) ∧
      ((Logger.setTh w i t).out = w.out ∨ ∃ m, (Logger.setTh w i t).out = w.out ++ [(i, m)]) := by
    intro t ht
    exact ⟨rfl, by simpa [Logger.setTh] using ht, .inl rfl⟩
  have c : ∀ t : Th, Steady t → (Logger.commit w i t).level = w.level ∧ Steady ((Logger.commit w i t).th i) ∧
      ((Logger.commit w i t).out = w.out ∨ ∃ m, (Logger.commit w i t).out = w.out ++ [(i, m)]) := by
    intro t ht
    have ht' : ∀ tl, Steady { t with tls := tl } := fun _ => ht
    simp only [Logger.commit]
    split
    · exact a _ (ht' _)
    · exact ⟨rfl, (a _ (ht' _)).2.1, .inr ⟨_, rfl⟩⟩
  cases htd : (w.th i).todo with
  | nil => simp only [Logger.step, htd]; exact ⟨trivial, h, .inl trivial⟩
  | cons op rest =>
    have ho : keepsLevel op = true := h op (by rw [htd]; simp)
    have hr : ∀ o ∈ rest, keepsLevel o = true := fun o ho => h o (by rw [htd]; simp [ho])
    have hend : ∀ o ∈ (Logger.Op.autoEnd :: rest), keepsLevel o = true := by
      intro o ho
      rcases List.mem_cons.1 ho with rfl | ho
      · rfl
      · exact hr o ho
    simp only [Logger.step, htd]
    cases op with
    | log f l lvl ps =>
      dsimp only
      split <;> exact a _ (steady_parts ho hend)
    | put p => dsimp only; split <;> exact a _ hr
    | putCat p => dsimp only; split <;> exact a _ hr
    | autoEnd =>
      dsimp only
      split
      · exact c _ hr
      · exact a _ hr
    | block f l lvl ps e =>
      dsimp only
      have : ∀ ok, ∀ o ∈ (Logger.Op.blockTest ok lvl ps e :: rest), keepsLevel o = true := by
        intro ok o ho'
        rcases List.mem_cons.1 ho' with rfl | ho'
        · exact ho
        · exact hr o ho'
      split <;> exact a _ (this _)
    | blockTest ok lvl ps e =>
      dsimp only
      split
      · refine a _ (steady_parts ho ?_)
        intro o ho'
        cases e
        · rcases List.mem_cons.1 ho' with rfl | ho'
          · rfl
          · exact hr o ho'
        · exact hr o ho'
      · exact a _ hr
    | complete => exact c _ hr
    | lput p => exact a _ hr
    | categoryMacro cc => dsimp only; split <;> exact a _ hr
    | setCategory cc => exact a _ hr
    | setTemp cc => exact a _ hr
    | level n => cases ho

theorem run_steady (min : Int) (sched : List Nat) : ∀ (w : W), (∀ i, Steady (w.th i)) →
    (∀ i, Steady ((runS min w sched).th i)) ∧ (runS min w sched).level = w.level := by
  induction sched with
  | nil => intro w h; exact ⟨h, rfl⟩
  | cons j js ih =>
    intro w h
    obtain ⟨h1, h2, -⟩ := step_steady min w j (h j)
    obtain ⟨h3, h4⟩ := ih (Logger.step min w j) (fun i => by
      by_cases e : i = j
      · rw [e]; exact h2
      · rw [(Logger.step_other e).1]; exact h i)
    exact ⟨h3, h4.trans h1⟩

/-- under any interleaving a thread is where it would be alone -/
theorem alone (min : Int) (i : Nat) (sched : List Nat) : ∀ (w v : W), (∀ j, Steady (w.th j)) → (∀ j, Steady (v.th j)) →
    w.level = v.level → w.th i = v.th i → outOf w i = outOf v i →
    (runS min w sched).th i = (runS min v (List.replicate (sched.count i) i)).th i ∧
    outOf (runS min w sched) i = outOf (runS min v (List.replicate (sched.count i) i)) i := by
  induction sched with
  | nil => intro w v _ _ _ h1 h2; exact ⟨h1, h2⟩
  | cons j js ih =>
    intro w v hw hv hl h1 h2
    obtain ⟨l1, s1, -⟩ := step_steady min w j (hw j)
    have hw' : ∀ k, Steady ((Logger.step min w j).th k) := fun k => by
      by_cases e : k = j
      · rw [e]; exact s1
      · rw [(Logger.step_other e).1]; exact hw k
    by_cases hj : j = i
    · subst hj
      obtain ⟨a, b⟩ := Logger.step_local (min := min) h1 h2
      have ev : ({ v with level := w.level } : W) = v := by rw [hl]
      rw [ev] at a b
      obtain ⟨l2, s2, -⟩ := step_steady min v j (hv j)
      have hv' : ∀ k, Steady ((Logger.step min v j).th k) := fun k => by
        by_cases e : k = j
        · rw [e]; exact s2
        · rw [(Logger.step_other e).1]; exact hv k
      have := ih _ _ hw' hv' (by rw [l1, l2, hl]) a b
      rw [List.count_cons_self, List.replicate_succ]
      exact this
    · obtain ⟨a, b⟩ := Logger.step_other (min := min) (w := w) (i := i) (j := j) (Ne.symm hj)
      have := ih _ v hw' hv (l1.trans hl) (a.trans h1) (b.trans h2)
      rw [List.count_cons_of_ne hj]
      exact this

theorem outOf_step (min : Int) (w : W) (i j : Nat) (h : Steady (w.th j)) : outOf w i <+: outOf (Logger.step min w j) i := by
  rcases (step_steady min w j h).2.2 with e | ⟨m, e⟩
  · rw [outOf, outOf, e]; exact List.prefix_refl _
  · rw [outOf, outOf, e, List.filter_append, List.map_append]; exact List.prefix_append _ _

theorem outOf_mono (min : Int) (i : Nat) (sched : List Nat) : ∀ (w : W), (∀ j, Steady (w.th j)) →
    outOf w i <+: outOf (runS min w sched) i := by
  induction sched with
  | nil => intro w _; exact List.prefix_refl _
  | cons j js ih =>
    intro w h
    have s1 := (run_steady min [j] w h).1
    exact (outOf_step min w i j (h j)).trans (ih _ s1)

theorem done_stays (min : Int) (i : Nat) (k : Nat) (w : W) (h : (w.th i).todo = []) : runS min w (List.replicate k i) = w := by
  induction k with
  | zero => rfl
  | succ k ih =>
    have : Logger.step min w i = w := by simp only [Logger.step, h]
    rw [List.replicate_succ]
    show runS min (Logger.step min w i) _ = w
    rw [this, ih]

theorem start_steady (lv : Int) (prog : Nat → List Stm) (hp : ∀ i, Program (prog i)) (i : Nat) : Steady ((start lv prog).th i) := by
  intro o ho
  have ho' : o ∈ (prog i).map Stm.toOp := ho
  obtain ⟨s, hs, rfl⟩ := List.mem_map.1 ho'
  have hn := (hp i s hs).2
  have put : ∀ ps : List Piece, (ps.map Logger.Op.put).all isPart = true := fun ps => by simp [isPart, List.all_map]
  have lput : ∀ ps : List Piece, (ps.map Logger.Op.lput).all isPart = true := fun ps => by simp [isPart, List.all_map]
  cases s with
  | log f l lvl tc ps =>
    cases tc with
    | none => exact put ps
    | some c =>
      show ((Logger.Op.putCat c :: ps.map Logger.Op.put).all isPart) = true
      simp only [List.all_cons, put ps, isPart, Bool.and_self]
  | block f l lvl ps => exact lput ps
  | category c => rfl
  | level n => exact absurd rfl (hn n)

/-- What a thread has emitted is a beginning of what its statements say, and all of it when it has finished. -/
theorem emitted_prefix (min lv : Int) (prog : Nat → List Stm) (hp : ∀ i, Program (prog i)) (sched : List Nat) (i : Nat) :
    outOf (runS min (start lv prog) sched) i <+: emitsAll min lv [] (prog i) ∧
    (((runS min (start lv prog) sched).th i).todo = [] →
      outOf (runS min (start lv prog) sched) i = emitsAll min lv [] (prog i)) := by
  have st := start_steady lv prog hp
  obtain ⟨h1, h2⟩ := alone min i sched (start lv prog) (start lv prog) st st rfl rfl rfl
  obtain ⟨w', ⟨k', hk⟩, hout, htodo, -⟩ := Logger.C56_statements min (start lv prog) i (prog i) [] (fun s hs => (hp i s hs).1)
    (by simp [start]) ⟨rfl, rfl, rfl, rfl⟩
  have hfull : outOf w' i = emitsAll min lv [] (prog i) := by
    rw [outOf, hout]
    show ((([] : List (Nat × Msg)) ++ _).filter _).map _ = _
    have e : ∀ ms : List Msg, ((ms.map fun m => (i, m)).filter fun p => p.1 = i).map Prod.snd = ms := by
      intro ms; induction ms with
      | nil => rfl
      | cons m ms ih => simp [ih]
    exact e (emitsAll min lv [] (prog i))
  have app : ∀ a b : Nat, runS min (start lv prog) (List.replicate (a + b) i)
      = runS min (runS min (start lv prog) (List.replicate a i)) (List.replicate b i) := by
    intro a b
    rw [← List.replicate_append_replicate]
    exact List.foldl_append
  rw [h2, h1, ← hfull]
  generalize sched.count i = k
  rcases Nat.le_total k k' with hle | hle
  · obtain ⟨d, rfl⟩ : ∃ d, k' = k + d := ⟨k' - k, by omega⟩
    rw [app] at hk
    have st' := (run_steady min (List.replicate k i) _ st).1
    refine ⟨by rw [← hk]; exact outOf_mono min i _ _ st', fun ht => ?_⟩
    rw [done_stays min i d _ ht] at hk
    rw [hk]
  · obtain ⟨d, rfl⟩ : ∃ d, k = k' + d := ⟨k - k', by omega⟩
    rw [app, hk, done_stays min i d w' htodo]
    exact ⟨List.prefix_refl _, fun _ => rfl⟩

/-! ### the log system's side -/

/-- The messages with which thread `i` called log. -/
def logCalls (i : Nat) (es : List Ev) : List Msg :=
  es.filterMap fun | .call j (.log m) => if j = i then some m else none | _ => none

theorem logCalls_append (i : Nat) (a b : List Ev) : logCalls i (a ++ b) = logCalls i a ++ logCalls i b := by
  unfold logCalls; exact List.filterMap_append

/-- only calls of log are seen as such -/
theorem silent_system {rx : Rx} {s s' : St} {a : Act} {e : Ev} (h : Falcon.Log.step rx s a = some (s', e)) (ha : callsLog a = false) :
    (∀ i m, e ≠ .call i (.log m)) ∧ ∀ i m, e ≠ .call i (.logPtr m) := by
  cases a with
  | call j op =>
    simp only [Falcon.Log.step] at h
    split at h
    · cases op with
      | log m => cases ha
      | logPtr m => cases ha
      | stop => simp only [Falcon.Log.beginCall] at h; cases h; simp
      | category l re => simp only [Falcon.Log.beginCall] at h; split at h <;> cases h <;> simp
      | start =>
        simp only [Falcon.Log.beginCall] at h
        split at h
        · cases h
        · split at h <;> cases h <;> simp
      | _ => simp only [Falcon.Log.beginCall] at h; cases h; simp
    · cases h
  | cli j =>
    simp only [Falcon.Log.step] at h
    split at h
    · rename_i pc _
      cases pc with
      | idle => cases h
      | check m => simp only [Falcon.Log.resume] at h; split at h <;> cases h <;> simp
      | construct m a => simp only [Falcon.Log.resume] at h; split at h <;> cases h <;> simp
      | stopLock =>
        simp only [Falcon.Log.resume] at h
        split at h
        · cases h
        · split at h <;> cases h <;> simp
      | stopJoin => simp only [Falcon.Log.resume] at h; split at h <;> cases h <;> simp
      | _ => simp only [Falcon.Log.resume] at h; cases h; simp
    · cases h
  | log =>
    simp only [Falcon.Log.step] at h
    have hd : ∀ s : St, (∀ i m, (Falcon.Log.head s).2 ≠ .call i (.log m)) ∧ ∀ i m, (Falcon.Log.head s).2 ≠ .call i (.logPtr m) := by
      intro s; simp only [Falcon.Log.head]; split <;> simp
    unfold Falcon.Log.logStep at h
    split at h
    · cases h
    · cases h
    · have h' := hd s; rw [Option.some.inj h] at h'; exact h'
    · have h' := hd s; rw [Option.some.inj h] at h'; exact h'
    · cases h
    · split at h <;> cases h <;> simp
    · cases h; simp
    · split at h <;> cases h <;> simp
    · split at h
      · cases h; simp
      · split at h <;> cases h <;> simp
    · cases h; simp
    · cases h; simp
    · simp only [Falcon.Log.dispose] at h
      split at h
      · cases h; simp
      · split at h <;> cases h <;> simp
  | spurious =>
    simp only [Falcon.Log.step] at h
    split at h <;> cases h
    simp

theorem logCalls_silent {e : Ev} (h : ∀ i m, e ≠ .call i (.log m)) (i : Nat) : logCalls i [e] = [] := by
  cases e with
  | call j op => cases op with
    | log m => exact absurd rfl (h j m)
    | _ => rfl
  | _ => rfl

/-- A joint run, taken apart. -/
theorem jrun_parts {rx : Rx} {min : Int} (as : List JAct) : ∀ {w w' : W} {s s' : St} {es : List Ev},
    (∀ i, Steady (w.th i)) → jrun rx min w s as = some (w', s', es) →
    ∃ sched, w' = runS min w sched ∧ Exec rx s s' es ∧ (∀ i, outOf w' i = outOf w i ++ logCalls i es) ∧
      (∀ i m, .call i (.logPtr m) ∉ es) ∧ ∀ i, logCalls i es ≠ [] → i < s.cl.length := by
  induction as with
  | nil =>
    intro w w' s s' es _ h
    cases h
    exact ⟨[], rfl, .nil, fun i => by simp [logCalls], by simp, fun i h => absurd rfl h⟩
  | cons a as ih =>
    intro w w' s s' es hs h
    simp only [jrun] at h
    split at h
    · cases h
    · rename_i w1 s1 e1 h1
      split at h
      · cases h
      · rename_i w2 s2 es2 h2
        cases h
        cases a with
        | compose i =>
          simp only [jstep] at h1
          split at h1
          · rename_i hidle
            have hlt : i < s.cl.length := (List.getElem?_eq_some_iff.1 hidle).1
            have hss := (run_steady min [i] w hs).1
            have hcase := (step_steady min w i (hs i)).2.2
            split at h1
            · rename_i hdrop
              cases h1
              obtain ⟨sched, hw, hx, ho, hp, hl⟩ := ih (w := Logger.step min w i) hss h2
              refine ⟨i :: sched, hw, hx, fun j => ?_, hp, hl⟩
              rw [ho j]
              rcases hcase with e | ⟨m, e⟩
              · rw [List.nil_append, outOf, outOf, e]
              · rw [e, List.drop_append_of_le_length (Nat.le_refl _)] at hdrop
                simp at hdrop
            · rename_i m _ hdrop
              split at h1
              · cases h1
              · rename_i s3 e3 hst
                cases h1
                obtain ⟨sched, hw, hx, ho, hp, hl⟩ := ih (w := Logger.step min w i) hss h2
                have hout : (Logger.step min w i).out = w.out ++ [(i, m)] := by
                  rcases hcase with e | ⟨m', e⟩
                  · rw [e] at hdrop; simp at hdrop
                  · rw [e, List.drop_append_of_le_length (Nat.le_refl _)] at hdrop
                    simp at hdrop
                    rw [e, hdrop.1.2]
                have he3 : e3 = .call i (.log m) ∧ s1.cl.length = s.cl.length := by
                  simp only [Falcon.Log.step, hidle, Falcon.Log.beginCall] at hst
                  cases hst
                  exact ⟨rfl, by simp⟩
                obtain ⟨rfl, hlen⟩ := he3
                refine ⟨i :: sched, hw, ?_, fun j => ?_, ?_, ?_⟩
                · exact Falcon.Log.Exec.append (.snoc .nil hst) hx
                · rw [ho j, logCalls_append, ← List.append_assoc]
                  congr 1
                  rw [outOf, outOf, hout, List.filter_append, List.map_append]
                  congr 1
                  by_cases hj : i = j
                  · subst hj; simp [logCalls]
                  · simp [logCalls, hj]
                · intro j m' hm'
                  rcases List.mem_append.1 hm' with h | h
                  · simp at h
                  · exact hp j m' h
                · intro j hj
                  by_cases hji : j = i
                  · rw [hji]; exact hlt
                  · rw [logCalls_append] at hj
                    have : logCalls j [Ev.call i (.log m)] = [] := by simp [logCalls, Ne.symm hji]
                    rw [this, List.nil_append] at hj
                    have := hl j hj
                    omega
          · cases h1
        | system a =>
          simp only [jstep] at h1
          split at h1
          · cases h1
          · rename_i hc
            split at h1
            · cases h1
            · rename_i s3 e3 hst
              cases h1
              obtain ⟨q1, q2⟩ := silent_system hst (by simpa using hc)
              obtain ⟨sched, hw, hx, ho, hp, hl⟩ := ih hs h2
              have hlen := Falcon.Log.step_length (Falcon.Log.step_rel hst)
              refine ⟨sched, hw, Falcon.Log.Exec.append (.snoc .nil hst) hx, fun j => ?_, ?_, ?_⟩
              · rw [ho j, logCalls_append, logCalls_silent q1, List.nil_append]
              · intro j m' hm'
                rcases List.mem_append.1 hm' with h | h
                · rw [List.mem_singleton] at h
                  exact q2 j m' h.symm
                · exact hp j m' h
              · intro j hj
                rw [logCalls_append, logCalls_silent q1, List.nil_append] at hj
                have := hl j hj
                omega

/-- what thread `i` logged, for a fixed level -/
theorem loggedBy_eq (i : Nat) (v : Int) (es : List Ev) (h : ∀ i m, .call i (.logPtr m) ∉ es) :
    Falcon.Log.loggedBy i v es = (logCalls i es).filter fun m => m.level ≤ v := by
  induction es with
  | nil => rfl
  | cons e es ih =>
    have ih := ih (fun i m hm => h i m (by simp [hm]))
    have e1 : Falcon.Log.loggedBy i v (e :: es) = Falcon.Log.loggedBy i v [e] ++ Falcon.Log.loggedBy i v es := by
      unfold Falcon.Log.loggedBy; rw [← List.filterMap_append]; rfl
    have e2 : logCalls i (e :: es) = logCalls i [e] ++ logCalls i es := logCalls_append i [e] es
    rw [e1, e2, List.filter_append, ih]
    congr 1
    cases e with
    | call j op =>
      cases op with
      | log m =>
        by_cases hj : j = i
        · by_cases hv : m.level ≤ v <;> simp [Falcon.Log.loggedBy, logCalls, hj, hv]
        · simp [Falcon.Log.loggedBy, logCalls, hj]
      | logPtr m => exact absurd List.mem_cons_self (h j m)
      | _ => rfl
    | _ => rfl

/-- statements emit nothing above the general level -/
theorem emits_level (min : Int) (ss : List Stm) : ∀ (lv : Int) (cat : Str), (∀ s ∈ ss, ∀ n, s ≠ .level n) →
    ∀ m ∈ emitsAll min lv cat ss, m.level ≤ lv := by
  induction ss with
  | nil => intro lv cat _ m hm; cases hm
  | cons s ss ih =>
    intro lv cat h m hm
    simp only [emitsAll] at hm
    have hnl : s.newLevel lv = lv := by
      cases s with
      | level n => exact absurd rfl (h _ List.mem_cons_self n)
      | _ => rfl
    rcases List.mem_append.1 hm with hm | hm
    · cases s with
      | log f l lvl tc ps =>
        simp only [Stm.emits] at hm
        split at hm
        · rename_i hh; simp at hm; rw [hm]; exact hh.2
        · cases hm
      | block f l lvl ps =>
        simp only [Stm.emits] at hm
        split at hm
        · rename_i hh; simp at hm; rw [hm]; exact hh.2
        · cases hm
      | category c => cases hm
      | level n => cases hm
    · rw [hnl] at hm
      exact ih lv _ (fun s hs => h s (by simp [hs])) m hm

/-- The accepted messages with the threads they come from. -/
def tagged (es : List Ev) : List (Nat × Msg) := es.filterMap fun | .accept i m => some (i, m) | _ => none

theorem tagged_snd (es : List Ev) : (tagged es).map Prod.snd = Falcon.Log.accepted es := by
  unfold tagged Falcon.Log.accepted
  rw [List.map_filterMap]
  congr 1
  funext e
  cases e <;> rfl

theorem tagged_of (es : List Ev) (i : Nat) : ((tagged es).filter fun p => p.1 = i).map Prod.snd = Falcon.Log.acceptedBy i es := by
  induction es with
  | nil => rfl
  | cons e es ih =>
    unfold tagged Falcon.Log.acceptedBy at ih ⊢
    cases e with
    | accept j m =>
      by_cases h : j = i
      · subst h; simpa using ih
      · simpa [h] using ih
    | _ => simpa using ih

end Falcon.LoggerJoint
