import Verif.Spec.LoggerLive
import Verif.Props.LoggerJoint
import Verif.Proofs.LogFair
/-
Helper lemmas for endless joint executions.
-/
namespace Falcon.LoggerJoint
open Falcon.Log (St Ev Act Rx Msg Str LId Exec CPc forever Often)
open Falcon.Logger (W Th Stm emitsAll outOf runS)

variable {rx : Rx} {min : Int}

/-! ### a thread's remaining work -/

def size : Logger.Op → Nat
  | .log _ _ _ ps => 2 + ps.length
  | .block _ _ _ ps _ => 3 + ps.length
  | .blockTest _ _ ps _ => 2 + ps.length
  | _ => 1

def workOf (os : List Logger.Op) : Nat := (os.map size).sum

theorem size_part {o : Logger.Op} (h : isPart o = true) : size o = 1 := by
  cases o <;> simp_all [isPart, size]

theorem workOf_append (a b : List Logger.Op) : workOf (a ++ b) = workOf a + workOf b := by
  simp [workOf]

theorem workOf_parts {ps : List Logger.Op} (h : ps.all isPart = true) : workOf ps = ps.length := by
  induction ps with
  | nil => rfl
  | cons p ps ih =>
    simp only [List.all_cons, Bool.and_eq_true] at h
    have := ih h.2
    simp only [workOf, List.map_cons, List.sum_cons, List.length_cons, size_part h.1] at this ⊢
    omega

theorem workOf_pos {os : List Logger.Op} (h : os ≠ []) : 0 < workOf os := by
  cases os with
  | nil => exact absurd rfl h
  | cons o os =>
    have : 0 < size o := by cases o <;> simp only [size] <;> omega
    simp only [workOf, List.map_cons, List.sum_cons]; omega

theorem setTh_todo (w : W) (i : Nat) (t : Th) : ((Logger.setTh w i t).th i).todo = t.todo := by simp [Logger.setTh]
theorem commit_todo (w : W) (i : Nat) (t : Th) : ((Logger.commit w i t).th i).todo = t.todo := by
  simp only [Logger.commit]; split <;> simp [Logger.setTh]

/-- a step of a thread with statements before it brings it closer to its end -/
theorem work_step (w : W) (i : Nat) (h : Steady (w.th i)) (hne : (w.th i).todo ≠ []) :
    workOf ((Logger.step min w i).th i).todo < workOf (w.th i).todo := by
  cases htd : (w.th i).todo with
  | nil => exact absurd htd hne
  | cons op rest =>
    have ho : keepsLevel op = true := h op (by rw [htd]; simp)
    have hc : ∀ o os, workOf (o :: os) = size o + workOf os := fun o os => by simp [workOf]
    rw [hc]
    simp only [Logger.step, htd]
    cases op with
    | log f l lvl ps =>
      have := workOf_parts ho
      dsimp only
      split <;> (rw [setTh_todo]; simp only [workOf_append, hc, size]; omega)
    | put p => dsimp only; split <;> (rw [setTh_todo]; simp only [size]; omega)
    | putCat p => dsimp only; split <;> (rw [setTh_todo]; simp only [size]; omega)
    | autoEnd =>
      dsimp only
      split
      · rw [commit_todo]; simp only [size]; omega
      · rw [setTh_todo]; simp only [size]; omega
    | block f l lvl ps e =>
      dsimp only
      split <;> (rw [setTh_todo]; simp only [hc, size]; omega)
    | blockTest ok lvl ps e =>
      have := workOf_parts ho
      dsimp only
      split
      · rw [setTh_todo]
        cases e <;> simp only [workOf_append, hc, size, if_true, Bool.false_eq_true, if_false] <;> omega
      · rw [setTh_todo]; simp only [size]; omega
    | complete => dsimp only; rw [commit_todo]; simp only [size]; omega
    | lput p => dsimp only; rw [setTh_todo]; simp only [size]; omega
    | categoryMacro cc => dsimp only; split <;> (rw [setTh_todo]; simp only [size]; omega)
    | setCategory cc => dsimp only; rw [setTh_todo]; simp only [size]; omega
    | setTemp cc => dsimp only; rw [setTh_todo]; simp only [size]; omega
    | level n => cases ho

/-! ### a thread's call of log -/

/-- Moves a call of log needs to its end. -/
def left : CPc → Nat
  | .idle => 0
  | .enqueue _ _ => 1
  | .construct _ _ => 2
  | .alloc _ => 3
  | .check _ => 4
  | _ => 5

/-- Nobody is inside stop() or has passed a message object of his own. -/
def Simple (s : St) : Prop := ∀ (i : Nat) (pc : CPc), s.cl[i]? = some pc → left pc < 5

theorem Simple.set {s : St} (h : Simple s) {i : Nat} {pc : CPc} (hp : left pc < 5) :
    ∀ (j : Nat) (pc' : CPc), (s.cl.set i pc)[j]? = some pc' → left pc' < 5 := by
  intro j pc' hj
  rcases Falcon.Log.set_get? hj with ⟨-, rfl⟩ | ⟨-, hj'⟩
  · exact hp
  · exact h j pc' hj'

/-- a call of log goes on -/
theorem client_moves {s : St} {es : List Ev} (hm : Falcon.Log.Mem s es) (hs : Simple s) {i : Nat} {pc : CPc}
    (hi : s.cl[i]? = some pc) (hne : pc ≠ .idle) :
    ∃ s' e pc', Falcon.Log.step rx s (.cli i) = some (s', e) ∧ s'.cl = s.cl.set i pc' ∧ left pc' < left pc := by
  have h5 := hs i pc hi
  simp only [Falcon.Log.step, hi]
  cases pc with
  | idle => exact absurd rfl hne
  | check m =>
    simp only [Falcon.Log.resume]
    split
    · exact ⟨_, _, .idle, rfl, rfl, by simp [left]⟩
    · exact ⟨_, _, .alloc m, rfl, rfl, by simp [left]⟩
  | alloc m =>
    simp only [Falcon.Log.resume]
    refine ⟨_, _, .construct m (Falcon.Log.allocate s).2, rfl, ?_, by simp [left]⟩
    simp only [Falcon.Log.allocate]
    split <;> rfl
  | construct m a =>
    have hal : s.heap a ≠ none := by
      obtain ⟨m', hm'⟩ := (hm.notqueue_of_cl (a := a) hi (by simp [Falcon.Log.cHolds])).2.2.1
      simp [hm']
    simp only [Falcon.Log.resume]
    cases hh : s.heap a with
    | none => exact absurd hh hal
    | some m' => exact ⟨_, _, .enqueue m a, rfl, rfl, by simp [left]⟩
  | enqueue m a => simp only [Falcon.Log.resume]; exact ⟨_, _, .idle, rfl, rfl, by simp [left]⟩
  | extNew m => simp [left] at h5
  | stopSet => simp [left] at h5
  | stopNotify => simp [left] at h5
  | stopLock => simp [left] at h5
  | stopJoin => simp [left] at h5

/-- other moves leave the calls alone -/
theorem others_aside {s s' : St} {a : Act} {e : Ev} (h : Falcon.Log.step rx s a = some (s', e)) (ha : callsLog a = false)
    (hstop : ∀ i, a ≠ .call i .stop) (hcli : ∀ i, a ≠ .cli i) : s'.cl = s.cl := by
  cases a with
  | call j op =>
    simp only [Falcon.Log.step] at h
    split at h
    · cases op with
      | log m => cases ha
      | logPtr m => cases ha
      | stop => exact absurd rfl (hstop j)
      | category l re => simp only [Falcon.Log.beginCall] at h; split at h <;> cases h <;> rfl
      | start =>
        simp only [Falcon.Log.beginCall] at h
        split at h
        · cases h
        · split at h <;> cases h <;> rfl
      | _ => simp only [Falcon.Log.beginCall] at h; cases h; rfl
    · cases h
  | cli j => exact absurd rfl (hcli j)
  | log =>
    simp only [Falcon.Log.step] at h
    have hd : ∀ s : St, (Falcon.Log.head s).1.cl = s.cl := by
      intro s; simp only [Falcon.Log.head]; split <;> rfl
    unfold Falcon.Log.logStep at h
    split at h
    · cases h
    · cases h
    · have h' := hd s; rw [Option.some.inj h] at h'; exact h'
    · have h' := hd s; rw [Option.some.inj h] at h'; exact h'
    · cases h
    · split at h <;> cases h <;> rfl
    · cases h; rfl
    · split at h <;> cases h <;> rfl
    · split at h
      · cases h; rfl
      · split at h <;> cases h <;> rfl
    · cases h; rfl
    · cases h; rfl
    · simp only [Falcon.Log.dispose] at h
      split at h
      · cases h; rfl
      · split at h <;> cases h <;> rfl
  | spurious =>
    simp only [Falcon.Log.step] at h
    split at h <;> cases h
    rfl

/-! ### endless executions -/

variable {w0 : W} {s0 : St} {g : Nat → JAct}

theorem jforever_succ (k : Nat) :
    (jstep rx min (jforever rx min w0 s0 g k).1 (jforever rx min w0 s0 g k).2.1 (g k) = none ∧
      jforever rx min w0 s0 g (k + 1) = jforever rx min w0 s0 g k) ∨
    ∃ w' s' e, jstep rx min (jforever rx min w0 s0 g k).1 (jforever rx min w0 s0 g k).2.1 (g k) = some (w', s', e) ∧
      jforever rx min w0 s0 g (k + 1) = (w', s', (jforever rx min w0 s0 g k).2.2 ++ e) := by
  simp only [jforever]
  cases h : jstep rx min (jforever rx min w0 s0 g k).1 (jforever rx min w0 s0 g k).2.1 (g k) with
  | none => exact Or.inl ⟨rfl, rfl⟩
  | some p => exact Or.inr ⟨p.1, p.2.1, p.2.2, rfl, rfl⟩

theorem jrun_snoc (as : List JAct) : ∀ {w w1 w2 : W} {s s1 s2 : St} {es e : List Ev} {a : JAct},
    jrun rx min w s as = some (w1, s1, es) → jstep rx min w1 s1 a = some (w2, s2, e) →
    jrun rx min w s (as ++ [a]) = some (w2, s2, es ++ e) := by
  induction as with
  | nil => intro w w1 w2 s s1 s2 es e a h h'; cases h; simp [jrun, h']
  | cons b as ih =>
    intro w w1 w2 s s1 s2 es e a h h'
    simp only [jrun] at h
    split at h
    · cases h
    · rename_i w3 s3 e3 h3
      split at h
      · cases h
      · rename_i w4 s4 e4 h4
        cases h
        simp only [List.cons_append, jrun, h3, ih h4 h', List.append_assoc]

theorem jforever_run (k : Nat) : ∃ as, jrun rx min w0 s0 as = some (jforever rx min w0 s0 g k) := by
  induction k with
  | zero => exact ⟨[], rfl⟩
  | succ k ih =>
    obtain ⟨as, ha⟩ := ih
    rcases jforever_succ (rx := rx) (min := min) (w0 := w0) (s0 := s0) (g := g) k with ⟨-, h⟩ | ⟨w', s', e, h1, h2⟩
    · exact ⟨as, by rw [h]; exact ha⟩
    · exact ⟨as ++ [g k], by rw [h2]; exact jrun_snoc as ha h1⟩

theorem jforever_prefix {k k' : Nat} (h : k ≤ k') : (jforever rx min w0 s0 g k).2.2 <+: (jforever rx min w0 s0 g k').2.2 := by
  induction k' with
  | zero => have : k = 0 := by omega
            subst this; exact List.prefix_refl _
  | succ k' ih =>
    by_cases hk : k = k' + 1
    · subst hk; exact List.prefix_refl _
    · refine (ih (by omega)).trans ?_
      rcases jforever_succ (rx := rx) (min := min) (w0 := w0) (s0 := s0) (g := g) k' with ⟨-, h⟩ | ⟨w', s', e, h1, h2⟩
      · rw [h]; exact List.prefix_refl _
      · rw [h2]; exact List.prefix_append _ _

/-- what somebody did, he was chosen to do -/
theorem jforever_did (k : Nat) : ∀ i op, (.did i op ∈ (jforever rx min w0 s0 g k).2.2 ∨
      (op = .stop ∧ .call i op ∈ (jforever rx min w0 s0 g k).2.2)) → ∃ k', g k' = .system (.call i op) := by
  induction k with
  | zero => intro i op h; rcases h with h | ⟨-, h⟩ <;> cases h
  | succ k ih =>
    intro i op h
    rcases jforever_succ (rx := rx) (min := min) (w0 := w0) (s0 := s0) (g := g) k with ⟨-, h'⟩ | ⟨w', s', e, h1, h2⟩
    · rw [h'] at h; exact ih i op h
    · rw [h2] at h
      have hnew : (Ev.did i op ∈ e ∨ (op = .stop ∧ Ev.call i op ∈ e)) → g k = .system (.call i op) := by
        intro he
        generalize (jforever rx min w0 s0 g k).2.1 = s at h1
        generalize (jforever rx min w0 s0 g k).1 = w at h1
        cases hg : g k with
        | compose j =>
          rw [hg] at h1
          simp only [jstep] at h1
          split at h1
          · rename_i hidle
            split at h1
            · cases h1; rcases he with he | ⟨-, he⟩ <;> cases he
            · split at h1
              · cases h1
              · rename_i s3 e3 hst
                cases h1
                simp only [Falcon.Log.step, hidle, Falcon.Log.beginCall] at hst
                cases hst
                rcases he with he | ⟨rfl, he⟩ <;> simp at he
          · cases h1
        | system a =>
          rw [hg] at h1
          simp only [jstep] at h1
          split at h1
          · cases h1
          · split at h1
            · cases h1
            · rename_i s3 e3 hst
              cases h1
              have he' : e3 = .did i op ∨ (op = .stop ∧ e3 = .call i op) := by
                rcases he with he | ⟨rfl, he⟩
                · exact .inl (List.mem_singleton.1 he).symm
                · exact .inr ⟨rfl, (List.mem_singleton.1 he).symm⟩
              congr 1
              cases a with
              | call j op' =>
                simp only [Falcon.Log.step] at hst
                split at hst
                · cases op' with
                  | category l re =>
                    simp only [Falcon.Log.beginCall] at hst
                    split at hst <;> cases hst <;> rcases he' with he' | ⟨rfl, he'⟩ <;> cases he' <;> rfl
                  | start =>
                    simp only [Falcon.Log.beginCall] at hst
                    split at hst
                    · cases hst
                    · split at hst <;> cases hst <;> rcases he' with he' | ⟨rfl, he'⟩ <;> cases he' <;> rfl
                  | _ => simp only [Falcon.Log.beginCall] at hst; cases hst; rcases he' with he' | ⟨rfl, he'⟩ <;> cases he' <;> rfl
                · cases hst
              | cli j =>
                exfalso
                simp only [Falcon.Log.step] at hst
                split at hst
                · rename_i pc _
                  cases pc with
                  | idle => cases hst
                  | check m => simp only [Falcon.Log.resume] at hst; split at hst <;> cases hst <;> simp at he'
                  | construct m a => simp only [Falcon.Log.resume] at hst; split at hst <;> cases hst <;> simp at he'
                  | stopLock =>
                    simp only [Falcon.Log.resume] at hst
                    split at hst
                    · cases hst
                    · split at hst <;> cases hst <;> simp at he'
                  | stopJoin => simp only [Falcon.Log.resume] at hst; split at hst <;> cases hst <;> simp at he'
                  | _ => simp only [Falcon.Log.resume] at hst; cases hst; simp at he'
                · cases hst
              | log =>
                exfalso
                simp only [Falcon.Log.step] at hst
                have hd : ∀ s : St, ¬ ((Falcon.Log.head s).2 = .did i op ∨ (op = .stop ∧ (Falcon.Log.head s).2 = .call i op)) := by
                  intro s; simp only [Falcon.Log.head]; split <;> simp
                unfold Falcon.Log.logStep at hst
                split at hst
                · cases hst
                · cases hst
                · have h' := hd s; rw [Option.some.inj hst] at h'; exact h' he'
                · have h' := hd s; rw [Option.some.inj hst] at h'; exact h' he'
                · cases hst
                · split at hst <;> cases hst <;> simp at he'
                · cases hst; simp at he'
                · split at hst <;> cases hst <;> simp at he'
                · split at hst
                  · cases hst; simp at he'
                  · split at hst <;> cases hst <;> simp at he'
                · cases hst; simp at he'
                · cases hst; simp at he'
                · simp only [Falcon.Log.dispose] at hst
                  split at hst
                  · cases hst; simp at he'
                  · split at hst <;> cases hst <;> simp at he'
              | spurious =>
                exfalso
                simp only [Falcon.Log.step] at hst
                split at hst <;> cases hst
                simp at he'
      rcases h with h | ⟨ho, h⟩
      · rcases List.mem_append.1 h with h | h
        · exact ih i op (.inl h)
        · exact ⟨k, hnew (.inl h)⟩
      · rcases List.mem_append.1 h with h | h
        · exact ih i op (.inr ⟨ho, h⟩)
        · exact ⟨k, hnew (.inr ⟨ho, h⟩)⟩

/-! ### the log system's part of it -/

/-- What the log system sees of a move. -/
def asSystem (w : W) (s : St) (min : Int) : JAct → Act
  | .system a => if callsLog a = true then .cli s.cl.length else a
  | .compose i =>
    match s.cl[i]? with
    | some .idle =>
      match (Logger.step min w i).out.drop w.out.length with
      | []          => .cli s.cl.length
      | (_, m) :: _ => .call i (.log m)
    | _ => .cli s.cl.length

theorem no_client (s : St) : Falcon.Log.step rx s (.cli s.cl.length) = none := by
  simp only [Falcon.Log.step, List.getElem?_eq_none (Nat.le_refl _)]

/-- The moves of the log system. -/
def systemOf (rx : Rx) (min : Int) (w0 : W) (s0 : St) (g : Nat → JAct) (k : Nat) : Act :=
  asSystem (jforever rx min w0 s0 g k).1 (jforever rx min w0 s0 g k).2.1 min (g k)

theorem jforever_system (k : Nat) :
    forever rx s0 (systemOf rx min w0 s0 g) k = (jforever rx min w0 s0 g k).2 := by
  induction k with
  | zero => rfl
  | succ k ih =>
    simp only [forever, ih, jforever, systemOf]
    generalize jforever rx min w0 s0 g k = p
    obtain ⟨w, s, es⟩ := p
    dsimp only
    cases hg : g k with
    | system a =>
      simp only [asSystem, jstep]
      by_cases hc : callsLog a = true
      · simp only [hc, if_true, no_client]
      · simp only [hc, Bool.false_eq_true, if_false]
        cases Falcon.Log.step rx s a with
        | none => rfl
        | some q => rfl
    | compose i =>
      by_cases hi : s.cl[i]? = some .idle
      · simp only [asSystem, jstep, hi]
        generalize (Logger.step min w i).out.drop w.out.length = d
        cases d with
        | nil => simp only [no_client, List.append_nil]
        | cons q d =>
          dsimp only
          cases Falcon.Log.step rx s (.call i (.log q.2)) with
          | none => rfl
          | some q => rfl
      · have e1 : asSystem w s min (.compose i) = .cli s.cl.length := by
          simp only [asSystem]
        have e2 : jstep rx min w s (.compose i) = none := by
          simp only [jstep]
        simp only [e1, e2, no_client]

theorem acts_of_exec {s1 s : St} {es : List Ev} (h : Exec rx s1 s es) :
    ∃ (p : Nat) (f0 : Nat → Act), ∀ f, (∀ j, j < p → f j = f0 j) → forever rx s1 f p = (s, es) := by
  induction h with
  | nil => exact ⟨0, fun _ => .log, fun f _ => rfl⟩
  | @snoc s s' es a e _ hst ih =>
    obtain ⟨p, f0, hf⟩ := ih
    refine ⟨p + 1, fun j => if j = p then a else f0 j, fun f h => ?_⟩
    have h1 := hf f (fun j hj => by
      have h' : f j = if j = p then a else f0 j := h j (by omega)
      rwa [if_neg (by omega)] at h')
    have h2 : f p = if p = p then a else f0 p := h p (by omega)
    rw [if_pos rfl] at h2
    simp only [forever, h1, h2, hst]

theorem forever_shift {s1 s : St} {es : List Ev} {f : Nat → Act} {p : Nat} (h : forever rx s1 f p = (s, es)) (k : Nat) :
    forever rx s1 f (p + k) = ((forever rx s (fun j => f (p + j)) k).1, es ++ (forever rx s (fun j => f (p + j)) k).2) := by
  induction k with
  | zero => simp [h, forever]
  | succ k ih =>
    rw [← Nat.add_assoc]
    simp only [forever, ih]
    cases Falcon.Log.step rx (forever rx s (fun j => f (p + j)) k).1 (f (p + k)) with
    | none => rfl
    | some q => simp [List.append_assoc]

/-! ### all threads come to their end -/

/-- What thread `i` still has before it. -/
def todoOf (i : Nat) (w : W) (s : St) : Nat := 5 * workOf (w.th i).todo + (s.cl[i]?.map left).getD 0

theorem simple_step {s s' : St} {e : List Ev} {w w' : W} {a : JAct} (hs : Simple s) {es : List Ev} (hm : Falcon.Log.Mem s es)
    (hstop : ∀ i, a ≠ .system (.call i .stop)) (h : jstep rx min w s a = some (w', s', e)) : Simple s' := by
  cases a with
  | compose i =>
    simp only [jstep] at h
    split at h
    · rename_i hidle
      split at h
      · cases h; exact hs
      · split at h
        · cases h
        · rename_i hst
          cases h
          simp only [Falcon.Log.step, hidle, Falcon.Log.beginCall] at hst
          cases hst
          exact hs.set (by simp [left])
    · cases h
  | system a =>
    simp only [jstep] at h
    split at h
    · cases h
    · rename_i hc
      split at h
      · cases h
      · rename_i hst
        cases h
        by_cases hcli : ∃ i, a = .cli i
        · obtain ⟨i, rfl⟩ := hcli
          cases hi : s.cl[i]? with
          | none => simp [Falcon.Log.step, hi] at hst
          | some pc =>
            by_cases hne : pc = .idle
            · subst hne; simp [Falcon.Log.step, hi, Falcon.Log.resume] at hst
            · obtain ⟨s2, e2, pc2, h1, h2, h3⟩ := client_moves (rx := rx) hm hs hi hne
              rw [h1] at hst
              cases hst
              intro j pc' hj
              rw [h2] at hj
              have := hs i pc hi
              exact hs.set (i := i) (pc := pc2) (by omega) j pc' hj
        · have := others_aside hst (by simpa using hc) (fun i e => hstop i (by rw [e])) (fun i e => hcli ⟨i, e⟩)
          intro j pc' hj
          rw [this] at hj
          exact hs j pc' hj

/-- One joint step, for thread `i`: either nothing changes for it, or it comes closer to its end. -/
theorem thread_step {s s' : St} {e : List Ev} {w w' : W} {a : JAct} (i : Nat) (hs : Simple s) {es : List Ev} (hm : Falcon.Log.Mem s es)
    (hsteady : ∀ j, Steady (w.th j)) (hstop : ∀ i, a ≠ .system (.call i .stop))
    (h : jstep rx min w s a = some (w', s', e)) :
    (w'.th i = w.th i ∧ s'.cl[i]? = s.cl[i]?) ∨ todoOf i w' s' < todoOf i w s := by
  cases a with
  | compose j =>
    simp only [jstep] at h
    split at h
    · rename_i hidle
      by_cases hj : i = j
      · subst hj
        by_cases hne : (w.th i).todo = []
        · have hst : Logger.step min w i = w := by simp only [Logger.step, hne]
          rw [hst] at h
          simp at h
          obtain ⟨rfl, rfl, rfl⟩ := h
          exact .inl ⟨rfl, rfl⟩
        · have hw := work_step (min := min) w i (hsteady i) hne
          right
          split at h
          · cases h
            simp only [todoOf, hidle, Option.map_some, Option.getD_some, left]
            omega
          · split at h
            · cases h
            · rename_i hst
              cases h
              simp only [Falcon.Log.step, hidle, Falcon.Log.beginCall] at hst
              cases hst
              have hlt := (List.getElem?_eq_some_iff.1 hidle).1
              simp only [todoOf, hidle, Option.map_some, Option.getD_some, left, List.getElem?_set_self hlt]
              omega
      · left
        have h1 := (Logger.step_other (min := min) (w := w) hj).1
        split at h
        · cases h; exact ⟨h1, rfl⟩
        · split at h
          · cases h
          · rename_i hst
            cases h
            simp only [Falcon.Log.step, hidle, Falcon.Log.beginCall] at hst
            cases hst
            exact ⟨h1, List.getElem?_set_ne (Ne.symm hj)⟩
    · cases h
  | system a =>
    simp only [jstep] at h
    split at h
    · cases h
    · rename_i hc
      split at h
      · cases h
      · rename_i hst
        cases h
        by_cases hcli : ∃ j, a = .cli j
        · obtain ⟨j, rfl⟩ := hcli
          cases hi : s.cl[j]? with
          | none => simp [Falcon.Log.step, hi] at hst
          | some pc =>
            by_cases hne : pc = .idle
            · subst hne; simp [Falcon.Log.step, hi, Falcon.Log.resume] at hst
            · obtain ⟨s2, e2, pc2, h1, h2, h3⟩ := client_moves (rx := rx) hm hs hi hne
              rw [h1] at hst
              cases hst
              by_cases hij : i = j
              · subst hij
                right
                have hlt := (List.getElem?_eq_some_iff.1 hi).1
                simp only [todoOf, h2, List.getElem?_set_self hlt, hi, Option.map_some, Option.getD_some]
                omega
              · left
                rw [h2]
                exact ⟨rfl, List.getElem?_set_ne (Ne.symm hij)⟩
        · left
          have := others_aside hst (by simpa using hc) (fun i e => hstop i (by rw [e])) (fun i e => hcli ⟨i, e⟩)
          exact ⟨rfl, by rw [this]⟩

end Falcon.LoggerJoint
