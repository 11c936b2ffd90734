import Verif.Proofs.LogMutexLive
import Verif.Proofs.LogMutexLift
import Verif.Proofs.LogMutexHold
import Verif.Proofs.LogMutexRest
import Verif.Spec.LogMutexReact
/-
Listeners that use the log system, with explicit mutexes.
-/
namespace Falcon.LogM
open Falcon.Log (Str Addr LId Msg Rx Lst Op Ev Stage Mtx LPc CPc Exec init exec_mem exec_wake)

variable {rx : Rx} {n : Nat} {t b : Bool} {r r' : FRst} {as : List FRAct} {es : List Ev}

/-- A step is a step of the log system, or onMessage ends, or the program does. -/
theorem frstep_cases {a : FRAct} {es' : List Ev} (h : frstep rx n r a = some (r', es')) :
    (∃ a' e, fstep rx r.base a' = some (r'.base, e) ∧ es' = e.toList) ∨ (r'.base = r.base ∧ es' = []) := by
  have v : ∀ cur a', via rx r cur a' = some (r', es') → ∃ a' e, fstep rx r.base a' = some (r'.base, e) ∧ es' = e.toList := by
    intro cur a' h
    unfold via at h
    split at h
    · cases h
    · rename_i f e hs
      cases h; exact ⟨a', e, hs, rfl⟩
  cases a with
  | req i q => simp only [frstep] at h; split at h; cases h; exact .inl (v _ _ h)
  | cli i => simp only [frstep] at h; split at h; cases h; exact .inl (v _ _ h)
  | spurious => simp only [frstep] at h; split at h; cases h; exact .inl (v _ _ h)
  | log d =>
    simp only [frstep] at h
    split at h
    · cases h
    split at h
    · unfold within at h
      split at h
      · cases h
      · split at h
        · split at h <;> cases h <;> exact .inr ⟨rfl, rfl⟩
        · exact .inl (v _ _ h)
      · cases h; exact .inr ⟨rfl, rfl⟩
      · exact .inl (v _ _ h)
    · split at h
      · cases h
      · rename_i f e hs
        cases h; exact .inl ⟨_, e, hs, rfl⟩

theorem frun_one {f f' : FSt} {a : FAct} {e : Option Ev} (h : fstep rx f a = some (f', e)) : frun rx f [a] = some (f', e.toList) := by
  simp [frun, h]

/-- What the log system does is a run with one more client. -/
theorem base_run (h : FRExec rx n (frinit n t b) r as es) : ∃ bs, frun rx (finit (n + 1) t b) bs = some (r.base, es) ∧ bs.length ≤ as.length := by
  induction h with
  | nil => exact ⟨[], rfl, Nat.le_refl _⟩
  | snoc _ hs ih =>
    obtain ⟨bs, h1, h2⟩ := ih
    rcases frstep_cases hs with ⟨a', e, h3, rfl⟩ | ⟨h3, rfl⟩
    · exact ⟨bs ++ [a'], frun_append h1 (frun_one h3), by simp; omega⟩
    · exact ⟨bs, by rw [h3, List.append_nil]; exact h1, by simp; omega⟩

/-- Nobody but the logging thread takes it from where it calls listeners. -/
theorem keep_lt {f f' : FSt} {a : FAct} {e : Option Ev} {x : Addr} {rem : List LId} (h : fstep rx f a = some (f', e)) (ha : a ≠ .log)
    (hl : f.lt = .send x rem) : f'.lt = .send x rem := by
  cases a with
  | log => exact absurd rfl ha
  | spurious => simp only [fstep, hl] at h; cases h
  | call i op =>
    simp only [fstep] at h
    split at h
    · cases op <;> simp only [beginF] at h <;> cases h <;> exact hl
    · cases h
  | diags i => simp only [fstep] at h; split at h <;> cases h; exact hl
  | categ i l => simp only [fstep] at h; split at h <;> cases h; exact hl
  | cli i =>
    simp only [fstep] at h
    split at h
    · rename_i pc _
      cases pc <;> simp only [resumeF, acquire, release, hl] at h
      all_goals
        repeat' split at h
        all_goals
          first
          | (cases h; done)
          | (cases h; exact hl)
          | (cases h; simp [wake])
    · cases h

/-- A step of another thread leaves a client where it is. -/
theorem keep_cl {f f' : FSt} {a : FAct} {e : Option Ev} {k : Nat} (h : fstep rx f a = some (f', e)) (ha : a.thread ≠ some k) :
    f'.cl[k]? = f.cl[k]? := by
  have set : ∀ (i : Nat) (p : FPc), i ≠ k → (f.cl.set i p)[k]? = f.cl[k]? := fun i p hi => List.getElem?_set_ne hi
  cases a with
  | log => rw [log_frame h]
  | spurious => simp only [fstep] at h; split at h <;> cases h; rfl
  | call i op =>
    have hi : i ≠ k := fun e => ha (by simp [FAct.thread, e])
    simp only [fstep] at h
    split at h
    · cases op <;> simp only [beginF] at h <;> cases h <;> first | rfl | exact set i _ hi
    · cases h
  | diags i =>
    have hi : i ≠ k := fun e => ha (by simp [FAct.thread, e])
    simp only [fstep] at h; split at h <;> cases h; exact set i _ hi
  | categ i l =>
    have hi : i ≠ k := fun e => ha (by simp [FAct.thread, e])
    simp only [fstep] at h; split at h <;> cases h; exact set i _ hi
  | cli i =>
    have hi : i ≠ k := fun e => ha (by simp [FAct.thread, e])
    simp only [fstep] at h
    split at h
    · rcases cli_frame h with ⟨⟨p, hp⟩, -⟩ | rfl
      · rw [hp]; exact set i p hi
      · rfl
    · cases h

theorem Req.thread_by (q : Req) (i : Nat) : (q.by i).thread = some i := by cases q <;> rfl
theorem Req.by_ne_log (q : Req) (i : Nat) : q.by i ≠ .log := by cases q <;> simp [Req.by]

/-- The call is neither start() nor stop(). -/
def calm : FPc → Bool
  | .sLock | .sSet | .sUnlock | .sNotify | .sTLock | .sTTest | .sJoin | .sTUnlock | .tLock | .tTest | .tUnlock | .qLock .thread => false
  | _ => true

theorem calm_cli {f f' : FSt} {i : Nat} {pc : FPc} {e : Option Ev} (hi : f.cl[i]? = some pc) (hc : calm pc = true) (h : resumeF rx f i pc = some (f', e)) :
    ∃ p, f'.cl[i]? = some p ∧ calm p = true := by
  have hlt := (List.getElem?_eq_some_iff.1 hi).1
  have get : ∀ p, f'.cl = f.cl.set i p → calm p = true → ∃ p, f'.cl[i]? = some p ∧ calm p = true :=
    fun p h1 h2 => ⟨p, by rw [h1, List.getElem?_set_self hlt], h2⟩
  cases pc <;> first
    | (cases hc; done)
    | skip
  all_goals simp only [resumeF, acquire, release] at h
  case qHold x => cases h; exact get _ rfl (by cases x <;> rfl)
  all_goals
    repeat' split at h
    all_goals
      first
      | (cases h; done)
      | (cases h; exact get _ rfl rfl)
      | (cases h; exact ⟨_, hi, rfl⟩)

theorem calm_begin {f f' : FSt} {i : Nat} {q : Req} {e : Option Ev} (h1 : q ≠ .op .start) (h2 : q ≠ .op .stop) (h : fstep rx f (q.by i) = some (f', e)) :
    ∃ p, f'.cl[i]? = some p ∧ calm p = true := by
  cases q with
  | op o =>
    simp only [Req.by, fstep] at h
    split at h
    · rename_i hi
      have hlt := (List.getElem?_eq_some_iff.1 hi).1
      cases o <;> simp only [beginF] at h <;> first
        | exact absurd rfl h1
        | exact absurd rfl h2
        | (cases h; exact ⟨_, List.getElem?_set_self hlt, rfl⟩)
        | (cases h; exact ⟨_, hi, rfl⟩)
    · cases h
  | diags =>
    simp only [Req.by, fstep] at h
    split at h <;> cases h
    rename_i hi
    exact ⟨_, List.getElem?_set_self (List.getElem?_eq_some_iff.1 hi).1, rfl⟩
  | categ l =>
    simp only [Req.by, fstep] at h
    split at h <;> cases h
    rename_i hi
    exact ⟨_, List.getElem?_set_self (List.getElem?_eq_some_iff.1 hi).1, rfl⟩

/-- The logging thread enters onMessage: it is between two listeners. -/
theorem deliver_lt {f f' : FSt} {l : LId} {m : Msg} (h : fstep rx f .log = some (f', some (.deliver l m))) : ∃ a rem, f'.lt = .send a rem := by
  simp only [fstep] at h
  unfold logStepF at h
  simp only [acquireL, releaseL] at h
  repeat' split at h
  all_goals first | (cases h; done) | (cases h; exact ⟨_, _, rfl⟩)

/-- Where the logging thread is, as client and as itself. -/
structure Within (n : Nat) (r : FRst) : Prop where
  out   : r.cur = none → r.dead = false → r.base.cl[n]? = some .idle
  here  : ∀ d, r.cur = some d → ∃ a rem, r.base.lt = .send a rem
  len   : ∃ pc, r.base.cl[n]? = some pc

theorem within_init (n : Nat) (t b : Bool) : Within n (frinit n t b) := by
  have : (finit (n + 1) t b).cl[n]? = some .idle := by simp [finit]
  exact ⟨fun _ _ => this, fun _ h => (by cases h), _, this⟩

theorem len_step {f f' : FSt} {a : FAct} {e : Option Ev} {k : Nat} (h : fstep rx f a = some (f', e)) (hk : ∃ pc, f.cl[k]? = some pc) : ∃ pc, f'.cl[k]? = some pc := by
  obtain ⟨pc, hk⟩ := hk
  have hlt := (List.getElem?_eq_some_iff.1 hk).1
  have : f'.cl.length = f.cl.length := by
    cases a with
    | log => rw [log_frame h]
    | spurious => simp only [fstep] at h; split at h <;> cases h; rfl
    | call i op =>
      simp only [fstep] at h
      split at h
      · cases op <;> simp only [beginF] at h <;> cases h <;> simp
      · cases h
    | diags i => simp only [fstep] at h; split at h <;> cases h; simp
    | categ i l => simp only [fstep] at h; split at h <;> cases h; simp
    | cli i =>
      simp only [fstep] at h
      split at h
      · rcases cli_frame h with ⟨⟨p, hp⟩, -⟩ | rfl
        · rw [hp]; simp
        · rfl
      · cases h
  exact ⟨_, List.getElem?_eq_getElem (by omega)⟩

theorem within_via {cur cur' : Option Doing} {a : FAct} {es' : List Ev} (hw : Within n r) (hc : r.cur = cur) (h : via rx r cur' a = some (r', es'))
    (ha : a ≠ .log) (hcc : (cur' = cur ∧ a.thread ≠ some n) ∨ (∃ d d', cur = some d ∧ cur' = some d')) : Within n r' := by
  unfold via at h
  split at h
  · cases h
  · rename_i f e hs
    cases h
    refine ⟨?_, ?_, len_step hs hw.len⟩
    · intro h1 h2
      rcases hcc with ⟨rfl, h3⟩ | ⟨d, d', h3, h4⟩
      · rw [keep_cl hs h3]; exact hw.out (hc.trans h1) h2
      · rw [h4] at h1; cases h1
    · intro d h1
      have : ∃ d, r.cur = some d := by
        rcases hcc with ⟨rfl, h3⟩ | ⟨d, d', h3, h4⟩
        · exact ⟨d, hc.trans h1⟩
        · exact ⟨d, hc.trans h3⟩
      obtain ⟨d', hd⟩ := this
      obtain ⟨x, rem, hl⟩ := hw.here d' hd
      exact ⟨x, rem, keep_lt hs ha hl⟩

theorem within_step {a : FRAct} {es' : List Ev} (hw : Within n r) (h : frstep rx n r a = some (r', es')) : Within n r' := by
  cases a with
  | req i q =>
    simp only [frstep] at h
    split at h
    · cases h
    · rename_i hc
      exact within_via hw rfl h (q.by_ne_log i) (.inl ⟨rfl, by rw [q.thread_by]; intro e; exact hc (.inr (Option.some.inj e))⟩)
  | cli i =>
    simp only [frstep] at h
    split at h
    · cases h
    · rename_i hc
      exact within_via hw rfl h (by simp) (.inl ⟨rfl, by intro e; exact hc (.inr (Option.some.inj e))⟩)
  | spurious =>
    simp only [frstep] at h
    split at h
    · cases h
    · exact within_via hw rfl h (by simp) (.inl ⟨rfl, by simp [FAct.thread]⟩)
  | log d =>
    simp only [frstep] at h
    split at h
    · cases h
    rename_i hd
    split at h
    · rename_i cur hc
      unfold within at h
      split at h
      · cases h
      · rename_i hi
        split at h
        · split at h
          · cases h; exact ⟨fun _ h => by (cases h), hw.here, hw.len⟩
          · cases h; exact ⟨fun _ _ => hi, fun _ h => by (cases h), hw.len⟩
        · rename_i q qs _
          exact within_via hw hc h (q.by_ne_log n) (.inr ⟨_, _, rfl, rfl⟩)
      · cases h; exact ⟨fun _ h => by (cases h), hw.here, hw.len⟩
      · exact within_via hw hc h (by simp) (.inr ⟨_, _, rfl, rfl⟩)
    · rename_i hc
      split at h
      · cases h
      · rename_i f e hs
        cases h
        refine ⟨fun _ h2 => ?_, fun d' h1 => ?_, len_step hs hw.len⟩
        · show f.cl[n]? = some .idle
          rw [log_frame hs]; exact hw.out hc h2
        · show ∃ a rem, f.lt = .send a rem
          cases e with
          | none => cases h1
          | some e => cases e <;> first | (cases h1; done) | exact deliver_lt hs

theorem within_run (h : FRExec rx n (frinit n t b) r as es) : Within n r := by
  induction h with
  | nil => exact within_init n t b
  | snoc _ hs ih => exact within_step ih hs

/-- The listener at work is mild. -/
structure Gentle (n : Nat) (r : FRst) : Prop where
  alive : r.dead = false
  cur   : ∀ d, r.cur = some d → d.Mild
  pc    : ∀ pc, r.base.cl[n]? = some pc → calm pc = true

theorem gentle_via {cur' : Option Doing} {a : FAct} {es' : List Ev} (hg : Gentle n r) (h : via rx r cur' a = some (r', es'))
    (hd : ∀ d, cur' = some d → d.Mild) (hp : a.thread ≠ some n ∨ (∃ q : Req, a = q.by n ∧ q ≠ .op .start ∧ q ≠ .op .stop) ∨ a = .cli n) : Gentle n r' := by
  unfold via at h
  split at h
  · cases h
  · rename_i f e hs
    cases h
    refine ⟨hg.alive, hd, fun pc hpc => ?_⟩
    have hpc : f.cl[n]? = some pc := hpc
    rcases hp with hp | ⟨q, rfl, h1, h2⟩ | rfl
    · rw [keep_cl hs hp] at hpc; exact hg.pc pc hpc
    · obtain ⟨p, h3, h4⟩ := calm_begin h1 h2 hs
      rw [h3] at hpc; cases hpc; exact h4
    · simp only [fstep] at hs
      split at hs
      · rename_i pc0 hi
        obtain ⟨p, h3, h4⟩ := calm_cli hi (hg.pc _ hi) hs
        rw [h3] at hpc; cases hpc; exact h4
      · cases hs

theorem gentle_step {a : FRAct} {es' : List Ev} (hg : Gentle n r) (h : frstep rx n r a = some (r', es')) (hm : ∀ d, a = .log d → d.Mild) : Gentle n r' := by
  cases a with
  | req i q =>
    simp only [frstep] at h
    split at h
    · cases h
    · rename_i hc
      exact gentle_via hg h hg.cur (.inl (by rw [q.thread_by]; intro e; exact hc (.inr (Option.some.inj e))))
  | cli i =>
    simp only [frstep] at h
    split at h
    · cases h
    · rename_i hc
      exact gentle_via hg h hg.cur (.inl (by intro e; exact hc (.inr (Option.some.inj e))))
  | spurious =>
    simp only [frstep] at h
    split at h
    · cases h
    · exact gentle_via hg h hg.cur (.inl (by simp [FAct.thread]))
  | log d =>
    simp only [frstep] at h
    split at h
    · cases h
    split at h
    · rename_i cur hc
      have hcm := hg.cur _ hc
      unfold within at h
      split at h
      · cases h
      · rename_i hi
        split at h
        · rw [hcm.1] at h
          cases h; exact ⟨hg.alive, fun _ h => by (cases h), hg.pc⟩
        · rename_i q qs hq
          refine gentle_via hg h ?_ (.inr (.inl ⟨q, rfl, ?_, ?_⟩))
          · intro d' h'
            cases h'
            exact ⟨hcm.1, fun h => hcm.2.1 (by rw [hq]; exact List.mem_cons_of_mem _ h), fun h => hcm.2.2 (by rw [hq]; exact List.mem_cons_of_mem _ h)⟩
          · rintro rfl; exact hcm.2.1 (by rw [hq]; simp)
          · rintro rfl; exact hcm.2.2 (by rw [hq]; simp)
      · rename_i hi
        have := hg.pc _ hi
        cases this
      · exact gentle_via hg h (fun d' h' => by cases h'; exact hcm) (.inr (.inr rfl))
    · split at h
      · cases h
      · rename_i f e hs
        cases h
        refine ⟨hg.alive, fun d' h1 => ?_, fun pc hpc => ?_⟩
        · cases e with
          | none => cases h1
          | some e => cases e <;> first | (cases h1; done) | (cases h1; exact hm _ rfl)
        · have hpc : f.cl[n]? = some pc := hpc
          rw [log_frame hs] at hpc; exact hg.pc pc hpc

theorem gentle_run (h : FRExec rx n (frinit n t b) r as es) (hm : AllMild as) : Gentle n r := by
  induction h with
  | nil =>
    refine ⟨rfl, fun _ h => by (cases h), fun pc hpc => ?_⟩
    have : (finit (n + 1) t b).cl[n]? = some .idle := by simp [finit]
    have hpc : (finit (n + 1) t b).cl[n]? = some pc := hpc
    rw [this] at hpc; cases hpc; rfl
  | snoc _ hs ih =>
    refine gentle_step (ih fun d hd => hm d (by simp [hd])) hs fun d hd => hm d (by simp [hd])

/-- A call other than start() and stop() that cannot go on waits for a mutex that is not that of the thread. -/
theorem waits {f : FSt} {i : Nat} {pc : FPc} (hI : Inv f) (hi : f.cl[i]? = some pc) (hp : pc ≠ .idle) (hc : calm pc = true) (hn : ¬ Moves rx f (some i)) :
    ∃ x o, x ≠ .thread ∧ f.mtx x = some o := by
  have acq : ∀ x p, x ≠ .thread → resumeF rx f i pc = acquire f i x p → ∃ x o, x ≠ .thread ∧ f.mtx x = some o := by
    intro x p hx he
    cases hf : f.mtx x with
    | some o => exact ⟨x, o, hx, hf⟩
    | none => exact absurd ⟨_, by simp only [fstep, hi, he, acquire, hf]; rfl⟩ hn
  have go : ∀ y, resumeF rx f i pc = some y → ∃ x o, x ≠ .thread ∧ f.mtx x = some o := by
    intro y he
    exact absurd ⟨y, by simp only [fstep, hi, he]⟩ hn
  have tot : (∃ y, resumeF rx f i pc = some y) → ∃ x o, x ≠ .thread ∧ f.mtx x = some o := fun ⟨y, h⟩ => go y h
  cases pc
  case qLock x =>
    by_cases hx : x = .thread
    · subst hx; cases hc
    · exact acq x (.qHold x) hx rfl
  all_goals first
    | (cases hc; done)
    | exact absurd rfl hp
    | (refine acq _ _ ?_ rfl; simp; done)
    | exact go _ rfl
    | skip
  all_goals
    refine tot ?_
    simp only [resumeF]
    repeat' split
    all_goals exact ⟨_, rfl⟩

/-- A listener at work can go on, or waits for a thread that can. -/
theorem inner_moves (hI : Inv r.base) (hw : Within n r) (hg : Gentle n r) {d : Doing} (hd : r.cur = some d) :
    Proceeds rx n r none ∨ ∃ j, j ≠ n ∧ Proceeds rx n r (some j) := by
  obtain ⟨pc, hpc⟩ := hw.len
  obtain ⟨a, rem, hl⟩ := hw.here d hd
  have hcalm := hg.pc pc hpc
  have dead := hg.alive
  by_cases hidle : pc = .idle
  · subst hidle
    left
    intro d'
    simp only [frstep, dead, Bool.false_eq_true, if_false, hd, within, hpc]
    cases hq : d.reqs with
    | nil => simp only; split <;> exact ⟨_, rfl⟩
    | cons q qs =>
      simp only [via]
      cases q <;> simp only [Req.by, fstep, hpc] <;> exact ⟨_, rfl⟩
  · by_cases hm : Moves rx r.base (some n)
    · left
      intro d'
      obtain ⟨⟨f, e⟩, hm⟩ := hm
      simp only [frstep, dead, Bool.false_eq_true, if_false, hd, within, hpc]
      cases pc <;> first
        | exact absurd rfl hidle
        | (cases hcalm; done)
        | (simp only [via, hm]; exact ⟨_, rfl⟩)
    · right
      obtain ⟨x, o, hx, ho⟩ := waits hI hpc hidle hcalm hm
      have hmv : Moves rx r.base o := holder_moves hI ho hx
      cases o with
      | none => have := (hI.own.log x).1 ho; rw [hl] at this; cases this
      | some j =>
        have hj : j ≠ n := fun e => hm (e ▸ hmv)
        obtain ⟨⟨f, e⟩, hmv⟩ := hmv
        refine ⟨j, hj, ?_⟩
        simp only [Proceeds, frstep, dead, hj, Bool.false_eq_true, or_self, if_false, via, hmv]
        exact ⟨_, rfl⟩

theorem FRExec.append {r0 r1 r2 : FRst} {as1 as2 : List FRAct} {es1 es2 : List Ev} (h1 : FRExec rx n r0 r1 as1 es1) (h2 : FRExec rx n r1 r2 as2 es2) :
    FRExec rx n r0 r2 (as1 ++ as2) (es1 ++ es2) := by
  induction h2 with
  | nil => simpa using h1
  | snoc _ hs ih => rw [← List.append_assoc, ← List.append_assoc]; exact ih.snoc hs

theorem crank_cli {f f' : FSt} {i : Nat} {pc : FPc} {e : Option Ev} (hi : f.cl[i]? = some pc) (h : resumeF rx f i pc = some (f', e)) (hu : ∀ u, e ≠ some (.fault u)) :
    ∃ p, f'.cl[i]? = some p ∧ crank p < crank pc := by
  have hlt := (List.getElem?_eq_some_iff.1 hi).1
  have get : ∀ p, f'.cl = f.cl.set i p → crank p < crank pc → ∃ p, f'.cl[i]? = some p ∧ crank p < crank pc :=
    fun p h1 h2 => ⟨p, by rw [h1, List.getElem?_set_self hlt], h2⟩
  cases pc
  all_goals simp only [resumeF, acquire, release] at h
  case qHold x => cases h; exact get _ rfl (by cases x <;> simp [afterQuery, crank])
  case qLock x => split at h <;> cases h; exact get _ rfl (by cases x <;> simp [crank])
  all_goals
    repeat' split at h
    all_goals
      first
      | (cases h; done)
      | (cases h; exact absurd rfl (hu _))
      | (cases h; exact get _ rfl (by simp [crank]))

theorem crank_begin {f f' : FSt} {i : Nat} {q : Req} {e : Option Ev} (h : fstep rx f (q.by i) = some (f', e)) :
    ∃ p, f'.cl[i]? = some p ∧ crank p ≤ 15 := by
  cases q with
  | op o =>
    simp only [Req.by, fstep] at h
    split at h
    · rename_i hi
      have hlt := (List.getElem?_eq_some_iff.1 hi).1
      cases o <;> simp only [beginF] at h <;> first
        | (cases h; exact ⟨_, List.getElem?_set_self hlt, by simp [crank]⟩)
        | (cases h; exact ⟨_, hi, by simp [crank]⟩)
    · cases h
  | diags =>
    simp only [Req.by, fstep] at h
    split at h <;> cases h
    rename_i hi
    exact ⟨_, List.getElem?_set_self (List.getElem?_eq_some_iff.1 hi).1, by simp [crank]⟩
  | categ l =>
    simp only [Req.by, fstep] at h
    split at h <;> cases h
    rename_i hi
    exact ⟨_, List.getElem?_set_self (List.getElem?_eq_some_iff.1 hi).1, by simp [crank]⟩

/-- What the logging thread has still to do in onMessage. -/
def toDo (n : Nat) (r : FRst) : Nat :=
  if r.dead then 0 else
    (match r.base.cl[n]? with | some pc => crank pc | none => 0) + (match r.cur with | some d => 16 * d.reqs.length + 1 | none => 0)

/-- In a run nothing undefined happens. -/
theorem no_fault {a : FRAct} {r' : FRst} {es' : List Ev} (h : FRExec rx n (frinit n t b) r as es) (hs : frstep rx n r a = some (r', es')) :
    ∀ u, .fault u ∉ es' := by
  intro u hu
  obtain ⟨bs, hb, -⟩ := base_run (h.snoc hs)
  obtain ⟨hI, es1, hx, hv⟩ := sim_init hb
  have hm : Ev.fault u ∈ es ++ es' := by simp [hu]
  have h1 : Ev.fault u ∈ visible (es ++ es') := by simp only [visible, List.mem_filter]; exact ⟨hm, by simp⟩
  rw [← hv] at h1
  exact (exec_mem hx).nofault u (List.mem_filter.1 h1).1

theorem toDo_step {a : FRAct} {r' : FRst} {es' : List Ev} (h : FRExec rx n (frinit n t b) r as es) (hs : frstep rx n r a = some (r', es'))
    (hc : r.cur ≠ none) : (match a with | .log _ => 1 | _ => 0) + toDo n r' ≤ toDo n r := by
  have hf := no_fault h hs
  have other : ∀ a', via rx r r.cur a' = some (r', es') → a'.thread ≠ some n → toDo n r' = toDo n r := by
    intro a' h ht
    unfold via at h
    split at h
    · cases h
    · rename_i f e hs'
      cases h
      simp only [toDo, keep_cl hs' ht]
  cases a with
  | req i q =>
    simp only [frstep] at hs
    split at hs
    · cases hs
    · rename_i hn
      have := other _ hs (by rw [q.thread_by]; intro e; exact hn (.inr (Option.some.inj e)))
      simp [this]
  | cli i =>
    simp only [frstep] at hs
    split at hs
    · cases hs
    · rename_i hn
      have := other _ hs (by intro e; exact hn (.inr (Option.some.inj e)))
      simp [this]
  | spurious =>
    simp only [frstep] at hs
    split at hs
    · cases hs
    · have := other _ hs (by simp [FAct.thread])
      simp [this]
  | log d0 =>
    show 1 + _ ≤ _
    simp only [frstep] at hs
    split at hs
    · cases hs
    rename_i hd
    have hd : r.dead = false := by simpa using hd
    split at hs
    · rename_i d hcur
      unfold within at hs
      split at hs
      · cases hs
      · rename_i hi
        have e0 : toDo n r = 16 * d.reqs.length + 1 := by simp [toDo, hd, hi, hcur, crank]
        split at hs
        · split at hs
          · cases hs; rw [e0]; simp [toDo]
          · cases hs; rw [e0]; simp [toDo, hd, hi, crank]
        · rename_i q qs hq
          unfold via at hs
          split at hs
          · cases hs
          · rename_i f e hs'
            cases hs
            obtain ⟨p, h1, h2⟩ := crank_begin hs'
            rw [e0, hq]
            simp only [toDo, hd, h1, Bool.false_eq_true, if_false, List.length_cons]
            omega
      · rename_i hi
        cases hs
        simp only [toDo, hd, hi, crank, if_true, Bool.false_eq_true, if_false]
        omega
      · rename_i pc _ _ hi
        unfold via at hs
        split at hs
        · cases hs
        · rename_i f e hs'
          cases hs
          simp only [fstep, hi] at hs'
          obtain ⟨p, h1, h2⟩ := crank_cli hi hs' (fun u hu => hf u (by simp [hu]))
          simp only [toDo, hd, hi, hcur, h1, Bool.false_eq_true, if_false]
          omega
    · rename_i hcur
      exact absurd hcur hc

end Falcon.LogM
