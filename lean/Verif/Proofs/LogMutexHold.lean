import Verif.Proofs.LogMutexLift
/-
How long a mutex of the log system is held.
-/
namespace Falcon.LogM
open Falcon.Log (Str Addr LId Msg Rx Lst Op Ev Stage Mtx LPc CPc Exec init exec_mem)

variable {rx : Rx} {f f' : FSt}

/-- Steps a client still makes until it has released its mutex. -/
def ctogo : FPc → Nat
  | .aTest _ => 3 | .aPop _ => 2 | .aUnlock _ _ | .aUnlockE _ _ => 1
  | .ePush _ _ => 4 | .eMax => 3 | .eNotify => 2 | .eUnlock => 1
  | .sSet => 2 | .sUnlock => 1
  | .lPush _ => 2 | .lUnlock => 1
  | .cRegex _ _ => 3 | .cText _ _ => 2 | .cUnlock _ => 1
  | .qHold _ => 1
  | _ => 0

def ltogo : FLt → Nat
  | .test _ => 3 | .pop _ => 2 | .taken _ => 1 | .exit => 1
  | .nCopy _ => 3 | .nClear _ _ => 2 | .nUnlock _ _ => 1
  | .cHold _ _ _ => 2 | .cUnl _ _ _ _ => 1
  | .dTest _ => 3 | .dPush _ => 2 | .dUnl => 1 | .dUnlF _ => 1
  | _ => 0

/-- The steps thread `t` still makes until it has released its mutex. -/
def togo (f : FSt) : Tid → Nat
  | some i => match f.cl[i]? with | some pc => ctogo pc | none => 0
  | none => ltogo f.lt

theorem wake_ltogo (p : FLt) : ltogo (wake p) = ltogo p := by cases p <;> rfl

theorem set_other {i j : Nat} (h : j ≠ i) (c : List FPc) (p : FPc) : (c.set i p)[j]? = c[j]? := by
  rw [List.getElem?_set]; simp [Ne.symm h]

/-- What a client's step leaves alone. -/
theorem cli_frame {i : Nat} {pc : FPc} {e : Option Ev} (h : resumeF rx f i pc = some (f', e)) :
    (∃ p, f'.cl = f.cl.set i p) ∧ ltogo f'.lt = ltogo f.lt ∨ f' = f := by
  cases pc <;> simp only [resumeF, acquire, release] at h
  all_goals
    repeat' split at h
    all_goals
      first
      | (cases h; done)
      | (cases h; first | exact .inr rfl | exact .inl ⟨⟨_, rfl⟩, rfl⟩ | exact .inl ⟨⟨_, rfl⟩, wake_ltogo _⟩)
      | (rename_i hl; cases h; exact .inl ⟨⟨_, rfl⟩, by simp only [hl, ltogo]⟩)

theorem log_frame {e : Option Ev} (h : logStepF rx f = some (f', e)) : f'.cl = f.cl := by
  unfold logStepF at h
  simp only [acquireL, releaseL] at h
  repeat' split at h
  all_goals first | (cases h; done) | (cases h; rfl)

/-- Somebody else moves: no difference. -/
theorem togo_other {a : FAct} {e : Option Ev} {t : Tid} (h : fstep rx f a = some (f', e)) (ht : a.thread ≠ t) : togo f' t = togo f t := by
  have put : ∀ {i : Nat} (p : FPc), some i ≠ t → f'.cl = f.cl.set i p → ltogo f'.lt = ltogo f.lt → togo f' t = togo f t := by
    intro i p hi h1 h2
    cases t with
    | none => exact h2
    | some j => simp only [togo, h1, set_other (show j ≠ i from fun e => hi (by rw [e]))]
  have keep : f'.cl = f.cl → ltogo f'.lt = ltogo f.lt → togo f' t = togo f t := by
    intro h1 h2
    cases t with
    | none => exact h2
    | some j => simp only [togo, h1]
  cases a with
  | call i op =>
    simp only [fstep] at h
    split at h
    · cases op <;> simp only [beginF] at h <;> cases h
      all_goals first | exact put _ ht rfl rfl | exact keep rfl rfl
    · cases h
  | diags i =>
    simp only [fstep] at h
    split at h <;> cases h
    exact put _ ht rfl rfl
  | categ i l =>
    simp only [fstep] at h
    split at h <;> cases h
    exact put _ ht rfl rfl
  | cli i =>
    simp only [fstep] at h
    split at h
    · rcases cli_frame h with ⟨⟨p, h1⟩, h2⟩ | rfl
      · exact put p ht h1 h2
      · rfl
    · cases h
  | log =>
    cases t with
    | none => exact absurd rfl ht
    | some j => simp only [togo, log_frame h]
  | spurious =>
    cases t with
    | none => exact absurd rfl ht
    | some j =>
      simp only [fstep] at h
      split at h <;> cases h
      rfl

/-- The holder moves: it is one step nearer, or has released the mutex. -/
theorem togo_self {a : FAct} {e : Option Ev} {t : Tid} {x : Mtx} (hI : Inv f) (hx : x ≠ .thread) (hm : f.mtx x = some t) (h : fstep rx f a = some (f', e))
    (ht : a.thread = t) (hu : ∀ u, e ≠ some (.fault u)) : f'.mtx x ≠ some t ∨ togo f' t + 1 ≤ togo f t ∧ togo f t ≤ 4 := by
  cases a with
  | call i op =>
    subst ht
    simp only [fstep] at h
    split at h
    · rename_i hi
      have := (hI.own.at hi x).1 hm
      cases this
    · cases h
  | diags i =>
    subst ht
    simp only [fstep] at h
    split at h
    · rename_i hi
      have := (hI.own.at hi x).1 hm
      cases this
    · cases h
  | categ i l =>
    subst ht
    simp only [fstep] at h
    split at h
    · rename_i hi
      have := (hI.own.at hi x).1 hm
      cases this
    · cases h
  | spurious =>
    subst ht
    simp only [fstep] at h
    have := (hI.own.log x).1 hm
    split at h
    · rename_i hl; rw [hl] at this; cases this
    · cases h
  | cli i =>
    subst ht
    simp only [fstep] at h
    split at h
    · rename_i pc hi
      have hp := (hI.own.at hi x).1 hm
      have hlt := (List.getElem?_eq_some_iff.1 hi).1
      have at' : ∀ p, f'.cl = f.cl.set i p → togo f' (some i) = ctogo p := by
        intro p hp; simp only [togo, hp, List.getElem?_set_self hlt]
      have now : togo f (some i) = ctogo pc := by simp only [togo, hi]
      rw [show FAct.thread (.cli i) = some i from rfl, now]
      cases pc <;> simp only [holds] at hp <;> (try (cases hp; done)) <;> cases hp <;> simp only [resumeF, release] at h
      all_goals
        repeat' split at h
        all_goals
          first
          | exact absurd rfl hx
          | (cases h; refine .inl ?_; simp [setM]; done)
          | (cases h; exact absurd rfl (hu _))
          | (cases h; rw [at' _ rfl]; refine .inr ?_; simp [ctogo]; done)
    · cases h
  | log =>
    subst ht
    have hp := (hI.own.log x).1 hm
    rw [show FAct.thread FAct.log = none from rfl]
    simp only [fstep] at h
    simp only [togo]
    have hmN : f.mtx x = some none := hm
    clear hm
    cases hl : f.lt <;> rw [hl] at hp <;> simp only [lholds] at hp <;> (try (cases hp; done)) <;> cases hp <;>
      simp only [logStepF, hl, releaseL] at h
    all_goals
      repeat' split at h
      all_goals
        first
        | (cases h; exact absurd rfl (hu _))
        | (cases h; refine .inl ?_; simp [setM]; done)
        | (cases h; refine .inr ?_; simp [ltogo]; done)

/-- As long as a thread keeps a mutex it is under way to release it. -/
theorem held_short {bs : List FAct} {n : Nat} {t b : Bool} {g : FSt} {es0 es : List Ev} {o : Tid} {x : Mtx} (hI : Inv f)
    (h0 : Exec rx (init n t b) (abs f) es0) (hx : x ≠ .thread) (h : frun rx f bs = some (g, es))
    (hold : ∀ cs, cs <+: bs → ∀ k ev, frun rx f cs = some (k, ev) → k.mtx x = some o) :
    bs.countP (fun a => a.thread = o) + togo g o ≤ togo f o ∧ 1 ≤ togo g o := by
  induction bs generalizing f es es0 with
  | nil =>
    simp only [frun] at h
    cases h
    have hm := hold [] (List.prefix_refl _) g [] rfl
    refine ⟨by simp, ?_⟩
    cases o with
    | none =>
      have hp := (hI.own.log x).1 hm
      simp only [togo]
      cases hl : g.lt <;> rw [hl] at hp <;> simp only [lholds] at hp <;> (try (cases hp; done)) <;> simp [ltogo]
    | some i =>
      obtain ⟨pc, hi, hp⟩ := (hI.own.cli x i).1 hm
      simp only [togo, hi]
      cases pc <;> simp only [holds] at hp <;> (try (cases hp; done)) <;> simp [ctogo] <;> cases hp <;> exact absurd rfl hx
  | cons a bs ih =>
    have hm := hold [] (List.nil_prefix) f [] rfl
    simp only [frun] at h
    split at h
    · cases h
    · rename_i f1 e hs
      split at h
      · cases h
      · rename_i g2 es2 hr
        obtain ⟨rfl, rfl⟩ := Prod.mk.inj (Option.some.inj h)
        obtain ⟨hI1, hsim⟩ := sim_step hI (exec_mem h0) hs
        have nofault : ∀ u, e ≠ some (.fault u) := by
          rintro u rfl
          rcases hsim with ⟨h, -⟩ | ⟨a', v, hv, hst⟩
          · cases h
          · rcases hv with hv | ⟨hv, -⟩
            · cases hv
              exact (exec_mem (h0.snoc hst)).nofault u (by simp)
            · cases hv
        have ⟨es1, h1⟩ : ∃ es1, Exec rx (init n t b) (abs f1) es1 := by
          rcases hsim with ⟨-, h⟩ | ⟨a', v, -, hst⟩
          · exact ⟨es0, h ▸ h0⟩
          · exact ⟨_, h0.snoc hst⟩
        have hold1 : ∀ cs, cs <+: bs → ∀ k ev, frun rx f1 cs = some (k, ev) → k.mtx x = some o := by
          intro cs hc k ev hk
          refine hold (a :: cs) (List.cons_prefix_cons.2 ⟨rfl, hc⟩) k (e.toList ++ ev) ?_
          simp only [frun, hs, hk]
        obtain ⟨h3, h4⟩ := ih hI1 h1 hr hold1
        refine ⟨?_, h4⟩
        have hm1 := hold1 [] List.nil_prefix f1 [] rfl
        rw [List.countP_cons]
        by_cases ht : a.thread = o
        · rcases togo_self hI hx hm hs ht nofault with hn | ⟨h5, -⟩
          · exact absurd hm1 hn
          · simp only [ht, decide_true, if_true]; omega
        · rw [togo_other hs ht] at h3
          simp only [ht, decide_false, Bool.false_eq_true, if_false]; omega

theorem togo_le (f : FSt) (o : Tid) : togo f o ≤ 4 := by
  cases o with
  | none => simp only [togo]; cases f.lt <;> simp [ltogo]
  | some i =>
    simp only [togo]
    split
    · rename_i pc _; cases pc <;> simp [ctogo]
    · omega

end Falcon.LogM
