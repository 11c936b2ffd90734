import Verif.Spec.Nested
import Verif.Proofs.UnitTest
/- Lemmas about tests that call the runner. -/
namespace Falcon.Fut

/-- What the statements of test `t` and its run may change in the world. -/
structure Touch (q : Bool) (t : Nat) (w w' : World) : Prop where
  tc : ∀ u, u ≠ t → w'.tc u = w.tc u
  outbuf : (w'.tc t).outbuf = (w.tc t).outbuf
  errbuf : (w'.tc t).errbuf = (w.tc t).errbuf
  cout : q = true → w'.cout = w.cout
  cerr : q = true → w'.cerr = w.cerr

theorem Touch.refl (q : Bool) (t : Nat) (w : World) : Touch q t w w := ⟨fun _ _ => rfl, rfl, rfl, fun _ => rfl, fun _ => rfl⟩

theorem Touch.trans {q : Bool} {t : Nat} {w w' w'' : World} (h : Touch q t w w') (h' : Touch q t w' w'') : Touch q t w w'' :=
  ⟨fun u hu => (h'.tc u hu).trans (h.tc u hu), h'.outbuf.trans h.outbuf, h'.errbuf.trans h.errbuf,
   fun e => (h'.cout e).trans (h.cout e), fun e => (h'.cerr e).trans (h.cerr e)⟩

theorem Touch.setTc (q : Bool) (t : Nat) (w : World) (c : Tc) (h1 : c.outbuf = (w.tc t).outbuf) (h2 : c.errbuf = (w.tc t).errbuf) :
    Touch q t w (w.setTc t c) := by
  refine ⟨fun u hu => ?_, ?_, ?_, fun _ => rfl, fun _ => rfl⟩
  · simp [World.setTc, hu]
  · simp [World.setTc, h1]
  · simp [World.setTc, h2]

theorem Touch.act (q : Bool) (env : Env) (t : Nat) (w : World) (a : Act)
    (h : q = true → ∀ b, a ≠ .redirOut b ∧ a ≠ .redirErr b) : Touch q t w (act env t w a).1 := by
  cases a with
  | step n => exact ⟨fun _ _ => rfl, rfl, rfl, fun _ => rfl, fun _ => rfl⟩
  | out s => exact ⟨fun _ _ => rfl, rfl, rfl, fun _ => rfl, fun _ => rfl⟩
  | err s => exact ⟨fun _ _ => rfl, rfl, rfl, fun _ => rfl, fun _ => rfl⟩
  | redirOut b => exact ⟨fun _ _ => rfl, rfl, rfl, fun e => absurd rfl (h e b).1, fun _ => rfl⟩
  | redirErr b => exact ⟨fun _ _ => rfl, rfl, rfl, fun _ => rfl, fun e => absurd rfl (h e b).2⟩
  | check ok file line expr actual =>
    cases ok
    · exact Touch.setTc _ _ _ _ rfl rfl
    · exact Touch.refl _ _ _
  | failNow => exact Touch.setTc _ _ _ _ rfl rfl
  | expectThrow o caught file line ty =>
    cases o with
    | none => exact Touch.setTc _ _ _ _ rfl rfl
    | some e => cases caught <;> exact Touch.refl _ _ _
  | expectAnyThrow o =>
    cases o with
    | none => exact Touch.setTc _ _ _ _ rfl rfl
    | some e => exact Touch.refl _ _ _
  | expectNoThrow o =>
    cases o with
    | none => exact Touch.refl _ _ _
    | some e => cases e <;> exact Touch.setTc _ _ _ _ rfl rfl
  | setStatus s => exact Touch.setTc _ _ _ _ rfl rfl
  | failCall => exact Touch.setTc _ _ _ _ rfl rfl
  | thrw e => exact Touch.refl _ _ _
  | ret => exact Touch.refl _ _ _

theorem Touch.enter (q : Bool) (t : Nat) (w : World) (e : Ev) : Touch q t w (enter w e) :=
  ⟨fun _ _ => rfl, rfl, rfl, fun _ => rfl, fun _ => rfl⟩

theorem Touch.markBegin (q : Bool) (env : Env) (t : Nat) (w : World) : Touch q t w (markBegin env w t) :=
  ⟨fun u hu => by simp [Fut.markBegin, hu], by simp [Fut.markBegin], by simp [Fut.markBegin], fun _ => rfl, fun _ => rfl⟩

theorem Touch.markEnd (q : Bool) (env : Env) (t : Nat) (w : World) : Touch q t w (markEnd env w t) :=
  ⟨fun u hu => by simp [Fut.markEnd, hu], by simp [Fut.markEnd], by simp [Fut.markEnd], fun _ => rfl, fun _ => rfl⟩

theorem Touch.caught (q : Bool) (env : Env) (t : Nat) (w : World) (e : Exc) : Touch q t w (caught env w t e) :=
  (Touch.markEnd q env t w).trans (Touch.setTc _ _ _ _ rfl rfl)

theorem Touch.conclude (q : Bool) (t : Nat) (w : World) : Touch q t w (conclude w t) := by
  unfold Fut.conclude; split
  · exact Touch.setTc _ _ _ _ rfl rfl
  · exact Touch.refl _ _ _

/-- `I` is kept by whatever test `t` does while it runs. -/
structure Keeps (q : Bool) (t : Nat) (perf : Perf) (I : NSt → Prop) : Prop where
  world : ∀ s w, Touch q t s.w w → I s → I { s with w := w }
  verb : ∀ s v, I s → I { s with u := { s.u with verbosity := v }, evs := s.evs ++ [.verbose v] }
  call : ∀ s n s' r, I s → perf s n = .ok (s', r) → I s'

theorem nact_keeps {q : Bool} {t : Nat} {perf : Perf} {I : NSt → Prop} (K : Keeps q t perf I) (env : Env) (s s' : NSt) (a : NAct) (k : Next)
    (hq : q = true → ∀ b, a ≠ .act (.redirOut b) ∧ a ≠ .act (.redirErr b)) (h : nact env perf t s a = .ok (s', k)) (hI : I s) : I s' := by
  cases a with
  | act a =>
    cases h
    exact K.world _ _ (Touch.act q env t s.w a (fun e b => ⟨fun h => (hq e b).1 (by rw [h]), fun h => (hq e b).2 (by rw [h])⟩)) hI
  | verbosity v => cases h; exact K.verb _ _ hI
  | perform name =>
    unfold nact at h; dsimp only at h
    split at h
    · cases h
    · rename_i hp; cases h; exact K.call _ _ _ _ hI hp
    · rename_i hp; cases h; exact K.call _ _ _ _ hI hp
  | performEq name want file line expr =>
    unfold nact at h; dsimp only at h
    split at h
    · cases h
    · rename_i hp; cases h; exact K.call _ _ _ _ hI hp
    · rename_i s1 r hp
      have h1 := K.call _ _ _ _ hI hp
      split at h
      · cases h; exact h1
      · cases h; exact K.world s1 _ (Touch.setTc _ _ _ _ rfl rfl) h1

theorem nexec_keeps {q : Bool} {t : Nat} {perf : Perf} {I : NSt → Prop} (K : Keeps q t perf I) (env : Env) (as : List NAct) (s s' : NSt)
    (x : Option Exc) (hq : q = true → ∀ a ∈ as, ∀ b, a ≠ .act (.redirOut b) ∧ a ≠ .act (.redirErr b))
    (h : nexec env perf t s as = .ok (s', x)) (hI : I s) : I s' := by
  induction as generalizing s with
  | nil => cases h; exact hI
  | cons a as ih =>
    unfold nexec at h
    cases ha : nact env perf t s a with
    | error e => rw [ha] at h; cases h
    | ok r =>
      obtain ⟨s1, k⟩ := r
      rw [ha] at h
      have h1 := nact_keeps K env s s1 a k (fun e => hq e a (by simp)) ha hI
      cases k with
      | go => exact ih s1 (fun e a ha => hq e a (by simp [ha])) h h1
      | ret => cases h; exact h1
      | thr e => cases h; exact h1

theorem nrun_keeps {q : Bool} {t : Nat} {perf : Perf} {I : NSt → Prop} (K : Keeps q t perf I) (env : Env) (d : NDef) (s s' : NSt)
    (hq : q = true → ∀ k, (d.script k).KeepsStreams) (h : nrun env perf d t s = .ok s') (hI : I s) : I s' := by
  unfold nrun at h
  dsimp only at h
  generalize hsc : d.script (s.w.tc t).runs = sc at h
  have hq' : q = true → ∀ a ∈ sc.all, ∀ b, a ≠ .act (.redirOut b) ∧ a ≠ .act (.redirErr b) := fun e => by rw [← hsc]; exact hq e _
  have i0 := K.world s (enter (s.w.setTc t { s.w.tc t with status := .none, runs := (s.w.tc t).runs + 1 }) (.setUp t))
    ((Touch.setTc q t s.w { s.w.tc t with status := .none, runs := (s.w.tc t).runs + 1 } rfl rfl).trans (Touch.enter _ _ _ _)) hI
  split at h
  · cases h
  · rename_i s1 e he
    cases h
    exact K.world s1 _ (Touch.caught _ _ _ _ _)
      (nexec_keeps K env _ _ _ _ (fun e a ha => hq' e a (by simp [NScript.all, ha])) he i0)
  · rename_i s1 he
    have i1 := K.world s1 _ ((Touch.markBegin q env t s1.w).trans (Touch.enter _ _ _ (.body t)))
      (nexec_keeps K env _ _ _ _ (fun e a ha => hq' e a (by simp [NScript.all, ha])) he i0)
    split at h
    · cases h
    · rename_i s2 e he2
      cases h
      exact K.world s2 _ (Touch.caught _ _ _ _ _)
        (nexec_keeps K env _ _ _ _ (fun e a ha => hq' e a (by simp [NScript.all, ha])) he2 i1)
    · rename_i s2 he2
      have i2 := K.world s2 _ (((Touch.markEnd q env t s2.w).trans (Touch.conclude _ _ _)).trans (Touch.enter _ _ _ (.tearDown t)))
        (nexec_keeps K env _ _ _ _ (fun e a ha => hq' e a (by simp [NScript.all, ha])) he2 i1)
      split at h
      · cases h
      · rename_i s3 e he3
        cases h
        exact K.world s3 _ (Touch.caught _ _ _ _ _)
          (nexec_keeps K env _ _ _ _ (fun e a ha => hq' e a (by simp [NScript.all, ha])) he3 i2)
      · rename_i s3 he3
        cases h
        exact nexec_keeps K env _ _ _ _ (fun e a ha => hq' e a (by simp [NScript.all, ha])) he3 i2

/-! ### One test performed -/

/-- The parts of the world the runner's results depend on. -/
structure Like (w w' : World) : Prop where
  tc : w'.tc = w.tc
  cout : w'.cout = w.cout
  cerr : w'.cerr = w.cerr

theorem Like.refl (w : World) : Like w w := ⟨rfl, rfl, rfl⟩

theorem Like.trans {w w' w'' : World} (h : Like w w') (h' : Like w' w'') : Like w w'' :=
  ⟨h'.tc.trans h.tc, h'.cout.trans h.cout, h'.cerr.trans h.cerr⟩

theorem Aside.like {l : Bool} {w w' : World} (h : Aside l w w') : Like w w' := ⟨h.tc, h.cout, h.cerr⟩

theorem Like.tick (w : World) (n : Nat) : Like w { w with tick := n } := ⟨rfl, rfl, rfl⟩

theorem Like.beginTest {w w' : World} (h : Like w w') (c : Bool) (t : Nat) : Like (beginTest c t w) (beginTest c t w') := by
  cases c
  · refine ⟨?_, h.cout, h.cerr⟩
    simp [Fut.beginTest, setStatus, World.setTc, h.tc]
  · refine ⟨?_, rfl, rfl⟩
    simp [Fut.beginTest, setStatus, World.setTc, h.tc, h.cout, h.cerr]

/-- A test performed by the runner, from `s` to `s'`: it begins, runs and ends, and its failure is noted. -/
def One (nested : Bool) (env : Env) (perf : Perf) (defs : Nat → NDef) (t : Nat) (s s' : NSt) : Prop :=
  ∃ l1 w1 s2 w3 l2 p,
    Like (beginTest s.u.capture t s.w) w1 ∧
    nrun env perf (defs t) t ⟨{ s.u with lapse := l1 }, w1, s.evs ++ [.began nested t]⟩ = .ok s2 ∧
    endTest s2.u.capture t s2.w = .ok w3 ∧ Like w3 s'.w ∧
    p = decide ((s'.w.tc t).status = .success) ∧
    s'.evs = s2.evs ++ [.ended nested t p] ∧
    s'.u = { s2.u with lapse := l2, status := if p then s2.u.status else -1,
                       failedCount := if p || nested then s2.u.failedCount else s2.u.failedCount.map (· + 1) }

theorem endTest_tick (c : Bool) (t : Nat) (w : World) (n : Nat) (w' : World) (h : endTest c t { w with tick := n } = .ok w') :
    ∃ w3, endTest c t w = .ok w3 ∧ Like w3 w' := by
  cases c
  · cases h; exact ⟨w, rfl, Like.tick _ _⟩
  · unfold endTest at h ⊢
    simp only [if_true] at h ⊢
    split at h
    · rename_i o e ho he
      cases h
      rw [ho, he]
      exact ⟨_, rfl, ⟨rfl, rfl, rfl⟩⟩
    · cases h

theorem nperformOne_one (env : Env) (perf : Perf) (defs : Nat → NDef) (s s' : NSt) (n t : Nat) (f : Bool)
    (h : nperformOne env perf defs s n t = .ok (s', f)) :
    One false env perf defs t s s' ∧ f = !decide ((s'.w.tc t).status = .success) := by
  unfold nperformOne at h
  obtain ⟨wa, a, hb⟩ := utBegin_eq (fun t => (defs t).label) s.u n t s.w
  rw [hb] at h
  split at h
  · cases h
  · rename_i s2 hr
    split at h
    · cases h
    · rename_i w hu
      obtain ⟨w3, he, a3⟩ := utEnd_ok _ _ _ _ _ _ hu
      have hlike := Like.beginTest a.like s.u.capture t
      split at h
      · rename_i hp
        have hp' := (hasPassed_iff _ _ _).1 hp
        cases h
        refine ⟨⟨_, _, s2, w3, s2.u.lapse, true, hlike, hr, he, a3.like, ?_, rfl, ?_⟩, ?_⟩
        · simp [hp']
        · simp
        · simp [hp']
      · rename_i hp
        have hp' : (w.tc t).status ≠ .success := fun e => hp ((hasPassed_iff _ _ _).2 e)
        cases h
        refine ⟨⟨_, _, s2, w3, s2.u.lapse, false, hlike, hr, he, a3.like, ?_, rfl, ?_⟩, ?_⟩
        · simp [hp']
        · simp
        · simp [hp']

/-- The state after init(). -/
def NSt.reset (s : NSt) : NSt := { s with u := (init s.u s.w).1, w := (init s.u s.w).2, evs := s.evs ++ [.reset] }

theorem performWith_one (env : Env) (perf : Perf) (defs : Nat → NDef) (s s' : NSt) (name : Str) (r : Option Int)
    (h : performWith env perf defs s name = .ok (s', r)) :
    s' = s.reset ∨ ∃ t, One true env perf defs t s.reset s' := by
  unfold performWith at h
  change (match findByName s.reset.u name with | none => _ | some t => _) = _ at h
  cases hf : findByName s.reset.u name with
  | none => rw [hf] at h; cases h; exact .inl rfl
  | some t =>
    right
    refine ⟨t, ?_⟩
    rw [hf] at h
    dsimp only at h
    obtain ⟨wa, a, hb⟩ := utBegin_eq (fun t => (defs t).label) s.reset.u 1 t s.reset.w
    change (match nrun env perf (defs t) t ⟨{ s.reset.u with lapse := { s.reset.u.lapse with begin := (readClock env (utBegin (fun t => (defs t).label) s.reset.u 1 t s.reset.w)).1 } }, (readClock env (utBegin (fun t => (defs t).label) s.reset.u 1 t s.reset.w)).2, s.reset.evs ++ [.began true t]⟩ with | .error e => _ | .ok s => _) = _ at h
    rw [hb] at h
    split at h
    · cases h
    · rename_i s2 hr
      split at h
      · cases h
      · rename_i w hu
        obtain ⟨w4, he4, a3⟩ := utEnd_ok _ _ _ _ _ _ hu
        obtain ⟨w3, he, l3⟩ := endTest_tick _ _ _ _ _ he4
        have hlike : Like (beginTest s.reset.u.capture t s.reset.w) (readClock env (beginTest s.reset.u.capture t wa)).2 :=
          (Like.beginTest a.like s.reset.u.capture t).trans (Like.tick _ _)
        split at h
        · rename_i hp
          have hp' := (hasPassed_iff _ _ _).1 hp
          cases h
          refine ⟨_, _, s2, w3, ⟨s2.u.lapse.begin, (readClock env s2.w).1⟩, true, hlike, hr, he, l3.trans a3.like, ?_, rfl, ?_⟩
          · simp [hp']
          · simp
        · rename_i hp
          have hp' : (w.tc t).status ≠ .success := fun e => hp ((hasPassed_iff _ _ _).2 e)
          cases h
          refine ⟨_, _, s2, w3, ⟨s2.u.lapse.begin, (readClock env s2.w).1⟩, false, hlike, hr, he, l3.trans a3.like, ?_, rfl, ?_⟩
          · simp [hp']
          · simp

end Falcon.Fut
