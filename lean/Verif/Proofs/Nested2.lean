import Verif.Proofs.Nested
/- What a record says about the runner's results: lemmas. -/
namespace Falcon.Fut

/-! ### Records that grow at the end -/

theorem failedSince_snoc (evs : List FEv) (e : FEv) :
    FailedSinceReset (evs ++ [e]) ↔ (∃ n t, e = .ended n t false) ∨ (e ≠ .reset ∧ FailedSinceReset evs) := by
  constructor
  · rintro ⟨pre, n, t, post, h, hr⟩
    rcases List.eq_nil_or_concat post with rfl | ⟨post', x, rfl⟩
    · left
      have := (List.append_inj' h (by simp)).2
      exact ⟨n, t, by simpa using this⟩
    · right
      rw [List.concat_eq_append, ← List.cons_append, ← List.append_assoc] at h
      obtain ⟨h1, h2⟩ := List.append_inj' h (by simp)
      have h2 : e = x := by simpa using h2
      rw [List.concat_eq_append] at hr
      exact ⟨fun c => hr (by rw [← h2, c]; simp), pre, n, t, post', h1, fun c => hr (by simp [c])⟩
  · rintro (⟨n, t, rfl⟩ | ⟨hne, pre, n, t, post, rfl, hr⟩)
    · exact ⟨evs, n, t, [], rfl, by simp⟩
    · refine ⟨pre, n, t, post ++ [e], by simp, ?_⟩
      simp only [List.mem_append, List.mem_singleton]
      rintro (c | c)
      · exact hr c
      · exact hne c.symm

theorem standsPassed_snoc (t : Nat) (evs : List FEv) (e : FEv) :
    StandsPassed t (evs ++ [e]) ↔ (∃ n, e = .ended n t true) ∨ (e ≠ .reset ∧ (∀ n p, e ≠ .ended n t p) ∧ StandsPassed t evs) := by
  constructor
  · rintro ⟨pre, n, post, h, hr, hn⟩
    rcases List.eq_nil_or_concat post with rfl | ⟨post', x, rfl⟩
    · left
      have := (List.append_inj' h (by simp)).2
      exact ⟨n, by simpa using this⟩
    · right
      rw [List.concat_eq_append, ← List.cons_append, ← List.append_assoc] at h
      obtain ⟨h1, h2⟩ := List.append_inj' h (by simp)
      have h2 : e = x := by simpa using h2
      subst h2
      rw [List.concat_eq_append] at hr hn
      exact ⟨fun c => hr (by rw [c]; simp), fun n p c => hn n p (by rw [c]; simp), pre, n, post', h1, fun c => hr (by simp [c]),
        fun n p c => hn n p (by simp [c])⟩
  · rintro (⟨n, rfl⟩ | ⟨hne, hn', pre, n, post, rfl, hr, hn⟩)
    · exact ⟨evs, n, [], rfl, by simp, by simp⟩
    · refine ⟨pre, n, post ++ [e], by simp, ?_, ?_⟩
      · simp only [List.mem_append, List.mem_singleton]
        rintro (c | c)
        · exact hr c
        · exact hne c.symm
      · intro m p
        simp only [List.mem_append, List.mem_singleton]
        rintro (c | c)
        · exact hn m p c
        · exact hn' m p c.symm

theorem runFailures_snoc (evs : List FEv) (e : FEv) : runFailuresSinceReset (evs ++ [e]) = match e with
    | .reset => 0
    | .ended false _ false => runFailuresSinceReset evs + 1
    | _ => runFailuresSinceReset evs := by
  unfold runFailuresSinceReset
  rw [List.reverse_append, List.reverse_singleton, List.singleton_append]
  cases e with
  | reset => rw [List.takeWhile_cons_of_neg (by simp)]; rfl
  | began n t => rw [List.takeWhile_cons_of_pos (by simp), List.countP_cons_of_neg (by simp)]
  | verbose v => rw [List.takeWhile_cons_of_pos (by simp), List.countP_cons_of_neg (by simp)]
  | ended n t p =>
    rw [List.takeWhile_cons_of_pos (by simp)]
    cases n <;> cases p
    · rw [List.countP_cons_of_pos (by rfl)]
    · rw [List.countP_cons_of_neg (by simp)]
    · rw [List.countP_cons_of_neg (by simp)]
    · rw [List.countP_cons_of_neg (by simp)]

theorem runVerdicts_snoc (evs : List FEv) (e : FEv) : runVerdicts (evs ++ [e]) = runVerdicts evs ++ match e with
    | .ended false t p => [(t, p)]
    | _ => [] := by
  unfold runVerdicts
  rw [List.filterMap_append]
  cases e with
  | reset => rfl
  | began n t => rfl
  | verbose v => rfl
  | ended n t p => cases n <;> rfl

/-! ### Whatever keeps an invariant -/

theorem performAt_keeps (env : Env) (defs : Nat → NDef) (I : NSt → Prop)
    (hreset : ∀ s, I s → I s.reset)
    (hone : ∀ n t s s', (∀ s n' s' r, I s → performAt env defs n s n' = .ok (s', r) → I s') →
      One true env (performAt env defs n) defs t s s' → I s → I s') (n : Nat) :
    ∀ s name s' r, I s → performAt env defs n s name = .ok (s', r) → I s' := by
  induction n with
  | zero => intro s name s' r _ h; cases h
  | succ n ih =>
    intro s name s' r hI h
    rcases performWith_one env _ defs s s' name r h with rfl | ⟨t, h1⟩
    · exact hreset s hI
    · exact hone n t s.reset s' ih h1 (hreset s hI)

theorem nperformTests_keeps (env : Env) (perf : Perf) (defs : Nat → NDef) (I : NSt → Prop)
    (hone : ∀ t s s', One false env perf defs t s s' → I s → I s') (ts : List Nat) (s s' : NSt) (n m k : Nat)
    (h : nperformTests env perf defs s n ts = .ok (s', m, k)) (hI : I s) : I s' := by
  induction ts generalizing s n m k with
  | nil => cases h; exact hI
  | cons t ts ih =>
    unfold nperformTests at h
    split at h
    · cases h
    · rename_i s1 f h1
      split at h
      · cases h
      · rename_i s2 m2 k2 h2
        cases h
        exact ih _ _ _ _ h2 (hone t _ _ (nperformOne_one _ _ _ _ _ _ _ _ h1).1 hI)

theorem nperformComps_keeps (env : Env) (perf : Perf) (defs : Nat → NDef) (I : NSt → Prop)
    (hlike : ∀ s w, Like s.w w → I s → I { s with w := w })
    (hone : ∀ t s s', One false env perf defs t s s' → I s → I s') (cs cs' : List Comp) (s s' : NSt) (n : Nat)
    (h : nperformComps env perf defs s n cs = .ok (s', cs')) (hI : I s) : I s' := by
  induction cs generalizing s n cs' with
  | nil => cases h; exact hI
  | cons c cs ih =>
    unfold nperformComps at h
    split at h
    · cases h
    · rename_i s1 m k h1
      split at h
      · cases h
      · rename_i s2 cs2 h2
        cases h
        exact ih _ _ _ h2 (hlike _ _ (Like.tick _ _) (nperformTests_keeps env perf defs I hone _ _ _ _ _ _ h1 (hlike _ _ (Like.tick _ _) hI)))

theorem nrunAllTests_keeps (env : Env) (perf : Perf) (defs : Nat → NDef) (I : NSt → Prop)
    (hlike : ∀ s w, Like s.w w → I s → I { s with w := w })
    (hu : ∀ s l cs, I s → I { s with u := { s.u with lapse := l, comps := cs } })
    (hone : ∀ t s s', One false env perf defs t s s' → I s → I s') (s s' : NSt)
    (h : nrunAllTests env perf defs s = .ok s') (hI : I s) : I s' := by
  unfold nrunAllTests at h
  dsimp only at h
  split at h
  · cases h
  · rename_i s1 cs h1
    cases h
    have i0 := hu _ { s.u.lapse with begin := (readClock env s.w).1 } s.u.comps (hlike s (readClock env s.w).2 (Like.tick _ _) hI)
    have i1 := nperformComps_keeps env perf defs I hlike hone _ _ _ _ _ h1 i0
    exact hu _ { s1.u.lapse with «end» := (readClock env s1.w).1 } cs (hlike s1 (readClock env s1.w).2 (Like.tick _ _) i1)

/-! ### The status -/

/-- The runner's status and count of failures are what the record says. -/
structure StatusInv (s : NSt) : Prop where
  code : s.u.status = 0 ∨ s.u.status = -1
  failed : s.u.status ≠ 0 ↔ FailedSinceReset s.evs
  count : s.u.failedCount = some (runFailuresSinceReset s.evs)

theorem StatusInv.reset (s : NSt) : StatusInv s.reset := by
  refine ⟨.inl rfl, ?_, ?_⟩
  · show (0 : Int) ≠ 0 ↔ FailedSinceReset (s.evs ++ [.reset])
    rw [failedSince_snoc]; simp
  · show some 0 = some (runFailuresSinceReset (s.evs ++ [.reset]))
    rw [runFailures_snoc]

theorem StatusInv.one (nested : Bool) (env : Env) (perf : Perf) (defs : Nat → NDef) (t : Nat) (s s' : NSt)
    (hp : ∀ s n s' r, StatusInv s → perf s n = .ok (s', r) → StatusInv s')
    (h : One nested env perf defs t s s') (hI : StatusInv s) : StatusInv s' := by
  obtain ⟨l1, w1, s2, w3, l2, p, -, hr, -, -, -, hevs, hu⟩ := h
  have K : Keeps false t perf StatusInv :=
    ⟨fun s w _ h => ⟨h.code, h.failed, h.count⟩, fun s v h => ⟨h.code, by rw [failedSince_snoc]; simpa using h.failed, by rw [runFailures_snoc]; exact h.count⟩, hp⟩
  have i0 : StatusInv ⟨{ s.u with lapse := l1 }, w1, s.evs ++ [.began nested t]⟩ := by
    refine ⟨hI.code, ?_, ?_⟩
    · show s.u.status ≠ 0 ↔ FailedSinceReset (s.evs ++ [.began nested t])
      rw [failedSince_snoc, hI.failed]; simp
    · show s.u.failedCount = some (runFailuresSinceReset (s.evs ++ [.began nested t]))
      rw [runFailures_snoc, hI.count]
  have i2 := nrun_keeps K env _ _ _ (by simp) hr i0
  cases p
  · refine ⟨.inr (by rw [hu]; rfl), ?_, ?_⟩
    · rw [hevs, failedSince_snoc, hu]; simp
    · rw [hevs, runFailures_snoc, hu]
      cases nested
      · show s2.u.failedCount.map (· + 1) = _
        rw [i2.count]; rfl
      · exact i2.count
  · refine ⟨by rw [hu]; exact i2.code, ?_, ?_⟩
    · rw [hevs, failedSince_snoc, hu]
      show s2.u.status ≠ 0 ↔ _
      rw [i2.failed]; simp
    · rw [hevs, runFailures_snoc, hu]
      cases nested <;> exact i2.count

theorem StatusInv.performAt (env : Env) (defs : Nat → NDef) (n : Nat) :
    ∀ s name s' r, StatusInv s → Fut.performAt env defs n s name = .ok (s', r) → StatusInv s' :=
  performAt_keeps env defs StatusInv (fun s _ => StatusInv.reset s) (fun _ _ _ _ ih h hI => StatusInv.one true _ _ _ _ _ _ ih h hI) n

/-! ### The verdicts of the run -/

theorem runVerdicts_one (nested : Bool) (env : Env) (perf : Perf) (defs : Nat → NDef) (t : Nat) (s s' : NSt)
    (hp : ∀ L s n s' r, runVerdicts s.evs = L → perf s n = .ok (s', r) → runVerdicts s'.evs = L)
    (h : One nested env perf defs t s s') :
    runVerdicts s'.evs = runVerdicts s.evs ++ if nested then [] else [(t, decide ((s'.w.tc t).status = .success))] := by
  obtain ⟨l1, w1, s2, w3, l2, p, -, hr, -, -, hpp, hevs, hu⟩ := h
  have K : Keeps false t perf (fun s2 => runVerdicts s2.evs = runVerdicts s.evs) := ⟨fun _ _ _ h => h, fun _ _ h => by dsimp only; rw [runVerdicts_snoc]; simpa using h, hp _⟩
  have i2 := nrun_keeps K env _ _ _ (by simp) hr (by
    show runVerdicts (s.evs ++ [.began nested t]) = _
    rw [runVerdicts_snoc]; simp)
  rw [hevs, runVerdicts_snoc, i2, hpp]
  cases nested <;> rfl

theorem runVerdicts_performAt (env : Env) (defs : Nat → NDef) (n : Nat) (L : List (Nat × Bool)) :
    ∀ s name s' r, runVerdicts s.evs = L → performAt env defs n s name = .ok (s', r) → runVerdicts s'.evs = L := by
  induction n generalizing L with
  | zero => intro s name s' r _ h; cases h
  | succ n ih =>
    intro s name s' r hI h
    have h0 : runVerdicts s.reset.evs = L := by
      show runVerdicts (s.evs ++ [.reset]) = L
      rw [runVerdicts_snoc, hI]; simp
    rcases performWith_one env _ defs s s' name r h with rfl | ⟨t, h1⟩
    · exact h0
    · rw [runVerdicts_one true env _ defs t _ _ ih h1, h0]; simp

theorem nperformTests_verdicts (env : Env) (perf : Perf) (defs : Nat → NDef)
    (hp : ∀ L s n s' r, runVerdicts s.evs = L → perf s n = .ok (s', r) → runVerdicts s'.evs = L)
    (ts : List Nat) (s s' : NSt) (n m k : Nat) (h : nperformTests env perf defs s n ts = .ok (s', m, k)) :
    ∃ vs, runVerdicts s'.evs = runVerdicts s.evs ++ vs ∧ vs.map Prod.fst = ts ∧ k = vs.countP (fun v => !v.2) ∧ m = n + ts.length := by
  induction ts generalizing s n m k with
  | nil => cases h; exact ⟨[], by simp, rfl, rfl, rfl⟩
  | cons t ts ih =>
    unfold nperformTests at h
    split at h
    · cases h
    · rename_i s1 f h1
      split at h
      · cases h
      · rename_i s2 m2 k2 h2
        cases h
        obtain ⟨vs, e1, e2, e3, e4⟩ := ih _ _ _ _ h2
        obtain ⟨o, hf⟩ := nperformOne_one _ _ _ _ _ _ _ _ h1
        have := runVerdicts_one false env perf defs t s s1 hp o
        refine ⟨(t, decide ((s1.w.tc t).status = .success)) :: vs, ?_, by simp [e2], ?_, ?_⟩
        · rw [e1, this]; simp
        · rw [List.countP_cons, hf, e3]
          cases decide ((s1.w.tc t).status = .success) <;> simp [Nat.add_comm]
        · rw [e4]; simp; omega

/-- Components and the verdicts on their tests. -/
abbrev NPart := Comp × List (Nat × Bool)

theorem nperformComps_verdicts (env : Env) (perf : Perf) (defs : Nat → NDef)
    (hp : ∀ L s n s' r, runVerdicts s.evs = L → perf s n = .ok (s', r) → runVerdicts s'.evs = L)
    (cs cs' : List Comp) (s s' : NSt) (n : Nat) (h : nperformComps env perf defs s n cs = .ok (s', cs')) :
    ∃ xs : List NPart, cs = xs.map Prod.fst ∧ (∀ x ∈ xs, x.2.map Prod.fst = x.1.tests) ∧
      runVerdicts s'.evs = runVerdicts s.evs ++ xs.flatMap Prod.snd ∧
      cs'.map (fun c => (c.name, c.tests, c.failures)) = xs.map (fun x => (x.1.name, x.1.tests, x.1.failures + x.2.countP (fun v => !v.2))) := by
  induction cs generalizing s n cs' with
  | nil => cases h; exact ⟨[], rfl, by simp, by simp, rfl⟩
  | cons c cs ih =>
    unfold nperformComps at h
    split at h
    · cases h
    · rename_i s1 m k h1
      split at h
      · cases h
      · rename_i s2 cs2 h2
        cases h
        obtain ⟨vs, e1, e2, e3, e4⟩ := nperformTests_verdicts env perf defs hp _ _ _ _ _ _ h1
        obtain ⟨xs, f1, f2, f3, f4⟩ := ih _ _ _ h2
        refine ⟨(c, vs) :: xs, by simp [f1], ?_, ?_, ?_⟩
        · intro x hx
          rcases List.mem_cons.1 hx with rfl | hx
          · exact e2
          · exact f2 x hx
        · rw [f3]
          show runVerdicts s1.evs ++ _ = _
          rw [e1]; simp
        · simp [f4, e3]

/-! ### What is left of each test -/

/-- A registered test that is not under way has passed iff the record says so last. -/
def LeftInv (T S : List Nat) (s : NSt) : Prop :=
  s.u.tests = T ∧ ∀ t ∈ T, t ∉ S → ((s.w.tc t).status = .success ↔ StandsPassed t s.evs)

theorem LeftInv.reset (T S : List Nat) (s : NSt) (h : s.u.tests = T) : LeftInv T S s.reset := by
  refine ⟨h, fun t ht _ => ?_⟩
  have : (s.reset.w.tc t).status = .none := by
    show (if t ∈ s.u.tests then { s.w.tc t with status := Status.none } else s.w.tc t).status = .none
    rw [if_pos (by rw [h]; exact ht)]
  rw [this]
  show _ ↔ StandsPassed t (s.evs ++ [.reset])
  rw [standsPassed_snoc]; simp

theorem endTest_keeps_status (c : Bool) (t : Nat) (w w' : World) (h : endTest c t w = .ok w') (v : Nat) : (w'.tc v).status = (w.tc v).status := by
  cases c
  · cases h; rfl
  · unfold endTest at h
    simp only [if_true] at h
    split at h
    · cases h
      by_cases hv : v = t
      · subst hv; simp [World.setTc]
      · simp [World.setTc, hv]
    · cases h

theorem beginTest_keeps_status (c : Bool) (t : Nat) (w : World) (v : Nat) (hv : v ≠ t) : ((beginTest c t w).tc v).status = (w.tc v).status := by
  cases c <;> simp [beginTest, setStatus, World.setTc, hv]

theorem LeftInv.one (nested : Bool) (env : Env) (perf : Perf) (defs : Nat → NDef) (t : Nat) (T S : List Nat) (s s' : NSt)
    (hp : ∀ S s n s' r, LeftInv T S s → perf s n = .ok (s', r) → LeftInv T S s')
    (h : One nested env perf defs t s s') (hI : LeftInv T S s) : LeftInv T S s' := by
  obtain ⟨l1, w1, s2, w3, l2, p, hb, hr, he, hl, hpp, hevs, hu⟩ := h
  have K : Keeps false t perf (LeftInv T (t :: S)) := by
    refine ⟨fun s w tc h => ⟨h.1, fun v hv hn => ?_⟩, fun s v h => ⟨h.1, fun t ht hn => by rw [standsPassed_snoc]; simpa using h.2 t ht hn⟩, hp _⟩
    rw [show ({ s with w := w } : NSt).w.tc v = s.w.tc v from tc.tc v (fun c => hn (by simp [c]))]
    exact h.2 v hv hn
  have i0 : LeftInv T (t :: S) ⟨{ s.u with lapse := l1 }, w1, s.evs ++ [.began nested t]⟩ := by
    refine ⟨hI.1, fun v hv hn => ?_⟩
    simp only [List.mem_cons, not_or] at hn
    show (w1.tc v).status = _ ↔ _
    rw [hb.tc, beginTest_keeps_status _ _ _ _ hn.1, standsPassed_snoc, hI.2 v hv hn.2]
    simp
  have i2 := nrun_keeps K env _ _ _ (by simp) hr i0
  refine ⟨by rw [hu]; exact i2.1, fun v hv hn => ?_⟩
  rw [hevs, standsPassed_snoc]
  by_cases hvt : v = t
  · subst hvt
    rw [hpp]
    by_cases hs : (s'.w.tc v).status = .success <;> simp [hs]
  · rw [hl.tc, endTest_keeps_status _ _ _ _ he, i2.2 v hv (by simp [hvt, hn])]
    have : ¬ t = v := fun e => hvt e.symm
    simp [this]

theorem LeftInv.performAt (env : Env) (defs : Nat → NDef) (T : List Nat) (n : Nat) :
    ∀ S s name s' r, LeftInv T S s → Fut.performAt env defs n s name = .ok (s', r) → LeftInv T S s' := by
  induction n with
  | zero => intro S s name s' r _ h; cases h
  | succ n ih =>
    intro S s name s' r hI h
    rcases performWith_one env _ defs s s' name r h with rfl | ⟨t, h1⟩
    · exact LeftInv.reset T S s hI.1
    · exact LeftInv.one true env _ defs t T S _ _ ih h1 (LeftInv.reset T S s hI.1)

/-! ### The streams -/

/-- Where a stream goes while the tests of a stack run. -/
def topOf (c : Bool) (cap : Nat → Buf) (o : Buf) : List Nat → Buf
  | [] => o
  | t :: _ => if c then cap t else o

/-- The streams and the buffers to be put back are those of a stack of tests under way. -/
def Chain (c : Bool) (o e : Buf) : List Nat → World → Prop
  | [], w => w.cout = o ∧ w.cerr = e
  | t :: S, w => w.cout = topOf c .capOut o (t :: S) ∧ w.cerr = topOf c .capErr e (t :: S) ∧
      ∀ pre u rest, t :: S = pre ++ u :: rest → c = true → (w.tc u).outbuf = some (topOf c .capOut o rest) ∧ (w.tc u).errbuf = some (topOf c .capErr e rest)

theorem underWay_snoc (evs : List FEv) (e : FEv) : underWay (evs ++ [e]) = match underWay evs, e with
    | none, _ => none
    | some st, .reset | some st, .verbose _ => some st
    | some st, .began _ t => if t ∈ st then none else some (t :: st)
    | some st, .ended _ _ _ => some st.tail := by
  unfold underWay
  rw [List.foldl_append]
  rfl

theorem underWay_verbose (evs : List FEv) (v : Nat) : underWay (evs ++ [.verbose v]) = underWay evs := by
  rw [underWay_snoc]
  cases underWay evs <;> rfl

/-- As long as no test was begun while under way, the tests `st` are under way and the streams are theirs. -/
def StreamInv (c : Bool) (o e : Buf) (st : List Nat) (s : NSt) : Prop :=
  s.u.capture = c ∧ ∀ st', underWay s.evs = some st' → st' = st ∧ Chain c o e st s.w

theorem Chain.top {c : Bool} {o e : Buf} {st : List Nat} {w : World} (h : Chain c o e st w) :
    w.cout = topOf c .capOut o st ∧ w.cerr = topOf c .capErr e st := by
  cases st with
  | nil => exact h
  | cons t S => exact ⟨h.1, h.2.1⟩

theorem Chain.bufs {c : Bool} {o e : Buf} {st : List Nat} {w : World} (h : Chain c o e st w) (pre : List Nat) (u : Nat) (rest : List Nat)
    (hs : st = pre ++ u :: rest) (hc : c = true) : (w.tc u).outbuf = some (topOf c .capOut o rest) ∧ (w.tc u).errbuf = some (topOf c .capErr e rest) := by
  cases st with
  | nil => simp at hs
  | cons t S => exact h.2.2 pre u rest hs hc

theorem Chain.mk' {c : Bool} {o e : Buf} {st : List Nat} {w : World} (h1 : w.cout = topOf c .capOut o st) (h2 : w.cerr = topOf c .capErr e st)
    (h3 : ∀ pre u rest, st = pre ++ u :: rest → c = true → (w.tc u).outbuf = some (topOf c .capOut o rest) ∧ (w.tc u).errbuf = some (topOf c .capErr e rest)) :
    Chain c o e st w := by
  cases st with
  | nil => exact ⟨h1, h2⟩
  | cons t S => exact ⟨h1, h2, h3⟩

theorem Chain.touch {c : Bool} {o e : Buf} {t : Nat} {st : List Nat} {w w' : World} (h : Chain c o e st w) (ht : Touch true t w w') : Chain c o e st w' := by
  refine Chain.mk' ((ht.cout rfl).trans h.top.1) ((ht.cerr rfl).trans h.top.2) (fun pre u rest hs hc => ?_)
  by_cases hu : u = t
  · subst hu; rw [ht.outbuf, ht.errbuf]; exact h.bufs pre u rest hs hc
  · rw [ht.tc u hu]; exact h.bufs pre u rest hs hc

theorem Chain.like {c : Bool} {o e : Buf} {st : List Nat} {w w' : World} (h : Chain c o e st w) (hl : Like w w') : Chain c o e st w' :=
  Chain.mk' (hl.cout.trans h.top.1) (hl.cerr.trans h.top.2) (fun pre u rest hs hc => by rw [hl.tc]; exact h.bufs pre u rest hs hc)

theorem Chain.begin {c : Bool} {o e : Buf} {t : Nat} {st : List Nat} {w : World} (h : Chain c o e st w) (ht : t ∉ st) :
    Chain c o e (t :: st) (beginTest c t w) := by
  cases c
  · have h1 := h.top
    refine Chain.mk' ?_ ?_ (fun _ _ _ _ hc => nomatch hc)
    · show w.cout = o
      rw [h1.1]; cases st <;> rfl
    · show w.cerr = e
      rw [h1.2]; cases st <;> rfl
  · refine Chain.mk' rfl rfl (fun pre u rest hs hc => ?_)
    cases pre with
    | nil =>
      simp only [List.nil_append, List.cons.injEq] at hs
      obtain ⟨rfl, rfl⟩ := hs
      have h1 := h.top
      simp [beginTest, setStatus, World.setTc, h1.1, h1.2]
    | cons a pre =>
      simp only [List.cons_append, List.cons.injEq] at hs
      obtain ⟨rfl, hs⟩ := hs
      have hu : u ≠ t := fun c => ht (by rw [hs, ← c]; simp)
      have := h.bufs pre u rest hs hc
      simp [beginTest, setStatus, World.setTc, hu, this.1, this.2]

theorem Chain.end {c : Bool} {o e : Buf} {t : Nat} {st : List Nat} {w w' : World} (h : Chain c o e (t :: st) w)
    (he : endTest c t w = .ok w') : Chain c o e st w' := by
  cases c
  · cases he
    have h1 := h.top
    refine Chain.mk' ?_ ?_ (fun _ _ _ _ hc => nomatch hc)
    · rw [h1.1]; cases st <;> rfl
    · rw [h1.2]; cases st <;> rfl
  · have h1 := h.bufs [] t st rfl rfl
    unfold endTest at he
    simp only [if_true, h1.1, h1.2] at he
    cases he
    refine Chain.mk' rfl rfl (fun pre u rest hs hc => ?_)
    have := h.bufs (t :: pre) u rest (by rw [hs]; rfl) hc
    by_cases hu : u = t
    · subst hu
      have e1 := Option.some.inj (h1.1.symm.trans this.1)
      have e2 := Option.some.inj (h1.2.symm.trans this.2)
      simp [World.setTc, e1, e2]
    · simpa [World.setTc, hu] using this

theorem StreamInv.one (nested : Bool) (env : Env) (perf : Perf) (defs : Nat → NDef) (t : Nat) (c : Bool) (o e : Buf) (st : List Nat) (s s' : NSt)
    (hq : ∀ t k, ((defs t).script k).KeepsStreams)
    (hp : ∀ st s n s' r, StreamInv c o e st s → perf s n = .ok (s', r) → StreamInv c o e st s')
    (h : One nested env perf defs t s s') (hI : StreamInv c o e st s) : StreamInv c o e st s' := by
  obtain ⟨l1, w1, s2, w3, l2, p, hb, hr, he, hl, hpp, hevs, hu⟩ := h
  have K : Keeps true t perf (StreamInv c o e (t :: st)) := by
    refine ⟨fun s w tc h => ⟨h.1, fun st' h' => ?_⟩, fun s v h => ⟨h.1, fun st' h' => h.2 st' (by rw [← underWay_verbose]; exact h')⟩, hp _⟩
    obtain ⟨a, b⟩ := h.2 st' h'
    exact ⟨a, b.touch tc⟩
  have i0 : StreamInv c o e (t :: st) ⟨{ s.u with lapse := l1 }, w1, s.evs ++ [.began nested t]⟩ := by
    refine ⟨hI.1, fun st' h' => ?_⟩
    have h' : underWay (s.evs ++ [.began nested t]) = some st' := h'
    rw [underWay_snoc] at h'
    cases hw : underWay s.evs with
    | none => rw [hw] at h'; cases h'
    | some st0 =>
      rw [hw] at h'
      obtain ⟨rfl, hc⟩ := hI.2 _ hw
      dsimp only at h'
      split at h'
      · cases h'
      · rename_i hn
        cases h'
        refine ⟨rfl, Chain.like ?_ hb⟩
        rw [hI.1]
        exact hc.begin hn
  have i2 := nrun_keeps K env _ _ _ (fun _ => hq t) hr i0
  refine ⟨by rw [hu]; exact i2.1, fun st' h' => ?_⟩
  rw [hevs, underWay_snoc] at h'
  cases hw : underWay s2.evs with
  | none => rw [hw] at h'; cases h'
  | some st0 =>
    rw [hw] at h'
    obtain ⟨rfl, hc⟩ := i2.2 _ hw
    cases h'
    refine ⟨rfl, Chain.like ?_ hl⟩
    rw [i2.1] at he
    exact hc.end he

theorem StreamInv.reset {c : Bool} {o e : Buf} {st : List Nat} {s : NSt} (h : StreamInv c o e st s) : StreamInv c o e st s.reset := by
  refine ⟨h.1, fun st' h' => ?_⟩
  have h' : underWay (s.evs ++ [.reset]) = some st' := h'
  rw [underWay_snoc] at h'
  cases hw : underWay s.evs with
  | none => rw [hw] at h'; cases h'
  | some st0 =>
    rw [hw] at h'
    obtain ⟨rfl, hc⟩ := h.2 _ hw
    cases h'
    refine ⟨rfl, Chain.mk' hc.top.1 hc.top.2 (fun pre u rest hs hc' => ?_)⟩
    have := hc.bufs pre u rest hs hc'
    show ((if u ∈ s.u.tests then { s.w.tc u with status := Status.none } else s.w.tc u).outbuf = _) ∧ ((if u ∈ s.u.tests then { s.w.tc u with status := Status.none } else s.w.tc u).errbuf = _)
    split
    · exact this
    · exact this

theorem StreamInv.performAt (env : Env) (defs : Nat → NDef) (c : Bool) (o e : Buf) (hq : ∀ t k, ((defs t).script k).KeepsStreams) (n : Nat) :
    ∀ st s name s' r, StreamInv c o e st s → Fut.performAt env defs n s name = .ok (s', r) → StreamInv c o e st s' := by
  induction n with
  | zero => intro st s name s' r _ h; cases h
  | succ n ih =>
    intro st s name s' r hI h
    rcases performWith_one env _ defs s s' name r h with rfl | ⟨t, h1⟩
    · exact hI.reset
    · exact StreamInv.one true env _ defs t c o e st _ _ hq ih h1 hI.reset

end Falcon.Fut
