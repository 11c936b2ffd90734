import Verif.Spec.LogTrace
/-
The step function as a relation with one constructor per kind of step (proof device only).
-/
namespace Falcon.Log

inductive Step (rx : Rx) (s : St) : Ev → St → Prop where
  | callLog (i : Nat) (m : Msg) : s.cl[i]? = some .idle → Step rx s (.call i (.log m)) { s with cl := s.cl.set i (.check m) }
  | callLogPtr (i : Nat) (m : Msg) : s.cl[i]? = some .idle → Step rx s (.call i (.logPtr m)) { s with cl := s.cl.set i (.extNew m) }
  | callStop (i : Nat) : s.cl[i]? = some .idle → Step rx s (.call i .stop) { s with cl := s.cl.set i .stopSet }
  | addListener (i : Nat) (l : LId) : s.cl[i]? = some .idle → Step rx s (.did i (.addListener l)) { s with pending := s.pending ++ [l] }
  | detach (i : Nat) (l : LId) : s.cl[i]? = some .idle →
      Step rx s (.did i (.detach l)) { s with lst := setLst s.lst l { s.lst l with detached := true } }
  | level (i : Nat) (n : Int) : s.cl[i]? = some .idle → Step rx s (.did i (.level n)) { s with level := n }
  | enable (i : Nat) (l : LId) (b : Bool) : s.cl[i]? = some .idle →
      Step rx s (.did i (.enable l b)) { s with lst := setLst s.lst l { s.lst l with enabled := b } }
  | llevel (i : Nat) (l : LId) (n : Int) : s.cl[i]? = some .idle →
      Step rx s (.did i (.llevel l n)) { s with lst := setLst s.lst l { s.lst l with level := n } }
  | category (i : Nat) (l : LId) (re : Str) : s.cl[i]? = some .idle → rx.valid re = true →
      Step rx s (.did i (.category l re)) { s with lst := setLst s.lst l { s.lst l with regex := some re, category := re } }
  | categoryThrow (i : Nat) (l : LId) (re : Str) : s.cl[i]? = some .idle → rx.valid re = false → Step rx s (.threw i (.category l re)) s
  | start (i : Nat) : s.cl[i]? = some .idle → s.mtxThread = none → s.lt = .none → Step rx s (.did i .start) { s with lt := .top }
  | startAgain (i : Nat) : s.cl[i]? = some .idle → s.mtxThread = none → s.lt ≠ .none → Step rx s (.did i .start) s
  | reject (i : Nat) (m : Msg) : s.cl[i]? = some (.check m) → m.level > s.level →
      Step rx s (.reject i m) { s with cl := s.cl.set i .idle }
  | pass (i : Nat) (m : Msg) : s.cl[i]? = some (.check m) → ¬ m.level > s.level →
      Step rx s (.pass i m) { s with cl := s.cl.set i (.alloc m) }
  | allocPool (i : Nat) (m : Msg) (p : List Addr) (a : Addr) : s.cl[i]? = some (.alloc m) → s.pool = p ++ [a] →
      Step rx s .tau { s with pool := p, cl := s.cl.set i (CPc.construct m a) }
  | allocNew (i : Nat) (m : Msg) : s.cl[i]? = some (.alloc m) → s.pool = [] →
      Step rx s .tau { s with unpooled := s.unpooled + 1, heap := setHeap s.heap s.next (some Msg.default),
                              next := s.next + 1, cl := s.cl.set i (CPc.construct m s.next) }
  | constructFault (i : Nat) (m : Msg) (a : Addr) : s.cl[i]? = some (CPc.construct m a) → s.heap a = none → Step rx s (.fault .useAfterFree) s
  | construct (i : Nat) (m : Msg) (a : Addr) : s.cl[i]? = some (CPc.construct m a) → s.heap a ≠ none →
      Step rx s .tau { s with heap := setHeap s.heap a (some m), cl := s.cl.set i (.enqueue m a) }
  | extNew (i : Nat) (m : Msg) : s.cl[i]? = some (.extNew m) →
      Step rx s .tau { s with heap := setHeap s.heap s.next (some m), next := s.next + 1, external := s.external + 1,
                              cl := s.cl.set i (.enqueue m s.next) }
  | enqueue (i : Nat) (m : Msg) (a : Addr) : s.cl[i]? = some (.enqueue m a) →
      Step rx s (.accept i m) { s with queue := s.queue ++ [a], maxQ := max s.maxQ (s.queue.length + 1),
                                       lt := notify s.lt, cl := s.cl.set i .idle }
  | stopSet (i : Nat) : s.cl[i]? = some .stopSet → Step rx s .tau { s with terminated := true, cl := s.cl.set i .stopNotify }
  | stopNotify (i : Nat) : s.cl[i]? = some .stopNotify → Step rx s .tau { s with lt := notify s.lt, cl := s.cl.set i .stopLock }
  | stopNone (i : Nat) : s.cl[i]? = some .stopLock → s.mtxThread = none → s.lt = .none →
      Step rx s (.stopped i) { s with cl := s.cl.set i .idle }
  | stopLock (i : Nat) : s.cl[i]? = some .stopLock → s.mtxThread = none → s.lt ≠ .none →
      Step rx s .tau { s with mtxThread := some i, cl := s.cl.set i .stopJoin }
  | stopJoin (i : Nat) : s.cl[i]? = some .stopJoin → s.lt = .exited →
      Step rx s (.stopped i) { s with lt := .none, mtxThread := none, cl := s.cl.set i .idle }
  | spurious : s.lt = .wait false → Step rx s .tau { s with lt := .wait true }
  | exit : (s.lt = .top ∨ s.lt = .wait true) → s.terminated = true → Step rx s .exit { s with lt := .exited }
  | sleep : (s.lt = .top ∨ s.lt = .wait true) → s.terminated = false → s.queue = [] →
      Step rx s .sleep { s with lt := .wait false }
  | take (a : Addr) (q : List Addr) : (s.lt = .top ∨ s.lt = .wait true) → s.terminated = false → s.queue = a :: q →
      Step rx s .take { s with queue := q, lt := .got a }
  | gotFault (a : Addr) : s.lt = .got a → s.heap a = none → Step rx s (.fault .useAfterFree) s
  | dispatch (a : Addr) (m : Msg) : s.lt = .got a → s.heap a = some m →
      Step rx s (.dispatch m (s.active ++ s.pending))
        { s with active := s.active ++ s.pending, pending := [], received := s.received + 1,
                 lt := .send a (s.active ++ s.pending) }
  | next (a : Addr) (l : LId) (rem : List LId) : s.lt = .send a (l :: rem) → Step rx s .tau { s with lt := .test a l .enabled rem }
  | doneFault (a : Addr) : s.lt = .send a [] → s.heap a = none → Step rx s (.fault .useAfterFree) s
  | done (a : Addr) (m : Msg) : s.lt = .send a [] → s.heap a = some m → Step rx s (.done m) { s with lt := .clean a [] s.active }
  | testFault (a : Addr) (l : LId) (st : Stage) (rem : List LId) : s.lt = .test a l st rem → s.heap a = none → Step rx s (.fault .useAfterFree) s
  | testEnabled (a : Addr) (l : LId) (rem : List LId) (m : Msg) : s.lt = .test a l .enabled rem → s.heap a = some m →
      Step rx s (.tested l m .enabled (s.lst l).enabled)
        { s with lt := if (s.lst l).enabled then .test a l .level rem else .send a rem }
  | testLevel (a : Addr) (l : LId) (rem : List LId) (m : Msg) : s.lt = .test a l .level rem → s.heap a = some m →
      Step rx s (.tested l m .level (decide ((s.lst l).level ≥ m.level)))
        { s with lt := if (s.lst l).level ≥ m.level then .test a l .category rem else .send a rem }
  | testCategory (a : Addr) (l : LId) (rem : List LId) (m : Msg) : s.lt = .test a l .category rem → s.heap a = some m →
      Step rx s (.tested l m .category (checkCategory rx (s.lst l) m.cat))
        { s with lt := if checkCategory rx (s.lst l) m.cat then .test a l .call rem else .send a rem }
  | deliver (a : Addr) (l : LId) (rem : List LId) (m : Msg) : s.lt = .test a l .call rem → s.heap a = some m →
      Step rx s (.deliver l m) { s with lt := .send a rem }
  | cleanOne (a : Addr) (kept : List LId) (l : LId) (rest : List LId) : s.lt = .clean a kept (l :: rest) →
      Step rx s .tau { s with lt := .clean a (if (s.lst l).detached then kept else kept ++ [l]) rest }
  | cleanEnd (a : Addr) (kept : List LId) : s.lt = .clean a kept [] → Step rx s .tau { s with active := kept, lt := .dispose a }
  | disposePool (a : Addr) : s.lt = .dispose a → s.pool.length < threshold →
      Step rx s .tau { s with pool := s.pool ++ [a], lt := .top }
  | disposeFault (a : Addr) : s.lt = .dispose a → ¬ s.pool.length < threshold → s.heap a = none →
      Step rx s (.fault .doubleFree) { s with lt := .top }
  | disposeDelete (a : Addr) : s.lt = .dispose a → ¬ s.pool.length < threshold → s.heap a ≠ none →
      Step rx s .tau { s with destroyed := s.destroyed + 1, heap := setHeap s.heap a none, lt := .top }

theorem some_inj {α : Type _} {a b : α} (h : some a = some b) : a = b := Option.some.inj h

theorem step_rel {rx : Rx} {s s' : St} {a : Act} {e : Ev} (h : step rx s a = some (s', e)) : Step rx s e s' := by
  cases a with
  | call i op =>
    simp only [step] at h
    split at h
    · rename_i hi
      cases op with
      | log m => cases h; exact .callLog i m hi
      | logPtr m => cases h; exact .callLogPtr i m hi
      | stop => cases h; exact .callStop i hi
      | addListener l => cases h; exact .addListener i l hi
      | level n => cases h; exact .level i n hi
      | enable l b => cases h; exact .enable i l b hi
      | detach l => cases h; exact .detach i l hi
      | llevel l n => cases h; exact .llevel i l n hi
      | category l re =>
        simp only [beginCall, setCategory] at h
        by_cases hv : rx.valid re = true
        · rw [if_pos hv] at h; cases h; exact .category i l re hi hv
        · rw [if_neg hv] at h; cases h; exact .categoryThrow i l re hi (by simpa using hv)
      | start =>
        simp only [beginCall] at h
        split at h
        · cases h
        · rename_i hm
          split at h
          · rename_i hl; cases h; exact .start i hi hm hl
          · rename_i hl; cases h; exact .startAgain i hi hm hl
    · cases h
  | cli i =>
    simp only [step] at h
    split at h
    · rename_i pc hi
      cases pc with
      | idle => cases h
      | check m =>
        simp only [resume] at h
        split at h
        · rename_i hl; cases h; exact .reject i m hi hl
        · rename_i hl; cases h; exact .pass i m hi hl
      | alloc m =>
        simp only [resume, allocate] at h
        cases hp : s.pool.getLast? with
        | none =>
          rw [hp] at h; cases h
          exact .allocNew i m hi (by simpa using hp)
        | some a =>
          rw [hp] at h; cases h
          obtain ⟨p, e⟩ := List.getLast?_eq_some_iff.1 hp
          have : s.pool.dropLast = p := by rw [e]; simp
          rw [this]
          exact .allocPool i m p a hi e
      | construct m a =>
        simp only [resume] at h
        split at h
        · rename_i hh; cases h; exact .constructFault i m a hi hh
        · rename_i hh; cases h; exact .construct i m a hi (by rw [hh]; simp)
      | enqueue m a =>
        simp only [resume] at h; cases h
        have : (if (s.queue ++ [a]).length > s.maxQ then (s.queue ++ [a]).length else s.maxQ)
            = max s.maxQ (s.queue.length + 1) := by
          simp only [List.length_append, List.length_singleton]; split <;> omega
        rw [this]
        exact .enqueue i m a hi
      | extNew m => cases h; exact .extNew i m hi
      | stopSet => cases h; exact .stopSet i hi
      | stopNotify => cases h; exact .stopNotify i hi
      | stopLock =>
        simp only [resume] at h
        split at h
        · cases h
        · rename_i hm
          split at h
          · rename_i hl; cases h; exact .stopNone i hi hm hl
          · rename_i hl; cases h; exact .stopLock i hi hm hl
      | stopJoin =>
        simp only [resume] at h
        split at h
        · rename_i hl; cases h; exact .stopJoin i hi hl
        · cases h
    · cases h
  | spurious =>
    simp only [step] at h
    split at h
    · rename_i hl; cases h; exact .spurious hl
    · cases h
  | log =>
    simp only [step] at h
    have hd : (s.lt = .top ∨ s.lt = .wait true) → some (head s) = some (s', e) → Step rx s e s' := by
      intro hl h
      unfold head at h
      split at h
      · rename_i ht; cases h; exact .exit hl ht
      · rename_i ht hq; cases h; exact .sleep hl ht hq
      · rename_i a q ht hq; cases h; exact .take a q hl ht hq
    unfold logStep at h
    split at h
    · cases h
    · cases h
    · rename_i hl; exact hd (Or.inl hl) h
    · rename_i hl; exact hd (Or.inr hl) h
    · cases h
    · rename_i a hl
      split at h
      · rename_i hh; cases h; exact .gotFault a hl hh
      · rename_i m hh; cases h; exact .dispatch a m hl hh
    · rename_i a l rem hl; cases h; exact .next a l rem hl
    · rename_i a hl
      split at h
      · rename_i hh; cases h; exact .doneFault a hl hh
      · rename_i m hh; cases h; exact .done a m hl hh
    · rename_i a l st rem hl
      split at h
      · rename_i hh; cases h; exact .testFault a l st rem hl hh
      · rename_i m hh
        split at h
        · cases h; exact .testEnabled a l rem m hl hh
        · cases h; exact .testLevel a l rem m hl hh
        · cases h; exact .testCategory a l rem m hl hh
        · cases h; exact .deliver a l rem m hl hh
    · rename_i a kept l rest hl; cases h; exact .cleanOne a kept l rest hl
    · rename_i a kept hl; cases h; exact .cleanEnd a kept hl
    · rename_i a hl
      simp only [dispose] at h
      by_cases hp : s.pool.length < threshold
      · rw [if_pos hp] at h; cases h; exact .disposePool a hl hp
      · rw [if_neg hp] at h
        cases hh : s.heap a with
        | none => rw [hh] at h; cases h; exact .disposeFault a hl hp hh
        | some m => rw [hh] at h; cases h; exact .disposeDelete a hl hp (by rw [hh]; simp)

/-- Invariants of executions. -/
theorem exec_inv {rx : Rx} {s0 s : St} {es : List Ev} (P : St → List Ev → Prop) (h0 : P s0 [])
    (hs : ∀ s es e s', P s es → Step rx s e s' → P s' (es ++ [e])) (h : Exec rx s0 s es) : P s es := by
  induction h with
  | nil => exact h0
  | snoc _ hst ih => exact hs _ _ _ _ ih (step_rel hst)

theorem Exec.append {rx : Rx} {s0 s1 s2 : St} {es1 es2 : List Ev} (h1 : Exec rx s0 s1 es1) (h2 : Exec rx s1 s2 es2) :
    Exec rx s0 s2 (es1 ++ es2) := by
  induction h2 with
  | nil => simpa using h1
  | snoc _ hst ih => rw [← List.append_assoc]; exact .snoc ih hst

theorem exec_of_run {rx : Rx} (as : List Act) : ∀ {s s' : St} {es : List Ev}, run rx s as = some (s', es) → Exec rx s s' es := by
  induction as with
  | nil => intro s s' es h; cases h; exact .nil
  | cons a as ih =>
    intro s s' es h
    simp only [run] at h
    split at h
    · cases h
    · rename_i s1 e h1
      split at h
      · cases h
      · rename_i s2 es2 h2
        cases h
        have := Exec.append (Exec.snoc .nil h1) (ih h2)
        simpa using this

theorem run_of_exec {rx : Rx} {s s' : St} {es : List Ev} (h : Exec rx s s' es) : ∃ as, run rx s as = some (s', es) := by
  have app : ∀ (as : List Act) (a : Act) (s s1 s2 : St) (es : List Ev) (e : Ev),
      run rx s as = some (s1, es) → step rx s1 a = some (s2, e) → run rx s (as ++ [a]) = some (s2, es ++ [e]) := by
    intro as
    induction as with
    | nil =>
      intro a s s1 s2 es e h1 h2
      cases h1
      simp [run, h2]
    | cons b as ih =>
      intro a s s1 s2 es e h1 h2
      simp only [run, List.cons_append] at h1 ⊢
      split at h1
      · cases h1
      · rename_i s3 e3 h3
        split at h1
        · cases h1
        · rename_i s4 es4 h4
          cases h1
          simp only [ih a s3 _ s2 es4 e h4 h2, List.cons_append]
  induction h with
  | nil => exact ⟨[], rfl⟩
  | snoc _ hst ih => obtain ⟨as, e⟩ := ih; exact ⟨_, app as _ _ _ _ _ _ e hst⟩

end Falcon.Log
