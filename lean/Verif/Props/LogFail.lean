import Verif.Proofs.LogFail
import Verif.Props.LogSystem
/-
C135: the log system when memory runs out.
-/
namespace Falcon.Log

variable {rx : Rx} {n : Nat} {t b : Bool} {f f' : FSt} {es : List FEv}

/-- C135: whatever fails, no memory error occurs, and the messages that were accepted are served in
order, each at most once. -/
theorem C135_safe_partial (h : FExec rx (finit n t b) f es) : (∀ u, .ev (.fault u) ∉ es) ∧ dispatched (evs es) <+: accepted (evs es) := by
  have hm := fexec_mem h
  refine ⟨fun u hu => ?_, ?_⟩
  · exact hm.nofault u (List.mem_filterMap.2 ⟨_, hu, rfl⟩)
  · have hf := hm.fifo
    have : (dispatched (evs es)).map some <+: (accepted (evs es)).map some := by
      rw [hf, List.append_assoc]; exact List.prefix_append _ _
    exact (List.prefix_map_iff_of_injective (fun _ _ h => Option.some.inj h)).1 this

/-- What the caller can see of the system: which messages wait, who listens with which settings, the
level, and that it runs. -/
def Seen (s : St) : List Addr × List LId × List LId × (LId → Lst) × Int × Bool × LPc := (s.queue, s.pending, s.active, s.lst, s.level, s.terminated, s.lt)

/-- C135: a call that fails with an exception leaves queue, listeners, filters and levels as they were,
except for category() failing late; and its thread can make its next call. -/
theorem C135_unchanged_partial (a : Act) (i : Nat) (op : Option Op) (h : fstep rx f (.fail a) = some (f', .badAlloc i op)) :
    Seen f'.base = Seen f.base ∧ f'.base.cl[i]? = some .idle ∧ f'.dead = false := by
  simp only [fstep] at h
  split at h
  · cases h
  · rename_i hd
    cases a with
    | spurious => cases h
    | call j op' =>
      simp only at h
      split at h
      · rename_i hi
        cases op' <;> simp only [failCall] at h
        case addListener => cases h; exact ⟨rfl, hi, by simpa using hd⟩
        case category => split at h <;> cases h; exact ⟨rfl, hi, by simpa using hd⟩
        case start => split at h <;> cases h; exact ⟨rfl, hi, by simpa using hd⟩
        all_goals cases h
      · cases h
    | cli j =>
      simp only at h
      split at h
      · rename_i pc hi
        have hlt : j < f.base.cl.length := by
          rcases Nat.lt_or_ge j f.base.cl.length with h | h
          · exact h
          · rw [List.getElem?_eq_none h] at hi; cases hi
        have hset : (f.base.cl.set j CPc.idle)[j]? = some .idle := by simp [hlt]
        cases pc <;> simp only [failCli] at h
        case alloc => split at h <;> cases h; exact ⟨rfl, hset, by simpa using hd⟩
        case construct => cases h; exact ⟨rfl, hset, by simpa using hd⟩
        case extNew => cases h; exact ⟨rfl, hset, by simpa using hd⟩
        case enqueue => cases h
        all_goals cases h
      · cases h
    | log =>
      simp only [failLog] at h
      split at h
      · split at h <;> cases h
      · split at h
        · split at h <;> cases h
        · cases h
      · split at h <;> cases h
      · cases h

/-- C135, the account: objects the caller can no longer find. `lost` were taken from the pool or made
for a call whose message could not be built; `phantom` were counted and not made. -/
theorem C135_account_partial (h : FExec rx (finit n t b) f es) :
    64 + (getDiags f.base).msgsCreated + f.base.external
      = (getDiags f.base).poolSize + (getDiags f.base).msgsDiscarded + f.base.queue.length + inHands f.base + inProcess f.base + f.lost.length + f.phantom := by
  have hb := (fexec_mem h).balance
  have e1 : (f.base.cl.map cHeld).sum = inHands f.base := by
    unfold inHands
    generalize f.base.cl = cl
    induction cl with
    | nil => rfl
    | cons pc cl ih =>
      rw [List.map_cons, List.sum_cons, ih]
      cases pc <;> simp [cHeld] <;> omega
  have e2 : lHeld f.base.lt = inProcess f.base := by unfold inProcess; cases f.base.lt <;> rfl
  simp only [adj] at hb
  rw [e1, e2] at hb
  simp only [getDiags]
  have : threshold = 64 := rfl
  omega

/-- C135: lost storage is in nobody's hands: not in the pool, not in the queue, not with any thread; and
the destructor frees everything else, and nothing twice. -/
theorem C135_destructor_partial (h : FExec rx (finit n t b) f es) (hi : ∀ pc ∈ f.base.cl, pc = .idle) (hl : f.base.lt = .none) :
    (∃ h', destroy f.base = .ok h' ∧ ∀ a, h' a = none) ∧ ∀ a ∈ f.lost, a ∉ f.base.pool ∧ a ∉ f.base.queue := by
  have hm := fexec_mem h
  refine ⟨?_, fun a ha => ?_⟩
  · have := destroy_frees hm hi hl
    exact this
  · have h1 := hm.count a
    have h2 : (adj (f.lost.length + f.phantom) f.base).heap a = none := ((fexec_lost h).gone a ha).1
    rw [h2] at h1
    simp only [cnt, adj] at h1
    exact ⟨fun hp => by have := count_pos_of_mem hp; omega, fun hq => by have := count_pos_of_mem hq; omega⟩

/-- A schedule, executed. -/
def frun (rx : Rx) : FSt → List FAct → Option (FSt × List FEv)
  | f, [] => some (f, [])
  | f, a :: as =>
    match fstep rx f a with
    | none => none
    | some (f', e) =>
      match frun rx f' as with
      | none => none
      | some (f'', es) => some (f'', e :: es)

theorem FExec.append {f0 f1 f2 : FSt} {es1 es2 : List FEv} (h1 : FExec rx f0 f1 es1) (h2 : FExec rx f1 f2 es2) : FExec rx f0 f2 (es1 ++ es2) := by
  induction h2 with
  | nil => simpa using h1
  | snoc _ hs ih => rw [← List.append_assoc]; exact .snoc ih hs

theorem fexec_of_frun (as : List FAct) : ∀ {f f' : FSt} {es : List FEv}, frun rx f as = some (f', es) → FExec rx f f' es := by
  induction as with
  | nil => intro f f' es h; cases h; exact .nil
  | cons a as ih =>
    intro f f' es h
    simp only [frun] at h
    split at h
    · cases h
    · rename_i f1 e1 h1
      split at h
      · cases h
      · rename_i f2 es2 h2
        cases h
        exact (FExec.snoc .nil h1).append (ih h2)

theorem late_dead {act : Act} {p : FSt × FEv} (h : fstep rx f (.failLate act) = some p) : f.dead = false := by
  cases act with
  | call i op =>
    cases op with
    | category l re => simp only [fstep] at h; split at h; · cases h
                       · rename_i hd; simpa using hd
    | _ => cases h
  | _ => cases h

theorem late_ev {act : Act} {e : FEv} (h : fstep rx f (.failLate act) = some (f', e)) : (∃ i op, e = .badAlloc i op) ∧ f'.dead = f.dead := by
  cases act with
  | call i op =>
    cases op with
    | category l re =>
      simp only [fstep] at h
      split at h
      · cases h
      · split at h
        · split at h
          · cases h; exact ⟨⟨_, _, rfl⟩, rfl⟩
          · cases h
        · cases h
    | _ => cases h
  | _ => cases h

/-- Where a failing allocation, or a failing match, ends the program: log() putting its message in the
queue; the logging thread taking over new listeners, matching a category that is not empty with an
expression, or returning a message to a pool that is not full. -/
def Fatal (s : St) (a : Act) : Prop :=
  (∃ i m x, a = .cli i ∧ s.cl[i]? = some (.enqueue m x)) ∨
  (a = .log ∧ ((∃ x, s.lt = .got x ∧ s.pending ≠ []) ∨
    (∃ x l rem m, s.lt = .test x l .category rem ∧ s.heap x = some m ∧ m.cat ≠ [] ∧ (s.lst l).category ≠ []) ∨
    ∃ x, s.lt = .dispose x ∧ s.pool.length < 64))

/-- C135, exactly: a failure ends the program in these places and no others, and changes nothing else. -/
theorem C135_fatal_partial (a : FAct) :
    fstep rx f a = some (f', .terminate) ↔ f.dead = false ∧ f' = { f with dead := true } ∧ ∃ act, a = .fail act ∧ Fatal f.base act := by
  constructor
  · intro h
    cases a with
    | ok act =>
      simp only [fstep] at h
      split at h
      · cases h
      · split at h <;> cases h
    | failLate act => obtain ⟨⟨_, _, e⟩, _⟩ := late_ev h; cases e
    | fail act =>
      simp only [fstep] at h
      split at h
      · cases h
      · rename_i hd
        have hd : f.dead = false := by simpa using hd
        cases act with
        | spurious => cases h
        | call i op =>
          simp only at h
          split at h
          · cases op <;> simp only [failCall] at h
            case addListener => cases h
            case category => split at h <;> cases h
            case start => split at h <;> cases h
            all_goals cases h
          · cases h
        | cli i =>
          simp only at h
          split at h
          · rename_i pc hi
            cases pc <;> simp only [failCli] at h
            case alloc => split at h <;> cases h
            case construct => cases h
            case extNew => cases h
            case enqueue m x => cases h; exact ⟨hd, rfl, _, rfl, .inl ⟨i, m, x, rfl, hi⟩⟩
            all_goals cases h
          · cases h
        | log =>
          simp only [failLog] at h
          split at h
          · rename_i x hl
            split at h
            · cases h
            · rename_i hp; cases h; exact ⟨hd, rfl, _, rfl, .inr ⟨rfl, .inl ⟨x, hl, hp⟩⟩⟩
          · rename_i x l rem hl
            split at h
            · rename_i m hm
              split at h
              · cases h
              · rename_i hp
                cases h
                exact ⟨hd, rfl, _, rfl, .inr ⟨rfl, .inr (.inl ⟨x, l, rem, m, hl, hm, fun e => hp (.inl e), fun e => hp (.inr e)⟩)⟩⟩
            · cases h
          · rename_i x hl
            split at h
            · rename_i hp; cases h; exact ⟨hd, rfl, _, rfl, .inr ⟨rfl, .inr (.inr ⟨x, hl, hp⟩)⟩⟩
            · cases h
          · cases h
  · rintro ⟨hd, rfl, act, rfl, ⟨i, m, x, rfl, hi⟩ | ⟨rfl, ⟨x, hl, hp⟩ | ⟨x, l, rem, m, hl, hm, h1, h2⟩ | ⟨x, hl, hp⟩⟩⟩
    · simp [fstep, hd, hi, failCli]
    · simp [fstep, hd, failLog, hl, hp]
    · simp [fstep, hd, failLog, hl, hm, h1, h2]
    · simp [fstep, hd, failLog, hl, threshold, hp]

/-- C135: and then nothing happens any more: the end is the last thing observed. -/
theorem C135_last_partial (h : FExec rx (finit n t b) f es) : .terminate ∈ es ↔ ∃ es', es = es' ++ [.terminate] ∧ .terminate ∉ es' ∧ f.dead = true := by
  have key : (f.dead = false ∧ .terminate ∉ es) ∨ (f.dead = true ∧ ∃ es', es = es' ++ [.terminate] ∧ .terminate ∉ es') := by
    induction h with
    | nil => exact .inl ⟨rfl, by simp⟩
    | @snoc f1 f2 es1 a e hx hs ih =>
      rcases ih with ⟨h1, h2⟩ | ⟨h1, -⟩
      · by_cases he : e = .terminate
        · subst he
          obtain ⟨-, e2, -⟩ := (C135_fatal_partial a).1 hs
          exact .inr ⟨by rw [e2], es1, rfl, h2⟩
        · refine .inl ⟨?_, by simp [h2, Ne.symm he]⟩
          cases hd : f2.dead with
          | false => rfl
          | true =>
            exfalso
            cases a with
            | ok act =>
              simp only [fstep, h1, Bool.false_eq_true, if_false] at hs
              split at hs
              · cases hs
              · cases hs; cases hd
            | failLate act => rw [(late_ev hs).2, h1] at hd; cases hd
            | fail act =>
              cases e with
              | terminate => exact he rfl
              | badAlloc i op => have := (C135_unchanged_partial act i op hs).2.2; rw [hd] at this; cases this
              | ev e =>
                simp only [fstep, h1, Bool.false_eq_true, if_false] at hs
                cases act with
                | spurious => cases hs
                | call i op =>
                  simp only at hs
                  split at hs
                  · cases op <;> simp only [failCall] at hs
                    case addListener => cases hs
                    case category => split at hs <;> cases hs
                    case start => split at hs <;> cases hs
                    all_goals cases hs
                  · cases hs
                | cli i =>
                  simp only at hs
                  split at hs
                  · rename_i pc hi
                    cases pc <;> simp only [failCli] at hs
                    case alloc => split at hs <;> cases hs
                    all_goals cases hs
                  · cases hs
                | log =>
                  simp only [failLog] at hs
                  split at hs
                  · split at hs <;> cases hs
                  · split at hs
                    · split at hs <;> cases hs
                    · cases hs
                  · split at hs <;> cases hs
                  · cases hs
      · exfalso
        have : ∀ a, fstep rx f1 a = none := by
          intro a
          cases a with
          | ok act => simp [fstep, h1]
          | fail act => simp [fstep, h1]
          | failLate act =>
            cases h2 : fstep rx f1 (.failLate act) with
            | none => rfl
            | some p => have := late_dead (p := p) h2; rw [h1] at this; cases this
        rw [this] at hs; cases hs
  constructor
  · intro hm
    rcases key with ⟨_, h2⟩ | ⟨h1, es', h2, h3⟩
    · exact absurd hm h2
    · exact ⟨es', h2, h3, h1⟩
  · rintro ⟨es', rfl, -, -⟩; simp

/-- Where a failing allocation becomes an exception: addListener(); category() with an expression that
compiles; start() when there is no logging thread and nobody is in start() or stop(); log() when the
pool is empty, and log() building its message; and the caller's own message. -/
def Throwing (rx : Rx) (s : St) (i : Nat) (a : Act) : Option Op → Prop
  | some op => a = .call i op ∧ s.cl[i]? = some .idle ∧
      ((∃ l, op = .addListener l) ∨ (∃ l re, op = .category l re ∧ rx.valid re = true) ∨ (op = .start ∧ s.lt = .none ∧ s.mtxThread = none))
  | none => a = .cli i ∧ ((∃ m, s.cl[i]? = some (.alloc m) ∧ s.pool = []) ∨ (∃ m x, s.cl[i]? = some (.construct m x)) ∨ ∃ m, s.cl[i]? = some (.extNew m))

/-- C135, exactly: a call throws for want of memory in these places and no others. -/
theorem C135_throws_partial (a : Act) (i : Nat) (op : Option Op) :
    (∃ f', fstep rx f (.fail a) = some (f', .badAlloc i op)) ↔ f.dead = false ∧ Throwing rx f.base i a op := by
  constructor
  · rintro ⟨f', h⟩
    simp only [fstep] at h
    split at h
    · cases h
    · rename_i hd
      refine ⟨by simpa using hd, ?_⟩
      cases a with
      | spurious => cases h
      | call j op' =>
        simp only at h
        split at h
        · rename_i hi
          cases op' <;> simp only [failCall] at h
          case addListener l => cases h; exact ⟨rfl, hi, .inl ⟨l, rfl⟩⟩
          case category l re =>
            split at h
            · rename_i hv; cases h; exact ⟨rfl, hi, .inr (.inl ⟨l, re, rfl, hv⟩)⟩
            · cases h
          case start =>
            split at h
            · rename_i h1 h2; cases h; exact ⟨rfl, hi, .inr (.inr ⟨rfl, h2, h1⟩)⟩
            · cases h
          all_goals cases h
        · cases h
      | cli j =>
        simp only at h
        split at h
        · rename_i pc hi
          cases pc <;> simp only [failCli] at h
          case alloc m =>
            split at h
            · rename_i hp; cases h; exact ⟨rfl, .inl ⟨m, hi, hp⟩⟩
            · cases h
          case construct m x => cases h; exact ⟨rfl, .inr (.inl ⟨m, x, hi⟩)⟩
          case extNew m => cases h; exact ⟨rfl, .inr (.inr ⟨m, hi⟩)⟩
          all_goals cases h
        · cases h
      | log =>
        simp only [failLog] at h
        split at h
        · split at h <;> cases h
        · split at h
          · split at h <;> cases h
          · cases h
        · split at h <;> cases h
        · cases h
  · rintro ⟨hd, ht⟩
    cases op with
    | some op =>
      obtain ⟨rfl, hi, ⟨l, rfl⟩ | ⟨l, re, rfl, hv⟩ | ⟨rfl, h1, h2⟩⟩ := ht
      · exact ⟨_, by simp only [fstep, hd, hi, failCall]; rfl⟩
      · exact ⟨_, by simp only [fstep, hd, hi, failCall, hv]; rfl⟩
      · exact ⟨_, by simp only [fstep, hd, hi, failCall, h1, h2]; rfl⟩
    | none =>
      obtain ⟨rfl, ⟨m, hi, hp⟩ | ⟨m, x, hi⟩ | ⟨m, hi⟩⟩ := ht
      · exact ⟨_, by simp only [fstep, hd, hi, failCli, hp]; rfl⟩
      · exact ⟨_, by simp only [fstep, hd, hi, failCli]; rfl⟩
      · exact ⟨_, by simp only [fstep, hd, hi, failCli]; rfl⟩

/-- One call of log() whose message cannot be built. -/
def badLog : List FAct := [.ok (.call 0 (.log (demoMsg 1))), .ok (.cli 0), .ok (.cli 0), .fail (.cli 0)]

theorem badLog_once {s : St} {lost : List Addr} {p : List Addr} {a : Addr} (hc : s.cl = [.idle]) (hv : s.level = 5) (hp : s.pool = p ++ [a]) :
    frun demoRx { base := s, lost := lost } badLog =
      some ({ base := { s with pool := p, heap := setHeap s.heap a none }, lost := lost ++ [a] },
        [.ev (.call 0 (.log (demoMsg 1))), .ev (.pass 0 (demoMsg 1)), .ev .tau, .badAlloc 0 none]) := by
  simp [frun, badLog, fstep, step, hc, beginCall, Log.resume, hv, demoMsg, allocate, hp, failCli]

/-- C135 is false: each call of log() that fails while building its message takes an object out of the
pool for ever: after 64 of them the pool is empty, and nothing was ever logged. -/
theorem C135_pool_refuted : ∃ f es, FExec demoRx (finit 1 false true) f es ∧ accepted (evs es) = [] ∧ (∀ pc ∈ f.base.cl, pc = .idle) ∧
    f.base.queue = [] ∧ f.base.pool = [] ∧ f.lost.length = 64 ∧ f.phantom = 0 := by
  have key : ∀ k, k ≤ 64 → ∃ f es, FExec demoRx (finit 1 false true) f es ∧ accepted (evs es) = [] ∧ f.base.cl = [.idle] ∧
      f.base.queue = [] ∧ f.base.pool = List.range (64 - k) ∧ f.lost.length = k ∧ f.phantom = 0 ∧ f.dead = false ∧ f.base.level = 5 := by
    intro k
    induction k with
    | zero => intro _; exact ⟨_, [], .nil, rfl, rfl, rfl, rfl, rfl, rfl, rfl, rfl⟩
    | succ k ih =>
      intro hk
      obtain ⟨f, es, h1, h2, h3, h4, h5, h6, h7, h8, h9⟩ := ih (by omega)
      have hr : f.base.pool = List.range (64 - (k + 1)) ++ [64 - (k + 1)] := by
        rw [h5, ← List.range_succ]; congr 1; omega
      have := badLog_once (lost := f.lost) h3 h9 hr
      have hf : f = { base := f.base, lost := f.lost } := by
        cases f; simp only at h7 h8; subst h7; subst h8; rfl
      rw [← hf] at this
      refine ⟨_, _, h1.append (fexec_of_frun _ this), ?_, h3, h4, rfl, ?_, rfl, rfl, h9⟩
      · have : ∀ a b : List FEv, evs (a ++ b) = evs a ++ evs b := fun a b => by simp [evs]
        rw [this, accepted_append, h2]; rfl
      · show (f.lost ++ [_]).length = _
        rw [List.length_append, h6]; rfl
  obtain ⟨f, es, h1, h2, h3, h4, h5, h6, h7, _⟩ := key 64 (by omega)
  exact ⟨f, es, h1, h2, by rw [h3]; simp, h4, h5, h6, h7⟩

/-- C135 is false: log() terminates the program when its message cannot be queued. -/
theorem C135_terminate_refuted : ∃ f es, FExec demoRx (finit 1 false true) f (es ++ [.terminate]) ∧ .ev (.pass 0 (demoMsg 1)) ∈ es ∧ f.dead = true := by
  have h := fexec_of_frun (rx := demoRx) (f := finit 1 false true) [.ok (.call 0 (.log (demoMsg 1))), .ok (.cli 0), .ok (.cli 0), .ok (.cli 0), .fail (.cli 0)] rfl
  exact ⟨_, [.ev (.call 0 (.log (demoMsg 1))), .ev (.pass 0 (demoMsg 1)), .ev .tau, .ev .tau], h, by simp, rfl⟩

/-- C135 is false: a failing category() can leave a filter that is neither the old nor the new one: the
text still says "accept everything" or the old expression, the compiled expression is the new one. -/
theorem C135_filter_refuted : ∃ f es, FExec demoRx (finit 1 false true) f es ∧ (f.base.lst 7).category = ['a'] ∧ (f.base.lst 7).regex = some ['b'] ∧
    checkCategory demoRx (f.base.lst 7) ['a'] = false ∧ checkCategory demoRx (f.base.lst 7) ['b'] = true := by
  have h := fexec_of_frun (rx := demoRx) (f := finit 1 false true) [.ok (.call 0 (.category 7 ['a'])), .failLate (.call 0 (.category 7 ['b']))] rfl
  exact ⟨_, _, h, rfl, rfl, rfl, rfl⟩

/-- C135 is false: the diagnostics count a message that was never made. -/
theorem C135_counter_refuted : ∃ f es, FExec demoRx (finit 1 false true) f es ∧ accepted (evs es) = [] ∧ (getDiags f.base).msgsCreated = 1 ∧
    f.base.next = 64 := by
  have key : ∃ f es, FExec demoRx (finit 1 false true) f es ∧ accepted (evs es) = [] ∧ f.base.cl = [.idle] ∧ f.base.pool = [] ∧ f.dead = false ∧
      f.base.level = 5 ∧ f.base.unpooled = 0 ∧ f.base.next = 64 := by
    have key : ∀ k, k ≤ 64 → ∃ f es, FExec demoRx (finit 1 false true) f es ∧ accepted (evs es) = [] ∧ f.base.cl = [.idle] ∧
        f.base.pool = List.range (64 - k) ∧ f.phantom = 0 ∧ f.dead = false ∧ f.base.level = 5 ∧ f.base.unpooled = 0 ∧ f.base.next = 64 := by
      intro k
      induction k with
      | zero => intro _; exact ⟨_, [], .nil, rfl, rfl, rfl, rfl, rfl, rfl, rfl, rfl⟩
      | succ k ih =>
        intro hk
        obtain ⟨f, es, h1, h2, h3, h5, h7, h8, h9, h10, h11⟩ := ih (by omega)
        have hr : f.base.pool = List.range (64 - (k + 1)) ++ [64 - (k + 1)] := by
          rw [h5, ← List.range_succ]; congr 1; omega
        have := badLog_once (lost := f.lost) h3 h9 hr
        have hf : f = { base := f.base, lost := f.lost } := by
          cases f; simp only at h7 h8; subst h7; subst h8; rfl
        rw [← hf] at this
        refine ⟨_, _, h1.append (fexec_of_frun _ this), ?_, h3, rfl, rfl, rfl, h9, h10, h11⟩
        have : ∀ a b : List FEv, evs (a ++ b) = evs a ++ evs b := fun a b => by simp [evs]
        rw [this, accepted_append, h2]; rfl
    obtain ⟨f, es, h1, h2, h3, h4, _, h5, h6, h7, h8⟩ := key 64 (by omega)
    exact ⟨f, es, h1, h2, h3, h4, h5, h6, h7, h8⟩
  obtain ⟨f, es, h1, h2, h3, h4, h5, h6, h7, h8⟩ := key
  have hrun : ∃ f', frun demoRx f [.ok (.call 0 (.log (demoMsg 1))), .ok (.cli 0), .fail (.cli 0)] =
      some (f', [.ev (.call 0 (.log (demoMsg 1))), .ev (.pass 0 (demoMsg 1)), .badAlloc 0 none]) ∧ f'.base.unpooled = 1 ∧ f'.base.next = 64 := by
    simp [frun, fstep, h5, step, h3, beginCall, Log.resume, h6, demoMsg, failCli, h4, h7, h8]
  obtain ⟨f', r1, r2, r3⟩ := hrun
  refine ⟨f', _, h1.append (fexec_of_frun _ r1), ?_, r2, r3⟩
  have : ∀ a b : List FEv, evs (a ++ b) = evs a ++ evs b := fun a b => by simp [evs]
  rw [this, accepted_append, h2]; rfl

/-- Non-vacuity: a call fails while another thread's message is being served, and both go on. -/
example : ∃ f es, FExec demoRx (finit 2 false true) f es ∧ dispatched (evs es) = [demoMsg 1] ∧ .badAlloc 1 none ∈ es ∧ accepted (evs es) = [demoMsg 1, demoMsg 3] ∧
    f.lost = [62] := by
  have h := fexec_of_frun (rx := demoRx) (f := finit 2 false true) [.ok (.call 0 (.log (demoMsg 1))), .ok (.cli 0), .ok (.cli 0), .ok (.cli 0), .ok (.cli 0),
    .ok .log, .ok (.call 1 (.log (demoMsg 2))), .ok (.cli 1), .ok (.cli 1), .ok .log, .fail (.cli 1), .ok (.call 1 (.log (demoMsg 3))), .ok (.cli 1), .ok (.cli 1), .ok (.cli 1), .ok (.cli 1)] rfl
  exact ⟨_, _, h, rfl, by decide, rfl, rfl⟩

end Falcon.Log
