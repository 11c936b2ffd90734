import Verif.Proofs.LogLeak
import Verif.Props.LogSystem
/-
C131: memory of logged messages.
-/
namespace Falcon.Log

variable {cap n : Nat} {rx : Rx} {t b : Bool} {s : St} {es : List Ev} {g : Buffers}

/-- Buffers a message needs: one for each of its three texts that is longer than `cap`. -/
def needs (cap : Nat) (m : Msg) : Nat := ([m.file, m.cat, m.text].filter fun x => cap < x.length).length

theorem needs_bufs (cap : Nat) (m : Msg) : needs cap m = bufs cap m := by
  unfold needs bufs
  by_cases h1 : cap < m.file.length <;> by_cases h2 : cap < m.cat.length <;> by_cases h3 : cap < m.text.length <;>
    simp [h1, h2, h3]

/-- Every execution has an account, and it is an execution. -/
theorem C131_account_total (h : Exec rx (init n t b) s es) : ∃ g, LExec cap rx (init n t b) s es g := by
  induction h with
  | nil => exact ⟨_, .nil⟩
  | snoc _ hs ih => obtain ⟨g, hg⟩ := ih; exact ⟨_, .snoc hg hs⟩

/-- C131, the exact account: when every call has returned, the logging thread is joined and the
system is destroyed, the buffers made for the messages of all calls were either freed or lost. -/
theorem C131_account_partial (h : LExec cap rx (init n t b) s es g) (hi : ∀ pc ∈ s.cl, pc = .idle) (hl : s.lt = .none) :
    ((accepted es).map (needs cap)).sum = g.freed + destroyFrees cap s + g.lost := by
  have ha := exec_account h
  have h1 := ha.balance
  have h2 := ha.made
  rw [← destroyFrees_live (exec_mem h.exec) hi hl] at h1
  have hz : (s.cl.map (cBufs cap)).sum = 0 := by
    generalize s.cl = cl at hi
    induction cl with
    | nil => rfl
    | cons pc cl ih =>
      rw [List.map_cons, List.sum_cons, ih (fun pc h => hi pc (by simp [h])), hi pc (by simp)]; rfl
  have h3 : ((accepted es).map (needs cap)).sum = sent cap es := by
    unfold sent
    congr 1
    exact List.map_congr_left fun m _ => needs_bufs cap m
  omega

/-- C131, how much is lost: all but a bounded part. What is not lost belongs to the 64 objects of
the pool, to the objects created when it was empty, or to the caller's own. -/
theorem C131_grows_refuted (h : LExec cap rx (init n t b) s es g) :
    ((accepted es).map (needs cap)).sum ≤ g.lost + 3 * (64 + (getDiags s).msgsCreated + s.external) := by
  have ha := exec_account h
  have h1 := ha.balance
  have h2 := ha.made
  have h3 := live_le cap s
  have h4 := ha.freed
  have h5 := ha.next
  have h6 : ((accepted es).map (needs cap)).sum = sent cap es := by
    unfold sent
    congr 1
    exact List.map_congr_left fun m _ => needs_bufs cap m
  rw [h5] at h3
  have h7 : (getDiags s).msgsCreated = s.unpooled := rfl
  have h8 : threshold = 64 := rfl
  rw [h8] at h3
  omega

/-- Every message object holds short texts only. -/
theorem short_heap (h : Exec rx (init n t b) s es) (hs : ∀ i m, .call i (.log m) ∈ es ∨ .call i (.logPtr m) ∈ es → needs cap m = 0) :
    (∀ a m, s.heap a = some m → bufs cap m = 0) ∧
    (∀ (i : Nat) (pc : CPc), s.cl[i]? = some pc → ∀ m a, pc = .check m ∨ pc = .alloc m ∨ pc = .construct m a ∨ pc = .extNew m → bufs cap m = 0) := by
  induction h with
  | nil =>
    constructor
    · intro a m hm
      simp only [init] at hm
      split at hm
      · cases hm; exact bufs_default cap
      · cases hm
    · intro i pc hi m a hp
      simp only [init, List.getElem?_replicate] at hi
      split at hi
      · cases hi; rcases hp with hp | hp | hp | hp <;> cases hp
      · cases hi
  | @snoc s s' es a e hx hst ih =>
    obtain ⟨ih1, ih2⟩ := ih (fun i m hm => hs i m (by rcases hm with hm | hm <;> simp [hm]))
    have hst := step_rel hst
    have keep : ∀ (i : Nat) (pc0 pc' : CPc), s.cl[i]? = some pc0 →
        (∀ m a, pc' = .check m ∨ pc' = .alloc m ∨ pc' = .construct m a ∨ pc' = .extNew m → bufs cap m = 0) →
        (∀ (j : Nat) (pc : CPc), (s.cl.set i pc')[j]? = some pc → ∀ m a, pc = .check m ∨ pc = .alloc m ∨ pc = .construct m a ∨ pc = .extNew m → bufs cap m = 0) := by
      intro i pc0 pc' _ h0 j pc hj m a hp
      rcases set_get? hj with ⟨_, rfl⟩ | ⟨_, hj⟩
      · exact h0 m a hp
      · exact ih2 j pc hj m a hp
    have put : ∀ (a : Addr) (v : Option Msg), (∀ m, v = some m → bufs cap m = 0) →
        ∀ b m, setHeap s.heap a v b = some m → bufs cap m = 0 := by
      intro a v hv b m hb
      by_cases hba : b = a
      · subst hba; rw [setHeap_self] at hb; exact hv m hb
      · rw [setHeap_ne _ _ hba] at hb; exact ih1 b m hb
    cases hst with
    | callLog i m hi =>
      refine ⟨ih1, keep i _ _ hi ?_⟩
      rintro m' a (hp | hp | hp | hp) <;> cases hp
      rw [← needs_bufs]; exact hs i m (by simp)
    | callLogPtr i m hi =>
      refine ⟨ih1, keep i _ _ hi ?_⟩
      rintro m' a (hp | hp | hp | hp) <;> cases hp
      rw [← needs_bufs]; exact hs i m (by simp)
    | pass i m hi _ =>
      refine ⟨ih1, keep i _ _ hi ?_⟩
      rintro m' a (hp | hp | hp | hp) <;> cases hp
      exact ih2 i _ hi m 0 (.inl rfl)
    | allocPool i m p a hi hp' =>
      refine ⟨ih1, keep i _ _ hi ?_⟩
      rintro m' a (hp | hp | hp | hp) <;> cases hp
      exact ih2 i _ hi m 0 (.inr (.inl rfl))
    | allocNew i m hi hp' =>
      refine ⟨put _ _ (fun m h => by cases h; exact bufs_default cap), keep i _ _ hi ?_⟩
      rintro m' a (hp | hp | hp | hp) <;> cases hp
      exact ih2 i _ hi m 0 (.inr (.inl rfl))
    | construct i m a hi _ =>
      refine ⟨put _ _ (fun m' h => by cases h; exact ih2 i _ hi m a (.inr (.inr (.inl rfl)))), keep i _ _ hi ?_⟩
      rintro m' a (hp | hp | hp | hp) <;> cases hp
    | extNew i m hi =>
      refine ⟨put _ _ (fun m' h => by cases h; exact ih2 i _ hi m 0 (.inr (.inr (.inr rfl)))), keep i _ _ hi ?_⟩
      rintro m' a (hp | hp | hp | hp) <;> cases hp
    | disposeDelete a _ _ _ => exact ⟨put _ _ (fun m h => by cases h), ih2⟩
    | callStop i hi => exact ⟨ih1, keep i _ _ hi (by rintro m' a (hp | hp | hp | hp) <;> cases hp)⟩
    | reject i m hi _ => exact ⟨ih1, keep i _ _ hi (by rintro m' a (hp | hp | hp | hp) <;> cases hp)⟩
    | enqueue i m a hi => exact ⟨ih1, keep i _ _ hi (by rintro m' a (hp | hp | hp | hp) <;> cases hp)⟩
    | stopSet i hi => exact ⟨ih1, keep i _ _ hi (by rintro m' a (hp | hp | hp | hp) <;> cases hp)⟩
    | stopNotify i hi => exact ⟨ih1, keep i _ _ hi (by rintro m' a (hp | hp | hp | hp) <;> cases hp)⟩
    | stopNone i hi _ _ => exact ⟨ih1, keep i _ _ hi (by rintro m' a (hp | hp | hp | hp) <;> cases hp)⟩
    | stopLock i hi _ _ => exact ⟨ih1, keep i _ _ hi (by rintro m' a (hp | hp | hp | hp) <;> cases hp)⟩
    | stopJoin i hi _ => exact ⟨ih1, keep i _ _ hi (by rintro m' a (hp | hp | hp | hp) <;> cases hp)⟩
    | _ => exact ⟨ih1, ih2⟩

/-- C131: nothing is lost as long as every text logged is short. -/
theorem C131_short_partial (h : LExec cap rx (init n t b) s es g)
    (hs : ∀ i m, .call i (.log m) ∈ es ∨ .call i (.logPtr m) ∈ es → m.file.length ≤ cap ∧ m.cat.length ≤ cap ∧ m.text.length ≤ cap) :
    g.lost = 0 := by
  induction h with
  | nil => rfl
  | @snoc s s' es a e g hx hst ih =>
    have hs' : ∀ i m, Ev.call i (.log m) ∈ es ∨ Ev.call i (.logPtr m) ∈ es → m.file.length ≤ cap ∧ m.cat.length ≤ cap ∧ m.text.length ≤ cap :=
      fun i m hm => hs i m (by rcases hm with hm | hm <;> simp [hm])
    have ih := ih hs'
    have hh := (short_heap (cap := cap) hx.exec (fun i m hm => by
      obtain ⟨h1, h2, h3⟩ := hs' i m hm
      rw [needs_bufs, bufs, if_neg (by omega), if_neg (by omega), if_neg (by omega)])).1
    cases a with
    | call i op => exact ih
    | spurious => exact ih
    | cli i =>
      simp only [charge]
      split
      · split
        · exact ih
        · rename_i old ho
          show g.lost + bufs cap old = 0
          rw [hh _ _ ho]; exact ih
      · exact ih
      · exact ih
    | log =>
      simp only [charge]
      split
      · split
        · exact ih
        · split <;> exact ih
      · exact ih

/-! One thread logs, and waits until the message is served before it logs again. -/

/-- The logging thread sleeps, nobody is in a call, the pool is full. -/
structure AtRest (s : St) (old : Msg) : Prop where
  level : s.level = 5
  unpooled : s.unpooled = 0
  external : s.external = 0
  queue : s.queue = []
  terminated : s.terminated = false
  pool : s.pool = List.range 64
  pending : s.pending = []
  active : s.active = []
  mtx : s.mtxThread = none
  lt : s.lt = .wait false
  cl : s.cl = [.idle]
  heap : s.heap 63 = some old

theorem LExec.step (h : LExec cap rx s0 s es g) (a : Act) {s' : St} {e : Ev} (hs : Log.step rx s a = some (s', e)) {g' : Buffers}
    (hg : charge cap s g a = g') : LExec cap rx s0 s' (es ++ [e]) g' := hg ▸ .snoc h hs

/-- States met while one message is logged and served, with nobody listening. -/
def inRound (d : Nat) (lst : LId → Lst) (next : Addr) (mq rc : Nat) (q p : List Addr) (lt : LPc) (pc : CPc) (heap : Addr → Option Msg) : St :=
  { level := 5, unpooled := 0, destroyed := d, maxQ := mq, received := rc, queue := q, terminated := false, pool := p,
    pending := [], active := [], mtxThread := none, lt := lt, cl := [pc], lst := lst, heap := heap, next := next, external := 0 }

theorem rest_round (h : LExec cap rx s0 s es g) (old m : Msg) (hr : AtRest s old) (hm : m.level ≤ 5) :
    ∃ s' es', LExec cap rx s0 s' es' { g with lost := g.lost + needs cap old, made := g.made + needs cap m } ∧
      AtRest s' m ∧ accepted es' = accepted es ++ [m] := by
  obtain ⟨level, unpooled, d, mq, rc, queue, terminated, pool, pending, active, mtx, lt, cl, lst, heap, nx, external⟩ := s
  obtain ⟨r1, r2, r3, r4, r5, r6, r7, r8, r9, r10, r11, r12⟩ := hr
  dsimp only at r1 r2 r3 r4 r5 r6 r7 r8 r9 r10 r11 r12
  subst r1 r2 r3 r4 r5 r6 r7 r8 r9 r10 r11
  have h0 : LExec cap rx s0 (inRound d lst nx mq rc [] (List.range 64) (.wait false) .idle heap) es g := h
  have h1 : LExec cap rx s0 (inRound d lst nx mq rc [] (List.range 64) (.wait false) (.check m) heap) _ g :=
    h0.step (.call 0 (.log m)) (e := .call 0 (.log m)) rfl rfl
  have h2 : LExec cap rx s0 (inRound d lst nx mq rc [] (List.range 64) (.wait false) (.alloc m) heap) _ g :=
    h1.step (.cli 0) (e := .pass 0 m) (by
      show (if m.level > 5 then _ else _) = _
      rw [if_neg (by omega)]; rfl) rfl
  have h3 : LExec cap rx s0 (inRound d lst nx mq rc [] (List.range 63) (.wait false) (.construct m 63) heap) _ g :=
    h2.step (.cli 0) (e := .tau) rfl rfl
  let g' : Buffers := { g with lost := g.lost + needs cap old, made := g.made + needs cap m }
  have h4 : LExec cap rx s0 (inRound d lst nx mq rc [] (List.range 63) (.wait false) (.enqueue m 63) (setHeap heap 63 (some m))) _ g' :=
    h3.step (.cli 0) (e := .tau) (by
      show (match heap 63 with | none => _ | some _ => _) = _
      rw [r12]; rfl) (by
      show (match heap 63 with | none => _ | some _ => _) = _
      rw [r12]; simp only [g', needs_bufs])
  have h5 : LExec cap rx s0 (inRound d lst nx (if 1 > mq then 1 else mq) rc [63] (List.range 63) (.wait true) .idle (setHeap heap 63 (some m))) _ g' :=
    h4.step (.cli 0) (e := .accept 0 m) rfl rfl
  generalize (if 1 > mq then 1 else mq) = mq' at h5
  have hh : setHeap heap 63 (some m) 63 = some m := setHeap_self heap 63 (some m)
  generalize setHeap heap 63 (some m) = heap' at h5 hh
  have h6 : LExec cap rx s0 (inRound d lst nx mq' rc [] (List.range 63) (.got 63) .idle heap') _ g' :=
    h5.step .log (e := .take) rfl rfl
  have h7 : LExec cap rx s0 (inRound d lst nx mq' (rc + 1) [] (List.range 63) (.send 63 []) .idle heap') _ g' :=
    h6.step .log (e := .dispatch m []) (by
      show (match heap' 63 with | none => _ | some _ => _) = _
      rw [hh]; rfl) rfl
  have h8 : LExec cap rx s0 (inRound d lst nx mq' (rc + 1) [] (List.range 63) (.clean 63 [] []) .idle heap') _ g' :=
    h7.step .log (e := .done m) (by
      show (match heap' 63 with | none => _ | some _ => _) = _
      rw [hh]; rfl) rfl
  have h9 : LExec cap rx s0 (inRound d lst nx mq' (rc + 1) [] (List.range 63) (.dispose 63) .idle heap') _ g' :=
    h8.step .log (e := .tau) rfl rfl
  have h10 : LExec cap rx s0 (inRound d lst nx mq' (rc + 1) [] (List.range 64) .top .idle heap') _ g' :=
    h9.step .log (e := .tau) rfl rfl
  have h11 : LExec cap rx s0 (inRound d lst nx mq' (rc + 1) [] (List.range 64) (.wait false) .idle heap') _ g' :=
    h10.step .log (e := .sleep) rfl rfl
  refine ⟨_, _, h11, ⟨rfl, rfl, rfl, rfl, rfl, rfl, rfl, rfl, rfl, rfl, rfl, hh⟩, ?_⟩
  simp [accepted]

/-- C131 is false: a program with a single thread that logs messages one after the other, each
served before the next is logged, loses the buffers of all messages but the last. -/
theorem C131_leak_refuted (rx : Rx) (cap : Nat) (ms : List Msg) (m : Msg) (hm : ∀ x ∈ ms ++ [m], x.level ≤ 5) :
    ∃ s es g, LExec cap rx (init 1 false true) s es g ∧ accepted es = ms ++ [m] ∧ s.queue = [] ∧ s.pool.length = 64 ∧
      s.lt = .wait false ∧ g.lost = (ms.map (needs cap)).sum := by
  have key : ∀ (ms : List Msg), (∀ x ∈ ms, x.level ≤ 5) → ∃ s es g, LExec cap rx (init 1 false true) s es g ∧
      AtRest s ((ms.getLast?).getD Msg.default) ∧ accepted es = ms ∧ g.lost = (ms.dropLast.map (needs cap)).sum := by
    intro ms
    generalize hk : ms.length = k
    induction k generalizing ms with
    | zero =>
      intro _
      have : ms = [] := List.length_eq_zero_iff.1 hk
      subst this
      refine ⟨_, _, _, LExec.nil.step .log rfl rfl, ⟨rfl, rfl, rfl, rfl, rfl, rfl, rfl, rfl, rfl, rfl, rfl, rfl⟩, rfl, rfl⟩
    | succ k ih =>
      intro hm
      have hne : ms ≠ [] := by rintro rfl; cases hk
      obtain ⟨s, es, g, h, hr, ha, hg⟩ := ih ms.dropLast (by simp [hk]) (fun x hx => hm x (List.dropLast_subset _ hx))
      obtain ⟨s', es', h', hr', ha'⟩ := rest_round h _ (ms.getLast hne) hr (hm _ (List.getLast_mem hne))
      refine ⟨s', es', _, h', ?_, ?_, ?_⟩
      · rw [List.getLast?_eq_some_getLast hne]; exact hr'
      · rw [ha', ha, List.dropLast_concat_getLast]
      · show g.lost + needs cap _ = _
        rw [hg]
        generalize ms.dropLast = l
        cases hl : l.getLast? with
        | none =>
          rw [List.getLast?_eq_none_iff] at hl; subst hl
          rw [needs_bufs]; exact bufs_default cap
        | some x =>
          have hl' : l = l.dropLast ++ [x] := by
            rw [List.getLast?_eq_some_iff] at hl
            obtain ⟨ys, rfl⟩ := hl; simp
          conv => rhs; rw [hl']
          simp
  obtain ⟨s, es, g, h, hr, ha, hg⟩ := key (ms ++ [m]) hm
  refine ⟨s, es, g, h, ha, hr.queue, by rw [hr.pool]; rfl, hr.lt, ?_⟩
  rw [hg]; simp

/-- Three messages with a long text: two buffers are gone. -/
example : ∃ s es g, LExec 15 demoRx (init 1 false true) s es g ∧ accepted es = List.replicate 3 { demoMsg 1 with text := List.replicate 20 'x' } ∧
    g.lost = 2 := by
  obtain ⟨s, es, g, h, ha, _, _, _, hg⟩ := C131_leak_refuted demoRx 15 (List.replicate 2 { demoMsg 1 with text := List.replicate 20 'x' })
    { demoMsg 1 with text := List.replicate 20 'x' } (by intro x hx; simp at hx; rw [hx]; decide)
  exact ⟨s, es, g, h, ha, hg.trans (by decide)⟩

/-- The hypotheses of `C131_account_partial` are met after stop(). -/
example : ∃ s es, Exec demoRx (init 1 false true) s es ∧ (∀ pc ∈ s.cl, pc = CPc.idle) ∧ s.lt = .none ∧ accepted es = [demoMsg 1] ∧
    needs 1 (demoMsg 1) = 1 := by
  refine ⟨_, _, exec_of_run [.call 0 (.log (demoMsg 1)), .cli 0, .cli 0, .cli 0, .cli 0,
       .call 0 .stop, .cli 0, .cli 0, .cli 0, .log, .cli 0] rfl, ?_, rfl, rfl, rfl⟩
  intro pc h
  exact (show ∀ pc ∈ [CPc.idle], pc = CPc.idle by simp) pc h

end Falcon.Log
