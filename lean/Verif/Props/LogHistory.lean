import Verif.Props.LogSystem
/-
C41, C42, C43, C46 restated in terms of the history alone: the configuration a message is checked
against is what the calls that have returned amount to (Spec/LogTrace.lean: `levelIn`,
`listenerLevelIn`, `enabledIn`, `categoryIn`, `detachedIn`, `added`).
-/
namespace Falcon.Log

variable {rx : Rx} {n : Nat} {t b : Bool} {s : St} {es : List Ev}

/-- The state agrees with the history. -/
structure Conf (s : St) (es : List Ev) : Prop where
  level : s.level = levelIn es
  llevel : ∀ l, (s.lst l).level = listenerLevelIn l es
  enabled : ∀ l, (s.lst l).enabled = enabledIn l es
  category : ∀ l, (s.lst l).category = categoryIn l es
  detached : ∀ l, (s.lst l).detached = detachedIn l es

theorem levelIn_snoc (es : List Ev) (e : Ev) :
    levelIn (es ++ [e]) = (match e with | .did _ (.level n) => n | _ => levelIn es) := by
  unfold levelIn; rw [List.foldl_append]; rfl
theorem listenerLevelIn_snoc (es : List Ev) (e : Ev) (l : LId) : listenerLevelIn l (es ++ [e]) =
    (match e with | .did _ (.llevel k n) => if k = l then n else listenerLevelIn l es | _ => listenerLevelIn l es) := by
  unfold listenerLevelIn; rw [List.foldl_append]; rfl
theorem enabledIn_snoc (es : List Ev) (e : Ev) (l : LId) : enabledIn l (es ++ [e]) =
    (match e with | .did _ (.enable k b) => if k = l then b else enabledIn l es | _ => enabledIn l es) := by
  unfold enabledIn; rw [List.foldl_append]; rfl
theorem categoryIn_snoc (es : List Ev) (e : Ev) (l : LId) : categoryIn l (es ++ [e]) =
    (match e with | .did _ (.category k re) => if k = l then re else categoryIn l es | _ => categoryIn l es) := by
  unfold categoryIn; rw [List.foldl_append]; rfl
theorem detachedIn_snoc (es : List Ev) (e : Ev) (l : LId) : detachedIn l (es ++ [e]) =
    (detachedIn l es || match e with | .did _ (.detach k) => decide (k = l) | _ => false) := by
  unfold detachedIn; rw [List.any_append, List.any_cons, List.any_nil, Bool.or_false]; rfl
theorem added_snoc (es : List Ev) (e : Ev) :
    added (es ++ [e]) = added es ++ (match e with | .did _ (.addListener l) => [l] | _ => []) := by
  unfold added; rw [List.filterMap_append]
  congr 1
  cases e with
  | did i op => cases op <;> rfl
  | _ => rfl

theorem Conf.step {e : Ev} {s' : St} (h : Conf s es) (hs : Step rx s e s') : Conf s' (es ++ [e]) := by
  obtain ⟨h1, h2, h3, h4, h5⟩ := h
  have L := levelIn_snoc es e
  have LL := listenerLevelIn_snoc es e
  have E := enabledIn_snoc es e
  have C := categoryIn_snoc es e
  have D := detachedIn_snoc es e
  cases hs
  case level i n hi =>
    exact ⟨L.symm, fun l => by rw [LL]; exact h2 l, fun l => by rw [E]; exact h3 l, fun l => by rw [C]; exact h4 l,
      fun l => by rw [D, Bool.or_false]; exact h5 l⟩
  case detach i k hi =>
    refine ⟨by rw [L]; exact h1, fun l => ?_, fun l => ?_, fun l => ?_, fun l => ?_⟩
    · rw [LL, ← h2 l]; by_cases e : l = k
      · subst e; simp only [setLst_self]
      · simp only [setLst_ne _ _ e]
    · rw [E, ← h3 l]; by_cases e : l = k
      · subst e; simp only [setLst_self]
      · simp only [setLst_ne _ _ e]
    · rw [C, ← h4 l]; by_cases e : l = k
      · subst e; simp only [setLst_self]
      · simp only [setLst_ne _ _ e]
    · rw [D, ← h5 l]; by_cases e : l = k
      · subst e; simp only [setLst_self]; simp
      · simp only [setLst_ne _ _ e]; simp [Ne.symm e]
  case enable i k b hi =>
    refine ⟨by rw [L]; exact h1, fun l => ?_, fun l => ?_, fun l => ?_, fun l => ?_⟩
    · rw [LL, ← h2 l]; by_cases e : l = k
      · subst e; simp only [setLst_self]
      · simp only [setLst_ne _ _ e]
    · rw [E, ← h3 l]; by_cases e : l = k
      · subst e; simp only [setLst_self]; simp
      · simp only [setLst_ne _ _ e]; simp [Ne.symm e]
    · rw [C, ← h4 l]; by_cases e : l = k
      · subst e; simp only [setLst_self]
      · simp only [setLst_ne _ _ e]
    · rw [D, Bool.or_false, ← h5 l]; by_cases e : l = k
      · subst e; simp only [setLst_self]
      · simp only [setLst_ne _ _ e]
  case llevel i k b hi =>
    refine ⟨by rw [L]; exact h1, fun l => ?_, fun l => ?_, fun l => ?_, fun l => ?_⟩
    · rw [LL, ← h2 l]; by_cases e : l = k
      · subst e; simp only [setLst_self]; simp
      · simp only [setLst_ne _ _ e]; simp [Ne.symm e]
    · rw [E, ← h3 l]; by_cases e : l = k
      · subst e; simp only [setLst_self]
      · simp only [setLst_ne _ _ e]
    · rw [C, ← h4 l]; by_cases e : l = k
      · subst e; simp only [setLst_self]
      · simp only [setLst_ne _ _ e]
    · rw [D, Bool.or_false, ← h5 l]; by_cases e : l = k
      · subst e; simp only [setLst_self]
      · simp only [setLst_ne _ _ e]
  case category i k re hi hv =>
    refine ⟨by rw [L]; exact h1, fun l => ?_, fun l => ?_, fun l => ?_, fun l => ?_⟩
    · rw [LL, ← h2 l]; by_cases e : l = k
      · subst e; simp only [setLst_self]
      · simp only [setLst_ne _ _ e]
    · rw [E, ← h3 l]; by_cases e : l = k
      · subst e; simp only [setLst_self]
      · simp only [setLst_ne _ _ e]
    · rw [C, ← h4 l]; by_cases e : l = k
      · subst e; simp only [setLst_self]; simp
      · simp only [setLst_ne _ _ e]; simp [Ne.symm e]
    · rw [D, Bool.or_false, ← h5 l]; by_cases e : l = k
      · subst e; simp only [setLst_self]
      · simp only [setLst_ne _ _ e]
  all_goals
    exact ⟨by rw [L]; exact h1, fun l => by rw [LL]; exact h2 l, fun l => by rw [E]; exact h3 l, fun l => by rw [C]; exact h4 l,
      fun l => by rw [D, Bool.or_false]; exact h5 l⟩

theorem exec_conf (h : Exec rx (init n t b) s es) : Conf s es :=
  exec_inv Conf ⟨rfl, fun _ => rfl, fun _ => rfl, fun _ => rfl, fun _ => rfl⟩ (fun _ _ _ _ h hs => h.step hs) h

/-- C41: whatever has been called before and by whom, log() passes the check exactly when the message
level does not exceed the argument of the last level(n) (5 before the first). -/
theorem C41_level_history (h : Exec rx (init n t b) s es) (a : Act) (s' : St) (i : Nat) (m : Msg) :
    (step rx s a = some (s', .pass i m) → m.level ≤ levelIn es) ∧
    (step rx s a = some (s', .reject i m) → levelIn es < m.level) := by
  rw [← (exec_conf h).level]
  exact ⟨(C41_reject_effect a s' i m).2, fun hs => ((C41_reject_effect a s' i m).1 hs).1⟩

/-- C42: every answer the logging thread gets is determined by the calls made on that listener
before. -/
theorem C42_answers_history (h : Exec rx (init n t b) s es) (a : Act) (s' : St) (l : LId) (m : Msg) (x : Bool) :
    (step rx s a = some (s', .tested l m .enabled x) → x = enabledIn l es) ∧
    (step rx s a = some (s', .tested l m .level x) → (x = true ↔ m.level ≤ listenerLevelIn l es)) ∧
    (step rx s a = some (s', .tested l m .category x) →
      (x = true ↔ (m.cat = [] ∨ categoryIn l es = [] ∨ rx.full (categoryIn l es) m.cat = true))) := by
  have hc := exec_conf h
  have := C42_answers h a s' l m x
  rw [hc.enabled, hc.llevel, hc.category] at this
  exact this

/-- C42: if no listener is reconfigured while a message is processed, onMessage is called exactly on
the offered listeners that, by the calls made before, want it - in order, once per registration. -/
theorem C42_delivered_history (h : Exec rx (init n t b) s es) (s1 s2 s3 : St) (es2 : List Ev) (m m' : Msg)
    (ls : List LId) (hd : step rx s .log = some (s1, .dispatch m ls)) (he : Exec rx s1 s2 es2)
    (hdone : step rx s2 .log = some (s3, .done m')) (hnd : ∀ m'', .done m'' ∉ es2)
    (hcfg : ∀ i op, .did i op ∈ es2 → isConfig op = false) :
    m' = m ∧ deliveries es2 = (ls.filter fun l => decide (WantsIn rx l es m)).map fun l => (l, m) := by
  obtain ⟨h1, h2⟩ := C42_delivered_exactly h s1 s2 s3 es2 m m' ls hd he hdone hnd hcfg
  refine ⟨h1, h2.trans ?_⟩
  have hc := exec_conf h
  have e : s1.lst = s.lst := by
    have := step_rel hd
    cases this with
    | dispatch => rfl
  congr 1
  refine List.filter_congr fun l _ => ?_
  rw [decide_eq_decide]
  unfold Wants WantsIn
  rw [e, hc.enabled, hc.llevel, hc.category]

/-- C43, in terms of the history. -/
theorem C43_category_history (h : Exec rx (init n t b) s es) (l : LId) (cat : Str) :
    checkCategory rx (s.lst l) cat = true ↔
      (cat = [] ∨ categoryIn l es = [] ∨ rx.full (categoryIn l es) cat = true) := by
  rw [C43_category_rule h, (exec_conf h).category]

/-! ### the list of listeners -/

theorem registered_order_step {e : Ev} {s' : St} (hc : Conf s es) (hs : Step rx s e s')
    (h : (registered s).filter (fun l => !detachedIn l es) = (added es).filter (fun l => !detachedIn l es)) :
    (registered s').filter (fun l => !detachedIn l (es ++ [e])) =
      (added (es ++ [e])).filter (fun l => !detachedIn l (es ++ [e])) := by
  have A := added_snoc es e
  have D := detachedIn_snoc es e
  have mono : ∀ (xs ys : List LId), xs.filter (fun l => !detachedIn l es) = ys.filter (fun l => !detachedIn l es) →
      xs.filter (fun l => !detachedIn l (es ++ [e])) = ys.filter (fun l => !detachedIn l (es ++ [e])) := by
    intro xs ys hxy
    have key : ∀ xs : List LId, xs.filter (fun l => !detachedIn l (es ++ [e])) =
        (xs.filter (fun l => !detachedIn l es)).filter (fun l => !detachedIn l (es ++ [e])) := by
      intro xs
      rw [List.filter_filter]
      refine List.filter_congr fun l _ => ?_
      rw [D]; cases detachedIn l es <;> simp
    rw [key xs, key ys, hxy]
  have keep : registered s' = registered s → added (es ++ [e]) = added es →
      (registered s').filter (fun l => !detachedIn l (es ++ [e])) =
      (added (es ++ [e])).filter (fun l => !detachedIn l (es ++ [e])) := by
    intro h1 h2; rw [h1, h2]; exact mono _ _ h
  cases hs with
  | callLog | callLogPtr | callStop | detach | level | enable | llevel | category | categoryThrow
    | startAgain | reject | pass | stopSet | stopNone | stopLock | allocPool | allocNew | construct | constructFault
    | extNew | gotFault | testFault | doneFault =>
    exact keep rfl (by rw [A]; exact List.append_nil _)
  | addListener i k hi =>
    have e1 : registered { s with pending := s.pending ++ [k] } = registered s ++ [k] := by
      unfold registered; cases s.lt <;> simp
    rw [e1, A, List.filter_append, List.filter_append, mono _ _ h]
  | start i hi hm hl => exact keep (by simp [registered, hl]) (by rw [A]; exact List.append_nil _)
  | stopNotify i hi => exact keep (by unfold registered; cases s.lt <;> rfl) (by rw [A]; exact List.append_nil _)
  | enqueue i m a hi => exact keep (by unfold registered; cases s.lt <;> rfl) (by rw [A]; exact List.append_nil _)
  | stopJoin i hi hl => exact keep (by simp [registered, hl]) (by rw [A]; exact List.append_nil _)
  | spurious hl => exact keep (by simp [registered, hl]) (by rw [A]; exact List.append_nil _)
  | exit hl ht => exact keep (by rcases hl with hl | hl <;> simp [registered, hl]) (by rw [A]; exact List.append_nil _)
  | sleep hl ht hq => exact keep (by rcases hl with hl | hl <;> simp [registered, hl]) (by rw [A]; exact List.append_nil _)
  | take a q hl ht hq => exact keep (by rcases hl with hl | hl <;> simp [registered, hl]) (by rw [A]; exact List.append_nil _)
  | dispatch a m hl hh => exact keep (by simp [registered, hl]) (by rw [A]; exact List.append_nil _)
  | next a l rem hl => exact keep (by simp [registered, hl]) (by rw [A]; exact List.append_nil _)
  | done a m hl hh => exact keep (by simp [registered, hl]) (by rw [A]; exact List.append_nil _)
  | testEnabled a k rem m hl hh =>
    exact keep (by simp only [registered, hl]; cases (s.lst k).enabled <;> rfl) (by rw [A]; exact List.append_nil _)
  | testLevel a k rem m hl hh =>
    exact keep (by simp only [registered, hl]; by_cases h : (s.lst k).level ≥ m.level <;> simp [h]) (by rw [A]; exact List.append_nil _)
  | testCategory a k rem m hl hh =>
    exact keep (by simp only [registered, hl]; cases checkCategory rx (s.lst k) m.cat <;> rfl) (by rw [A]; exact List.append_nil _)
  | deliver a l rem m hl hh => exact keep (by simp [registered, hl]) (by rw [A]; exact List.append_nil _)
  | cleanOne a kept k rest hl =>
    rw [A, List.append_nil]
    refine mono _ _ (Eq.trans ?_ h)
    have hk := hc.detached k
    cases hd : (s.lst k).detached with
    | false => simp [registered, hl]
    | true => rw [hd] at hk; simp [registered, hl, ← hk]
  | cleanEnd a kept hl => exact keep (by simp [registered, hl]) (by rw [A]; exact List.append_nil _)
  | disposePool a hl hp => exact keep (by simp [registered, hl]) (by rw [A]; exact List.append_nil _)
  | disposeFault a hl hp hh => exact keep (by simp [registered, hl]) (by rw [A]; exact List.append_nil _)
  | disposeDelete a hl hp hh => exact keep (by simp [registered, hl]) (by rw [A]; exact List.append_nil _)

/-- C46: the listeners offered a message are, leaving aside those on which detach() was called,
exactly the arguments of the addListener() calls made before, in the order of those calls. -/
theorem C46_offered_in_order (h : Exec rx (init n t b) s es) (a : Act) (s' : St) (m : Msg) (ls : List LId)
    (hs : step rx s a = some (s', .dispatch m ls)) :
    ls.filter (fun l => !detachedIn l es) = (added es).filter (fun l => !detachedIn l es) := by
  have hr : ls = registered s := by
    have := step_rel hs
    cases this with
    | dispatch a m hl hh => simp [registered, hl]
  rw [hr]
  have : Conf s es ∧ (registered s).filter (fun l => !detachedIn l es) = (added es).filter (fun l => !detachedIn l es) := by
    refine exec_inv (fun s es => Conf s es ∧
      (registered s).filter (fun l => !detachedIn l es) = (added es).filter (fun l => !detachedIn l es)) ⟨exec_conf (rx := rx) .nil, ?_⟩ ?_ h
    · cases b <;> rfl
    · intro s es e s' ih hs
      exact ⟨ih.1.step hs, registered_order_step ih.1 hs ih.2⟩
  exact this.2

/-- C42 and C46 together: if nobody has called detach() and no listener is reconfigured while the
message is processed, onMessage is called on exactly the listeners added before that want the
message, in the order of the addListener() calls, once per call. -/
theorem C46_delivered_history (h : Exec rx (init n t b) s es) (s1 s2 s3 : St) (es2 : List Ev) (m m' : Msg)
    (ls : List LId) (hd : step rx s .log = some (s1, .dispatch m ls)) (he : Exec rx s1 s2 es2)
    (hdone : step rx s2 .log = some (s3, .done m')) (hnd : ∀ m'', .done m'' ∉ es2)
    (hcfg : ∀ i op, .did i op ∈ es2 → isConfig op = false) (hdet : ∀ l, detachedIn l es = false) :
    deliveries es2 = ((added es).filter fun l => decide (WantsIn rx l es m)).map fun l => (l, m) := by
  have h1 := C46_offered_in_order h .log s1 m ls hd
  simp only [hdet, Bool.not_false] at h1
  rw [List.filter_eq_self.2 (fun _ _ => rfl), List.filter_eq_self.2 (fun _ _ => rfl)] at h1
  rw [(C42_delivered_history h s1 s2 s3 es2 m m' ls hd he hdone hnd hcfg).2, h1]

/-- Non-vacuity: two listeners added (7 twice), 8 disabled and reconfigured, level lowered. -/
def histActs : List Act :=
  [.call 0 (.addListener 7), .call 0 (.addListener 8), .call 0 (.enable 8 false), .call 0 (.addListener 7),
   .call 0 (.llevel 7 3), .call 0 (.category 8 ['y']), .call 0 (.level 4),
   .call 0 (.log (demoMsg 1)), .cli 0, .cli 0, .cli 0, .cli 0, .log]
example : ((run demoRx (init 1 false true) histActs).map fun r =>
    (added r.2, enabledIn 8 r.2, listenerLevelIn 7 r.2, categoryIn 8 r.2, levelIn r.2)) =
      some ([7, 8, 7], false, 3, ['y'], 4) := by decide
example : ((run demoRx (init 1 false true) (histActs ++ List.replicate 14 .log)).map fun r => (deliveries r.2, r.2.getLast?)) =
      some ([(7, demoMsg 1), (7, demoMsg 1)], some (.done (demoMsg 1))) := by decide
example : ∃ s es s1, Exec demoRx (init 1 false true) s es ∧ step demoRx s .log = some (s1, .dispatch (demoMsg 1) [7, 8, 7]) ∧
    ∀ l, detachedIn l es = false :=
  ⟨_, _, _, exec_of_run histActs rfl, rfl, fun _ => rfl⟩

/-! ### C113: the diagnostics -/

theorem registeredIn_snoc (es : List Ev) (e : Ev) : registeredIn (es ++ [e]) = (match e with
    | .did _ (.addListener l) => ((registeredIn es).1, (registeredIn es).2 ++ [l])
    | .dispatch _ _ => ((registeredIn es).1 ++ (registeredIn es).2, [])
    | _ => registeredIn es) := by
  unfold registeredIn; rw [List.foldl_append]; rfl

theorem dispatched_snoc (es : List Ev) (e : Ev) :
    (dispatched (es ++ [e])).length = (dispatched es).length + (match e with | .dispatch _ _ => 1 | _ => 0) := by
  unfold dispatched; rw [List.filterMap_append, List.length_append]
  cases e <;> rfl

/-- The listener lists and the message counter agree with the history. -/
structure Books (s : St) (es : List Ev) : Prop where
  conf : Conf s es
  received : s.received = (dispatched es).length
  pending : s.pending = (registeredIn es).2
  active : s.active.filter (fun l => !detachedIn l es) = (registeredIn es).1.filter (fun l => !detachedIn l es)
  clean : ∀ a kept rest, s.lt = .clean a kept rest →
    (kept ++ rest).filter (fun l => !detachedIn l es) = s.active.filter (fun l => !detachedIn l es)

theorem Books.step {e : Ev} {s' : St} (h : Books s es) (hs : Step rx s e s') : Books s' (es ++ [e]) := by
  obtain ⟨h1, h2, h3, h4, h5⟩ := h
  have hc := h1.step hs
  have D := detachedIn_snoc es e
  have R := registeredIn_snoc es e
  have N := dispatched_snoc es e
  have mono : ∀ (xs ys : List LId), xs.filter (fun l => !detachedIn l es) = ys.filter (fun l => !detachedIn l es) →
      xs.filter (fun l => !detachedIn l (es ++ [e])) = ys.filter (fun l => !detachedIn l (es ++ [e])) := by
    intro xs ys hxy
    have key : ∀ xs : List LId, xs.filter (fun l => !detachedIn l (es ++ [e])) =
        (xs.filter (fun l => !detachedIn l es)).filter (fun l => !detachedIn l (es ++ [e])) := by
      intro xs
      rw [List.filter_filter]
      refine List.filter_congr fun l _ => ?_
      rw [D]; cases detachedIn l es <;> simp
    rw [key xs, key ys, hxy]
  have keep : registeredIn (es ++ [e]) = registeredIn es → (dispatched (es ++ [e])).length = (dispatched es).length →
      s'.received = s.received → s'.pending = s.pending → s'.active = s.active →
      (∀ a kept rest, s'.lt = .clean a kept rest → s.lt = .clean a kept rest) → Books s' (es ++ [e]) := by
    intro e1 e2 e3 e4 e5 e6
    refine ⟨hc, by rw [e3, e2, h2], by rw [e4, e1, h3], by rw [e5, e1]; exact mono _ _ h4, ?_⟩
    intro a k r hl
    rw [e5]; exact mono _ _ (h5 a k r (e6 a k r hl))
  have nt : ∀ a k r, notify s.lt = .clean a k r → s.lt = .clean a k r := by
    intro a k r hh
    cases hl : s.lt <;> rw [hl] at hh <;> simp [notify] at hh ⊢
    exact hh
  cases hs with
  | addListener i l hi =>
    refine ⟨hc, by rw [N]; exact h2, by rw [R]; simp only [h3], by rw [R]; exact mono _ _ h4, ?_⟩
    intro a k r hl; exact mono _ _ (h5 a k r hl)
  | dispatch a m hl hh =>
    refine ⟨hc, by rw [N]; simp only [h2], by rw [R], ?_, by simp⟩
    rw [R]
    refine mono _ _ ?_
    rw [List.filter_append, List.filter_append, h4, h3]
  | cleanOne a kept k rest hl =>
    refine ⟨hc, by rw [N]; exact h2, by rw [R]; exact h3, by rw [R]; exact mono _ _ h4, ?_⟩
    intro a' k' r' e; cases e
    refine mono _ _ ?_
    rw [← h5 _ _ _ hl]
    have hk := h1.detached k
    cases hd : (s.lst k).detached with
    | false => simp
    | true => rw [hd] at hk; simp [← hk]
  | cleanEnd a kept hl =>
    refine ⟨hc, by rw [N]; exact h2, by rw [R]; exact h3, ?_, by simp⟩
    rw [R]; refine mono _ _ (Eq.trans ?_ h4)
    have := h5 _ _ _ hl
    rwa [List.append_nil] at this
  | done a m hl hh =>
    refine ⟨hc, by rw [N]; exact h2, by rw [R]; exact h3, by rw [R]; exact mono _ _ h4, ?_⟩
    intro a' k' r' e; cases e
    rfl
  | enqueue => exact keep R N rfl rfl rfl nt
  | stopNotify => exact keep R N rfl rfl rfl nt
  | testEnabled => exact keep R N rfl rfl rfl (by intro a k r; simp only; split <;> simp)
  | testLevel => exact keep R N rfl rfl rfl (by intro a k r; simp only; split <;> simp)
  | testCategory => exact keep R N rfl rfl rfl (by intro a k r; simp only; split <;> simp)
  | start | stopJoin | spurious | exit | sleep | take | next | deliver | disposePool | disposeFault | disposeDelete =>
    exact keep R N rfl rfl rfl (by intro a k r; simp)
  | _ => exact keep R N rfl rfl rfl (fun _ _ _ h => h)

theorem exec_books (h : Exec rx (init n t b) s es) : Books s es := by
  refine exec_inv Books ⟨exec_conf (rx := rx) (n := n) (t := t) (b := b) .nil, rfl, rfl, rfl, ?_⟩ (fun _ _ _ _ h hs => h.step hs) h
  intro a k r hl; cases b <;> simp [init] at hl

/-- C113: at every moment getDiags() reports as received the number of messages the logging thread
started to process and as pending the listeners added since it last did. -/
theorem C113_diagnostics (h : Exec rx (init n t b) s es) :
    (getDiags s).msgReceived = (dispatched es).length ∧
    (getDiags s).pendingListeners = (registeredIn es).2.length := by
  have hb := exec_books h
  exact ⟨hb.received, by show s.pending.length = _; rw [hb.pending]⟩

/-- C113: while nobody has called detach(), the active listeners are those added before the last
message was processed, and the enabled ones those of them whose last enable/disable was enable. -/
theorem C113_listeners (h : Exec rx (init n t b) s es) (hd : ∀ l, detachedIn l es = false) :
    (getDiags s).activeListeners = (registeredIn es).1.length ∧
    (getDiags s).enabledListeners = ((registeredIn es).1.filter fun l => enabledIn l es).length ∧
    (registeredIn es).1 ++ (registeredIn es).2 = added es := by
  have hb := exec_books h
  have ha := hb.active
  simp only [hd, Bool.not_false] at ha
  rw [List.filter_eq_self.2 (fun _ _ => rfl), List.filter_eq_self.2 (fun _ _ => rfl)] at ha
  refine ⟨by show s.active.length = _; rw [ha], ?_, ?_⟩
  · show (s.active.filter fun l => (s.lst l).enabled).length = _
    simp only [hb.conf.enabled]; rw [ha]
  · clear hb ha hd h
    suffices ∀ (es : List Ev) (p : List LId × List LId),
        (es.foldl regStep p).1 ++ (es.foldl regStep p).2 = p.1 ++ p.2 ++ added es by
      have := this es ([], []); simpa [registeredIn] using this
    intro es
    induction es with
    | nil => intro p; simp [added]
    | cons e es ih =>
      intro p
      rw [List.foldl_cons, ih]
      have : added (e :: es) = added [e] ++ added es := by
        rw [← List.singleton_append]; unfold added; rw [List.filterMap_append]
      rw [this]
      cases e with
      | did i op => cases op <;> simp [regStep, added]
      | _ => simp [regStep, added]

/-- C113: in general - also with detached listeners in the list - no listener on which detach() was
not called is missing or counted twice. -/
theorem C113_counts (h : Exec rx (init n t b) s es) (l : LId) (hd : detachedIn l es = false) :
    s.active.count l = (registeredIn es).1.count l ∧ s.pending.count l = (registeredIn es).2.count l := by
  have hb := exec_books h
  refine ⟨?_, by rw [hb.pending]⟩
  have := congrArg (List.count l) hb.active
  rwa [List.count_filter (by simp [hd]), List.count_filter (by simp [hd])] at this

example : ((run demoRx (init 1 false true) (histActs ++ [.log, .call 0 (.addListener 9)])).map fun r => (getDiags r.1, registeredIn r.2)) =
      some ({ poolSize := 63, maxMsgQueueSize := 1, msgReceived := 1, msgsCreated := 0, msgsDiscarded := 0,
              pendingListeners := 1, activeListeners := 3, enabledListeners := 2 }, ([7, 8, 7], [9])) := by decide

end Falcon.Log
