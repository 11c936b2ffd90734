import Verif.Proofs.LogFilter
import Verif.Spec.FilterRace
/- Helpers for C155. -/
namespace Falcon.FilterRace
open Falcon.Log (Str Rx LId Lst setLst Msg)
open Falcon.Logger (Fs FOp FInv detachIf finit fstep frun categoryFilter clearFilter)

/-- proxies are not the default listener -/
def Sound (s : Fs) : Prop := s.proxy ≠ some 0 ∧ s.next ≠ 0

theorem FInv.sound {s : Fs} (h : FInv s) : Sound s :=
  ⟨fun e => (h.proxy 0 e).2 rfl, Nat.pos_iff_ne_zero.1 h.pos⟩

theorem on_proxy (e : Env) (s : Fs) : (e.on s).proxy = s.proxy := by cases e <;> rfl
theorem on_next (e : Env) (s : Fs) : (e.on s).next = s.next := by cases e <;> rfl
theorem on_base (e : Env) (s : Fs) : (e.on s).base = s.base := by cases e <;> rfl
theorem on_regs (e : Env) (s : Fs) : (e.on s).regs = s.regs := by cases e <;> rfl
theorem on_lst (e : Env) (s : Fs) (k : LId) (h : k ≠ 0) : (e.on s).lst k = s.lst k := by
  cases e
  · rfl
  · simp [Env.on, setLst, h]
theorem on_sound {e : Env} {s : Fs} (h : Sound s) : Sound (e.on s) := by
  unfold Sound; rw [on_proxy, on_next]; exact h

theorem fstep_op (rx : Rx) (e : Env) (s : Fs) : fstep rx s e.op = .ok (e.on s) := by cases e <;> rfl

theorem setLst_comm (f : LId → Lst) {a b : LId} (h : a ≠ b) (v w : Lst) :
    setLst (setLst f a v) b w = setLst (setLst f b w) a v := by
  funext k
  simp only [setLst]
  by_cases h1 : k = a
  · subst h1; simp [h]
  · simp [h1]

theorem on_setLst (e : Env) (s : Fs) (q : LId) (hq : q ≠ 0) (v : Lst) :
    e.on { s with lst := setLst s.lst q v } = { e.on s with lst := setLst (e.on s).lst q v } := by
  cases e with
  | level n => rfl
  | dflt n =>
    simp only [Env.on]
    have h0 : setLst s.lst q v 0 = s.lst 0 := Logger.setLst_ne _ _ (Ne.symm hq)
    rw [h0, setLst_comm _ hq]

theorem on_setLst_proxy (e : Env) (s : Fs) (q : LId) (hq : q ≠ 0) (v : Lst) (pr : Option LId) :
    e.on { s with lst := setLst s.lst q v, proxy := pr } = { e.on s with lst := setLst (e.on s).lst q v, proxy := pr } := by
  have := on_setLst e { s with proxy := pr } q hq v
  cases e with
  | level n => rfl
  | dflt n => exact this

theorem on_detach (e : Env) {s : Fs} (h : Sound s) : e.on (detachIf s s.proxy) = detachIf (e.on s) (e.on s).proxy := by
  rw [on_proxy]
  cases hp : s.proxy with
  | none => rfl
  | some q =>
    have hq : q ≠ 0 := fun h0 => h.1 (by rw [hp, h0])
    simp only [detachIf]
    rw [on_setLst e s q hq, on_lst e s q hq]

/-- the state after another thread's call -/
def env (e : Env) (s : St) : St := { s with fs := e.on s.fs }

/-- the last four steps do not mind the other threads -/
theorem go_env (rx : Rx) (e : Env) (s : St) (h : Sound s.fs)
    (hp : (∃ re l, s.pc = .create re l) ∨ (∃ re l, s.pc = .express re l) ∨ (∃ l, s.pc = .limit l) ∨ s.pc = .enlist ∨ s.pc = .idle) :
    go rx (env e s) = (go rx s).map (env e) := by
  obtain ⟨fs, pc, made, res⟩ := s
  dsimp only at h hp
  rcases hp with ⟨re, l, rfl⟩ | ⟨re, l, rfl⟩ | ⟨l, rfl⟩ | rfl | rfl
  · simp only [go, env, Except.map, on_next]
    congr 2
    have := on_setLst e fs fs.next h.2 {}
    cases e with
    | level n => rfl
    | dflt n =>
      simp only [Env.on] at this ⊢
      simp only [Fs.mk.injEq, true_and, and_true] at this ⊢
      exact this.symm
  · simp only [go, env, on_proxy]
    cases hx : fs.proxy with
    | none => rfl
    | some p =>
      have hq : p ≠ 0 := fun h0 => h.1 (by rw [hx, h0])
      dsimp only
      rw [on_lst e fs p hq]
      cases Falcon.Log.setCategory rx (fs.lst p) re with
      | error x => rfl
      | ok v =>
        simp only [Except.map, env]
        rw [on_setLst_proxy e fs p hq]
  · simp only [go, env, on_proxy]
    cases hx : fs.proxy with
    | none => rfl
    | some p =>
      have hq : p ≠ 0 := fun h0 => h.1 (by rw [hx, h0])
      simp only [Except.map, env]
      rw [on_lst e fs p hq, on_setLst_proxy e fs p hq]
  · simp only [go, env, on_proxy]
    cases hx : fs.proxy with
    | none => rfl
    | some p => cases e <;> rfl
  · rfl

/-- the Logger in the middle of a call, with no other threads: after the steps of categoryFilter -/
def mid0 (fs : Fs) : Fs := detachIf fs fs.proxy
def mid1 (fs : Fs) : Fs := { mid0 fs with base := fs.level }
def mid2 (fs : Fs) (l : Int) : Fs := if l > fs.level then { mid1 fs with level := l } else mid1 fs
def mid3 (fs : Fs) (l : Int) : Fs :=
  { mid2 fs l with proxy := some fs.next, next := fs.next + 1, lst := setLst (mid0 fs).lst fs.next {} }
def mid4 (fs : Fs) (re : Str) (l : Int) : Fs :=
  { mid3 fs l with lst := setLst (setLst (mid0 fs).lst fs.next {}) fs.next { regex := some re, category := re } }
def mid5 (fs : Fs) (re : Str) (l : Int) : Fs :=
  { mid3 fs l with lst := setLst (setLst (mid0 fs).lst fs.next {}) fs.next { regex := some re, category := re, level := l } }
def mid (fs : Fs) (re : Str) (l : Int) : Nat → Fs
  | 0 => mid0 fs
  | 1 => mid1 fs
  | 2 => mid2 fs l
  | 3 => mid3 fs l
  | 4 => mid4 fs re l
  | _ => mid5 fs re l

theorem mid_fields (fs : Fs) : (mid0 fs).level = fs.level ∧ (mid0 fs).next = fs.next ∧ (mid0 fs).regs = fs.regs := by
  obtain ⟨h1, h2, h3, h4, h5⟩ := Logger.detachIf_fields fs
  exact ⟨h5, h3, h1⟩

/-- where the thread is after `k` steps -/
def pcAt (re : Str) (l : Int) : Nat → Pc
  | 0 => .read re l
  | 1 => .raise re l
  | 2 => .create re l
  | 3 => .express re l
  | 4 => .limit l
  | _ => .enlist

theorem setLst_twice (f : LId → Lst) (a : LId) (v w : Lst) : setLst (setLst f a v) a w = setLst f a w := by
  funext k; simp only [setLst]; split <;> rfl

/-- the steps of a call that is alone -/
theorem go_mid (rx : Rx) (fs : Fs) (re : Str) (l : Int) (made : List FOp) (res : List (Option Exn)) (k : Nat) (hk : k < 5)
    (hv : k = 3 → rx.valid re = true) :
    go rx { fs := mid fs re l k, pc := pcAt re l k, made := made, res := res } =
      .ok { fs := mid fs re l (k + 1), pc := pcAt re l (k + 1), made := made, res := res } := by
  obtain ⟨m1, m2, m3⟩ := mid_fields fs
  match k, hk with
  | 0, _ => simp only [pcAt, go, mid, m1, mid1]
  | 1, _ => simp only [pcAt, go, mid, mid2, mid1]
  | 2, _ =>
    have h2 : (mid2 fs l).next = fs.next ∧ (mid2 fs l).lst = (mid0 fs).lst := by
      simp only [mid2]; split <;> exact ⟨m2, rfl⟩
    simp only [pcAt, go, mid, mid3, h2.1, h2.2]
  | 3, _ =>
    have hp : (mid3 fs l).proxy = some fs.next := rfl
    have hl : (mid3 fs l).lst fs.next = {} := Logger.setLst_self _ _ _
    simp only [pcAt, go, mid, hp, hl, Falcon.Log.setCategory, hv rfl, if_true]
    rfl
  | 4, _ =>
    have hp : (mid4 fs re l).proxy = some fs.next := rfl
    have hl : (mid4 fs re l).lst fs.next = { regex := some re, category := re } := Logger.setLst_self _ _ _
    have h2 : (mid4 fs re l).lst = setLst (setLst (mid0 fs).lst fs.next {}) fs.next { regex := some re, category := re } := rfl
    simp only [pcAt, go, mid, hp, hl, h2, mid5, setLst_twice]
    rfl

theorem go_last (rx : Rx) (fs : Fs) (re : Str) (l : Int) (made : List FOp) (res : List (Option Exn)) (hv : rx.valid re = true) :
    go rx { fs := mid5 fs re l, pc := .enlist, made := made, res := res } =
      .ok { fs := (categoryFilter rx fs re l).1, pc := .idle, made := made, res := res ++ [none] } := by
  obtain ⟨m1, m2, m3⟩ := mid_fields fs
  have hp : (mid5 fs re l).proxy = some fs.next := rfl
  simp only [go, hp]
  rw [Logger.categoryFilter_eq]
  simp only [hv, if_true]
  congr 2
  simp only [mid5, mid3, mid2]
  split <;> simp only [mid1, m1, m3] <;> rfl

theorem go_bad (rx : Rx) (fs : Fs) (re : Str) (l : Int) (made : List FOp) (res : List (Option Exn)) (hv : rx.valid re = false) :
    go rx { fs := mid3 fs l, pc := .express re l, made := made, res := res } =
      .ok { fs := (categoryFilter rx fs re l).1, pc := .idle, made := made, res := res ++ [some .invalidCategory] } := by
  obtain ⟨m1, m2, m3⟩ := mid_fields fs
  have hp : (mid3 fs l).proxy = some fs.next := rfl
  simp only [go, hp]
  rw [Logger.categoryFilter_eq]
  simp only [hv, Falcon.Log.setCategory]
  simp only [Bool.false_eq_true, if_false]
  congr 2
  simp only [mid3, mid2]
  split <;> simp only [mid1, m1, m3] <;> rfl

/-- several calls of other threads -/
def after (es : List Env) (s : Fs) : Fs := es.foldl (fun s e => e.on s) s
@[simp] theorem after_nil (s : Fs) : after [] s = s := rfl
@[simp] theorem after_cons (e : Env) (es : List Env) (s : Fs) : after (e :: es) s = after es (e.on s) := rfl
theorem after_append (a b : List Env) (s : Fs) : after (a ++ b) s = after b (after a s) := List.foldl_append

def envs (es : List Env) (s : St) : St := { s with fs := after es s.fs }

theorem after_fields (es : List Env) : ∀ (s : Fs), (after es s).proxy = s.proxy ∧ (after es s).next = s.next ∧
    (after es s).base = s.base ∧ (after es s).regs = s.regs ∧ (after es s).level = levelAfter es s.level ∧
    ∀ k, k ≠ 0 → (after es s).lst k = s.lst k := by
  induction es with
  | nil => intro s; exact ⟨rfl, rfl, rfl, rfl, rfl, fun _ _ => rfl⟩
  | cons e es ih =>
    intro s
    obtain ⟨h1, h2, h3, h4, h5, h6⟩ := ih (e.on s)
    refine ⟨?_, ?_, ?_, ?_, ?_, ?_⟩
    · rw [after_cons, h1, on_proxy]
    · rw [after_cons, h2, on_next]
    · rw [after_cons, h3, on_base]
    · rw [after_cons, h4, on_regs]
    · rw [after_cons, h5]; cases e <;> rfl
    · intro k hk; rw [after_cons, h6 k hk, on_lst e s k hk]

theorem after_sound (es : List Env) {s : Fs} (h : Sound s) : Sound (after es s) := by
  obtain ⟨h1, h2, -⟩ := after_fields es s
  unfold Sound; rw [h1, h2]; exact h

theorem run_append (rx : Rx) (a b : List Move) : ∀ s, run rx s (a ++ b) = run rx s a >>= fun s' => run rx s' b := by
  induction a with
  | nil => intro s; rfl
  | cons m a ih =>
    intro s
    simp only [List.cons_append, run]
    cases move rx s m with
    | error e => rfl
    | ok s' => exact ih s'

theorem run_moves (rx : Rx) (es : List Env) : ∀ s, run rx s (moves es) = .ok (envs es s) := by
  induction es with
  | nil => intro s; rfl
  | cons e es ih => intro s; exact ih _

theorem frun_append (rx : Rx) (a b : List FOp) : ∀ s, frun rx s (a ++ b) = frun rx s a >>= fun s' => frun rx s' b := by
  induction a with
  | nil => intro s; rfl
  | cons m a ih =>
    intro s
    simp only [List.cons_append, frun]
    cases fstep rx s m with
    | error e => rfl
    | ok s' => exact ih s'

theorem frun_ops (rx : Rx) (es : List Env) : ∀ s, frun rx s (ops es) = .ok (after es s) := by
  induction es with
  | nil => intro s; rfl
  | cons e es ih =>
    intro s
    simp only [ops, List.map_cons, frun, fstep_op]
    exact ih _

theorem after_detach (es : List Env) : ∀ {s : Fs}, Sound s → after es (detachIf s s.proxy) = detachIf (after es s) (after es s).proxy := by
  induction es with
  | nil => intro s _; rfl
  | cons e es ih => intro s h; rw [after_cons, on_detach e h, ih (on_sound h)]; rfl

/-- the later steps, beside several calls -/
theorem go_envs (rx : Rx) (es : List Env) : ∀ (s : St), Sound s.fs →
    ((∃ re l, s.pc = .create re l) ∨ (∃ re l, s.pc = .express re l) ∨ (∃ l, s.pc = .limit l) ∨ s.pc = .enlist ∨ s.pc = .idle) →
    go rx (envs es s) = (go rx s).map (envs es) := by
  induction es with
  | nil => intro s _ _; show go rx s = (go rx s).map id; cases go rx s <;> rfl
  | cons e es ih =>
    intro s h hp
    have : envs (e :: es) s = envs es (env e s) := rfl
    rw [this, ih (env e s) (on_sound h) hp, go_env rx e s h hp]
    cases go rx s <;> rfl

/-- what is left of the calls `es` made before the general level is raised to `l` over `lv` -/
def kept (l lv : Int) (es : List Env) : List Env := if l > lv then es.filter (fun e => !e.isLevel) else es

theorem on_base_set (es : List Env) (b : Int) : ∀ s : Fs, after es { s with base := b } = { after es s with base := b } := by
  induction es with
  | nil => intro s; rfl
  | cons e es ih =>
    intro s
    cases e with
    | level n => exact ih (Env.on (.level n) s)
    | dflt n => exact ih (Env.on (.dflt n) s)

theorem after_level (es : List Env) (l : Int) : ∀ s : Fs,
    { after es s with level := l } = after (es.filter (fun e => !e.isLevel)) { s with level := l } := by
  induction es with
  | nil => intro s; rfl
  | cons e es ih =>
    intro s
    cases e with
    | level n => simp only [after_cons, List.filter_cons, Env.isLevel, Bool.not_true, Bool.false_eq_true, if_false]; rw [ih]; rfl
    | dflt n => simp only [after_cons, List.filter_cons, Env.isLevel, Bool.not_false, if_true]; rw [ih]; rfl

/-- the raising step -/
theorem go_raise (rx : Rx) (fs : Fs) (re : Str) (l : Int) (es : List Env) (made : List FOp) (res : List (Option Exn)) :
    go rx { fs := after es (mid1 fs), pc := .raise re l, made := made, res := res } =
      .ok { fs := after (kept l fs.level es) (mid2 fs l), pc := .create re l, made := made, res := res } := by
  obtain ⟨-, -, h3, -⟩ := after_fields es (mid1 fs)
  simp only [go]
  congr 2
  have hb : (mid1 fs).base = fs.level := rfl
  rw [h3, hb]
  simp only [kept, mid2]
  by_cases h : l > fs.level
  · simp only [h, if_true]
    refine Eq.trans ?_ (after_level es l (mid1 fs))
    simp only [h3, hb]
  · simp only [h, if_false]

theorem mid_sound (fs : Fs) (re : Str) (l : Int) (k : Nat) (h : Sound fs) : Sound (mid fs re l k) := by
  obtain ⟨h1, h2, h3, h4, h5⟩ := Logger.detachIf_fields fs
  have h0 : Sound (mid0 fs) := by unfold Sound mid0; rw [h2, h3]; exact h
  have hn : Sound (mid3 fs l) := ⟨fun e => h.2 (Option.some.inj e), Nat.succ_ne_zero _⟩
  match k with
  | 0 => exact h0
  | 1 => exact h0
  | 2 => simp only [mid, mid2]; split <;> exact h0
  | 3 => exact hn
  | 4 => exact hn
  | (k + 5) => exact hn

theorem run_moves_go (rx : Rx) (es : List Env) (rest : List Move) (s : St) :
    run rx s (moves es ++ .go :: rest) = go rx (envs es s) >>= fun s' => run rx s' rest := by
  rw [run_append, run_moves]; rfl

/-- one call of categoryFilter beside others -/
theorem run_beside (rx : Rx) (fs : Fs) (made : List FOp) (res : List (Option Exn)) (h : Sound fs) (re : Str) (l : Int) (e1 e2 e3 e4 e5 e6 : List Env) :
    run rx { fs := fs, made := made, res := res } (beside re l e1 e2 e3 e4 e5 e6) =
      .ok { fs := after (kept l (after e1 fs).level e2 ++ e3 ++ e4 ++ e5 ++ e6) (categoryFilter rx (after e1 fs) re l).1, pc := .idle,
            made := made ++ [.filter re l], res := res ++ [if rx.valid re = true then none else some .invalidCategory] } := by
  have h1 := after_sound e1 h
  have step1 : ∀ rest, run rx { fs := fs, made := made, res := res } (.filter re l :: (moves e1 ++ .go :: rest)) =
      run rx { fs := mid1 (after e1 fs), pc := .raise re l, made := made ++ [.filter re l], res := res } rest := by
    intro rest
    show run rx { fs := mid0 fs, pc := .read re l, made := made ++ [.filter re l], res := res } (moves e1 ++ .go :: rest) = _
    rw [run_moves_go]
    have : after e1 (mid0 fs) = mid0 (after e1 fs) := after_detach e1 h
    simp only [envs, this]
    have hg := go_mid rx (after e1 fs) re l (made ++ [.filter re l]) res 0 (by omega) (by omega)
    simp only [mid, pcAt] at hg
    rw [hg]; rfl
  unfold beside
  rw [step1, run_moves_go]
  generalize after e1 fs = f at h1 ⊢
  simp only [envs]
  rw [go_raise]
  show run rx _ (moves e3 ++ .go :: _) = _
  generalize kept l f.level e2 = k2
  -- the later steps
  have later : ∀ (k : Nat) (es es' : List Env) (rest : List Move), 2 ≤ k → k < 5 → (k = 3 → rx.valid re = true) →
      run rx { fs := after es (mid f re l k), pc := pcAt re l k, made := made ++ [.filter re l], res := res } (moves es' ++ .go :: rest) =
        run rx { fs := after (es ++ es') (mid f re l (k + 1)), pc := pcAt re l (k + 1), made := made ++ [.filter re l], res := res } rest := by
    intro k es es' rest hk hk5 hv
    rw [run_moves_go]
    have hc := go_envs rx (es ++ es') { fs := mid f re l k, pc := pcAt re l k, made := made ++ [.filter re l], res := res } (mid_sound f re l k h1)
      (by match k, hk, hk5 with
          | 2, _, _ => exact .inl ⟨re, l, rfl⟩
          | 3, _, _ => exact .inr (.inl ⟨re, l, rfl⟩)
          | 4, _, _ => exact .inr (.inr (.inl ⟨l, rfl⟩)))
    rw [go_mid rx f re l _ _ k hk5 hv] at hc
    simp only [envs, Except.map, after_append] at hc ⊢
    rw [hc]; rfl
  have l3 := later 2 k2 e3 (moves e4 ++ .go :: (moves e5 ++ .go :: (moves e6 ++ [.go]))) (by omega) (by omega) (by omega)
  simp only [mid, pcAt] at l3
  rw [l3]
  cases hv : rx.valid re with
  | true =>
    have l4 := later 3 (k2 ++ e3) e4 (moves e5 ++ .go :: (moves e6 ++ [.go])) (by omega) (by omega) (fun _ => hv)
    simp only [mid, pcAt] at l4
    rw [l4]
    have l5 := later 4 (k2 ++ e3 ++ e4) e5 (moves e6 ++ [.go]) (by omega) (by omega) (by omega)
    simp only [mid, pcAt] at l5
    rw [l5, run_moves_go]
    have hc := go_envs rx (k2 ++ e3 ++ e4 ++ e5 ++ e6) { fs := mid5 f re l, pc := .enlist, made := made ++ [.filter re l], res := res } (mid_sound f re l 5 h1)
      (.inr (.inr (.inr (.inl rfl))))
    rw [go_last rx f re l _ _ hv] at hc
    simp only [envs, Except.map, after_append] at hc ⊢
    rw [hc]; rfl
  | false =>
    rw [run_moves_go]
    have hc := go_envs rx (k2 ++ e3 ++ e4) { fs := mid3 f l, pc := .express re l, made := made ++ [.filter re l], res := res } (mid_sound f re l 3 h1)
      (.inr (.inl ⟨re, l, rfl⟩))
    rw [go_bad rx f re l _ _ hv] at hc
    simp only [envs, Except.map, after_append] at hc ⊢
    rw [hc]
    show run rx _ (moves e5 ++ .go :: _) = _
    rw [run_moves_go]
    show run rx _ (moves e6 ++ .go :: _) = _
    rw [run_moves_go]
    rfl

/-! ### all schedules -/

/-- the calls `os`, one after the other, are those made by the filter thread and by the others in the schedule, some calls
of `level` missing -/
structure Agree (os made : List FOp) (ms : List Move) : Prop where
  calls : os.filter isFilterCall = made
  dflts : os.filter isDflt = (ops (others ms)).filter isDflt
  lvls  : (os.filter isLevelCall).Sublist ((ops (others ms)).filter isLevelCall)

theorem ops_calls (es : List Env) : (ops es).filter isFilterCall = [] := by
  induction es with
  | nil => rfl
  | cons e es ih => simp only [ops] at ih; cases e <;> simp [ops, Env.op, isFilterCall, ih]

theorem others_append (a b : List Move) : others (a ++ b) = others a ++ others b := by
  induction a with
  | nil => rfl
  | cons m a ih => cases m <;> simp [others, ih]

theorem ops_append (a b : List Env) : ops (a ++ b) = ops a ++ ops b := by simp [ops]

theorem Agree.more {os made : List FOp} {ms : List Move} (h : Agree os made ms) (m : Move) (hm : others [m] = []) : Agree os made (ms ++ [m]) := by
  refine ⟨h.calls, ?_, ?_⟩
  · rw [others_append, hm, List.append_nil]; exact h.dflts
  · rw [others_append, hm, List.append_nil]; exact h.lvls

theorem Agree.env {os made : List FOp} {ms : List Move} (h : Agree os made ms) (e : Env) : Agree (os ++ [e.op]) made (ms ++ [.env e]) := by
  have ho : ops (others (ms ++ [Move.env e])) = ops (others ms) ++ [e.op] := by rw [others_append, ops_append]; rfl
  refine ⟨?_, ?_, ?_⟩
  · rw [List.filter_append, h.calls]; cases e <;> simp [Env.op, isFilterCall]
  · rw [ho, List.filter_append, List.filter_append, h.dflts]
  · rw [ho, List.filter_append, List.filter_append]
    exact h.lvls.append (List.Sublist.refl _)

theorem Agree.call {os os' made : List FOp} {ms : List Move} (h : Agree (os ++ os') made ms) (hos : os'.filter isFilterCall = []) (c : FOp)
    (hc : isFilterCall c = true) : Agree (os ++ c :: os') (made ++ [c]) ms := by
  have h1 : isDflt c = false ∧ isLevelCall c = false := by cases c <;> first | exact ⟨rfl, rfl⟩ | cases hc
  have c1 := h.calls
  have c2 := h.dflts
  have c3 := h.lvls
  simp only [List.filter_append] at c1 c2 c3
  rw [hos, List.append_nil] at c1
  refine ⟨?_, ?_, ?_⟩
  · simp [List.filter_append, hc, hos, c1]
  · simp only [List.filter_append, List.filter_cons, h1.1]
    exact c2
  · simp only [List.filter_append, List.filter_cons, h1.2]
    exact c3

theorem Agree.lose {os es' made : List FOp} {ms : List Move} (h : Agree (os ++ es') made ms) {es : List FOp}
    (hd : es.filter isDflt = es'.filter isDflt) (hl : (es.filter isLevelCall).Sublist (es'.filter isLevelCall))
    (hc : es.filter isFilterCall = es'.filter isFilterCall) : Agree (os ++ es) made ms := by
  have c1 := h.calls
  have c2 := h.dflts
  have c3 := h.lvls
  simp only [List.filter_append] at c1 c2 c3
  refine ⟨?_, ?_, ?_⟩
  · rw [List.filter_append, hc]; exact c1
  · rw [List.filter_append, hd]; exact c2
  · rw [List.filter_append]
    exact List.Sublist.trans ((List.Sublist.refl _).append hl) c3

theorem kept_dflts (l lv : Int) (es : List Env) : (ops (kept l lv es)).filter isDflt = (ops es).filter isDflt := by
  unfold kept
  split
  · induction es with
    | nil => rfl
    | cons e es ih =>
      cases e with
      | level n => simpa [ops, Env.isLevel, Env.op, isDflt] using ih
      | dflt n => exact congrArg (FOp.dflt n :: ·) ih
  · rfl

theorem kept_lvls (l lv : Int) (es : List Env) : ((ops (kept l lv es)).filter isLevelCall).Sublist ((ops es).filter isLevelCall) := by
  unfold kept
  split
  · refine List.Sublist.filter _ ?_
    simp only [ops]
    exact (List.filter_sublist).map _
  · exact List.Sublist.refl _

/-- where a schedule leads -/
def Ok (rx : Rx) (ms : List Move) (s : St) : Prop :=
  (s.pc = .idle ∧ ∃ os, frun rx finit os = .ok s.fs ∧ Agree os s.made ms) ∨
  (∃ os fs0 made0 es k re l, frun rx finit os = .ok fs0 ∧ k ≤ 5 ∧ (k = 0 → es = []) ∧ (4 ≤ k → rx.valid re = true) ∧
    s.pc = pcAt re l k ∧ s.fs = after es (mid fs0 re l k) ∧ s.made = made0 ++ [.filter re l] ∧ Agree (os ++ ops es) made0 ms) ∨
  (s.pc = .restore ∧ ∃ os fs0 made0, frun rx finit os = .ok fs0 ∧ fs0.proxy ≠ none ∧ s.fs = mid0 fs0 ∧
    s.made = made0 ++ [.clear] ∧ Agree os made0 ms)

theorem ok_init (rx : Rx) : Ok rx [] { fs := finit } :=
  .inl ⟨rfl, [], rfl, ⟨rfl, rfl, List.Sublist.refl _⟩⟩

theorem pcAt_ne (re : Str) (l : Int) (k : Nat) : pcAt re l k ≠ .idle ∧ pcAt re l k ≠ .restore := by
  match k with
  | 0 | 1 | 2 | 3 | 4 | (_ + 5) => exact ⟨nofun, nofun⟩

theorem frun_snoc {rx : Rx} {os : List FOp} {a : Fs} {s b : Fs} (h : frun rx s os = .ok a) (o : FOp) (hb : fstep rx a o = .ok b) :
    frun rx s (os ++ [o]) = .ok b := by
  rw [frun_append, h]; show (fstep rx a o >>= _) = _; rw [hb]; rfl

theorem ok_env {rx : Rx} {ms : List Move} {s : St} (h : Ok rx ms s) (e : Env) : Ok rx (ms ++ [.env e]) { s with fs := e.on s.fs } := by
  rcases h with ⟨hp, os, hr, ha⟩ | ⟨os, fs0, made0, es, k, re, l, hr, hk, h0, hv, hpc, hfs, hm, ha⟩ | ⟨hp, os, fs0, made0, hr, hx, hfs, hm, ha⟩
  · exact .inl ⟨hp, os ++ [e.op], frun_snoc hr _ (fstep_op rx e _), ha.env e⟩
  · by_cases hk0 : k = 0
    · subst hk0
      have := h0 rfl; subst this
      refine .inr (.inl ⟨os ++ [e.op], e.on fs0, made0, [], 0, re, l, frun_snoc hr _ (fstep_op rx e _), hk, fun _ => rfl, hv, hpc, ?_, hm, ?_⟩)
      · have hs := FInv.sound (Logger.finv_run os Logger.finv_init hr)
        show e.on s.fs = _
        rw [hfs]
        exact on_detach e hs
      · simp only [ops, List.map_nil, List.append_nil] at ha ⊢
        exact ha.env e
    · refine .inr (.inl ⟨os, fs0, made0, es ++ [e], k, re, l, hr, hk, fun h => absurd h hk0, hv, hpc, ?_, hm, ?_⟩)
      · show e.on s.fs = _
        rw [hfs, after_append]; rfl
      · rw [ops_append, ← List.append_assoc]; exact ha.env e
  · refine .inr (.inr ⟨hp, os ++ [e.op], e.on fs0, made0, frun_snoc hr _ (fstep_op rx e _), by rw [on_proxy]; exact hx, ?_, hm, ha.env e⟩)
    have hs := FInv.sound (Logger.finv_run os Logger.finv_init hr)
    show e.on s.fs = _
    rw [hfs]
    exact on_detach e hs

theorem ok_go {rx : Rx} {ms : List Move} {s : St} (h : Ok rx ms s) : ∃ s', go rx s = .ok s' ∧ Ok rx (ms ++ [.go]) s' := by
  rcases h with ⟨hp, os, hr, ha⟩ | ⟨os, fs0, made0, es, k, re, l, hr, hk, h0, hv, hpc, hfs, hm, ha⟩ | ⟨hp, os, fs0, made0, hr, hx, hfs, hm, ha⟩
  · refine ⟨s, by simp only [go, hp], .inl ⟨hp, os, hr, ha.more _ rfl⟩⟩
  · have hs := FInv.sound (Logger.finv_run os Logger.finv_init hr)
    obtain ⟨fs, pc, made, res⟩ := s
    dsimp only at hpc hfs hm
    subst hpc; subst hfs; subst hm
    have ends : ∀ r, go rx { fs := mid fs0 re l k, pc := pcAt re l k, made := made0 ++ [.filter re l], res := res } =
        .ok { fs := (categoryFilter rx fs0 re l).1, pc := .idle, made := made0 ++ [.filter re l], res := r } →
        ((∃ re' l', pcAt re l k = .create re' l') ∨ (∃ re' l', pcAt re l k = .express re' l') ∨ (∃ l', pcAt re l k = .limit l') ∨ pcAt re l k = .enlist ∨ pcAt re l k = .idle) →
        ∃ s', go rx { fs := after es (mid fs0 re l k), pc := pcAt re l k, made := made0 ++ [.filter re l], res := res } = .ok s' ∧ Ok rx (ms ++ [.go]) s' := by
      intro r hg hq
      have hc := go_envs rx es { fs := mid fs0 re l k, pc := pcAt re l k, made := made0 ++ [.filter re l], res := res } (mid_sound fs0 re l k hs) hq
      rw [hg] at hc
      refine ⟨_, hc, .inl ⟨rfl, os ++ .filter re l :: ops es, ?_, ?_⟩⟩
      · rw [frun_append, hr]
        show (fstep rx fs0 (.filter re l) >>= fun s' => frun rx s' (ops es)) = _
        exact frun_ops rx es _
      · exact (Agree.call ha (ops_calls es) _ rfl).more _ rfl
    have goes : 2 ≤ k → k < 5 → (k = 3 → rx.valid re = true) →
        ∃ s', go rx { fs := after es (mid fs0 re l k), pc := pcAt re l k, made := made0 ++ [.filter re l], res := res } = .ok s' ∧ Ok rx (ms ++ [.go]) s' := by
      intro h2 h5 h3
      have hc := go_envs rx es { fs := mid fs0 re l k, pc := pcAt re l k, made := made0 ++ [.filter re l], res := res } (mid_sound fs0 re l k hs)
        (by match k, h2, h5 with
            | 2, _, _ => exact .inl ⟨re, l, rfl⟩
            | 3, _, _ => exact .inr (.inl ⟨re, l, rfl⟩)
            | 4, _, _ => exact .inr (.inr (.inl ⟨l, rfl⟩)))
      rw [go_mid rx fs0 re l _ _ k h5 h3] at hc
      refine ⟨_, hc, .inr (.inl ⟨os, fs0, made0, es, k + 1, re, l, hr, by omega, by omega, ?_, rfl, rfl, rfl, ha.more _ rfl⟩)⟩
      intro h4
      by_cases h33 : k = 3
      · exact h3 h33
      · exact hv (by omega)
    have hk6 : k = 0 ∨ k = 1 ∨ k = 2 ∨ k = 3 ∨ k = 4 ∨ k = 5 := by omega
    rcases hk6 with rfl | rfl | rfl | rfl | rfl | rfl
    · have := h0 rfl; subst this
      have hg := go_mid rx fs0 re l (made0 ++ [.filter re l]) res 0 (by omega) (by omega)
      exact ⟨_, hg, .inr (.inl ⟨os, fs0, made0, [], 1, re, l, hr, by omega, by omega, by omega, rfl, rfl, rfl, ha.more _ rfl⟩)⟩
    · refine ⟨_, go_raise rx fs0 re l es _ _, .inr (.inl ⟨os, fs0, made0, kept l fs0.level es, 2, re, l, hr, by omega, by omega, by omega, rfl, rfl, rfl, ?_⟩)⟩
      exact (ha.lose (kept_dflts _ _ _) (kept_lvls _ _ _) (by rw [ops_calls, ops_calls])).more _ rfl
    · exact goes (by omega) (by omega) (by omega)
    · cases hval : rx.valid re with
      | true => exact goes (by omega) (by omega) (fun _ => hval)
      | false => exact ends _ (go_bad rx fs0 re l _ _ hval) (.inr (.inl ⟨re, l, rfl⟩))
    · exact goes (by omega) (by omega) (by omega)
    · exact ends _ (go_last rx fs0 re l _ _ (hv (by omega))) (.inr (.inr (.inr (.inl rfl))))
  · refine ⟨{ s with fs := { s.fs with level := s.fs.base }, pc := .idle, res := s.res ++ [none] }, by simp only [go, hp], .inl ⟨rfl, os ++ [.clear], ?_, ?_⟩⟩
    · refine frun_snoc hr _ ?_
      show clearFilter fs0 = _
      have hb := (Logger.detachIf_fields fs0).2.2.2.1
      cases hx' : fs0.proxy with
      | none => exact absurd hx' hx
      | some p =>
        simp only [clearFilter, hx', hfs, mid0]
        rw [hx'] at hb
        rw [hb]
    · have := (Agree.call (os := os) (os' := []) (by rw [List.append_nil]; exact ha) rfl .clear rfl).more .go rfl
      simpa [hm] using this

theorem ok_move {rx : Rx} {ms : List Move} {s : St} (h : Ok rx ms s) (m : Move) :
    (∃ s', move rx s m = .ok s' ∧ Ok rx (ms ++ [m]) s') ∨
    (m = .clear ∧ s.pc = .idle ∧ s.fs.proxy = none ∧ move rx s m = .error (.ub .nullDeref)) := by
  have same : ∀ m, others [m] = [] → Ok rx (ms ++ [m]) s := by
    intro m hm
    rcases h with ⟨hp, os, hr, ha⟩ | ⟨os, fs0, made0, es, k, re, l, hr, hk, h0, hv, hpc, hfs, hmd, ha⟩ | ⟨hp, os, fs0, made0, hr, hx, hfs, hmd, ha⟩
    · exact .inl ⟨hp, os, hr, ha.more _ hm⟩
    · exact .inr (.inl ⟨os, fs0, made0, es, k, re, l, hr, hk, h0, hv, hpc, hfs, hmd, ha.more _ hm⟩)
    · exact .inr (.inr ⟨hp, os, fs0, made0, hr, hx, hfs, hmd, ha.more _ hm⟩)
  cases m with
  | env e => exact .inl ⟨_, rfl, ok_env h e⟩
  | go => exact .inl (ok_go h)
  | filter re l =>
    refine .inl ?_
    by_cases hp : s.pc = .idle
    · simp only [move, hp]
      refine ⟨_, rfl, ?_⟩
      rcases h with ⟨-, os, hr, ha⟩ | ⟨os, fs0, made0, es, k, re', l', hr, hk, h0, hv, hpc, -⟩ | ⟨hp', -⟩
      · exact .inr (.inl ⟨os, s.fs, s.made, [], 0, re, l, hr, by omega, fun _ => rfl, by omega, rfl, rfl, rfl, by simpa [ops] using ha.more _ rfl⟩)
      · rw [hpc] at hp; exact absurd hp (pcAt_ne _ _ _).1
      · rw [hp'] at hp; exact nomatch hp
    · have : move rx s (.filter re l) = .ok s := by
        simp only [move]
      exact ⟨s, this, same _ rfl⟩
  | clear =>
    by_cases hp : s.pc = .idle
    · cases hx : s.fs.proxy with
      | none => exact .inr ⟨rfl, hp, rfl, by simp only [move, hp, hx]⟩
      | some p =>
        refine .inl ⟨{ s with fs := detachIf s.fs (some p), pc := .restore, made := s.made ++ [.clear] }, by simp only [move, hp, hx], ?_⟩
        rcases h with ⟨-, os, hr, ha⟩ | ⟨os, fs0, made0, es, k, re', l', hr, hk, h0, hv, hpc, -⟩ | ⟨hp', -⟩
        · exact .inr (.inr ⟨rfl, os, s.fs, s.made, hr, by rw [hx]; nofun, by simp only [mid0, hx], rfl, ha.more _ rfl⟩)
        · rw [hpc] at hp; exact absurd hp (pcAt_ne _ _ _).1
        · rw [hp'] at hp; exact nomatch hp
    · have : move rx s .clear = .ok s := by
        simp only [move]
      exact .inl ⟨s, this, same _ rfl⟩

theorem ok_run {rx : Rx} (ms : List Move) : ∀ {ms0 : List Move} {s s' : St}, Ok rx ms0 s → run rx s ms = .ok s' → Ok rx (ms0 ++ ms) s' := by
  induction ms with
  | nil => intro ms0 s s' h hr; simp only [run] at hr; cases hr; rw [List.append_nil]; exact h
  | cons m ms ih =>
    intro ms0 s s' h hr
    simp only [run] at hr
    rcases ok_move h m with ⟨s1, h1, h2⟩ | ⟨-, -, -, h1⟩
    · rw [h1] at hr
      have := ih h2 hr
      simpa using this
    · rw [h1] at hr; cases hr

/-- no filter is in force in the middle of a call -/
theorem mid_none {rx : Rx} {ms : List Move} {s : St} (h : Ok rx ms s) (hp : s.pc ≠ .idle) :
    FInv s.fs ∧ ∀ k ∈ s.fs.regs, k ≠ 0 → (s.fs.lst k).detached = true := by
  have key : ∀ (f : Fs), FInv f → ∀ re l k, FInv (mid f re l k) ∧ ∀ j ∈ (mid f re l k).regs, j ≠ 0 → ((mid f re l k).lst j).detached = true := by
    intro f hf re l k
    obtain ⟨d1, d2, d3, d4, d5⟩ := Logger.detachIf_fields f
    have i0 : FInv (mid0 f) := by
      refine ⟨by unfold mid0; rw [d1, d3]; exact hf.next, by unfold mid0; rw [d3]; exact hf.pos, by unfold mid0; rw [d2, d3]; exact hf.proxy, ?_, ?_, by unfold mid0; rw [d1]; exact hf.zero, by unfold mid0; rw [d1]; exact hf.nodup⟩
      · intro j hj h0 _; unfold mid0 at hj ⊢; rw [d1] at hj; exact LogFilter.detach_all hf j hj h0
      · unfold mid0; rw [LogFilter.detach_zero hf]; exact hf.dflt
    have a0 : ∀ j ∈ (mid0 f).regs, j ≠ 0 → ((mid0 f).lst j).detached = true := by
      intro j hj h0; unfold mid0 at hj ⊢; rw [d1] at hj; exact LogFilter.detach_all hf j hj h0
    have i2 : (mid2 f l).regs = f.regs ∧ (mid2 f l).next = f.next ∧ (mid2 f l).lst = (mid0 f).lst ∧ (mid2 f l).proxy = (mid0 f).proxy := by
      unfold mid2; split <;> exact ⟨d1, d3, rfl, rfl⟩
    have later : ∀ (g : Fs) (v : Lst), g.regs = f.regs → g.next = f.next + 1 → g.proxy = some f.next → g.lst = setLst (mid0 f).lst f.next v →
        FInv g ∧ ∀ j ∈ g.regs, j ≠ 0 → (g.lst j).detached = true := by
      intro g v g1 g2 g3 g4
      have n0 : f.next ≠ 0 := Nat.pos_iff_ne_zero.1 hf.pos
      have all : ∀ j ∈ g.regs, j ≠ 0 → (g.lst j).detached = true := by
        intro j hj h0
        rw [g1] at hj
        have hne : j ≠ f.next := fun e => Nat.lt_irrefl _ (e ▸ hf.next j hj)
        rw [g4, Logger.setLst_ne _ _ hne]
        exact LogFilter.detach_all hf j hj h0
      refine ⟨⟨?_, by rw [g2]; exact Nat.succ_pos _, ?_, fun j hj h0 _ => all j hj h0, ?_, by rw [g1]; exact hf.zero, by rw [g1]; exact hf.nodup⟩, all⟩
      · intro j hj; rw [g1] at hj; rw [g2]; exact Nat.lt_succ_of_lt (hf.next j hj)
      · intro p hp; rw [g3] at hp; cases hp; rw [g2]; exact ⟨Nat.lt_succ_self _, n0⟩
      · rw [g4, Logger.setLst_ne _ _ (Ne.symm n0)]; exact i0.dflt
    match k with
    | 0 => exact ⟨i0, a0⟩
    | 1 => exact ⟨⟨i0.next, i0.pos, i0.proxy, i0.others, i0.dflt, i0.zero, i0.nodup⟩, a0⟩
    | 2 =>
      simp only [mid, mid2]
      split
      · exact ⟨⟨i0.next, i0.pos, i0.proxy, i0.others, i0.dflt, i0.zero, i0.nodup⟩, a0⟩
      · exact ⟨⟨i0.next, i0.pos, i0.proxy, i0.others, i0.dflt, i0.zero, i0.nodup⟩, a0⟩
    | 3 => exact later (mid3 f l) {} i2.1 rfl rfl rfl
    | 4 => exact later (mid4 f re l) { regex := some re, category := re } i2.1 rfl rfl (by simp only [mid4, setLst_twice])
    | (k + 5) => exact later (mid5 f re l) { regex := some re, category := re, level := l } i2.1 rfl rfl (by simp only [mid5, setLst_twice])
  have env1 : ∀ (e : Env) (f : Fs), FInv f → FInv (e.on f) := by
    intro e f hf
    exact Logger.FInv.step (rx := rx) (o := e.op) hf (fstep_op rx e f)
  have envk : ∀ (es : List Env) (f : Fs), (FInv f ∧ ∀ j ∈ f.regs, j ≠ 0 → (f.lst j).detached = true) →
      FInv (after es f) ∧ ∀ j ∈ (after es f).regs, j ≠ 0 → ((after es f).lst j).detached = true := by
    intro es
    induction es with
    | nil => intro f h; exact h
    | cons e es ih =>
      intro f ⟨h1, h2⟩
      refine ih (e.on f) ⟨env1 e f h1, ?_⟩
      intro j hj h0
      rw [on_regs] at hj
      rw [on_lst e f j h0]; exact h2 j hj h0
  rcases h with ⟨hp', -⟩ | ⟨os, fs0, made0, es, k, re, l, hr, hk, h0, hv, hpc, hfs, hmd, ha⟩ | ⟨hp', os, fs0, made0, hr, hx, hfs, hmd, ha⟩
  · exact absurd hp' hp
  · rw [hfs]
    exact envk es _ (key fs0 (Logger.finv_run os Logger.finv_init hr) re l k)
  · rw [hfs]
    exact key fs0 (Logger.finv_run os Logger.finv_init hr) [] 0 0

end Falcon.FilterRace
