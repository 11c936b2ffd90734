import Verif.Proofs.FilterRace
/-
C155: categoryFilter and clearFilter beside other threads.
-/
namespace Falcon.FilterRace
open Falcon.Log (Str Rx Msg LId setLst)
open Falcon.Logger (Fs FOp FInv finit fstep frun categoryFilter clearFilter lines anyRx)

/-- C155 does not hold (1): a call of `level` can be lost. The general level is 3; while categoryFilter("a", 5) runs,
another thread calls level(2). Behind a clearFilter the level is 3, although it is 2 after the three calls in whatever
order: the call that asked for 2 had no effect. -/
theorem C155_level_lost_refuted :
    ((run anyRx { fs := finit } (.env (.level 3) :: beside ['a'] 5 [] [.level 2] [] [] [] [] ++ besideClear [])).toOption.map (·.fs.level) = some 3) ∧
    ((frun anyRx finit [.level 3, .level 2, .filter ['a'] 5, .clear]).toOption.map (·.level) = some 2) ∧
    ((frun anyRx finit [.level 3, .filter ['a'] 5, .level 2]).toOption.map (·.level) = some 2) := by decide

/-- C155 does not hold (2): while a filter for "a" is replaced by another filter for "a", messages in category "a" are not
written by any; before and behind the call they are. -/
theorem C155_gap_refuted :
    ((run anyRx { fs := finit } (.env (.level 3) :: .env (.dflt 3) :: beside ['a'] 4 [] [] [] [] [] [])).toOption.map
      (fun s => lines anyRx s.fs { level := 4, cat := ['a'], file := [], line := 1, text := [] }) = some 1) ∧
    ((run anyRx { fs := finit } (.env (.level 3) :: .env (.dflt 3) :: beside ['a'] 4 [] [] [] [] [] [] ++ [.filter ['a'] 5])).toOption.map
      (fun s => lines anyRx s.fs { level := 4, cat := ['a'], file := [], line := 1, text := [] }) = some 0) ∧
    ((run anyRx { fs := finit } (.env (.level 3) :: .env (.dflt 3) :: beside ['a'] 4 [] [] [] [] [] [] ++ beside ['a'] 5 [] [] [] [] [] [])).toOption.map
      (fun s => lines anyRx s.fs { level := 4, cat := ['a'], file := [], line := 1, text := [] }) = some 1) := by decide

/-- C155 does not hold (3): two threads that call categoryFilter race on the pointer to the filter. -/
theorem C155_race_refuted (p q p' q' : LId) (re re' : Str) (l l' : Int) :
    ∃ x ∈ accesses p q (.filter re l), ∃ y ∈ accesses p' q' (.filter re' l'), Race.Clash x y :=
  ⟨⟨.proxyPtr, true, false, []⟩, by simp [accesses], ⟨.proxyPtr, false, false, []⟩, by simp [accesses], rfl, .inl rfl, by simp, by simp⟩

/-- C155 (what happens, exactly): a call of categoryFilter during which other threads set levels leaves the Logger as the
same calls one after the other do, categoryFilter taking its place where it looks up the general level; except that, if it
raises the level, the calls of `level` that come between the look and the raise are as if they had not been made. It throws
exactly if the expression is not valid. -/
theorem C155_filter_exact_partial (rx : Rx) (os : List FOp) (fs : Fs) (hr : frun rx finit os = .ok fs) (re : Str) (l : Int)
    (e1 e2 e3 e4 e5 e6 : List Env) (made : List FOp) (res : List (Option Exn)) :
    ∃ s, run rx { fs := fs, made := made, res := res } (beside re l e1 e2 e3 e4 e5 e6) = .ok s ∧ s.pc = .idle ∧
      s.res = res ++ [if rx.valid re = true then none else some .invalidCategory] ∧
      frun rx fs (ops e1 ++ .filter re l :: ops ((if l > levelAfter e1 fs.level then e2.filter (fun e => !e.isLevel) else e2)
        ++ e3 ++ e4 ++ e5 ++ e6)) = .ok s.fs := by
  have hs := FInv.sound (Logger.finv_run os Logger.finv_init hr)
  refine ⟨_, run_beside rx fs made res hs re l e1 e2 e3 e4 e5 e6, rfl, rfl, ?_⟩
  rw [frun_append, frun_ops]
  show (fstep rx (after e1 fs) (.filter re l) >>= fun s' => frun rx s' _) = _
  have hl := (after_fields e1 fs).2.2.2.2.1
  simp only [kept, hl]
  exact frun_ops rx _ _

/-- C155 (what holds): clearFilter is not disturbed: it counts as made where it sets the level. -/
theorem C155_clear_exact_partial (rx : Rx) (os : List FOp) (fs : Fs) (hr : frun rx finit os = .ok fs) (e1 : List Env)
    (made : List FOp) (res : List (Option Exn)) (hp : fs.proxy ≠ none) :
    ∃ s, run rx { fs := fs, made := made, res := res } (besideClear e1) = .ok s ∧ s.pc = .idle ∧
      frun rx fs (ops e1 ++ [.clear]) = .ok s.fs := by
  have hs := FInv.sound (Logger.finv_run os Logger.finv_init hr)
  cases hx : fs.proxy with
  | none => exact absurd hx hp
  | some p =>
    have hd := after_detach e1 hs
    obtain ⟨a1, a2, a3, -⟩ := after_fields e1 fs
    rw [a1, hx] at hd
    refine ⟨{ fs := { Logger.detachIf (after e1 fs) (some p) with level := fs.base }, pc := .idle, made := made ++ [.clear], res := res ++ [none] }, ?_, rfl, ?_⟩
    · have h1 : run rx { fs := fs, made := made, res := res } (besideClear e1) =
          run rx { fs := Logger.detachIf fs (some p), pc := .restore, made := made ++ [.clear], res := res } (moves e1 ++ [.go]) := by
        simp only [besideClear, run, move, hx]; rfl
      rw [h1, run_moves_go]
      simp only [envs, hd, go, run]
      have hb : (Logger.detachIf (after e1 fs) (some p)).base = fs.base := a3
      rw [hb]; rfl
    · rw [frun_append, frun_ops]
      show (clearFilter (after e1 fs) >>= fun s' => Except.ok s') = _
      simp only [clearFilter, a1, hx, a3]; rfl

/-- C155 (what holds): for every schedule: whenever the filter thread is between two calls, the Logger is as after some
history of its calls and those of the others, one after the other, in which only calls of `level` may be missing. -/
theorem C155_histories_partial (rx : Rx) (ms : List Move) (s : St) (hr : run rx { fs := finit } ms = .ok s) (hp : s.pc = .idle) :
    ∃ os, frun rx finit os = .ok s.fs ∧ os.filter isFilterCall = s.made ∧ os.filter isDflt = (ops (others ms)).filter isDflt ∧
      (os.filter isLevelCall).Sublist ((ops (others ms)).filter isLevelCall) := by
  have h := ok_run ms (ok_init rx) hr
  rcases h with ⟨-, os, h1, h2⟩ | ⟨os, fs0, made0, es, k, re, l, -, -, -, -, hpc, -⟩ | ⟨hp', -⟩
  · exact ⟨os, h1, h2.calls, h2.dflts, h2.lvls⟩
  · rw [hpc] at hp; exact absurd hp (pcAt_ne _ _ _).1
  · rw [hp'] at hp; cases hp

/-- C155 (what holds): at every moment inside a call no filter is in force; what is written is what the default listener's
level and the general level of the moment admit, each message once. So a message is never written on account of a filter
that is half set. -/
theorem C155_inside_partial (rx : Rx) (ms : List Move) (s : St) (hr : run rx { fs := finit } ms = .ok s) (hp : s.pc ≠ .idle) (m : Msg) :
    lines rx s.fs m = if s.fs.level < m.level then 0 else if m.level ≤ (s.fs.lst 0).level then 1 else 0 := by
  have h := ok_run ms (ok_init rx) hr
  obtain ⟨hi, ha⟩ := mid_none h hp
  have hsame : LogFilter.Same s.fs { level := s.fs.level, dflt := (s.fs.lst 0).level, filter := none, back := s.fs.proxy.map fun _ => s.fs.base } := by
    refine ⟨hi, rfl, rfl, ?_, ?_, fun _ => ha, nofun⟩
    · cases s.fs.proxy <;> simp
    · intro b hb; cases hx : s.fs.proxy <;> simp_all
  rw [hsame.lines m]
  rfl

/-- C155 (what holds): the calls go wrong in no schedule but one in which clearFilter is called although no filter was ever
asked for. -/
theorem C155_no_fault (rx : Rx) (ms : List Move) (f : Fault) (hr : run rx { fs := finit } ms = .error f) :
    f = .ub .nullDeref ∧ ∃ a b s, ms = a ++ .clear :: b ∧ run rx { fs := finit } a = .ok s ∧ s.pc = .idle ∧
      ∀ re l, FOp.filter re l ∉ s.made := by
  have key : ∀ (ms ms0 : List Move) (s : St), Ok rx ms0 s → run rx { fs := finit } ms0 = .ok s → run rx s ms = .error f →
      f = .ub .nullDeref ∧ ∃ a b s, ms0 ++ ms = a ++ .clear :: b ∧ run rx { fs := finit } a = .ok s ∧ s.pc = .idle ∧ s.fs.proxy = none ∧ Ok rx a s := by
    intro ms
    induction ms with
    | nil => intro ms0 s _ _ h; exact nomatch h
    | cons m ms ih =>
      intro ms0 s ho h0 h
      simp only [run] at h
      rcases ok_move ho m with ⟨s1, h1, h2⟩ | ⟨hm, hp, hx, h1⟩
      · rw [h1] at h
        have hr1 : run rx { fs := finit } (ms0 ++ [m]) = .ok s1 := by
          rw [run_append, h0]; show (move rx s m >>= _) = _; rw [h1]; rfl
        obtain ⟨e, a, b, s2, e1, e2⟩ := ih _ _ h2 hr1 h
        exact ⟨e, a, b, s2, by rw [← e1]; simp, e2⟩
      · rw [h1] at h; cases h
        subst hm
        exact ⟨rfl, ms0, ms, s, rfl, h0, hp, hx, ho⟩
  obtain ⟨e, a, b, s, e1, e2, e3, e4, e5⟩ := key ms [] _ (ok_init rx) rfl hr
  refine ⟨e, a, b, s, e1, e2, e3, ?_⟩
  intro re l hm
  rcases e5 with ⟨-, os, h1, h2⟩ | ⟨os, fs0, made0, es, k, re, l, -, -, -, -, hpc, -⟩ | ⟨hp', -⟩
  · rw [← h2.calls] at hm
    have hin : FOp.filter re l ∈ os := (List.mem_filter.1 hm).1
    have hset : ∀ (os : List FOp) (s s' : Fs), frun rx s os = .ok s' → (FOp.filter re l ∈ os ∨ s.proxy ≠ none) → s'.proxy ≠ none := by
      intro os
      induction os with
      | nil => intro s s' h hm; simp only [frun] at h; cases h; simpa using hm
      | cons o os ih =>
        intro s s' h hm
        simp only [frun] at h
        cases hs : fstep rx s o with
        | error x => rw [hs] at h; cases h
        | ok s1 =>
          rw [hs] at h
          refine ih s1 s' h ?_
          cases o with
          | filter re' l' =>
            refine .inr ?_
            simp only [fstep] at hs; cases hs
            rw [Logger.categoryFilter_eq]; simp only; split <;> simp
          | clear =>
            refine hm.imp (fun h => by simpa using h) (fun hq => ?_)
            simp only [fstep] at hs
            obtain ⟨p, hp, rfl⟩ := Logger.clear_eq hs
            simp only [(Logger.detachIf_fields s).2.1]; exact hq
          | level n => simp only [fstep] at hs; cases hs; exact hm.imp (fun h => by simpa using h) id
          | dflt n => simp only [fstep] at hs; cases hs; exact hm.imp (fun h => by simpa using h) id
    exact hset os _ _ h1 (.inl hin) e4
  · rw [hpc] at e3; exact absurd e3 (pcAt_ne _ _ _).1
  · rw [hp'] at e3; cases e3

/-- what an access can be -/
theorem access_kind (p q : LId) (a : FOp) (x : Access) (hx : x ∈ accesses p q a) :
    (x.atomic = true ∧ (x.loc = .level ∨ (∃ k, x.loc = .lstLevel k) ∨ ∃ k, x.loc = .detached k)) ∨
    (x.loc = .dfltPtr ∧ x.write = false) ∨
    ((x.loc = .proxyPtr ∨ x.loc = .base) ∧ isFilterCall a = true ∧ (x.write = true → ∃ re l, a = .filter re l)) ∨
    (∃ k, x.loc = .category k ∧ x.held = [.category k]) ∨
    (x.loc = .pending ∧ x.held = [.listeners]) := by
  cases a <;> simp only [accesses, List.mem_cons, List.not_mem_nil, or_false] at hx
  · rcases hx with rfl | rfl | rfl | rfl | rfl | rfl | rfl | rfl | rfl | rfl | rfl <;> simp [isFilterCall]
  · rcases hx with rfl | rfl | rfl | rfl <;> simp [isFilterCall]
  · subst hx; simp
  · rcases hx with rfl | rfl <;> simp

/-- Calls of two threads at once are free of data races unless one of them is categoryFilter and the other is categoryFilter
or clearFilter; these race on the pointer to the filter and on the stored level, and on nothing else. -/
theorem C155_race_exact_partial (p q p' q' : LId) (a b : FOp) (o : Loc) :
    (∃ x ∈ accesses p q a, ∃ y ∈ accesses p' q' b, x.loc = o ∧ Race.Clash x y) ↔
      isFilterCall a = true ∧ isFilterCall b = true ∧ ((∃ re l, a = .filter re l) ∨ ∃ re l, b = .filter re l) ∧
      (o = .proxyPtr ∨ o = .base) := by
  constructor
  · rintro ⟨x, hx, y, hy, rfl, h1, h2, h3, h4⟩
    rcases access_kind p q a x hx with ⟨ax, lx⟩ | ⟨lx, wx⟩ | ⟨lx, fx, wx⟩ | ⟨k, lx, kx⟩ | ⟨lx, kx⟩ <;>
      rcases access_kind p' q' b y hy with ⟨ay, ly⟩ | ⟨ly, wy⟩ | ⟨ly, fy, wy⟩ | ⟨k', ly, ky⟩ | ⟨ly, ky⟩ <;>
      first
      | exact ⟨fx, fy, h2.imp wx wy, lx⟩
      | (exfalso; simp_all; done)
      | (exfalso; rcases lx with lx | ⟨k, lx⟩ | ⟨k, lx⟩ <;> simp_all; done)
      | (exfalso; rcases ly with ly | ⟨k, ly⟩ | ⟨k, ly⟩ <;> simp_all; done)
      | (exfalso; rcases lx with lx | lx <;> simp_all; done)
      | (exfalso; rcases ly with ly | ly <;> simp_all; done)
  · rintro ⟨ha, hb, h, ho⟩
    rcases h with ⟨re, l, rfl⟩ | ⟨re, l, rfl⟩
    · refine ⟨⟨o, true, false, []⟩, by rcases ho with rfl | rfl <;> simp [accesses], ⟨o, false, false, []⟩, ?_, rfl, rfl, .inl rfl, by simp, by simp⟩
      cases b <;> first | (rcases ho with rfl | rfl <;> simp [accesses]; done) | cases hb
    · refine ⟨⟨o, false, false, []⟩, ?_, ⟨o, true, false, []⟩, by rcases ho with rfl | rfl <;> simp [accesses], rfl, rfl, .inr rfl, by simp, by simp⟩
      cases a <;> first | (rcases ho with rfl | rfl <;> simp [accesses]; done) | cases ha

/-! ### the hypotheses are met -/

example : ∃ s, run anyRx { fs := finit } (.env (.level 3) :: beside ['a'] 4 [.dflt 2] [.level 2] [.dflt 1] [.level 4] [] [.dflt 5] ++ besideClear [.level 1]) = .ok s ∧
    s.pc = .idle ∧ s.made = [.filter ['a'] 4, .clear] ∧ s.fs.level = 3 := ⟨_, rfl, rfl, rfl, rfl⟩

example : ∃ s, run anyRx { fs := finit } [.filter ['a'] 4, .env (.level 2), .go, .go, .go, .go] = .ok s ∧ s.pc ≠ .idle :=
  ⟨_, rfl, nofun⟩

example : run anyRx { fs := finit } [.env (.level 2), .clear] = .error (.ub .nullDeref) := rfl

theorem detachIf_fields (s : Fs) (p : Option LId) : (Logger.detachIf s p).level = s.level ∧ (Logger.detachIf s p).regs = s.regs ∧ (Logger.detachIf s p).next = s.next ∧
    ∀ k, (Logger.detachIf s p).lst k = if p = some k then { s.lst k with detached := true } else s.lst k := by
  cases p with
  | none => exact ⟨rfl, rfl, rfl, fun k => by simp [Logger.detachIf]⟩
  | some p =>
    refine ⟨rfl, rfl, rfl, fun k => ?_⟩
    by_cases hk : k = p
    · simp [Logger.detachIf, setLst, hk]
    · simp [Logger.detachIf, setLst, hk, Ne.symm hk]

/-- What categoryFilter leaves behind. -/
theorem filter_fields (rx : Rx) (s : Fs) (re : Str) (l : Int) :
    (categoryFilter rx s re l).1.level = (if l > s.level then l else s.level) ∧ (categoryFilter rx s re l).1.base = s.level ∧
    (categoryFilter rx s re l).1.proxy = some s.next ∧ (categoryFilter rx s re l).1.next = s.next + 1 ∧
    (categoryFilter rx s re l).1.regs = (if rx.valid re = true then s.regs ++ [s.next] else s.regs) ∧
    (categoryFilter rx s re l).2 = (if rx.valid re = true then none else some .invalidCategory) ∧
    ∀ k, (categoryFilter rx s re l).1.lst k = if k = s.next then (if rx.valid re = true then { level := l, category := re, regex := some re } else {})
      else if s.proxy = some k then { s.lst k with detached := true } else s.lst k := by
  obtain ⟨d1, d2, d3, d4⟩ := detachIf_fields s s.proxy
  have e : ∀ k, setLst (Logger.detachIf s s.proxy).lst s.next {} k = if k = s.next then {} else if s.proxy = some k then { s.lst k with detached := true } else s.lst k := by
    intro k; simp only [setLst, d4]
  by_cases hv : rx.valid re = true <;> by_cases hl : l > s.level <;>
    simp [categoryFilter, Falcon.Log.setCategory, hv, hl, d1, d2, d3, setLst] <;> intro k <;> by_cases hk : k = s.next <;> simp [hk, d4]

/-- The accesses are complete, writes: whatever a call changes is among its writes, or is the mark of the proxy it creates. -/
theorem C155_writes_complete (rx : Rx) (s s' : Fs) (o : FOp) (h : fstep rx s o = .ok s') (x : Loc) (hx : ¬x.Same s s') :
    (∃ acc ∈ made s o, acc.loc = x ∧ acc.write = true) ∨ x = .detached s.next := by
  cases o with
  | level n => cases h; cases x <;> simp [made, accesses, Loc.Same] at hx ⊢
  | dflt n =>
    cases h
    cases x <;> simp [made, accesses, Loc.Same, setLst] at hx ⊢
    all_goals (rename_i k; by_cases hk : k = 0 <;> simp_all)
  | clear =>
    simp only [fstep, clearFilter] at h
    split at h
    · cases h
    · rename_i p hp
      cases h
      cases x <;> simp [made, accesses, Loc.Same, setLst, Logger.detachIf, hp] at hx ⊢
      all_goals (rename_i k; by_cases hk : k = p <;> simp_all)
  | filter re l =>
    cases h
    obtain ⟨f1, f2, f3, f4, f5, -, f6⟩ := filter_fields rx s re l
    cases x with
    | lstLevel k | detached k | category k =>
      simp only [Loc.Same, f6] at hx
      by_cases hk : k = s.next
      · subst hk; simp [made, accesses]
      · by_cases hp : s.proxy = some k
        · simp [hk, hp] at hx; try simp [made, accesses, hp]
        · simp [hk, hp] at hx
    | dfltPtr => exact absurd trivial hx
    | _ => simp [made, accesses]

/-- The accesses are complete, reads: in two states that agree on the locations a call accesses, and on which proxy is created next, the call does the same, throws the
same, and leaves the same behind in them. -/
theorem C155_reads_complete (rx : Rx) (a b a' : Fs) (o : FOp) (hn : a.next = b.next) (hf : ∀ acc ∈ made a o, acc.loc.Same a b) (h : fstep rx a o = .ok a') :
    ∃ b', fstep rx b o = .ok b' ∧ a'.next = b'.next ∧ made a o = made b o ∧ (∀ acc ∈ made a o, acc.loc.Same a' b') ∧
      ∀ re l, o = .filter re l → (categoryFilter rx a re l).2 = (categoryFilter rx b re l).2 := by
  cases o with
  | level n => cases h; refine ⟨_, rfl, hn, rfl, ?_, by simp⟩; simp [made, accesses, Loc.Same]
  | dflt n =>
    cases h
    refine ⟨_, rfl, hn, rfl, ?_, by simp⟩
    simp [made, accesses, Loc.Same, setLst]
  | clear =>
    simp only [made, accesses, List.mem_cons, List.not_mem_nil, or_false, forall_eq_or_imp, forall_eq, Loc.Same] at hf
    obtain ⟨h1, h2, h3, h4⟩ := hf
    simp only [fstep, clearFilter] at h
    split at h
    · cases h
    · rename_i p hp
      cases h
      have hpb : b.proxy = some p := h1 ▸ hp
      have hb : fstep rx b .clear = .ok { Logger.detachIf b (some p) with level := (Logger.detachIf b (some p)).base } := by simp only [fstep, clearFilter, hpb]; rfl
      refine ⟨_, hb, hn, by simp [made, accesses, h1], ?_, by simp⟩
      simp [made, accesses, Loc.Same, hp, hpb, Logger.detachIf, setLst, h3]
  | filter re l =>
    simp only [made, accesses, List.mem_cons, List.not_mem_nil, or_false, forall_eq_or_imp, forall_eq, Loc.Same] at hf
    obtain ⟨h1, h2, h3, h4, -, -, -, -, h5, h6, h7⟩ := hf
    cases h
    obtain ⟨f1, f2, f3, f4, f5, f6, f7⟩ := filter_fields rx a re l
    obtain ⟨g1, g2, g3, g4, g5, g6, g7⟩ := filter_fields rx b re l
    refine ⟨_, rfl, by rw [f4, g4, hn], by simp only [made, h1, hn], ?_, ?_⟩
    · simp only [made, accesses, List.mem_cons, List.not_mem_nil, or_false, forall_eq_or_imp, forall_eq, Loc.Same]
      simp only [f1, f2, f3, f5, f7, g1, g2, g3, g5, g7, h1, h3, hn, h7, if_true, true_and, and_true]
      cases hp : b.proxy with
      | none =>
        by_cases h0 : (0 : Nat) = b.next
        · simp [Option.getD, ← h0]
        · rw [h1, hp] at h2; simp [Option.getD, h0]; exact h2
      | some p => simp only [Option.getD]; by_cases h0 : p = b.next <;> simp [h0]
    · intro re' l' e
      cases e
      rw [f6, g6]

/-- Non-vacuity: setting a filter where there is one changes six things. -/
example : ∃ s s', frun anyRx finit [.level 3, .filter ['a'] 4] = .ok s ∧ fstep anyRx s (.filter ['b'] 6) = .ok s' ∧ ¬Loc.Same s s' .level ∧ ¬Loc.Same s s' .base ∧
    ¬Loc.Same s s' .proxyPtr ∧ ¬Loc.Same s s' (.detached 1) ∧ ¬Loc.Same s s' (.category 2) ∧ ¬Loc.Same s s' .pending := by
  refine ⟨_, _, rfl, rfl, ?_⟩
  refine ⟨?_, ?_, ?_, ?_, ?_, ?_⟩ <;> simp only [Loc.Same] <;> decide

end Falcon.FilterRace
