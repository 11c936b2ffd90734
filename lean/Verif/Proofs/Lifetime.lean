import Verif.Spec.Lifetime
/- Lemmas for C139. -/
namespace Falcon.Lifetime

theorem run_add (P : Prog) (a b : Nat) (s s' : St) (h : run P a s = .running s') : run P (a + b) s = run P b s' := by
  induction a generalizing s with
  | zero => simp only [run, Outcome.running.injEq] at h; subst h; simp
  | succ a ih =>
    rw [show a + 1 + b = (a + b) + 1 from by omega]
    unfold run at h ⊢
    cases hs : step P s with
    | none => rw [hs] at h; cases h
    | some r =>
      rw [hs] at h
      cases r with
      | error u => cases h
      | ok t =>
        have := ih t h
        show run P (a + b) t = _
        rw [this]
        cases b <;> rfl

/-- The process gets from `s` to `s'`. -/
def Steps (P : Prog) (s s' : St) : Prop := ∃ n, run P n s = .running s'

theorem Steps.refl (P : Prog) (s : St) : Steps P s s := ⟨0, rfl⟩

theorem Steps.trans {P : Prog} {a b c : St} (h : Steps P a b) (g : Steps P b c) : Steps P a c := by
  obtain ⟨n, h⟩ := h
  obtain ⟨m, g⟩ := g
  exact ⟨n + m, by rw [run_add P n m a b h]; exact g⟩

theorem Steps.one {P : Prog} {a b : St} (h : step P a = some (.ok b)) : Steps P a b :=
  ⟨1, by simp only [run, h]⟩

theorem Steps.ends {P : Prog} {a b : St} (h : Steps P a b) (g : step P b = none) : ∃ n, run P n a = .ended b := by
  obtain ⟨n, h⟩ := h
  exact ⟨n + 1, by rw [run_add P n 1 a b h]; simp only [run, g]⟩

/-- A run that ends never goes wrong. -/
theorem ended_not_wrong {P : Prog} {n : Nat} {a b : St} (h : run P n a = .ended b) (m : Nat) (u : UB) : run P m a ≠ .wrong u := by
  induction n generalizing a m with
  | zero => cases h
  | succ n ih =>
    cases m with
    | zero => intro hc; cases hc
    | succ m =>
      unfold run at h ⊢
      cases hs : step P a with
      | none => intro hc; cases hc
      | some r =>
        rw [hs] at h
        cases r with
        | error u => cases h
        | ok t => exact ih h m

/-- An invariant of the states a process goes through. -/
theorem run_inv (P : Prog) (I : St → Prop) (hs : ∀ s s', I s → step P s = some (.ok s') → I s') (n : Nat) (a : St) (ha : I a) :
    (∀ s, run P n a = .running s → I s) ∧ (∀ s, run P n a = .ended s → I s ∧ step P s = none) := by
  induction n generalizing a with
  | zero => exact ⟨(fun s h => by cases h; exact ha), (fun s h => by cases h)⟩
  | succ n ih =>
    unfold run
    cases h1 : step P a with
    | none => exact ⟨(fun s h => by cases h), (fun s h => by cases h; exact ⟨ha, h1⟩)⟩
    | some r =>
      cases r with
      | error u => exact ⟨(fun s h => by cases h), (fun s h => by cases h)⟩
      | ok t => exact ih t (hs a t ha h1)

/-! ### what a step is -/

/-- The ways a process goes on, one by one. -/
theorem step_cases (P : Prog) (s s' : St) (h : step P s = some (.ok s')) :
    (∃ i is, s.stack = [] ∧ s.todo = i :: is ∧ s' = { s with stack := [⟨.make (.user i), P.ctor (.user i)⟩], todo := is }) ∨
    (s.stack = [] ∧ s.todo = [] ∧ s.mained = false ∧ s' = { s with stack := [⟨.main, P.main⟩], mained := true }) ∨
    (∃ o bs, s.stack = [] ∧ s.todo = [] ∧ s.mained = true ∧ s.built = o :: bs ∧
      s' = { s with stack := [⟨.kill o, P.dtor o⟩], built := bs, dead := o :: s.dead, tr := s.tr ++ [.killed o] }) ∨
    (∃ o fs, s.stack = ⟨.make o, []⟩ :: fs ∧ P.dies o = true ∧ s' = { s with stack := fs, built := o :: s.built, tr := s.tr ++ [.made o] }) ∨
    (∃ k fs, s.stack = ⟨.make (.inst k), []⟩ :: fs ∧ P.leaked k = true ∧ s' = { s with stack := fs, kept := k :: s.kept, tr := s.tr ++ [.made (.inst k)] }) ∨
    (∃ fs, s.stack = ⟨.main, []⟩ :: fs ∧ s' = { s with stack := fs, locals := if s.locals = .alive then .dead else s.locals }) ∨
    (∃ o fs, s.stack = ⟨.kill o, []⟩ :: fs ∧ s' = { s with stack := fs }) ∨
    (∃ j us k fs, s.stack = ⟨j, .single k :: us⟩ :: fs ∧ (Obj.inst k ∈ s.built ∨ k ∈ s.kept) ∧ s' = { s with stack := ⟨j, us⟩ :: fs, tr := s.tr ++ [.used k] }) ∨
    (∃ j us k fs, s.stack = ⟨j, .single k :: us⟩ :: fs ∧ Obj.inst k ∉ s.built ∧ k ∉ s.kept ∧ Obj.inst k ∉ s.dead ∧ (∀ f ∈ s.stack, f.job ≠ .make (.inst k)) ∧
      s' = { s with stack := ⟨.make (.inst k), P.ctor (.inst k)⟩ :: s.stack }) ∨
    (∃ j us fs, s.stack = ⟨j, .compose :: us⟩ :: fs ∧ s.locals ≠ .dead ∧ s' = { s with stack := ⟨j, us⟩ :: fs, locals := .alive, tr := s.tr ++ [.composed] }) := by
  unfold step at h
  split at h
  · rename_i h0
    unfold next at h
    split at h
    · rename_i i is h1
      simp only [Option.map_some, Option.some.injEq, Except.ok.injEq] at h
      exact .inl ⟨i, is, h0, h1, h.symm⟩
    · rename_i h1
      split at h
      · rename_i h2
        simp only [Option.map_some, Option.some.injEq, Except.ok.injEq] at h
        exact .inr (.inl ⟨h0, h1, h2, h.symm⟩)
      · rename_i h2
        split at h
        · rename_i o bs h3
          simp only [Option.map_some, Option.some.injEq, Except.ok.injEq] at h
          exact .inr (.inr (.inl ⟨o, bs, h0, h1, by simpa using h2, h3, h.symm⟩))
        · cases h
  · rename_i j fs h0
    simp only [Option.some.injEq, Except.ok.injEq] at h
    subst h
    cases j with
    | make o =>
      cases o with
      | user i => exact .inr (.inr (.inr (.inl ⟨.user i, fs, h0, rfl, rfl⟩)))
      | inst k =>
        by_cases hl : P.leaked k = true
        · refine .inr (.inr (.inr (.inr (.inl ⟨k, fs, h0, hl, ?_⟩))))
          simp [finish, complete, hl]
        · refine .inr (.inr (.inr (.inl ⟨.inst k, fs, h0, by simpa [Prog.dies] using hl, ?_⟩)))
          simp [finish, complete, hl]
    | main => exact .inr (.inr (.inr (.inr (.inr (.inl ⟨fs, h0, rfl⟩)))))
    | kill o => exact .inr (.inr (.inr (.inr (.inr (.inr (.inl ⟨o, fs, h0, rfl⟩))))))
  · rename_i j u us fs h0
    simp only [Option.some.injEq] at h
    cases u with
    | single k =>
      simp only [use, reach] at h
      split at h
      · rename_i h1
        simp only [Except.ok.injEq] at h
        exact .inr (.inr (.inr (.inr (.inr (.inr (.inr (.inl ⟨j, us, k, fs, h0, h1, h.symm⟩)))))))
      · rename_i h1
        split at h
        · cases h
        · rename_i h2
          split at h
          · cases h
          · rename_i h3
            simp only [Except.ok.injEq] at h
            refine .inr (.inr (.inr (.inr (.inr (.inr (.inr (.inr (.inl ⟨j, us, k, fs, h0, fun c => h1 (.inl c), fun c => h1 (.inr c), h2, ?_, h.symm⟩))))))))
            intro f hf hj
            apply h3
            unfold St.making
            rw [List.any_eq_true]
            exact ⟨f, hf, by simp [hj]⟩
    | compose =>
      simp only [use, compose] at h
      split at h
      · cases h
      · rename_i h1
        simp only [Except.ok.injEq] at h
        exact .inr (.inr (.inr (.inr (.inr (.inr (.inr (.inr (.inr ⟨j, us, fs, h0, h1, h.symm⟩))))))))

/-! ### the invariant -/

/-- The object under construction in a frame. -/
def Frame.making (f : Frame) : Option Obj :=
  match f.job with
  | .make o => some o
  | _ => none

/-- Pushing and popping as the events say. -/
def replay (P : Prog) : List Obj → List Ev → Option (List Obj)
  | st, [] => some st
  | st, .made o :: es => replay P (if P.dies o then o :: st else st) es
  | st, .killed o :: es =>
    match st with
    | [] => none
    | p :: st => if p = o then replay P st es else none
  | st, _ :: es => replay P st es

theorem replay_append (P : Prog) (st : List Obj) (a b : List Ev) : replay P st (a ++ b) = (replay P st a).bind (fun st' => replay P st' b) := by
  induction a generalizing st with
  | nil => rfl
  | cons e es ih =>
    cases e with
    | made o => exact ih _
    | killed o =>
      cases st with
      | nil => rfl
      | cons p st =>
        show (if p = o then replay P st (es ++ b) else none) = _
        simp only [replay]
        split
        · exact ih _
        · rfl
    | used k => exact ih _
    | composed => exact ih _

structure Inv (P : Prog) (s : St) : Prop where
  /-- no object is in two places -/
  one  : ∀ o, (s.todo.map Obj.user).count o + (s.stack.filterMap Frame.making).count o + s.built.count o + (s.kept.map Obj.inst).count o + s.dead.count o ≤ 1
  made : ∀ o, (makes s.tr).count o = s.built.count o + (s.kept.map Obj.inst).count o + s.dead.count o
  kill : kills s.tr = s.dead.reverse
  rep  : replay P [] s.tr = some s.built
  uses : UsesAlive s.tr
  live : ∀ o ∈ s.built, P.dies o = true
  gone : ∀ o ∈ s.dead, P.dies o = true
  fr   : ∀ o rest, (⟨.make o, rest⟩ : Frame) ∈ s.stack → ∃ done, P.ctor o = done ++ rest ∧ ∀ k, .single k ∈ done → Obj.inst k ∈ s.built ∨ k ∈ s.kept
  bt   : ∀ pre o post, s.built = pre ++ o :: post → ∀ k, .single k ∈ P.ctor o → Obj.inst k ∈ post ∨ k ∈ s.kept
  ord  : users (makes s.tr) ++ users (s.stack.filterMap Frame.making) ++ s.todo = P.statics
  main : ∀ rest, (⟨.main, rest⟩ : Frame) ∈ s.stack → s.todo = []

theorem makes_snoc (tr : List Ev) (e : Ev) : makes (tr ++ [e]) = makes tr ++ makes [e] := by
  simp [makes]
theorem kills_snoc (tr : List Ev) (e : Ev) : kills (tr ++ [e]) = kills tr ++ kills [e] := by
  simp [kills]
theorem users_append (a b : List Obj) : users (a ++ b) = users a ++ users b := by
  simp [users]

theorem mem_makes (tr : List Ev) (o : Obj) : o ∈ makes tr ↔ .made o ∈ tr := by
  unfold makes
  rw [List.mem_filterMap]
  constructor
  · rintro ⟨e, he, h⟩
    cases e <;> simp at h
    subst h; exact he
  · intro h
    exact ⟨_, h, rfl⟩

theorem mem_kills (tr : List Ev) (o : Obj) : o ∈ kills tr ↔ .killed o ∈ tr := by
  unfold kills
  rw [List.mem_filterMap]
  constructor
  · rintro ⟨e, he, h⟩
    cases e <;> simp at h
    subst h; exact he
  · intro h
    exact ⟨_, h, rfl⟩

theorem append_last {tr pre post : List Ev} {x e : Ev} (h : tr ++ [x] = pre ++ e :: post) :
    (∃ post', tr = pre ++ e :: post' ∧ post = post' ++ [x]) ∨ (tr = pre ∧ x = e ∧ post = []) := by
  rcases List.eq_nil_or_concat post with rfl | ⟨p, y, rfl⟩
  · have := List.append_inj' h rfl
    exact .inr ⟨this.1, by simpa using this.2, rfl⟩
  · left
    have h' : tr ++ [x] = (pre ++ e :: p) ++ [y] := by simpa using h
    have := List.append_inj' h' rfl
    exact ⟨p, this.1, by simp at this ⊢; exact this.2.symm⟩

theorem usesAlive_other {tr : List Ev} {e : Ev} (h : UsesAlive tr) (he : ∀ k, e ≠ .used k) : UsesAlive (tr ++ [e]) := by
  intro pre k post hh
  rcases append_last hh with ⟨post', h', _⟩ | ⟨_, h', _⟩
  · exact h pre k post' h'
  · exact absurd h' (he k)

theorem inv_start (P : Prog) (hn : P.statics.Nodup) : Inv P P.start := by
  have h0 : ∀ o, (P.statics.map Obj.user).count o ≤ 1 := by
    intro o
    apply List.nodup_iff_count.1
    exact List.Pairwise.map Obj.user (fun a b hab he => hab (by cases he; rfl)) hn
  constructor
  · intro o; simpa [Prog.start] using h0 o
  · intro o; simp [Prog.start, makes]
  · simp [Prog.start, kills]
  · rfl
  · intro pre k post h; simp [Prog.start] at h
  · intro o h; simp [Prog.start] at h
  · intro o h; simp [Prog.start] at h
  · intro o rest h; simp [Prog.start] at h
  · intro pre o post h; simp [Prog.start] at h
  · simp [Prog.start, users, makes]
  · intro rest h; simp [Prog.start] at h

theorem inv_step (P : Prog) (s s' : St) (g : Inv P s) (h : step P s = some (.ok s')) : Inv P s' := by
  rcases step_cases P s s' h with ⟨i, is, h0, h1, rfl⟩ | ⟨h0, h1, h2, rfl⟩ | ⟨o, bs, h0, h1, h2, h3, rfl⟩ | ⟨o, fs, h0, h1, rfl⟩ | ⟨k, fs, h0, h1, rfl⟩ |
    ⟨fs, h0, rfl⟩ | ⟨o, fs, h0, rfl⟩ | ⟨j, us, k, fs, h0, h1, rfl⟩ | ⟨j, us, k, fs, h0, h1, h2, h3, h4, rfl⟩ | ⟨j, us, fs, h0, h1, rfl⟩
  · -- the next static object
    refine ⟨fun o => ?_, g.made, g.kill, g.rep, g.uses, g.live, g.gone, ?_, g.bt, ?_, ?_⟩
    · have := g.one o
      simp only [h0, h1, List.map_cons, List.count_cons, List.filterMap_cons, Frame.making, List.filterMap_nil, List.count_nil] at this ⊢
      omega
    · intro o rest hm
      simp only [List.mem_singleton, Frame.mk.injEq, Job.make.injEq] at hm
      obtain ⟨rfl, rfl⟩ := hm
      exact ⟨[], rfl, by simp⟩
    · have := g.ord
      simp only [h0, h1, List.filterMap_cons, Frame.making, List.filterMap_nil, users] at this ⊢
      simpa using this
    · intro rest hm; simp at hm
  · -- main
    refine ⟨fun o => ?_, g.made, g.kill, g.rep, g.uses, g.live, g.gone, ?_, g.bt, ?_, fun _ _ => h1⟩
    · have := g.one o
      simpa [h0, Frame.making, List.filterMap_cons] using this
    · intro o rest hm; simp at hm
    · have := g.ord
      simpa [h0, Frame.making, List.filterMap_cons] using this
  · -- an object is destroyed
    have hd : P.dies o = true := g.live o (by rw [h3]; simp)
    refine ⟨fun p => ?_, fun p => ?_, ?_, ?_, usesAlive_other g.uses (by simp), ?_, ?_, ?_, ?_, ?_, fun _ _ => h1⟩
    · have := g.one p
      simp only [h0, h3, List.filterMap_cons, List.filterMap_nil, List.count_cons, Frame.making, List.count_nil] at this ⊢
      omega
    · have := g.made p
      simp only [h3, List.count_cons, makes_snoc, List.count_append] at this ⊢
      simp [makes] at this ⊢
      omega
    · rw [kills_snoc, g.kill]; simp [kills]
    · rw [replay_append, g.rep, h3]; simp [replay]
    · intro p hp; exact g.live p (by rw [h3]; simp [hp])
    · intro p hp
      rcases List.mem_cons.1 hp with rfl | hp
      · exact hd
      · exact g.gone p hp
    · intro p rest hm; simp at hm
    · intro pre p post hb k hk
      exact g.bt (o :: pre) p post (by rw [h3]; show o :: bs = _; rw [show bs = pre ++ p :: post from hb]; rfl) k hk
    · have := g.ord
      simp only [makes_snoc]
      simpa [h0, Frame.making, makes, List.filterMap_cons] using this
  · -- a constructor completes
    have hf := g.fr o [] (by rw [h0]; simp)
    refine ⟨fun p => ?_, fun p => ?_, ?_, ?_, usesAlive_other g.uses (by simp), ?_, g.gone, ?_, ?_, ?_, ?_⟩
    · have := g.one p
      simp only [h0, List.filterMap_cons, List.count_cons, Frame.making] at this ⊢
      omega
    · have := g.made p
      simp only [makes_snoc, List.count_append, List.count_cons] at this ⊢
      simp [makes, List.count_cons] at this ⊢
      omega
    · rw [kills_snoc, g.kill]; simp [kills]
    · rw [replay_append, g.rep]; simp [replay, h1]
    · intro p hp
      rcases List.mem_cons.1 hp with rfl | hp
      · exact h1
      · exact g.live p hp
    · intro p rest hm
      obtain ⟨done, e, hd⟩ := g.fr p rest (by rw [h0]; exact List.mem_cons_of_mem _ hm)
      refine ⟨done, e, fun k hk => ?_⟩
      rcases hd k hk with x | x
      · exact .inl (List.mem_cons_of_mem _ x)
      · exact .inr x
    · intro pre p post hb k hk
      cases pre with
      | nil =>
        simp only [List.nil_append, List.cons.injEq] at hb
        obtain ⟨rfl, rfl⟩ := hb
        obtain ⟨done, e, hd⟩ := hf
        rw [e, List.append_nil] at hk
        exact hd k hk
      | cons q pre =>
        simp only [List.cons_append, List.cons.injEq] at hb
        exact g.bt pre p post hb.2 k hk
    · have := g.ord
      rw [makes_snoc, users_append]
      simp only [h0, List.filterMap_cons, Frame.making] at this
      rw [← this]
      show _ ++ users (makes [.made o]) ++ _ ++ _ = _
      simp [makes, users, List.filterMap_cons]
      cases o <;> simp
    · intro rest hm; exact g.main rest (by rw [h0]; exact List.mem_cons_of_mem _ hm)
  · -- a constructor of an object from `new` completes
    refine ⟨fun p => ?_, fun p => ?_, ?_, ?_, usesAlive_other g.uses (by simp), g.live, g.gone, ?_, ?_, ?_, ?_⟩
    · have := g.one p
      simp only [h0, List.filterMap_cons, List.count_cons, Frame.making, List.map_cons] at this ⊢
      omega
    · have := g.made p
      simp only [makes_snoc, List.count_append, List.map_cons, List.count_cons] at this ⊢
      simp [makes, List.count_cons] at this ⊢
      omega
    · rw [kills_snoc, g.kill]; simp [kills]
    · rw [replay_append, g.rep]; simp [replay, h1, Prog.dies]
    · intro p rest hm
      obtain ⟨done, e, hd⟩ := g.fr p rest (by rw [h0]; exact List.mem_cons_of_mem _ hm)
      refine ⟨done, e, fun k hk => ?_⟩
      rcases hd k hk with x | x
      · exact .inl x
      · exact .inr (List.mem_cons_of_mem _ x)
    · intro pre p post hb q hq
      rcases g.bt pre p post hb q hq with x | x
      · exact .inl x
      · exact .inr (List.mem_cons_of_mem _ x)
    · have := g.ord
      rw [makes_snoc, users_append]
      simp only [h0, List.filterMap_cons, Frame.making] at this
      rw [← this]
      simp [makes, users]
    · intro rest hm; exact g.main rest (by rw [h0]; exact List.mem_cons_of_mem _ hm)
  · -- main returns
    refine ⟨fun p => ?_, g.made, g.kill, g.rep, g.uses, g.live, g.gone, ?_, g.bt, ?_, ?_⟩
    · have := g.one p
      simpa [h0, Frame.making, List.filterMap_cons] using this
    · intro o rest hm
      exact g.fr o rest (by rw [h0]; exact List.mem_cons_of_mem _ hm)
    · have := g.ord
      simpa [h0, Frame.making, List.filterMap_cons] using this
    · intro rest hm; exact g.main rest (by rw [h0]; exact List.mem_cons_of_mem _ hm)
  · -- a destructor returns
    refine ⟨fun p => ?_, g.made, g.kill, g.rep, g.uses, g.live, g.gone, ?_, g.bt, ?_, ?_⟩
    · have := g.one p
      simpa [h0, Frame.making, List.filterMap_cons] using this
    · intro o rest hm
      exact g.fr o rest (by rw [h0]; exact List.mem_cons_of_mem _ hm)
    · have := g.ord
      simpa [h0, Frame.making, List.filterMap_cons] using this
    · intro rest hm; exact g.main rest (by rw [h0]; exact List.mem_cons_of_mem _ hm)
  · -- a singleton is used
    refine ⟨fun p => ?_, fun p => ?_, ?_, ?_, ?_, g.live, g.gone, ?_, g.bt, ?_, ?_⟩
    · have := g.one p
      simpa [h0, Frame.making, List.filterMap_cons] using this
    · have := g.made p
      rw [makes_snoc]; simpa [makes] using this
    · rw [kills_snoc, g.kill]; simp [kills]
    · rw [replay_append, g.rep]; rfl
    · intro pre q post hh
      rcases append_last hh with ⟨post', h', _⟩ | ⟨h', hq, _⟩
      · exact g.uses pre q post' h'
      · cases hq; subst h'
        have hm := g.made (.inst k)
        have ho := g.one (.inst k)
        have hc : 1 ≤ s.built.count (.inst k) + (s.kept.map Obj.inst).count (.inst k) := by
          rcases h1 with x | x
          · have := List.count_pos_iff.2 x; omega
          · have := List.count_pos_iff.2 (List.mem_map.2 ⟨k, x, rfl⟩ : Obj.inst k ∈ s.kept.map Obj.inst); omega
        constructor
        · rw [← mem_makes]; apply List.count_pos_iff.1; omega
        · rw [← mem_kills, g.kill, List.mem_reverse]
          intro hx
          have := List.count_pos_iff.2 hx
          omega
    · intro o rest hm
      rcases List.mem_cons.1 hm with hm | hm
      · simp only [Frame.mk.injEq] at hm
        obtain ⟨rfl, rfl⟩ := hm
        obtain ⟨done, e, hd⟩ := g.fr o (.single k :: rest) (by rw [h0]; simp)
        refine ⟨done ++ [.single k], by rw [e]; simp, fun q hq => ?_⟩
        rcases List.mem_append.1 hq with hq | hq
        · exact hd q hq
        · simp at hq; subst hq; exact h1
      · exact g.fr o rest (by rw [h0]; exact List.mem_cons_of_mem _ hm)
    · have := g.ord
      rw [makes_snoc, users_append]
      simp only [h0, List.filterMap_cons, Frame.making] at this ⊢
      simpa [makes, users] using this
    · intro rest hm
      rcases List.mem_cons.1 hm with hm | hm
      · simp only [Frame.mk.injEq] at hm
        obtain ⟨rfl, rfl⟩ := hm
        exact g.main (.single k :: rest) (by rw [h0]; simp)
      · exact g.main rest (by rw [h0]; exact List.mem_cons_of_mem _ hm)
  · -- a singleton's construction begins
    have hz : (s.stack.filterMap Frame.making).count (.inst k) = 0 := by
      rw [List.count_eq_zero]
      intro hx
      obtain ⟨f, hf, hm⟩ := List.mem_filterMap.1 hx
      have := h4 f hf
      unfold Frame.making at hm
      split at hm
      · rename_i o ho; cases hm; exact this ho
      · cases hm
    refine ⟨fun p => ?_, g.made, g.kill, g.rep, g.uses, g.live, g.gone, ?_, g.bt, ?_, ?_⟩
    · by_cases e : p = .inst k
      · subst e
        have a1 : s.built.count (.inst k) = 0 := List.count_eq_zero.2 h1
        have a2 : (s.kept.map Obj.inst).count (.inst k) = 0 := List.count_eq_zero.2 (fun hx => by
          obtain ⟨q, hq, e⟩ := List.mem_map.1 hx; cases e; exact h2 hq)
        have a3 : s.dead.count (.inst k) = 0 := List.count_eq_zero.2 h3
        have a4 : (s.todo.map Obj.user).count (.inst k) = 0 := List.count_eq_zero.2 (fun hx => by
          obtain ⟨q, hq, e⟩ := List.mem_map.1 hx; cases e)
        simp only [List.filterMap_cons, Frame.making, List.count_cons_self]
        omega
      · have := g.one p
        simp only [List.filterMap_cons, Frame.making]
        rw [List.count_cons_of_ne (fun h => e h.symm)]
        exact this
    · intro o rest hm
      rcases List.mem_cons.1 hm with hm | hm
      · simp only [Frame.mk.injEq, Job.make.injEq] at hm
        obtain ⟨rfl, rfl⟩ := hm
        exact ⟨[], rfl, by simp⟩
      · exact g.fr o rest hm
    · have := g.ord
      simp only [List.filterMap_cons, Frame.making]
      simpa [users, List.filterMap_cons] using this
    · intro rest hm
      rcases List.mem_cons.1 hm with hm | hm
      · cases hm
      · exact g.main rest hm
  · -- the message parts are used
    refine ⟨fun p => ?_, fun p => ?_, ?_, ?_, usesAlive_other g.uses (by simp), g.live, g.gone, ?_, g.bt, ?_, ?_⟩
    · have := g.one p
      simpa [h0, Frame.making, List.filterMap_cons] using this
    · have := g.made p
      rw [makes_snoc]; simpa [makes] using this
    · rw [kills_snoc, g.kill]; simp [kills]
    · rw [replay_append, g.rep]; rfl
    · intro o rest hm
      rcases List.mem_cons.1 hm with hm | hm
      · simp only [Frame.mk.injEq] at hm
        obtain ⟨rfl, rfl⟩ := hm
        obtain ⟨done, e, hd⟩ := g.fr o (.compose :: rest) (by rw [h0]; simp)
        refine ⟨done ++ [.compose], by rw [e]; simp, fun q hq => ?_⟩
        rcases List.mem_append.1 hq with hq | hq
        · exact hd q hq
        · simp at hq
      · exact g.fr o rest (by rw [h0]; exact List.mem_cons_of_mem _ hm)
    · have := g.ord
      rw [makes_snoc, users_append]
      simp only [h0, List.filterMap_cons, Frame.making] at this ⊢
      simpa [makes, users] using this
    · intro rest hm
      rcases List.mem_cons.1 hm with hm | hm
      · simp only [Frame.mk.injEq] at hm
        obtain ⟨rfl, rfl⟩ := hm
        exact g.main (.compose :: rest) (by rw [h0]; simp)
      · exact g.main rest (by rw [h0]; exact List.mem_cons_of_mem _ hm)

theorem step_none {P : Prog} {s : St} (h : step P s = none) : s.stack = [] ∧ s.todo = [] ∧ s.mained = true ∧ s.built = [] := by
  unfold step at h
  split at h
  · rename_i h0
    refine ⟨h0, ?_⟩
    cases ht : s.todo with
    | cons i is => simp [next, ht] at h
    | nil =>
      cases hm : s.mained with
      | false => simp [next, ht, hm] at h
      | true =>
        cases hb : s.built with
        | cons o bs => simp [next, ht, hm, hb] at h
        | nil => exact ⟨rfl, rfl, rfl⟩
  · cases h
  · cases h

/-! ### phases -/

structure Phase (P : Prog) (s : St) : Prop where
  sh : s.stack = [] ∨ ∃ top b, s.stack = top ++ [b] ∧ (∀ f ∈ top, ∃ k, f.job = .make (.inst k)) ∧
    ((∃ i, b.job = .make (.user i) ∧ s.mained = false) ∨ (b.job = .main ∧ s.mained = true ∧ kills s.tr = []) ∨ (∃ o, b.job = .kill o ∧ s.mained = true ∧ o ∈ kills s.tr))
  ld : kills s.tr = [] → s.stack = [] → s.mained = true → s.locals ≠ .alive
  cm : .composed ∈ s.tr → s.locals ≠ .none
  lk : ∀ pre o post, s.tr = pre ++ .killed o :: post → kills pre = [] → .composed ∈ pre → s.locals = .dead ∧ .composed ∉ post
  nm : s.mained = false → kills s.tr = []
  mt : s.mained = true → s.todo = []

theorem phase_start (P : Prog) : Phase P P.start := by
  refine ⟨.inl rfl, fun _ _ h => by simp [Prog.start] at h, fun h => by simp [Prog.start] at h, fun pre o post h => by simp [Prog.start] at h,
    fun _ => rfl, fun h => by simp [Prog.start] at h⟩

/-- A job other than a singleton's constructor is alone. -/
theorem Phase.alone {P : Prog} {s : St} (g : Phase P s) {f : Frame} {fs : List Frame} (h : s.stack = f :: fs) (hf : ∀ k, f.job ≠ .make (.inst k)) : fs = [] := by
  rcases g.sh with h' | ⟨top, b, h', ht, _⟩
  · rw [h] at h'; cases h'
  · cases top with
    | nil => rw [h] at h'; simp at h'; exact h'.2
    | cons x xs =>
      rw [h] at h'
      simp only [List.cons_append, List.cons.injEq] at h'
      obtain ⟨k, hk⟩ := ht x (by simp)
      rw [← h'.1] at hk
      exact absurd hk (hf k)

theorem lk_other {P : Prog} {s : St} (g : Phase P s) (x : Ev) (hx : ∀ o, x ≠ .killed o) (hc : x ≠ .composed) (l : Locals) (hl : s.locals = .dead → l = .dead) :
    ∀ pre o post, s.tr ++ [x] = pre ++ .killed o :: post → kills pre = [] → .composed ∈ pre → l = .dead ∧ .composed ∉ post := by
  intro pre o post h h1 h2
  rcases append_last h with ⟨post', h', rfl⟩ | ⟨_, h', _⟩
  · obtain ⟨a, b⟩ := g.lk pre o post' h' h1 h2
    refine ⟨hl a, ?_⟩
    simp only [List.mem_append, List.mem_singleton, not_or]
    exact ⟨b, fun e => hc e.symm⟩
  · exact absurd h' (hx o)

theorem phase_step (P : Prog) (s s' : St) (g : Phase P s) (h : step P s = some (.ok s')) : Phase P s' := by
  rcases step_cases P s s' h with ⟨i, is, h0, h1, rfl⟩ | ⟨h0, h1, h2, rfl⟩ | ⟨o, bs, h0, h1, h2, h3, rfl⟩ | ⟨o, fs, h0, h1, rfl⟩ | ⟨k, fs, h0, h1, rfl⟩ |
    ⟨fs, h0, rfl⟩ | ⟨o, fs, h0, rfl⟩ | ⟨j, us, k, fs, h0, h1, rfl⟩ | ⟨j, us, k, fs, h0, h1, h2, h3, h4, rfl⟩ | ⟨j, us, fs, h0, h1, rfl⟩
  · have hm : s.mained = false := by
      cases hx : s.mained with
      | false => rfl
      | true => rw [g.mt hx] at h1; cases h1
    refine ⟨.inr ⟨[], _, rfl, by simp, .inl ⟨i, rfl, hm⟩⟩, (fun _ hs => by cases hs), g.cm, g.lk, g.nm, (fun hx => by rw [hm] at hx; cases hx)⟩
  · refine ⟨.inr ⟨[], _, rfl, by simp, .inr (.inl ⟨rfl, rfl, g.nm h2⟩)⟩, (fun _ hs => by cases hs), g.cm, g.lk, (fun hx => by cases hx), fun _ => h1⟩
  · refine ⟨.inr ⟨[], _, rfl, by simp, .inr (.inr ⟨o, rfl, h2, ?_⟩)⟩, (fun _ hs => by cases hs), ?_, ?_, (fun hx => by rw [h2] at hx; cases hx), fun _ => h1⟩
    · rw [kills_snoc]; simp [kills]
    · intro hc; exact g.cm (by simpa using hc)
    · intro pre p post he hk hc
      rcases append_last he with ⟨post', h', rfl⟩ | ⟨h', e, rfl⟩
      · obtain ⟨a, b⟩ := g.lk pre p post' h' hk hc
        exact ⟨a, by simpa using b⟩
      · subst h'
        have a := g.ld hk h0 h2
        have b := g.cm hc
        refine ⟨?_, by simp⟩
        show s.locals = .dead
        cases hl : s.locals with
        | none => exact absurd hl b
        | alive => exact absurd hl a
        | dead => rfl
  · -- made
    refine ⟨?_, ?_, (fun hc => g.cm (by simpa using hc)), lk_other g _ (by simp) (by simp) _ (fun h => h), ?_, g.mt⟩
    · rcases g.sh with h' | ⟨top, b, h', ht, hb⟩
      · rw [h0] at h'; cases h'
      · cases top with
        | nil => rw [h0] at h'; simp at h'; exact .inl h'.2
        | cons x xs =>
          rw [h0] at h'
          simp only [List.cons_append, List.cons.injEq] at h'
          refine .inr ⟨xs, b, h'.2, fun f hf => ht f (List.mem_cons_of_mem _ hf), ?_⟩
          rw [kills_snoc]; simpa [kills] using hb
    · intro hk hs hm
      have hs : fs = [] := hs
      rcases g.sh with h' | ⟨top, b, h', ht, hb⟩
      · rw [h0] at h'; cases h'
      · cases top with
        | nil =>
          rw [h0] at h'; simp at h'
          rcases hb with ⟨i, e, hb⟩ | ⟨e, -⟩ | ⟨p, e, -⟩
          · have hm : s.mained = true := hm
            rw [hb] at hm; cases hm
          · rw [← h'.1] at e; cases e
          · rw [← h'.1] at e; cases e
        | cons x xs => rw [h0, hs] at h'; simp at h'
    · intro hm
      show kills (s.tr ++ _) = []
      rw [kills_snoc, g.nm hm]; simp [kills]
  · refine ⟨?_, ?_, (fun hc => g.cm (by simpa using hc)), lk_other g _ (by simp) (by simp) _ (fun h => h), ?_, g.mt⟩
    · rcases g.sh with h' | ⟨top, b, h', ht, hb⟩
      · rw [h0] at h'; cases h'
      · cases top with
        | nil => rw [h0] at h'; simp at h'; exact .inl h'.2
        | cons x xs =>
          rw [h0] at h'
          simp only [List.cons_append, List.cons.injEq] at h'
          refine .inr ⟨xs, b, h'.2, fun f hf => ht f (List.mem_cons_of_mem _ hf), ?_⟩
          rw [kills_snoc]; simpa [kills] using hb
    · intro hk hs hm
      have hs : fs = [] := hs
      rcases g.sh with h' | ⟨top, b, h', ht, hb⟩
      · rw [h0] at h'; cases h'
      · cases top with
        | nil =>
          rw [h0] at h'; simp at h'
          rcases hb with ⟨i, e, hb⟩ | ⟨e, -⟩ | ⟨p, e, -⟩
          · have hm : s.mained = true := hm
            rw [hb] at hm; cases hm
          · rw [← h'.1] at e; cases e
          · rw [← h'.1] at e; cases e
        | cons x xs => rw [h0, hs] at h'; simp at h'
    · intro hm
      show kills (s.tr ++ _) = []
      rw [kills_snoc, g.nm hm]; simp [kills]
  · -- main returns
    have hfs := g.alone h0 (by simp)
    refine ⟨.inl hfs, ?_, ?_, ?_, g.nm, g.mt⟩
    · intro _ _ _
      show (if s.locals = .alive then Locals.dead else s.locals) ≠ .alive
      split
      · simp
      · assumption
    · intro hc
      show (if s.locals = .alive then Locals.dead else s.locals) ≠ .none
      split
      · simp
      · exact g.cm hc
    · intro pre p post he hk hc
      obtain ⟨a, b⟩ := g.lk pre p post he hk hc
      refine ⟨?_, b⟩
      show (if s.locals = .alive then Locals.dead else s.locals) = .dead
      rw [a]; simp
  · have hfs := g.alone h0 (by simp)
    refine ⟨.inl hfs, ?_, g.cm, g.lk, g.nm, g.mt⟩
    intro hk _ _
    rcases g.sh with h' | ⟨top, b, h', ht, hb⟩
    · rw [h0] at h'; cases h'
    · rw [h0, hfs] at h'
      have e : (⟨.kill o, []⟩ : Frame) = b ∧ top = [] := by
        cases top with
        | nil => simp at h'; exact ⟨h', rfl⟩
        | cons x xs => simp at h'
      rcases hb with ⟨i, e', -⟩ | ⟨e', -⟩ | ⟨p, e', -, hp⟩
      · rw [← e.1] at e'; cases e'
      · rw [← e.1] at e'; cases e'
      · have hk : kills s.tr = [] := hk
        rw [hk] at hp; cases hp
  · refine ⟨?_, (fun _ hs => by cases hs), (fun hc => g.cm (by simpa using hc)), lk_other g _ (by simp) (by simp) _ (fun h => h), ?_, g.mt⟩
    · rcases g.sh with h' | ⟨top, b, h', ht, hb⟩
      · rw [h0] at h'; cases h'
      · right
        rw [kills_snoc]
        cases top with
        | nil =>
          rw [h0] at h'; simp at h'
          refine ⟨[], ⟨j, us⟩, by simp [h'.2], by simp, ?_⟩
          rw [← h'.1] at hb
          simpa [kills] using hb
        | cons x xs =>
          rw [h0] at h'
          simp only [List.cons_append, List.cons.injEq] at h'
          refine ⟨⟨j, us⟩ :: xs, b, by simp [h'.2], ?_, by simpa [kills] using hb⟩
          intro f hf
          rcases List.mem_cons.1 hf with rfl | hf
          · obtain ⟨q, hq⟩ := ht x (by simp)
            exact ⟨q, by rw [← h'.1] at hq; exact hq⟩
          · exact ht f (List.mem_cons_of_mem _ hf)
    · intro hm
      show kills (s.tr ++ _) = []
      rw [kills_snoc, g.nm hm]; simp [kills]
  · refine ⟨?_, (fun _ hs => by cases hs), g.cm, g.lk, g.nm, g.mt⟩
    rcases g.sh with h' | ⟨top, b, h', ht, hb⟩
    · rw [h0] at h'; cases h'
    · refine .inr ⟨⟨.make (.inst k), P.ctor (.inst k)⟩ :: top, b, by simp [h'], ?_, hb⟩
      intro f hf
      rcases List.mem_cons.1 hf with rfl | hf
      · exact ⟨k, rfl⟩
      · exact ht f hf
  · refine ⟨?_, (fun _ hs => by cases hs), (fun _ => by simp), ?_, ?_, g.mt⟩
    · rcases g.sh with h' | ⟨top, b, h', ht, hb⟩
      · rw [h0] at h'; cases h'
      · right
        rw [kills_snoc]
        cases top with
        | nil =>
          rw [h0] at h'; simp at h'
          refine ⟨[], ⟨j, us⟩, by simp [h'.2], by simp, ?_⟩
          rw [← h'.1] at hb
          simpa [kills] using hb
        | cons x xs =>
          rw [h0] at h'
          simp only [List.cons_append, List.cons.injEq] at h'
          refine ⟨⟨j, us⟩ :: xs, b, by simp [h'.2], ?_, by simpa [kills] using hb⟩
          intro f hf
          rcases List.mem_cons.1 hf with rfl | hf
          · obtain ⟨q, hq⟩ := ht x (by simp)
            exact ⟨q, by rw [← h'.1] at hq; exact hq⟩
          · exact ht f (List.mem_cons_of_mem _ hf)
    · intro pre p post he hk hc
      rcases append_last he with ⟨post', h', _⟩ | ⟨_, h', _⟩
      · exact absurd (g.lk pre p post' h' hk hc).1 h1
      · cases h'
    · intro hm
      show kills (s.tr ++ _) = []
      rw [kills_snoc, g.nm hm]; simp [kills]

/-! ### what has been executed -/

structure Executed (P : Prog) (s : St) : Prop where
  mn : s.mained = true → ∀ u ∈ P.main, seen u ∈ s.tr ∨ ∃ rest, (⟨.main, rest⟩ : Frame) ∈ s.stack ∧ u ∈ rest
  kd : ∀ pre o post, s.tr = pre ++ .killed o :: post → ∀ u ∈ P.dtor o, seen u ∈ post ∨ ∃ rest, (⟨.kill o, rest⟩ : Frame) ∈ s.stack ∧ u ∈ rest
  me : ∀ pre o post, s.tr = pre ++ .killed o :: post → ∀ u ∈ P.main, seen u ∈ pre

theorem executed_start (P : Prog) : Executed P P.start :=
  ⟨(fun h => by simp [Prog.start] at h), (fun pre o post h => by simp [Prog.start] at h), (fun pre o post h => by simp [Prog.start] at h)⟩

/-- Adding an event that is no destruction, with the frames kept. -/
theorem executed_add {P : Prog} {s s' : St} (g : Executed P s) (x : Ev) (hx : ∀ o, x ≠ .killed o) (ht : s'.tr = s.tr ++ [x]) (hm : s'.mained = s.mained)
    (hf : ∀ j rest u, (⟨j, rest⟩ : Frame) ∈ s.stack → u ∈ rest → seen u = x ∨ ∃ rest', (⟨j, rest'⟩ : Frame) ∈ s'.stack ∧ u ∈ rest') : Executed P s' := by
  refine ⟨?_, ?_, ?_⟩
  · intro h u hu
    rw [hm] at h
    rcases g.mn h u hu with a | ⟨rest, a, b⟩
    · exact .inl (by rw [ht]; simp [a])
    · rcases hf _ rest u a b with c | c
      · exact .inl (by rw [ht, c]; simp)
      · exact .inr c
  · intro pre o post h u hu
    rw [ht] at h
    rcases append_last h with ⟨post', h', rfl⟩ | ⟨_, h', _⟩
    · rcases g.kd pre o post' h' u hu with a | ⟨rest, a, b⟩
      · exact .inl (by simp [a])
      · rcases hf _ rest u a b with c | c
        · exact .inl (by rw [c]; simp)
        · exact .inr c
    · exact absurd h' (hx o)
  · intro pre o post h u hu
    rw [ht] at h
    rcases append_last h with ⟨post', h', rfl⟩ | ⟨_, h', _⟩
    · exact g.me pre o post' h' u hu
    · exact absurd h' (hx o)

/-- Without an event, with the frames kept. -/
theorem executed_keep {P : Prog} {s s' : St} (g : Executed P s) (ht : s'.tr = s.tr) (hm : s'.mained = s.mained)
    (hf : ∀ j rest u, (⟨j, rest⟩ : Frame) ∈ s.stack → u ∈ rest → ∃ rest', (⟨j, rest'⟩ : Frame) ∈ s'.stack ∧ u ∈ rest') : Executed P s' := by
  refine ⟨?_, ?_, ?_⟩
  · intro h u hu
    rw [hm] at h
    rw [ht]
    rcases g.mn h u hu with a | ⟨rest, a, b⟩
    · exact .inl a
    · exact .inr (hf _ rest u a b)
  · intro pre o post h u hu
    rw [ht] at h
    rcases g.kd pre o post h u hu with a | ⟨rest, a, b⟩
    · exact .inl a
    · exact .inr (hf _ rest u a b)
  · intro pre o post h u hu
    rw [ht] at h
    exact g.me pre o post h u hu

theorem executed_step (P : Prog) (s s' : St) (g : Executed P s) (h : step P s = some (.ok s')) : Executed P s' := by
  have pop : ∀ (jj : Job) (fs : List Frame), s.stack = ⟨jj, []⟩ :: fs → ∀ j rest u, (⟨j, rest⟩ : Frame) ∈ s.stack → u ∈ rest → ∃ rest', (⟨j, rest'⟩ : Frame) ∈ fs ∧ u ∈ rest' := by
    intro jj fs h0 j rest u hf hu
    rw [h0] at hf
    rcases List.mem_cons.1 hf with e | hf
    · cases e; cases hu
    · exact ⟨rest, hf, hu⟩
  have did : ∀ (jj : Job) (v : Use) (us : List Use) (fs : List Frame), s.stack = ⟨jj, v :: us⟩ :: fs → ∀ j rest u, (⟨j, rest⟩ : Frame) ∈ s.stack → u ∈ rest →
      seen u = seen v ∨ ∃ rest', (⟨j, rest'⟩ : Frame) ∈ (⟨jj, us⟩ :: fs : List Frame) ∧ u ∈ rest' := by
    intro jj v us fs h0 j rest u hf hu
    rw [h0] at hf
    rcases List.mem_cons.1 hf with e | hf
    · cases e
      rcases List.mem_cons.1 hu with rfl | hu
      · exact .inl rfl
      · exact .inr ⟨us, by simp, hu⟩
    · exact .inr ⟨rest, List.mem_cons_of_mem _ hf, hu⟩
  rcases step_cases P s s' h with ⟨i, is, h0, h1, rfl⟩ | ⟨h0, h1, h2, rfl⟩ | ⟨o, bs, h0, h1, h2, h3, rfl⟩ | ⟨o, fs, h0, h1, rfl⟩ | ⟨k, fs, h0, h1, rfl⟩ |
    ⟨fs, h0, rfl⟩ | ⟨o, fs, h0, rfl⟩ | ⟨j, us, k, fs, h0, h1, rfl⟩ | ⟨j, us, k, fs, h0, h1, h2, h3, h4, rfl⟩ | ⟨j, us, fs, h0, h1, rfl⟩
  · exact executed_keep g rfl rfl (by rw [h0]; intro j rest u hf; cases hf)
  · refine ⟨fun _ u hu => .inr ⟨P.main, by simp, hu⟩, ?_, g.me⟩
    intro pre o post h u hu
    rcases g.kd pre o post h u hu with a | ⟨rest, a, b⟩
    · exact .inl a
    · rw [h0] at a; cases a
  · refine ⟨?_, ?_, ?_⟩
    · intro _ u hu
      rcases g.mn h2 u hu with a | ⟨rest, a, b⟩
      · exact .inl (by simp [a])
      · rw [h0] at a; cases a
    · intro pre p post h u hu
      rcases append_last h with ⟨post', h', rfl⟩ | ⟨_, h', _⟩
      · rcases g.kd pre p post' h' u hu with a | ⟨rest, a, b⟩
        · exact .inl (by simp [a])
        · rw [h0] at a; cases a
      · cases h'
        exact .inr ⟨P.dtor o, by simp, hu⟩
    · intro pre p post h u hu
      rcases append_last h with ⟨post', h', rfl⟩ | ⟨h', _, _⟩
      · exact g.me pre p post' h' u hu
      · subst h'
        rcases g.mn h2 u hu with a | ⟨rest, a, b⟩
        · exact a
        · rw [h0] at a; cases a
  · exact executed_add g _ (by simp) rfl rfl (fun j rest u hf hu => .inr (pop _ fs h0 j rest u hf hu))
  · exact executed_add g _ (by simp) rfl rfl (fun j rest u hf hu => .inr (pop _ fs h0 j rest u hf hu))
  · exact executed_keep g rfl rfl (pop _ fs h0)
  · exact executed_keep g rfl rfl (pop _ fs h0)
  · exact executed_add g _ (by simp) rfl rfl (did _ _ _ _ h0)
  · exact executed_keep g rfl rfl (fun j rest u hf hu => ⟨rest, List.mem_cons_of_mem _ hf, hu⟩)
  · exact executed_add g _ (by simp) rfl rfl (did _ _ _ _ h0)

end Falcon.Lifetime
