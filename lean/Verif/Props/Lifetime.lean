import Verif.Proofs.Lifetime
/- C139. -/
namespace Falcon.Lifetime

/-! ### every process -/

theorem inv_run {P : Prog} (hn : P.statics.Nodup) {n : Nat} {s : St} (h : run P n P.start = .running s ∨ run P n P.start = .ended s) : Inv P s := by
  have := run_inv P (Inv P) (inv_step P) n P.start (inv_start P hn)
  rcases h with h | h
  · exact this.1 s h
  · exact (this.2 s h).1

/-- C139, whatever the program does: no object is constructed twice or destroyed twice, and every singleton that gets used is one that is
completely constructed and not yet destroyed (where it would not be, the behaviour is undefined). -/
theorem C139_lifetime (P : Prog) (hn : P.statics.Nodup) (n : Nat) (s : St) (h : run P n P.start = .running s ∨ run P n P.start = .ended s) :
    (makes s.tr).Nodup ∧ (kills s.tr).Nodup ∧ UsesAlive s.tr := by
  have g := inv_run hn h
  refine ⟨?_, ?_, g.uses⟩
  · rw [List.nodup_iff_count]
    intro o
    have h1 := g.made o; have h2 := g.one o; omega
  · rw [List.nodup_iff_count]
    intro o
    have h2 := g.one o
    rw [g.kill, List.count_reverse]
    omega

/-- Under a pushed object, nothing is popped before it. -/
theorem replay_above (P : Prog) (p : Obj) (base : List Obj) (es : List Ev) (hk : p ∉ kills es) :
    ∀ above res, replay P (above ++ p :: base) es = some res → ∃ ab, res = ab ++ p :: base ∧ ∀ o ∈ ab, o ∈ above ∨ o ∈ makes es := by
  induction es with
  | nil => intro above res h; cases h; exact ⟨above, rfl, fun o ho => .inl ho⟩
  | cons e es ih =>
    intro above res h
    cases e with
    | made o =>
      have hk' : p ∉ kills es := fun hx => hk (by rw [mem_kills] at hx ⊢; exact List.mem_cons_of_mem _ hx)
      by_cases hd : P.dies o = true
      · simp only [replay, hd, if_true] at h
        obtain ⟨ab, e1, e2⟩ := ih hk' (o :: above) res h
        refine ⟨ab, e1, fun q hq => ?_⟩
        rcases e2 q hq with x | x
        · rcases List.mem_cons.1 x with rfl | x
          · exact .inr (by rw [mem_makes]; simp)
          · exact .inl x
        · exact .inr (by rw [mem_makes] at x ⊢; exact List.mem_cons_of_mem _ x)
      · simp only [replay, hd] at h
        obtain ⟨ab, e1, e2⟩ := ih hk' above res h
        refine ⟨ab, e1, fun q hq => ?_⟩
        rcases e2 q hq with x | x
        · exact .inl x
        · exact .inr (by rw [mem_makes] at x ⊢; exact List.mem_cons_of_mem _ x)
    | killed o =>
      have hk' : p ∉ kills es := fun hx => hk (by rw [mem_kills] at hx ⊢; exact List.mem_cons_of_mem _ hx)
      have hpo : p ≠ o := fun hx => hk (by rw [mem_kills, hx]; simp)
      cases above with
      | nil =>
        simp only [replay, List.nil_append, if_neg hpo] at h
        cases h
      | cons a above =>
        simp only [replay, List.cons_append] at h
        split at h
        · obtain ⟨ab, e1, e2⟩ := ih hk' above res h
          refine ⟨ab, e1, fun q hq => ?_⟩
          rcases e2 q hq with x | x
          · exact .inl (List.mem_cons_of_mem _ x)
          · exact .inr (by rw [mem_makes] at x ⊢; exact List.mem_cons_of_mem _ x)
        · cases h
    | used k =>
      have hk' : p ∉ kills es := fun hx => hk (by rw [mem_kills] at hx ⊢; exact List.mem_cons_of_mem _ hx)
      obtain ⟨ab, e1, e2⟩ := ih hk' above res h
      refine ⟨ab, e1, fun q hq => ?_⟩
      rcases e2 q hq with x | x
      · exact .inl x
      · exact .inr (by rw [mem_makes] at x ⊢; exact List.mem_cons_of_mem _ x)
    | composed =>
      have hk' : p ∉ kills es := fun hx => hk (by rw [mem_kills] at hx ⊢; exact List.mem_cons_of_mem _ hx)
      obtain ⟨ab, e1, e2⟩ := ih hk' above res h
      refine ⟨ab, e1, fun q hq => ?_⟩
      rcases e2 q hq with x | x
      · exact .inl x
      · exact .inr (by rw [mem_makes] at x ⊢; exact List.mem_cons_of_mem _ x)

theorem makes_append (a b : List Ev) : makes (a ++ b) = makes a ++ makes b := by simp [makes]

/-- C139, whatever the program does: objects are destroyed in the reverse of the order in which their construction completed,
singletons that were created on the way included. -/
theorem C139_reverse (P : Prog) (hn : P.statics.Nodup) (n : Nat) (s : St) (h : run P n P.start = .running s ∨ run P n P.start = .ended s) :
    Reverse P s.tr := by
  intro a b c d o p ht hp
  apply Classical.byContradiction
  intro hk
  have g := inv_run hn h
  have hnd := (C139_lifetime P hn n s h).1
  have hr := g.rep
  rw [ht, replay_append, replay_append] at hr
  cases h1 : replay P [] (a ++ .made o :: b ++ .made p :: c) with
  | none => rw [replay_append] at h1; rw [h1] at hr; cases hr
  | some st =>
    rw [← replay_append, h1] at hr
    rw [replay_append] at h1
    cases h2 : replay P [] (a ++ .made o :: b) with
    | none => rw [h2] at h1; cases h1
    | some st0 =>
      rw [h2] at h1
      have h3 : replay P (if P.dies p then p :: st0 else st0) c = some st := h1
      rw [hp, if_pos rfl] at h3
      obtain ⟨ab, e1, e2⟩ := replay_above P p st0 c hk [] st h3
      rw [e1] at hr
      have hm : ∀ x, x ∈ makes c → x ≠ o := by
        rintro x hx rfl
        rw [ht, makes_append, makes_append, makes_append] at hnd
        rw [List.nodup_iff_count] at hnd
        have := hnd x
        have q1 := List.count_pos_iff.2 hx
        have q2 : 1 ≤ (makes (.made x :: b)).count x := List.count_pos_iff.2 (by rw [mem_makes]; simp)
        have q3 : (makes c).count x ≤ (makes (.made p :: c)).count x := by
          show _ ≤ (p :: makes c).count x
          rw [List.count_cons]; omega
        simp only [List.count_append] at this
        omega
      have hpo : p ≠ o := by
        rintro rfl
        rw [ht, makes_append, makes_append, makes_append] at hnd
        rw [List.nodup_iff_count] at hnd
        have := hnd p
        have q2 : 1 ≤ (makes (.made p :: b)).count p := List.count_pos_iff.2 (by rw [mem_makes]; simp)
        have q3 : 1 ≤ (makes (.made p :: c)).count p := List.count_pos_iff.2 (by rw [mem_makes]; simp)
        simp only [List.count_append] at this
        omega
      cases ab with
      | nil =>
        have : replay P (p :: st0) (.killed o :: d) = some s.built := hr
        simp only [replay, if_neg hpo] at this
        cases this
      | cons x ab =>
        have hx := e2 x (by simp)
        simp only [List.not_mem_nil, false_or] at hx
        have : replay P (x :: (ab ++ p :: st0)) (.killed o :: d) = some s.built := hr
        simp only [replay, if_neg (hm x hx)] at this
        cases this

/-! ### constructors and main -/

/-- What the execution of some uses before exit leaves. -/
structure Grown (s s' : St) : Prop where
  todo   : s'.todo = s.todo
  mained : s'.mained = s.mained
  dead   : s'.dead = []
  locals : s'.locals ≠ .dead
  kills  : kills s'.tr = kills s.tr

theorem Grown.trans {a b c : St} (h : Grown a b) (g : Grown b c) : Grown a c :=
  ⟨g.todo.trans h.todo, g.mained.trans h.mained, g.dead, g.locals, g.kills.trans h.kills⟩

theorem Grown.after {a b c : St} (g : Grown b c) (h : Grown a b) : Grown a c := h.trans g

theorem step_use {P : Prog} {s : St} {j : Job} {u : Use} {us : List Use} {fs : List Frame} (h : s.stack = ⟨j, u :: us⟩ :: fs) :
    step P s = some (use P s u (⟨j, us⟩ :: fs)) := by
  unfold step
  rw [h]

theorem step_finish {P : Prog} {s : St} {j : Job} {fs : List Frame} (h : s.stack = ⟨j, []⟩ :: fs) :
    step P s = some (.ok (finish P s j fs)) := by
  unfold step
  rw [h]

theorem exec_uses (P : Prog) (rank : Nat → Nat) (hr : ∀ k j, .single j ∈ P.ctor (.inst k) → rank j < rank k) (r : Nat) :
    ∀ us s j fs, s.stack = ⟨j, us⟩ :: fs → (∀ k, .single k ∈ us → rank k < r) →
      (∀ f ∈ s.stack, ∀ k, f.job = .make (.inst k) → r ≤ rank k) → s.dead = [] → s.locals ≠ .dead →
      ∃ s', Steps P s s' ∧ s'.stack = ⟨j, []⟩ :: fs ∧ Grown s s' := by
  induction r using Nat.strongRecOn with
  | ind r ihr =>
    intro us
    induction us with
    | nil =>
      intro s j fs h0 _ _ hd hl
      exact ⟨s, Steps.refl P s, h0, rfl, rfl, hd, hl, rfl⟩
    | cons u us ih =>
      intro s j fs h0 hk hm hd hl
      have hk' : ∀ k, .single k ∈ us → rank k < r := fun k h => hk k (List.mem_cons_of_mem _ h)
      have hfs : ∀ f ∈ fs, ∀ k, f.job = .make (.inst k) → r ≤ rank k := fun f hf => hm f (by rw [h0]; exact List.mem_cons_of_mem _ hf)
      have hj : ∀ k, j = .make (.inst k) → r ≤ rank k := fun k hjk => hm ⟨j, u :: us⟩ (by rw [h0]; simp) k hjk
      have hst : ∀ f ∈ (⟨j, us⟩ :: fs : List Frame), ∀ k, f.job = .make (.inst k) → r ≤ rank k := by
        intro f hf k hjk
        rcases List.mem_cons.1 hf with rfl | hf
        · exact hj k hjk
        · exact hfs f hf k hjk
      cases u with
      | compose =>
        have h1 : step P s = some (.ok { s with stack := ⟨j, us⟩ :: fs, locals := .alive, tr := s.tr ++ [.composed] }) := by
          rw [step_use h0]; simp only [use, compose, if_neg hl]
        obtain ⟨s2, a, b, c⟩ := ih { s with stack := ⟨j, us⟩ :: fs, locals := .alive, tr := s.tr ++ [.composed] } j fs rfl hk' hst hd (by simp)
        refine ⟨s2, (Steps.one h1).trans a, b, c.after ⟨rfl, rfl, hd, by simp, ?_⟩⟩
        rw [kills_snoc]; simp [kills]
      | single k =>
        have cont : ∀ s1 : St, s1.stack = ⟨j, .single k :: us⟩ :: fs → Steps P s s1 → Grown s s1 → (Obj.inst k ∈ s1.built ∨ k ∈ s1.kept) →
            ∃ s', Steps P s s' ∧ s'.stack = ⟨j, []⟩ :: fs ∧ Grown s s' := by
          intro s1 hs1 st1 g1 al
          have h1 : step P s1 = some (.ok { s1 with stack := ⟨j, us⟩ :: fs, tr := s1.tr ++ [.used k] }) := by
            rw [step_use hs1]; simp only [use, reach, if_pos al]
          obtain ⟨s2, a, b, c⟩ := ih { s1 with stack := ⟨j, us⟩ :: fs, tr := s1.tr ++ [.used k] } j fs rfl hk' hst g1.dead g1.locals
          refine ⟨s2, st1.trans ((Steps.one h1).trans a), b, g1.trans (c.after ⟨rfl, rfl, g1.dead, g1.locals, ?_⟩)⟩
          rw [kills_snoc]; simp [kills]
        by_cases al : Obj.inst k ∈ s.built ∨ k ∈ s.kept
        · exact cont s h0 (Steps.refl P s) ⟨rfl, rfl, hd, hl, rfl⟩ al
        · have hrk := hk k (by simp)
          have hnm : s.making (.inst k) = false := by
            cases hx : s.making (.inst k) with
            | false => rfl
            | true =>
              unfold St.making at hx
              rw [List.any_eq_true] at hx
              obtain ⟨f, hf, e⟩ := hx
              have := hm f hf k (by simpa using e)
              omega
          have h1 : step P s = some (.ok { s with stack := ⟨.make (.inst k), P.ctor (.inst k)⟩ :: s.stack }) := by
            rw [step_use h0]
            simp only [use, reach, if_neg al, hd, List.not_mem_nil, if_false, hnm]
            rfl
          obtain ⟨s2, a, b, c⟩ := ihr (rank k) hrk (P.ctor (.inst k)) { s with stack := ⟨.make (.inst k), P.ctor (.inst k)⟩ :: s.stack } (.make (.inst k)) s.stack rfl
            (fun q hq => hr k q hq)
            (fun f hf q hq => by
              rcases List.mem_cons.1 hf with rfl | hf
              · cases hq; exact Nat.le_refl _
              · have := hm f hf q hq; omega) hd hl
          have h2 := step_finish (P := P) b
          have hc : (finish P s2 (.make (.inst k)) s.stack).stack = s.stack ∧ Grown s2 (finish P s2 (.make (.inst k)) s.stack) ∧
              (Obj.inst k ∈ (finish P s2 (.make (.inst k)) s.stack).built ∨ k ∈ (finish P s2 (.make (.inst k)) s.stack).kept) := by
            cases hlk : P.leaked k with
            | true =>
              have hf : finish P s2 (.make (.inst k)) s.stack = { s2 with stack := s.stack, kept := k :: s2.kept, tr := s2.tr ++ [.made (.inst k)] } := by
                simp [finish, complete, hlk]
              rw [hf]
              refine ⟨rfl, ⟨rfl, rfl, c.dead, c.locals, ?_⟩, .inr (by simp)⟩
              rw [kills_snoc]; simp [kills]
            | false =>
              have hf : finish P s2 (.make (.inst k)) s.stack = { s2 with stack := s.stack, built := .inst k :: s2.built, tr := s2.tr ++ [.made (.inst k)] } := by
                simp [finish, complete, hlk]
              rw [hf]
              refine ⟨rfl, ⟨rfl, rfl, c.dead, c.locals, ?_⟩, .inl (by simp)⟩
              rw [kills_snoc]; simp [kills]
          exact cont _ (by rw [hc.1]; exact h0) ((Steps.one h1).trans (a.trans (Steps.one h2)))
            (hc.2.1.after ⟨c.todo, c.mained, c.dead, c.locals, c.kills⟩) hc.2.2

theorem bound_uses (rank : Nat → Nat) (us : List Use) : ∃ r, ∀ k, .single k ∈ us → rank k < r := by
  induction us with
  | nil => exact ⟨0, by simp⟩
  | cons u us ih =>
    obtain ⟨r, h⟩ := ih
    cases u with
    | compose => exact ⟨r, fun k hk => h k (by simpa using hk)⟩
    | single q =>
      refine ⟨r + rank q + 1, fun k hk => ?_⟩
      rcases List.mem_cons.1 hk with e | hk
      · cases e; omega
      · have := h k hk; omega

/-- One function, called with nothing under execution. -/
theorem exec_job (P : Prog) (ha : Acyclic P) (s : St) (j : Job) (us : List Use) (h0 : s.stack = [⟨j, us⟩]) (hj : ∀ k, j ≠ .make (.inst k))
    (hd : s.dead = []) (hl : s.locals ≠ .dead) : ∃ s', Steps P s s' ∧ s'.stack = [⟨j, []⟩] ∧ Grown s s' := by
  obtain ⟨rank, hr⟩ := ha
  obtain ⟨r, hb⟩ := bound_uses rank us
  refine exec_uses P rank hr r us s j [] h0 hb ?_ hd hl
  intro f hf k hk
  rw [h0, List.mem_singleton] at hf
  subst hf
  exact absurd hk (hj k)

theorem exec_statics (P : Prog) (ha : Acyclic P) (todo : List Nat) :
    ∀ s : St, s.stack = [] → s.todo = todo → s.dead = [] → s.locals ≠ .dead →
      ∃ s', Steps P s s' ∧ s'.stack = [] ∧ s'.todo = [] ∧ s'.mained = s.mained ∧ s'.dead = [] ∧ s'.locals ≠ .dead ∧ kills s'.tr = kills s.tr := by
  induction todo with
  | nil => intro s h0 h1 hd hl; exact ⟨s, Steps.refl P s, h0, h1, rfl, hd, hl, rfl⟩
  | cons i is ih =>
    intro s h0 h1 hd hl
    have e1 : step P s = some (.ok { s with stack := [⟨.make (.user i), P.ctor (.user i)⟩], todo := is }) := by
      unfold step; rw [h0]; simp only [next, h1, Option.map_some]
    obtain ⟨s2, a, b, c⟩ := exec_job P ha { s with stack := [⟨.make (.user i), P.ctor (.user i)⟩], todo := is } (.make (.user i)) (P.ctor (.user i)) rfl (by simp) hd hl
    have e2 := step_finish (P := P) b
    obtain ⟨s3, d, e, f, g, h, i', j⟩ := ih (finish P s2 (.make (.user i)) []) rfl c.todo c.dead c.locals
    refine ⟨s3, (Steps.one e1).trans (a.trans ((Steps.one e2).trans d)), e, f, g.trans c.mained, h, i', j.trans ?_⟩
    show kills (s2.tr ++ _) = _
    rw [kills_snoc, c.kills]; simp [kills]

/-- From the start to the return of main. -/
theorem exec_main (P : Prog) (ha : Acyclic P) :
    ∃ s, Steps P P.start s ∧ s.stack = [] ∧ s.todo = [] ∧ s.mained = true ∧ s.dead = [] ∧ kills s.tr = [] := by
  obtain ⟨s1, a, h0, h1, h2, h3, h4, h5⟩ := exec_statics P ha P.statics P.start rfl rfl rfl (by simp [Prog.start])
  have e1 : step P s1 = some (.ok { s1 with stack := [⟨.main, P.main⟩], mained := true }) := by
    unfold step; rw [h0]; simp only [next, h1]
    rw [h2]; rfl
  obtain ⟨s2, b, c, d⟩ := exec_job P ha { s1 with stack := [⟨.main, P.main⟩], mained := true } .main P.main rfl (by simp) h3 h4
  have e2 := step_finish (P := P) c
  refine ⟨_, a.trans ((Steps.one e1).trans (b.trans (Steps.one e2))), rfl, d.todo.trans h1, d.mained, d.dead, ?_⟩
  exact d.kills.trans (h5.trans rfl)

/-- C139, up to the return of main: however the static objects are ordered, and whichever singletons and log statements their constructors and
main use, main returns, every static object has been constructed, in the given order, and nothing was destroyed before; and all
uses were of live instances. (Only a constructor that leads back to itself is excluded.) -/
theorem C139_until_main_returns_partial (P : Prog) (hn : P.statics.Nodup) (ha : Acyclic P) :
    ∃ n s, run P n P.start = .running s ∧ s.mained = true ∧ s.stack = [] ∧ users (makes s.tr) = P.statics ∧ kills s.tr = [] ∧ UsesAlive s.tr := by
  obtain ⟨s, ⟨n, hs⟩, h0, h1, h2, h3, h4⟩ := exec_main P ha
  have g := inv_run hn (.inl hs)
  refine ⟨n, s, hs, h2, h0, ?_, h4, g.uses⟩
  have := g.ord
  rw [h0, h1] at this
  simpa [users] using this

/-! ### exit -/

/-- What the uses in a destructor leave. -/
structure Shrunk (P : Prog) (s s' : St) : Prop where
  todo   : s'.todo = s.todo
  mained : s'.mained = s.mained
  built  : s'.built = s.built
  dead   : s'.dead = s.dead
  kept   : ∀ k ∈ s.kept, k ∈ s'.kept
  kills  : kills s'.tr = kills s.tr
  makes  : (makes s'.tr).filter P.dies = (makes s.tr).filter P.dies

theorem Shrunk.trans {P : Prog} {a b c : St} (h : Shrunk P a b) (g : Shrunk P b c) : Shrunk P a c :=
  ⟨g.todo.trans h.todo, g.mained.trans h.mained, g.built.trans h.built, g.dead.trans h.dead, fun k hk => g.kept k (h.kept k hk), g.kills.trans h.kills, g.makes.trans h.makes⟩

theorem Shrunk.after {P : Prog} {a b c : St} (g : Shrunk P b c) (h : Shrunk P a b) : Shrunk P a c := h.trans g

theorem exit_uses (P : Prog) (us : List Use) :
    ∀ s o, s.stack = [⟨.kill o, us⟩] → .compose ∉ us → (∀ x ∈ s.built, P.dies x = true) → (∀ x ∈ s.dead, P.dies x = true) →
      (∀ k, .single k ∈ us → (Obj.inst k ∈ s.built ∨ k ∈ s.kept) ∨ (P.leaked k = true ∧ P.ctor (.inst k) = [])) →
      ∃ s', Steps P s s' ∧ s'.stack = [⟨.kill o, []⟩] ∧ Shrunk P s s' := by
  induction us with
  | nil => intro s o h0 _ _ _ _; exact ⟨s, Steps.refl P s, h0, rfl, rfl, rfl, rfl, fun _ h => h, rfl, rfl⟩
  | cons u us ih =>
    intro s o h0 hc hb hdd hk
    cases u with
    | compose => simp at hc
    | single k =>
      have cont : ∀ s1 : St, s1.stack = [⟨.kill o, .single k :: us⟩] → Steps P s s1 → Shrunk P s s1 → (Obj.inst k ∈ s1.built ∨ k ∈ s1.kept) →
          ∃ s', Steps P s s' ∧ s'.stack = [⟨.kill o, []⟩] ∧ Shrunk P s s' := by
        intro s1 hs1 st1 g1 al
        have h1 : step P s1 = some (.ok { s1 with stack := [⟨.kill o, us⟩], tr := s1.tr ++ [.used k] }) := by
          rw [step_use hs1]; simp only [use, reach, if_pos al]
        obtain ⟨s2, a, b, c⟩ := ih { s1 with stack := [⟨.kill o, us⟩], tr := s1.tr ++ [.used k] } o rfl (fun h => hc (List.mem_cons_of_mem _ h))
          (fun x hx => hb x (by rw [← g1.built]; exact hx)) (fun x hx => hdd x (by rw [← g1.dead]; exact hx))
          (fun q hq => by
            rcases hk q (List.mem_cons_of_mem _ hq) with (x | x) | x
            · exact .inl (.inl (by rw [← g1.built] at x; exact x))
            · exact .inl (.inr (g1.kept q x))
            · exact .inr x)
        refine ⟨s2, st1.trans ((Steps.one h1).trans a), b, g1.trans (c.after ⟨rfl, rfl, rfl, rfl, fun _ h => h, ?_, ?_⟩)⟩
        · rw [kills_snoc]; simp [kills]
        · rw [makes_snoc]; simp [makes]
      by_cases al : Obj.inst k ∈ s.built ∨ k ∈ s.kept
      · exact cont s h0 (Steps.refl P s) ⟨rfl, rfl, rfl, rfl, fun _ h => h, rfl, rfl⟩ al
      · rcases hk k (by simp) with x | ⟨hl, hct⟩
        · exact absurd x al
        · have hnd : Obj.inst k ∉ s.dead := fun hx => by
            have := hdd _ hx
            simp [Prog.dies, hl] at this
          have hnm : s.making (.inst k) = false := by
            simp [St.making, h0]
          have h1 : step P s = some (.ok { s with stack := ⟨.make (.inst k), []⟩ :: s.stack }) := by
            rw [step_use h0]
            simp only [use, reach, if_neg al, if_neg hnd, hnm, hct]
            rfl
          have h2 := step_finish (P := P) (s := { s with stack := ⟨.make (.inst k), []⟩ :: s.stack }) rfl
          have hf : finish P { s with stack := ⟨.make (.inst k), []⟩ :: s.stack } (.make (.inst k)) s.stack =
              { s with kept := k :: s.kept, tr := s.tr ++ [.made (.inst k)] } := by
            simp [finish, complete, hl]
          rw [hf] at h2
          refine cont { s with kept := k :: s.kept, tr := s.tr ++ [.made (.inst k)] } h0 ((Steps.one h1).trans (Steps.one h2)) ⟨rfl, rfl, rfl, rfl, fun q hq => List.mem_cons_of_mem _ hq, ?_, ?_⟩ (.inr (by simp))
          · rw [kills_snoc]; simp [kills]
          · rw [makes_snoc]; simp [makes, Prog.dies, hl]

theorem exit_all (P : Prog) (hc : Careful P) (bs : List Obj) :
    ∀ s : St, s.stack = [] → s.todo = [] → s.mained = true → s.built = bs → Inv P s →
      ∃ s', Steps P s s' ∧ step P s' = none ∧ kills s'.tr = kills s.tr ++ bs ∧ (makes s'.tr).filter P.dies = (makes s.tr).filter P.dies := by
  induction bs with
  | nil =>
    intro s h0 h1 h2 h3 g
    refine ⟨s, Steps.refl P s, ?_, by simp, rfl⟩
    unfold step
    rw [h0]
    simp only [next, h1, h2, h3]
    rfl
  | cons o bs ih =>
    intro s h0 h1 h2 h3 g
    have e1 : step P s = some (.ok { s with stack := [⟨.kill o, P.dtor o⟩], built := bs, dead := o :: s.dead, tr := s.tr ++ [.killed o] }) := by
      unfold step; rw [h0]; simp only [next, h1, h2, h3]; rfl
    have g1 := inv_step P s _ g e1
    obtain ⟨s2, a, b, c⟩ := exit_uses P (P.dtor o) { s with stack := [⟨.kill o, P.dtor o⟩], built := bs, dead := o :: s.dead, tr := s.tr ++ [.killed o] } o rfl
      (hc o).1 g1.live g1.gone (fun k hk => by
        rcases (hc o).2 k hk with x | x
        · exact .inl (g.bt [] o bs h3 k x)
        · exact .inr x)
    have e2 := step_finish (P := P) b
    have g2 : Inv P (finish P s2 (.kill o) []) := by
      obtain ⟨n, hs⟩ := (Steps.one e1).trans (a.trans (Steps.one e2))
      exact (run_inv P (Inv P) (inv_step P) n s g).1 _ hs
    obtain ⟨s3, d, e, f, h⟩ := ih (finish P s2 (.kill o) []) rfl (c.todo.trans h1) (c.mained.trans h2) c.built g2
    refine ⟨s3, (Steps.one e1).trans (a.trans ((Steps.one e2).trans d)), e, ?_, ?_⟩
    · rw [f]
      show kills s2.tr ++ bs = _
      rw [c.kills, kills_snoc]
      simp [kills]
    · rw [h]
      show (makes s2.tr).filter _ = _
      rw [c.makes, makes_snoc]
      simp [makes]

theorem replay_nokill (P : Prog) (tr : List Ev) (st res : List Obj) (hk : kills tr = []) (h : replay P st tr = some res) :
    res = ((makes tr).filter P.dies).reverse ++ st := by
  induction tr generalizing st with
  | nil => cases h; rfl
  | cons e es ih =>
    cases e with
    | made o =>
      have : kills es = [] := by simpa [kills] using hk
      have := ih _ this h
      rw [this]
      show _ = ((o :: makes es).filter P.dies).reverse ++ st
      cases hd : P.dies o <;> simp [hd]
    | killed o => simp [kills] at hk
    | used k => exact ih st (by simpa [kills] using hk) h
    | composed => exact ih st (by simpa [kills] using hk) h

/-- C139, careful programs: if every destructor uses only singletons that the constructor of the same object uses too (or ones that are
never destroyed, as UnitTest), and writes no log statements, then the process ends in an orderly way: all static objects are constructed in
order, all uses are of live instances, and every object is destroyed exactly once, in the reverse order of construction. -/
theorem C139_careful_partial (P : Prog) (hn : P.statics.Nodup) (ha : Acyclic P) (hc : Careful P) :
    ∃ n s, run P n P.start = .ended s ∧ users (makes s.tr) = P.statics ∧ UsesAlive s.tr ∧ kills s.tr = ((makes s.tr).filter P.dies).reverse := by
  obtain ⟨s, hs, h0, h1, h2, h3, h4⟩ := exec_main P ha
  obtain ⟨n, hs'⟩ := hs
  have g := inv_run hn (.inl hs')
  obtain ⟨s', a, b, c, d⟩ := exit_all P hc s.built s h0 h1 h2 rfl g
  obtain ⟨m, hm⟩ := Steps.ends (Steps.trans ⟨n, hs'⟩ a) b
  have g' := inv_run hn (.inr hm)
  refine ⟨m, s', hm, ?_, g'.uses, ?_⟩
  · have := g'.ord
    obtain ⟨e0, e1, -⟩ := step_none b
    rw [e0, e1] at this
    simpa [users] using this
  · rw [c, h4, d, List.nil_append]
    have := replay_nokill P s.tr [] s.built h4 g.rep
    rw [this]; simp

/-- C139, careful programs never run into undefined behaviour. -/
theorem C139_careful_safe_partial (P : Prog) (hn : P.statics.Nodup) (ha : Acyclic P) (hc : Careful P) (n : Nat) (u : UB) :
    run P n P.start ≠ .wrong u := by
  obtain ⟨m, s, h, -⟩ := C139_careful_partial P hn ha hc
  exact ended_not_wrong h n u

/-! ### where it goes wrong -/

theorem all_run {P : Prog} (hn : P.statics.Nodup) {n : Nat} {s : St} (h : run P n P.start = .running s ∨ run P n P.start = .ended s) :
    Inv P s ∧ Phase P s ∧ Executed P s := by
  have := run_inv P (fun s => Inv P s ∧ Phase P s ∧ Executed P s)
    (fun s s' g hs => ⟨inv_step P s s' g.1 hs, phase_step P s s' g.2.1 hs, executed_step P s s' g.2.2 hs⟩) n P.start
    ⟨inv_start P hn, phase_start P, executed_start P⟩
  rcases h with h | h
  · exact this.1 s h
  · exact (this.2 s h).1

theorem ended_none {P : Prog} {n : Nat} {s : St} (h : run P n P.start = .ended s) : step P s = none :=
  ((run_inv P (fun _ => True) (fun _ _ _ _ => trivial) n P.start trivial).2 s h).2

theorem mem_users (os : List Obj) (i : Nat) : i ∈ users os ↔ Obj.user i ∈ os := by
  unfold users
  rw [List.mem_filterMap]
  constructor
  · rintro ⟨o, ho, e⟩
    cases o with
    | user j => simp at e; subst e; exact ho
    | inst k => simp at e
  · intro h; exact ⟨_, h, rfl⟩

/-- In a process that has ended, every static object was destroyed. -/
theorem ended_killed {P : Prog} (hn : P.statics.Nodup) {n : Nat} {s : St} (h : run P n P.start = .ended s) (i : Nat) (hi : i ∈ P.statics) :
    ∃ pre post, s.tr = pre ++ .killed (.user i) :: post := by
  obtain ⟨g, -, -⟩ := all_run hn (.inr h)
  obtain ⟨e0, e1, -, e2⟩ := step_none (ended_none h)
  have ho := g.ord
  rw [e0, e1] at ho
  have hm : Obj.user i ∈ makes s.tr := by
    rw [← mem_users]
    have : users (makes s.tr) = P.statics := by simpa [users] using ho
    rw [this]; exact hi
  have hc := g.made (.user i)
  have h1 := List.count_pos_iff.2 hm
  have h2 : (s.kept.map Obj.inst).count (.user i) = 0 := List.count_eq_zero.2 (fun hx => by
    obtain ⟨q, _, e⟩ := List.mem_map.1 hx; cases e)
  rw [e2] at hc
  have hd : 0 < s.dead.count (.user i) := by simp at hc; omega
  have : Ev.killed (.user i) ∈ s.tr := by
    rw [← mem_kills, g.kill, List.mem_reverse]
    exact List.count_pos_iff.1 hd
  obtain ⟨a, b, e⟩ := List.append_of_mem this
  exact ⟨a, b, e⟩

theorem first_kill (tr : List Ev) (h : kills tr ≠ []) : ∃ pre o post, tr = pre ++ .killed o :: post ∧ kills pre = [] := by
  induction tr with
  | nil => exact absurd rfl h
  | cons e es ih =>
    have go : kills (e :: es) = kills es → (∀ o, e ≠ .killed o) → ∃ pre o post, e :: es = pre ++ .killed o :: post ∧ kills pre = [] := by
      intro he hk
      obtain ⟨pre, o, post, h1, h2⟩ := ih (by rw [← he]; exact h)
      refine ⟨e :: pre, o, post, by rw [h1]; rfl, ?_⟩
      cases e with
      | killed o => exact absurd rfl (hk o)
      | made o => exact h2
      | used k => exact h2
      | composed => exact h2
    cases e with
    | killed o => exact ⟨[], o, es, rfl, rfl⟩
    | made o => exact go rfl (by simp)
    | used k => exact go rfl (by simp)
    | composed => exact go rfl (by simp)

/-- C139 is false: if main writes a log entry and the destructor of some static object does, the process never ends in an orderly way, for the
message parts of the thread are destroyed before any static object; it does not help that the object's constructor had used the logger. -/
theorem C139_log_in_destructor_refuted (P : Prog) (hn : P.statics.Nodup) (i : Nat) (hi : i ∈ P.statics) (hm : .compose ∈ P.main)
    (hd : .compose ∈ P.dtor (.user i)) (n : Nat) (s : St) : run P n P.start ≠ .ended s := by
  intro h
  obtain ⟨g, ph, ex⟩ := all_run hn (.inr h)
  obtain ⟨e0, -⟩ := step_none (ended_none h)
  obtain ⟨pre, post, he⟩ := ended_killed hn h i hi
  have hp : .composed ∈ post := by
    rcases ex.kd pre _ post he _ hd with a | ⟨rest, a, -⟩
    · exact a
    · rw [e0] at a; cases a
  by_cases hk : kills pre = []
  · exact (ph.lk pre _ post he hk (ex.me pre _ post he _ hm)).2 hp
  · obtain ⟨pre0, o, mid, h1, h2⟩ := first_kill pre hk
    have he' : s.tr = pre0 ++ .killed o :: (mid ++ .killed (.user i) :: post) := by rw [he, h1]; simp
    exact (ph.lk pre0 o _ he' h2 (ex.me pre0 o _ he' _ hm)).2 (by simp [hp])

/-- When singleton k is first used by main or later. -/
structure Late (P : Prog) (i k : Nat) (s : St) : Prop where
  fr : s.mained = false → ∀ f ∈ s.stack, f.job ≠ .make (.inst k)
  tr : ∀ pre post, s.tr = pre ++ .made (.inst k) :: post → .made (.user i) ∈ pre

theorem late_step (P : Prog) (i k : Nat) (hi : i ∈ P.statics) (hk : ∀ o, .single k ∉ P.ctor o) (s s' : St) (g : Inv P s) (ph : Phase P s) (l : Late P i k s)
    (h : step P s = some (.ok s')) : Late P i k s' := by
  have tl : ∀ x : Ev, x ≠ .made (.inst k) → ∀ pre post, s.tr ++ [x] = pre ++ .made (.inst k) :: post → .made (.user i) ∈ pre := by
    intro x hx pre post he
    rcases append_last he with ⟨post', h', -⟩ | ⟨_, h', -⟩
    · exact l.tr pre post' h'
    · exact absurd h' hx
  have md : ∀ fs, s.stack = ⟨.make (.inst k), []⟩ :: fs → ∀ pre post, s.tr ++ [.made (.inst k)] = pre ++ .made (.inst k) :: post → .made (.user i) ∈ pre := by
    intro fs h0 pre post he
    rcases append_last he with ⟨post', h', -⟩ | ⟨h', -, -⟩
    · exact l.tr pre post' h'
    · subst h'
      have hm : s.mained = true := by
        cases hx : s.mained with
        | true => rfl
        | false => exact absurd rfl (l.fr hx _ (by rw [h0]; exact List.mem_cons_self))
      have ho := g.ord
      rw [ph.mt hm, List.append_nil] at ho
      have hu : users (s.stack.filterMap Frame.making) = [] := by
        apply List.eq_nil_iff_forall_not_mem.2
        intro j hj
        rw [mem_users] at hj
        obtain ⟨f, hf, e⟩ := List.mem_filterMap.1 hj
        have hf' : f.job = .make (.user j) := by
          unfold Frame.making at e
          split at e
          · rename_i o ho'; cases e; exact ho'
          · cases e
        rcases ph.sh with h' | ⟨top, b, h', ht, hb⟩
        · rw [h'] at hf; cases hf
        · rw [h'] at hf
          rcases List.mem_append.1 hf with hf | hf
          · obtain ⟨q, hq⟩ := ht f hf; rw [hf'] at hq; cases hq
          · simp at hf; subst hf
            rcases hb with ⟨_, e', e2⟩ | ⟨e', -⟩ | ⟨_, e', -⟩
            · rw [hm] at e2; cases e2
            · rw [hf'] at e'; cases e'
            · rw [hf'] at e'; cases e'
      rw [hu, List.append_nil] at ho
      rw [← mem_makes, ← mem_users, ho]
      exact hi
  have sub : ∀ (jj : Job) (us us' : List Use) (fs : List Frame), s.stack = ⟨jj, us⟩ :: fs → s.mained = false → ∀ f ∈ (⟨jj, us'⟩ :: fs : List Frame), f.job ≠ .make (.inst k) := by
    intro jj us us' fs h0 hm f hf
    rcases List.mem_cons.1 hf with rfl | hf
    · exact l.fr hm ⟨jj, us⟩ (by rw [h0]; simp)
    · exact l.fr hm f (by rw [h0]; exact List.mem_cons_of_mem _ hf)
  have tail : ∀ (f0 : Frame) (fs : List Frame), s.stack = f0 :: fs → s.mained = false → ∀ f ∈ fs, f.job ≠ .make (.inst k) := by
    intro f0 fs h0 hm f hf
    exact l.fr hm f (by rw [h0]; exact List.mem_cons_of_mem _ hf)
  rcases step_cases P s s' h with ⟨j, is, h0, h1, rfl⟩ | ⟨h0, h1, h2, rfl⟩ | ⟨o, bs, h0, h1, h2, h3, rfl⟩ | ⟨o, fs, h0, h1, rfl⟩ | ⟨q, fs, h0, h1, rfl⟩ |
    ⟨fs, h0, rfl⟩ | ⟨o, fs, h0, rfl⟩ | ⟨j, us, q, fs, h0, h1, rfl⟩ | ⟨j, us, q, fs, h0, h1, h2, h3, h4, rfl⟩ | ⟨j, us, fs, h0, h1, rfl⟩
  · refine ⟨fun _ f hf => ?_, l.tr⟩
    simp at hf; subst hf; simp
  · exact ⟨(fun hx => by cases hx), l.tr⟩
  · refine ⟨(fun hx => by rw [h2] at hx; cases hx), tl _ (by simp)⟩
  · by_cases e : o = .inst k
    · subst e; exact ⟨tail _ fs h0, md fs h0⟩
    · exact ⟨tail _ fs h0, tl _ (by simpa using e)⟩
  · by_cases e : q = k
    · subst e; exact ⟨tail _ fs h0, md fs h0⟩
    · exact ⟨tail _ fs h0, tl _ (by simpa using e)⟩
  · exact ⟨tail _ fs h0, l.tr⟩
  · exact ⟨tail _ fs h0, l.tr⟩
  · exact ⟨sub j _ us fs h0, tl _ (by simp)⟩
  · refine ⟨fun hm f hf => ?_, l.tr⟩
    rcases List.mem_cons.1 hf with rfl | hf
    · intro e
      simp only [Job.make.injEq, Obj.inst.injEq] at e
      subst e
      have hmem : (⟨j, .single q :: us⟩ : Frame) ∈ s.stack := by rw [h0]; simp
      have hjob : ∃ o, j = .make o := by
        rcases ph.sh with h' | ⟨top, b, h', ht, hb⟩
        · rw [h0] at h'; cases h'
        · rw [h'] at hmem
          rcases List.mem_append.1 hmem with hf | hf
          · obtain ⟨q, hq⟩ := ht _ hf; exact ⟨_, hq⟩
          · simp at hf
            have hm' : s.mained = false := hm
            rcases hb with ⟨x, e', -⟩ | ⟨_, e', -⟩ | ⟨_, _, e', -⟩
            · rw [← hf] at e'; exact ⟨_, e'⟩
            · rw [hm'] at e'; cases e'
            · rw [hm'] at e'; cases e'
      obtain ⟨o, rfl⟩ := hjob
      obtain ⟨done, e, -⟩ := g.fr o _ hmem
      exact hk o (by rw [e]; simp)
    · exact l.fr hm f hf
  · exact ⟨sub j _ us fs h0, tl _ (by simp)⟩

/-- C139 is false without any log statement too: if main uses a `Singleton<T>` (or the logger) that no constructor uses, and the destructor of
some static object uses it, the process never ends in an orderly way: the instance is destroyed before the object. -/
theorem C139_late_singleton_refuted (P : Prog) (hn : P.statics.Nodup) (i k : Nat) (hi : i ∈ P.statics) (hl : P.leaked k = false) (hm : .single k ∈ P.main)
    (hk : ∀ o, .single k ∉ P.ctor o) (hd : .single k ∈ P.dtor (.user i)) (n : Nat) (s : St) : run P n P.start ≠ .ended s := by
  intro h
  obtain ⟨g, ph, ex⟩ := all_run hn (.inr h)
  have hlate : Late P i k s := by
    have := run_inv P (fun s => (Inv P s ∧ Phase P s) ∧ Late P i k s)
      (fun s s' g hs => ⟨⟨inv_step P s s' g.1.1 hs, phase_step P s s' g.1.2 hs⟩, late_step P i k hi hk s s' g.1.1 g.1.2 g.2 hs⟩) n P.start
      ⟨⟨inv_start P hn, phase_start P⟩, (fun _ f hf => by cases hf), (fun pre post he => by simp [Prog.start] at he)⟩
    exact ((this.2 s h).1).2
  obtain ⟨e0, -⟩ := step_none (ended_none h)
  obtain ⟨pre, post, he⟩ := ended_killed hn h i hi
  have hp : Ev.used k ∈ post := by
    rcases ex.kd pre _ post he _ hd with a | ⟨rest, a, -⟩
    · exact a
    · rw [e0] at a; cases a
  have hq : Ev.used k ∈ pre := ex.me pre _ post he _ hm
  obtain ⟨p1, p2, hp12⟩ := List.append_of_mem hp
  obtain ⟨q1, q2, hq12⟩ := List.append_of_mem hq
  have a1 := (g.uses q1 k (q2 ++ .killed (.user i) :: post) (by rw [he, hq12]; simp)).1
  have a2 := (g.uses (pre ++ .killed (.user i) :: p1) k p2 (by rw [he, hp12]; simp)).2
  have a3 : .made (.inst k) ∈ pre := by rw [hq12]; simp [a1]
  obtain ⟨x, c, hx⟩ := List.append_of_mem a3
  have a4 := hlate.tr x (c ++ .killed (.user i) :: post) (by rw [he, hx]; simp)
  obtain ⟨a, b, hab⟩ := List.append_of_mem a4
  have := C139_reverse P hn n s (.inr h) a b c post (.user i) (.inst k) (by rw [he, hx, hab]) (by simp [Prog.dies, hl])
  rw [mem_kills] at this
  apply a2
  rw [hx]
  simp [this]

/-! ### examples -/

/-- Object 0's constructor and destructor use the logger (0) directly; object 1's constructor writes a log statement; main uses the logger
and a Singleton<T> (1) whose constructor uses the logger; object 1's destructor registers something with UnitTest (2). -/
def sample : Prog where
  statics := [0, 1]
  ctor o := match o with | .user 0 => [.single 0] | .user 1 => [.single 0, .compose] | .inst 1 => [.single 0] | _ => []
  dtor o := match o with | .user 0 => [.single 0] | .user 1 => [.single 2] | .inst 1 => [.single 0] | _ => []
  main := [.single 0, .compose, .single 1]
  leaked k := k == 2

example : sample.statics.Nodup := by decide

example : Acyclic sample := by
  refine ⟨id, ?_⟩
  intro k j h
  simp only [sample] at h
  split at h
  all_goals first
    | (simp at h; done)
    | (rename_i hk; cases hk; simp at h; subst h; decide)
    | simp_all

example : Careful sample := by
  intro o
  match o with
  | .user 0 => exact ⟨by decide, fun k hk => .inl (by simpa [sample] using hk)⟩
  | .user 1 => exact ⟨by decide, fun k hk => .inr (by simp [sample] at hk ⊢; subst hk; decide)⟩
  | .user (_ + 2) => exact ⟨by simp [sample], fun k hk => by simp [sample] at hk⟩
  | .inst 0 => exact ⟨by decide, fun k hk => by simp [sample] at hk⟩
  | .inst 1 => exact ⟨by decide, fun k hk => .inl (by simpa [sample] using hk)⟩
  | .inst (_ + 2) => exact ⟨by simp [sample], fun k hk => by simp [sample] at hk⟩

example : (match run sample 40 sample.start with | .ended s => some (makes s.tr, kills s.tr) | _ => none) =
    some ([.inst 0, .user 0, .user 1, .inst 1, .inst 2], [.inst 1, .user 1, .user 0, .inst 0]) := by decide

/-- A static object that writes a log entry when it is constructed and one when it is destroyed, as main does. -/
def logging : Prog where
  statics := [0]
  ctor o := match o with | .user 0 => [.single 0, .compose] | _ => []
  dtor o := match o with | .user 0 => [.single 0, .compose] | _ => []
  main := [.single 0, .compose]
  leaked _ := false

example : run logging 40 logging.start = .wrong .useAfterFree := by decide

/-- The same with direct calls of LOGGER.log, and the constructor silent. -/
def late : Prog where
  statics := [0]
  ctor _ := []
  dtor o := match o with | .user 0 => [.single 0] | _ => []
  main := [.single 0]
  leaked _ := false

example : run late 40 late.start = .wrong .useAfterFree := by decide

example : ∀ o, .single 0 ∉ late.ctor o := by intro o; simp [late]

end Falcon.Lifetime
