import Verif.Spec.Singleton
/- C82. -/
namespace Falcon.Singleton

structure Inv (s : St) : Prop where
  /-- every event of a type is about one instance -/
  one   : ∀ e ∈ s.tr, e.inst = e.ty
  have' : ∀ t obj ty acc w a, s.pc t = .have obj ty acc w a → a = ty ∧ s.guard ty = .done
  ctor  : ∀ t obj ty acc w, s.pc t = .ctor obj ty acc w → s.guard ty = .busy t
  busy  : ∀ t ty, s.guard ty = .busy t → ∃ obj acc w, s.pc t = .ctor obj ty acc w
  done  : ∀ ty, s.guard ty = .done ↔ ∃ e ∈ s.tr, e.ty = ty
  count : ∀ ty, (s.tr.filter (fun e => e.isBuilt && e.ty == ty)).length ≤ 1
  first : ∀ pre e post, s.tr = pre ++ e :: post → e.isBuilt = false → ∃ b ∈ pre, b.isBuilt = true ∧ b.ty = e.ty
  reads : ∀ pre e post, s.tr = pre ++ e :: post → e.isRead = true → lastSet e.ty pre = some e.value
  cur   : ∀ ty, s.guard ty = .done → lastSet ty s.tr = some (s.val ty)

theorem inv_init : Inv {} := by
  refine ⟨?_, ?_, ?_, ?_, ?_, ?_, ?_, ?_, ?_⟩ <;> simp

theorem append_one_cases {tr pre post : List Ev} {x e : Ev} (h : tr ++ [x] = pre ++ e :: post) :
    (∃ post', tr = pre ++ e :: post' ∧ post = post' ++ [x]) ∨ (tr = pre ∧ x = e ∧ post = []) := by
  rcases List.eq_nil_or_concat post with rfl | ⟨p, y, rfl⟩
  · have := List.append_inj' h rfl
    exact .inr ⟨this.1, by simpa using this.2, rfl⟩
  · left
    have h' : tr ++ [x] = (pre ++ e :: p) ++ [y] := by simpa using h
    have := List.append_inj' h' rfl
    exact ⟨p, this.1, by simp at this ⊢; exact this.2.symm⟩

theorem lastSet_append (ty : Nat) (tr : List Ev) (e : Ev) :
    lastSet ty (tr ++ [e]) = if e.ty = ty ∧ e.isRead = false then some e.value else lastSet ty tr := by
  unfold lastSet
  by_cases h : e.ty = ty ∧ e.isRead = false
  · simp [h]
  · rw [if_neg h]
    have : (e.ty == ty && !e.isRead) = false := by
      cases hr : e.isRead <;> simp_all
    simp [List.filter_append, this]

/-- Adding an event for a constructed instance that is not a construction. -/
theorem Inv.add {s s' : St} (g : Inv s) (x : Ev) (htr : s'.tr = s.tr ++ [x]) (hg : s'.guard = s.guard)
    (hd : s.guard x.ty = .done) (hi : x.inst = x.ty) (hb : x.isBuilt = false)
    (hv : ∀ a, a ≠ x.ty → s'.val a = s.val a) (hv2 : s'.val x.ty = x.value) (hr : x.isRead = true → s.val x.ty = x.value)
    (hpc : ∀ t, s'.pc t = s.pc t ∨ (s'.pc t = .idle ∧ ∃ o ty a w i, s.pc t = .have o ty a w i)) : Inv s' := by
  have back : ∀ t p, s'.pc t = p → p ≠ .idle → s.pc t = p := by
    intro t p h hn
    rcases hpc t with h' | ⟨h', _⟩
    · rw [← h']; exact h
    · rw [h'] at h; exact absurd h.symm hn
  refine ⟨?_, ?_, ?_, ?_, ?_, ?_, ?_, ?_, ?_⟩
  · intro e he; rw [htr] at he; simp at he
    rcases he with he | rfl
    · exact g.one e he
    · exact hi
  · intro t o ty a w i h; rw [hg]; exact g.have' t o ty a w i (back t _ h (by simp))
  · intro t o ty a w h; rw [hg]; exact g.ctor t o ty a w (back t _ h (by simp))
  · intro t ty h; rw [hg] at h
    obtain ⟨o, a, w, hp⟩ := g.busy t ty h
    rcases hpc t with h' | ⟨_, o', ty', a', w', i', h'⟩
    · exact ⟨o, a, w, by rw [h']; exact hp⟩
    · rw [hp] at h'; cases h'
  · intro ty; rw [hg, htr, g.done ty]
    constructor
    · rintro ⟨e, he, h⟩; exact ⟨e, by simp [he], h⟩
    · rintro ⟨e, he, h⟩; simp at he
      rcases he with he | rfl
      · exact ⟨e, he, h⟩
      · subst h; exact (g.done e.ty).1 hd
  · intro ty; rw [htr]; simp [List.filter_append, hb]; simpa using g.count ty
  · intro pre e post h he; rw [htr] at h
    rcases append_one_cases h with ⟨p', h', _⟩ | ⟨h', rfl, _⟩
    · exact g.first pre e p' h' he
    · obtain ⟨e', he', ht'⟩ := (g.done x.ty).1 hd
      subst h'
      by_cases hbe : e'.isBuilt = true
      · exact ⟨e', he', hbe, ht'⟩
      · obtain ⟨l, r, hlr⟩ := List.append_of_mem he'
        obtain ⟨b, hb1, hb2, hb3⟩ := g.first l e' r hlr (by simpa using hbe)
        exact ⟨b, by rw [hlr]; simp [hb1], hb2, by rw [hb3, ht']⟩
  · intro pre e post h he; rw [htr] at h
    rcases append_one_cases h with ⟨p', h', _⟩ | ⟨h', rfl, _⟩
    · exact g.reads pre e p' h' he
    · subst h'; rw [g.cur _ hd, hr he]
  · intro ty h; rw [hg] at h; rw [htr, lastSet_append]
    by_cases e : x.ty = ty
    · subst e
      by_cases hrd : x.isRead = false
      · simp [hrd, hv2]
      · simp [hrd]; rw [g.cur _ h, hv2, hr (by simpa using hrd)]
    · simp [e]; rw [g.cur _ h, hv _ (fun h => e h.symm)]

theorem Inv.step {s s' : St} {t : Nat} (g : Inv s) (h : Step s t s') : Inv s' := by
  cases h with
  | @call obj ty acc w hp hm =>
    refine ⟨g.one, ?_, ?_, ?_, g.done, g.count, g.first, g.reads, g.cur⟩
    · intro u o ty' a w' i h
      by_cases e : u = t
      · simp [setPc, e] at h
      · simp [setPc, e] at h; exact g.have' u o ty' a w' i h
    · intro u o ty' a w' h
      by_cases e : u = t
      · simp [setPc, e] at h
      · simp [setPc, e] at h; exact g.ctor u o ty' a w' h
    · intro u ty' h
      obtain ⟨o, a, w', hq⟩ := g.busy u ty' h
      have : u ≠ t := by rintro rfl; rw [hp] at hq; cases hq
      exact ⟨o, a, w', by simp [setPc, this]; exact hq⟩
  | @enter obj ty acc w hp hg =>
    simp only [instOf] at hg
    refine ⟨g.one, ?_, ?_, ?_, ?_, g.count, g.first, g.reads, ?_⟩
    · intro u o ty' a w' i h
      by_cases e : u = t
      · simp [setPc, e] at h
      · simp [setPc, setGuard, e] at h
        have := g.have' u o ty' a w' i h
        refine ⟨this.1, ?_⟩
        have hne : ty' ≠ ty := by rintro rfl; rw [hg] at this; cases this.2
        simp [setPc, setGuard, instOf, hne]; exact this.2
    · intro u o ty' a w' h
      by_cases e : u = t
      · simp [setPc, setGuard, e] at h; simp [setPc, setGuard, instOf, h.2.1, e]
      · simp [setPc, setGuard, e] at h
        have := g.ctor u o ty' a w' h
        have hne : ty' ≠ ty := by rintro rfl; rw [hg] at this; cases this
        simp [setPc, setGuard, instOf, hne]; exact this
    · intro u ty' h
      by_cases e : ty' = ty
      · simp [setPc, setGuard, instOf, e] at h
        exact ⟨obj, acc, w, by simp [setPc, h, e]⟩
      · simp [setPc, setGuard, instOf, e] at h
        obtain ⟨o, a, w', hq⟩ := g.busy u ty' h
        have : u ≠ t := by rintro rfl; rw [hp] at hq; cases hq
        exact ⟨o, a, w', by simp [setPc, setGuard, this]; exact hq⟩
    · intro ty'
      by_cases e : ty' = ty
      · have := g.done ty; rw [hg] at this
        simp [setPc, setGuard, instOf, e]; simpa using this
      · simp [setPc, setGuard, instOf, e]; exact g.done ty'
    · intro ty' h
      by_cases e : ty' = ty
      · simp [setPc, setGuard, instOf, e] at h
      · simp [setPc, setGuard, instOf, e] at h; exact g.cur ty' h
  | @built obj ty acc w v hp =>
    have hbz := g.ctor t obj ty acc w hp
    have hnone : ∀ e ∈ s.tr, e.ty ≠ ty := fun e he h => by
      have := (g.done ty).2 ⟨e, he, h⟩
      rw [hbz] at this; cases this
    refine ⟨?_, ?_, ?_, ?_, ?_, ?_, ?_, ?_, ?_⟩
    · intro e he; simp at he
      rcases he with he | rfl
      · exact g.one e he
      · rfl
    · intro u o ty' a w' i h
      by_cases e : u = t
      · simp [setPc, setGuard, setVal, instOf, e] at h
        simp [setPc, setGuard, setVal, instOf, ← h.2.1, ← h.2.2.2.2]
      · simp [setPc, setGuard, setVal, e] at h
        have := g.have' u o ty' a w' i h
        refine ⟨this.1, ?_⟩
        by_cases e2 : ty' = ty
        · simp [setPc, setGuard, setVal, instOf, e2]
        · simp [setPc, setGuard, setVal, instOf, e2]; exact this.2
    · intro u o ty' a w' h
      by_cases e : u = t
      · simp [setPc, e] at h
      · simp [setPc, setGuard, setVal, e] at h
        have := g.ctor u o ty' a w' h
        have hne : ty' ≠ ty := by rintro rfl; rw [hbz] at this; cases this; exact e rfl
        simp [setPc, setGuard, setVal, instOf, hne]; exact this
    · intro u ty' h
      by_cases e : ty' = ty
      · simp [setPc, setGuard, setVal, instOf, e] at h
      · simp [setPc, setGuard, setVal, instOf, e] at h
        obtain ⟨o, a, w', hq⟩ := g.busy u ty' h
        have : u ≠ t := by rintro rfl; rw [hp] at hq; cases hq; exact e rfl
        exact ⟨o, a, w', by simp [setPc, setGuard, setVal, this]; exact hq⟩
    · intro ty'
      by_cases e : ty' = ty
      · simp [setPc, setGuard, setVal, instOf, e]
        exact .inr rfl
      · have := g.done ty'
        simp [setPc, setGuard, setVal, instOf, e, this]
        intro h; exact absurd h.symm e
    · intro ty'
      by_cases e : ty' = ty
      · subst e
        have : s.tr.filter (fun e => e.isBuilt && e.ty == ty') = [] := by
          apply List.filter_eq_nil_iff.2
          intro x hx; have := hnone x hx; simp [this]
        simp [List.filter_append, this, List.filter_cons]
        split <;> simp
      · have hf : ((Ev.built ty (instOf obj ty) v).isBuilt && (Ev.built ty (instOf obj ty) v).ty == ty') = false := by
          simp [Ev.isBuilt, Ev.ty]; exact fun h => e h.symm
        simp [List.filter_append, List.filter_cons, hf]; simpa using g.count ty'
    · intro pre e post h he
      rcases append_one_cases h with ⟨p', h', _⟩ | ⟨h', rfl, _⟩
      · exact g.first pre e p' h' he
      · simp [Ev.isBuilt] at he
    · intro pre e post h he
      rcases append_one_cases h with ⟨p', h', _⟩ | ⟨h', rfl, _⟩
      · exact g.reads pre e p' h' he
      · simp [Ev.isRead] at he
    · intro ty' h
      show lastSet ty' (s.tr ++ [_]) = _
      rw [lastSet_append]
      by_cases e : ty' = ty
      · simp [e, Ev.ty, Ev.isRead, Ev.value, setPc, setGuard, setVal, instOf]
      · simp [setPc, setGuard, setVal, instOf, e] at h
        have e' : ¬ ty = ty' := fun h => e h.symm
        simp [Ev.ty, setPc, setGuard, setVal, instOf, e, e']; exact g.cur ty' h
  | @threw obj ty acc w hp =>
    have hbz := g.ctor t obj ty acc w hp
    refine ⟨g.one, ?_, ?_, ?_, ?_, g.count, g.first, g.reads, ?_⟩
    · intro u o ty' a w' i h
      by_cases e : u = t
      · simp [setPc, e] at h
      · simp [setPc, setGuard, e] at h
        have := g.have' u o ty' a w' i h
        have hne : ty' ≠ ty := by rintro rfl; rw [hbz] at this; cases this.2
        refine ⟨this.1, ?_⟩
        simp [setPc, setGuard, instOf, hne]; exact this.2
    · intro u o ty' a w' h
      by_cases e : u = t
      · simp [setPc, e] at h
      · simp [setPc, setGuard, e] at h
        have := g.ctor u o ty' a w' h
        have hne : ty' ≠ ty := by rintro rfl; rw [hbz] at this; cases this; exact e rfl
        simp [setPc, setGuard, instOf, hne]; exact this
    · intro u ty' h
      by_cases e : ty' = ty
      · simp [setPc, setGuard, instOf, e] at h
      · simp [setPc, setGuard, instOf, e] at h
        obtain ⟨o, a, w', hq⟩ := g.busy u ty' h
        have : u ≠ t := by rintro rfl; rw [hp] at hq; cases hq; exact e rfl
        exact ⟨o, a, w', by simp [setPc, setGuard, this]; exact hq⟩
    · intro ty'
      by_cases e : ty' = ty
      · have := g.done ty; rw [hbz] at this
        simp [setPc, setGuard, instOf, e]; simpa using this
      · simp [setPc, setGuard, instOf, e]; exact g.done ty'
    · intro ty' h
      by_cases e : ty' = ty
      · simp [setPc, setGuard, instOf, e] at h
      · simp [setPc, setGuard, instOf, e] at h; exact g.cur ty' h
  | @found obj ty acc w hp hg =>
    simp only [instOf] at hg
    refine ⟨g.one, ?_, ?_, ?_, g.done, g.count, g.first, g.reads, g.cur⟩
    · intro u o ty' a w' i h
      by_cases e : u = t
      · simp [setPc, instOf, e] at h
        simp [setPc, ← h.2.1, ← h.2.2.2.2, hg]
      · simp [setPc, e] at h; exact g.have' u o ty' a w' i h
    · intro u o ty' a w' h
      by_cases e : u = t
      · simp [setPc, e] at h
      · simp [setPc, e] at h; exact g.ctor u o ty' a w' h
    · intro u ty' h
      obtain ⟨o, a, w', hq⟩ := g.busy u ty' h
      have : u ≠ t := by rintro rfl; rw [hp] at hq; cases hq
      exact ⟨o, a, w', by simp [setPc, this]; exact hq⟩
  | @read obj ty acc a hp =>
    obtain ⟨rfl, hd⟩ := g.have' t obj ty acc none a hp
    refine g.add (.read a obj acc a (s.val a)) rfl rfl hd rfl rfl (fun _ _ => rfl) rfl (fun _ => rfl) (fun u => ?_)
    by_cases e : u = t
    · subst e; exact .inr ⟨by simp [setPc], _, _, _, _, _, hp⟩
    · exact .inl (by simp [setPc, e])
  | @write obj ty acc a v hp =>
    obtain ⟨rfl, hd⟩ := g.have' t obj ty acc (some v) a hp
    refine g.add (.wrote a obj acc a v) rfl rfl hd rfl rfl (fun b hb => ?_) ?_ (fun h => by cases h) (fun u => ?_)
    · have : b ≠ a := hb
      simp [setPc, setVal, this]
    · simp [setPc, setVal, Ev.ty, Ev.value]
    · by_cases e : u = t
      · subst e; exact .inr ⟨by simp [setPc], _, _, _, _, _, hp⟩
      · exact .inl (by simp [setPc, setVal, e])

theorem inv_reach {s : St} (h : Reach s) : Inv s := by
  induction h with
  | init => exact inv_init
  | step _ hs ih => exact ih.step hs

/-- C82, same instance: all accesses through all Singleton objects of one type, by all threads, touch
one and the same instance; accesses of different types touch different ones. -/
theorem C82_same_instance {s : St} (h : Reach s) : ∀ e ∈ s.tr, ∀ f ∈ s.tr, (e.inst = f.inst ↔ e.ty = f.ty) := by
  intro e he f hf
  rw [(inv_reach h).one e he, (inv_reach h).one f hf]

/-- C82, constructed once: in no execution does a type's constructor complete twice, and every access is
preceded by it. -/
theorem C82_constructed_once_before_use {s : St} (h : Reach s) :
    (∀ ty, (s.tr.filter (fun e => e.isBuilt && e.ty == ty)).length ≤ 1) ∧
    (∀ pre e post, s.tr = pre ++ e :: post → e.isBuilt = false → ∃ b ∈ pre, b.isBuilt = true ∧ b.ty = e.ty) :=
  ⟨(inv_reach h).count, (inv_reach h).first⟩

/-- C82, writes are seen: a read, through whatever object and accessor, returns what the last write (or the construction)
of that type's instance put there. -/
theorem C82_reads_last_write {s : St} (h : Reach s) :
    ∀ pre e post, s.tr = pre ++ e :: post → e.isRead = true → lastSet e.ty pre = some e.value :=
  (inv_reach h).reads

/-- What the writes in an execution go through. -/
structure WInv (s : St) : Prop where
  tr : ∀ ty obj acc i v, Ev.wrote ty obj acc i v ∈ s.tr → acc = .get ∨ acc = .mArrow ∨ acc = .mStar
  pc : ∀ t obj ty acc v, (s.pc t = .inGet obj ty acc (some v) ∨ s.pc t = .ctor obj ty acc (some v) ∨ ∃ a, s.pc t = .have obj ty acc (some v) a) →
    acc = .get ∨ acc = .mArrow ∨ acc = .mStar

theorem winv_step {s s' : St} {t : Nat} (g : WInv s) (h : Step s t s') : WInv s' := by
  have mt : ∀ acc : Acc, acc.mutable = true → acc = .get ∨ acc = .mArrow ∨ acc = .mStar := by intro acc; cases acc <;> decide
  cases h with
  | call hp hw =>
    refine ⟨g.tr, fun u obj ty acc v hu => ?_⟩
    by_cases e : u = t
    · subst e
      simp only [setPc, if_true, reduceCtorEq, exists_false, or_false, Pc.inGet.injEq] at hu
      obtain ⟨-, -, rfl, rfl⟩ := hu
      exact mt _ (hw (by simp))
    · simp only [setPc, if_neg e] at hu; exact g.pc u _ _ _ _ hu
  | enter hp hg =>
    refine ⟨g.tr, fun u obj ty acc v hu => ?_⟩
    by_cases e : u = t
    · subst e
      simp [setPc, setGuard] at hu
      obtain ⟨-, -, rfl, rfl⟩ := hu
      exact g.pc u _ _ _ _ (.inl hp)
    · simp only [setPc, setGuard, if_neg e] at hu; exact g.pc u _ _ _ _ hu
  | built hp =>
    refine ⟨fun ty obj acc i v hm => g.tr ty obj acc i v (by simpa using hm), fun u obj ty acc v hu => ?_⟩
    by_cases e : u = t
    · subst e
      simp [setPc, setGuard, setVal] at hu
      obtain ⟨-, -, rfl, rfl⟩ := hu
      exact g.pc u _ _ _ _ (.inr (.inl hp))
    · simp only [setPc, setGuard, setVal, if_neg e] at hu; exact g.pc u _ _ _ _ hu
  | threw hp =>
    refine ⟨g.tr, fun u obj ty acc v hu => ?_⟩
    by_cases e : u = t
    · subst e; simp [setPc, setGuard] at hu
    · simp only [setPc, setGuard, if_neg e] at hu; exact g.pc u _ _ _ _ hu
  | found hp hg =>
    refine ⟨g.tr, fun u obj ty acc v hu => ?_⟩
    by_cases e : u = t
    · subst e
      simp [setPc] at hu
      obtain ⟨-, -, rfl, rfl⟩ := hu
      exact g.pc u _ _ _ _ (.inl hp)
    · simp only [setPc, if_neg e] at hu; exact g.pc u _ _ _ _ hu
  | read hp =>
    refine ⟨fun ty obj acc i v hm => g.tr ty obj acc i v (by simpa using hm), fun u obj ty acc v hu => ?_⟩
    by_cases e : u = t
    · subst e; simp [setPc] at hu
    · simp only [setPc, if_neg e] at hu; exact g.pc u _ _ _ _ hu
  | write hp =>
    refine ⟨fun ty obj acc i v hm => ?_, fun u obj ty acc v hu => ?_⟩
    · rcases List.mem_append.1 hm with hm | hm
      · exact g.tr ty obj acc i v hm
      · simp only [List.mem_singleton, Ev.wrote.injEq] at hm
        obtain ⟨rfl, rfl, rfl, rfl, rfl⟩ := hm
        exact g.pc t _ _ _ _ (.inr (.inr ⟨_, hp⟩))
    · by_cases e : u = t
      · subst e; simp [setPc, setVal] at hu
      · simp only [setPc, setVal, if_neg e] at hu; exact g.pc u _ _ _ _ hu

/-- C82, read-only: the instance is only written through get() and the `mtbl` accessors, never through `->` and `*`
of the Singleton itself. -/
theorem C82_const_accessors {s : St} (h : Reach s) : ∀ ty obj acc i v, Ev.wrote ty obj acc i v ∈ s.tr →
    acc = .get ∨ acc = .mArrow ∨ acc = .mStar := by
  have : WInv s := by
    induction h with
    | init => exact ⟨by simp, by simp⟩
    | step _ hs ih => exact winv_step ih hs
  exact this.tr

/-- C82: no accessor is stuck: a thread that has called one can always be brought to the point where it
holds the instance (unless the constructor always throws or never ends). -/
theorem C82_not_stuck {s : St} (h : Reach s) (t obj ty : Nat) (acc : Acc) (w : Option Nat) (hp : s.pc t = .inGet obj ty acc w) :
    ∃ s1 s2 s3 u u', (Step s u s1 ∨ s1 = s) ∧ (Step s1 t s2 ∨ s2 = s1) ∧ (Step s2 u' s3 ∨ s3 = s2) ∧ ∃ a, s3.pc t = .have obj ty acc w a := by
  have g := inv_reach h
  cases hg : s.guard ty with
  | raw =>
    refine ⟨s, _, _, t, t, .inr rfl, .inl (.enter hp hg), .inl (.built (v := 0) (obj := obj) (ty := ty) (acc := acc) (w := w) (by simp [setPc])), instOf obj ty, by simp [setPc]⟩
  | done =>
    exact ⟨s, _, _, t, t, .inr rfl, .inl (.found hp hg), .inr rfl, instOf obj ty, by simp [setPc]⟩
  | busy u =>
    obtain ⟨o', a', w', hq⟩ := g.busy u ty hg
    have hne : t ≠ u := by rintro rfl; rw [hp] at hq; cases hq
    refine ⟨_, _, _, u, t, .inl (.built (v := 0) hq), .inl (.found (obj := obj) (ty := ty) (acc := acc) (w := w) ?_ ?_), .inr rfl, instOf obj ty, by simp [setPc]⟩
    · simp [setPc, setGuard, setVal, hne]; exact hp
    · simp [setPc, setGuard, setVal, instOf]

/-- C82: from every moment of every execution, a thread that is not in a call can go on to read the instance through every
accessor, and to write any value through `get` and the two accessors of `mtbl`. -/
theorem C82_accessors_work {s : St} (h : Reach s) (t obj ty : Nat) (hi : s.pc t = .idle) :
    (∀ acc, ∃ s' i v, Reach s' ∧ s'.tr.getLast? = some (.read ty obj acc i v)) ∧
    (∀ acc v, acc = .get ∨ acc = .mArrow ∨ acc = .mStar → ∃ s' i, Reach s' ∧ s'.tr.getLast? = some (.wrote ty obj acc i v)) := by
  have go : ∀ acc w, (w ≠ none → acc.mutable = true) → ∃ s' a, Reach s' ∧ s'.pc t = .have obj ty acc w a := by
    intro acc w hw
    have h1 := Reach.step h (Step.call (obj := obj) (ty := ty) (acc := acc) (w := w) hi hw)
    obtain ⟨s1, s2, s3, u, u', r1, r2, r3, a, ha⟩ := C82_not_stuck h1 t obj ty acc w (by simp [setPc])
    refine ⟨s3, a, ?_, ha⟩
    have q1 : Reach s1 := r1.elim (Reach.step h1) (fun e => e ▸ h1)
    have q2 : Reach s2 := r2.elim (Reach.step q1) (fun e => e ▸ q1)
    exact r3.elim (Reach.step q2) (fun e => e ▸ q2)
  constructor
  · intro acc
    obtain ⟨s', a, hr, hp⟩ := go acc none (fun h => absurd rfl h)
    exact ⟨_, a, s'.val a, Reach.step hr (.read hp), by simp⟩
  · intro acc v hacc
    obtain ⟨s', a, hr, hp⟩ := go acc (some v) (fun _ => by rcases hacc with rfl | rfl | rfl <;> rfl)
    exact ⟨_, a, Reach.step hr (.write hp), by simp⟩

/-- Non-vacuity: thread 1 writes through object 10, thread 2 reads it through object 11. -/
example : ∃ s, Reach s ∧ s.tr = [.built 0 0 7, .wrote 0 10 .mArrow 0 5, .read 0 11 .star 0 5] := by
  have h1 := Reach.step .init (Step.call (t := 1) (obj := 10) (ty := 0) (acc := .mArrow) (w := some 5) rfl (fun _ => rfl))
  have h2 := Reach.step h1 (Step.enter (t := 1) (obj := 10) (ty := 0) (acc := .mArrow) (w := some 5) rfl rfl)
  have h3 := Reach.step h2 (Step.call (t := 2) (obj := 11) (ty := 0) (acc := .star) (w := none) rfl (fun h => absurd rfl h))
  have h4 := Reach.step h3 (Step.built (t := 1) (obj := 10) (ty := 0) (acc := .mArrow) (w := some 5) (v := 7) rfl)
  have h5 := Reach.step h4 (Step.write (t := 1) (obj := 10) (ty := 0) (acc := .mArrow) (a := 0) (v := 5) rfl)
  have h6 := Reach.step h5 (Step.found (t := 2) (obj := 11) (ty := 0) (acc := .star) (w := none) rfl rfl)
  have h7 := Reach.step h6 (Step.read (t := 2) (obj := 11) (ty := 0) (acc := .star) (a := 0) rfl)
  exact ⟨_, h7, rfl⟩

end Falcon.Singleton
