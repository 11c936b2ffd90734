import Verif.Proofs.PSLife2
/-
An element type whose destructor works while a property of (memory, list of elements) holds: removing calls
succeed whenever the calls without destructors do, and the property goes on for the elements left.
-/
namespace Falcon.PagedStack
variable {M α V : Type}

structure Law (E : Elem M α V) (P : M → List α → Prop) : Prop where
  perm : ∀ {m l l'}, l.Perm l' → P m l → P m l'
  destroy : ∀ {m x l}, P m (x :: l) → ∃ m', E.destroy m x = .ok m' ∧ P m' l

variable {E : Elem M α V} {P : M → List α → Prop}

theorem Law.all (L : Law E P) (d : List α) : ∀ {m l}, P m (d ++ l) → ∃ m', destroyAll E m d = .ok m' ∧ P m' l := by
  induction d with
  | nil => intro m l h; exact ⟨m, rfl, h⟩
  | cons x xs ih =>
    intro m l h
    obtain ⟨m1, e1, h1⟩ := L.destroy h
    obtain ⟨m2, e2, h2⟩ := ih h1
    exact ⟨m2, by simp only [destroyAll, e1, bind_ok, e2], h2⟩

theorem perm_set : ∀ (base : List (List α)) (i : Nat) (p q d : List α), base[i]? = some p → p.Perm (d ++ q) →
    base.flatten.Perm (d ++ (base.set i q).flatten)
  | [], i, p, q, d, h, hp => by simp at h
  | x :: xs, 0, p, q, d, h, hp => by
    simp at h; subst h
    simp only [List.set_cons_zero, List.flatten_cons, ← List.append_assoc]
    exact hp.append_right _
  | x :: xs, i + 1, p, q, d, h, hp => by
    have := perm_set xs i p q d (by simpa using h) hp
    simp only [List.set_cons_succ, List.flatten_cons]
    exact (this.append_left x).trans (by
      rw [← List.append_assoc, ← List.append_assoc]; exact List.perm_append_comm.append_right _)

/-- destroying part `d` of page `i` -/
theorem Law.page (L : Law E P) {base : List (List α)} {i : Nat} {p q d : List α} (h : base[i]? = some p) (hp : p.Perm (d ++ q)) {m : M} {vs : List α}
    (g : P m (base.flatten ++ vs)) : ∃ m', destroyAll E m d = .ok m' ∧ P m' ((base.set i q).flatten ++ vs) := by
  have := L.perm ((perm_set base i p q d h hp).append_right vs) g
  rw [List.append_assoc] at this
  exact L.all d this

theorem Law.popOne (L : Law E P) {m : M} {s s' : PS α} {vs : List α} (h : popOne s = .ok s') (g : P m (s.base.flatten ++ vs)) :
    ∃ m', popOneL E m s = .ok (m', s') ∧ P m' (s'.base.flatten ++ vs) := by
  unfold PagedStack.popOne at h
  obtain ⟨p, hp, h⟩ := life_bind_ok h
  rcases nil_or_snoc p with rfl | ⟨l, x, rfl⟩
  · simp at h
  · obtain ⟨m', e', g'⟩ := L.page (d := [x]) (q := l) (page_some hp) List.perm_append_comm g
    simp only [destroyAll] at e'
    obtain ⟨m2, e2, e'⟩ := life_bind_ok e'
    cases e'
    simp only [popOneL, hp, bind_ok, List.getLast?_concat, e2]
    rw [if_neg (by simp)] at h
    dsimp only at h ⊢
    split at h <;> rename_i hc <;> cases h
    · exact ⟨m', by rw [if_pos hc], by simpa [PS.setPage] using g'⟩
    · exact ⟨m', by rw [if_neg hc], by simpa [PS.setPage] using g'⟩

theorem Law.popMany (L : Law E P) (n : Nat) : ∀ {m : M} {s s' : PS α} {vs ws : List α}, popMany s n = .ok (s', ws) → P m (s.base.flatten ++ vs) →
    ∃ m', popManyL E m s n = .ok (m', s', ws) ∧ P m' (s'.base.flatten ++ vs) := by
  induction n with
  | zero => intro m s s' vs ws h g; cases h; exact ⟨m, rfl, g⟩
  | succ n ih =>
    intro m s s' vs ws h g
    unfold PagedStack.popMany at h
    obtain ⟨v, hv, h⟩ := life_bind_ok h
    obtain ⟨s1, h1, h⟩ := life_bind_ok h
    obtain ⟨⟨s2, vs2⟩, h2, h⟩ := life_bind_ok h
    cases h
    obtain ⟨b1, e1, m1⟩ := L.popOne h1 g
    obtain ⟨b2, e2, m2⟩ := ih h2 m1
    exact ⟨b2, by simp only [popManyL, hv, bind_ok, e1, e2], m2⟩

theorem take_drop_perm (p : List α) (n : Nat) : p.Perm (p.drop n ++ p.take n) := by
  conv => lhs; rw [← List.take_append_drop n p]
  exact List.perm_append_comm

theorem Law.discardLoop (L : Law E P) (c count : Nat) : ∀ {m : M} {base base' : List (List α)} {c' : Nat} {vs : List α},
    discardLoop base c count = .ok (base', c') → P m (base.flatten ++ vs) →
    ∃ m', discardLoopL E base m c count = .ok (m', base', c') ∧ P m' (base'.flatten ++ vs) := by
  induction c generalizing count with
  | zero =>
    intro m base base' c' vs h g
    simp only [PagedStack.discardLoop] at h
    simp only [discardLoopL]
    split at h
    · cases h
    · rename_i p hp
      split at h <;> rename_i hc <;> cases h
      · obtain ⟨m', e, g'⟩ := L.page (d := p) (q := []) hp (by simp) g
        exact ⟨m', by simp only [hp, if_pos hc, e, bind_ok], g'⟩
      · obtain ⟨m', e, g'⟩ := L.page hp (take_drop_perm p (p.length - count)) g
        exact ⟨m', by simp only [hp, if_neg hc, e, bind_ok], g'⟩
  | succ c ih =>
    intro m base base' c' vs h g
    simp only [PagedStack.discardLoop] at h
    simp only [discardLoopL]
    split at h
    · cases h
    · rename_i p hp
      split at h <;> rename_i hc
      · obtain ⟨m', e, g'⟩ := L.page (d := p) (q := []) hp (by simp) g
        obtain ⟨m2, e2, g2⟩ := ih _ h g'
        exact ⟨m2, by simp only [hp, if_pos hc, e, bind_ok, e2], g2⟩
      · cases h
        obtain ⟨m', e, g'⟩ := L.page hp (take_drop_perm p (p.length - count)) g
        exact ⟨m', by simp only [hp, if_neg hc, e, bind_ok], g'⟩

theorem Law.discard (L : Law E P) {m : M} {s s' : PS α} {n : Nat} {vs : List α} (h : discard s n = .ok s') (g : P m (s.base.flatten ++ vs)) :
    ∃ m', discardL E m s n = .ok (m', s') ∧ P m' (s'.base.flatten ++ vs) := by
  unfold PagedStack.discard at h
  obtain ⟨⟨base1, c1⟩, h1, h⟩ := life_bind_ok h
  cases h
  obtain ⟨m', e, g'⟩ := L.discardLoop _ _ h1 g
  exact ⟨m', by simp only [discardL, e, bind_ok], g'⟩

theorem Law.clearLoop (L : Law E P) (c : Nat) : ∀ {m : M} {base : List (List α)} {vs : List α}, c < base.length → P m (base.flatten ++ vs) →
    ∃ m', clearLoopL E base m c = .ok (m', clearLoop base c) ∧ P m' ((clearLoop base c).flatten ++ vs) := by
  induction c with
  | zero => intro m base vs h g; exact ⟨m, rfl, g⟩
  | succ c ih =>
    intro m base vs h g
    obtain ⟨m1, e1, g1⟩ := L.page (d := base[c + 1]) (q := []) (List.getElem?_eq_getElem h) (by simp) g
    obtain ⟨m2, e2, g2⟩ := ih (base := base.set (c + 1) []) (by simp; omega) g1
    exact ⟨m2, by simp only [clearLoopL, PagedStack.clearLoop, List.getElem?_eq_getElem h, e1, bind_ok, e2], g2⟩

theorem Law.clear (L : Law E P) {m : M} {s s' : PS α} {vs : List α} (h : clear s = .ok s') (g : P m (s.base.flatten ++ vs)) :
    ∃ m', clearL E m s = .ok (m', s') ∧ P m' (s'.base.flatten ++ vs) := by
  unfold PagedStack.clear at h
  obtain ⟨p, hp, h⟩ := life_bind_ok h
  cases h
  have hlt : s.cur < s.base.length := (List.getElem?_eq_some_iff.1 (page_some hp)).1
  obtain ⟨m', e, g'⟩ := L.clearLoop s.cur hlt g
  exact ⟨m', by simp only [clearL, e, bind_ok], g'⟩

theorem Law.shrink (L : Law E P) {m : M} {s : PS α} {vs : List α} (g : P m (s.base.flatten ++ vs)) :
    ∃ m', shrinkToFitL E m s = .ok (m', shrinkToFit s) ∧ P m' ((shrinkToFit s).base.flatten ++ vs) := by
  unfold shrinkToFitL shrinkToFit
  split
  · exact ⟨m, rfl, g⟩
  · have hp : (s.base.flatten ++ vs).Perm ((s.base.drop (s.cur + 1)).flatten ++ ((s.base.take (s.cur + 1)).flatten ++ vs)) := by
      rw [← List.append_assoc]
      refine List.Perm.append_right vs ?_
      conv => lhs; rw [← List.take_append_drop (s.cur + 1) s.base, List.flatten_append]
      exact List.perm_append_comm
    obtain ⟨m', e, g'⟩ := L.all _ (L.perm hp g)
    exact ⟨m', by simp only [internalShrinkL, e, bind_ok]; rfl, g'⟩

/-- pushing: what the constructor makes is added -/
theorem pushL_of {m m1 : M} {s s' : PS α} {v : V} {x : α} {vs : List α} (L : Law E P) (h : push s x = .ok s') (hm : E.make m v = .ok (m1, x))
    (g : P m1 (x :: (s.base.flatten ++ vs))) : pushL E m s v = .ok (m1, s') ∧ P m1 (s'.base.flatten ++ vs) := by
  unfold push at h
  obtain ⟨s1, h1, h⟩ := life_bind_ok h
  unfold pushBack at h
  obtain ⟨p, hp, h⟩ := life_bind_ok h
  have hfl : s1.base.flatten = s.base.flatten := by
    unfold advance at h1
    obtain ⟨p, -, h1⟩ := life_bind_ok h1
    have hg : (growBase s).base.flatten = s.base.flatten := by simp [growBase]
    split at h1
    · split at h1 <;> cases h1
      · exact hg
      · rfl
    · cases h1; rfl
  refine ⟨by simp only [pushL, h1, bind_ok, hp, hm]; cases h; rfl, ?_⟩
  cases h
  refine L.perm ?_ g
  rw [← hfl, ← List.cons_append]
  refine List.Perm.append_right vs ?_
  have : ∀ (base : List (List α)) (i : Nat) (p : List α), base[i]? = some p → (x :: base.flatten).Perm (base.set i (p ++ [x])).flatten := by
    intro base
    induction base with
    | nil => intro i p h; simp at h
    | cons q qs ih =>
      intro i p h
      cases i with
      | zero =>
        simp at h; subst h
        simp only [List.flatten_cons, List.set_cons_zero, List.append_assoc, List.singleton_append]
        exact List.perm_middle.symm
      | succ i =>
        simp only [List.flatten_cons, List.set_cons_succ]
        exact List.perm_middle.symm.trans ((ih i p (by simpa using h)).append_left q)
  exact this _ _ _ (page_some hp)

end Falcon.PagedStack
