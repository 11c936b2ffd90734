import Verif.Proofs.PSLife
import Verif.Proofs.PSMore
/- C146: the calls with destructors do to the stack what the calls without do; objects held and contents. -/
namespace Falcon.PagedStack
variable {V : Type}

theorem pushL_proj {b : Books} {s s' : PS (Obj V)} {v : V} (h : push s ⟨b.made, v⟩ = .ok s') :
    pushL (objects V) b s v = .ok ({ b with made := b.made + 1 }, s') := by
  unfold push at h
  obtain ⟨s1, h1, h⟩ := life_bind_ok h
  unfold pushBack at h
  obtain ⟨p, hp, h⟩ := life_bind_ok h
  simp only [pushL, h1, bind_ok, hp, objects]
  cases h; rfl

theorem popOneL_proj {b : Books} {s s' : PS (Obj V)} (h : popOne s = .ok s') :
    ∃ b', popOneL (objects V) b s = .ok (b', s') ∧ b'.made = b.made := by
  unfold popOne at h
  obtain ⟨p, hp, h⟩ := life_bind_ok h
  rcases nil_or_snoc p with rfl | ⟨l, x, rfl⟩
  · simp at h
  · simp only [popOneL, hp, bind_ok, objects, List.getLast?_concat]
    rw [if_neg (by simp)] at h
    dsimp only at h ⊢
    split at h <;> rename_i hc <;> cases h
    · exact ⟨{ b with dead := b.dead ++ [x.id] }, by rw [if_pos hc], rfl⟩
    · exact ⟨{ b with dead := b.dead ++ [x.id] }, by rw [if_neg hc], rfl⟩

theorem popManyL_proj (n : Nat) : ∀ {b : Books} {s s' : PS (Obj V)} {vs}, popMany s n = .ok (s', vs) →
    ∃ b', popManyL (objects V) b s n = .ok (b', s', vs) ∧ b'.made = b.made := by
  induction n with
  | zero => intro b s s' vs h; cases h; exact ⟨b, rfl, rfl⟩
  | succ n ih =>
    intro b s s' vs h
    unfold popMany at h
    obtain ⟨v, hv, h⟩ := life_bind_ok h
    obtain ⟨s1, h1, h⟩ := life_bind_ok h
    obtain ⟨⟨s2, vs2⟩, h2, h⟩ := life_bind_ok h
    cases h
    obtain ⟨b1, e1, m1⟩ := popOneL_proj (b := b) h1
    obtain ⟨b2, e2, m2⟩ := ih (b := b1) h2
    exact ⟨b2, by simp only [popManyL, hv, bind_ok, e1, e2], m2.trans m1⟩

theorem setTopL_proj {b : Books} {s s' : PS (Obj V)} {v : V} {x : Obj V} (ht : top s = .ok x) (h : setTop s { x with val := v } = .ok s') :
    setTopL (objects V) b s v = .ok (b, s') := by
  unfold setTop at h
  obtain ⟨p, hp, h⟩ := life_bind_ok h
  rcases nil_or_snoc p with rfl | ⟨l, y, rfl⟩
  · simp at h
  · simp only [top, hp, bind_ok, List.getLast?_concat] at ht
    cases ht
    simp only [setTopL, hp, bind_ok, objects, List.getLast?_concat]
    rw [if_neg (by simp)] at h
    cases h; rfl

theorem discardLoopL_proj (c count : Nat) : ∀ {b : Books} {base base' : List (List (Obj V))} {c' : Nat},
    discardLoop base c count = .ok (base', c') → ∃ b', discardLoopL (objects V) base b c count = .ok (b', base', c') ∧ b'.made = b.made := by
  induction c generalizing count with
  | zero =>
    intro b base base' c' h
    simp only [discardLoop] at h
    simp only [discardLoopL]
    split at h
    · cases h
    · rename_i p hp
      split at h <;> rename_i hc <;> cases h
      · refine ⟨{ b with dead := b.dead ++ p.map Obj.id }, ?_, rfl⟩
        simp only [hp, destroyAll_objects, bind_ok, if_pos hc]
      · refine ⟨{ b with dead := b.dead ++ (p.drop (p.length - count)).map Obj.id }, ?_, rfl⟩
        simp only [hp, destroyAll_objects, bind_ok, if_neg hc]
  | succ c ih =>
    intro b base base' c' h
    simp only [discardLoop] at h
    simp only [discardLoopL]
    split at h
    · cases h
    · rename_i p hp
      split at h <;> rename_i hc
      · obtain ⟨b2, e2, m2⟩ := ih _ (b := { b with dead := b.dead ++ p.map Obj.id }) h
        exact ⟨b2, by simp only [hp, destroyAll_objects, bind_ok, if_pos hc, e2], m2⟩
      · cases h
        refine ⟨{ b with dead := b.dead ++ (p.drop (p.length - count)).map Obj.id }, ?_, rfl⟩
        simp only [hp, destroyAll_objects, bind_ok, if_neg hc]

theorem discardL_proj {b : Books} {s s' : PS (Obj V)} {n : Nat} (h : discard s n = .ok s') :
    ∃ b', discardL (objects V) b s n = .ok (b', s') ∧ b'.made = b.made := by
  unfold discard at h
  obtain ⟨⟨base1, c1⟩, h1, h⟩ := life_bind_ok h
  cases h
  obtain ⟨b', e, m⟩ := discardLoopL_proj _ _ (b := b) h1
  exact ⟨b', by simp only [discardL, e, bind_ok], m⟩

theorem clearLoopL_proj (c : Nat) : ∀ {b : Books} {base : List (List (Obj V))}, c < base.length →
    ∃ b', clearLoopL (objects V) base b c = .ok (b', clearLoop base c) ∧ b'.made = b.made := by
  induction c with
  | zero => intro b base h; exact ⟨b, rfl, rfl⟩
  | succ c ih =>
    intro b base h
    obtain ⟨b', e, m⟩ := ih (b := { b with dead := b.dead ++ (base[c + 1]).map Obj.id }) (base := base.set (c + 1) []) (by simp; omega)
    refine ⟨b', ?_, m⟩
    simp only [clearLoopL, clearLoop, List.getElem?_eq_getElem h, destroyAll_objects, bind_ok, e]

theorem clearL_proj {b : Books} {s s' : PS (Obj V)} (h : clear s = .ok s') :
    ∃ b', clearL (objects V) b s = .ok (b', s') ∧ b'.made = b.made := by
  unfold clear at h
  obtain ⟨p, hp, h⟩ := life_bind_ok h
  cases h
  have hlt : s.cur < s.base.length := by
    have := page_some hp
    exact (List.getElem?_eq_some_iff.1 this).1
  obtain ⟨b', e, m⟩ := clearLoopL_proj s.cur (b := b) hlt
  exact ⟨b', by simp only [clearL, e, bind_ok], m⟩

theorem discardToLoopL_proj (i c : Nat) : ∀ {b : Books} {base base' : List (List (Obj V))}, c < base.length →
    discardToLoop base i c = .ok base' → ∃ b', discardToLoopL (objects V) base i b c = .ok (b', base') ∧ b'.made = b.made := by
  induction c with
  | zero =>
    intro b base base' _ h
    simp only [discardToLoop] at h
    simp only [discardToLoopL]
    split at h <;> rename_i hc <;> cases h
    exact ⟨b, by rw [if_pos hc], rfl⟩
  | succ c ih =>
    intro b base base' hl h
    simp only [discardToLoop] at h
    simp only [discardToLoopL]
    split at h <;> rename_i hc
    · cases h; exact ⟨b, by rw [if_pos hc], rfl⟩
    · obtain ⟨b', e, m⟩ := ih (b := { b with dead := b.dead ++ (base[c + 1]).map Obj.id }) (base := base.set (c + 1) []) (by simp; omega) h
      exact ⟨b', by simp only [if_neg hc, List.getElem?_eq_getElem hl, destroyAll_objects, bind_ok, e], m⟩

theorem internalDiscardL_proj {b : Books} {s s' : PS (Obj V)} {i : Nat} {o : Int} (hl : s.cur < s.base.length)
    (h : internalDiscard s i o = .ok s') : ∃ b', internalDiscardL (objects V) b s i o = .ok (b', s') ∧ b'.made = b.made := by
  unfold internalDiscard at h
  obtain ⟨base1, h1, h⟩ := life_bind_ok h
  obtain ⟨b1, e1, m1⟩ := discardToLoopL_proj _ _ (b := b) hl h1
  dsimp only at h
  obtain ⟨p, hp, h⟩ := life_bind_ok h
  simp only [internalDiscardL, e1, bind_ok, hp]
  split at h <;> rename_i hc
  · split at h <;> rename_i hc2
    · cases h; exact ⟨b1, by rw [if_pos hc, if_pos hc2], m1⟩
    · cases h; exact ⟨{ b1 with dead := b1.dead ++ p.map Obj.id }, by rw [if_pos hc, if_neg hc2, destroyAll_objects, bind_ok], m1⟩
  · split at h <;> rename_i hc2
    · cases h
    · cases h; exact ⟨{ b1 with dead := b1.dead ++ (p.drop o.toNat).map Obj.id }, by rw [if_neg hc, if_neg hc2, destroyAll_objects, bind_ok], m1⟩

theorem popReverseL_proj {b : Books} {s s' : PS (Obj V)} {n : Nat} {vs} (hl : s.cur < s.base.length)
    (h : popReverse s n = .ok (s', vs)) : ∃ b', popReverseL (objects V) b s n = .ok (b', s', vs) ∧ b'.made = b.made := by
  unfold popReverse at h
  obtain ⟨pos, hp, h⟩ := life_bind_ok h
  obtain ⟨ws, hd, h⟩ := life_bind_ok h
  obtain ⟨s1, h1, h⟩ := life_bind_ok h
  cases h
  obtain ⟨b', e, m⟩ := internalDiscardL_proj (b := b) hl h1
  exact ⟨b', by simp only [popReverseL, hp, bind_ok, hd, e], m⟩

theorem shrinkL_proj (b : Books) (s : PS (Obj V)) : ∃ b', shrinkToFitL (objects V) b s = .ok (b', shrinkToFit s) ∧ b'.made = b.made := by
  unfold shrinkToFitL shrinkToFit
  split
  · exact ⟨b, rfl, rfl⟩
  · exact ⟨{ b with dead := b.dead ++ (s.base.drop (s.cur + 1)).flatten.map Obj.id }, by simp only [internalShrinkL, destroyAll_objects, bind_ok]; rfl, rfl⟩

theorem syncDropL_proj (b : Books) (s : PS (Obj V)) : ∃ b', syncDropL (objects V) b s = .ok (b', syncDrop s) ∧ b'.made = b.made := by
  unfold syncDropL syncDrop
  dsimp only
  split
  · exact ⟨{ b with dead := b.dead ++ (s.base.drop (s.cur + 1)).flatten.map Obj.id }, by simp only [internalShrinkL, destroyAll_objects, bind_ok]; rfl, rfl⟩
  · exact ⟨b, rfl, rfl⟩

/-- the objects a stack holds, top first -/
def held {α : Type} (s : PS α) : List α := s.base.flatten.reverse

theorem held_mk {α : Type} {ps al : Nat} {sc : Int} {sr : Bool} {pre : List (List α)} {cp : List α} {rest : List (List α)} :
    held (mkS ps al pre cp rest sc sr) = (cont pre cp ++ rest.flatten).reverse := by
  simp [held, mkS, cont]

theorem held_inv {α : Type} {ps al : Nat} {s : PS α} (h : Inv ps al s) : held s = contents s := by
  obtain ⟨pre, cp, k, n, sr, rfl, g⟩ := h
  rw [held_mk, contents_mk]; simp

theorem alive_iff {b : Books} {s : PS (Obj V)} (g : Once b s.base) (i : Nat) : b.Alive i ↔ i ∈ (held s).map Obj.id := by
  have h := g i
  have hm : i ∈ (held s).map Obj.id ↔ 0 < (ids s.base).count i := by
    rw [List.count_pos_iff, ids, held, List.map_reverse, List.mem_reverse]
  have hd : i ∈ b.dead ↔ 0 < b.dead.count i := List.count_pos_iff.symm
  unfold cnt at h
  unfold Books.Alive
  rw [hm, hd]
  split at h <;> omega

/-- what a stale page holds -/
theorem internalDiscard_held {α : Type} {ps al : Nat} {sc : Int} {sr : Bool} (h0 : 0 < ps) {pre : List (List α)} {cp : List α} {k : Nat}
    (g : Good ps pre cp) (i : Nat) (hi : i < (cont pre cp).length) (hc : ¬ cleanRemainder ps i) :
    ∃ s', internalDiscard (mkS ps al pre cp (List.replicate k []) sc sr) (i / ps) ((i % ps : Nat) : Int) = .ok s' ∧
      s'.base.flatten = (cont pre cp).take (i + ps) := by
  obtain ⟨p, hp, hlt, hle, -, -⟩ := page_pos (al := al) (rest := List.replicate k []) (sc := sc) (sr := sr) g h0 i hi
  obtain ⟨pre1, q, tl, e1, l1, g1, c1, i1, f1⟩ :=
    discardToLoop_spec h0 (i / ps) pre.length pre cp (List.replicate k []) rfl hle g
  have hpq : p = q := by
    simp only [PS.page, mkS_base, i1] at hp; injection hp with hp; exact hp.symm
  subst hpq
  have hz : i % ps = 0 := Classical.byContradiction fun h => hc (Or.inr h)
  have hi0 : i ≠ 0 := fun h => hc (Or.inl h)
  have hdm := Nat.div_add_mod i ps
  have hd : i / ps ≠ 0 := by
    intro h; rw [h, hz] at hdm; simp at hdm; omega
  have hpage : (mkS ps al pre1 p (List.replicate (pre.length - i / ps) [] ++ List.replicate k []) sc sr).page (i / ps)
      = .ok p := by rw [← l1]; exact mkS_page
  have es : ({ mkS ps al pre cp (List.replicate k []) sc sr with
      base := pre1 ++ p :: (List.replicate (pre.length - i / ps) [] ++ List.replicate k []), cur := i / ps } : PS α)
      = mkS ps al pre1 p (List.replicate (pre.length - i / ps) [] ++ List.replicate k []) sc sr := by
    simp [mkS, l1]
  simp only [internalDiscard, mkS_base, mkS_cur, e1, bind_ok]
  rw [es, hpage]
  simp only [bind_ok]
  rw [if_pos (by omega), if_pos hd]
  refine ⟨_, rfl, ?_⟩
  have hfl : (mkS ps al pre1 p (List.replicate (pre.length - i / ps) [] ++ List.replicate k []) sc sr).base.flatten = cont pre1 p := by
    simp [mkS, cont]
  refine Eq.trans hfl ?_
  rw [c1]
  have hlen : (cont pre1 p).length = i + p.length := by rw [g1.len, l1, Nat.mul_comm]; omega
  have hple : p.length ≤ ps := g1.le
  by_cases hlt2 : i / ps < pre.length
  · have := f1 hlt2
    rw [List.take_append_of_le_length (by omega), List.take_of_length_le (by omega)]
  · have hpe : i / ps = pre.length := by omega
    have hpc : p = cp := by
      rw [hpe] at i1; simpa using i1.symm
    have htl : tl = [] := by
      have h1 := congrArg List.length c1
      rw [List.length_append, hlen, g.len, ← hpe, Nat.mul_comm, hpc] at h1
      exact List.length_eq_zero_iff.1 (by omega)
    subst htl
    rw [List.append_nil, List.take_of_length_le (by omega)]

end Falcon.PagedStack
