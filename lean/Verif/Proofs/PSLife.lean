import Verif.Spec.StackLife
import Verif.Proofs.PagedStack
/- C146: counting constructor and destructor calls. -/
namespace Falcon.PagedStack
variable {V : Type}

/-- numbers of the objects in the pages -/
def ids (base : List (List (Obj V))) : List Nat := base.flatten.map Obj.id

theorem count_set : ∀ (base : List (List (Obj V))) (i : Nat) (p q : List (Obj V)), base[i]? = some p → ∀ a,
    (ids (base.set i q)).count a + (p.map Obj.id).count a = (ids base).count a + (q.map Obj.id).count a
  | [], i, p, q, h, a => by simp at h
  | x :: xs, 0, p, q, h, a => by
    simp at h; subst h
    simp [ids, List.count_append]; omega
  | x :: xs, i + 1, p, q, h, a => by
    have := count_set xs i p q (by simpa using h) a
    simp [ids, List.count_append] at this ⊢; omega

theorem destroyAll_objects (b : Books) (l : List (Obj V)) :
    destroyAll (objects V) b l = .ok { b with dead := b.dead ++ l.map Obj.id } := by
  induction l generalizing b with
  | nil => simp [destroyAll]
  | cons x xs ih => simp [destroyAll, objects, bind_ok] at ih ⊢; rw [ih]; simp

/-- destructor calls plus held objects with number `a` -/
def cnt (b : Books) (base : List (List (Obj V))) (a : Nat) : Nat := b.dead.count a + (ids base).count a

/-- Every object made is destroyed or held, once. -/
def Once (b : Books) (base : List (List (Obj V))) : Prop := ∀ a, cnt b base a = if a < b.made then 1 else 0

/-- `made` is unchanged and so is every count. -/
structure Same (b : Books) (base : List (List (Obj V))) (b' : Books) (base' : List (List (Obj V))) : Prop where
  made : b'.made = b.made
  cnt : ∀ a, cnt b' base' a = cnt b base a

theorem Same.refl (b : Books) (base : List (List (Obj V))) : Same b base b base := ⟨rfl, fun _ => rfl⟩
theorem Same.trans {b b' b'' : Books} {base base' base'' : List (List (Obj V))} (h : Same b base b' base') (h' : Same b' base' b'' base'') :
    Same b base b'' base'' := ⟨h'.made.trans h.made, fun a => (h'.cnt a).trans (h.cnt a)⟩
theorem Same.once {b b' : Books} {base base' : List (List (Obj V))} (h : Same b base b' base') (g : Once b base) : Once b' base' := by
  intro a; rw [h.cnt, h.made]; exact g a

/-- part `d` of page `i` destroyed, part `k` kept -/
theorem same_set (b : Books) (base : List (List (Obj V))) (i : Nat) (p d k : List (Obj V)) (h : base[i]? = some p)
    (hp : ∀ a, (p.map Obj.id).count a = (k.map Obj.id).count a + (d.map Obj.id).count a) :
    Same b base { b with dead := b.dead ++ d.map Obj.id } (base.set i k) := by
  refine ⟨rfl, fun a => ?_⟩
  have := count_set base i p k h a
  have := hp a
  simp only [cnt, List.count_append]; omega

theorem count_split (p : List (Obj V)) (n a : Nat) :
    (p.map Obj.id).count a = ((p.take n).map Obj.id).count a + ((p.drop n).map Obj.id).count a := by
  rw [← List.count_append, ← List.map_append, List.take_append_drop]

theorem discardLoop_same (c count : Nat) : ∀ (b : Books) (base : List (List (Obj V))) (b' : Books) (base' : List (List (Obj V))) (c' : Nat),
    discardLoopL (objects V) base b c count = .ok (b', base', c') → Same b base b' base' := by
  induction c generalizing count with
  | zero =>
    intro b base b' base' c' h
    simp only [discardLoopL] at h
    split at h
    · cases h
    · rename_i p hp
      split at h <;> simp only [destroyAll_objects, bind_ok] at h <;> cases h
      · exact same_set b base 0 p p [] hp (by simp)
      · exact same_set b base 0 p _ _ hp (fun a => count_split _ _ _)
  | succ c ih =>
    intro b base b' base' c' h
    simp only [discardLoopL] at h
    split at h
    · cases h
    · rename_i p hp
      split at h <;> simp only [destroyAll_objects, bind_ok] at h
      · exact (same_set b base _ p p [] hp (by simp)).trans (ih _ _ _ _ _ _ h)
      · cases h; exact same_set b base _ p _ _ hp (fun a => count_split _ _ _)

theorem clearLoop_same (c : Nat) : ∀ (b : Books) (base : List (List (Obj V))) (b' : Books) (base' : List (List (Obj V))),
    clearLoopL (objects V) base b c = .ok (b', base') → Same b base b' base' := by
  induction c with
  | zero => intro b base b' base' h; cases h; exact .refl _ _
  | succ c ih =>
    intro b base b' base' h
    simp only [clearLoopL] at h
    split at h
    · cases h
    · rename_i p hp
      simp only [destroyAll_objects, bind_ok] at h
      exact (same_set b base _ p p [] hp (by simp)).trans (ih _ _ _ _ h)

theorem discardToLoop_same (i c : Nat) : ∀ (b : Books) (base : List (List (Obj V))) (b' : Books) (base' : List (List (Obj V))),
    discardToLoopL (objects V) base i b c = .ok (b', base') → Same b base b' base' := by
  induction c with
  | zero =>
    intro b base b' base' h
    simp only [discardToLoopL] at h
    split at h <;> cases h; exact .refl _ _
  | succ c ih =>
    intro b base b' base' h
    simp only [discardToLoopL] at h
    split at h
    · cases h; exact .refl _ _
    · split at h
      · cases h
      · rename_i p hp
        simp only [destroyAll_objects, bind_ok] at h
        exact (same_set b base _ p p [] hp (by simp)).trans (ih _ _ _ _ h)

theorem page_some {α : Type} {s : PS α} {i : Nat} {p : List α} (h : s.page i = .ok p) : s.base[i]? = some p := by
  unfold PS.page at h; split at h <;> cases h; assumption

theorem life_bind_ok {β γ : Type} {x : Res β} {f : β → Res γ} {c : γ} (h : (x >>= f) = .ok c) :
    ∃ y, x = .ok y ∧ f y = .ok c := by
  cases x with
  | error e => cases h
  | ok y => exact ⟨y, rfl, h⟩

theorem internalDiscard_same {b : Books} {s : PS (Obj V)} {i : Nat} {o : Int} {b' : Books} {s' : PS (Obj V)}
    (h : internalDiscardL (objects V) b s i o = .ok (b', s')) : Same b s.base b' s'.base := by
  unfold internalDiscardL at h
  obtain ⟨⟨b1, base1⟩, h1, h⟩ := life_bind_ok h
  have g := discardToLoop_same _ _ _ _ _ _ h1
  dsimp only at h
  obtain ⟨p, hp, h⟩ := life_bind_ok h
  have hp' := page_some hp
  dsimp only at hp'
  split at h
  · split at h
    · cases h; exact g
    · rename_i h0 h1
      simp only [destroyAll_objects, bind_ok] at h; cases h
      have hi : i = 0 := by omega
      subst hi
      exact g.trans (same_set b1 base1 0 p p [] hp' (by simp))
  · split at h
    · cases h
    · simp only [destroyAll_objects, bind_ok] at h; cases h
      exact g.trans (same_set b1 base1 i p _ _ hp' (fun a => count_split _ _ _))

theorem last_snoc {α : Type} {p : List α} {x : α} (h : p.getLast? = some x) : p = p.dropLast ++ [x] := by
  rcases nil_or_snoc p with rfl | ⟨l, y, rfl⟩
  · simp at h
  · simp at h; subst h; simp

theorem popOne_same {b : Books} {s : PS (Obj V)} {b' : Books} {s' : PS (Obj V)}
    (h : popOneL (objects V) b s = .ok (b', s')) : Same b s.base b' s'.base := by
  unfold popOneL at h
  obtain ⟨p, hp, h⟩ := life_bind_ok h
  have hp' := page_some hp
  split at h
  · cases h
  · rename_i x hx
    simp only [objects, bind_ok] at h
    have hs : ∀ a, (p.map Obj.id).count a = (p.dropLast.map Obj.id).count a + ([x].map Obj.id).count a := by
      intro a
      conv => lhs; rw [last_snoc hx]
      rw [List.map_append, List.count_append]
    have := same_set b s.base s.cur p [x] p.dropLast hp' hs
    split at h <;> cases h <;> exact this

theorem popMany_same (n : Nat) : ∀ {b : Books} {s : PS (Obj V)} {b' : Books} {s' : PS (Obj V)} {vs},
    popManyL (objects V) b s n = .ok (b', s', vs) → Same b s.base b' s'.base := by
  induction n with
  | zero => intro b s b' s' vs h; cases h; exact .refl _ _
  | succ n ih =>
    intro b s b' s' vs h
    unfold popManyL at h
    obtain ⟨v, -, h⟩ := life_bind_ok h
    obtain ⟨⟨b1, s1⟩, h1, h⟩ := life_bind_ok h
    obtain ⟨⟨b2, s2, vs2⟩, h2, h⟩ := life_bind_ok h
    cases h
    exact (popOne_same h1).trans (ih h2)

theorem setTop_same {b : Books} {s : PS (Obj V)} {v : V} {b' : Books} {s' : PS (Obj V)}
    (h : setTopL (objects V) b s v = .ok (b', s')) : Same b s.base b' s'.base := by
  unfold setTopL at h
  obtain ⟨p, hp, h⟩ := life_bind_ok h
  have hp' := page_some hp
  split at h
  · cases h
  · rename_i x hx
    simp only [objects, bind_ok] at h
    have := same_set b s.base s.cur p [] (p.dropLast ++ [{ x with val := v }]) hp' (by
      intro a
      conv => lhs; rw [last_snoc hx]
      simp [List.map_append, List.count_append])
    cases h; simpa [PS.setPage] using this

theorem popReverse_same {b : Books} {s : PS (Obj V)} {n : Nat} {b' : Books} {s' : PS (Obj V)} {vs}
    (h : popReverseL (objects V) b s n = .ok (b', s', vs)) : Same b s.base b' s'.base := by
  unfold popReverseL at h
  obtain ⟨p, -, h⟩ := life_bind_ok h
  obtain ⟨vs2, -, h⟩ := life_bind_ok h
  obtain ⟨⟨b2, s2⟩, h2, h⟩ := life_bind_ok h
  cases h
  exact internalDiscard_same h2

theorem internalShrink_same {b : Books} {s : PS (Obj V)} {b' : Books} {s' : PS (Obj V)}
    (h : internalShrinkL (objects V) b s = .ok (b', s')) : Same b s.base b' s'.base := by
  unfold internalShrinkL at h
  simp only [destroyAll_objects, bind_ok] at h; cases h
  refine ⟨rfl, fun a => ?_⟩
  have : ids s.base = ids (s.base.take (s.cur + 1)) ++ (s.base.drop (s.cur + 1)).flatten.map Obj.id := by
    simp only [ids, ← List.map_append, ← List.flatten_append, List.take_append_drop]
  simp only [cnt, List.count_append, this]; omega

theorem shrink_same {b : Books} {s : PS (Obj V)} {b' : Books} {s' : PS (Obj V)}
    (h : shrinkToFitL (objects V) b s = .ok (b', s')) : Same b s.base b' s'.base := by
  unfold shrinkToFitL at h
  split at h
  · cases h; exact .refl _ _
  · exact internalShrink_same h

theorem syncDrop_same {b : Books} {s : PS (Obj V)} {b' : Books} {s' : PS (Obj V)}
    (h : syncDropL (objects V) b s = .ok (b', s')) : Same b s.base b' s'.base := by
  unfold syncDropL at h
  dsimp only at h
  split at h
  · exact internalShrink_same (s := { s with syncCount := s.syncCount - 1, shrinkReq := false }) h
  · cases h; exact .refl _ _

theorem advance_ids {s s' : PS (Obj V)} (h : advance s = .ok s') : ids s'.base = ids s.base := by
  unfold advance at h
  obtain ⟨p, -, h⟩ := life_bind_ok h
  have hg : ids (growBase s).base = ids s.base := by
    have : ∀ k, (List.replicate k ([] : List (Obj V))).flatten = [] := by intro k; simp
    simp [ids, growBase, this]
  split at h
  · split at h <;> cases h
    · exact hg
    · rfl
  · cases h; rfl

theorem push_once {b : Books} {s : PS (Obj V)} {v : V} {b' : Books} {s' : PS (Obj V)}
    (h : pushL (objects V) b s v = .ok (b', s')) (g : Once b s.base) : Once b' s'.base := by
  unfold pushL at h
  obtain ⟨s1, h1, h⟩ := life_bind_ok h
  obtain ⟨p, hp, h⟩ := life_bind_ok h
  simp only [objects, bind_ok] at h
  cases h
  intro a
  have h3 := count_set s1.base s1.cur p (p ++ [⟨b.made, v⟩]) (page_some hp) a
  have h4 := g a
  have h5 := advance_ids h1
  simp only [cnt, PS.setPage, List.map_append, List.count_append, List.map_cons, List.map_nil, List.count_cons, List.count_nil, h5, beq_iff_eq] at h3 h4 ⊢
  split at h4 <;> split at h3 <;> split <;> omega

theorem pushMany_once (vs : List V) : ∀ {v : V} {b : Books} {s : PS (Obj V)} {b' : Books} {s' : PS (Obj V)},
    pushManyL (objects V) b s v vs = .ok (b', s') → Once b s.base → Once b' s'.base := by
  induction vs with
  | nil => intro v b s b' s' h g; exact push_once h g
  | cons w ws ih =>
    intro v b s b' s' h g
    unfold pushManyL at h
    obtain ⟨⟨b1, s1⟩, h1, h⟩ := life_bind_ok h
    exact ih h (push_once h1 g)

theorem lifeStep_once {b : Books} {s : PS (Obj V)} (o : LOp V) {b' : Books} {s' : PS (Obj V)} {vs}
    (h : lifeStep (objects V) b s o = .ok (b', s', vs)) (g : Once b s.base) : Once b' s'.base := by
  have key : ∀ {x : Res (Books × PS (Obj V))}, (x >>= fun (p : Books × PS (Obj V)) => (.ok (p.1, p.2, []) : Res (Books × PS (Obj V) × List (Obj V)))) = .ok (b', s', vs) → x = .ok (b', s') := by
    intro x hx
    obtain ⟨⟨b1, s1⟩, h1, hx⟩ := life_bind_ok hx
    cases hx; exact h1
  cases o with
  | push v => exact push_once (key h) g
  | pushMany v ws => exact pushMany_once ws (key h) g
  | pop => exact (popOne_same (key h)).once g
  | popMany n => exact (popMany_same n h).once g
  | setTop v => exact (setTop_same (key h)).once g
  | discard n =>
    have h := key h
    unfold discardL at h
    obtain ⟨⟨b1, base1, c1⟩, h1, h⟩ := life_bind_ok h
    cases h
    exact (discardLoop_same _ _ _ _ _ _ _ h1).once g
  | discardAt it => exact (internalDiscard_same (key h)).once g
  | popReverse n => exact (popReverse_same h).once g
  | clear =>
    have h := key h
    unfold clearL at h
    obtain ⟨⟨b1, base1⟩, h1, h⟩ := life_bind_ok h
    cases h
    exact (clearLoop_same _ _ _ _ _ h1).once g
  | shrink => exact (shrink_same (key h)).once g
  | syncNew => cases h; exact g
  | syncDrop => exact (syncDrop_same (key h)).once g

theorem lifeRun_once (os : List (LOp V)) : ∀ {b : Books} {s : PS (Obj V)} {b' : Books} {s' : PS (Obj V)},
    lifeRun (objects V) b s os = .ok (b', s') → Once b s.base → Once b' s'.base := by
  induction os with
  | nil => intro b s b' s' h g; cases h; exact g
  | cons o os ih =>
    intro b s b' s' h g
    unfold lifeRun at h
    obtain ⟨⟨b1, s1, vs⟩, h1, h⟩ := life_bind_ok h
    exact ih h (lifeStep_once o h1 g)

theorem once_perm {b : Books} {base : List (List (Obj V))} (g : Once b base) : (b.dead ++ ids base).Perm (List.range b.made) := by
  rw [List.perm_iff_count]
  intro a
  have := g a
  rw [List.count_append, show _ + _ = cnt b base a from rfl, this]
  by_cases ha : a < b.made
  · rw [if_pos ha, List.Nodup.count List.nodup_range, if_pos (List.mem_range.2 ha)]
  · rw [if_neg ha, List.count_eq_zero_of_not_mem (by simpa using ha)]

theorem once_init {ps al : Nat} : Once {} (init ps al : PS (Obj V)).base := by
  intro a
  have : ids (init ps al : PS (Obj V)).base = [] := by simp [ids, init, growBase]
  simp [cnt, this]

end Falcon.PagedStack
