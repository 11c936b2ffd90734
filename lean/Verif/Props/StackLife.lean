import Verif.Proofs.PSLife2
import Verif.Props.StackIter
/- C146: the life of the elements of a PagedStack. -/
namespace Falcon.PagedStack
variable {V : Type}

/-- C146 (exactly once): after any calls that return, including clear, pop_reverse and discard(iterator),
every element object ever constructed is either destroyed, once, or still in the stack, once; and the
destructor of the stack destroys the rest: nothing is destroyed twice, nothing leaks. -/
theorem C146_exactly_once (ps al : Nat) (_h0 : 0 < ps) (_ha : 0 < al) (ops : List (LOp V)) (b : Books) (s : PS (Obj V))
    (h : lifeRun (objects V) {} (init ps al) ops = .ok (b, s)) :
    (b.dead ++ s.base.flatten.map Obj.id).Perm (List.range b.made) ∧
    ∃ b', destructL (objects V) b s = .ok b' ∧ b'.made = b.made ∧ b'.dead.Perm (List.range b.made) := by
  have g := once_perm (lifeRun_once ops h once_init)
  refine ⟨g, { b with dead := b.dead ++ s.base.flatten.map Obj.id }, ?_, rfl, g⟩
  exact destroyAll_objects b _

/-- simulation: stack with destructors and ideal stack of objects -/
def RI (ps al : Nat) (b : Books) (s : PS (Obj V)) (t : Ideal V) : Prop :=
  ∃ u : StackSpec.St (Obj V), R ps al s u ∧ u.items = t.items ∧ u.iters = t.iters ∧ b.made = t.made ∧ Once b s.base

theorem RI_init {ps al : Nat} (ha : 0 < al) : RI ps al {} (init ps al : PS (Obj V)) {} :=
  ⟨_, R_init ha, rfl, rfl, rfl, once_init⟩

theorem RI_push {ps al : Nat} (h0 : 0 < ps) (ha : 0 < al) {b : Books} {s : PS (Obj V)} {t : Ideal V} (h : RI ps al b s t) (v : V) :
    ∃ b' s', pushL (objects V) b s v = .ok (b', s') ∧ RI ps al b' s' (t.push v) := by
  obtain ⟨u, r, hi, hn, hm, g⟩ := h
  obtain ⟨s', e, r'⟩ := R_push h0 ha r ⟨b.made, v⟩
  have e' := pushL_proj e
  refine ⟨_, s', e', _, r', ?_, hn, ?_, push_once e' g⟩
  · simp [StackSpec.push, Ideal.push, hi, hm]
  · simp [Ideal.push, hm]

theorem RI_pushMany {ps al : Nat} (h0 : 0 < ps) (ha : 0 < al) (vs : List V) : ∀ {b : Books} {s : PS (Obj V)} {t : Ideal V} (v : V), RI ps al b s t →
    ∃ b' s', pushManyL (objects V) b s v vs = .ok (b', s') ∧ RI ps al b' s' ((v :: vs).foldl Ideal.push t) := by
  induction vs with
  | nil => intro b s t v h; exact RI_push h0 ha h v
  | cons w ws ih =>
    intro b s t v h
    obtain ⟨b1, s1, e1, h1⟩ := RI_push h0 ha h v
    obtain ⟨b2, s2, e2, h2⟩ := ih w h1
    exact ⟨b2, s2, by simp only [pushManyL, e1, bind_ok, e2], h2⟩

theorem cur_lt_of_R {α : Type} {ps al : Nat} {s : PS α} {u : StackSpec.St α} (r : R ps al s u) : s.cur < s.base.length := by
  obtain ⟨pre, cp, k, rfl, -⟩ := r
  simp [mkS]

theorem RI_step {ps al : Nat} (h0 : 0 < ps) (ha : 0 < al) {b : Books} {s : PS (Obj V)} {t t' : Ideal V} (h : RI ps al b s t) (o : LOp V)
    (ht : t.step ps o = some t') : ∃ b' s' vs, lifeStep (objects V) b s o = .ok (b', s', vs) ∧ RI ps al b' s' t' := by
  have fin : ∀ {u' : StackSpec.St (Obj V)} {b' : Books} {s' : PS (Obj V)} {vs}, lifeStep (objects V) b s o = .ok (b', s', vs) → R ps al s' u' →
      u'.items = t'.items → u'.iters = t'.iters → b'.made = t'.made → ∃ b' s' vs, lifeStep (objects V) b s o = .ok (b', s', vs) ∧ RI ps al b' s' t' := by
    intro u' b' s' vs e r hi hn hm
    obtain ⟨u, r0, _, _, _, g⟩ := h
    exact ⟨b', s', vs, e, u', r, hi, hn, hm, lifeStep_once o e g⟩
  obtain ⟨u, r, hi, hn, hm, g⟩ := id h
  have hlt := cur_lt_of_R r
  cases o with
  | push v =>
    cases ht
    obtain ⟨b', s', e, h'⟩ := RI_push h0 ha h v
    exact ⟨b', s', [], by simp only [lifeStep, e, bind_ok], h'⟩
  | pushMany v vs =>
    cases ht
    obtain ⟨b', s', e, h'⟩ := RI_pushMany h0 ha vs v h
    exact ⟨b', s', [], by simp only [lifeStep, e, bind_ok], h'⟩
  | pop =>
    simp only [Ideal.step] at ht
    split at ht <;> cases ht
    rename_i hl
    cases hu : u.items with
    | nil => rw [← hi, hu] at hl; simp at hl
    | cons x xs =>
      obtain ⟨s', e, r'⟩ := R_step h0 ha r .pop (t' := { u with items := xs }) (o := .unit) (by simp only [StackSpec.step, hu])
      obtain ⟨s1, e1, e⟩ := life_bind_ok e
      cases e
      obtain ⟨b', e', m⟩ := popOneL_proj (b := b) e1
      refine fin (by simp only [lifeStep, e', bind_ok]; rfl) r' ?_ hn (m.trans hm)
      simp [← hi, hu]
  | popMany n =>
    simp only [Ideal.step] at ht
    split at ht <;> cases ht
    rename_i hl
    obtain ⟨s', e, r'⟩ := R_step h0 ha r (.popMany n) (t' := { u with items := u.items.drop n }) (o := .vals (u.items.take n))
      (by simp only [StackSpec.step, hi, if_pos hl])
    obtain ⟨⟨s1, vs⟩, e1, e⟩ := life_bind_ok e
    cases e
    obtain ⟨b', e', m⟩ := popManyL_proj n (b := b) e1
    exact fin e' r' (by simp [hi]) hn (m.trans hm)
  | setTop v =>
    cases hu : t.items with
    | nil => simp only [Ideal.step, hu] at ht; cases ht
    | cons x xs =>
      simp only [Ideal.step, hu] at ht
      cases ht
      obtain ⟨s0, e0, r0⟩ := R_step h0 ha r .top (t' := u) (o := .val x) (by simp only [StackSpec.step, hi, hu])
      obtain ⟨y, hy, e0⟩ := life_bind_ok e0
      cases e0
      obtain ⟨s', e, r'⟩ := R_step h0 ha r (.setTop { x with val := v }) (t' := { u with items := { x with val := v } :: xs }) (o := .unit)
        (by simp only [StackSpec.step, hi, hu])
      obtain ⟨s1, e1, e⟩ := life_bind_ok e
      cases e
      have e' := setTopL_proj (b := b) hy e1
      exact fin (by simp only [lifeStep, e', bind_ok]; rfl) r' rfl hn hm
  | discard n =>
    simp only [Ideal.step] at ht
    split at ht <;> cases ht
    rename_i hl
    obtain ⟨s', e, r'⟩ := R_step h0 ha r (.discard n) (t' := { u with items := u.items.drop n }) (o := .unit)
      (by simp only [StackSpec.step, hi, if_pos hl])
    obtain ⟨s1, e1, e⟩ := life_bind_ok e
    cases e
    obtain ⟨b', e', m⟩ := discardL_proj (b := b) e1
    exact fin (by simp only [lifeStep, e', bind_ok]; rfl) r' (by simp [hi]) hn (m.trans hm)
  | popReverse n =>
    simp only [Ideal.step] at ht
    split at ht <;> cases ht
    rename_i hl
    obtain ⟨h1, h2, h3⟩ := hl
    obtain ⟨pre, cp, k, rfl, g1, hc, hb⟩ := r
    have hlen : (cont pre cp).length = t.items.length := by rw [← hi, hc, List.length_reverse]
    obtain ⟨pre', cp', rest', e, g', c', l', cl, -⟩ := popReverse_spec (al := al) (sc := u.iters) (sr := u.pending) h0
      (List.replicate k []) g1 n h1 (by omega)
    obtain ⟨j, hj⟩ := cl (by rw [hlen]; unfold cleanRemainder; omega)
    obtain ⟨b', e', m⟩ := popReverseL_proj (b := b) hlt e
    refine fin (u' := { u with items := (cont pre' cp').reverse, blocks := pre'.length + 1 + (j + k) }) e'
      ⟨pre', cp', j + k, by rw [hj, List.replicate_append_replicate], g', rfl, rfl⟩ ?_ hn (m.trans hm)
    simp [c', take_len_reverse, ← hi, hc]
  | shrink =>
    cases ht
    obtain ⟨b', e', m⟩ := shrinkL_proj b s
    cases hs : StackSpec.step ps al u .shrink with
    | none => simp only [StackSpec.step] at hs; split at hs <;> cases hs
    | some q =>
      obtain ⟨u', o'⟩ := q
      obtain ⟨s', e, r'⟩ := R_step h0 ha r .shrink hs
      cases e
      refine fin (by simp only [lifeStep, e', bind_ok]; rfl) r' ?_ ?_ (m.trans hm)
      · simp only [StackSpec.step] at hs; split at hs <;> cases hs <;> exact hi
      · simp only [StackSpec.step] at hs; split at hs <;> cases hs <;> exact hn
  | syncNew =>
    cases ht
    obtain ⟨s', e, r'⟩ := R_step h0 ha r .syncNew (t' := { u with iters := u.iters + 1 }) (o := .unit) rfl
    cases e
    exact fin rfl r' hi (by simp [hn]) hm
  | syncDrop =>
    simp only [Ideal.step] at ht
    split at ht <;> cases ht
    rename_i hl
    obtain ⟨b', e', m⟩ := syncDropL_proj b s
    cases hs : StackSpec.step ps al u .syncDrop with
    | none =>
      simp only [StackSpec.step] at hs
      rw [if_neg (by omega)] at hs; split at hs <;> cases hs
    | some q =>
      obtain ⟨u', o'⟩ := q
      obtain ⟨s', e, r'⟩ := R_step h0 ha r .syncDrop hs
      cases e
      simp only [StackSpec.step] at hs
      rw [if_neg (by omega)] at hs
      refine fin (by simp only [lifeStep, e', bind_ok]; rfl) r' ?_ ?_ (m.trans hm)
      · split at hs <;> cases hs <;> exact hi
      · split at hs <;> cases hs
        · simp; omega
        · simp [hn]
  | clear => cases ht
  | discardAt it => cases ht

theorem RI_run {ps al : Nat} (h0 : 0 < ps) (ha : 0 < al) (os : List (LOp V)) : ∀ {b : Books} {s : PS (Obj V)} {t t' : Ideal V}, RI ps al b s t →
    t.run ps os = some t' → ∃ b' s', lifeRun (objects V) b s os = .ok (b', s') ∧ RI ps al b' s' t' := by
  induction os with
  | nil => intro b s t t' h ht; cases ht; exact ⟨b, s, rfl, h⟩
  | cons o os ih =>
    intro b s t t' h ht
    simp only [Ideal.run] at ht
    cases hs : t.step ps o with
    | none => rw [hs] at ht; cases ht
    | some t1 =>
      rw [hs] at ht
      obtain ⟨b1, s1, vs, e1, h1⟩ := RI_step h0 ha h o hs
      obtain ⟨b2, s2, e2, h2⟩ := ih h1 ht
      exact ⟨b2, s2, by simp only [lifeRun, e1, bind_ok, e2], h2⟩

theorem RI_alive {ps al : Nat} {b : Books} {s : PS (Obj V)} {t : Ideal V} (h : RI ps al b s t) :
    b.made = t.made ∧ contents s = t.items ∧ ∀ i, b.Alive i ↔ i ∈ t.items.map Obj.id := by
  obtain ⟨u, r, hi, -, hm, g⟩ := h
  have hc := (contents_of_R r).trans hi
  exact ⟨hm, hc, fun i => by rw [alive_iff g, held_inv (Inv_of_R r), hc]⟩

/-- C146 does not hold: after pop_reverse leaving a full page, the element removed has not been
destroyed (the stack does not contain it any more, yet the object lives on). -/
theorem C146_pop_reverse_refuted : ∃ (b : Books) (s : PS (Obj Nat)),
    lifeRun (objects Nat) {} (init 2 1) [.pushMany 7 [8, 9], .popReverse 1] = .ok (b, s) ∧
    contents s = [⟨1, 8⟩, ⟨0, 7⟩] ∧ b.Alive 2 :=
  ⟨_, _, rfl, by decide, by decide, by decide⟩

/-- C146 does not hold for discard(iterator) either. -/
theorem C146_discard_iter_refuted : ∃ (b : Books) (s s' : PS (Obj Nat)) (b' : Books) (it : Iter),
    lifeRun (objects Nat) {} (init 2 1) [.pushMany 7 [8, 9]] = .ok (b, s) ∧ begin_ s = .ok it ∧
    lifeRun (objects Nat) b s [.discardAt it] = .ok (b', s') ∧ contents s' = [⟨1, 8⟩, ⟨0, 7⟩] ∧ b'.Alive 2 :=
  ⟨_, _, _, _, _, rfl, rfl, rfl, by decide, by decide, by decide⟩

/-- C146 (what holds): through any history of push, push_emplace, pop, pop(v...), top(v), discard(n),
shrink_to_fit, sync iterators and pop_reverse (unless it leaves a positive number of full pages), the
objects in existence are exactly the elements of the ideal stack: an element is destroyed by the call
that removes it and by no other. -/
theorem C146_at_once_partial (ps al : Nat) (h0 : 0 < ps) (ha : 0 < al) (ops : List (LOp V)) (t : Ideal V) (ht : Ideal.run ps {} ops = some t) :
    ∃ b s, lifeRun (objects V) {} (init ps al) ops = .ok (b, s) ∧ b.made = t.made ∧ contents s = t.items ∧
      ∀ i, b.Alive i ↔ i ∈ t.items.map Obj.id := by
  obtain ⟨b, s, e, h⟩ := RI_run h0 ha ops (RI_init ha) ht
  exact ⟨b, s, e, RI_alive h⟩

theorem lifeRun_snoc {M α W : Type} (E : Elem M α W) (os : List (LOp W)) (o : LOp W) : ∀ {m m1 m2 : M} {s s1 s2 : PS α} {vs},
    lifeRun E m s os = .ok (m1, s1) → lifeStep E m1 s1 o = .ok (m2, s2, vs) → lifeRun E m s (os ++ [o]) = .ok (m2, s2) := by
  induction os with
  | nil => intro m m1 m2 s s1 s2 vs h h'; cases h; simp only [List.nil_append, lifeRun, h', bind_ok]
  | cons p os ih =>
    intro m m1 m2 s s1 s2 vs h h'
    simp only [lifeRun] at h
    obtain ⟨⟨m3, s3, ws⟩, h3, h⟩ := life_bind_ok h
    simp only [List.cons_append, lifeRun, h3, bind_ok]
    exact ih h h'

/-- What is left when the `n` topmost of `items` are removed by pop_reverse or discard(iterator): the
elements left, and in addition, when these are a positive number of full pages, the `min n pageSize`
deepest ones of those removed. -/
def leftBehind (ps n : Nat) (items : List (Obj V)) : List (Obj V) :=
  items.drop (if n = items.length ∨ (items.length - n) % ps ≠ 0 then n else n - ps)

/-- common part: an internal discard of the `n` topmost elements -/
theorem discard_alive {ps al : Nat} (h0 : 0 < ps) {b : Books} {s : PS (Obj V)} {t : Ideal V} (h : RI ps al b s t) (n : Nat) (hn : 1 ≤ n) (hle : n ≤ t.items.length) :
    ∃ b' s', internalDiscardL (objects V) b s ((t.items.length - n) / ps) (((t.items.length - n) % ps : Nat) : Int) = .ok (b', s') ∧
      contents s' = t.items.drop n ∧ b'.made = t.made ∧ ∀ i, b'.Alive i ↔ i ∈ (leftBehind ps n t.items).map Obj.id := by
  obtain ⟨u, r, hi, hnn, hm, go⟩ := h
  have hlt := cur_lt_of_R r
  obtain ⟨pre, cp, k, rfl, g, hc, hb⟩ := r
  have hit : t.items = (cont pre cp).reverse := by rw [← hi, hc]
  have hlen : t.items.length = (cont pre cp).length := by rw [hit, List.length_reverse]
  rw [hlen] at hle ⊢
  obtain ⟨pre', cp', rest', e, g', c', l', cl, -⟩ := internalDiscard_spec (al := al) (sc := u.iters) (sr := u.pending) h0
    (List.replicate k []) g ((cont pre cp).length - n) (by omega)
  obtain ⟨b', e', m⟩ := internalDiscardL_proj (b := b) hlt e
  refine ⟨b', _, e', ?_, m.trans hm, fun i => ?_⟩
  · rw [contents_mk, c', hit, take_len_reverse]
  · rw [alive_iff ((internalDiscard_same e').once go), leftBehind, hlen]
    by_cases hcl : cleanRemainder ps ((cont pre cp).length - n)
    · obtain ⟨j, hj⟩ := cl hcl
      rw [if_pos (by unfold cleanRemainder at hcl; omega), held_mk, hj, hit, c', ← take_len_reverse]
      simp
    · obtain ⟨s2, e2, hf⟩ := internalDiscard_held (al := al) (sc := u.iters) (sr := u.pending) (k := k) h0 g ((cont pre cp).length - n) (by omega) hcl
      rw [e] at e2; cases e2
      rw [if_neg (by unfold cleanRemainder at hcl; omega), held, hf, hit, ← take_len_reverse]
      by_cases hp : ps ≤ n
      · rw [show (cont pre cp).length - n + ps = (cont pre cp).length - (n - ps) by omega]
      · rw [show n - ps = 0 by omega, List.take_of_length_le (by omega), Nat.sub_zero, List.take_length]

/-- C146 (pop_reverse, exactly): after pop_reverse of `n` elements the objects in existence are
`leftBehind`: too many exactly when a positive number of full pages is left. -/
theorem C146_pop_reverse_partial (ps al : Nat) (h0 : 0 < ps) (ha : 0 < al) (ops : List (LOp V)) (t : Ideal V) (ht : Ideal.run ps {} ops = some t)
    (n : Nat) (hn : 1 ≤ n) (hle : n ≤ t.items.length) :
    ∃ b s, lifeRun (objects V) {} (init ps al) (ops ++ [.popReverse n]) = .ok (b, s) ∧ contents s = t.items.drop n ∧
      ∀ i, b.Alive i ↔ i ∈ (leftBehind ps n t.items).map Obj.id := by
  obtain ⟨b, s, e, h⟩ := RI_run h0 ha ops (RI_init ha) ht
  obtain ⟨b', s', e', hc, hm, hal⟩ := discard_alive h0 h n hn hle
  refine ⟨b', s', lifeRun_snoc _ _ _ (vs := (contents s).take n |>.reverse) e ?_, hc, hal⟩
  obtain ⟨u, r, hi, hnn, hm, go⟩ := h
  obtain ⟨pre, cp, k, rfl, g, hcc, hb⟩ := r
  have hlen : t.items.length = (cont pre cp).length := by rw [← hi, hcc, List.length_reverse]
  rw [hlen] at hle e'
  simp only [lifeStep, popReverseL, fromTop_spec h0 g n (by omega) hle, bind_ok,
      distribute_rev h0 g n _ (show (cont pre cp).length - n < _ by omega)]
  rw [if_pos (by omega), bind_ok]
  show (internalDiscardL _ _ _ (((cont pre cp).length - n) / ps) ((((cont pre cp).length - n) % ps : Nat) : Int) >>= _) = _
  rw [e', bind_ok, List.take_of_length_le (by simp; omega), contents_mk, drop_len_eq]

/-- C146 (discard(iterator), exactly): the same for discard of a forward iterator `n` steps below the top
and of a reverse iterator `m` steps above `from_top(d)`. -/
theorem C146_discard_iter_partial (ps al : Nat) (h0 : 0 < ps) (ha : 0 < al) (ops : List (LOp V)) (t : Ideal V) (ht : Ideal.run ps {} ops = some t) :
    ∃ b s, lifeRun (objects V) {} (init ps al) ops = .ok (b, s) ∧
      (∀ n, n < t.items.length → ∃ it b' s', nthForward s n = .ok it ∧ lifeStep (objects V) b s (.discardAt it) = .ok (b', s', []) ∧
        contents s' = t.items.drop (n + 1) ∧ ∀ i, b'.Alive i ↔ i ∈ (leftBehind ps (n + 1) t.items).map Obj.id) ∧
      (∀ d m, m < d → d ≤ t.items.length → ∃ it b' s', nthReverse s d m = .ok it ∧ lifeStep (objects V) b s (.discardAt it) = .ok (b', s', []) ∧
        contents s' = t.items.drop (d - m) ∧ ∀ i, b'.Alive i ↔ i ∈ (leftBehind ps (d - m) t.items).map Obj.id) := by
  obtain ⟨b, s, e, h⟩ := RI_run h0 ha ops (RI_init ha) ht
  refine ⟨b, s, e, ?_, ?_⟩
  · intro n hn
    obtain ⟨b', s', e', hc, hm, hal⟩ := discard_alive h0 h (n + 1) (by omega) (by omega)
    obtain ⟨u, r, hi, hnn, hm, go⟩ := h
    obtain ⟨pre, cp, k, rfl, g, hcc, hb⟩ := r
    have hlen : t.items.length = (cont pre cp).length := by rw [← hi, hcc, List.length_reverse]
    rw [hlen] at hn e'
    refine ⟨_, b', s', nthForward_pos h0 g n hn, ?_, hc, hal⟩
    simp only [lifeStep, pos]
    rw [show (cont pre cp).length - 1 - n = (cont pre cp).length - (n + 1) by omega, e', bind_ok]
  · intro d m hmd hd
    obtain ⟨b', s', e', hc, hm, hal⟩ := discard_alive h0 h (d - m) (by omega) (by omega)
    obtain ⟨u, r, hi, hnn, hm, go⟩ := h
    obtain ⟨pre, cp, k, rfl, g, hcc, hb⟩ := r
    have hlen : t.items.length = (cont pre cp).length := by rw [← hi, hcc, List.length_reverse]
    rw [hlen] at hd e'
    refine ⟨_, b', s', nthReverse_pos h0 g d m hmd hd, ?_, hc, hal⟩
    simp only [lifeStep, pos]
    rw [show (cont pre cp).length - d + m = (cont pre cp).length - (d - m) by omega, e', bind_ok]

/-- C146 (clear): the objects clear() leaves are the elements it leaves, the bottom `pageSize` ones (C06). -/
theorem C146_clear_partial (ps al : Nat) (h0 : 0 < ps) (ha : 0 < al) (ops : List (LOp V)) (t : Ideal V) (ht : Ideal.run ps {} ops = some t) :
    ∃ b s, lifeRun (objects V) {} (init ps al) (ops ++ [.clear]) = .ok (b, s) ∧ contents s = t.items.drop (t.items.length - ps) ∧
      ∀ i, b.Alive i ↔ i ∈ (t.items.drop (t.items.length - ps)).map Obj.id := by
  obtain ⟨b, s, e, h⟩ := RI_run h0 ha ops (RI_init ha) ht
  obtain ⟨u, r, hi, hnn, hm, go⟩ := h
  obtain ⟨pre, cp, k, rfl, g, hcc, hb⟩ := r
  have hit : t.items = (cont pre cp).reverse := by rw [← hi, hcc]
  obtain ⟨b', e', m⟩ := clearL_proj (b := b) (clear_spec (ps := ps) (al := al) (sc := u.iters) (sr := u.pending) (pre := pre) (cp := cp) (rest := List.replicate k []))
  have e2 : lifeStep (objects V) b (mkS ps al pre cp (List.replicate k []) u.iters u.pending) .clear =
      .ok (b', mkS ps al [] ((pre ++ [cp]).head (by simp)) (List.replicate pre.length [] ++ List.replicate k []) u.iters u.pending, []) := by
    simp only [lifeStep, e', bind_ok]
  have hcont : contents (mkS ps al [] ((pre ++ [cp]).head (by simp)) (List.replicate pre.length [] ++ List.replicate k []) u.iters u.pending)
      = t.items.drop (t.items.length - ps) := by
    rw [contents_mk, (head_good g).2, hit, List.reverse_take, List.length_reverse]
  refine ⟨b', _, lifeRun_snoc _ _ _ e e2, hcont, fun i => ?_⟩
  rw [alive_iff (lifeStep_once _ e2 go), ← hcont, contents_mk, held_mk]
  simp

/-- Non-vacuity: a history over several pages; elements 5, 4, 3 popped, 6 pushed, top overwritten. -/
example : Ideal.run 2 {} [.pushMany 1 [2, 3, 4, 5], .popMany 3, .push 6, .setTop 7, .shrink, .syncNew, .push 8, .popReverse 3, .syncDrop]
    = some ⟨7, [⟨0, 1⟩], 0⟩ := by decide

/-- Non-vacuity: the objects left behind after removing 3 of 5 with pages of 2. -/
example : leftBehind 2 3 [⟨4, 'e'⟩, ⟨3, 'd'⟩, ⟨2, 'c'⟩, ⟨1, 'b'⟩, ⟨0, 'a'⟩] = [⟨3, 'd'⟩, ⟨2, 'c'⟩, ⟨1, 'b'⟩, ⟨0, 'a'⟩] := by decide

end Falcon.PagedStack
