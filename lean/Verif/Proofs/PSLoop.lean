import Verif.Proofs.PSSync2
import Verif.Spec.StackLoop
/-
C140: a sync-iterator loop beside other threads.
-/
namespace Falcon.PagedStack
variable {α : Type}

def endMark : SIter := ⟨0, 0, -1, 0, false⟩

/-! ### Steps of the other threads -/

theorem its_other {ps : Nat} {y y' : Sys α} {o : SOut α} {op : SOp α} {i : Nat} {it : SIter}
    (hal : Allowed ps y op) (hl : op.LeavesAlone i) (hi : y.its[i]? = some it)
    (he : sstep y op = .ok (y', o)) : y'.its[renumber op i]? = some it := by
  have huse : ∀ {j f}, j ≠ i → useIter y j f = .ok (y', o) → y'.its[i]? = some it := by
    intro j f hj h
    unfold useIter at h
    split at h
    · cases h
    · obtain ⟨⟨it', o'⟩, -, h⟩ := bind_eq_ok.1 h
      cases ok_inj h
      show (y.its.set j it')[i]? = some it
      rw [List.getElem?_set_ne hj]; exact hi
  have hlt := (List.getElem?_eq_some_iff.1 hi).1
  cases op with
  | call c => obtain ⟨⟨s', o'⟩, -, h⟩ := bind_eq_ok.1 he; cases ok_inj h; exact hi
  | clear => obtain ⟨s', -, h⟩ := bind_eq_ok.1 he; cases ok_inj h; exact hi
  | popReverse n => obtain ⟨⟨s', o'⟩, -, h⟩ := bind_eq_ok.1 he; cases ok_inj h; exact hi
  | newBegin =>
    obtain ⟨j, -, h⟩ := bind_eq_ok.1 he; cases ok_inj h
    show (y.its ++ [j])[i]? = some it
    rw [List.getElem?_append_left hlt]; exact hi
  | newEnd =>
    obtain ⟨j, -, h⟩ := bind_eq_ok.1 he; cases ok_inj h
    show (y.its ++ [j])[i]? = some it
    rw [List.getElem?_append_left hlt]; exact hi
  | drop j =>
    simp only [sstep] at he
    split at he
    · cases ok_inj he
      have hj : j ≠ i := hl
      show (y.its.eraseIdx j)[if j < i then i - 1 else i]? = some it
      rw [List.getElem?_eraseIdx]
      split
      · rw [if_neg (by omega), Nat.sub_add_cancel (by omega)]; exact hi
      · rw [if_pos (by omega)]; exact hi
    · cases he
  | get j => exact huse hl he
  | inc j => exact huse hl he
  | dec j => exact huse hl he
  | eq j k =>
    simp only [sstep] at he
    split at he
    · cases ok_inj he; exact hi
    · cases he
  | copy j => exact absurd hal id

theorem renumber_ne {op : SOp α} {i j : Nat} (h : i ≠ j) (hi : op.LeavesAlone i) (hj : op.LeavesAlone j) :
    renumber op i ≠ renumber op j := by
  cases op <;> simp only [renumber] <;> try exact h
  have hi : _ ≠ i := hi
  have hj : _ ≠ j := hj
  split <;> split <;> omega

/-! ### Invariant of the loop -/

/-- Place of the looping thread's iterator: `r` is the number of heights it may still visit. -/
def AtRank (ps : Nat) (it : SIter) (r : Nat) : Prop :=
  (it.atEnd ∧ r = 0) ∨ (¬ it.atEnd ∧ it.fromBottom ps + 1 = r)

structure LInv (ps al : Nat) (w : Walk α) (r : Nat) : Prop where
  inv : SInv ps al w.y
  it  : ∃ it, w.y.its[w.me]? = some it ∧ (w.pc ≠ .threw → it.threw = false) ∧
    (match w.pc with
      | .callEnd | .test => AtRank ps it r
      | .get   => ¬ it.atEnd ∧ it.fromBottom ps + 1 = r
      | .inc   => ¬ it.atEnd ∧ it.fromBottom ps = r
      | .ended => r = 0
      | .threw => True)
  fin : ∀ e, w.fin = some e → w.me ≠ e ∧ w.y.its[e]? = some endMark
  has : w.pc ≠ .callEnd → w.fin ≠ none

theorem LInv_other {ps al : Nat} (h0 : 0 < ps) (ha : 0 < al) {w w' : Walk α} {r : Nat} {op : SOp α}
    {v : Option α} (h : LInv ps al w r) (hok : LOk ps w (.other op)) (he : lstep w (.other op) = .ok (w', v)) :
    LInv ps al w' r ∧ v = none ∧ w'.pc = w.pc := by
  obtain ⟨hal, hme, hfin⟩ := hok
  obtain ⟨⟨y', o⟩, h1, he⟩ := bind_eq_ok.1 he
  have he := ok_inj he
  obtain ⟨rfl, rfl⟩ := Prod.mk.inj he
  refine ⟨⟨(SInv_step h0 ha op h.inv hal h1).1, ?_, ?_, ?_⟩, rfl, rfl⟩
  · obtain ⟨it, hi, ht, hp⟩ := h.it
    exact ⟨it, its_other hal hme hi h1, ht, hp⟩
  · intro e hm
    obtain ⟨e0, hf0, rfl⟩ := Option.map_eq_some_iff.1 hm
    obtain ⟨hne, hi⟩ := h.fin e0 hf0
    exact ⟨renumber_ne hne hme (hfin e0 hf0), its_other hal (hfin e0 hf0) hi h1⟩
  · intro hp hm
    exact h.has hp (by simpa using hm)

/-! ### Steps of the looping thread -/

/-- The steps of the looping thread, with the heights still to visit before and after; `c` is the
contents of the stack, bottom first. -/
inductive MStep (c : List α) : LPc → Nat → LPc → Nat → Option α → Prop where
  | callEnd (r) : MStep c .callEnd r .test r none
  | ended : MStep c .test 0 .ended 0 none
  | goes (r) : 0 < r → MStep c .test r .get r none
  | seen (r x) : 0 < r → 0 < c.length → c[min r c.length - 1]? = some x →
      MStep c .get r .inc (min r c.length - 1) (some x)
  | moved (r) : 0 < c.length → MStep c .inc r .test (min r c.length) none
  | threwGet (r r') : c = [] → MStep c .get r .threw r' none
  | threwInc (r r') : c = [] → MStep c .inc r .threw r' none

theorem useIter_eq {y : Sys α} {i : Nat} {it it' : SIter} {o : SOut α}
    {f : PS α → SIter → Res (SIter × SOut α)} (hi : y.its[i]? = some it) (hf : f y.st it = .ok (it', o)) :
    useIter y i f = .ok ({ y with its := y.its.set i it' }, o) := by
  unfold useIter; rw [hi]; dsimp only; rw [hf, bind_ok]

theorem sync_end_ok {ps al : Nat} {s : PS α} (h : Inv ps al s) : syncEnd s = .ok endMark := by
  obtain ⟨pre, cp, k, n, sr, rfl, g⟩ := h
  obtain ⟨p, hp⟩ := page_gt (ps := ps) (al := al) (pre := pre) (cp := cp) (rest := List.replicate k [])
    (sc := n) (sr := sr) 0 (by simp only [mkS_base, List.length_append, List.length_cons]; omega)
  unfold syncEnd; rw [hp]; rfl

theorem eqv_end {ps len : Nat} {it : SIter} (h : ItOk ps len it) : it.eqv endMark = true ↔ it.atEnd := by
  have := h.data
  simp only [SIter.eqv, endMark, Bool.and_eq_true, beq_iff_eq, SIter.atEnd]
  constructor
  · rintro ⟨⟨a, -⟩, b⟩; exact ⟨a, b⟩
  · rintro ⟨a, b⟩; exact ⟨⟨a, by rw [this, a]⟩, b⟩

/-- The effect of get() and ++ on the iterator of the looping thread. -/
theorem get_effect {ps al : Nat} (h0 : 0 < ps) {y : Sys α} (h : SInv ps al y) {i : Nat} {it : SIter}
    (hi : y.its[i]? = some it) (ht : it.threw = false) (he : ¬ it.atEnd) :
    (contents y.st = [] → ∃ it', syncGet y.st it = .ok (it', .threw)) ∧
    (contents y.st ≠ [] → ∃ it' x, syncGet y.st it = .ok (it', .val x) ∧ it'.threw = false ∧ ¬ it'.atEnd ∧
      it'.fromBottom ps = min (it.fromBottom ps) ((contents y.st).length - 1) ∧
      (contents y.st).reverse[min (it.fromBottom ps) ((contents y.st).length - 1)]? = some x) := by
  have hok := h.its it (List.mem_of_getElem? hi) ht
  obtain ⟨st, its⟩ := y
  obtain ⟨pre, cp, k, n, sr, e, g⟩ := h.inv
  simp only at e; subst e
  simp only [contents_mk, List.reverse_reverse, List.length_reverse, ne_eq, List.reverse_eq_nil_iff]
  simp only at hok
  refine ⟨fun hc => ?_, fun hc => ?_⟩
  · obtain ⟨it', e1, -⟩ := syncGet_empty g hok he hc
    exact ⟨it', e1⟩
  · obtain ⟨it', x, e1, e2, e3⟩ := syncGet_ne h0 g hok he hc
    have hl := List.length_pos_iff.2 hc
    obtain ⟨-, b, c⟩ := ofIter_pos_ok (al := al) (rest := List.replicate k []) (sc := n) (sr := sr) h0 g
      (min (it.fromBottom ps) ((cont pre cp).length - 1)) (by omega) it.threw
    rw [e3] at e1
    exact ⟨_, x, e1, ht, c, b, e2⟩

theorem inc_effect {ps al : Nat} (h0 : 0 < ps) {y : Sys α} (h : SInv ps al y) {i : Nat} {it : SIter}
    (hi : y.its[i]? = some it) (ht : it.threw = false) (he : ¬ it.atEnd) :
    (contents y.st = [] → ∃ it', syncInc y.st it = .ok (it', .threw)) ∧
    (contents y.st ≠ [] → ∃ it', syncInc y.st it = .ok (it', .unit) ∧ it'.threw = false ∧
      AtRank ps it' (min (it.fromBottom ps) (contents y.st).length)) := by
  have hok := h.its it (List.mem_of_getElem? hi) ht
  obtain ⟨st, its⟩ := y
  obtain ⟨pre, cp, k, n, sr, e, g⟩ := h.inv
  simp only at e; subst e
  simp only [contents_mk, List.length_reverse, ne_eq, List.reverse_eq_nil_iff]
  simp only at hok
  refine ⟨fun hc => ?_, fun hc => ?_⟩
  · obtain ⟨it', -, e1⟩ := syncGet_empty g hok he hc
    exact ⟨it', e1⟩
  · have hl := List.length_pos_iff.2 hc
    refine ⟨_, syncInc_ne h0 g hok he hc, ?_, ?_⟩
    · split <;> exact ht
    · split
      · rename_i hlt
        rw [Nat.min_eq_left (by omega)]
        unfold prevPos
        split
        · rename_i hz; exact .inl ⟨⟨rfl, rfl⟩, hz⟩
        · obtain ⟨-, b, c⟩ := ofIter_pos_ok (al := al) (rest := List.replicate k []) (sc := n) (sr := sr) h0 g
            (it.fromBottom ps - 1) (by omega) it.threw
          exact .inr ⟨c, by rw [b]; omega⟩
      · rw [Nat.min_eq_right (by omega)]
        obtain ⟨-, b, c⟩ := ofIter_pos_ok (al := al) (rest := List.replicate k []) (sc := n) (sr := sr) h0 g
          ((cont pre cp).length - 1) (by omega) it.threw
        exact .inr ⟨c, by rw [b]; omega⟩

theorem LInv_mine {ps al : Nat} (h0 : 0 < ps) (ha : 0 < al) {w : Walk α} {r : Nat}
    (h : LInv ps al w r) (hrun : w.pc.running = true) :
    ∃ w' v r', lstep w .mine = .ok (w', v) ∧ LInv ps al w' r' ∧ contents w'.y.st = contents w.y.st ∧
      MStep (contents w.y.st).reverse w.pc r w'.pc r' v := by
  obtain ⟨y, me, fin, pc⟩ := w
  obtain ⟨hinv, ⟨it, hi, ht, hp⟩, hfin, hhas⟩ := h
  simp only at hinv hi ht hp hfin hhas hrun ⊢
  have hlt := (List.getElem?_eq_some_iff.1 hi).1
  -- the iterators after a call on `me`
  have hset : ∀ it' : SIter, (y.its.set me it')[me]? = some it' := fun it' => List.getElem?_set_self hlt
  have hother : ∀ (it' : SIter) e, me ≠ e → (y.its.set me it')[e]? = y.its[e]? :=
    fun it' e hne => List.getElem?_set_ne hne
  cases pc with
  | ended => cases hrun
  | threw => cases hrun
  | callEnd =>
    have e1 : sstep y .newEnd = .ok (⟨syncNew y.st, y.its ++ [endMark]⟩, .unit) := by
      show (syncEnd y.st).bind _ = _
      rw [sync_end_ok hinv.inv]; rfl
    refine ⟨⟨⟨syncNew y.st, y.its ++ [endMark]⟩, me, some y.its.length, .test⟩, none, r, ?_, ?_, rfl, .callEnd r⟩
    · show (sstep y .newEnd).bind _ = _
      rw [e1]; rfl
    · refine ⟨(SInv_step h0 ha .newEnd hinv trivial e1).1, ⟨it, ?_, fun _ => ht (by simp), hp⟩, ?_, by simp⟩
      · show (y.its ++ [endMark])[me]? = some it
        rw [List.getElem?_append_left hlt]; exact hi
      · intro e he
        have he : y.its.length = e := by simpa using he
        subst he
        exact ⟨Nat.ne_of_lt hlt, by simp⟩
  | test =>
    obtain ⟨e, rfl⟩ := Option.ne_none_iff_exists'.1 (hhas (by simp))
    obtain ⟨hne, hie⟩ := hfin e rfl
    have hok := hinv.its it (List.mem_of_getElem? hi) (ht (by simp))
    have e1 : sstep y (.eq me e) = .ok (y, .bool (it.eqv endMark)) := by
      simp only [sstep, hi, hie]
    rcases hp with ⟨hend, rfl⟩ | ⟨hne', hr⟩
    · refine ⟨⟨y, me, some e, .ended⟩, none, 0, ?_, ⟨hinv, ⟨it, hi, fun _ => ht (by simp), rfl⟩, hfin, by simp⟩, rfl, .ended⟩
      show (sstep y (.eq me e)).bind _ = _
      rw [e1, (eqv_end hok).2 hend]; rfl
    · refine ⟨⟨y, me, some e, .get⟩, none, r, ?_, ⟨hinv, ⟨it, hi, fun _ => ht (by simp), hne', hr⟩, hfin, by simp⟩, rfl,
        .goes r (by omega)⟩
      have : it.eqv endMark = false := by
        cases hb : it.eqv endMark with
        | false => rfl
        | true => exact absurd ((eqv_end hok).1 hb) hne'
      show (sstep y (.eq me e)).bind _ = _
      rw [e1, this]; rfl
  | get =>
    obtain ⟨hne, hr⟩ := hp
    obtain ⟨hA, hB⟩ := get_effect h0 hinv hi (ht (by simp)) hne
    by_cases hc : contents y.st = []
    · obtain ⟨it', e1⟩ := hA hc
      have e2 : sstep y (.get me) = .ok (⟨y.st, y.its.set me it'⟩, .threw) := useIter_eq hi e1
      refine ⟨⟨⟨y.st, y.its.set me it'⟩, me, fin, .threw⟩, none, 0, ?_,
        ⟨(SInv_step h0 ha (.get me) hinv trivial e2).1, ⟨it', hset it', fun hn => absurd rfl hn, trivial⟩, ?_,
          fun _ => hhas (by simp)⟩, rfl, .threwGet _ _ (by rw [hc]; rfl)⟩
      · show (sstep y (.get me)).bind _ = _
        rw [e2]; rfl
      · intro e he
        obtain ⟨a, b⟩ := hfin e he
        exact ⟨a, by show (y.its.set me it')[e]? = _; rw [hother _ _ a]; exact b⟩
    · obtain ⟨it', x, e1, t1, t2, t3, t4⟩ := hB hc
      have e2 : sstep y (.get me) = .ok (⟨y.st, y.its.set me it'⟩, .val x) := useIter_eq hi e1
      have hl := List.length_pos_iff.2 hc
      have hpos : min (it.fromBottom ps) ((contents y.st).length - 1)
          = min r (contents y.st).reverse.length - 1 := by
        rw [List.length_reverse]; omega
      rw [hpos] at t3 t4
      refine ⟨⟨⟨y.st, y.its.set me it'⟩, me, fin, .inc⟩, some x, _, ?_,
        ⟨(SInv_step h0 ha (.get me) hinv trivial e2).1, ⟨it', hset it', fun _ => t1, t2, t3⟩, ?_,
          fun _ => hhas (by simp)⟩, rfl, .seen r x (by omega) (by rw [List.length_reverse]; omega) t4⟩
      · show (sstep y (.get me)).bind _ = _
        rw [e2]; rfl
      · intro e he
        obtain ⟨a, b⟩ := hfin e he
        exact ⟨a, by show (y.its.set me it')[e]? = _; rw [hother _ _ a]; exact b⟩
  | inc =>
    obtain ⟨hne, hr⟩ := hp
    obtain ⟨hA, hB⟩ := inc_effect h0 hinv hi (ht (by simp)) hne
    by_cases hc : contents y.st = []
    · obtain ⟨it', e1⟩ := hA hc
      have e2 : sstep y (.inc me) = .ok (⟨y.st, y.its.set me it'⟩, .threw) := useIter_eq hi e1
      refine ⟨⟨⟨y.st, y.its.set me it'⟩, me, fin, .threw⟩, none, 0, ?_,
        ⟨(SInv_step h0 ha (.inc me) hinv trivial e2).1, ⟨it', hset it', fun hn => absurd rfl hn, trivial⟩, ?_,
          fun _ => hhas (by simp)⟩, rfl, .threwInc _ _ (by rw [hc]; rfl)⟩
      · show (sstep y (.inc me)).bind _ = _
        rw [e2]; rfl
      · intro e he
        obtain ⟨a, b⟩ := hfin e he
        exact ⟨a, by show (y.its.set me it')[e]? = _; rw [hother _ _ a]; exact b⟩
    · obtain ⟨it', e1, t1, t2⟩ := hB hc
      have e2 : sstep y (.inc me) = .ok (⟨y.st, y.its.set me it'⟩, .unit) := useIter_eq hi e1
      have hl := List.length_pos_iff.2 hc
      rw [hr, ← List.length_reverse (as := contents y.st)] at t2
      refine ⟨⟨⟨y.st, y.its.set me it'⟩, me, fin, .test⟩, none, _, ?_,
        ⟨(SInv_step h0 ha (.inc me) hinv trivial e2).1, ⟨it', hset it', fun _ => t1, t2⟩, ?_,
          fun _ => hhas (by simp)⟩, rfl, .moved r (by rw [List.length_reverse]; omega)⟩
      · show (sstep y (.inc me)).bind _ = _
        rw [e2]; rfl
      · intro e he
        obtain ⟨a, b⟩ := hfin e he
        exact ⟨a, by show (y.its.set me it')[e]? = _; rw [hother _ _ a]; exact b⟩

/-! ### Whole executions -/

/-- What is left to do: steps of the looping thread until its loop is over. -/
def left : LPc → Nat → Nat
  | .callEnd, r => 3 * r + 2
  | .test, r    => 3 * r + 1
  | .get, r     => 3 * r
  | .inc, r     => 3 * r + 2
  | _, _        => 0

theorem MStep.less {c : List α} {p p' : LPc} {r r' : Nat} {v : Option α} (h : MStep c p r p' r' v)
    (hr : p = .get → 0 < r) : left p' r' < left p r := by
  cases h <;> simp only [left]
  all_goals try omega
  all_goals
    have := hr rfl
    omega

theorem LExec.over {ps : Nat} {w w' : Walk α} {tr : List (LRec α)} (h : LExec ps w tr w')
    (hp : w.pc.running = false) : w'.pc = w.pc ∧ visits tr = [] ∧ visited tr = [] := by
  induction h with
  | refl w => exact ⟨rfl, rfl, rfl⟩
  | step a hok he hx ih =>
    rename_i w w1 w2 v tr
    cases a with
    | mine => rw [show w.pc.running = true from hok] at hp; cases hp
    | other op =>
      obtain ⟨⟨y', o⟩, h1, he⟩ := bind_eq_ok.1 he
      have he := ok_inj he
      obtain ⟨rfl, rfl⟩ := Prod.mk.inj he
      obtain ⟨a, b, c⟩ := ih hp
      exact ⟨a, by simpa [visits] using b, by simpa [visited] using c⟩

theorem LExec.over_inv {ps al : Nat} (h0 : 0 < ps) (ha : 0 < al) {w w' : Walk α} {tr : List (LRec α)}
    (h : LExec ps w tr w') {r : Nat} (hi : LInv ps al w r) (hp : w.pc.running = false) :
    tr.filter LRec.mine = [] ∧ LInv ps al w' r := by
  induction h with
  | refl w => exact ⟨rfl, hi⟩
  | step a hok he hx ih =>
    rename_i w w1 w2 v tr
    cases a with
    | mine => rw [show w.pc.running = true from hok] at hp; cases hp
    | other op =>
      obtain ⟨h1, -, hpc⟩ := LInv_other h0 ha hi hok he
      obtain ⟨a, b⟩ := ih h1 (by rw [hpc]; exact hp)
      exact ⟨by simpa using a, b⟩

/-- A base of the stack that is there at a visit. -/
theorem base_get {base c : List α} {p : Nat} (h : base <+: c) (hp : p < base.length) : c[p]? = base[p]? := by
  obtain ⟨t, rfl⟩ := h
  rw [List.getElem?_append_left hp]

theorem take_rev_succ (base : List α) (r : Nat) (x : α) (h : base[r]? = some x) :
    (base.take (r + 1)).reverse = x :: (base.take r).reverse := by
  rw [List.take_add_one, h]; simp

/-- Everything about an execution, from a state of the loop. -/
theorem LExec.spec {ps al : Nat} (h0 : 0 < ps) (ha : 0 < al) {w w' : Walk α} {tr : List (LRec α)}
    (hx : LExec ps w tr w') : ∀ {r : Nat}, LInv ps al w r → w.pc ≠ .threw →
    (∃ r', LInv ps al w' r') ∧
    (∃ pos, SeenAt (visits tr) pos ∧ pos.Pairwise (fun a b => b < a) ∧ ∀ p ∈ pos, p < r) ∧
    ((tr.filter LRec.mine).length ≤ left w.pc r) ∧
    (w'.pc = .threw → ∃ q ∈ tr, q.mine = true ∧ q.now = []) ∧
    (∀ base, Stays base tr → w'.pc = .ended →
      ∃ above, visited tr = above ++ (base.take r).reverse ∧ above.length ≤ r - base.length) := by
  induction hx with
  | refl w =>
    intro r h hp
    refine ⟨⟨r, h⟩, ⟨[], trivial, .nil, by simp⟩, Nat.zero_le _, fun e => absurd e hp, ?_⟩
    intro base _ he
    obtain ⟨it, -, -, hr⟩ := h.it
    rw [he] at hr
    have hr : r = 0 := hr
    subst hr
    exact ⟨[], rfl, Nat.zero_le _⟩
  | step a hok he hx ih =>
    rename_i w w1 w2 v tr
    intro r h hp
    cases a with
    | other op =>
      obtain ⟨h1, rfl, hpc⟩ := LInv_other h0 ha h hok he
      obtain ⟨a1, ⟨pos, s1, s2, s3⟩, a3, a4, a5⟩ := ih h1 (by rw [hpc]; exact hp)
      refine ⟨a1, ⟨pos, by simpa [visits] using s1, s2, s3⟩, ?_, ?_, ?_⟩
      · rw [hpc] at a3; simpa using a3
      · intro e; obtain ⟨q, hq, t⟩ := a4 e; exact ⟨q, List.mem_cons_of_mem _ hq, t⟩
      · intro base hs e
        obtain ⟨ab, t1, t2⟩ := a5 base (fun q hq => hs q (List.mem_cons_of_mem _ hq)) e
        exact ⟨ab, by simpa [visited] using t1, t2⟩
    | mine =>
      obtain ⟨w3, v3, r', e3, h3, -, hm⟩ := LInv_mine h0 ha h hok
      rw [e3] at he
      obtain ⟨rfl, rfl⟩ := Prod.mk.inj (ok_inj he)
      have hget : w.pc = .get → 0 < r := by
        intro e
        obtain ⟨it, -, -, hr⟩ := h.it
        rw [e] at hr
        have := hr.2
        omega
      have hless := hm.less hget
      generalize hpc : w.pc = p at *
      generalize hpc' : w3.pc = p' at *
      generalize hcc : contents w.y.st = c at *
      -- a step that throws ends the loop
      by_cases hth : p' = .threw
      · subst hth
        obtain ⟨b1, b2, b3⟩ := hx.over (by rw [hpc']; rfl)
        have hcn : c = [] ∧ v3 = none := by
          cases hm with
          | threwGet _ _ hc => exact ⟨by simpa using hc, rfl⟩
          | threwInc _ _ hc => exact ⟨by simpa using hc, rfl⟩
        obtain ⟨rfl, rfl⟩ := hcn
        obtain ⟨hmine, inv2⟩ := hx.over_inv h0 ha h3 (by rw [hpc']; rfl)
        have inv2 : ∃ r2, LInv ps al w2 r2 := ⟨_, inv2⟩
        refine ⟨inv2, ⟨[], by rw [show visits ((⟨true, [], none⟩ : LRec α) :: tr) = visits tr from rfl, b2]; trivial, .nil, by simp⟩, ?_, ?_, ?_⟩
        · simp only [List.filter_cons, if_true, hmine, List.length_cons, List.length_nil]
          exact Nat.lt_of_le_of_lt (Nat.zero_le _) hless
        · intro _; exact ⟨_, List.mem_cons_self .., rfl, rfl⟩
        · intro base _ e; rw [b1, hpc'] at e; cases e
      · obtain ⟨a1, ⟨pos, s1, s2, s3⟩, a3, a4, a5⟩ := ih h3 hth
        have hcount : (((⟨true, c, v3⟩ : LRec α) :: tr).filter LRec.mine).length ≤ left p r := by
          simp only [List.filter_cons, if_true, List.length_cons]; omega
        have hthrow : w2.pc = .threw → ∃ q ∈ (⟨true, c, v3⟩ : LRec α) :: tr, q.mine = true ∧ q.now = [] := by
          intro e; obtain ⟨q, hq, t⟩ := a4 e; exact ⟨q, List.mem_cons_of_mem _ hq, t⟩
        refine ⟨a1, ?_, hcount, hthrow, ?_⟩
        · cases hm with
          | seen _ x hr hc hx' =>
            refine ⟨(min r c.reverse.length - 1) :: pos, ?_, ?_, ?_⟩
            · show SeenAt ((c, x) :: visits tr) _
              exact ⟨hx', s1⟩
            · exact List.pairwise_cons.2 ⟨s3, s2⟩
            · intro q hq
              rcases List.mem_cons.1 hq with rfl | hq
              · omega
              · have := s3 q hq; omega
          | callEnd => exact ⟨pos, by simpa [visits] using s1, s2, s3⟩
          | ended => exact ⟨pos, by simpa [visits] using s1, s2, s3⟩
          | goes => exact ⟨pos, by simpa [visits] using s1, s2, s3⟩
          | moved => exact ⟨pos, by simpa [visits] using s1, s2, fun q hq => by have := s3 q hq; omega⟩
          | threwGet => exact absurd rfl hth
          | threwInc => exact absurd rfl hth
        · intro base hs e
          have hb : base <+: c.reverse := hs _ (List.mem_cons_self ..)
          have hbl := hb.length_le
          obtain ⟨ab, t1, t2⟩ := a5 base (fun q hq => hs q (List.mem_cons_of_mem _ hq)) e
          cases hm with
          | callEnd => exact ⟨ab, by simpa [visited] using t1, t2⟩
          | ended => exact ⟨ab, by simpa [visited] using t1, t2⟩
          | goes => exact ⟨ab, by simpa [visited] using t1, t2⟩
          | threwGet => exact absurd rfl hth
          | threwInc => exact absurd rfl hth
          | moved _ hc =>
            refine ⟨ab, ?_, by omega⟩
            have : base.take (min r c.reverse.length) = base.take r := by
              rcases Nat.le_total r c.reverse.length with hle | hle
              · rw [Nat.min_eq_left hle]
              · rw [Nat.min_eq_right hle, List.take_of_length_le hbl, List.take_of_length_le (by omega)]
            rw [this] at t1
            simpa [visited] using t1
          | seen _ x hr hc hx' =>
            have hv : visited ((⟨true, c, some x⟩ : LRec α) :: tr) = x :: visited tr := rfl
            rw [hv, t1]
            by_cases hin : min r c.reverse.length - 1 < base.length
            · -- the visited element belongs to the base
              have hab : ab = [] := List.eq_nil_of_length_eq_zero (by omega)
              subst hab
              rw [base_get hb hin] at hx'
              have := take_rev_succ base _ x hx'
              refine ⟨[], ?_, Nat.zero_le _⟩
              rw [List.nil_append, List.nil_append, ← this]
              congr 1
              rcases Nat.le_total r c.reverse.length with hle | hle
              · rw [Nat.min_eq_left hle, Nat.sub_add_cancel hr]
              · rw [Nat.min_eq_right hle, Nat.sub_add_cancel hc, List.take_of_length_le hbl,
                  List.take_of_length_le (by omega)]
            · refine ⟨x :: ab, ?_, ?_⟩
              · rw [List.take_of_length_le (by omega), List.take_of_length_le (by omega)]; rfl
              · simp only [List.length_cons]; omega

/-- The state just after sync_begin(). -/
theorem LInv_start {ps al : Nat} (h0 : 0 < ps) (ha : 0 < al) {y y1 : Sys α} {o : SOut α} (h : SInv ps al y)
    (he : sstep y .newBegin = .ok (y1, o)) :
    LInv ps al (startLoop y y1) (contents y.st).length ∧ contents y1.st = contents y.st := by
  have hinv := (SInv_step h0 ha .newBegin h trivial he).1
  obtain ⟨it, h1, he⟩ := bind_eq_ok.1 he
  have he := ok_inj he
  obtain ⟨rfl, rfl⟩ := Prod.mk.inj he
  refine ⟨⟨hinv, ⟨it, by simp [startLoop], ?_, ?_⟩, by simp [startLoop], by simp [startLoop]⟩, rfl⟩
  · intro _
    unfold syncBegin at h1
    obtain ⟨p, -, h1⟩ := bind_eq_ok.1 h1
    cases ok_inj h1; rfl
  · show AtRank ps it _
    obtain ⟨pre, cp, k, n, sr, e, g⟩ := h.inv
    rw [e] at h1 ⊢
    have hb : syncBegin (mkS ps al pre cp (List.replicate k []) n sr)
        = .ok ⟨pre.length, pre.length, (cp.length : Int) - 1, 0, false⟩ := by
      unfold syncBegin; rw [mkS_cur, mkS_page]; rfl
    rw [hb] at h1
    obtain rfl := ok_inj h1
    rw [contents_mk, List.length_reverse]
    by_cases hc : cp = []
    · subst hc; obtain rfl := g.ne rfl
      exact .inl ⟨⟨rfl, rfl⟩, rfl⟩
    · have ht := top_pos h0 g hc ⟨0, 0, 0, 0, false⟩ rfl
      simp only at ht
      rw [ht]
      have hl : 0 < (cont pre cp).length := by
        have := List.length_pos_iff.2 hc; rw [g.len]; omega
      obtain ⟨-, b, c⟩ := ofIter_pos_ok (al := al) (rest := List.replicate k []) (sc := n) (sr := sr) h0 g
        ((cont pre cp).length - 1) (by omega) false
      exact .inr ⟨c, by rw [b]; omega⟩

end Falcon.PagedStack
