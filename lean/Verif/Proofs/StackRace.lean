import Verif.Model.StackRace
import Verif.Proofs.PSMore
import Mathlib.Tactic.Tauto
/-
Which cells the calls of a PagedStack touch.
-/
namespace Falcon.PagedStack
variable {α : Type} {ps al : Nat} {sc : Int} {sr : Bool} {pre : List (List α)} {cp : List α} {rest : List (List α)}

/-- Height `h` is among the elements a call adds, or among those it takes away. -/
def Hit (n add take h : Nat) : Prop := (n ≤ h ∧ h < n + add) ∨ (h < n ∧ n ≤ h + take)

/-- `W` touches what a call must that adds or removes so many elements of a stack of `n`, whose current
page is `c`. -/
structure Touches (ps n add take c : Nat) (W : List Cell) : Prop where
  elem   : ∀ i j, .elem i j ∈ W ↔ j < ps ∧ Hit n add take (i * ps + j)
  finish : ∀ i, i ≤ c → (.finish i ∈ W ↔ ∃ h, h / ps = i ∧ Hit n add take h)
  size   : (.cur ∈ W ∨ .finish c ∈ W) ↔ 0 < add + take
  low    : ∀ i, .start i ∈ W ∨ .prev i ∈ W → c < i
  next   : ∀ i, .next i ∈ W → c ≤ i
  head   : .head ∉ W

theorem mem_nodes {a k : Nat} {x : Cell} : x ∈ nodes a k ↔ ∃ j, j < k ∧ (x = .next (a + j) ∨ x = .prev (a + j) ∨ x = .start (a + j) ∨ x = .finish (a + j)) := by
  simp [nodes, List.mem_flatMap]

theorem mem_elems {i a b : Nat} {x : Cell} : x ∈ elems i a b ↔ ∃ j, a ≤ j ∧ j < b ∧ x = .elem i j := by
  simp only [elems, List.mem_map, List.mem_range]
  constructor
  · rintro ⟨j, h, rfl⟩; exact ⟨a + j, by omega, by omega, rfl⟩
  · rintro ⟨j, h1, h2, rfl⟩; exact ⟨j - a, by omega, by congr 1; omega⟩

theorem height {ps i j : Nat} (hj : j < ps) : (i * ps + j) / ps = i ∧ (i * ps + j) % ps = j := by
  constructor
  · rw [Nat.add_comm, Nat.add_mul_div_right _ _ (by omega), Nat.div_eq_of_lt hj, Nat.zero_add]
  · rw [Nat.add_comm, Nat.add_mul_mod_self_right, Nat.mod_eq_of_lt hj]

theorem split_height {ps h : Nat} (h0 : 0 < ps) : h = h / ps * ps + h % ps ∧ h % ps < ps :=
  ⟨by rw [Nat.mul_comm]; exact (Nat.div_add_mod h ps).symm, Nat.mod_lt _ h0⟩

/-- Same page and place, same height. -/
theorem height_inj {ps i j i' j' : Nat} (hj : j < ps) (hj' : j' < ps) (h : i * ps + j = i' * ps + j') : i = i' ∧ j = j' := by
  have a := height (i := i) hj; have b := height (i := i') hj'
  rw [h] at a; exact ⟨a.1.symm.trans b.1, a.2.symm.trans b.2⟩

/-! ### push -/

/-- Where the next element goes. -/
structure Slot (ps n c c' j : Nat) : Prop where
  room : j < ps
  at_  : c' * ps + j = n
  near : c' = c ∨ c' = c + 1

theorem Touches.nil (ps n c : Nat) : Touches ps n 0 0 c [] where
  elem := by intro i j; simp [Hit]
  finish := by intro i _; simp [Hit]
  size := by simp
  low := by simp
  next := by simp
  head := by simp

/-- One element more. -/
theorem Touches.push {n add c c' j : Nat} {W0 W : List Cell} (hs : Slot ps n c c' j)
    (he : ∀ i k, .elem i k ∈ W0 ↔ i = c' ∧ k = j) (hf : ∀ i, i ≤ c → (.finish i ∈ W0 ↔ i = c'))
    (hc : .cur ∈ W0 ∨ c' = c) (hl : ∀ i, .start i ∈ W0 ∨ .prev i ∈ W0 → c < i) (hn : ∀ i, .next i ∈ W0 → c ≤ i) (hh : .head ∉ W0)
    (h : Touches ps (n + 1) add 0 c' W) : Touches ps n (add + 1) 0 c (W0 ++ W) := by
  obtain ⟨h1, h2, h3⟩ := hs
  have hge : c ≤ c' := by omega
  refine ⟨?_, ?_, ?_, ?_, ?_, ?_⟩
  · intro i k
    rw [List.mem_append, he, h.elem]
    constructor
    · rintro (⟨rfl, rfl⟩ | ⟨a, b⟩)
      · exact ⟨h1, .inl (by omega)⟩
      · refine ⟨a, ?_⟩; unfold Hit at b ⊢; omega
    · rintro ⟨a, b⟩
      by_cases hh : i * ps + k = n
      · left; rw [← h2] at hh; exact height_inj a h1 hh
      · right; refine ⟨a, ?_⟩; unfold Hit at b ⊢; omega
  · intro i hi
    rw [List.mem_append, hf i hi, h.finish i (by omega)]
    constructor
    · rintro (rfl | ⟨x, a, b⟩)
      · exact ⟨n, by rw [← h2]; exact (height h1).1, .inl (by omega)⟩
      · refine ⟨x, a, ?_⟩; unfold Hit at b ⊢; omega
    · rintro ⟨x, a, b⟩
      by_cases hx : x = n
      · left; rw [← a, hx, ← h2]; exact (height h1).1
      · right; refine ⟨x, a, ?_⟩; unfold Hit at b ⊢; omega
  · constructor
    · intro _; omega
    · intro _
      rcases hc with hc | hc
      · left; simp [hc]
      · right; rw [List.mem_append]; left; exact (hf c (Nat.le_refl _)).2 hc.symm
  · intro i hi
    simp only [List.mem_append] at hi
    rcases hi with (a | a) | (a | a)
    · exact hl i (.inl a)
    · have := h.low i (.inl a); omega
    · exact hl i (.inr a)
    · have := h.low i (.inr a); omega
  · intro i hi
    rcases List.mem_append.1 hi with a | a
    · exact hn i a
    · have := h.next i a; omega
  · simp [hh, h.head]

theorem advance_room (h : cp.length ≠ ps) : advance (mkS ps al pre cp rest sc sr) = .ok (mkS ps al pre cp rest sc sr) := by simp [advance, h]

theorem advance_next {r : List α} (h : cp.length = ps) : advance (mkS ps al pre cp (r :: rest) sc sr) = .ok (mkS ps al (pre ++ [cp]) r rest sc sr) := by
  have e : ({ mkS ps al pre cp (r :: rest) sc sr with cur := pre.length + 1 } : PS α)
      = mkS ps al (pre ++ [cp]) r rest sc sr := (mkS_step cp).symm
  simp [advance, h, ← e]

theorem advance_grow (h : cp.length = ps) (ha : 0 < al) :
    advance (mkS ps al pre cp [] sc sr) = .ok (mkS ps al (pre ++ [cp]) [] (List.replicate (al - 1) []) sc sr) := by
  obtain ⟨a, rfl⟩ : ∃ a, al = a + 1 := ⟨al - 1, by omega⟩
  simp only [advance, mkS_cur, mkS_page, bind_ok, mkS_ps, h, if_true]
  simp [growBase, mkS, List.replicate_succ]

theorem pushBack_mk (x : α) : pushBack (mkS ps al pre cp rest sc sr) x = .ok (mkS ps al pre (cp ++ [x]) rest sc sr) := by simp [pushBack]

theorem pushBackW_mk : pushBackW (mkS ps al pre cp rest sc sr) = [.elem pre.length cp.length, .finish pre.length] := by simp [pushBackW]

/-- What push writes, and how many pages there are then. -/
theorem pushW_spec (h0 : 0 < ps) (ha : 0 < al) (xs : List α) : ∀ {pre : List (List α)} {cp : List α} (k : Nat), Good ps pre cp →
    Touches ps (cont pre cp).length xs.length 0 pre.length (pushW (mkS ps al pre cp (List.replicate k []) sc sr) xs) ∧
    ∃ s', xs.foldlM push (mkS ps al pre cp (List.replicate k []) sc sr) = .ok s' ∧ pre.length + 1 + k ≤ s'.base.length ∧
      (.tail ∈ pushW (mkS ps al pre cp (List.replicate k []) sc sr) xs ↔ s'.base.length ≠ pre.length + 1 + k) := by
  induction xs with
  | nil => intro pre cp k g; exact ⟨by simpa [pushW] using Touches.nil ps _ _, _, rfl, by simp; omega, by simp [pushW]; omega⟩
  | cons x xs ih =>
    intro pre cp k g
    have hlen := g.len
    have hps : (pre.length + 1) * ps = pre.length * ps + ps := by rw [Nat.add_mul, Nat.one_mul]
    by_cases h : cp.length = ps
    · rcases k with _ | k
      · have g' := g.snoc_next x h h0
        obtain ⟨i1, s', i2, i3, i4⟩ := ih (al - 1) g'
        have hc : (cont (pre ++ [cp]) [x]).length = (cont pre cp).length + 1 := by simp [cont]; omega
        rw [hc] at i1
        have hw : pushW (mkS ps al pre cp [] sc sr) (x :: xs) = ([.cur, .tail, .next pre.length] ++ nodes (pre.length + 1) al ++
            [.elem (pre.length + 1) 0, .finish (pre.length + 1)]) ++ pushW (mkS ps al (pre ++ [cp]) [x] (List.replicate (al - 1) []) sc sr) xs := by
          have e1 : advanceW (mkS ps al pre cp [] sc sr) = [.cur, .tail, .next pre.length] ++ nodes (pre.length + 1) al := by
            simp [advanceW, h, mkS]
          simp only [pushW, e1, advance_grow h ha, pushBackW_mk, pushBack_mk]
          simp
        rw [show List.replicate 0 ([] : List α) = [] from rfl, hw]
        refine ⟨?_, s', ?_, ?_, ?_⟩
        · refine Touches.push (c' := pre.length + 1) (j := 0) ⟨h0, by rw [hlen, hps, h]; omega, .inr rfl⟩ ?_ ?_ ?_ ?_ ?_ ?_ (by simpa using i1)
          · intro i k; simp [mem_nodes]
          · intro i hi; simp [mem_nodes]; omega
          · left; simp
          · intro i hi; simp [mem_nodes] at hi; omega
          · intro i hi; simp [mem_nodes] at hi; omega
          · simp [mem_nodes]
        · simp only [List.foldlM, push_grow x h ha, bind_ok]; exact i2
        · simp at i3 ⊢; omega
        · simp at i3 ⊢; omega
      · have g' := g.snoc_next x h h0
        obtain ⟨i1, s', i2, i3, i4⟩ := ih k g'
        have hc : (cont (pre ++ [cp]) [x]).length = (cont pre cp).length + 1 := by simp [cont]; omega
        rw [hc] at i1
        have hw : pushW (mkS ps al pre cp (List.replicate (k + 1) []) sc sr) (x :: xs) = [.cur, .elem (pre.length + 1) 0, .finish (pre.length + 1)]
            ++ pushW (mkS ps al (pre ++ [cp]) [x] (List.replicate k []) sc sr) xs := by
          have e1 : advanceW (mkS ps al pre cp (List.replicate (k + 1) []) sc sr) = [.cur] := by
            simp [advanceW, h, mkS]
          rw [List.replicate_succ] at e1 ⊢
          simp only [pushW, e1, advance_next h, pushBackW_mk, pushBack_mk]
          simp
        rw [hw]
        refine ⟨?_, s', ?_, ?_, ?_⟩
        · refine Touches.push (c' := pre.length + 1) (j := 0) ⟨h0, by rw [hlen, hps, h]; omega, .inr rfl⟩ ?_ ?_ ?_ ?_ ?_ ?_ (by simpa using i1)
          · intro i k; simp
          · intro i hi; simp
          · left; simp
          · intro i hi; simp at hi
          · intro i hi; simp at hi
          · simp
        · simp only [List.foldlM, List.replicate_succ, push_next x [] h, bind_ok]; exact i2
        · simp at i3 ⊢; omega
        · rw [List.mem_append, i4]; simp; omega
    · have g' := g.snoc_room x h
      obtain ⟨i1, s', i2, i3, i4⟩ := ih k g'
      have hc : (cont pre (cp ++ [x])).length = (cont pre cp).length + 1 := by simp [cont]; omega
      rw [hc] at i1
      have hw : pushW (mkS ps al pre cp (List.replicate k []) sc sr) (x :: xs) = [.elem pre.length cp.length, .finish pre.length]
          ++ pushW (mkS ps al pre (cp ++ [x]) (List.replicate k []) sc sr) xs := by
        have e1 : advanceW (mkS ps al pre cp (List.replicate k []) sc sr) = [] := by simp [advanceW, h]
        simp only [pushW, e1, advance_room h, pushBackW_mk, pushBack_mk]
        simp
      rw [hw]
      refine ⟨?_, s', ?_, ?_, ?_⟩
      · refine Touches.push (c' := pre.length) (j := cp.length) ⟨by have := g.le; omega, by rw [hlen], .inl rfl⟩ ?_ ?_ ?_ ?_ ?_ ?_ i1
        · intro i k; simp
        · intro i hi; simp
        · right; rfl
        · intro i hi; simp at hi
        · intro i hi; simp at hi
        · simp
      · simp only [List.foldlM, push_room x h, bind_ok]; exact i2
      · exact i3
      · rw [List.mem_append, i4]; simp

/-! ### pop and discard -/

/-- One element less. -/
theorem Touches.pop {n take c c' j : Nat} {W0 W : List Cell} (hj : j < ps) (hn : c * ps + j = n)
    (hc' : c' = c ∨ (c = c' + 1 ∧ .cur ∈ W0))
    (he : ∀ i k, .elem i k ∈ W0 ↔ i = c ∧ k = j) (hf : ∀ i, .finish i ∈ W0 ↔ i = c)
    (hl : ∀ i, .start i ∉ W0 ∧ .prev i ∉ W0 ∧ .next i ∉ W0) (hh : .head ∉ W0)
    (hlt : ∀ i, (.start i ∉ W ∧ .prev i ∉ W ∧ .next i ∉ W) ∧ (c' < i → .finish i ∉ W))
    (h : Touches ps n 0 take c' W) : Touches ps (n + 1) 0 (take + 1) c (W0 ++ W) := by
  refine ⟨?_, ?_, ?_, ?_, ?_, ?_⟩
  · intro i k
    rw [List.mem_append, he, h.elem]
    constructor
    · rintro (⟨rfl, rfl⟩ | ⟨a, b⟩)
      · exact ⟨hj, .inr (by omega)⟩
      · refine ⟨a, ?_⟩; unfold Hit at b ⊢; omega
    · rintro ⟨a, b⟩
      by_cases hh : i * ps + k = n
      · left; rw [← hn] at hh; exact height_inj a hj hh
      · right; refine ⟨a, ?_⟩; unfold Hit at b ⊢; omega
  · intro i hi
    rw [List.mem_append, hf i]
    by_cases hic : i = c
    · subst hic
      constructor
      · intro _; exact ⟨n, by rw [← hn]; exact (height hj).1, .inr (by omega)⟩
      · intro _; exact .inl rfl
    · have hle : i ≤ c' := by omega
      rw [h.finish i hle]
      constructor
      · rintro (e | ⟨x, a, b⟩)
        · exact absurd e hic
        · refine ⟨x, a, ?_⟩; unfold Hit at b ⊢; omega
      · rintro ⟨x, a, b⟩
        by_cases hx : x = n
        · exfalso; rw [hx, ← hn, (height hj).1] at a; exact hic a.symm
        · right; refine ⟨x, a, ?_⟩; unfold Hit at b ⊢; omega
  · constructor
    · intro _; omega
    · intro _; right; rw [List.mem_append]; left; exact (hf c).2 rfl
  · intro i hi
    simp only [List.mem_append] at hi
    have := hl i; have := (hlt i).1
    tauto
  · intro i hi
    simp only [List.mem_append] at hi
    have := hl i; have := (hlt i).1
    tauto
  · simp [hh, h.head]

/-- Cells pops never touch. -/
def Aloof (c : Nat) (W : List Cell) : Prop :=
  (∀ i, .start i ∉ W ∧ .prev i ∉ W ∧ .next i ∉ W ∧ (c < i → .finish i ∉ W)) ∧ .tail ∉ W ∧ .sync ∉ W ∧ .shrinkReq ∉ W

theorem popW_spec (h0 : 0 < ps) (m : Nat) : ∀ {pre : List (List α)} {cp : List α} (rest : List (List α)), Good ps pre cp → m ≤ (cont pre cp).length →
    Touches ps (cont pre cp).length 0 m pre.length (popW (mkS ps al pre cp rest sc sr) m) ∧ Aloof pre.length (popW (mkS ps al pre cp rest sc sr) m) ∧
    popR (mkS ps al pre cp rest sc sr) m = (popW (mkS ps al pre cp rest sc sr) m).filter (fun x => match x with | .elem _ _ => true | _ => false) := by
  induction m with
  | zero => intro pre cp rest g _; exact ⟨by simpa [popW] using Touches.nil ps _ _, by simp [popW, Aloof], by simp [popW, popR]⟩
  | succ m ih =>
    intro pre cp rest g hm
    have hlen := g.len
    rcases nil_or_snoc cp with rfl | ⟨q, x, rfl⟩
    · have := g.ne rfl; subst this; simp [cont] at hm
    · have hle : q.length < ps := by have := g.le; simp at this; omega
      by_cases hq : q ≠ [] ∨ pre = []
      · have g' := g.pop_stay hq
        have hc : (cont pre (q ++ [x])).length = (cont pre q).length + 1 := by simp [cont]; omega
        obtain ⟨i1, i2, i3⟩ := ih rest g' (by omega)
        have hw : popOneW (mkS ps al pre (q ++ [x]) rest sc sr) = [.elem pre.length q.length, .finish pre.length] := by
          simp only [popOneW, mkS_cur, mkS_base]
          rcases hq with hq | hq
          · simp [hq]
          · simp [hq]
        have hb : (mkS ps al pre (q ++ [x]) rest sc sr).base[(mkS ps al pre (q ++ [x]) rest sc sr).cur]? = some (q ++ [x]) := by simp
        rw [show popW (mkS ps al pre (q ++ [x]) rest sc sr) (m + 1) = [.elem pre.length q.length, .finish pre.length] ++
          popW (mkS ps al pre q rest sc sr) m by simp only [popW, hw, popOne_stay x hq]]
        rw [show popR (mkS ps al pre (q ++ [x]) rest sc sr) (m + 1) = .elem pre.length q.length :: popR (mkS ps al pre q rest sc sr) m by
          simp only [popR, hb, popOne_stay x hq]; simp]
        refine ⟨?_, ?_, ?_⟩
        · rw [hc]
          exact Touches.pop hle g'.len.symm (.inl rfl) (by simp) (by simp) (by simp) (by simp)
            (fun i => ⟨⟨(i2.1 i).1, (i2.1 i).2.1, (i2.1 i).2.2.1⟩, (i2.1 i).2.2.2⟩) i1
        · refine ⟨fun i => ?_, by simp [i2.2]⟩
          have := i2.1 i
          refine ⟨by simp [this.1], by simp [this.2.1], by simp [this.2.2.1], fun hi => ?_⟩
          simp [this.2.2.2 hi]; omega
        · rw [i3]; simp
      · have hq' : q = [] := Classical.byContradiction fun h => hq (.inl h)
        subst hq'
        rcases nil_or_snoc pre with rfl | ⟨pre', r, rfl⟩
        · exact absurd (.inr rfl) hq
        · have g' := g.pop_cross h0
          have hc : (cont (pre' ++ [r]) [x]).length = (cont pre' r).length + 1 := by simp [cont]; omega
          obtain ⟨i1, i2, i3⟩ := ih ([] :: rest) g' (by simp at hm; omega)
          have hw : popOneW (mkS ps al (pre' ++ [r]) [x] rest sc sr) = [.elem (pre'.length + 1) 0, .finish (pre'.length + 1), .cur] := by
            simp only [popOneW, mkS_cur, mkS_base]
            simp
          have hb : (mkS ps al (pre' ++ [r]) [x] rest sc sr).base[(mkS ps al (pre' ++ [r]) [x] rest sc sr).cur]? = some [x] := by
            simp [mkS]
          rw [show popW (mkS ps al (pre' ++ [r]) ([] ++ [x]) rest sc sr) (m + 1) = [.elem (pre'.length + 1) 0, .finish (pre'.length + 1), .cur] ++
            popW (mkS ps al pre' r ([] :: rest) sc sr) m by simp only [popW, List.nil_append, hw, popOne_cross]]
          rw [show popR (mkS ps al (pre' ++ [r]) ([] ++ [x]) rest sc sr) (m + 1) = .elem (pre'.length + 1) 0 :: popR (mkS ps al pre' r ([] :: rest) sc sr) m by
            simp only [popR, List.nil_append, hb, popOne_cross]; simp]
          have hl' : (pre' ++ [r]).length = pre'.length + 1 := by simp
          rw [hl'] at hlen ⊢
          refine ⟨?_, ?_, ?_⟩
          · rw [List.nil_append, hc]
            refine Touches.pop (c' := pre'.length) h0 ?_ (.inr ⟨rfl, by simp⟩) (by simp) (by simp) (by simp) (by simp)
              (fun i => ⟨⟨(i2.1 i).1, (i2.1 i).2.1, (i2.1 i).2.2.1⟩, (i2.1 i).2.2.2⟩) i1
            rw [g'.len, g.full r (by simp), Nat.add_mul]; omega
          · refine ⟨fun i => ?_, by simp [i2.2]⟩
            have := i2.1 i
            refine ⟨by simp [this.1], by simp [this.2.1], by simp [this.2.2.1], fun hi => ?_⟩
            simp [this.2.2.2 (by omega)]; omega
          · rw [i3]; simp

theorem mem_cutW {i n : Nat} {p : List α} {x : Cell} : x ∈ cutW i p n ↔ n < p.length ∧ (x = .finish i ∨ ∃ j, n ≤ j ∧ j < p.length ∧ x = .elem i j) := by
  unfold cutW
  split
  · simp; omega
  · simp [mem_elems]; intro _; omega

/-- discard(m) touches what m pops touch. -/
theorem discardW_spec (h0 : 0 < ps) : ∀ (c : Nat) {pre : List (List α)} {cp : List α} (rest : List (List α)) (m : Nat), pre.length = c → Good ps pre cp →
    m ≤ (cont pre cp).length →
    Touches ps (cont pre cp).length 0 m pre.length (discardW (pre ++ cp :: rest) pre.length m) ∧ Aloof pre.length (discardW (pre ++ cp :: rest) pre.length m) := by
  intro c
  induction c with
  | zero =>
    intro pre cp rest m hp g hm
    have : pre = [] := List.eq_nil_of_length_eq_zero hp
    subst this
    have hle := g.le
    simp only [cont, List.flatten_nil, List.nil_append, List.length_nil] at hm ⊢
    have hw : discardW (cp :: rest) 0 m = cutW 0 cp (cp.length - m) := by simp [discardW]
    rw [hw]
    refine ⟨⟨?_, ?_, ?_, ?_, ?_, ?_⟩, ?_⟩
    · intro i j
      rw [mem_cutW]
      constructor
      · rintro ⟨a, b | ⟨j', b1, b2, b3⟩⟩
        · cases b
        · cases b3; refine ⟨by omega, ?_⟩; unfold Hit; omega
      · rintro ⟨a, b⟩
        unfold Hit at b
        have hi : i = 0 := by
          rcases Nat.eq_zero_or_pos i with h | h
          · exact h
          · have : ps ≤ i * ps := Nat.le_mul_of_pos_left _ h; omega
        subst hi
        exact ⟨by omega, .inr ⟨j, by omega, by omega, rfl⟩⟩
    · intro i hi
      rw [mem_cutW]
      have : i = 0 := by omega
      subst this
      constructor
      · rintro ⟨a, -⟩
        have : cp.length - 1 < ps := by omega
        exact ⟨cp.length - 1, Nat.div_eq_of_lt this, .inr (by omega)⟩
      · rintro ⟨x, a, b⟩; unfold Hit at b; exact ⟨by omega, .inl rfl⟩
    · constructor
      · rintro (h | h) <;> (rw [mem_cutW] at h; omega)
      · intro h; right; rw [mem_cutW]; exact ⟨by omega, .inl rfl⟩
    · intro i hi; simp [mem_cutW] at hi
    · intro i hi; simp [mem_cutW] at hi
    · simp [mem_cutW]
    · refine ⟨fun i => ⟨by simp [mem_cutW], by simp [mem_cutW], by simp [mem_cutW], ?_⟩, by simp [mem_cutW]⟩
      intro hi; simp [mem_cutW]; omega
  | succ c ih =>
    intro pre cp rest m hp g hm
    rcases nil_or_snoc pre with rfl | ⟨pre', q, rfl⟩
    · cases hp
    · have hl : (pre' ++ [q]).length = pre'.length + 1 := by simp
      have hlen := g.len
      have hle := g.le
      have hcp : 0 < cp.length := by
        rcases Nat.eq_zero_or_pos cp.length with h | h
        · have := g.ne (List.eq_nil_of_length_eq_zero h); simp at this
        · exact h
      rw [hl] at hlen ⊢
      have hps : (pre'.length + 1) * ps = pre'.length * ps + ps := by rw [Nat.add_mul, Nat.one_mul]
      by_cases hcount : m ≥ cp.length
      · have g' := g.pop_cross h0
        have hq := g.full q (by simp)
        have hc : (cont (pre' ++ [q]) cp).length = (cont pre' q).length + cp.length := by simp [cont]; omega
        have hn : (cont pre' q).length = (pre'.length + 1) * ps := by rw [g'.len, hps, hq]
        obtain ⟨i1, i2⟩ := ih (cp :: rest) (m - cp.length) (by simp at hp; omega) g' (by omega)
        have hw : discardW (pre' ++ [q] ++ cp :: rest) (pre'.length + 1) m = cutW (pre'.length + 1) cp 0 ++ .cur ::
            discardW (pre' ++ q :: cp :: rest) pre'.length (m - cp.length) := by
          have e : (pre' ++ [q] ++ cp :: rest)[pre'.length + 1]? = some cp := by
            rw [← hl, List.getElem?_append_right (Nat.le_refl _)]; simp
          have e2 : pre' ++ [q] ++ cp :: rest = pre' ++ q :: cp :: rest := by simp
          rw [discardW, e]
          simp only [hcount, if_true, e2]
        rw [hw, hc, hn]
        rw [hn] at i1
        refine ⟨⟨?_, ?_, ?_, ?_, ?_, ?_⟩, ?_⟩
        · intro i j
          rw [List.mem_append, List.mem_cons, mem_cutW, i1.elem]
          constructor
          · rintro (⟨a, b | ⟨j', b1, b2, b3⟩⟩ | b | ⟨a, b⟩)
            · cases b
            · cases b3; refine ⟨by omega, ?_⟩; unfold Hit; omega
            · cases b
            · refine ⟨a, ?_⟩; unfold Hit at b ⊢; omega
          · rintro ⟨a, b⟩
            unfold Hit at b
            by_cases hh : i * ps + j < (pre'.length + 1) * ps
            · right; right; refine ⟨a, ?_⟩; unfold Hit; omega
            · left
              have hj : i * ps + j - (pre'.length + 1) * ps < ps := by omega
              obtain ⟨e1, e2⟩ := height_inj (i := i) (i' := pre'.length + 1) (j' := i * ps + j - (pre'.length + 1) * ps) a hj (by omega)
              exact ⟨hcp, .inr ⟨j, by omega, by omega, by rw [e1]⟩⟩
        · intro i hi
          rw [List.mem_append, List.mem_cons, mem_cutW]
          by_cases hic : i = pre'.length + 1
          · subst hic
            constructor
            · intro _
              refine ⟨(pre'.length + 1) * ps + 0, (height h0).1, .inr (by omega)⟩
            · intro _; left; exact ⟨hcp, .inl rfl⟩
          · rw [i1.finish i (by omega)]
            constructor
            · rintro (⟨_, e | ⟨_, _, _, e⟩⟩ | e | ⟨x, a, b⟩)
              · cases e; exact absurd rfl hic
              · cases e
              · cases e
              · refine ⟨x, a, ?_⟩; unfold Hit at b ⊢; omega
            · rintro ⟨x, a, b⟩
              right; right
              refine ⟨x, a, ?_⟩
              have : x < (pre'.length + 1) * ps := by
                rw [← Nat.div_lt_iff_lt_mul h0]; omega
              unfold Hit at b ⊢; omega
        · constructor
          · intro _; omega
          · intro _; left; simp
        · intro i hi
          have := i2.1 i
          simp [mem_cutW, this.1, this.2.1] at hi
        · intro i hi
          have := i2.1 i
          simp [mem_cutW, this.2.2.1] at hi
        · simp [mem_cutW, i1.head]
        · refine ⟨fun i => ?_, by simp [mem_cutW, i2.2]⟩
          have := i2.1 i
          refine ⟨by simp [mem_cutW, this.1], by simp [mem_cutW, this.2.1], by simp [mem_cutW, this.2.2.1], fun hi => ?_⟩
          simp [mem_cutW, this.2.2.2 (by omega)]; omega
      · have hw : discardW (pre' ++ [q] ++ cp :: rest) (pre'.length + 1) m = cutW (pre'.length + 1) cp (cp.length - m) := by
          have e : (pre' ++ [q] ++ cp :: rest)[pre'.length + 1]? = some cp := by
            rw [← hl, List.getElem?_append_right (Nat.le_refl _)]; simp
          rw [discardW, e]
          simp only [hcount, if_false]
        rw [hw, hlen]
        refine ⟨⟨?_, ?_, ?_, ?_, ?_, ?_⟩, ?_⟩
        · intro i j
          rw [mem_cutW]
          constructor
          · rintro ⟨a, b | ⟨j', b1, b2, b3⟩⟩
            · cases b
            · cases b3; refine ⟨by omega, ?_⟩; unfold Hit; omega
          · rintro ⟨a, b⟩
            unfold Hit at b
            have hj : i * ps + j - (pre'.length + 1) * ps < ps := by omega
            obtain ⟨e1, e2⟩ := height_inj (i := i) (i' := pre'.length + 1) (j' := i * ps + j - (pre'.length + 1) * ps) a hj (by omega)
            exact ⟨by omega, .inr ⟨j, by omega, by omega, by rw [e1]⟩⟩
        · intro i hi
          rw [mem_cutW]
          constructor
          · rintro ⟨a, e | ⟨_, _, _, e⟩⟩
            · cases e
              refine ⟨(pre'.length + 1) * ps + (cp.length - 1), (height (by omega)).1, .inr (by omega)⟩
            · cases e
          · rintro ⟨x, a, b⟩
            have e1 := (split_height (h := x) h0).1
            have e2 := (split_height (h := x) h0).2
            unfold Hit at b
            have hj : x - (pre'.length + 1) * ps < ps := by omega
            obtain ⟨e3, -⟩ := height_inj (i := x / ps) (i' := pre'.length + 1) (j' := x - (pre'.length + 1) * ps) e2 hj (by omega)
            exact ⟨by omega, .inl (by rw [← a, e3])⟩
        · constructor
          · rintro (h | h) <;> (rw [mem_cutW] at h; omega)
          · intro h; right; rw [mem_cutW]; exact ⟨by omega, .inl rfl⟩
        · intro i hi; simp [mem_cutW] at hi
        · intro i hi; simp [mem_cutW] at hi
        · simp [mem_cutW]
        · refine ⟨fun i => ⟨by simp [mem_cutW], by simp [mem_cutW], by simp [mem_cutW], ?_⟩, by simp [mem_cutW]⟩
          intro hi; simp [mem_cutW]; omega

end Falcon.PagedStack
