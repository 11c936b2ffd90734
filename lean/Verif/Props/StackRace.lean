import Verif.Spec.StackRace
import Verif.Proofs.StackReads
import Verif.Proofs.PSKeep
/-
C152: plain iterators of a PagedStack beside other threads.
-/
namespace Falcon.PagedStack
variable {α : Type} {ps al : Nat}

theorem clash_iff (s : PS α) (u : Use) (op : Op α) :
    RaceWith s u op ↔ (∃ x ∈ useReads s u, x ∈ writes s op) ∨ ∃ x ∈ useWrites u, x ∈ writes s op ∨ x ∈ elemReads s op := by
  constructor
  · rintro ⟨x, hx, y, hy, h1, h2, -, -⟩
    simp only [useFoot, List.mem_append, List.mem_map] at hx
    simp only [lockFoot, List.mem_append, List.mem_map] at hy
    rcases hx with ⟨a, ha, rfl⟩ | ⟨a, ha, rfl⟩ <;> rcases hy with ⟨b, hb, rfl⟩ | ⟨b, hb, rfl⟩
    · cases h1; exact .inl ⟨_, ha, hb⟩
    · simp at h2
    · cases h1; exact .inr ⟨_, ha, .inl hb⟩
    · cases h1; exact .inr ⟨_, ha, .inr hb⟩
  · rintro (⟨x, a, b⟩ | ⟨x, a, b | b⟩)
    · exact ⟨_, List.mem_append.2 (.inl (List.mem_map.2 ⟨x, a, rfl⟩)), _, List.mem_append.2 (.inl (List.mem_map.2 ⟨x, b, rfl⟩)), rfl, by simp, by simp, by simp⟩
    · exact ⟨_, List.mem_append.2 (.inr (List.mem_map.2 ⟨x, a, rfl⟩)), _, List.mem_append.2 (.inl (List.mem_map.2 ⟨x, b, rfl⟩)), rfl, by simp, by simp, by simp⟩
    · exact ⟨_, List.mem_append.2 (.inr (List.mem_map.2 ⟨x, a, rfl⟩)), _, List.mem_append.2 (.inr (List.mem_map.2 ⟨x, b, rfl⟩)), rfl, by simp, by simp, by simp⟩

theorem eraseW_mem {pre : List (List α)} {cp : List α} {k : Nat} {sc : Int} {sr : Bool} {x : Cell}
    (hx : x ∈ eraseW (mkS ps al pre cp (List.replicate k []) sc sr)) : x = .next pre.length ∨ x = .tail ∨
    ∃ i, pre.length < i ∧ (x = .next i ∨ x = .prev i ∨ x = .start i ∨ x = .finish i) := by
  unfold eraseW at hx
  split at hx
  · simp at hx
  · simp only [List.cons_append, List.nil_append, List.mem_cons, List.mem_append, mem_nodes, mkS_cur] at hx
    rcases hx with h | h | ⟨j, h1, h2⟩ | h
    · exact .inl h
    · exact .inr (.inl h)
    · exact .inr (.inr ⟨_, by omega, h2⟩)
    · exfalso
      obtain ⟨⟨p, i⟩, h1, h2⟩ := List.mem_flatMap.1 h
      have hp : p ∈ List.replicate k ([] : List α) := by
        have := (List.mem_zipIdx h1).2.2
        rw [this]
        have e : (mkS ps al pre cp (List.replicate k []) sc sr).base.drop (pre.length + 1) = List.replicate k [] := by
          rw [mkS_base, show pre ++ cp :: List.replicate k [] = (pre ++ [cp]) ++ List.replicate k [] by simp,
            show pre.length + 1 = (pre ++ [cp]).length by simp, List.drop_left]
        simp only [e]; exact List.getElem_mem _
      rw [(List.mem_replicate.1 hp).2] at h2
      simp [elems] at h2

/-- Nothing added or removed: what remains are the ends of the list. -/
theorem Touches.quiet {n c : Nat} {W : List Cell} (h : ∀ x ∈ W, x = .tail ∨ x = .sync ∨ x = .shrinkReq ∨ x = .next c ∨
    ∃ i, c < i ∧ (x = .next i ∨ x = .prev i ∨ x = .start i ∨ x = .finish i)) : Touches ps n 0 0 c W where
  elem := by
    intro i j
    constructor
    · intro hx; rcases h _ hx with e | e | e | e | ⟨_, _, e | e | e | e⟩ <;> cases e
    · rintro ⟨_, b⟩; unfold Hit at b; omega
  finish := by
    intro i hi
    constructor
    · intro hx; rcases h _ hx with e | e | e | e | ⟨_, _, e | e | e | e⟩ <;> cases e; omega
    · rintro ⟨_, _, b⟩; unfold Hit at b; omega
  size := by
    constructor
    · rintro (hx | hx) <;> rcases h _ hx with e | e | e | e | ⟨_, _, e | e | e | e⟩ <;> cases e; omega
    · intro hx; omega
  low := by
    rintro i (hx | hx) <;> rcases h _ hx with e | e | e | e | ⟨_, _, e | e | e | e⟩ <;> cases e <;> assumption
  next := by
    intro i hx; rcases h _ hx with e | e | e | e | ⟨_, _, e | e | e | e⟩ <;> cases e <;> omega
  head := by
    intro hx; rcases h _ hx with e | e | e | e | ⟨_, _, e | e | e | e⟩ <;> cases e

theorem touches (h0 : 0 < ps) (ha : 0 < al) {s : PS α} (h : Inv ps al s) (op : Op α) (hv : Callable (contents s).length op)
    (hs : ∀ x, op ≠ .setTop x) : Touches ps (contents s).length (adds op) (takes op) s.cur (writes s op) := by
  obtain ⟨pre, cp, k, n, sr, rfl, g⟩ := h
  rw [contents_mk, List.length_reverse] at *
  cases op with
  | push x => exact (pushW_spec h0 ha [x] k g).1
  | pushEmplace x => exact (pushW_spec h0 ha [x] k g).1
  | pushMany x xs => exact (pushW_spec h0 ha (x :: xs) k g).1
  | pop => exact (popW_spec h0 1 _ g hv).1
  | popMany m => exact (popW_spec h0 m _ g hv).1
  | discard m => exact (discardW_spec h0 pre.length (List.replicate k []) m rfl g hv).1
  | setTop x => exact absurd rfl (hs x)
  | shrink =>
    refine Touches.quiet fun x hx => ?_
    simp only [writes] at hx
    split at hx
    · simp at hx; exact .inr (.inr (.inl hx))
    · rcases eraseW_mem hx with e | e | e
      · exact .inr (.inr (.inr (.inl e)))
      · exact .inl e
      · exact .inr (.inr (.inr (.inr e)))
  | syncNew => exact Touches.quiet fun x hx => by simp [writes] at hx; simp [hx]
  | syncDrop =>
    refine Touches.quiet fun x hx => ?_
    simp only [writes, List.mem_cons] at hx
    rcases hx with hx | hx
    · exact .inr (.inl hx)
    · split at hx
      · rcases List.mem_cons.1 hx with e | hx
        · exact .inr (.inr (.inl e))
        · rcases eraseW_mem hx with e | e | e
          · exact .inr (.inr (.inr (.inl e)))
          · exact .inl e
          · exact .inr (.inr (.inr (.inr e)))
      · simp at hx
  | _ => exact Touches.quiet fun x hx => by simp [writes] at hx

theorem setTop_writes {s : PS α} (h : Inv ps al s) (h0 : 0 < ps) (hn : 0 < (contents s).length) (x : α) :
    writes s (.setTop x) = [.elem (((contents s).length - 1) / ps) (((contents s).length - 1) % ps)] := by
  obtain ⟨pre, cp, k, n, sr, rfl, g⟩ := h
  rw [contents_mk, List.length_reverse] at *
  obtain ⟨e1, e2⟩ := last_pos g h0 ((cont pre cp).length - 1) (by omega)
  simp only [writes, mkS_cur, mkS_base]
  rw [e1, show ((cont pre cp).length - 1) % ps = cp.length - 1 by omega]
  simp

/-- Page and place of height `h`, on a stack of more than `h` elements. -/
theorem low_page {s : PS α} (hi : Inv ps al s) (h0 : 0 < ps) {h : Nat} (hh : h < (contents s).length) : h / ps ≤ s.cur := by
  obtain ⟨pre, cp, k, n, sr, rfl, g⟩ := hi
  rw [contents_mk, List.length_reverse] at *
  obtain ⟨p, h1, h2, h3, -⟩ := page_pos (al := al) (rest := List.replicate k []) (sc := n) (sr := sr) g h0 h hh
  exact h3

/-- C152, walking down: `++` on a forward iterator races with a call exactly if the iterator is about to
leave its page and the call takes away the element it is about to step on; `*` exactly if the call
takes away or overwrites the element. -/
theorem C152_walk_partial (h0 : 0 < ps) (ha : 0 < al) {s : PS α} (hr : Reach ps al s) (op : Op α) (hv : Callable (contents s).length op)
    (h : Nat) (hh : h < (contents s).length) (it : Iter) (hit : At ps h it) (hb : it.bound = 0) :
    (RaceWith s (.inc it) op ↔ h % ps = 0 ∧ 0 < h ∧ (contents s).length < h + takes op) ∧
    (RaceWith s (.read it) op ↔ (contents s).length ≤ h + takes op ∨ ((∃ x, op = .setTop x) ∧ (contents s).length = h + 1)) := by
  have hi := hr.inv h0 ha
  have hp := low_page hi h0 hh
  obtain ⟨e1, e2⟩ := hit
  obtain ⟨s1, s2⟩ := split_height (h := h) h0
  by_cases hs : ∃ x, op = .setTop x
  · obtain ⟨x, rfl⟩ := hs
    have hw := setTop_writes hi h0 hv x
    obtain ⟨t1, t2⟩ := split_height (h := (contents s).length - 1) h0
    constructor
    · rw [clash_iff, hw]
      simp only [useReads, useWrites, takes]
      constructor
      · rintro (⟨y, h1, h2⟩ | ⟨y, h1, -⟩)
        · exfalso
          rw [List.mem_singleton.1 h2] at h1
          rcases List.mem_cons.1 h1 with h1 | h1
          · cases h1
          · split at h1 <;> simp at h1
        · simp at h1
      · intro hx; omega
    · rw [clash_iff, hw]
      simp only [useReads, useWrites, takes, List.mem_singleton, List.not_mem_nil, false_and, exists_false, or_false, e1, e2, Int.toNat_natCast]
      constructor
      · rintro ⟨y, rfl, h2⟩
        obtain ⟨a, b⟩ := Cell.elem.inj h2
        right
        refine ⟨⟨x, rfl⟩, ?_⟩
        have : h = (contents s).length - 1 := by rw [s1, t1, a, b]
        omega
      · rintro (hx | ⟨-, hx⟩)
        · omega
        · exact ⟨_, rfl, by rw [hx]; simp⟩
  · have ht := touches h0 ha hi op hv (fun x e => hs ⟨x, e⟩)
    have had : 0 < takes op → adds op = 0 := by cases op <;> simp [adds, takes]
    constructor
    · rw [clash_iff]
      simp only [useReads, useWrites, List.not_mem_nil, false_and, exists_false, or_false]
      constructor
      · rintro ⟨y, h1, h2⟩
        rcases List.mem_cons.1 h1 with rfl | h1
        · have := ht.low _ (.inl h2); omega
        · split at h1
          · rename_i hc
            have hm : h % ps = 0 := by rw [e2] at hc; omega
            have hpos : 0 < h / ps := by have := hc.2; rw [hb, e1] at this; omega
            have hge : ps ≤ h := by
              have := Nat.div_pos_iff.1 hpos; omega
            simp only [List.mem_cons, List.not_mem_nil, or_false] at h1
            rcases h1 with rfl | rfl
            · have := ht.low _ (.inr h2); omega
            · rw [ht.finish _ (by omega)] at h2
              obtain ⟨y, y1, y2⟩ := h2
              have hy : y < h := by
                have : y / ps < h / ps := by omega
                rw [Nat.div_lt_iff_lt_mul h0] at this
                rw [s1, hm]; exact this
              refine ⟨hm, by omega, ?_⟩
              unfold Hit at y2; omega
          · simp at h1
      · rintro ⟨a, b, c⟩
        have hq : 0 < h / ps := by
          rcases Nat.eq_zero_or_pos (h / ps) with hz | hz
          · rw [hz, a] at s1; omega
          · exact hz
        refine ⟨.finish (it.page - 1), ?_, ?_⟩
        · rw [List.mem_cons, if_pos ⟨by rw [e2, a]; rfl, by rw [hb, e1]; omega⟩]; simp
        · rw [ht.finish _ (by omega)]
          refine ⟨h - 1, ?_, .inr ⟨by omega, by omega⟩⟩
          rw [e1]
          have : h = (h / ps - 1) * ps + (ps - 1) + 1 := by
            rw [Nat.sub_mul, Nat.one_mul]
            have : ps ≤ h / ps * ps := Nat.le_mul_of_pos_left _ hq
            omega
          rw [show h - 1 = (h / ps - 1) * ps + (ps - 1) by omega]
          exact (height (by omega)).1
    · rw [clash_iff]
      simp only [useReads, useWrites, List.mem_singleton, List.not_mem_nil, false_and, exists_false, or_false, exists_eq_left, e1, e2, Int.toNat_natCast]
      rw [ht.elem, ← s1]
      constructor
      · rintro ⟨-, y⟩; left; unfold Hit at y; omega
      · rintro (y | ⟨y, -⟩)
        · exact ⟨s2, .inr ⟨hh, y⟩⟩
        · exact absurd y hs

/-- C152: public calls never race with each other. -/
theorem C152_locked_partial (s s' : PS α) (op op' : Op α) : ¬ ∃ x ∈ lockFoot s op, ∃ y ∈ lockFoot s' op', Race.Clash x y := by
  rintro ⟨x, hx, y, hy, -, -, -, h⟩
  simp only [lockFoot, List.mem_append, List.mem_map] at hx hy
  have hl : x.held = [()] := by rcases hx with ⟨_, _, rfl⟩ | ⟨_, _, rfl⟩ <;> rfl
  have hl' : y.held = [()] := by rcases hy with ⟨_, _, rfl⟩ | ⟨_, _, rfl⟩ <;> rfl
  exact h () (by simp [hl]) (by simp [hl'])

/-- Only on a full page is an iterator below the top at the end of its page. -/
theorem race_page_full {s : PS α} (hi : Inv ps al s) (h0 : 0 < ps) {h : Nat} (hh : h + 1 < (contents s).length) (it : Iter) (hit : At ps h it) :
    useReads.atEnd s it = true → h / ps < s.cur := by
  obtain ⟨pre, cp, k, n, sr, rfl, g⟩ := hi
  rw [contents_mk, List.length_reverse] at *
  obtain ⟨p, h1, h2, h3, h4, h5⟩ := page_pos (al := al) (rest := List.replicate k []) (sc := n) (sr := sr) g h0 h (by omega)
  obtain ⟨e1, e2⟩ := hit
  intro ha
  have h6 : (mkS ps al pre cp (List.replicate k []) (n : Int) sr).base[h / ps]? = some p := by
    unfold PS.page at h1; split at h1 <;> cases h1; assumption
  rw [useReads.atEnd, e1, h6] at ha
  simp only [beq_iff_eq, e2] at ha
  rcases Nat.lt_or_ge (h / ps) pre.length with hx | hx
  · exact hx
  · exfalso
    have hp := h5 (by omega)
    subst hp
    have := g.len
    have s1 := (split_height (h := h) h0).1
    rw [show h / ps = pre.length by omega] at s1
    omega

/-- C152, walking up: `--` on a forward iterator and `++` on a reverse one, below the top, race with a call
exactly if the call adds to the page of the iterator or takes from it. -/
theorem C152_up_partial (h0 : 0 < ps) (ha : 0 < al) {s : PS α} (hr : Reach ps al s) (op : Op α) (hv : Callable (contents s).length op)
    (h : Nat) (hh : h + 1 < (contents s).length) (it : Iter) (hit : At ps h it) :
    let n := (contents s).length
    let P := ∃ i, i / ps = h / ps ∧ ((n ≤ i ∧ i < n + adds op) ∨ (i < n ∧ n ≤ i + takes op))
    (RaceWith s (.dec it) op ↔ P) ∧ (RaceWith s (.rinc it) op ↔ P) := by
  have hi := hr.inv h0 ha
  have hp := low_page hi h0 (h := h) (by omega)
  have hfull := race_page_full hi h0 hh it hit
  have e1 := hit.1
  intro n P
  by_cases hs : ∃ x, op = .setTop x
  · obtain ⟨x, rfl⟩ := hs
    have hw := setTop_writes hi h0 hv x
    have hP : ¬ P := by rintro ⟨i, -, hx⟩; simp only [adds, takes] at hx; omega
    simp only [hP, iff_false, clash_iff, hw, useReads, useWrites, List.mem_singleton, List.not_mem_nil, false_and, exists_false, or_false, exists_eq_right]
    constructor <;> (intro h1; rcases List.mem_cons.1 h1 with h1 | h1; cases h1; split at h1 <;> simp at h1)
  · have ht := touches h0 ha hi op hv (fun x e => hs ⟨x, e⟩)
    have key : ∀ c : Prop, [Decidable c] → (c → useReads.atEnd s it = true) →
        ((∃ x ∈ (.finish it.page :: if c then [.next it.page, .start (it.page + 1)] else []), x ∈ writes s op) ↔ P) := by
      intro c _ hc
      constructor
      · rintro ⟨y, h1, h2⟩
        rcases List.mem_cons.1 h1 with rfl | h1
        · rw [e1, ht.finish _ hp] at h2; exact h2
        · exfalso
          split at h1
          · rename_i hcc
            have := hfull (hc hcc)
            simp only [List.mem_cons, List.not_mem_nil, or_false] at h1
            rcases h1 with rfl | rfl
            · have := ht.next _ h2; omega
            · have := ht.low _ (.inl h2); omega
          · simp at h1
      · intro hP
        exact ⟨_, List.mem_cons_self, by rw [e1, ht.finish _ hp]; exact hP⟩
    simp only [clash_iff, useReads, useWrites, List.not_mem_nil, false_and, exists_false, or_false]
    exact ⟨key _ fun h => h, key _ fun h => h.1⟩

/-- C152: `--` on a reverse iterator races exactly if `++` on a forward one does. -/
theorem C152_down_partial (h0 : 0 < ps) (ha : 0 < al) {s : PS α} (hr : Reach ps al s) (op : Op α) (hv : Callable (contents s).length op)
    (h : Nat) (h1 : 0 < h) (hh : h < (contents s).length) (it : Iter) (hit : At ps h it) :
    RaceWith s (.rdec it) op ↔ h % ps = 0 ∧ (contents s).length < h + takes op := by
  have hw := (C152_walk_partial h0 ha hr op hv h hh { it with bound := 0 } hit rfl).1
  have : RaceWith s (.rdec it) op ↔ RaceWith s (.inc { it with bound := 0 }) op := by
    have hd : it.off = 0 → it.page ≠ 0 := by
      intro h2 h3
      have s1 := (split_height (h := h) h0).1
      have e1 := hit.1; have e2 := hit.2
      rw [← e1, h3] at s1; omega
    have : useReads s (.rdec it) = useReads s (.inc { it with bound := 0 }) := by
      simp only [useReads]
      by_cases hx : it.off = 0
      · simp [hx, hd hx]
      · simp [hx]
    simp only [clash_iff, this, useWrites]
  rw [this, hw]
  constructor
  · rintro ⟨a, -, b⟩; exact ⟨a, b⟩
  · rintro ⟨a, b⟩; exact ⟨a, h1, b⟩

/-- C152: begin() and rend() race exactly with the calls that add or remove elements; end() with none. -/
theorem C152_ends_partial (h0 : 0 < ps) (ha : 0 < al) {s : PS α} (hr : Reach ps al s) (op : Op α) (hv : Callable (contents s).length op) :
    (RaceWith s .begin op ↔ 0 < adds op + takes op) ∧ (RaceWith s .rend op ↔ 0 < adds op + takes op) ∧ ¬ RaceWith s .end_ op := by
  have hi := hr.inv h0 ha
  by_cases hs : ∃ x, op = .setTop x
  · obtain ⟨x, rfl⟩ := hs
    simp [clash_iff, setTop_writes hi h0 hv x, useReads, useWrites, adds, takes]
  · have ht := touches h0 ha hi op hv (fun x e => hs ⟨x, e⟩)
    have hh := ht.head
    have hz := ht.size
    have hl := ht.low 0
    simp only [clash_iff, useReads, useWrites, List.not_mem_nil, false_and, exists_false, or_false, List.mem_cons, exists_eq_or_imp, exists_eq_left]
    refine ⟨?_, hz, ?_⟩
    · rw [← hz]; simp only [hh, or_false]
    · rintro (h | h)
      · exact hh h
      · have := hl (.inl h); omega

theorem tail_iff (h0 : 0 < ps) (ha : 0 < al) {s : PS α} (hi : Inv ps al s) (op : Op α) (hv : Callable (contents s).length op)
    {s' : PS α} {o : Out α} (he : step s op = .ok (s', o)) : .tail ∈ writes s op ↔ s.base.length ≠ s'.base.length := by
  refine ⟨fun hw => ?_, fun hx => Classical.byContradiction fun hn => hx (covers_step he .tail hn)⟩
  have erase : ∀ {t : PS α}, .tail ∈ eraseW t → t.base.length ≠ (internalShrink t).base.length := by
    intro t ht
    unfold eraseW at ht
    split at ht
    · simp at ht
    · simp only [internalShrink, List.length_take]; omega
  obtain ⟨pre, cp, k, n, sr, rfl, g⟩ := hi
  rw [contents_mk, List.length_reverse] at *
  have push : ∀ x (xs : List α), pushMany (mkS ps al pre cp (List.replicate k []) (n : Int) sr) x xs = .ok s' →
      .tail ∈ pushW (mkS ps al pre cp (List.replicate k []) (n : Int) sr) (x :: xs) →
      (mkS ps al pre cp (List.replicate k []) (n : Int) sr).base.length ≠ s'.base.length := by
    intro x xs h1 h2
    obtain ⟨-, t, t1, t2, t3⟩ := pushW_spec (al := al) (sc := n) (sr := sr) h0 ha (x :: xs) k g
    have := pushMany_eq (mkS ps al pre cp (List.replicate k []) (n : Int) sr) x xs
    rw [h1] at this
    have e : s' = t := by
      have h3 : (.ok s' : Res (PS α)) = .ok t := this.trans t1
      injection h3
    rw [e]; exact fun e => (t3.1 h2) (e.symm.trans (by simp [mkS]; omega))
  cases op with
  | push x =>
    simp only [step] at he
    obtain ⟨t, h1, h2⟩ := life_bind_ok' he
    cases h2; exact push x [] h1 hw
  | pushEmplace x =>
    simp only [step] at he
    obtain ⟨t, h1, h2⟩ := life_bind_ok' he
    cases h2; exact push x [] h1 hw
  | pushMany x xs =>
    simp only [step] at he
    obtain ⟨t, h1, h2⟩ := life_bind_ok' he
    cases h2; exact push x xs h1 hw
  | pop => exact absurd hw (popW_spec h0 1 _ g hv).2.1.2.1
  | popMany m => exact absurd hw (popW_spec h0 m _ g hv).2.1.2.1
  | discard m => exact absurd hw (discardW_spec h0 pre.length (List.replicate k []) m rfl g hv).2.2.1
  | setTop x => simp only [writes] at hw; split at hw <;> simp at hw
  | shrink =>
    simp only [step] at he
    cases he
    simp only [writes, shrinkToFit] at hw ⊢
    split at hw
    · simp at hw
    · rename_i hc; rw [if_neg hc]; exact erase hw
  | syncNew => simp [writes] at hw
  | syncDrop =>
    simp only [step] at he
    cases he
    simp only [writes, syncDrop, List.mem_cons] at hw ⊢
    rcases hw with hw | hw
    · cases hw
    · split at hw
      · rename_i hc
        rw [if_pos ⟨by omega, hc.2⟩]
        rcases List.mem_cons.1 hw with hw | hw
        · cases hw
        · have := erase hw
          simpa [internalShrink] using this
      · simp at hw
  | _ => simp [writes] at hw

/-- C152: rbegin() races exactly with the calls after which getStats() reports another number of blocks. -/
theorem C152_rbegin_partial (h0 : 0 < ps) (ha : 0 < al) {s s' : PS α} (hr : Reach ps al s) (op : Op α) (hv : Callable (contents s).length op)
    {o : Out α} (he : step s op = .ok (s', o)) {a b : Stats} (h1 : getStats s = .ok a) (h2 : getStats s' = .ok b) :
    RaceWith s .rbegin op ↔ a.blocks ≠ b.blocks := by
  have hi := hr.inv h0 ha
  have e1 : a.blocks = s.base.length := by
    unfold getStats at h1; obtain ⟨_, _, h⟩ := life_bind_ok' h1; cases h; rfl
  have e2 : b.blocks = s'.base.length := by
    unfold getStats at h2; obtain ⟨_, _, h⟩ := life_bind_ok' h2; cases h; rfl
  rw [e1, e2, ← tail_iff h0 ha hi op hv he]
  simp only [clash_iff, useReads, useWrites, List.not_mem_nil, false_and, exists_false, or_false, List.mem_cons, exists_eq_or_imp, exists_eq_left]
  by_cases hs : ∃ x, op = .setTop x
  · obtain ⟨x, rfl⟩ := hs
    simp [setTop_writes hi h0 hv x]
  · have ht := touches h0 ha hi op hv (fun x e => hs ⟨x, e⟩)
    constructor
    · rintro (h | h | h)
      · exact absurd h ht.head
      · have := ht.low 0 (.inl h); omega
      · exact h
    · intro h; exact .inr (.inr h)

/-- C152: writing through an iterator races exactly with the calls that take away, overwrite or read the
element. -/
theorem C152_write_partial (h0 : 0 < ps) (ha : 0 < al) {s : PS α} (hr : Reach ps al s) (op : Op α) (hv : Callable (contents s).length op)
    (h : Nat) (hh : h < (contents s).length) (it : Iter) (hit : At ps h it) :
    RaceWith s (.write it) op ↔ (contents s).length ≤ h + takes op ∨ ((∃ x, op = .setTop x) ∧ (contents s).length = h + 1) ∨
      Looks (contents s).length h op := by
  have hi := hr.inv h0 ha
  obtain ⟨e1, e2⟩ := hit
  have hw := (C152_walk_partial h0 ha hr op hv h hh { it with bound := 0 } ⟨e1, e2⟩ rfl).2
  rw [clash_iff] at hw ⊢
  simp only [useReads, useWrites, List.mem_singleton, List.not_mem_nil, false_and, exists_false, or_false, false_or, exists_eq_left] at hw ⊢
  rw [hw, or_assoc, ← elemReads_iff h0 hi op hv, cellAt, e1, e2, Int.toNat_natCast]

/-- C152: two uses of iterators race exactly if one writes an element and the other reads or writes the same
one. -/
theorem C152_uses_partial (s : PS α) (u u' : Use) : RaceUses s u u' ↔
    (∃ it it', it.page = it'.page ∧ it.off.toNat = it'.off.toNat ∧
      ((u = .write it ∧ (u' = .read it' ∨ u' = .write it')) ∨ (u' = .write it' ∧ u = .read it))) := by
  have rd : ∀ {u : Use} {i j : Nat}, Cell.elem i j ∈ useReads s u → ∃ it, u = .read it ∧ it.page = i ∧ it.off.toNat = j := by
    intro u i j h
    cases u with
    | read it => simp only [useReads, List.mem_singleton] at h; obtain ⟨rfl, rfl⟩ := Cell.elem.inj h; exact ⟨it, rfl, rfl, rfl⟩
    | inc it => simp only [useReads] at h; split at h <;> simp at h
    | dec it => simp only [useReads] at h; split at h <;> simp at h
    | rinc it => simp only [useReads] at h; split at h <;> simp at h
    | rdec it => simp only [useReads] at h; split at h <;> simp at h
    | _ => simp [useReads] at h
  have wr : ∀ {u : Use} {c : Cell}, c ∈ useWrites u → ∃ it, u = .write it ∧ c = .elem it.page it.off.toNat := by
    intro u c h
    cases u with
    | write it => simp only [useWrites, List.mem_singleton] at h; exact ⟨it, rfl, h⟩
    | _ => simp [useWrites] at h
  constructor
  · rintro ⟨x, hx, y, hy, h1, h2, -, -⟩
    simp only [useFoot, List.mem_append, List.mem_map] at hx hy
    rcases hx with ⟨a, ha, rfl⟩ | ⟨a, ha, rfl⟩ <;> rcases hy with ⟨b, hb, rfl⟩ | ⟨b, hb, rfl⟩
    · simp at h2
    · simp only at h1; subst h1
      obtain ⟨it, rfl, rfl⟩ := wr hb
      obtain ⟨it', rfl, h3, h4⟩ := rd ha
      exact ⟨it', it, h3, h4, .inr ⟨rfl, rfl⟩⟩
    · simp only at h1; subst h1
      obtain ⟨it, rfl, rfl⟩ := wr ha
      obtain ⟨it', rfl, h3, h4⟩ := rd hb
      exact ⟨it, it', h3.symm, h4.symm, .inl ⟨rfl, .inl rfl⟩⟩
    · simp only at h1; subst h1
      obtain ⟨it, rfl, e⟩ := wr ha
      obtain ⟨it', rfl, e'⟩ := wr hb
      obtain ⟨h3, h4⟩ := Cell.elem.inj (e.symm.trans e')
      exact ⟨it, it', h3, h4, .inl ⟨rfl, .inr rfl⟩⟩
  · rintro ⟨it, it', h3, h4, ⟨rfl, rfl | rfl⟩ | ⟨rfl, rfl⟩⟩
    · exact ⟨⟨.elem it.page it.off.toNat, true, false, []⟩, by simp [useFoot, useReads, useWrites],
        ⟨.elem it'.page it'.off.toNat, false, false, []⟩, by simp [useFoot, useReads, useWrites], by rw [h3, h4], by simp, by simp, by simp⟩
    · exact ⟨⟨.elem it.page it.off.toNat, true, false, []⟩, by simp [useFoot, useReads, useWrites],
        ⟨.elem it'.page it'.off.toNat, true, false, []⟩, by simp [useFoot, useReads, useWrites], by rw [h3, h4], by simp, by simp, by simp⟩
    · exact ⟨⟨.elem it.page it.off.toNat, false, false, []⟩, by simp [useFoot, useReads, useWrites],
        ⟨.elem it'.page it'.off.toNat, true, false, []⟩, by simp [useFoot, useReads, useWrites], by rw [h3, h4], by simp, by simp, by simp⟩

/-! The accesses listed are enough: -/

/-- C152: a call changes no cell that is not listed as written. -/
theorem C152_written_partial {s s' : PS α} {op : Op α} {o : Out α} (h : step s op = .ok (s', o)) (c : Cell) (hc : ¬ Cell.Same s s' c) :
    (⟨c, true, false, [()]⟩ : Acc) ∈ lockFoot s op := by
  refine List.mem_append.2 (.inl (List.mem_map.2 ⟨c, ?_, rfl⟩))
  exact Classical.byContradiction fun hn => hc (covers_step h c hn)

/-- C152: what a use without the mutex yields depends on the cells listed as read only. -/
theorem C152_read_partial {s s2 : PS α} (u : Use) (hs : ∀ c, (⟨c, false, false, []⟩ : Acc) ∈ useFoot s u → Cell.Same s s2 c)
    {r : Iter ⊕ α} (h : result s u = .ok r) : result s2 u = .ok r := by
  refine result_same u (fun c hc => hs c ?_) h
  exact List.mem_append.2 (.inl (List.mem_map.2 ⟨c, hc, rfl⟩))

/-- C152: an assignment through an iterator changes the element listed as written only. -/
theorem C152_assigned_partial {s s' : PS α} {it : Iter} {v : α} (h : it.assign s v = .ok s') (c : Cell) (hc : ¬ Cell.Same s s' c) :
    (⟨c, true, false, []⟩ : Acc) ∈ useFoot s (.write it) := by
  refine List.mem_append.2 (.inr (List.mem_map.2 ⟨c, ?_, rfl⟩))
  refine Classical.byContradiction fun hn => hc ?_
  unfold Iter.assign at h
  obtain ⟨p, hp, h⟩ := life_bind_ok' h
  have hp' : s.base[it.page]? = some p := by unfold PS.page at hp; split at hp <;> cases hp; assumption
  split at h
  · cases h
  · split at h
    · cases h
      refine covers_set s hp' (fun hl => by simp at hl) (fun j hj => ?_) c hn
      by_cases he : it.off.toNat = j
      · simp [useWrites, he]
      · simp [he] at hj
    · cases h

/-- An ideal stack whose item `k` from the top is changed answers a call that does not look at it alike. -/
theorem spec_blind (t : StackSpec.St α) (op : Op α) (k : Nat) (v : α) (hk : k < t.items.length) (hv : Callable t.items.length op)
    (hl : ¬ Looks t.items.length (t.items.length - 1 - k) op) (ht : op ≠ .top) (hd : op ≠ .syncDrop) :
    ∃ t1 t2 o, StackSpec.step ps al t op = some (t1, o) ∧ StackSpec.step ps al { t with items := t.items.set k v } op = some (t2, o) := by
  cases op with
  | push x => exact ⟨_, _, _, rfl, rfl⟩
  | pushMany x xs => exact ⟨_, _, _, rfl, rfl⟩
  | pushEmplace x => exact ⟨_, _, _, rfl, rfl⟩
  | pop =>
    simp only [StackSpec.step]
    cases hc : t.items with
    | nil => simp [hc] at hk
    | cons a l => cases k <;> exact ⟨_, _, _, rfl, rfl⟩
  | setTop y =>
    simp only [StackSpec.step]
    cases hc : t.items with
    | nil => simp [hc] at hk
    | cons a l => cases k <;> exact ⟨_, _, _, rfl, rfl⟩
  | popMany n =>
    simp only [StackSpec.step, Looks, Callable, List.length_set] at hv hl ⊢
    rw [if_pos hv, if_pos hv, List.take_set_of_le (by omega)]
    exact ⟨_, _, _, rfl, rfl⟩
  | discard n =>
    simp only [StackSpec.step, Looks, Callable, List.length_set] at hv hl ⊢
    rw [if_pos hv, if_pos hv]
    exact ⟨_, _, _, rfl, rfl⟩
  | peek n =>
    simp only [StackSpec.step, Looks, Callable, List.length_set] at hv hl ⊢
    rw [if_pos hv, if_pos hv, List.take_set_of_le (by omega)]
    exact ⟨_, _, _, rfl, rfl⟩
  | peekReverse n =>
    simp only [StackSpec.step, Looks, Callable, List.length_set] at hv hl ⊢
    rw [if_pos hv, if_pos hv, List.take_set_of_le (by omega)]
    exact ⟨_, _, _, rfl, rfl⟩
  | peekDepth d n =>
    simp only [StackSpec.step, Looks, Callable, List.length_set] at hv hl ⊢
    rw [if_pos hv, if_pos hv]
    have : ((t.items.set k v).take d).reverse.take n = (t.items.take d).reverse.take n := by
      apply List.ext_getElem?
      intro i
      rw [List.getElem?_take, List.getElem?_take]
      split
      · rename_i hi
        rw [List.getElem?_reverse (by simp; omega), List.getElem?_reverse (by simp; omega)]
        simp only [List.length_take, List.length_set, List.getElem?_take]
        split
        · rw [List.getElem?_set_ne (by omega)]
        · rfl
      · rfl
    rw [this]
    exact ⟨_, _, _, rfl, rfl⟩
  | top => exact absurd rfl ht
  | empty => simp only [StackSpec.step, List.length_set]; exact ⟨_, _, _, rfl, rfl⟩
  | size => simp only [StackSpec.step, List.length_set]; exact ⟨_, _, _, rfl, rfl⟩
  | stats => simp only [StackSpec.step, List.length_set]; exact ⟨_, _, _, rfl, rfl⟩
  | shrink => simp only [StackSpec.step]; split <;> exact ⟨_, _, _, rfl, rfl⟩
  | syncNew => exact ⟨_, _, _, rfl, rfl⟩
  | syncDrop => exact absurd rfl hd

theorem set_reverse (l : List α) (h : Nat) (v : α) (hh : h < l.length) : l.reverse.set (l.length - 1 - h) v = (l.set h v).reverse := by
  apply List.ext_getElem?
  intro i
  rcases Nat.lt_or_ge i l.length with hi | hi
  · rw [List.getElem?_reverse (by simpa using hi), List.length_set]
    by_cases e : l.length - 1 - h = i
    · subst e
      rw [List.getElem?_set_self (by simpa using hi), show l.length - 1 - (l.length - 1 - h) = h by omega, List.getElem?_set_self hh]
    · rw [List.getElem?_set_ne e, List.getElem?_set_ne (by omega), List.getElem?_reverse hi]
  · rw [List.getElem?_eq_none (by simpa using hi), List.getElem?_eq_none (by simpa using hi)]

/-- C152: what a call returns does not depend on the elements that are not listed as read (top() returns a
reference; reading it is a use of its own). -/
theorem C152_elements_partial (h0 : 0 < ps) (ha : 0 < al) {s s2 s' : PS α} (hr : Reach ps al s) (op : Op α) (hv : Callable (contents s).length op)
    (ht : op ≠ .top) (h : Nat) (hh : h < (contents s).length) (it : Iter) (hit : At ps h it) (v : α) (ha2 : it.assign s v = .ok s2)
    (hn : (⟨.elem it.page it.off.toNat, false, false, [()]⟩ : Acc) ∉ lockFoot s op) {o : Out α} (he : step s op = .ok (s', o)) :
    ∃ s2', step s2 op = .ok (s2', o) := by
  have hi := hr.inv h0 ha
  have hl : ¬ Looks (contents s).length h op := by
    rw [← elemReads_iff h0 hi op hv]
    intro hx
    apply hn
    refine List.mem_append.2 (.inr (List.mem_map.2 ⟨_, hx, ?_⟩))
    rw [cellAt, hit.1, hit.2, Int.toNat_natCast]
  by_cases hd : op = .syncDrop
  · subst hd
    cases he; exact ⟨_, rfl⟩
  · obtain ⟨pre, cp, k, n, sr, rfl, g⟩ := hi
    rw [contents_mk, List.length_reverse] at *
    obtain ⟨pre', cp', a1, g', a2, a3⟩ := assign_pos (al := al) (rest := List.replicate k []) (sc := n) (sr := sr) h0 g h it.bound v hh
    have hpos : it = pos ps h it.bound := by
      obtain ⟨e1, e2⟩ := hit; cases it; simp only [pos] at *; rw [e1, e2]
    rw [← hpos, ha2] at a1
    cases a1
    obtain ⟨t1, t2, o', q1, q2⟩ := spec_blind (ps := ps) (al := al) ⟨(cont pre cp).reverse, pre.length + 1 + k, n, sr⟩ op ((cont pre cp).length - 1 - h) v
      (by simp; omega) (by simpa using hv) (by simp only [List.length_reverse]; rw [show (cont pre cp).length - 1 - ((cont pre cp).length - 1 - h) = h by omega]; exact hl) ht hd
    obtain ⟨u1, e1, -⟩ := R_step h0 ha (s := mkS ps al pre cp (List.replicate k []) (n : Int) sr) ⟨pre, cp, k, rfl, g, rfl, rfl⟩ op q1
    rw [he] at e1
    cases e1
    obtain ⟨u2, e2, -⟩ := R_step h0 ha (s := mkS ps al pre' cp' (List.replicate k []) (n : Int) sr) ⟨pre', cp', k, rfl, g', by
      rw [a2]; exact set_reverse _ _ _ hh, by simp [a3]⟩ op q2
    exact ⟨u2, e2⟩

/-! ### Iterators stay where they are -/

/-- C152: begin() on a stack that is not empty designates the top; `++` goes one down. -/
theorem C152_positions_partial (h0 : 0 < ps) (ha : 0 < al) {s : PS α} (hr : Reach ps al s) :
    (0 < (contents s).length → ∃ it, begin_ s = .ok it ∧ At ps ((contents s).length - 1) it ∧ it.bound = 0) ∧
    (∀ h it, At ps (h + 1) it → it.bound = 0 → h + 1 < (contents s).length → ∃ it', fwdInc s it = .ok it' ∧ At ps h it' ∧ it'.bound = 0) ∧
    (∀ h it, At ps h it → h < (contents s).length → ∃ x, it.deref s = .ok x ∧ (contents s)[(contents s).length - 1 - h]? = some x) := by
  obtain ⟨pre, cp, k, n, sr, rfl, g⟩ := hr.inv h0 ha
  rw [contents_mk, List.length_reverse] at *
  have hpos : ∀ {h it}, At ps h it → it = pos ps h it.bound := by
    intro h it hit; obtain ⟨e1, e2⟩ := hit; cases it; simp only [pos] at *; rw [e1, e2]
  refine ⟨fun hn => ?_, fun h it hit hb hh => ?_, fun h it hit hh => ?_⟩
  · exact ⟨_, begin_spec h0 g, by rw [if_neg (by omega)]; exact ⟨rfl, rfl⟩, by rw [if_neg (by omega)]; rfl⟩
  · rw [hpos hit, hb]
    exact ⟨_, fwdInc_succ g h0 h hh, ⟨rfl, rfl⟩, rfl⟩
  · rw [hpos hit]
    refine ⟨_, deref_pos g h0 h _ _ (List.getElem?_eq_getElem hh), ?_⟩
    rw [List.getElem?_reverse (by omega), show (cont pre cp).length - 1 - ((cont pre cp).length - 1 - h) = h by omega, List.getElem?_eq_getElem hh]

/-! ### The property is false, and what is left of it -/

/-- C152: reading and stepping down at an element that stays, and is not the top being overwritten, is
free of races. -/
theorem C152_safe_partial (h0 : 0 < ps) (ha : 0 < al) {s : PS α} (hr : Reach ps al s) (op : Op α) (hv : Callable (contents s).length op)
    (h : Nat) (hh : h + takes op < (contents s).length) (ht : (∃ x, op = .setTop x) → h + 1 < (contents s).length)
    (it : Iter) (hit : At ps h it) (hb : it.bound = 0) : ¬ RaceWith s (.inc it) op ∧ ¬ RaceWith s (.read it) op := by
  obtain ⟨h1, h2⟩ := C152_walk_partial h0 ha hr op hv h (by omega) it hit hb
  constructor
  · rw [h1]; omega
  · rw [h2]
    rintro (hx | ⟨hx, hy⟩)
    · omega
    · have := ht hx; omega

/-- Five elements on pages of two, and a spare page. -/
def walked : PS Nat := mkS 2 4 [[1, 2], [3, 4]] [5] [[]] 0 false

theorem walked_reach : Reach 2 4 walked :=
  .call (.pushMany 1 [2, 3, 4, 5]) .init (by simp) (o := .unit) rfl

/-- C152 is false: begin() races with a push, and reading the element begin() designates, or the reference
top() returned, with a pop. -/
theorem C152_refuted : Reach 2 4 walked ∧ (∃ s', step walked (.push 6) = .ok (s', .unit)) ∧ RaceWith walked .begin (.push 6) ∧
    ∃ it s', begin_ walked = .ok it ∧ it.deref walked = .ok 5 ∧ step walked .top = .ok (walked, .val 5) ∧ step walked .pop = .ok (s', .unit) ∧
      RaceWith walked (.read it) .pop := by
  refine ⟨walked_reach, ⟨_, rfl⟩, ?_, pos 2 4 0, _, rfl, rfl, rfl, rfl, ?_⟩
  · exact ((C152_ends_partial (by omega) (by omega) walked_reach (.push 6) trivial).1).2 (by simp [adds, takes])
  · exact ((C152_walk_partial (by omega) (by omega) walked_reach .pop (show 0 < 5 by omega) 4 (by decide) (pos 2 4 0) ⟨rfl, rfl⟩ rfl).2).2 (.inl (by decide))

/-- Non-vacuity: stepping down over a page end with four elements left is safe beside a pop of one, not of
two; stepping up is not even beside the first. -/
example : ¬ RaceWith walked (.inc (pos 2 2 0)) .pop ∧ RaceWith walked (.inc (pos 2 4 0)) (.popMany 2) ∧
    ¬ RaceWith walked (.inc (pos 2 3 0)) (.popMany 3) ∧ RaceWith walked (.dec (pos 2 2 0)) (.popMany 2) ∧
    ¬ RaceWith walked (.dec (pos 2 2 0)) (.push 6) ∧ RaceWith walked (.write (pos 2 3 0)) (.peek 2) ∧ ¬ RaceWith walked (.write (pos 2 2 0)) (.peek 2) ∧
    RaceWith walked .rbegin .shrink ∧ ¬ RaceWith walked .rbegin (.push 6) := by
  refine ⟨?_, ?_, ?_, ?_, ?_, ?_, ?_, ?_, ?_⟩ <;> rw [clash_iff] <;> decide

end Falcon.PagedStack
