import Verif.Spec.StackRace
import Verif.Proofs.StackRace
/-
The cells listed as written are all those a call changes.
-/
namespace Falcon.PagedStack
variable {α : Type}

/-- Every cell outside `W` is the same in both stacks. -/
def Covers (W : List Cell) (s s' : PS α) : Prop := ∀ c, c ∉ W → Cell.Same s s' c

theorem Covers.refl (W : List Cell) (s : PS α) : Covers W s s := by intro c _; cases c <;> simp [Cell.Same]

theorem Covers.mono {W W' : List Cell} {s s' : PS α} (h : Covers W s s') (hw : ∀ x ∈ W, x ∈ W') : Covers W' s s' :=
  fun c hc => h c fun hx => hc (hw c hx)

theorem Covers.trans {W W' : List Cell} {s s' s'' : PS α} (h : Covers W s s') (h' : Covers W' s' s'') : Covers (W ++ W') s s'' := by
  intro c hc
  rw [List.mem_append, not_or] at hc
  have a := h c hc.1
  have b := h' c hc.2
  cases c with
  | head => exact Iff.trans a b
  | next i => exact ⟨a.1.trans b.1, a.2.trans b.2⟩
  | prev i => exact Iff.trans a b
  | start i => exact Iff.trans a b
  | _ => exact Eq.trans a b

/-- A page changes. -/
theorem covers_set {W : List Cell} (s : PS α) {i : Nat} {p p' : List α} (hp : s.base[i]? = some p)
    (hf : p.length ≠ p'.length → .finish i ∈ W) (he : ∀ j, p[j]? ≠ p'[j]? → .elem i j ∈ W) : Covers W s (s.setPage i p') := by
  have hlt := (List.getElem?_eq_some_iff.1 hp).1
  intro c hc
  cases c with
  | finish k =>
    simp only [Cell.Same, PS.setPage, List.getElem?_set]
    by_cases h : i = k
    · subst h
      simp only [hp, hlt, if_true, Option.map_some]
      exact congrArg _ (Classical.byContradiction fun hn => hc (hf hn))
    · simp [h]
  | elem k j =>
    simp only [Cell.Same, PS.setPage, List.getElem?_set]
    by_cases h : i = k
    · subst h
      simp only [hp, hlt, if_true, Option.bind_some]
      exact Classical.byContradiction fun hn => hc (he j hn)
    · simp [h]
  | head =>
    simp only [Cell.Same, PS.setPage]
    cases hb : s.base <;> simp [hb] at hlt ⊢
  | _ => simp [Cell.Same, PS.setPage]

theorem covers_cur (s : PS α) (c : Nat) : Covers [.cur] s { s with cur := c } := by
  intro x hx
  cases x with
  | cur => simp at hx
  | _ => simp [Cell.Same]

theorem covers_advance {s s' : PS α} (h : advance s = .ok s') : Covers (advanceW s) s s' := by
  unfold advance PS.page at h
  unfold advanceW
  cases hp : s.base[s.cur]? with
  | none => rw [hp] at h; cases h
  | some p =>
    have hlt := (List.getElem?_eq_some_iff.1 hp).1
    rw [hp] at h
    simp only [bind, Except.bind] at h ⊢
    split at h
    · rename_i h1
      simp only [h1, if_true]
      split at h
      · rename_i h2
        simp only [h2, if_true]
        cases h
        have hl : ∀ (i : Nat), i < (s.base ++ List.replicate s.allocSize ([] : List α)).length ↔ i < s.base.length + s.allocSize := by
          intro i; simp
        intro c hc
        simp only [List.mem_append, List.mem_cons, List.not_mem_nil, or_false, mem_nodes, not_or] at hc
        obtain ⟨⟨c1, c2, c3⟩, c4⟩ := hc
        cases c with
        | cur => exact absurd rfl c1
        | tail => exact absurd rfl c2
        | head =>
          simp only [Cell.Same, growBase]
          cases hb : s.base <;> simp [hb] at hlt ⊢
        | next i =>
          simp only [Cell.Same, growBase, hl]
          have a : i ≠ s.cur := fun e => c3 (by rw [e])
          have b : ¬ (s.base.length ≤ i ∧ i < s.base.length + s.allocSize) := fun e =>
            c4 ⟨i - s.base.length, by omega, .inl (by congr 1; omega)⟩
          omega
        | prev i =>
          simp only [Cell.Same, growBase, hl]
          have b : ¬ (s.base.length ≤ i ∧ i < s.base.length + s.allocSize) := fun e =>
            c4 ⟨i - s.base.length, by omega, .inr (.inl (by congr 1; omega))⟩
          omega
        | start i =>
          simp only [Cell.Same, growBase, hl]
          have b : ¬ (s.base.length ≤ i ∧ i < s.base.length + s.allocSize) := fun e =>
            c4 ⟨i - s.base.length, by omega, .inr (.inr (.inl (by congr 1; omega)))⟩
          omega
        | finish i =>
          simp only [Cell.Same, growBase]
          have b : ¬ (s.base.length ≤ i ∧ i < s.base.length + s.allocSize) := fun e =>
            c4 ⟨i - s.base.length, by omega, .inr (.inr (.inr (by congr 1; omega)))⟩
          rcases Nat.lt_or_ge i s.base.length with hi | hi
          · rw [List.getElem?_append_left hi]
          · rw [List.getElem?_eq_none hi, List.getElem?_eq_none]; simp; omega
        | elem i j =>
          simp only [Cell.Same, growBase]
          rcases Nat.lt_or_ge i s.base.length with hi | hi
          · rw [List.getElem?_append_left hi]
          · rw [List.getElem?_eq_none hi, List.getElem?_append_right hi, List.getElem?_replicate]
            split <;> simp
        | sync => rfl
        | shrinkReq => rfl
      · rename_i h2
        simp only [h2, if_false]
        cases h
        exact covers_cur s _
    · rename_i h1
      simp only [h1, if_false]
      cases h
      exact Covers.refl _ _

theorem covers_pushBack {s s' : PS α} {x : α} (h : pushBack s x = .ok s') : Covers (pushBackW s) s s' := by
  unfold pushBack PS.page at h
  unfold pushBackW
  cases hp : s.base[s.cur]? with
  | none => rw [hp] at h; cases h
  | some p =>
    rw [hp] at h
    simp only [bind, Except.bind] at h
    cases h
    refine covers_set s hp (by simp) fun j hj => ?_
    rcases Nat.lt_or_ge j p.length with h1 | h1
    · exact absurd (List.getElem?_append_left h1).symm hj
    · rcases Nat.eq_or_lt_of_le h1 with h2 | h2
      · simp [h2]
      · exfalso; apply hj
        rw [List.getElem?_eq_none h1, List.getElem?_eq_none]; simp; omega

theorem covers_push {s s' : PS α} {x : α} (xs : List α) (h : pushMany s x xs = .ok s') : Covers (pushW s (x :: xs)) s s' := by
  induction xs generalizing s x with
  | nil =>
    simp only [pushMany, push, bind, Except.bind] at h
    cases ha : advance s with
    | error e => rw [ha] at h; cases h
    | ok t =>
      rw [ha] at h
      simp only [pushW, ha, h]
      exact (covers_advance ha).trans (by simpa using covers_pushBack h)
  | cons y ys ih =>
    simp only [pushMany, bind, Except.bind] at h
    cases ha : advance s with
    | error e => rw [ha] at h; cases h
    | ok t =>
      rw [ha] at h
      simp only at h
      cases hb : pushBack t x with
      | error e => rw [hb] at h; cases h
      | ok u =>
        rw [hb] at h
        rw [pushW]
        simp only [ha, hb]
        exact (covers_advance ha).trans ((covers_pushBack hb).trans (ih h))

theorem covers_popOne {s s' : PS α} (h : popOne s = .ok s') : Covers (popOneW s) s s' := by
  unfold popOne PS.page at h
  unfold popOneW
  cases hp : s.base[s.cur]? with
  | none => rw [hp] at h; cases h
  | some p =>
    rw [hp] at h
    simp only [bind, Except.bind] at h
    split at h
    · cases h
    · rename_i hne
      have hpos := List.length_pos_iff.2 hne
      have hset : Covers [.elem s.cur (p.length - 1), .finish s.cur] s (s.setPage s.cur p.dropLast) := by
        refine covers_set s hp (by simp) fun j hj => ?_
        rcases Nat.lt_or_ge j (p.length - 1) with h1 | h1
        · exfalso; apply hj; rw [List.getElem?_dropLast, if_pos h1]
        · rcases Nat.eq_or_lt_of_le h1 with h2 | h2
          · simp [h2]
          · exfalso; apply hj; rw [List.getElem?_eq_none (by omega), List.getElem?_eq_none]; simp; omega
      have hd : p.dropLast = [] ↔ p.length = 1 := by
        rw [← List.length_eq_zero_iff, List.length_dropLast]; omega
      split at h
      · rename_i h1
        cases h
        simp only
        rw [if_pos ⟨hd.1 h1.1, h1.2⟩]
        exact hset.trans (covers_cur _ _)
      · cases h
        exact hset.mono (by simp)

theorem covers_popMany (n : Nat) : ∀ {s s' : PS α} {vs : List α}, popMany s n = .ok (s', vs) → Covers (popW s n) s s' := by
  induction n with
  | zero => intro s s' vs h; simp only [popMany] at h; cases h; exact Covers.refl _ _
  | succ n ih =>
    intro s s' vs h
    simp only [popMany, bind, Except.bind] at h
    split at h
    · cases h
    · split at h
      · cases h
      · rename_i t ht
        split at h
        · cases h
        · rename_i q hq
          cases h
          rw [popW]
          simp only [ht]
          exact (covers_popOne ht).trans (ih hq)

theorem covers_cut (s : PS α) {i n : Nat} {p : List α} (hp : s.base[i]? = some p) : Covers (cutW i p n) s (s.setPage i (p.take n)) := by
  refine covers_set s hp (fun h => ?_) fun j hj => ?_
  · rw [mem_cutW]; exact ⟨by simp at h; omega, .inl rfl⟩
  · have h1 : n ≤ j := by
      rcases Nat.lt_or_ge j n with h | h
      · exact absurd (List.getElem?_take_of_lt h).symm hj
      · exact h
    have h2 : j < p.length := by
      rcases Nat.lt_or_ge j p.length with h | h
      · exact h
      · exfalso; apply hj; rw [List.getElem?_eq_none h, List.getElem?_eq_none]; simp; omega
    rw [mem_cutW]; exact ⟨by omega, .inr ⟨j, h1, h2, rfl⟩⟩

theorem discardW_below : ∀ (c : Nat) (b b' : List (List α)) (m : Nat), (∀ i, i ≤ c → b[i]? = b'[i]?) → discardW b c m = discardW b' c m := by
  intro c
  induction c with
  | zero => intro b b' m h; simp only [discardW, h 0 (Nat.le_refl _)]
  | succ c ih =>
    intro b b' m h
    simp only [discardW, h (c + 1) (Nat.le_refl _)]
    split
    · rfl
    · rw [ih b b' _ fun i hi => h i (by omega)]

theorem covers_discardLoop : ∀ (c m : Nat) (s : PS α) (b : List (List α)) (c' : Nat), s.cur = c → discardLoop s.base c m = .ok (b, c') →
    Covers (discardW s.base c m) s { s with base := b, cur := c' } := by
  intro c
  induction c with
  | zero =>
    intro m s b c' hc h
    unfold discardLoop at h
    unfold discardW
    cases hp : s.base[0]? with
    | none => rw [hp] at h; cases h
    | some p =>
      rw [hp] at h
      simp only at h ⊢
      split at h
      · rename_i hm
        cases h
        have := covers_cut s (n := p.length - m) hp
        rw [show p.length - m = 0 by omega] at this ⊢
        simpa [PS.setPage, hc] using this
      · cases h
        simpa [PS.setPage, hc] using covers_cut s (n := p.length - m) hp
  | succ c ih =>
    intro m s b c' hc h
    unfold discardLoop at h
    unfold discardW
    cases hp : s.base[c + 1]? with
    | none => rw [hp] at h; cases h
    | some p =>
      rw [hp] at h
      simp only at h ⊢
      split at h
      · rename_i hm
        simp only [hm, if_true]
        have h1 := covers_cut s (n := 0) hp
        rw [List.take_zero] at h1
        have h2 := covers_cur (s.setPage (c + 1) []) c
        have h3 := ih (m - p.length) { s.setPage (c + 1) [] with cur := c } b c' rfl h
        rw [discardW_below c _ s.base _ (fun i hi => by simp [PS.setPage, List.getElem?_set]; omega)] at h3
        exact h1.trans (h2.trans h3)
      · rename_i hm
        simp only [hm, if_false]
        cases h
        simpa [PS.setPage, hc] using covers_cut s (n := p.length - m) hp

theorem covers_erase (s : PS α) : Covers (eraseW s) s (internalShrink s) := by
  unfold eraseW
  split
  · rename_i h
    rw [internalShrink, List.take_of_length_le h]
    exact Covers.refl _ _
  · rename_i h
    intro c hc
    simp only [List.mem_append, List.mem_cons, List.not_mem_nil, or_false, mem_nodes, not_or] at hc
    obtain ⟨⟨⟨c1, c2⟩, c3⟩, c4⟩ := hc
    have hl : (s.base.take (s.cur + 1)).length = s.cur + 1 := by rw [List.length_take]; omega
    have node : ∀ i, s.cur + 1 ≤ i → i < s.base.length → s.cur + 1 + (i - (s.cur + 1)) = i ∧ i - (s.cur + 1) < s.base.length - (s.cur + 1) := by
      intro i a b; omega
    cases c with
    | cur => rfl
    | tail => exact absurd rfl c2
    | head =>
      simp only [Cell.Same, internalShrink]
      cases hb : s.base <;> simp
    | next i =>
      simp only [Cell.Same, internalShrink, hl]
      have a : i ≠ s.cur := fun e => c1 (by rw [e])
      have b : ¬ (s.cur + 1 ≤ i ∧ i < s.base.length) := fun e => by
        obtain ⟨n1, n2⟩ := node i e.1 e.2
        exact c3 ⟨_, n2, .inl (by rw [n1])⟩
      omega
    | prev i =>
      simp only [Cell.Same, internalShrink, hl]
      have b : ¬ (s.cur + 1 ≤ i ∧ i < s.base.length) := fun e => by
        obtain ⟨n1, n2⟩ := node i e.1 e.2
        exact c3 ⟨_, n2, .inr (.inl (by rw [n1]))⟩
      omega
    | start i =>
      simp only [Cell.Same, internalShrink, hl]
      have b : ¬ (s.cur + 1 ≤ i ∧ i < s.base.length) := fun e => by
        obtain ⟨n1, n2⟩ := node i e.1 e.2
        exact c3 ⟨_, n2, .inr (.inr (.inl (by rw [n1])))⟩
      omega
    | finish i =>
      simp only [Cell.Same, internalShrink]
      have b : ¬ (s.cur + 1 ≤ i ∧ i < s.base.length) := fun e => by
        obtain ⟨n1, n2⟩ := node i e.1 e.2
        exact c3 ⟨_, n2, .inr (.inr (.inr (by rw [n1])))⟩
      rcases Nat.lt_or_ge i (s.cur + 1) with hi | hi
      · rw [List.getElem?_take_of_lt hi]
      · rw [List.getElem?_eq_none (show s.base.length ≤ i by omega), List.getElem?_eq_none (by omega)]
    | elem i j =>
      simp only [Cell.Same, internalShrink]
      rcases Nat.lt_or_ge i (s.cur + 1) with hi | hi
      · rw [List.getElem?_take_of_lt hi]
      · rw [List.getElem?_eq_none (l := s.base.take (s.cur + 1)) (by omega)]
        cases hp : s.base[i]? with
        | none => rfl
        | some p =>
          simp only [Option.bind_some, Option.bind_none]
          rcases Nat.lt_or_ge j p.length with hj | hj
          · exfalso
            apply c4
            rw [List.mem_flatMap]
            refine ⟨(p, i), ?_, mem_elems.2 ⟨j, by omega, hj, rfl⟩⟩
            rw [List.mem_iff_getElem?]
            refine ⟨i - (s.cur + 1), ?_⟩
            rw [List.getElem?_zipIdx, List.getElem?_drop, show s.cur + 1 + (i - (s.cur + 1)) = i by omega, hp]
            rfl
          · exact List.getElem?_eq_none hj
    | sync => rfl
    | shrinkReq => rfl

theorem covers_step {s s' : PS α} {op : Op α} {o : Out α} (h : step s op = .ok (s', o)) : Covers (writes s op) s s' := by
  cases op with
  | push x =>
    simp only [step, bind, Except.bind] at h
    split at h
    · cases h
    · rename_i t ht; cases h; exact covers_push [] ht
  | pushEmplace x =>
    simp only [step, bind, Except.bind] at h
    split at h
    · cases h
    · rename_i t ht; cases h; exact covers_push [] ht
  | pushMany x xs =>
    simp only [step, bind, Except.bind] at h
    split at h
    · cases h
    · rename_i t ht; cases h; exact covers_push xs ht
  | pop =>
    simp only [step, bind, Except.bind] at h
    split at h
    · cases h
    · rename_i t ht
      cases h
      simp only [writes, popW, ht, List.append_nil]
      exact covers_popOne ht
  | popMany n =>
    simp only [step, bind, Except.bind] at h
    split at h
    · cases h
    · rename_i t ht; cases h; exact covers_popMany n ht
  | setTop x =>
    simp only [step, setTop, PS.page, bind, Except.bind] at h
    cases hp : s.base[s.cur]? with
    | none => simp only [hp] at h; cases h
    | some p =>
      simp only [hp] at h
      split at h
      · cases h
      · rename_i t ht
        split at ht
        · cases ht
        · rename_i hne
          cases h
          cases ht
          simp only [writes, hp]
          have hpos := List.length_pos_iff.2 hne
          refine covers_set s hp (fun h => ?_) fun j hj => ?_
          · simp at h; omega
          · rcases Nat.lt_trichotomy j (p.length - 1) with h1 | h1 | h1
            · exfalso; apply hj
              rw [List.getElem?_append_left (by simpa using h1), List.getElem?_dropLast, if_pos h1]
            · simp [h1]
            · exfalso; apply hj
              rw [List.getElem?_eq_none (by omega), List.getElem?_eq_none]; simp; omega
  | discard n =>
    simp only [step, discard, bind, Except.bind] at h
    cases hd : discardLoop s.base s.cur n with
    | error e => simp only [hd] at h; cases h
    | ok r =>
      obtain ⟨b, c⟩ := r
      simp only [hd] at h
      cases h
      exact covers_discardLoop _ _ s b c rfl hd
  | shrink =>
    simp only [step] at h
    cases h
    simp only [writes, shrinkToFit]
    split
    · intro c hc; cases c <;> simp [Cell.Same] at hc ⊢
    · exact covers_erase s
  | syncNew =>
    simp only [step] at h
    cases h
    intro c hc; cases c <;> simp [Cell.Same, writes, syncNew] at hc ⊢
  | syncDrop =>
    simp only [step] at h
    cases h
    simp only [writes, syncDrop]
    have h1 : Covers [.sync] s { s with syncCount := s.syncCount - 1 } := by
      intro c hc; cases c <;> simp [Cell.Same] at hc ⊢
    by_cases hx : s.syncCount - 1 = 0 ∧ s.shrinkReq = true
    · rw [if_pos hx, if_pos ⟨by omega, hx.2⟩]
      refine h1.trans (W' := .shrinkReq :: eraseW s) ?_
      have h2 : Covers [.shrinkReq] { s with syncCount := s.syncCount - 1 } { s with syncCount := s.syncCount - 1, shrinkReq := false } := by
        intro c hc; cases c <;> simp [Cell.Same] at hc ⊢
      have h3 := covers_erase { s with syncCount := s.syncCount - 1, shrinkReq := false }
      rw [show eraseW { s with syncCount := s.syncCount - 1, shrinkReq := false } = eraseW s from rfl] at h3
      exact h2.trans h3
    · rw [if_neg hx, if_neg (fun hy => hx ⟨by omega, hy.2⟩)]
      exact h1
  | _ =>
    simp only [step, bind, Except.bind] at h
    split at h
    · cases h
    · cases h; exact Covers.refl _ _

end Falcon.PagedStack
