import Verif.Proofs.StackCells
/-
Which elements the calls of a PagedStack read.
-/
namespace Falcon.PagedStack
variable {α : Type} {ps al : Nat} {sc : Int} {sr : Bool} {pre : List (List α)} {cp : List α} {rest : List (List α)}

theorem life_bind_ok' {β γ : Type} {x : Res β} {f : β → Res γ} {c : γ} (h : (x >>= f) = .ok c) :
    ∃ y, x = .ok y ∧ f y = .ok c := by
  cases x with
  | error e => cases h
  | ok y => exact ⟨y, rfl, h⟩

/-- The cell of height `h`. -/
def cellAt (ps h : Nat) : Cell := .elem (h / ps) (h % ps)

theorem cellAt_iff (h0 : 0 < ps) {i j h : Nat} : .elem i j = cellAt ps h ↔ j < ps ∧ i * ps + j = h := by
  obtain ⟨s1, s2⟩ := split_height (h := h) h0
  constructor
  · intro e; obtain ⟨rfl, rfl⟩ := Cell.elem.inj e; exact ⟨s2, s1.symm⟩
  · rintro ⟨a, b⟩
    rw [cellAt, ← b, (height a).1, (height a).2]

theorem pos_cell (i b : Nat) : Cell.elem (pos ps i b).page (pos ps i b).off.toNat = cellAt ps i := by
  simp only [pos, cellAt, Int.toNat_natCast]

theorem distributeR_one (f : Iter → Res Iter) (it : Iter) : distributeR f 1 it = [.elem it.page it.off.toNat] := by
  rw [distributeR]; cases f it <;> simp [distributeR]

theorem mem_fwd (g : Good ps pre cp) (h0 : 0 < ps) (m : Nat) : ∀ (i : Nat) (x : Cell), i < (cont pre cp).length → m ≤ i + 1 →
    (x ∈ distributeR (fwdInc (mkS ps al pre cp rest sc sr)) m (pos ps i 0) ↔ ∃ h, h ≤ i ∧ i < h + m ∧ x = cellAt ps h) := by
  induction m with
  | zero => intro i x hi _; simp [distributeR]; intro h _ _; omega
  | succ m ih =>
    intro i x hi hm
    rcases Nat.eq_zero_or_pos m with rfl | hpos
    · rw [distributeR_one, pos_cell, List.mem_singleton]
      constructor
      · rintro rfl; exact ⟨i, by omega, by omega, rfl⟩
      · rintro ⟨h, a, b, rfl⟩; congr 1; omega
    · rw [distributeR, pos_cell, List.mem_cons]
      obtain ⟨i, rfl⟩ : ∃ k, i = k + 1 := ⟨i - 1, by omega⟩
      rw [fwdInc_succ g h0 i hi]
      simp only
      rw [ih i x (by omega) (by omega)]
      constructor
      · rintro (rfl | ⟨h, a, b, rfl⟩)
        · exact ⟨i + 1, by omega, by omega, rfl⟩
        · exact ⟨h, by omega, by omega, rfl⟩
      · rintro ⟨h, a, b, rfl⟩
        rcases Nat.eq_or_lt_of_le a with e | e
        · left; rw [e]
        · right; exact ⟨h, by omega, by omega, rfl⟩

theorem mem_rev (g : Good ps pre cp) (h0 : 0 < ps) (b : Nat) (hb : pre.length ≤ b) (m : Nat) : ∀ (i : Nat) (x : Cell), i + m ≤ (cont pre cp).length →
    (x ∈ distributeR (revInc (mkS ps al pre cp rest sc sr)) m (pos ps i b) ↔ ∃ h, i ≤ h ∧ h < i + m ∧ x = cellAt ps h) := by
  induction m with
  | zero => intro i x _; simp [distributeR]; intro h _ _; omega
  | succ m ih =>
    intro i x hm
    rcases Nat.eq_zero_or_pos m with rfl | hpos
    · rw [distributeR_one, pos_cell, List.mem_singleton]
      constructor
      · rintro rfl; exact ⟨i, by omega, by omega, rfl⟩
      · rintro ⟨h, a, b, rfl⟩; congr 1; omega
    · rw [distributeR, pos_cell, List.mem_cons, revInc_pos g h0 i b hb (by omega)]
      simp only
      rw [ih (i + 1) x (by omega)]
      constructor
      · rintro (rfl | ⟨h, a, b, rfl⟩)
        · exact ⟨i, by omega, by omega, rfl⟩
        · exact ⟨h, by omega, by omega, rfl⟩
      · rintro ⟨h, a, b, rfl⟩
        rcases Nat.eq_or_lt_of_le a with e | e
        · left; rw [e]
        · right; exact ⟨h, by omega, by omega, rfl⟩

/-- The elements a call reads. -/
theorem elemReads_iff (h0 : 0 < ps) {s : PS α} (h : Inv ps al s) (op : Op α) (hv : Callable (contents s).length op) (a : Nat) :
    cellAt ps a ∈ elemReads s op ↔ Looks (contents s).length a op := by
  obtain ⟨pre, cp, k, n, sr, rfl, g⟩ := h
  rw [contents_mk, List.length_reverse] at *
  have inj : ∀ b, cellAt ps a = cellAt ps b ↔ b = a := by
    intro b
    have := cellAt_iff (i := a / ps) (j := a % ps) (h := b) h0
    obtain ⟨s1, s2⟩ := split_height (h := a) h0
    rw [show Cell.elem (a / ps) (a % ps) = cellAt ps a from rfl] at this
    rw [this, ← s1]; omega
  have rev : ∀ d m, m ≤ d → d ≤ (cont pre cp).length →
      (cellAt ps a ∈ elemReads.peekCells (mkS ps al pre cp (List.replicate k []) (n : Int) sr) (fun s => fromTop s d)
        (revInc (mkS ps al pre cp (List.replicate k []) (n : Int) sr)) m ↔ (cont pre cp).length ≤ a + d ∧ a + d < (cont pre cp).length + m) := by
    intro d m hmd hd
    rcases Nat.eq_zero_or_pos m with rfl | hpos
    · have : cellAt ps a ∉ elemReads.peekCells (mkS ps al pre cp (List.replicate k []) (n : Int) sr) (fun s => fromTop s d)
          (revInc (mkS ps al pre cp (List.replicate k []) (n : Int) sr)) 0 := by
        rw [elemReads.peekCells]; split <;> simp [distributeR]
      exact ⟨fun hx => absurd hx this, by omega⟩
    · rw [elemReads.peekCells, fromTop_spec h0 g d (by omega) hd]
      simp only
      rw [mem_rev g h0 _ (Nat.le_refl _) m _ _ (by omega)]
      constructor
      · rintro ⟨b, b1, b2, b3⟩; rw [inj] at b3; omega
      · intro hx; exact ⟨a, by omega, by omega, rfl⟩
  cases op with
  | popMany m =>
    obtain ⟨h1, h2, h3⟩ := popW_spec (al := al) (sc := n) (sr := sr) h0 m (List.replicate k []) g hv
    simp only [elemReads, Looks]
    rw [h3, List.mem_filter, cellAt, h1.elem]
    simp only [and_true]
    obtain ⟨s1, s2⟩ := split_height (h := a) h0
    rw [← s1]
    unfold Hit
    constructor
    · rintro ⟨_, hx⟩; omega
    · intro hx; exact ⟨s2, .inr hx⟩
  | peek m =>
    simp only [elemReads, Looks, Callable] at hv ⊢
    rw [elemReads.peekCells, begin_spec h0 g]
    rcases Nat.eq_zero_or_pos m with rfl | hpos
    · simp [distributeR]
    · rw [if_neg (by omega)]
      simp only
      rw [mem_fwd g h0 m _ _ (by omega) (by omega)]
      constructor
      · rintro ⟨b, b1, b2, b3⟩; rw [inj] at b3; omega
      · intro hx; exact ⟨a, by omega, by omega, rfl⟩
  | peekReverse m =>
    simp only [elemReads, Looks, Callable] at hv ⊢
    rw [rev m m (Nat.le_refl _) hv]; omega
  | peekDepth d m =>
    simp only [elemReads, Looks, Callable] at hv ⊢
    rw [rev d m hv.1 hv.2]
  | _ => simp [elemReads, Looks]

/-- What an unlocked use yields depends on the listed cells only. -/
theorem result_same {s s2 : PS α} (u : Use) (hs : ∀ c ∈ useReads s u, Cell.Same s s2 c) {r : Iter ⊕ α} (h : result s u = .ok r) :
    result s2 u = .ok r := by
  have page : ∀ {i p}, s.page i = .ok p → s.base[i]? = some p := by
    intro i p hp; unfold PS.page at hp; split at hp <;> cases hp; assumption
  have exist : ∀ {i p}, s.page i = .ok p → Cell.Same s s2 (.start i) → ∃ q, s2.page i = .ok q := by
    intro i p hp hc
    have h1 := (List.getElem?_eq_some_iff.1 (page hp)).1
    have h2 := hc.1 h1
    exact ⟨s2.base[i], by simp [PS.page, List.getElem?_eq_getElem h2]⟩
  have len : ∀ {i p}, s.page i = .ok p → Cell.Same s s2 (.finish i) → ∃ q, s2.page i = .ok q ∧ q.length = p.length := by
    intro i p hp hc
    simp only [Cell.Same, page hp, Option.map_some] at hc
    obtain ⟨q, q1, q2⟩ := Option.map_eq_some_iff.1 hc.symm
    exact ⟨q, by simp [PS.page, q1], q2⟩
  cases u with
  | begin =>
    simp only [result, begin_] at h ⊢
    obtain ⟨it, h, e⟩ := life_bind_ok' h
    obtain ⟨p, hp, h⟩ := life_bind_ok' h
    have hc : s.cur = s2.cur := hs .cur (by simp [useReads])
    obtain ⟨q, q1, q2⟩ := len hp (hs _ (by simp [useReads]))
    rw [← hc, q1, bind_ok, q2, h, bind_ok, e]
  | end_ =>
    simp only [result, end_] at h ⊢
    obtain ⟨it, h, e⟩ := life_bind_ok' h
    obtain ⟨p, hp, h⟩ := life_bind_ok' h
    obtain ⟨q, q1⟩ := exist hp (hs _ (by simp [useReads]))
    rw [q1, bind_ok, h, bind_ok, e]
  | rbegin =>
    simp only [result, rbegin] at h ⊢
    obtain ⟨it, h, e⟩ := life_bind_ok' h
    obtain ⟨p, hp, h⟩ := life_bind_ok' h
    obtain ⟨q, q1⟩ := exist hp (hs _ (by simp [useReads]))
    have hl : s.base.length = s2.base.length := hs .tail (by simp [useReads])
    rw [q1, bind_ok, ← hl, h, bind_ok, e]
  | rend =>
    simp only [result, rend] at h ⊢
    obtain ⟨it, h, e⟩ := life_bind_ok' h
    obtain ⟨p, hp, h⟩ := life_bind_ok' h
    have hc : s.cur = s2.cur := hs .cur (by simp [useReads])
    obtain ⟨q, q1, q2⟩ := len hp (hs _ (by simp [useReads]))
    rw [← hc, q1, bind_ok, q2, h, bind_ok, e]
  | inc it =>
    simp only [result, fwdInc] at h ⊢
    obtain ⟨it', h, e⟩ := life_bind_ok' h
    obtain ⟨p, hp, h⟩ := life_bind_ok' h
    obtain ⟨q, q1⟩ := exist hp (hs _ (by simp [useReads]))
    rw [q1, bind_ok]
    by_cases hc : it.off = 0 ∧ it.page ≠ it.bound
    · rw [if_pos hc] at h ⊢
      by_cases hz : it.page = 0
      · rw [if_pos hz] at h; cases h
      · rw [if_neg hz] at h ⊢
        obtain ⟨p', hp', h⟩ := life_bind_ok' h
        obtain ⟨q', q1', q2'⟩ := len hp' (hs _ (by simp only [useReads]; rw [if_pos hc]; simp))
        rw [q1', bind_ok, q2', h, bind_ok, e]
    · rw [if_neg hc] at h ⊢
      rw [h, bind_ok, e]
  | rdec it =>
    simp only [result, revDec] at h ⊢
    obtain ⟨it', h, e⟩ := life_bind_ok' h
    obtain ⟨p, hp, h⟩ := life_bind_ok' h
    obtain ⟨q, q1⟩ := exist hp (hs _ (by simp [useReads]))
    rw [q1, bind_ok]
    by_cases hc : it.off = 0
    · rw [if_pos hc] at h ⊢
      by_cases hz : it.page = 0
      · rw [if_pos hz] at h; cases h
      · rw [if_neg hz] at h ⊢
        obtain ⟨p', hp', h⟩ := life_bind_ok' h
        obtain ⟨q', q1', q2'⟩ := len hp' (hs _ (by simp only [useReads]; rw [if_pos hc]; simp))
        rw [q1', bind_ok, q2', h, bind_ok, e]
    · rw [if_neg hc] at h ⊢
      rw [h, bind_ok, e]
  | dec it =>
    simp only [result, fwdDec, ptrInc] at h ⊢
    obtain ⟨it', h, e⟩ := life_bind_ok' h
    obtain ⟨p, hp, h⟩ := life_bind_ok' h
    obtain ⟨q, q1, q2⟩ := len hp (hs _ (by simp [useReads]))
    obtain ⟨o, ho, h⟩ := life_bind_ok' h
    rw [q1, bind_ok, q2, ho, bind_ok]
    split at ho
    · cases ho
      by_cases hc : it.off + 1 = p.length
      · rw [if_pos hc] at h ⊢
        obtain ⟨p', hp', h⟩ := life_bind_ok' h
        obtain ⟨q', q1'⟩ := exist hp' (hs _ (by
          have : useReads.atEnd s it = true := by simp [useReads.atEnd, page hp, hc]
          simp only [useReads]; rw [if_pos this]; simp))
        rw [q1', bind_ok, h, bind_ok, e]
      · rw [if_neg hc] at h ⊢
        rw [h, bind_ok, e]
    · cases ho
  | rinc it =>
    simp only [result, revInc, ptrInc] at h ⊢
    obtain ⟨it', h, e⟩ := life_bind_ok' h
    obtain ⟨p, hp, h⟩ := life_bind_ok' h
    obtain ⟨q, q1, q2⟩ := len hp (hs _ (by simp [useReads]))
    obtain ⟨o, ho, h⟩ := life_bind_ok' h
    rw [q1, bind_ok, q2, ho, bind_ok]
    split at ho
    · cases ho
      by_cases hc : it.off + 1 = p.length ∧ it.page ≠ it.bound
      · rw [if_pos hc] at h ⊢
        obtain ⟨p', hp', h⟩ := life_bind_ok' h
        obtain ⟨q', q1'⟩ := exist hp' (hs _ (by
          have : useReads.atEnd s it = true ∧ it.page ≠ it.bound := ⟨by simp [useReads.atEnd, page hp, hc.1], hc.2⟩
          simp only [useReads]; rw [if_pos this]; simp))
        rw [q1', bind_ok, h, bind_ok, e]
      · rw [if_neg hc] at h ⊢
        rw [h, bind_ok, e]
    · cases ho
  | read it =>
    simp only [result, Iter.deref] at h ⊢
    obtain ⟨x, h, e⟩ := life_bind_ok' h
    obtain ⟨p, hp, h⟩ := life_bind_ok' h
    have hc := hs (.elem it.page it.off.toNat) (by simp [useReads])
    simp only [Cell.Same, page hp, Option.bind_some] at hc
    split at h
    · cases h
    · rename_i hneg
      cases hx : p[it.off.toNat]? with
      | none => rw [hx] at h; cases h
      | some y =>
        rw [hx] at h hc
        obtain ⟨q, q1, q2⟩ := Option.bind_eq_some_iff.1 hc.symm
        rw [show s2.page it.page = .ok q by simp [PS.page, q1], bind_ok, if_neg hneg, q2]
        cases h
        exact e
  | write it => exact h

end Falcon.PagedStack
