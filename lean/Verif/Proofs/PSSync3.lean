import Verif.Proofs.PSSync2
/-
Sync iterators: exact effect of decrement.
-/
namespace Falcon.PagedStack
variable {α : Type}

theorem syncDec_of_fwd {s : PS α} {j : Iter} {t : Bool}
    (h1 : synchronize s (ofIter j t) = .ok (.inSync (ofIter j t))) :
    syncDec s (ofIter j t) = (fwdDec s j).bind fun j' => .ok (ofIter j' t, .unit) := by
  unfold syncDec
  rw [h1, bind_ok]
  dsimp only
  rw [if_neg (by simp [ofIter])]
  unfold fwdDec
  show (s.page j.page).bind _ = ((s.page j.page).bind _).bind _
  cases hp : s.page j.page with
  | error e => rfl
  | ok p =>
    show (ptrInc p j.off).bind _ = ((ptrInc p j.off).bind _).bind _
    cases ptrInc p j.off with
    | error e => rfl
    | ok o =>
      show (if o = p.length then _ else _) = Except.bind (if o = p.length then _ else _) _
      split
      · show (s.page (j.page + 1)).bind _ = ((s.page (j.page + 1)).bind _).bind _
        cases s.page (j.page + 1) <;> rfl
      · rfl

section
variable {ps al : Nat} {sc : Int} {sr : Bool} {pre : List (List α)} {cp : List α}
  {rest : List (List α)}

theorem top_div (h0 : 0 < ps) (g : Good ps pre cp) (hc : cp ≠ []) :
    ((cont pre cp).length - 1) / ps = pre.length ∧ ((cont pre cp).length - 1) % ps = cp.length - 1 := by
  have := top_pos h0 g hc ⟨0, 0, 0, 0, false⟩ rfl
  simp only [ofIter, pos, SIter.mk.injEq] at this
  have hl := List.length_pos_iff.2 hc
  obtain ⟨a, -, b, -⟩ := this
  exact ⟨a.symm, by omega⟩

/-- Decrement of an iterator that designates an element below the top: one element up. -/
theorem syncDec_up (h0 : 0 < ps) (g : Good ps pre cp) {it : SIter}
    (h : ItOk ps (mkS ps al pre cp rest sc sr).base.length it) (he : ¬ it.atEnd)
    (hk : it.fromBottom ps + 1 < (cont pre cp).length) :
    syncDec (mkS ps al pre cp rest sc sr) it = .ok (ofIter (pos ps (it.fromBottom ps + 1) 0) it.threw, .unit) := by
  obtain ⟨ho, ⟨-, e⟩ | ⟨hl, -⟩⟩ := sync_cases (al := al) (rest := rest) (sc := sc) (sr := sr) g h he
  · have heq := it_eq_pos h0 h ho
    rw [heq] at e
    have := syncDec_of_fwd e
    rw [fwdDec_pos g h0 _ 0 hk, ← heq] at this
    exact this
  · omega

/-- Decrement of an iterator at the top: to the spare page above if there is one, otherwise undefined. -/
theorem syncDec_top (h0 : 0 < ps) (g : Good ps pre cp) {it : SIter}
    (h : ItOk ps (mkS ps al pre cp rest sc sr).base.length it) (he : ¬ it.atEnd)
    (hk : it.fromBottom ps + 1 = (cont pre cp).length) :
    syncDec (mkS ps al pre cp rest sc sr) it =
      if rest = [] then .error (.ub .derefListEnd)
      else .ok (ofIter ⟨pre.length + 1, 0, 0⟩ it.threw, .unit) := by
  obtain ⟨ho, ⟨-, e⟩ | ⟨hl, -⟩⟩ := sync_cases (al := al) (rest := rest) (sc := sc) (sr := sr) g h he
  · have heq := it_eq_pos h0 h ho
    rw [heq] at e
    have := syncDec_of_fwd e
    rw [← heq] at this
    rw [this]
    have hc : cp ≠ [] := by
      intro hcp
      have : cont pre cp = [] := (cp_nil_iff g).1 hcp
      rw [this] at hk; simp at hk
    obtain ⟨d1, d2⟩ := top_div h0 g hc
    rw [← hk, Nat.add_sub_cancel] at d1 d2
    have hl := List.length_pos_iff.2 hc
    rw [pos, d1, d2, fwdDec_mk, mkS_page, bind_ok, ptrInc, if_pos (by omega), bind_ok, if_pos (by omega)]
    have hp : (mkS ps al pre cp rest sc sr).page (pre.length + 1)
        = if rest = [] then .error (.ub .derefListEnd) else .ok (rest.headD []) := by
      unfold PS.page
      rw [mkS_base, List.getElem?_append_right (by omega), Nat.add_sub_cancel_left]
      cases rest <;> simp
    rw [hp]
    split <;> rfl
  · omega

/-- Decrement of an iterator whose place is no longer in use: to the top. -/
theorem syncDec_stale (h0 : 0 < ps) (g : Good ps pre cp) {it : SIter}
    (h : ItOk ps (mkS ps al pre cp rest sc sr).base.length it) (he : ¬ it.atEnd)
    (hk : (cont pre cp).length ≤ it.fromBottom ps) (hc : cont pre cp ≠ []) :
    syncDec (mkS ps al pre cp rest sc sr) it
      = .ok (ofIter (pos ps ((cont pre cp).length - 1) 0) it.threw, .unit) := by
  obtain ⟨ho, ⟨hl, -⟩ | ⟨-, e⟩⟩ := sync_cases (al := al) (rest := rest) (sc := sc) (sr := sr) g h he
  · omega
  · have hcp : cp ≠ [] := fun e => hc ((cp_nil_iff g).1 e)
    rw [resyncTop_ne _ hcp, top_pos h0 g hcp _ h.bnd] at e
    unfold syncDec
    rw [e]; rfl

theorem syncDec_empty (g : Good ps pre cp) {it : SIter}
    (h : ItOk ps (mkS ps al pre cp rest sc sr).base.length it) (hc : cont pre cp = []) :
    ∃ it', syncDec (mkS ps al pre cp rest sc sr) it = .ok (it', .threw) := by
  have hcp := (cp_nil_iff g).2 hc
  have hpre := g.ne hcp
  rcases synchronize_spec (al := al) (rest := rest) (sc := sc) (sr := sr) g h with ⟨hl, e⟩ | ⟨_, h1, h2, e⟩ | ⟨_, e⟩
  · rw [hpre] at hl; simp at hl
  · rw [hcp] at h2; simp at h2; omega
  · rw [resyncTop_empty _ hcp] at e
    exact ⟨_, by unfold syncDec; rw [e]; rfl⟩

/-- Decrement of an iterator at the end: to the bottom if the stack has more than one page in use, to the
top otherwise. -/
theorem syncDec_end (h0 : 0 < ps) (g : Good ps pre cp) {it : SIter}
    (h : ItOk ps (mkS ps al pre cp rest sc sr).base.length it) (he : it.atEnd) (hc : cont pre cp ≠ []) :
    syncDec (mkS ps al pre cp rest sc sr) it = .ok (ofIter (pos ps
      (if (cont pre cp).length ≤ ps then (cont pre cp).length - 1 else 0) 0) it.threw, .unit) := by
  obtain ⟨he1, he2⟩ := he
  have hcp : cp ≠ [] := fun e => hc ((cp_nil_iff g).1 e)
  have hl := List.length_pos_iff.2 hcp
  have hle := g.le
  have hlen := g.len
  rcases synchronize_spec (al := al) (rest := rest) (sc := sc) (sr := sr) g h with ⟨hlt, e⟩ | ⟨_, h1, _, _⟩ | ⟨hb, e⟩
  · -- more than one page
    have hmul : 1 * ps ≤ pre.length * ps := Nat.mul_le_mul_right _ (by omega)
    rw [if_neg (by omega)]
    have heq : it = ofIter ⟨0, -1, 0⟩ it.threw := by
      obtain ⟨a, b, c, d, t⟩ := it
      have e3 := h.data; have e4 := h.bnd
      simp only at he1 he2 e3 e4
      subst he1; subst he2; subst e3; subst e4; rfl
    rw [heq] at e
    have := syncDec_of_fwd e
    rw [← heq] at this
    rw [this]
    obtain ⟨p, hp, hpl, -⟩ := page_pos (al := al) (rest := rest) (sc := sc) (sr := sr) g h0 0 (by omega)
    rw [Nat.zero_div] at hp
    have hfull := page_full g (by omega) hp
    rw [fwdDec_mk, hp, bind_ok, ptrInc, if_pos (by omega), bind_ok, if_neg (by omega)]
    simp [pos, Except.bind]
  · omega
  · have hpre : pre.length = 0 := by omega
    rw [hpre] at hlen
    rw [if_pos (by omega)]
    rw [resyncTop_ne _ hcp, top_pos h0 g hcp _ h.bnd] at e
    unfold syncDec
    rw [e]; rfl

end
end Falcon.PagedStack
