import Verif.Proofs.PSSync
/-
Sync iterators: exact effect of get and ++, and the loop over a quiescent stack.
-/
namespace Falcon.PagedStack
variable {α : Type}

def ofIter (j : Iter) (t : Bool) : SIter := ⟨j.page, j.page, j.off, j.bound, t⟩

theorem syncInc_of_fwd {s : PS α} {j j' : Iter} {t : Bool}
    (h1 : synchronize s (ofIter j t) = .ok (.inSync (ofIter j t)))
    (h2 : fwdInc s j = .ok j') : syncInc s (ofIter j t) = .ok (ofIter j' t, .unit) := by
  unfold syncInc
  rw [h1, bind_ok]
  dsimp only
  rw [if_neg (by simp [ofIter])]
  unfold fwdInc at h2
  obtain ⟨p, -, h2⟩ := bind_eq_ok.1 h2
  by_cases hc : j.off = 0 ∧ j.page ≠ j.bound
  · rw [if_pos hc] at h2
    rw [if_pos (show (ofIter j t).off = 0 ∧ (ofIter j t).page ≠ (ofIter j t).bound from hc)]
    by_cases hz : j.page = 0
    · rw [if_pos hz] at h2; cases h2
    · rw [if_neg hz] at h2
      rw [if_neg (show ¬ (ofIter j t).page = 0 from hz)]
      obtain ⟨q, hq, h2⟩ := bind_eq_ok.1 h2
      obtain ⟨d, hd, h2⟩ := bind_eq_ok.1 h2
      obtain rfl := ok_inj h2
      rw [show s.page ((ofIter j t).page - 1) = .ok q from hq, bind_ok, hd, bind_ok]
      rfl
  · rw [if_neg hc] at h2
    rw [if_neg (show ¬ ((ofIter j t).off = 0 ∧ (ofIter j t).page ≠ (ofIter j t).bound) from hc)]
    obtain ⟨d, hd, h2⟩ := bind_eq_ok.1 h2
    obtain rfl := ok_inj h2
    rw [show ptrDec (ofIter j t).off = .ok d from hd, bind_ok]
    rfl

theorem sderef_of (s : PS α) (j : Iter) (t : Bool) : (ofIter j t).deref s = j.deref s := rfl

section
variable {ps al : Nat} {sc : Int} {sr : Bool} {pre : List (List α)} {cp : List α}
  {rest : List (List α)}

theorem it_eq_pos {len : Nat} {it : SIter} (h0 : 0 < ps) (h : ItOk ps len it) (ho : 0 ≤ it.off) :
    it = ofIter (pos ps (it.fromBottom ps) 0) it.threw := by
  obtain ⟨pg, dpg, off, bound, threw⟩ := it
  have hb := h.bnd; have hd := h.data; have hh := h.hi
  simp only at hb hd hh ho
  subst hb; subst hd
  obtain ⟨o, rfl⟩ := Int.eq_ofNat_of_zero_le ho
  have hlt : o < ps := by omega
  have h1 : (dpg * ps + o) / ps = dpg := by
    rw [Nat.mul_comm, Nat.mul_add_div h0, Nat.div_eq_of_lt hlt]; omega
  have h2 : (dpg * ps + o) % ps = o := by
    rw [Nat.mul_comm, Nat.mul_add_mod, Nat.mod_eq_of_lt hlt]
  simp only [ofIter, pos, SIter.fromBottom]
  rw [show (o : Int).toNat = o from rfl, h1, h2]

/-- Where an untouched iterator stands relative to the live elements. -/
theorem sync_cases (g : Good ps pre cp) {it : SIter}
    (h : ItOk ps (mkS ps al pre cp rest sc sr).base.length it) (he : ¬ it.atEnd) :
    0 ≤ it.off ∧
    ((it.fromBottom ps < (cont pre cp).length ∧
        synchronize (mkS ps al pre cp rest sc sr) it = .ok (.inSync it)) ∨
     ((cont pre cp).length ≤ it.fromBottom ps ∧
        synchronize (mkS ps al pre cp rest sc sr) it = resyncTop (mkS ps al pre cp rest sc sr) it)) := by
  have ho : 0 ≤ it.off := by
    have := h.lo
    refine Classical.byContradiction fun hn => he ?_
    have e : it.off = -1 := by omega
    exact ⟨h.mark e, e⟩
  have hh := h.hi
  have hle := g.le
  refine ⟨ho, ?_⟩
  rw [g.len]
  unfold SIter.fromBottom
  rcases synchronize_spec (al := al) (rest := rest) (sc := sc) (sr := sr) g h with ⟨hl, e⟩ | ⟨hl, _, hl2, e⟩ | ⟨hl, e⟩
  · left
    refine ⟨?_, e⟩
    have : (it.page + 1) * ps ≤ pre.length * ps := Nat.mul_le_mul_right _ hl
    rw [Nat.add_mul] at this
    omega
  · left
    refine ⟨?_, e⟩
    rw [hl]; omega
  · right
    refine ⟨?_, e⟩
    rcases hl with hl | ⟨hl, hl2⟩
    · have : (pre.length + 1) * ps ≤ it.page * ps := Nat.mul_le_mul_right _ hl
      rw [Nat.add_mul] at this
      omega
    · rw [hl]; omega

theorem top_pos (h0 : 0 < ps) (g : Good ps pre cp) (hc : cp ≠ []) (it : SIter) (hb : it.bound = 0) :
    ({ it with page := pre.length, dpage := pre.length, off := (cp.length : Int) - 1 } : SIter)
      = ofIter (pos ps ((cont pre cp).length - 1) 0) it.threw := by
  have hl := List.length_pos_iff.2 hc
  have hle := g.le
  have h1 : ((cont pre cp).length - 1) / ps = pre.length := by
    rw [g.len, Nat.mul_comm, show ps * pre.length + cp.length - 1 = ps * pre.length + (cp.length - 1) by omega,
      Nat.mul_add_div h0, Nat.div_eq_of_lt (by omega)]; omega
  have h2 : ((cont pre cp).length - 1) % ps = cp.length - 1 := by
    rw [g.len, Nat.mul_comm, show ps * pre.length + cp.length - 1 = ps * pre.length + (cp.length - 1) by omega,
      Nat.mul_add_mod, Nat.mod_eq_of_lt (by omega)]
  simp only [ofIter, pos, h1, h2, hb]
  congr 1
  omega

theorem cp_nil_iff (g : Good ps pre cp) : cp = [] ↔ cont pre cp = [] := by
  constructor
  · intro e; subst e; rw [g.ne rfl]; rfl
  · intro e; exact (g.cont_nil e).2

theorem syncGet_empty (g : Good ps pre cp) {it : SIter}
    (h : ItOk ps (mkS ps al pre cp rest sc sr).base.length it) (he : ¬ it.atEnd) (hc : cont pre cp = []) :
    ∃ it', syncGet (mkS ps al pre cp rest sc sr) it = .ok (it', .threw) ∧
      syncInc (mkS ps al pre cp rest sc sr) it = .ok (it', .threw) := by
  obtain ⟨-, ⟨hl, -⟩ | ⟨-, e⟩⟩ := sync_cases (al := al) (rest := rest) (sc := sc) (sr := sr) g h he
  · rw [hc] at hl; simp at hl
  · rw [resyncTop_empty _ ((cp_nil_iff g).2 hc)] at e
    exact ⟨_, by unfold syncGet; rw [e]; rfl, by unfold syncInc; rw [e]; rfl⟩

theorem syncGet_ne (h0 : 0 < ps) (g : Good ps pre cp) {it : SIter}
    (h : ItOk ps (mkS ps al pre cp rest sc sr).base.length it) (he : ¬ it.atEnd) (hc : cont pre cp ≠ []) :
    ∃ it' x, syncGet (mkS ps al pre cp rest sc sr) it = .ok (it', .val x) ∧
      (cont pre cp)[min (it.fromBottom ps) ((cont pre cp).length - 1)]? = some x ∧
      it' = ofIter (pos ps (min (it.fromBottom ps) ((cont pre cp).length - 1)) 0) it.threw := by
  have hlen := List.length_pos_iff.2 hc
  obtain ⟨ho, ⟨hl, e⟩ | ⟨hl, e⟩⟩ := sync_cases (al := al) (rest := rest) (sc := sc) (sr := sr) g h he
  · rw [Nat.min_eq_left (by omega)]
    refine ⟨it, (cont pre cp)[it.fromBottom ps], ?_, List.getElem?_eq_getElem hl, it_eq_pos h0 h ho⟩
    unfold syncGet
    rw [e, bind_ok]
    dsimp only
    rw [show it.deref (mkS ps al pre cp rest sc sr) = .ok (cont pre cp)[it.fromBottom ps] by
      refine (congrArg (SIter.deref _) (it_eq_pos h0 h ho)).trans ?_
      rw [sderef_of]
      exact deref_pos g h0 _ _ _ (List.getElem?_eq_getElem hl)]
    rfl
  · rw [Nat.min_eq_right (by omega)]
    have hcp : cp ≠ [] := fun e => hc ((cp_nil_iff g).1 e)
    rw [resyncTop_ne _ hcp, top_pos h0 g hcp _ h.bnd] at e
    refine ⟨_, (cont pre cp)[(cont pre cp).length - 1], ?_, List.getElem?_eq_getElem (by omega), rfl⟩
    unfold syncGet
    rw [e, bind_ok]
    dsimp only
    rw [sderef_of, deref_pos g h0 _ _ _ (List.getElem?_eq_getElem (by omega))]
    rfl

/-- forward position by index from the bottom, end for none -/
def prevPos (ps k : Nat) : Iter := if k = 0 then ⟨0, -1, 0⟩ else pos ps (k - 1) 0

theorem fwdInc_prev (h0 : 0 < ps) (g : Good ps pre cp) (k : Nat) (hk : k < (cont pre cp).length) :
    fwdInc (mkS ps al pre cp rest sc sr) (pos ps k 0) = .ok (prevPos ps k) := by
  cases k with
  | zero => exact fwdInc_zero
  | succ k => exact fwdInc_succ g h0 k hk

theorem syncInc_ne (h0 : 0 < ps) (g : Good ps pre cp) {it : SIter}
    (h : ItOk ps (mkS ps al pre cp rest sc sr).base.length it) (he : ¬ it.atEnd) (hc : cont pre cp ≠ []) :
    syncInc (mkS ps al pre cp rest sc sr) it = .ok (
      if it.fromBottom ps < (cont pre cp).length then ofIter (prevPos ps (it.fromBottom ps)) it.threw
      else ofIter (pos ps ((cont pre cp).length - 1) 0) it.threw, .unit) := by
  obtain ⟨ho, ⟨hl, e⟩ | ⟨hl, e⟩⟩ := sync_cases (al := al) (rest := rest) (sc := sc) (sr := sr) g h he
  · rw [if_pos hl]
    have heq := it_eq_pos h0 h ho
    rw [heq] at e
    rw [← syncInc_of_fwd e (fwdInc_prev h0 g _ hl), ← heq]
  · rw [if_neg (by omega)]
    have hcp : cp ≠ [] := fun e => hc ((cp_nil_iff g).1 e)
    rw [resyncTop_ne _ hcp, top_pos h0 g hcp _ h.bnd] at e
    unfold syncInc
    rw [e]; rfl

theorem ofIter_pos_ok (h0 : 0 < ps) (g : Good ps pre cp) (k : Nat) (hk : k < (cont pre cp).length) (t : Bool) :
    ItOk ps (mkS ps al pre cp rest sc sr).base.length (ofIter (pos ps k 0) t) ∧
    (ofIter (pos ps k 0) t).fromBottom ps = k ∧ ¬ (ofIter (pos ps k 0) t).atEnd := by
  have hm := Nat.mod_lt k h0
  have hd := Nat.div_add_mod k ps
  have hdiv : k / ps < pre.length + 1 := by
    apply Nat.div_lt_of_lt_mul
    rw [g.len] at hk
    have := g.le
    rw [Nat.mul_add, Nat.mul_comm ps]; omega
  refine ⟨⟨rfl, ?_, rfl, ?_, ?_, ?_⟩, ?_, ?_⟩
  · show k / ps < _; simp only [mkS_base, List.length_append, List.length_cons]; omega
  · show (-1 : Int) ≤ ((k % ps : Nat) : Int); omega
  · show ((k % ps : Nat) : Int) < ps; omega
  · intro e; have e : ((k % ps : Nat) : Int) = -1 := e; omega
  · show k / ps * ps + (((k % ps : Nat) : Int)).toNat = k
    rw [Nat.mul_comm]; simp; omega
  · rintro ⟨-, e⟩; have e : ((k % ps : Nat) : Int) = -1 := e; omega

theorem syncLoop_spec (h0 : 0 < ps) (g : Good ps pre cp) : ∀ (k fuel : Nat), k < (cont pre cp).length →
    k + 2 ≤ fuel →
    syncLoop (mkS ps al pre cp rest sc sr) ⟨0, 0, -1, 0, false⟩ fuel (ofIter (pos ps k 0) false)
      = .ok (some ((cont pre cp).take (k + 1)).reverse)
  | k, 0, _, hf => by omega
  | k, fuel + 1, hk, hf => by
    obtain ⟨hok, hfb, hne⟩ := ofIter_pos_ok (al := al) (rest := rest) (sc := sc) (sr := sr) h0 g k hk false
    have hc : cont pre cp ≠ [] := by intro e; rw [e] at hk; simp at hk
    obtain ⟨it', x, e1, e2, e3⟩ := syncGet_ne h0 g hok hne hc
    rw [hfb, Nat.min_eq_left (by omega)] at e2 e3
    change it' = ofIter (pos ps k 0) false at e3
    subst e3
    have e4 := syncInc_ne h0 g hok hne hc
    rw [hfb, if_pos hk] at e4
    change _ = Except.ok (ofIter (prevPos ps k) false, SOut.unit) at e4
    have hneq : (ofIter (pos ps k 0) false).eqv ⟨0, 0, -1, 0, false⟩ = false := by
      have : ((k % ps : Nat) : Int) ≠ -1 := by omega
      simp only [SIter.eqv, ofIter, pos, Bool.and_eq_false_imp]
      intro _; simpa using this
    have hx : x = (cont pre cp)[k] := by
      rw [List.getElem?_eq_getElem hk] at e2; exact (Option.some.inj e2).symm
    unfold syncLoop
    rw [if_neg (by simp [hneq]), e1, bind_ok]
    dsimp only
    rw [e4, bind_ok]
    dsimp only
    have hrest : syncLoop (mkS ps al pre cp rest sc sr) ⟨0, 0, -1, 0, false⟩ fuel (ofIter (prevPos ps k) false)
        = .ok (some ((cont pre cp).take k).reverse) := by
      cases k with
      | zero =>
        obtain ⟨f, rfl⟩ : ∃ f, fuel = f + 1 := ⟨fuel - 1, by omega⟩
        rfl
      | succ k => exact syncLoop_spec h0 g k fuel (by omega) (by omega)
    rw [hrest, bind_ok]
    dsimp only
    rw [hx, take_succ_rev _ _ hk]

theorem syncForEach_spec (h0 : 0 < ps) (g : Good ps pre cp) (fuel : Nat)
    (hf : (cont pre cp).length + 1 ≤ fuel) :
    syncForEach (mkS ps al pre cp rest sc sr) fuel = .ok (some (cont pre cp).reverse) := by
  have he : syncEnd (mkS ps al pre cp rest sc sr) = .ok ⟨0, 0, -1, 0, false⟩ := by
    obtain ⟨p, hp⟩ := page_gt (ps := ps) (al := al) (pre := pre) (cp := cp) (rest := rest) (sc := sc) (sr := sr) 0 (by
      simp only [mkS_base, List.length_append, List.length_cons]; omega)
    unfold syncEnd; rw [hp]; rfl
  have hb : syncBegin (mkS ps al pre cp rest sc sr)
      = .ok ⟨pre.length, pre.length, (cp.length : Int) - 1, 0, false⟩ := by
    unfold syncBegin; rw [mkS_cur, mkS_page]; rfl
  unfold syncForEach
  rw [hb, bind_ok, he, bind_ok]
  by_cases hc : cp = []
  · obtain ⟨f, rfl⟩ : ∃ f, fuel = f + 1 := ⟨fuel - 1, by omega⟩
    subst hc; obtain rfl := g.ne rfl
    rfl
  · have := top_pos h0 g hc ⟨0, 0, 0, 0, false⟩ rfl
    simp only at this
    rw [this]
    have hl : 0 < (cont pre cp).length := by
      have := List.length_pos_iff.2 hc; rw [g.len]; omega
    rw [syncLoop_spec h0 g _ fuel (by omega) (by omega), List.take_of_length_le (by omega)]

end
end Falcon.PagedStack
