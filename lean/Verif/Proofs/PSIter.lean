import Verif.Proofs.PSMore
/-
Helper lemmas: n-fold iterator steps and user loops.
-/
namespace Falcon.PagedStack
variable {α : Type}

section
variable {ps al : Nat} {sc : Int} {sr : Bool} {pre : List (List α)} {cp : List α}
  {rest : List (List α)}

/-- forward position `k` steps after `begin()` -/
def fwdAt (ps len k : Nat) : Iter := if k < len then pos ps (len - 1 - k) 0 else ⟨0, -1, 0⟩

theorem begin_fwdAt (h0 : 0 < ps) (g : Good ps pre cp) :
    begin_ (mkS ps al pre cp rest sc sr) = .ok (fwdAt ps (cont pre cp).length 0) := by
  rw [begin_spec h0 g, fwdAt]
  by_cases h : (cont pre cp).length = 0
  · rw [if_pos h, if_neg (by omega)]
  · rw [if_neg h, if_pos (by omega)]; rfl

theorem fwdInc_at (h0 : 0 < ps) (g : Good ps pre cp) (k : Nat) (hk : k < (cont pre cp).length) :
    fwdInc (mkS ps al pre cp rest sc sr) (fwdAt ps (cont pre cp).length k)
      = .ok (fwdAt ps (cont pre cp).length (k + 1)) := by
  rw [fwdAt, if_pos hk, fwdAt]
  by_cases h : k + 1 < (cont pre cp).length
  · rw [if_pos h, show (cont pre cp).length - 1 - k = ((cont pre cp).length - 1 - (k + 1)) + 1 by omega]
    exact fwdInc_succ g h0 _ (by omega)
  · rw [if_neg h, show (cont pre cp).length - 1 - k = 0 by omega]
    exact fwdInc_zero

theorem fwdDec_at (h0 : 0 < ps) (g : Good ps pre cp) (k : Nat) (hk : k < (cont pre cp).length) :
    fwdDec (mkS ps al pre cp rest sc sr) (fwdAt ps (cont pre cp).length (k + 1))
      = .ok (fwdAt ps (cont pre cp).length k) := by
  rw [fwdAt]
  by_cases h : k + 1 < (cont pre cp).length
  · rw [if_pos h, fwdAt, if_pos hk,
      show (cont pre cp).length - 1 - k = ((cont pre cp).length - 1 - (k + 1)) + 1 by omega]
    exact fwdDec_pos g h0 _ _ (by omega)
  · rw [if_neg h, fwdAt, if_pos hk, show (cont pre cp).length - 1 - k = 0 by omega]
    obtain ⟨p, hp, hl, -⟩ := page_pos (al := al) (rest := rest) (sc := sc) (sr := sr) g h0 0 (by omega)
    rw [Nat.zero_div] at hp
    rw [Nat.zero_mod] at hl
    rw [fwdDec_mk, hp, bind_ok, ptrInc, if_pos (by omega), bind_ok, if_neg (by omega), pos]
    simp

theorem stepN_fwdInc (h0 : 0 < ps) (g : Good ps pre cp) : ∀ n k, k + n ≤ (cont pre cp).length →
    stepN (fwdInc (mkS ps al pre cp rest sc sr)) n (fwdAt ps (cont pre cp).length k)
      = .ok (fwdAt ps (cont pre cp).length (k + n))
  | 0, k, _ => rfl
  | n + 1, k, h => by
    rw [stepN, fwdInc_at h0 g k (by omega), bind_ok, stepN_fwdInc h0 g n (k + 1) (by omega)]
    congr 2; omega

theorem stepN_fwdDec (h0 : 0 < ps) (g : Good ps pre cp) : ∀ n k, k + n ≤ (cont pre cp).length →
    stepN (fwdDec (mkS ps al pre cp rest sc sr)) n (fwdAt ps (cont pre cp).length (k + n))
      = .ok (fwdAt ps (cont pre cp).length k)
  | 0, k, _ => rfl
  | n + 1, k, h => by
    rw [stepN, show k + (n + 1) = (k + n) + 1 by omega, fwdDec_at h0 g (k + n) (by omega), bind_ok,
      stepN_fwdDec h0 g n k (by omega)]

/-- reverse position with `i` elements below, bound at the current page -/
def revAt (ps len i c cl : Nat) : Iter := if i < len then pos ps i c else ⟨c, (cl : Int), c⟩

theorem fromTop_revAt (h0 : 0 < ps) (g : Good ps pre cp) (d : Nat) (hd : d ≤ (cont pre cp).length) :
    fromTop (mkS ps al pre cp rest sc sr) d
      = .ok (revAt ps (cont pre cp).length ((cont pre cp).length - d) pre.length cp.length) := by
  rw [revAt]
  by_cases h : d = 0
  · subst h; rw [fromTop_zero, if_neg (by omega)]
  · rw [fromTop_spec h0 g d (by omega) hd, if_pos (by omega)]

theorem revInc_at (h0 : 0 < ps) (g : Good ps pre cp) (i : Nat) (hi : i < (cont pre cp).length) :
    revInc (mkS ps al pre cp rest sc sr) (revAt ps (cont pre cp).length i pre.length cp.length)
      = .ok (revAt ps (cont pre cp).length (i + 1) pre.length cp.length) := by
  rw [revAt, if_pos hi, revAt]
  by_cases h : i + 1 < (cont pre cp).length
  · rw [if_pos h]; exact revInc_pos g h0 i _ (Nat.le_refl _) h
  · rw [if_neg h]; exact revInc_last g h0 i (by omega)

theorem revDec_at (h0 : 0 < ps) (g : Good ps pre cp) (i : Nat) (hi : i < (cont pre cp).length) :
    revDec (mkS ps al pre cp rest sc sr) (revAt ps (cont pre cp).length (i + 1) pre.length cp.length)
      = .ok (revAt ps (cont pre cp).length i pre.length cp.length) := by
  rw [revAt]
  by_cases h : i + 1 < (cont pre cp).length
  · rw [if_pos h, revAt, if_pos hi]; exact revDec_succ g h0 i _ h
  · rw [if_neg h, revAt, if_pos hi]
    obtain ⟨h1, h2⟩ := last_pos g h0 i (by omega)
    rw [revDec_mk, mkS_page, bind_ok, if_neg (by omega), ptrDec, if_neg (by omega), bind_ok, pos, h1]
    congr 2; omega

theorem stepN_revInc (h0 : 0 < ps) (g : Good ps pre cp) : ∀ n i, i + n ≤ (cont pre cp).length →
    stepN (revInc (mkS ps al pre cp rest sc sr)) n (revAt ps (cont pre cp).length i pre.length cp.length)
      = .ok (revAt ps (cont pre cp).length (i + n) pre.length cp.length)
  | 0, i, _ => rfl
  | n + 1, i, h => by
    rw [stepN, revInc_at h0 g i (by omega), bind_ok, stepN_revInc h0 g n (i + 1) (by omega)]
    congr 2; omega

theorem stepN_revDec (h0 : 0 < ps) (g : Good ps pre cp) : ∀ n i, i + n ≤ (cont pre cp).length →
    stepN (revDec (mkS ps al pre cp rest sc sr)) n (revAt ps (cont pre cp).length (i + n) pre.length cp.length)
      = .ok (revAt ps (cont pre cp).length i pre.length cp.length)
  | 0, i, _ => rfl
  | n + 1, i, h => by
    rw [stepN, show i + (n + 1) = (i + n) + 1 by omega, revDec_at h0 g (i + n) (by omega), bind_ok,
      stepN_revDec h0 g n i (by omega)]

theorem forEach_spec (h0 : 0 < ps) (g : Good ps pre cp) (fuel : Nat)
    (hf : (cont pre cp).length + 1 ≤ fuel) :
    forEach (mkS ps al pre cp rest sc sr) fuel = .ok (some (cont pre cp).reverse) := by
  simp only [forEach, begin_spec h0 g, end_spec, bind_ok]
  by_cases h : (cont pre cp).length = 0
  · rw [if_pos h]
    obtain ⟨f, rfl⟩ : ∃ f, fuel = f + 1 := ⟨fuel - 1, by omega⟩
    have : Iter.eqv ⟨0, -1, 0⟩ ⟨0, -1, 0⟩ = true := by simp [Iter.eqv]
    rw [loop, if_pos this, List.length_eq_zero_iff.1 h]; rfl
  · rw [if_neg h, loop_fwd h0 g _ fuel (by omega) (by omega), show (cont pre cp).length - 1 + 1
      = (cont pre cp).length by omega, List.take_length]

theorem rend_spec : rend (mkS ps al pre cp rest sc sr) = .ok ⟨pre.length, cp.length, pre.length⟩ := by
  simp only [rend, mkS_cur, mkS_page, bind_ok]

theorem forEachFrom_spec (h0 : 0 < ps) (g : Good ps pre cp) (d fuel : Nat)
    (hd : d ≤ (cont pre cp).length) (hf : d + 1 ≤ fuel) :
    forEachFrom (mkS ps al pre cp rest sc sr) d fuel
      = .ok (some ((cont pre cp).drop ((cont pre cp).length - d))) := by
  simp only [forEachFrom, rend_spec]
  by_cases h : d = 0
  · subst h
    rw [fromTop_zero, bind_ok, bind_ok]
    obtain ⟨f, rfl⟩ : ∃ f, fuel = f + 1 := ⟨fuel - 1, by omega⟩
    have : Iter.eqv ⟨pre.length, cp.length, pre.length⟩ ⟨pre.length, cp.length, pre.length⟩ = true := by
      simp [Iter.eqv]
    rw [loop, if_pos this]; simp
  · rw [fromTop_spec h0 g d (by omega) hd, bind_ok, bind_ok,
      loop_rev h0 g (d - 1) _ fuel (by omega) (by omega)]

theorem rbegin_spec : rbegin (mkS ps al pre cp rest sc sr)
    = .ok (pos ps 0 (pre.length + rest.length)) := by
  have hp : ∃ p, (mkS ps al pre cp rest sc sr).page 0 = .ok p := by
    cases pre <;> simp [PS.page]
  obtain ⟨p, hp⟩ := hp
  simp only [rbegin, hp, bind_ok, pos, mkS_base]
  simp

theorem forEachReverse_tight (h0 : 0 < ps) (g : Good ps pre cp) (fuel : Nat)
    (hf : (cont pre cp).length + 1 ≤ fuel) :
    forEachReverse (mkS ps al pre cp [] sc sr) fuel = .ok (some (cont pre cp)) := by
  simp only [forEachReverse, rbegin_spec, rend_spec, bind_ok, List.length_nil, Nat.add_zero]
  obtain ⟨f, rfl⟩ : ∃ f, fuel = f + 1 := ⟨fuel - 1, by omega⟩
  by_cases h : (cont pre cp).length = 0
  · obtain ⟨rfl, rfl⟩ := g.cont_nil (List.length_eq_zero_iff.1 h)
    have : Iter.eqv (pos ps 0 0) ⟨0, 0, 0⟩ = true := by simp [Iter.eqv, pos]
    exact (if_pos this).trans rfl
  · rw [loop_rev h0 g ((cont pre cp).length - 1) 0 _ (by omega) (by omega)]; rfl

theorem forEachReverse_empty (fuel : Nat) (hf : 1 ≤ fuel) :
    forEachReverse (mkS ps al ([] : List (List α)) [] rest sc sr) fuel = .ok (some []) := by
  simp only [forEachReverse, rbegin_spec, rend_spec, bind_ok]
  obtain ⟨f, rfl⟩ : ∃ f, fuel = f + 1 := ⟨fuel - 1, by omega⟩
  have : Iter.eqv (pos ps 0 (0 + rest.length)) ⟨0, 0, 0⟩ = true := by simp [Iter.eqv, pos]
  simp only [List.length_nil]
  rw [loop]
  exact if_pos this

theorem eqv_rend_false (h0 : 0 < ps) (g : Good ps pre cp) (i b : Nat) (hi : i < (cont pre cp).length) :
    (pos ps i b).eqv ⟨pre.length, cp.length, pre.length⟩ = false := by
  obtain ⟨p, h1, h2, h3, h4, h5⟩ := page_pos (al := 0) (rest := []) (sc := 0) (sr := false) g h0 i hi
  simp only [pos, Iter.eqv, Bool.and_eq_false_imp]
  intro e
  have e := h5 (by simpa using e)
  subst e
  rw [beq_eq_false_iff_ne]; omega

/-- with a spare page the reverse loop runs off the end and dereferences the empty spare page -/
theorem loop_rev_spare (h0 : 0 < ps) (g : Good ps pre cp) (rest : List (List α)) : ∀ (k i fuel : Nat),
    i + k + 1 = (cont pre cp).length → k + 2 ≤ fuel →
    loop (mkS ps al pre cp ([] :: rest) sc sr) (revInc (mkS ps al pre cp ([] :: rest) sc sr))
      ⟨pre.length, cp.length, pre.length⟩ fuel (pos ps i (pre.length + (rest.length + 1)))
      = .error (.ub .derefData)
  | k, i, 0, _, h => by omega
  | 0, i, fuel + 1, hi, hf => by
    have hi' : i < (cont pre cp).length := by omega
    obtain ⟨h1, h2⟩ := last_pos g h0 i (by omega)
    obtain ⟨f, rfl⟩ : ∃ f, fuel = f + 1 := ⟨fuel - 1, by omega⟩
    have hp1 : (mkS ps al pre cp ([] :: rest) sc sr).page (pre.length + 1) = .ok [] := by
      simp [PS.page]
    have hinc : revInc (mkS ps al pre cp ([] :: rest) sc sr) (pos ps i (pre.length + (rest.length + 1)))
        = .ok ⟨pre.length + 1, 0, pre.length + (rest.length + 1)⟩ ∨ rest.length + 1 = 0 := by
      left
      rw [pos, revInc_mk, h1, mkS_page, bind_ok, ptrInc, if_pos (by omega), bind_ok,
        if_pos ⟨by omega, by omega⟩, hp1, bind_ok]
    have hinc := hinc.resolve_right (by omega)
    have hne : Iter.eqv ⟨pre.length + 1, 0, pre.length + (rest.length + 1)⟩
        ⟨pre.length, cp.length, pre.length⟩ = false := by simp [Iter.eqv]
    have hd : Iter.deref (mkS ps al pre cp ([] :: rest) sc sr)
        ⟨pre.length + 1, 0, pre.length + (rest.length + 1)⟩ = .error (.ub .derefData) := by
      rw [deref_mk, hp1, bind_ok, if_neg (by omega)]; rfl
    simp only [loop, eqv_rend_false h0 g i _ hi', deref_pos g h0 i _ _ (List.getElem?_eq_getElem hi'),
      bind_ok, hinc, hne, hd, bind_err, Bool.false_eq_true, if_false]
  | k + 1, i, fuel + 1, hi, hf => by
    have hi' : i < (cont pre cp).length := by omega
    simp only [loop, eqv_rend_false h0 g i _ hi', deref_pos g h0 i _ _ (List.getElem?_eq_getElem hi'),
      bind_ok, Bool.false_eq_true, if_false,
      revInc_pos g h0 i (pre.length + (rest.length + 1)) (by omega)
        (show i + 1 < (cont pre cp).length by omega),
      loop_rev_spare h0 g rest k (i + 1) fuel (by omega) (by omega), bind_err]

theorem forEachReverse_spare (h0 : 0 < ps) (g : Good ps pre cp) (rest : List (List α)) (fuel : Nat)
    (hne : cont pre cp ≠ []) (hf : (cont pre cp).length + 1 ≤ fuel) :
    forEachReverse (mkS ps al pre cp ([] :: rest) sc sr) fuel = .error (.ub .derefData) := by
  have := List.length_pos_iff.2 hne
  simp only [forEachReverse, rbegin_spec, rend_spec, bind_ok, List.length_cons]
  exact loop_rev_spare h0 g rest ((cont pre cp).length - 1) 0 fuel (by omega) (by omega)

end
end Falcon.PagedStack
