import Verif.Proofs.PagedStack
/-
Helper lemmas: effect of every PagedStack operation on contents and pages.
`rest` is arbitrary (it may hold stale elements): only `push` looks at it.
-/
namespace Falcon.PagedStack
variable {α : Type}

theorem cont_snoc (pre : List (List α)) (q cp : List α) :
    cont (pre ++ [q]) cp = cont pre q ++ cp := by simp [cont]

theorem flatten_inj {ps : Nat} : ∀ (a b : List (List α)), (∀ p ∈ a, p.length = ps) →
    (∀ p ∈ b, p.length = ps) → a.length = b.length → a.flatten = b.flatten → a = b
  | [], [], _, _, _, _ => rfl
  | [], _ :: _, _, _, h, _ => by simp at h
  | _ :: _, [], _, _, h, _ => by simp at h
  | x :: a, y :: b, ha, hb, hl, h => by
    simp only [List.flatten_cons] at h
    have hx := ha x (by simp)
    have hy := hb y (by simp)
    obtain ⟨h1, h2⟩ := List.append_inj h (by omega)
    rw [h1, flatten_inj a b (fun p hp => ha p (by simp [hp])) (fun p hp => hb p (by simp [hp]))
      (by simpa using hl) h2]

theorem Good.unique {ps : Nat} {pre pre' : List (List α)} {cp cp' : List α} (h0 : 0 < ps)
    (g : Good ps pre cp) (g' : Good ps pre' cp') (h : cont pre cp = cont pre' cp') :
    pre = pre' ∧ cp = cp' := by
  have hl : pre.length = pre'.length := by
    have e1 := g.len; have e2 := g'.len
    have p1 := g.pages h0; have p2 := g'.pages h0
    rw [← e1] at p1; rw [← e2] at p2
    rw [h] at p1
    omega
  obtain ⟨h1, h2⟩ := List.append_inj h (by rw [g.len_pre, g'.len_pre, hl])
  exact ⟨flatten_inj pre pre' g.full g'.full hl h1, h2⟩

theorem Good.cont_nil {ps : Nat} {pre : List (List α)} {cp : List α} (g : Good ps pre cp)
    (h : cont pre cp = []) : pre = [] ∧ cp = [] := by
  simp only [cont, List.append_eq_nil_iff] at h
  exact ⟨g.ne h.2, h.2⟩

theorem Good.cont_concat {ps : Nat} {pre : List (List α)} {cp c : List α} {x : α}
    (g : Good ps pre cp) (h : cont pre cp = c ++ [x]) : ∃ cp', cp = cp' ++ [x] ∧ cont pre cp' = c := by
  rcases nil_or_snoc cp with rfl | ⟨cp', y, rfl⟩
  · have := g.ne rfl; subst this; simp [cont] at h
  · rw [cont, ← List.append_assoc] at h
    obtain ⟨h1, h2⟩ := List.append_inj' h (by simp)
    simp at h2; subst h2
    exact ⟨cp', rfl, h1⟩

section ops
variable {ps al : Nat} {sc : Int} {sr : Bool}

theorem pop_spec (h0 : 0 < ps) {pre : List (List α)} {cp c : List α} {x : α} (rest : List (List α))
    (g : Good ps pre cp) (h : cont pre cp = c ++ [x]) :
    ∃ pre' cp' j, popOne (mkS ps al pre cp rest sc sr)
        = .ok (mkS ps al pre' cp' (List.replicate j [] ++ rest) sc sr)
      ∧ Good ps pre' cp' ∧ cont pre' cp' = c ∧ pre'.length + j = pre.length := by
  obtain ⟨cp', rfl, hc⟩ := g.cont_concat h
  by_cases hcp : cp' = []
  · rcases nil_or_snoc pre with rfl | ⟨pre', q, rfl⟩
    · exact ⟨[], cp', 0, by simpa using popOne_stay x (Or.inr rfl), g.pop_stay (Or.inr rfl), hc, rfl⟩
    · subst hcp
      refine ⟨pre', q, 1, by simpa using popOne_cross q x, g.pop_cross h0, ?_, by simp⟩
      rw [← hc, cont_snoc]; simp
  · exact ⟨pre, cp', 0, by simpa using popOne_stay x (Or.inl hcp), g.pop_stay (Or.inl hcp), hc, rfl⟩

theorem top_spec {pre : List (List α)} {cp c : List α} {x : α} {rest : List (List α)}
    (g : Good ps pre cp) (h : cont pre cp = c ++ [x]) :
    top (mkS ps al pre cp rest sc sr) = .ok x := by
  obtain ⟨cp', rfl, hc⟩ := g.cont_concat h
  simp [top_mk]

theorem popMany_spec (h0 : 0 < ps) : ∀ (n : Nat) (pre : List (List α)) (cp : List α)
    (rest : List (List α)), Good ps pre cp → n ≤ (cont pre cp).length →
    ∃ pre' cp' j, popMany (mkS ps al pre cp rest sc sr) n
        = .ok (mkS ps al pre' cp' (List.replicate j [] ++ rest) sc sr, (cont pre cp).reverse.take n)
      ∧ Good ps pre' cp' ∧ cont pre' cp' = (cont pre cp).take ((cont pre cp).length - n)
      ∧ pre'.length + j = pre.length
  | 0, pre, cp, rest, g, _ => ⟨pre, cp, 0, by simp [popMany], g, by rw [Nat.sub_zero, List.take_length], by simp⟩
  | n + 1, pre, cp, rest, g, h => by
    obtain ⟨c, x, hcx⟩ : ∃ c x, cont pre cp = c ++ [x] := by
      rcases nil_or_snoc (cont pre cp) with e | ⟨c, x, e⟩
      · rw [e] at h; simp at h
      · exact ⟨c, x, e⟩
    obtain ⟨pre1, cp1, j1, e1, g1, c1, l1⟩ := pop_spec (al := al) (sc := sc) (sr := sr) h0 rest g hcx
    obtain ⟨pre2, cp2, j2, e2, g2, c2, l2⟩ := popMany_spec h0 n pre1 cp1
      (List.replicate j1 [] ++ rest) g1 (by rw [c1]; rw [hcx] at h; simpa using h)
    refine ⟨pre2, cp2, j2 + j1, ?_, g2, ?_, by omega⟩
    · simp only [popMany, top_spec g hcx, bind_ok, e1, e2, c1, hcx]
      simp [← List.replicate_append_replicate]
    · rw [c2, c1, hcx]
      simp only [List.length_append, List.length_cons, List.length_nil]
      rw [List.take_append_of_le_length (by omega)]
      congr 1; omega

theorem popMany_over : ∀ (n : Nat) (pre : List (List α)) (cp : List α)
    (rest : List (List α)), 0 < ps → Good ps pre cp → (cont pre cp).length < n →
    popMany (mkS ps al pre cp rest sc sr) n = .error (.ub .emptyBack)
  | 0, _, _, _, _, _, h => by simp at h
  | n + 1, pre, cp, rest, h0, g, h => by
    rcases nil_or_snoc (cont pre cp) with e | ⟨c, x, e⟩
    · obtain ⟨rfl, rfl⟩ := g.cont_nil e
      simp [popMany, top_mk]
    · obtain ⟨pre1, cp1, j1, e1, g1, c1, l1⟩ := pop_spec (al := al) (sc := sc) (sr := sr) h0 rest g e
      have := popMany_over n pre1 cp1 (List.replicate j1 [] ++ rest) h0 g1
        (by rw [c1]; rw [e] at h; simpa using h)
      simp only [popMany, top_spec g e, bind_ok, e1, this, bind_err]

theorem discardLoop_spec (h0 : 0 < ps) : ∀ (m : Nat) (pre : List (List α)) (cp : List α)
    (rest : List (List α)) (n : Nat), pre.length = m → Good ps pre cp →
    ∃ pre' cp' j, discardLoop (pre ++ cp :: rest) m n
        = .ok (pre' ++ cp' :: (List.replicate j [] ++ rest), pre'.length)
      ∧ Good ps pre' cp' ∧ cont pre' cp' = (cont pre cp).take ((cont pre cp).length - n)
      ∧ pre'.length + j = pre.length
  | 0, pre, cp, rest, n, hm, g => by
    have : pre = [] := List.length_eq_zero_iff.1 hm
    subst this
    simp only [discardLoop, List.nil_append, List.getElem?_cons_zero, List.set_cons_zero]
    split
    · rename_i h
      refine ⟨[], [], 0, by simp, Good.nil, ?_, rfl⟩
      simp [cont, Nat.sub_eq_zero_of_le h]
    · rename_i h
      refine ⟨[], cp.take (cp.length - n), 0, by simp, ⟨by simp, ?_, by simp⟩, by simp [cont], rfl⟩
      have := g.le; simp; omega
  | m + 1, pre, cp, rest, n, hm, g => by
    rcases nil_or_snoc pre with rfl | ⟨pre', q, rfl⟩
    · simp at hm
    · have hm' : pre'.length = m := by simpa using hm
      have e0 : (pre' ++ [q] ++ cp :: rest)[m + 1]? = some cp := by
        rw [List.getElem?_append_right (by simp; omega)]; simp [hm']
      have e1 : (pre' ++ [q] ++ cp :: rest).set (m + 1) [] = pre' ++ q :: ([] :: rest) := by
        rw [List.set_append_right _ _ (by simp; omega)]; simp [hm']
      simp only [discardLoop, e0]
      split
      · rename_i h
        rw [e1]
        obtain ⟨pre2, cp2, j2, e2, g2, c2, l2⟩ :=
          discardLoop_spec h0 m pre' q ([] :: rest) (n - cp.length) hm' (g.pop_cross h0)
        refine ⟨pre2, cp2, j2 + 1, ?_, g2, ?_, by simp; omega⟩
        · rw [e2]; simp [← List.replicate_append_replicate]
        · rw [c2, cont_snoc, List.length_append, List.take_append_of_le_length (by omega)]
          congr 1; omega
      · rename_i h
        refine ⟨pre' ++ [q], cp.take (cp.length - n), 0, ?_, ⟨g.full, ?_, ?_⟩, ?_, rfl⟩
        · rw [List.set_append_right _ _ (by simp; omega)]; simp [hm']
        · have := g.le; simp; omega
        · intro e
          have := congrArg List.length e
          simp at this; omega
        · rw [cont, cont, List.length_append, show (pre' ++ [q]).flatten.length + cp.length - n
            = (pre' ++ [q]).flatten.length + (cp.length - n) by omega, List.take_length_add_append]

theorem discard_spec (h0 : 0 < ps) {pre : List (List α)} {cp : List α} (rest : List (List α))
    (n : Nat) (g : Good ps pre cp) :
    ∃ pre' cp' j, discard (mkS ps al pre cp rest sc sr) n
        = .ok (mkS ps al pre' cp' (List.replicate j [] ++ rest) sc sr)
      ∧ Good ps pre' cp' ∧ cont pre' cp' = (cont pre cp).take ((cont pre cp).length - n)
      ∧ pre'.length + j = pre.length := by
  obtain ⟨pre', cp', j, e, g', c', l'⟩ := discardLoop_spec h0 pre.length pre cp rest n rfl g
  refine ⟨pre', cp', j, ?_, g', c', l'⟩
  simp only [discard, mkS_base, mkS_cur, e, bind_ok]
  rfl

theorem size_spec {pre : List (List α)} {cp : List α} {rest : List (List α)} :
    size (mkS ps al pre cp rest sc sr) = .ok (cont pre cp).length := by
  simp [size, cont, List.length_flatten]

theorem isEmpty_spec {pre : List (List α)} {cp : List α} {rest : List (List α)}
    (g : Good ps pre cp) :
    isEmpty (mkS ps al pre cp rest sc sr) = .ok ((cont pre cp).length == 0) := by
  unfold isEmpty
  by_cases h : pre = []
  · subst h
    cases cp <;> rfl
  · have hcp : cp ≠ [] := fun e => h (g.ne e)
    have : 0 < cp.length := List.length_pos_iff.2 hcp
    rw [if_neg (by simpa using h)]
    congr 1
    simp [cont, hcp]

theorem fromTopLoop_spec (h0 : 0 < ps) : ∀ (m : Nat) (s : PS α) (pre : List (List α)) (cp : List α)
    (rest : List (List α)) (d : Nat), s.base = pre ++ cp :: rest → pre.length = m →
    Good ps pre cp → 0 < d →
    fromTopLoop s m d = if d ≤ (cont pre cp).length
      then .ok (((cont pre cp).length - d) / ps, ((cont pre cp).length - d) % ps)
      else .error (.ub .decListBegin)
  | 0, s, pre, cp, rest, d, hs, hm, g, hd => by
    have : pre = [] := List.length_eq_zero_iff.1 hm
    subst this
    have := g.le
    have ec : cont [] cp = cp := by simp [cont]
    simp only [fromTopLoop, hs, List.nil_append, List.getElem?_cons_zero]
    rw [ec]
    by_cases h : d ≤ cp.length
    · rw [if_neg (by omega), if_pos h, Nat.div_eq_of_lt (by omega), Nat.mod_eq_of_lt (by omega)]
    · rw [if_pos (by omega), if_neg h]
  | m + 1, s, pre, cp, rest, d, hs, hm, g, hd => by
    rcases nil_or_snoc pre with rfl | ⟨pre', q, rfl⟩
    · simp at hm
    · have hm' : pre'.length = m := by simpa using hm
      have e0 : s.base[m + 1]? = some cp := by
        rw [hs, List.getElem?_append_right (by simp; omega)]; simp [hm']
      have hle := g.le
      simp only [fromTopLoop, e0]
      by_cases h : d ≤ cp.length
      · have hl := g.len
        rw [if_neg (by omega), if_pos (by simp [cont]; omega)]
        rw [hl, hm, show (m + 1) * ps + cp.length - d = ps * (m + 1) + (cp.length - d) by
          rw [Nat.mul_comm]; omega, Nat.mul_add_div h0, Nat.mul_add_mod,
          Nat.div_eq_of_lt (by omega), Nat.mod_eq_of_lt (by omega)]
      · rw [if_pos (by omega), fromTopLoop_spec h0 m s pre' q (cp :: rest) (d - cp.length)
          (by simp [hs]) hm' (g.pop_cross h0) (by omega), cont_snoc, List.length_append]
        by_cases h' : d - cp.length ≤ (cont pre' q).length
        · rw [if_pos h', if_pos (by omega), show (cont pre' q).length - (d - cp.length)
            = (cont pre' q).length + cp.length - d by omega]
        · rw [if_neg h', if_neg (by omega)]

theorem fromTop_spec (h0 : 0 < ps) {pre : List (List α)} {cp : List α} {rest : List (List α)}
    (g : Good ps pre cp) (d : Nat) (hd : 0 < d) (hle : d ≤ (cont pre cp).length) :
    fromTop (mkS ps al pre cp rest sc sr) d
      = .ok (pos ps ((cont pre cp).length - d) pre.length) := by
  have := fromTopLoop_spec h0 pre.length (mkS ps al pre cp rest sc sr) pre cp rest d rfl rfl g hd
  rw [if_pos hle] at this
  simp only [fromTop, mkS_cur, this, bind_ok]
  rfl

theorem fromTop_over (h0 : 0 < ps) {pre : List (List α)} {cp : List α} {rest : List (List α)}
    (g : Good ps pre cp) (d : Nat) (hle : (cont pre cp).length < d) :
    fromTop (mkS ps al pre cp rest sc sr) d = .error (.ub .decListBegin) := by
  have : fromTopLoop (mkS ps al pre cp rest sc sr) pre.length d = .error (.ub .decListBegin) := by
    rw [fromTopLoop_spec h0 pre.length _ pre cp rest d (mkS_base) rfl g (by omega), if_neg (by omega)]
  simp only [fromTop, mkS_cur, this, bind_err]

theorem fromTop_zero {pre : List (List α)} {cp : List α} {rest : List (List α)} :
    fromTop (mkS ps al pre cp rest sc sr) 0 = .ok ⟨pre.length, cp.length, pre.length⟩ := by
  have : fromTopLoop (mkS ps al pre cp rest sc sr) pre.length 0 = .ok (pre.length, cp.length) := by
    have h := mkS_page (ps := ps) (al := al) (pre := pre) (cp := cp) (rest := rest) (sc := sc) (sr := sr)
    cases hp : pre.length <;> rw [hp] at h <;> simp only [PS.page] at h <;> simp only [fromTopLoop] <;>
      split at h <;> simp_all
  simp only [fromTop, mkS_cur, this, bind_ok]

theorem take_succ_rev (c : List α) (i : Nat) (h : i < c.length) :
    (c.take (i + 1)).reverse = c[i] :: (c.take i).reverse := by
  rw [List.take_succ_eq_append_getElem h]; simp

theorem distribute_fwd (h0 : 0 < ps) {pre : List (List α)} {cp : List α} {rest : List (List α)}
    (g : Good ps pre cp) : ∀ (n i : Nat), i < (cont pre cp).length →
    distribute (mkS ps al pre cp rest sc sr) (fwdInc (mkS ps al pre cp rest sc sr)) n (pos ps i 0)
      = if n ≤ i + 1 then .ok (((cont pre cp).take (i + 1)).reverse.take n)
        else .error (.ub .derefData)
  | 0, i, hi => by simp [distribute]
  | 1, i, hi => by
    simp only [distribute, deref_pos g h0 i 0 _ (List.getElem?_eq_getElem hi), bind_ok]
    rw [if_pos (by omega), take_succ_rev _ _ hi]; rfl
  | n + 2, 0, hi => by
    have : distribute (mkS ps al pre cp rest sc sr) (fwdInc (mkS ps al pre cp rest sc sr)) (n + 1)
        ⟨0, -1, 0⟩ = .error (.ub .derefData) := by
      have hp : ∃ p, (mkS ps al pre cp rest sc sr).page 0 = .ok p := by
        cases pre <;> simp [PS.page]
      obtain ⟨p, hp⟩ := hp
      have : Iter.deref (mkS ps al pre cp rest sc sr) ⟨0, -1, 0⟩ = .error (.ub .derefData) := by
        rw [deref_mk, hp, bind_ok, if_pos (by omega)]
      cases n <;> simp only [distribute, this, bind_err]
    simp only [distribute, deref_pos g h0 0 0 _ (List.getElem?_eq_getElem hi), bind_ok, fwdInc_zero, this,
      bind_err]
    rw [if_neg (by omega)]
  | n + 2, i + 1, hi => by
    simp only [distribute, deref_pos g h0 (i + 1) 0 _ (List.getElem?_eq_getElem hi), bind_ok,
      fwdInc_succ g h0 i hi, distribute_fwd h0 g (n + 1) i (by omega)]
    by_cases h : n + 1 ≤ i + 1
    · rw [if_pos h, if_pos (by omega), bind_ok, take_succ_rev _ _ hi]; rfl
    · rw [if_neg h, if_neg (by omega), bind_err]

theorem deref_rend {pre : List (List α)} {cp : List α} {rest : List (List α)} (b : Nat) :
    Iter.deref (mkS ps al pre cp rest sc sr) ⟨pre.length, cp.length, b⟩ = .error (.ub .derefData) := by
  rw [deref_mk, mkS_page, bind_ok, if_neg (by omega)]; simp

theorem distribute_rev (h0 : 0 < ps) {pre : List (List α)} {cp : List α} {rest : List (List α)}
    (g : Good ps pre cp) : ∀ (n i : Nat), i < (cont pre cp).length →
    distribute (mkS ps al pre cp rest sc sr) (revInc (mkS ps al pre cp rest sc sr)) n (pos ps i pre.length)
      = if i + n ≤ (cont pre cp).length then .ok (((cont pre cp).drop i).take n)
        else .error (.ub .derefData)
  | 0, i, hi => by rw [if_pos (by omega)]; simp [distribute]
  | 1, i, hi => by
    simp only [distribute, deref_pos g h0 i pre.length _ (List.getElem?_eq_getElem hi), bind_ok]
    rw [if_pos (by omega), List.drop_eq_getElem_cons hi]; rfl
  | n + 2, i, hi => by
    simp only [distribute, deref_pos g h0 i pre.length _ (List.getElem?_eq_getElem hi), bind_ok]
    by_cases hlast : i + 1 = (cont pre cp).length
    · rw [revInc_last g h0 i hlast, if_neg (by omega), bind_ok]
      cases n <;> simp only [distribute, deref_rend, bind_err]
    · rw [revInc_pos g h0 i pre.length (by omega) (by omega), bind_ok,
        distribute_rev h0 g (n + 1) (i + 1) (by omega)]
      by_cases h : i + 1 + (n + 1) ≤ (cont pre cp).length
      · rw [if_pos h, if_pos (by omega), bind_ok, List.drop_eq_getElem_cons hi]; rfl
      · rw [if_neg h, if_neg (by omega), bind_err]

theorem begin_spec {pre : List (List α)} {cp : List α} {rest : List (List α)} (h0 : 0 < ps)
    (g : Good ps pre cp) : begin_ (mkS ps al pre cp rest sc sr)
      = .ok (if (cont pre cp).length = 0 then ⟨0, -1, 0⟩ else pos ps ((cont pre cp).length - 1) 0) := by
  simp only [begin_, mkS_cur, mkS_page, bind_ok]
  by_cases h : (cont pre cp).length = 0
  · rw [if_pos h]
    obtain ⟨rfl, rfl⟩ := g.cont_nil (List.length_eq_zero_iff.1 h)
    rfl
  · rw [if_neg h]
    obtain ⟨h1, h2⟩ := last_pos g h0 ((cont pre cp).length - 1) (by show _ = (cont pre cp).length; omega)
    rw [pos, h1]
    congr 2; omega

theorem end_spec {pre : List (List α)} {cp : List α} {rest : List (List α)} :
    end_ (mkS ps al pre cp rest sc sr) = .ok ⟨0, -1, 0⟩ := by
  have hp : ∃ p, (mkS ps al pre cp rest sc sr).page 0 = .ok p := by
    cases pre <;> simp [PS.page]
  obtain ⟨p, hp⟩ := hp
  simp only [end_, hp, bind_ok]

theorem peek_spec (h0 : 0 < ps) {pre : List (List α)} {cp : List α} {rest : List (List α)}
    (g : Good ps pre cp) (n : Nat) : peek (mkS ps al pre cp rest sc sr) n
      = if n ≤ (cont pre cp).length then .ok ((cont pre cp).reverse.take n)
        else .error (.ub .derefData) := by
  simp only [peek, begin_spec h0 g, bind_ok]
  by_cases h : (cont pre cp).length = 0
  · rw [if_pos h]
    obtain ⟨rfl, rfl⟩ := g.cont_nil (List.length_eq_zero_iff.1 h)
    have : Iter.deref (mkS ps al [] [] rest sc sr) ⟨0, -1, 0⟩ = .error (.ub .derefData) := by
      rw [deref_mk, show (mkS ps al [] [] rest sc sr).page 0 = .ok [] from rfl, bind_ok, if_pos (by omega)]
    rcases n with _ | _ | n <;> simp [distribute, this, cont]
  · rw [if_neg h, distribute_fwd h0 g n _ (by omega), show (cont pre cp).length - 1 + 1 = (cont pre cp).length by omega,
      List.take_length]

theorem peekDepth_spec (h0 : 0 < ps) {pre : List (List α)} {cp : List α} {rest : List (List α)}
    (g : Good ps pre cp) (d n : Nat) (hn : 0 < n) : 
    (n ≤ d ∧ d ≤ (cont pre cp).length → peekDepth (mkS ps al pre cp rest sc sr) d n
      = .ok (((cont pre cp).drop ((cont pre cp).length - d)).take n)) ∧
    (¬ (n ≤ d ∧ d ≤ (cont pre cp).length) →
      ∃ u, peekDepth (mkS ps al pre cp rest sc sr) d n = .error (.ub u)) := by
  constructor
  · rintro ⟨h1, h2⟩
    simp only [peekDepth, fromTop_spec h0 g d (by omega) h2, bind_ok]
    rw [distribute_rev h0 g n _ (by omega), if_pos (by omega)]
  · intro h
    by_cases hd : d ≤ (cont pre cp).length
    · by_cases hd0 : d = 0
      · subst hd0
        simp only [peekDepth, fromTop_zero, bind_ok]
        rcases n with _ | _ | n
        · simp at hn
        all_goals exact ⟨.derefData, by simp only [distribute, deref_rend, bind_err]⟩
      · simp only [peekDepth, fromTop_spec h0 g d (by omega) hd, bind_ok]
        rw [distribute_rev h0 g n _ (by omega), if_neg (by omega)]
        exact ⟨_, rfl⟩
    · simp only [peekDepth, fromTop_over h0 g d (by omega), bind_err]
      exact ⟨_, rfl⟩

theorem peekReverse_eq (s : PS α) (n : Nat) : peekReverse s n = peekDepth s n n := rfl

/-! user loops -/

theorem loop_fwd (h0 : 0 < ps) {pre : List (List α)} {cp : List α} {rest : List (List α)}
    (g : Good ps pre cp) : ∀ (i fuel : Nat), i < (cont pre cp).length → i + 2 ≤ fuel →
    loop (mkS ps al pre cp rest sc sr) (fwdInc (mkS ps al pre cp rest sc sr)) ⟨0, -1, 0⟩ fuel (pos ps i 0)
      = .ok (some ((cont pre cp).take (i + 1)).reverse)
  | i, 0, _, h => by omega
  | 0, fuel + 1, hi, hf => by
    have : (pos ps 0 0).eqv ⟨0, -1, 0⟩ = false := by simp [pos, Iter.eqv]
    obtain ⟨f, rfl⟩ : ∃ f, fuel = f + 1 := ⟨fuel - 1, by omega⟩
    have this2 : Iter.eqv ⟨0, -1, 0⟩ ⟨0, -1, 0⟩ = true := by simp [Iter.eqv]
    simp only [loop, this, this2, deref_pos g h0 0 0 _ (List.getElem?_eq_getElem hi), bind_ok, fwdInc_zero,
      if_true, Bool.false_eq_true, if_false]
    rw [take_succ_rev _ _ hi]; simp
  | i + 1, fuel + 1, hi, hf => by
    have : (pos ps (i + 1) 0).eqv ⟨0, -1, 0⟩ = false := by
      simp only [pos, Iter.eqv, Bool.and_eq_false_imp]; intro
      rw [beq_eq_false_iff_ne]; omega
    simp only [loop, this, deref_pos g h0 (i + 1) 0 _ (List.getElem?_eq_getElem hi), bind_ok,
      fwdInc_succ g h0 i hi, loop_fwd h0 g i fuel (by omega) (by omega)]
    rw [take_succ_rev _ _ hi]; rfl

theorem loop_rev (h0 : 0 < ps) {pre : List (List α)} {cp : List α} {rest : List (List α)}
    (g : Good ps pre cp) : ∀ (k i fuel : Nat), i + k + 1 = (cont pre cp).length → k + 2 ≤ fuel →
    loop (mkS ps al pre cp rest sc sr) (revInc (mkS ps al pre cp rest sc sr))
      ⟨pre.length, cp.length, pre.length⟩ fuel (pos ps i pre.length)
      = .ok (some ((cont pre cp).drop i))
  | k, i, 0, _, h => by omega
  | 0, i, fuel + 1, hi, hf => by
    have hl := last_pos g h0 i (by exact hi)
    have : (pos ps i pre.length).eqv ⟨pre.length, cp.length, pre.length⟩ = false := by
      simp only [pos, Iter.eqv, Bool.and_eq_false_imp]; intro
      rw [beq_eq_false_iff_ne]; omega
    obtain ⟨f, rfl⟩ : ∃ f, fuel = f + 1 := ⟨fuel - 1, by omega⟩
    have hi' : i < (cont pre cp).length := by omega
    have this2 : Iter.eqv ⟨pre.length, cp.length, pre.length⟩ ⟨pre.length, cp.length, pre.length⟩ = true := by
      simp [Iter.eqv]
    simp only [loop, this, this2, deref_pos g h0 i _ _ (List.getElem?_eq_getElem hi'), bind_ok,
      revInc_last g h0 i (by exact hi), if_true, Bool.false_eq_true, if_false]
    rw [List.drop_eq_getElem_cons hi', List.drop_eq_nil_of_le (by omega)]
  | k + 1, i, fuel + 1, hi, hf => by
    have hi' : i < (cont pre cp).length := by omega
    have : (pos ps i pre.length).eqv ⟨pre.length, cp.length, pre.length⟩ = false := by
      obtain ⟨p, h1, h2, h3, h4, h5⟩ := page_pos (al := al) (rest := rest) (sc := sc) (sr := sr) g h0 i hi'
      simp only [pos, Iter.eqv, Bool.and_eq_false_imp]
      intro e
      have e := h5 (by simpa using e)
      subst e
      rw [beq_eq_false_iff_ne]; omega
    simp only [loop, this, deref_pos g h0 i _ _ (List.getElem?_eq_getElem hi'), bind_ok,
      revInc_pos g h0 i pre.length (by omega) (show i + 1 < (cont pre cp).length by omega),
      loop_rev h0 g k (i + 1) fuel (by omega) (by omega)]
    rw [List.drop_eq_getElem_cons hi']; rfl

end ops
end Falcon.PagedStack
