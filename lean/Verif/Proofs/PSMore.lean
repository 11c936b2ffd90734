import Verif.Proofs.PSRefine
import Verif.Spec.StackObs
/-
Helper lemmas: clear, discard(iterator), pop_reverse, invariants of reachable stacks.
-/
namespace Falcon.PagedStack
variable {α : Type}

section
variable {ps al : Nat} {sc : Int} {sr : Bool}

theorem contents_mk {pre : List (List α)} {cp : List α} {rest : List (List α)} :
    contents (mkS ps al pre cp rest sc sr) = (cont pre cp).reverse := by
  simp [contents, mkS, cont, List.take_append, List.take_of_length_le]

/-- invariant of reachable stacks -/
def Inv (ps al : Nat) (s : PS α) : Prop :=
  ∃ pre cp k, ∃ n : Nat, ∃ sr, s = mkS ps al pre cp (List.replicate k []) (n : Int) sr ∧ Good ps pre cp

theorem R_of_Inv {s : PS α} (h : Inv ps al s) :
    R ps al s ⟨contents s, s.base.length, s.syncCount.toNat, s.shrinkReq⟩ := by
  obtain ⟨pre, cp, k, n, sr, rfl, g⟩ := h
  exact ⟨pre, cp, k, by simp [mkS], g, contents_mk, by simp [mkS]; omega⟩

theorem Inv_of_R {s : PS α} {t : StackSpec.St α} (h : R ps al s t) : Inv ps al s := by
  obtain ⟨pre, cp, k, e, g, -⟩ := h
  exact ⟨pre, cp, k, t.iters, t.pending, e, g⟩

theorem contents_of_R {s : PS α} {t : StackSpec.St α} (h : R ps al s t) : contents s = t.items := by
  obtain ⟨pre, cp, k, rfl, g, hi, -⟩ := h
  rw [contents_mk, hi]

theorem behaves_of_Inv (h0 : 0 < ps) (ha : 0 < al) {s : PS α} (h : Inv ps al s) :
    BehavesLike ps al s (contents s) := by
  intro ops t os hr
  obtain ⟨s', e, r⟩ := R_run h0 ha ops (R_of_Inv h) hr
  exact ⟨s', e, contents_of_R r⟩

theorem clearLoop_spec : ∀ (m : Nat) (pre : List (List α)) (cp : List α) (rest : List (List α)),
    pre.length = m → clearLoop (pre ++ cp :: rest) m
      = (pre ++ [cp]).head (by simp) :: (List.replicate m [] ++ rest)
  | 0, pre, cp, rest, h => by
    have : pre = [] := List.length_eq_zero_iff.1 h
    subst this; simp [clearLoop]
  | m + 1, pre, cp, rest, h => by
    rcases nil_or_snoc pre with rfl | ⟨pre', q, rfl⟩
    · simp at h
    · have hm' : pre'.length = m := by simpa using h
      have e1 : (pre' ++ [q] ++ cp :: rest).set (m + 1) [] = pre' ++ q :: ([] :: rest) := by
        rw [List.set_append_right _ _ (by simp; omega)]; simp [hm']
      rw [clearLoop, e1, clearLoop_spec m pre' q ([] :: rest) hm']
      simp [List.replicate_succ', List.head_append]

theorem clear_spec {pre : List (List α)} {cp : List α} {rest : List (List α)} :
    clear (mkS ps al pre cp rest sc sr) = .ok (mkS ps al [] ((pre ++ [cp]).head (by simp))
      (List.replicate pre.length [] ++ rest) sc sr) := by
  simp only [clear, mkS_cur, mkS_page, bind_ok, mkS_base, clearLoop_spec pre.length pre cp rest rfl]
  rfl

theorem head_good {pre : List (List α)} {cp : List α} (g : Good ps pre cp) :
    Good ps [] ((pre ++ [cp]).head (by simp)) ∧
    cont [] ((pre ++ [cp]).head (by simp)) = (cont pre cp).take ps := by
  cases pre with
  | nil =>
    refine ⟨⟨by simp, by simpa using g.le, by simp⟩, ?_⟩
    simp [cont]; rw [List.take_of_length_le g.le]
  | cons p pre =>
    have hp := g.full p (by simp)
    refine ⟨⟨by simp, by simp [hp], by simp⟩, ?_⟩
    simp [cont, ← hp]

/-- clearing pages down to page `b` -/
theorem discardToLoop_spec (h0 : 0 < ps) (b : Nat) : ∀ (m : Nat) (pre : List (List α)) (cp : List α)
    (rest : List (List α)), pre.length = m → b ≤ m → Good ps pre cp →
    ∃ pre' q tl, discardToLoop (pre ++ cp :: rest) b m
        = .ok (pre' ++ q :: (List.replicate (m - b) [] ++ rest)) ∧ pre'.length = b ∧
      Good ps pre' q ∧ cont pre cp = cont pre' q ++ tl ∧ (pre ++ cp :: rest)[b]? = some q ∧
      (b < m → q.length = ps)
  | 0, pre, cp, rest, hm, hb, g => by
    have : b = 0 := by omega
    subst this
    have : pre = [] := List.length_eq_zero_iff.1 hm
    subst this
    exact ⟨[], cp, [], by simp [discardToLoop], rfl, g, by simp, by simp, by simp⟩
  | m + 1, pre, cp, rest, hm, hb, g => by
    by_cases hbm : m + 1 = b
    · subst hbm
      refine ⟨pre, cp, [], ?_, hm, g, by simp, ?_, by simp⟩
      · simp [discardToLoop]
      · rw [List.getElem?_append_right (by omega)]; simp [hm]
    · rcases nil_or_snoc pre with rfl | ⟨pre', q, rfl⟩
      · simp at hm
      · have hm' : pre'.length = m := by simpa using hm
        have e1 : (pre' ++ [q] ++ cp :: rest).set (m + 1) [] = pre' ++ q :: ([] :: rest) := by
          rw [List.set_append_right _ _ (by simp; omega)]; simp [hm']
        obtain ⟨pre2, q2, tl, e2, l2, g2, c2, i2, f2⟩ := discardToLoop_spec h0 b m pre' q ([] :: rest) hm'
          (by omega) (g.pop_cross h0)
        refine ⟨pre2, q2, tl ++ cp, ?_, l2, g2, ?_, ?_, ?_⟩
        · rw [discardToLoop, if_neg hbm, e1, e2, show m + 1 - b = (m - b) + 1 by omega]
          simp [List.replicate_succ']
        · rw [cont_snoc, c2, List.append_assoc]
        · rw [← i2, List.append_assoc]
          by_cases hlt : b < pre'.length
          · rw [List.getElem?_append_left hlt, List.getElem?_append_left hlt]
          · have hbe : b = pre'.length := by omega
            simp [hbe]
        · intro _
          by_cases hbm' : b < m
          · exact f2 hbm'
          · have hbe : b = m := by omega
            have : q2 = q := by
              rw [hbe, List.getElem?_append_right (by omega)] at i2
              simp [hm'] at i2; exact i2.symm
            rw [this]; exact g.full q (by simp)

/-- The state after discarding everything from index `i` up: contents are right; if `i` is a
positive multiple of the page size, the page above the current one keeps stale elements. -/
theorem internalDiscard_spec (h0 : 0 < ps) {pre : List (List α)} {cp : List α}
    (rest : List (List α)) (g : Good ps pre cp) (i : Nat) (hi : i < (cont pre cp).length) :
    ∃ pre' cp' rest', internalDiscard (mkS ps al pre cp rest sc sr) (i / ps) ((i % ps : Nat) : Int)
        = .ok (mkS ps al pre' cp' rest' sc sr) ∧ Good ps pre' cp' ∧
      cont pre' cp' = (cont pre cp).take i ∧
      pre'.length + 1 + rest'.length = pre.length + 1 + rest.length ∧
      (cleanRemainder ps i → ∃ j, rest' = List.replicate j [] ++ rest) ∧
      (¬ cleanRemainder ps i → cp'.length = ps ∧ ∃ q qs, rest' = q :: qs ∧ q ≠ []) := by
  obtain ⟨p, hp, hlt, hle, -, -⟩ := page_pos (al := al) (rest := rest) (sc := sc) (sr := sr) g h0 i hi
  obtain ⟨pre1, q, tl, e1, l1, g1, c1, i1, f1⟩ :=
    discardToLoop_spec h0 (i / ps) pre.length pre cp rest rfl hle g
  have hpq : p = q := by
    simp only [PS.page, mkS_base, i1] at hp; injection hp with hp; exact hp.symm
  subst hpq
  have hdm := Nat.div_add_mod i ps
  have hl1 := g1.len
  have hpage : (mkS ps al pre1 p (List.replicate (pre.length - i / ps) [] ++ rest) sc sr).page (i / ps)
      = .ok p := by rw [← l1]; exact mkS_page
  have es : ({ mkS ps al pre cp rest sc sr with
      base := pre1 ++ p :: (List.replicate (pre.length - i / ps) [] ++ rest), cur := i / ps } : PS α)
      = mkS ps al pre1 p (List.replicate (pre.length - i / ps) [] ++ rest) sc sr := by
    simp [mkS, l1]
  simp only [internalDiscard, mkS_base, mkS_cur, e1, bind_ok]
  rw [es, hpage]
  simp only [bind_ok]
  by_cases hz : i % ps = 0
  · have hzi : ((i % ps : Nat) : Int) = 0 := by omega
    rw [if_pos hzi]
    by_cases hd : i / ps = 0
    · have hi0 : i = 0 := by rw [← hdm, hd, hz]; simp
      rw [if_neg (by simp [hd])]
      have hpre1 : pre1 = [] := List.length_eq_zero_iff.1 (by rw [l1, hd])
      subst hpre1
      refine ⟨[], [], List.replicate pre.length [] ++ rest, ?_, Good.nil, ?_, ?_, ?_, ?_⟩
      · rw [hd]; simp [PS.setPage, mkS]
      · simp [hi0, cont]
      · simp; omega
      · intro _; exact ⟨_, rfl⟩
      · intro h; exact absurd (Or.inl hi0) h
    · rw [if_pos hd]
      rcases nil_or_snoc pre1 with rfl | ⟨pre2, q2, rfl⟩
      · simp at l1; omega
      · have hlen : pre2.length + 1 = i / ps := by simpa using l1
        have g2 := g1.pop_cross h0
        have hq2 : q2.length = ps := g1.full q2 (by simp)
        have hlen2 : (cont pre2 q2).length = i := by
          rw [g2.len, hq2, ← hdm, hz, ← hlen, Nat.mul_comm ps, Nat.add_mul]; omega
        refine ⟨pre2, q2, p :: (List.replicate (pre.length - i / ps) [] ++ rest), ?_, g2, ?_, ?_, ?_, ?_⟩
        · simp [mkS]; omega
        · rw [c1, cont_snoc, List.append_assoc, ← hlen2, List.take_left]
        · simp; omega
        · rintro (h | h)
          · subst h; simp at hd
          · exact absurd hz h
        · intro _
          refine ⟨hq2, p, _, rfl, ?_⟩
          rintro rfl; simp at hlt
  · rw [if_neg (by omega), if_neg (by omega), Int.toNat_natCast]
    refine ⟨pre1, p.take (i % ps), List.replicate (pre.length - i / ps) [] ++ rest, ?_, ⟨g1.full, ?_, ?_⟩, ?_, ?_, ?_, ?_⟩
    · rw [← l1]; simp only [mkS_setPage]
    · have := g1.le; simp; omega
    · intro h
      have := congrArg List.length h
      rw [List.length_take, List.length_nil] at this; omega
    · have e3 : i = pre1.flatten.length + i % ps := by
        rw [g1.len_pre, l1, Nat.mul_comm]; omega
      rw [c1, cont, cont, List.append_assoc]
      conv => rhs; rw [e3]
      rw [List.take_length_add_append, List.take_append_of_le_length (by omega)]
    · simp; omega
    · intro _; exact ⟨_, rfl⟩
    · intro h; exact absurd (Or.inr hz) h

/-- `pop_reverse(v1..vn)` -/
theorem popReverse_spec (h0 : 0 < ps) {pre : List (List α)} {cp : List α}
    (rest : List (List α)) (g : Good ps pre cp) (n : Nat) (hn : 1 ≤ n) (hle : n ≤ (cont pre cp).length) :
    ∃ pre' cp' rest', popReverse (mkS ps al pre cp rest sc sr) n
        = .ok (mkS ps al pre' cp' rest' sc sr, (cont pre cp).drop ((cont pre cp).length - n)) ∧
      Good ps pre' cp' ∧ cont pre' cp' = (cont pre cp).take ((cont pre cp).length - n) ∧
      pre'.length + 1 + rest'.length = pre.length + 1 + rest.length ∧
      (cleanRemainder ps ((cont pre cp).length - n) → ∃ j, rest' = List.replicate j [] ++ rest) ∧
      (¬ cleanRemainder ps ((cont pre cp).length - n) →
        cp'.length = ps ∧ ∃ q qs, rest' = q :: qs ∧ q ≠ []) := by
  obtain ⟨pre', cp', rest', e, h⟩ := internalDiscard_spec (al := al) (sc := sc) (sr := sr) h0 rest g
    ((cont pre cp).length - n) (by omega)
  refine ⟨pre', cp', rest', ?_, h⟩
  simp only [popReverse, fromTop_spec h0 g n (by omega) hle, bind_ok,
    distribute_rev h0 g n _ (show (cont pre cp).length - n < _ by omega)]
  rw [if_pos (by omega), bind_ok]
  show (internalDiscard _ (((cont pre cp).length - n) / ps) ((((cont pre cp).length - n) % ps : Nat) : Int) >>= _) = _
  rw [e, bind_ok, List.take_of_length_le (by simp; omega)]

/-- once a stale page lies above a full current page, the stack no longer behaves like its
contents: push one element and ask for the size. -/
theorem stale_not_behaves {pre : List (List α)} {cp q : List α} {qs : List (List α)} {ps al : Nat}
    {sc : Int} {sr : Bool} (hfull : cp.length = ps) (hq : q ≠ []) (x : α) :
    ¬ BehavesLike ps al (mkS ps al pre cp (q :: qs) sc sr) (cont pre cp).reverse := by
  intro h
  obtain ⟨s', h1, -⟩ := h [.push x, .size] _ _ rfl
  simp only [run, step, push_next x q hfull, bind_ok, size_spec] at h1
  injection h1 with h1
  have := (Prod.mk.inj h1).2
  simp [cont, StackSpec.push] at this
  have := List.length_pos_iff.2 hq
  omega

/-- Preservation of the invariant by calls that return normally. -/
theorem Inv_step (h0 : 0 < ps) (ha : 0 < al) {s s' : PS α} {o : Out α} (h : Inv ps al s) (op : Op α)
    (hd : op = .syncDrop → 0 < s.syncCount) (he : step s op = .ok (s', o)) : Inv ps al s' := by
  cases hs : StackSpec.step ps al ⟨contents s, s.base.length, s.syncCount.toNat, s.shrinkReq⟩ op with
  | some r =>
    obtain ⟨t', o'⟩ := r
    obtain ⟨s2, e2, r2⟩ := R_step h0 ha (R_of_Inv h) op hs
    rw [he] at e2; injection e2 with e2
    have := (Prod.mk.inj e2).1
    subst this; exact Inv_of_R r2
  | none =>
    obtain ⟨pre, cp, k, n, sr, rfl, g⟩ := h
    rw [contents_mk] at hs
    cases op with
    | discard m =>
      obtain ⟨pre', cp', j, e', g', c', l'⟩ := discard_spec (al := al) (sc := n) (sr := sr)
        h0 (List.replicate k []) m g
      simp only [step, e', bind_ok] at he
      injection he with he
      have := (Prod.mk.inj he).1
      subst this
      exact ⟨pre', cp', j + k, n, sr, by simp [← List.replicate_append_replicate], g'⟩
    | pop =>
      rcases nil_or_snoc (cont pre cp) with e | ⟨c, x, e⟩
      · obtain ⟨rfl, rfl⟩ := g.cont_nil e
        simp [step, popOne_empty] at he
      · simp [StackSpec.step, e] at hs
    | setTop =>
      rcases nil_or_snoc (cont pre cp) with e | ⟨c, x, e⟩
      · obtain ⟨rfl, rfl⟩ := g.cont_nil e
        have : setTop (mkS ps al ([] : List (List α)) [] (List.replicate k []) n sr) ‹_› = .error (.ub .emptyBack) := rfl
        simp [step, this] at he
      · simp [StackSpec.step, e] at hs
    | popMany m =>
      simp only [StackSpec.step] at hs
      split at hs
      · simp at hs
      · rename_i hm
        simp only [List.length_reverse] at hm
        rw [step, popMany_over m pre cp _ h0 g (by omega)] at he
        simp at he
    | top =>
      simp only [step] at he
      cases ht : top (mkS ps al pre cp (List.replicate k []) n sr) with
      | error e => simp [ht] at he
      | ok v =>
        simp [ht] at he
        rw [← he.1]
        exact ⟨pre, cp, k, n, sr, rfl, g⟩
    | peek m =>
      simp only [step] at he
      cases ht : peek (mkS ps al pre cp (List.replicate k []) n sr) m with
      | error e => simp [ht] at he
      | ok v =>
        simp [ht] at he
        rw [← he.1]
        exact ⟨pre, cp, k, n, sr, rfl, g⟩
    | peekReverse m =>
      simp only [step] at he
      cases ht : peekReverse (mkS ps al pre cp (List.replicate k []) n sr) m with
      | error e => simp [ht] at he
      | ok v =>
        simp [ht] at he
        rw [← he.1]
        exact ⟨pre, cp, k, n, sr, rfl, g⟩
    | peekDepth d m =>
      simp only [step] at he
      cases ht : peekDepth (mkS ps al pre cp (List.replicate k []) n sr) d m with
      | error e => simp [ht] at he
      | ok v =>
        simp [ht] at he
        rw [← he.1]
        exact ⟨pre, cp, k, n, sr, rfl, g⟩
    | shrink => simp only [StackSpec.step] at hs; split at hs <;> simp at hs
    | syncDrop =>
      have := hd rfl
      simp only [mkS] at this
      simp only [StackSpec.step] at hs
      split at hs
      · rename_i hz; simp [mkS] at hz; omega
      · split at hs <;> simp at hs
    | _ => simp [StackSpec.step] at hs

theorem Reach.inv (h0 : 0 < ps) (ha : 0 < al) {s : PS α} (h : Reach ps al s) : Inv ps al s := by
  induction h with
  | init => exact Inv_of_R (R_init ha)
  | call op _ hd he ih => exact Inv_step h0 ha ih op hd he
  | clear _ he ih =>
    obtain ⟨pre, cp, k, n, sr, rfl, g⟩ := ih
    rw [clear_spec] at he
    injection he with he
    subst he
    exact ⟨[], _, pre.length + k, n, sr, by simp [← List.replicate_append_replicate], (head_good g).1⟩
  | popReverse n _ h1 h2 h3 he ih =>
    obtain ⟨pre, cp, k, m, sr, rfl, g⟩ := ih
    rw [contents_mk, List.length_reverse] at h2 h3
    obtain ⟨pre', cp', rest', e, g', c', l', cl, -⟩ := popReverse_spec (al := al) (sc := m) (sr := sr) h0
      (List.replicate k []) g n h1 h2
    rw [e] at he
    injection he with he
    have := (Prod.mk.inj he).1
    subst this
    obtain ⟨j, rfl⟩ := cl h3
    exact ⟨pre', cp', j + k, m, sr, by simp [← List.replicate_append_replicate], g'⟩

end
end Falcon.PagedStack
