import Verif.Proofs.PSLoop
import Verif.Proofs.PSSync3
import Verif.Spec.StackSyncPos
/-
C17, the remaining case: sync iterators after an exception.
-/
namespace Falcon.PagedStack
variable {α : Type}

theorem meanwhile_keeps {ps al : Nat} (h0 : 0 < ps) (ha : 0 < al) {y y' : Sys α} {i i' : Nat} {it : SIter}
    (h : SReach ps al y) (hi : y.its[i]? = some it) (hm : Meanwhile ps y i y' i') :
    SReach ps al y' ∧ y'.its[i']? = some it ∧ y.st.base.length ≤ y'.st.base.length := by
  induction hm with
  | refl => exact ⟨h, hi, Nat.le_refl _⟩
  | step op _ hal hl he ih =>
    obtain ⟨a, b, c⟩ := ih
    have b' := its_other hal hl b he
    refine ⟨.step op a hal he, b', Nat.le_trans c ?_⟩
    refine (SInv_step h0 ha op (a.inv h0 ha) hal he).2.1 ?_
    intro e; rw [e] at b'; simp at b'

/-- The iterator after the exception: its page is the bottom page, its data pointer is unchanged. -/
theorem threw_iter {ps al : Nat} (h0 : 0 < ps) (ha : 0 < al) {y y1 : Sys α} {i k : Nat} (h : SReach ps al y)
    (hs : Stands ps y i k) (hc : contents y.st = []) (op : SOp α)
    (hop : op = .get i ∨ op = .inc i ∨ op = .dec i) (he : sstep y op = .ok (y1, .threw)) :
    SReach ps al y1 ∧ y1.st = y.st ∧ k / ps < y.st.base.length ∧
      y1.its[i]? = some ⟨0, k / ps, ((k % ps : Nat) : Int), 0, true⟩ := by
  have hr : SReach ps al y1 := .step op h (by rcases hop with rfl | rfl | rfl <;> trivial) he
  obtain ⟨it, hi, ht, hne, rfl⟩ := hs
  have hinv := h.inv h0 ha
  have hok := hinv.its it (List.mem_of_getElem? hi) ht
  obtain ⟨st, its⟩ := y
  obtain ⟨pre, cp, m, n, sr, e, g⟩ := hinv.inv
  simp only at e; subst e
  rw [contents_mk, List.reverse_eq_nil_iff] at hc
  simp only at hi hok
  have hcp := (cp_nil_iff g).2 hc
  have hpre := g.ne hcp
  obtain ⟨ho, ⟨hl, -⟩ | ⟨-, es⟩⟩ := sync_cases (al := al) (rest := List.replicate m []) (sc := n) (sr := sr) g hok hne
  · rw [hc] at hl; simp at hl
  rw [resyncTop_empty _ hcp, hpre] at es
  have heq := it_eq_pos h0 hok ho
  have hdp : it.dpage = it.fromBottom ps / ps := by
    have := congrArg SIter.dpage heq; exact this
  have hoff : it.off = ((it.fromBottom ps % ps : Nat) : Int) := by
    have := congrArg SIter.off heq; exact this
  have hit : ({ it with page := 0, threw := true } : SIter)
      = ⟨0, it.fromBottom ps / ps, ((it.fromBottom ps % ps : Nat) : Int), 0, true⟩ := by
    rw [← hdp, ← hoff, ← hok.bnd]
  have hpg : it.fromBottom ps / ps < (mkS ps al pre cp (List.replicate m []) n sr).base.length := by
    rw [← hdp, hok.data]; exact hok.page
  have huse : ∀ f : PS α → SIter → Res (SIter × SOut α),
      f (mkS ps al pre cp (List.replicate m []) n sr) it = .ok ({ it with page := 0, threw := true }, .threw) →
      useIter ⟨mkS ps al pre cp (List.replicate m []) n sr, its⟩ i f = .ok (y1, .threw) →
      y1.st = mkS ps al pre cp (List.replicate m []) n sr ∧
        y1.its[i]? = some ⟨0, it.fromBottom ps / ps, ((it.fromBottom ps % ps : Nat) : Int), 0, true⟩ := by
    intro f hf hu
    rw [useIter_eq hi hf] at hu
    have := (Prod.mk.inj (ok_inj hu)).1
    subst this
    exact ⟨rfl, by rw [← hit]; exact List.getElem?_set_self (List.getElem?_eq_some_iff.1 hi).1⟩
  have key : y1.st = mkS ps al pre cp (List.replicate m []) n sr ∧
        y1.its[i]? = some ⟨0, it.fromBottom ps / ps, ((it.fromBottom ps % ps : Nat) : Int), 0, true⟩ := by
    rw [hpre] at huse he ⊢
    rcases hop with rfl | rfl | rfl
    · exact huse syncGet (by unfold syncGet; rw [es]; rfl) he
    · exact huse syncInc (by unfold syncInc; rw [es]; rfl) he
    · exact huse syncDec (by unfold syncDec; rw [es]; rfl) he
  exact ⟨hr, key.1, hpg, key.2⟩

/-- C17 (after an exception, exact): let an iterator designate height k when a call on it throws
because the stack is empty; then, after any other calls, let the stack have n elements.
If k lies on the bottom page, get() is as if nothing had happened: it throws if n = 0 and
otherwise returns the element at height min(k, n-1).  If k lies on a higher page, get() is
undefined as long as the elements take one page at most; when they take more it returns the
element at height k if there is one and is undefined otherwise; and ++ is always
undefined. -/
theorem C17_after_throw_partial (ps al : Nat) (h0 : 0 < ps) (ha : 0 < al) (y y1 y2 : Sys α) (i i' k : Nat)
    (h : SReach ps al y) (hs : Stands ps y i k) (hc : contents y.st = []) (op : SOp α)
    (hop : op = .get i ∨ op = .inc i ∨ op = .dec i) (he : sstep y op = .ok (y1, .threw))
    (hm : Meanwhile ps y1 i y2 i') :
    (k < ps → contents y2.st = [] → ∃ y3, sstep y2 (.get i') = .ok (y3, .threw)) ∧
    (k < ps → ∀ x, (contents y2.st).reverse[min k ((contents y2.st).length - 1)]? = some x →
      ∃ y3, sstep y2 (.get i') = .ok (y3, .val x) ∧ y3.st = y2.st) ∧
    (ps ≤ k → (contents y2.st).length ≤ ps → ∃ u, sstep y2 (.get i') = .error (.ub u)) ∧
    (ps ≤ k → ps < (contents y2.st).length → ∀ x, (contents y2.st).reverse[k]? = some x →
      ∃ y3, sstep y2 (.get i') = .ok (y3, .val x) ∧ y3.st = y2.st) ∧
    (ps ≤ k → (contents y2.st).length ≤ k → ∃ u, sstep y2 (.get i') = .error (.ub u)) ∧
    (ps ≤ k → ∃ u, sstep y2 (.inc i') = .error (.ub u)) := by
  obtain ⟨r1, s1, hpg, i1⟩ := threw_iter h0 ha h hs hc op hop he
  obtain ⟨r2, i2, hle⟩ := meanwhile_keeps h0 ha r1 i1 hm
  rw [s1] at hle
  have hinv := r2.inv h0 ha
  clear he hop hm i1 r1 s1 hs hc h
  obtain ⟨st, its⟩ := y2
  obtain ⟨pre, cp, m, n, sr, e, g⟩ := hinv.inv
  simp only at e; subst e
  simp only at i2 hle
  simp only [contents_mk, List.reverse_reverse, List.length_reverse, List.reverse_eq_nil_iff]
  have hlen := g.len
  have hcple := g.le
  -- calls
  have hget : ∀ {it' o}, syncGet (mkS ps al pre cp (List.replicate m []) n sr)
      ⟨0, k / ps, ((k % ps : Nat) : Int), 0, true⟩ = .ok (it', o) →
      ∃ y3, sstep ⟨mkS ps al pre cp (List.replicate m []) n sr, its⟩ (.get i') = .ok (y3, o) ∧
        y3.st = mkS ps al pre cp (List.replicate m []) n sr :=
    fun e => ⟨_, useIter_eq i2 e, rfl⟩
  have hgetE : ∀ {u}, syncGet (mkS ps al pre cp (List.replicate m []) n sr)
      ⟨0, k / ps, ((k % ps : Nat) : Int), 0, true⟩ = .error u →
      sstep ⟨mkS ps al pre cp (List.replicate m []) n sr, its⟩ (.get i') = .error u := by
    intro u e
    show useIter _ i' syncGet = _
    unfold useIter; simp only [i2]; rw [e]; rfl
  have hincE : ∀ {u}, syncInc (mkS ps al pre cp (List.replicate m []) n sr)
      ⟨0, k / ps, ((k % ps : Nat) : Int), 0, true⟩ = .error u →
      sstep ⟨mkS ps al pre cp (List.replicate m []) n sr, its⟩ (.inc i') = .error u := by
    intro u e
    show useIter _ i' syncInc = _
    unfold useIter; simp only [i2]; rw [e]; rfl
  -- an iterator on the bottom page is sound
  have hsmall : k < ps → ItOk ps (mkS ps al pre cp (List.replicate m []) n sr).base.length
      ⟨0, k / ps, ((k % ps : Nat) : Int), 0, true⟩ ∧
      ¬ SIter.atEnd ⟨0, k / ps, ((k % ps : Nat) : Int), 0, true⟩ ∧
      SIter.fromBottom ps ⟨0, k / ps, ((k % ps : Nat) : Int), 0, true⟩ = k := by
    intro hk
    rw [Nat.div_eq_of_lt hk, Nat.mod_eq_of_lt hk]
    refine ⟨⟨rfl, ?_, rfl, ?_, ?_, ?_⟩, ?_, ?_⟩
    · show 0 < _; simp only [mkS_base, List.length_append, List.length_cons]; omega
    · show (-1 : Int) ≤ (k : Int); omega
    · show (k : Int) < ps; omega
    · intro _; rfl
    · rintro ⟨-, e⟩; have e : (k : Int) = -1 := e; omega
    · show 0 * ps + ((k : Int)).toNat = k; simp
  have hbig : ps ≤ k → k / ps ≠ 0 := by
    intro hk e
    have := Nat.div_pos hk h0; omega
  have hone : (cont pre cp).length ≤ ps → pre.length = 0 := by
    intro hk
    cases hp : pre.length with
    | zero => rfl
    | succ q =>
      rw [hp, Nat.add_mul] at hlen
      have : cp ≠ [] := by intro e; have := g.ne e; subst this; simp at hp
      have := List.length_pos_iff.2 this
      omega
  have hmany : ps < (cont pre cp).length → 0 < pre.length := by
    intro hk
    refine Nat.pos_of_ne_zero fun hp => ?_
    rw [hp] at hlen; omega
  obtain ⟨p0, hp0⟩ := page_gt (ps := ps) (al := al) (pre := pre) (cp := cp) (rest := List.replicate m [])
    (sc := n) (sr := sr) 0 (by simp only [mkS_base, List.length_append, List.length_cons]; omega)
  have hsync1 : ps ≤ k → pre.length = 0 → synchronize (mkS ps al pre cp (List.replicate m []) n sr)
      ⟨0, k / ps, ((k % ps : Nat) : Int), 0, true⟩ = .error (.ub .ptrRange) := by
    intro hk hp
    rw [synchronize_mk]
    show ((mkS ps al pre cp (List.replicate m []) n sr).page 0).bind _ = _
    rw [hp0]
    show (if pre.length = 0 then _ else _) = _
    rw [if_pos hp]
    exact if_pos (hbig hk)
  have hsync2 : 0 < pre.length → synchronize (mkS ps al pre cp (List.replicate m []) n sr)
      ⟨0, k / ps, ((k % ps : Nat) : Int), 0, true⟩ = .ok (.inSync ⟨0, k / ps, ((k % ps : Nat) : Int), 0, true⟩) := by
    intro hp
    rw [synchronize_mk]
    show ((mkS ps al pre cp (List.replicate m []) n sr).page 0).bind _ = _
    rw [hp0]
    show (if pre.length = 0 then _ else _) = _
    rw [if_neg (by omega)]
    exact if_pos hp
  refine ⟨?_, ?_, ?_, ?_, ?_, ?_⟩
  · intro hk hc
    obtain ⟨a, b, -⟩ := hsmall hk
    obtain ⟨it', e, -⟩ := syncGet_empty g a b hc
    obtain ⟨y3, e3, -⟩ := hget e
    exact ⟨y3, e3⟩
  · intro hk x hx
    obtain ⟨a, b, c⟩ := hsmall hk
    have hne : cont pre cp ≠ [] := by intro e; rw [e] at hx; simp at hx
    obtain ⟨it', z, e, hz, -⟩ := syncGet_ne h0 g a b hne
    rw [c, hx] at hz
    obtain rfl := Option.some.inj hz
    exact hget e
  · intro hk hn
    refine ⟨.ptrRange, hgetE ?_⟩
    unfold syncGet; rw [hsync1 hk (hone hn)]; rfl
  · intro hk hn x hx
    have hd : SIter.deref (mkS ps al pre cp (List.replicate m []) n sr)
        ⟨0, k / ps, ((k % ps : Nat) : Int), 0, true⟩ = .ok x := deref_pos g h0 k 0 x hx
    exact hget (it' := ⟨0, k / ps, ((k % ps : Nat) : Int), 0, true⟩)
      (by unfold syncGet; rw [hsync2 (hmany hn), bind_ok]; dsimp only; rw [hd]; rfl)
  · intro hk hn
    by_cases hn1 : (cont pre cp).length ≤ ps
    · refine ⟨.ptrRange, hgetE ?_⟩
      unfold syncGet; rw [hsync1 hk (hone hn1)]; rfl
    · refine ⟨.derefData, hgetE ?_⟩
      obtain ⟨p, hp⟩ := page_gt (ps := ps) (al := al) (pre := pre) (cp := cp) (rest := List.replicate m [])
        (sc := n) (sr := sr) (k / ps) (by omega)
      have hnone : p[k % ps]? = none := by
        rw [List.getElem?_eq_none_iff]
        have hdm := Nat.div_add_mod k ps
        unfold PS.page at hp
        rw [mkS_base] at hp
        rcases Nat.lt_trichotomy (k / ps) pre.length with hl | hl | hl
        · exfalso
          have : (k / ps + 1) * ps ≤ pre.length * ps := Nat.mul_le_mul_right _ hl
          rw [Nat.add_mul, Nat.mul_comm (k / ps)] at this
          have := Nat.mod_lt k h0
          omega
        · rw [hl, List.getElem?_append_right (Nat.le_refl _)] at hp
          simp only [Nat.sub_self, List.getElem?_cons_zero] at hp
          obtain rfl := ok_inj hp
          rw [hl, Nat.mul_comm] at hdm
          omega
        · rw [List.getElem?_append_right (by omega)] at hp
          obtain ⟨q, hq⟩ : ∃ q, k / ps - pre.length = q + 1 := ⟨k / ps - pre.length - 1, by omega⟩
          rw [hq, List.getElem?_cons_succ, List.getElem?_replicate] at hp
          split at hp
          · rename_i w hw
            split at hw
            · obtain rfl := Option.some.inj hw
              obtain rfl := ok_inj hp; simp
            · cases hw
          · cases hp
      have hd : SIter.deref (mkS ps al pre cp (List.replicate m []) n sr)
          ⟨0, k / ps, ((k % ps : Nat) : Int), 0, true⟩ = .error (.ub .derefData) := by
        unfold SIter.deref
        simp only [hp, bind_ok, Int.toNat_natCast, hnone]
        rw [if_neg (by omega)]
      unfold syncGet; rw [hsync2 (hmany (by omega)), bind_ok]; dsimp only; rw [hd]; rfl
  · intro hk
    by_cases hn1 : (cont pre cp).length ≤ ps
    · refine ⟨.ptrRange, hincE ?_⟩
      unfold syncInc; rw [hsync1 hk (hone hn1)]; rfl
    · refine ⟨.ptrRange, hincE ?_⟩
      unfold syncInc; rw [hsync2 (hmany (by omega)), bind_ok]; dsimp only
      exact if_pos (hbig hk)

/-- An iterator at height 1 on a page of size 1, the stack emptied: get() throws, three elements
are pushed, and get() works again. -/
example : ∃ y y1 y2 : Sys Nat, SReach 1 2 y ∧ Stands 1 y 0 1 ∧ contents y.st = [] ∧
    sstep y (.get 0) = .ok (y1, .threw) ∧ Meanwhile 1 y1 0 y2 0 ∧ contents y2.st = [7, 6, 5] ∧
    ∃ y3, sstep y2 (.get 0) = .ok (y3, .val 6) := by
  refine ⟨⟨mkS 1 2 [] [] [[]] 1 false, [⟨1, 1, 0, 0, false⟩]⟩, _, _, ?_,
    ⟨_, rfl, rfl, by simp [SIter.atEnd], rfl⟩, rfl, rfl,
    .step (o := .call .unit) (.call (.pushMany 5 [6, 7])) (.refl _ _) ⟨by simp, by simp⟩ trivial rfl, rfl, _, rfl⟩
  refine .step (o := .call (.vals [2, 1])) (.call (.popMany 2)) ?_ ⟨by simp, by simp⟩ rfl
    (y := ⟨mkS 1 2 [[1]] [2] [] 1 false, [⟨1, 1, 0, 0, false⟩]⟩)
  refine .step (o := .unit) .newBegin ?_ trivial rfl
    (y := ⟨mkS 1 2 [[1]] [2] [] 0 false, []⟩)
  exact .step (o := .call .unit) (.call (.pushMany 1 [2])) .init ⟨by simp, by simp⟩ rfl

end Falcon.PagedStack
