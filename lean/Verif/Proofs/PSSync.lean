import Verif.Spec.StackSync
import Verif.Proofs.PSIter
/-
Helper lemmas for sync iterators: what stack calls keep, invariant of the iterator system.
-/
namespace Falcon.PagedStack
variable {α : Type}

/-- Nothing freed, bookkeeping of sync iterators untouched. -/
structure Keeps (s s' : PS α) : Prop where
  len  : s.base.length ≤ s'.base.length
  cnt  : s'.syncCount = s.syncCount
  req  : s'.shrinkReq = s.shrinkReq

theorem Keeps.refl (s : PS α) : Keeps s s := ⟨Nat.le_refl _, rfl, rfl⟩
theorem Keeps.trans {a b c : PS α} (h : Keeps a b) (g : Keeps b c) : Keeps a c :=
  ⟨Nat.le_trans h.len g.len, g.cnt.trans h.cnt, g.req.trans h.req⟩

theorem bind_eq_ok {β γ : Type} {x : Res β} {f : β → Res γ} {z : γ} :
    (x >>= f) = .ok z ↔ ∃ y, x = .ok y ∧ f y = .ok z := by
  cases x with
  | error e => exact ⟨fun h => (by cases h), fun ⟨_, h, _⟩ => (by cases h)⟩
  | ok y => exact ⟨fun h => ⟨y, rfl, h⟩, fun ⟨_, h, g⟩ => by injection h with h; subst h; exact g⟩

theorem ok_inj {β : Type} {a b : β} (h : (Except.ok a : Res β) = .ok b) : a = b := by injection h

theorem setPage_keeps (s : PS α) (i : Nat) (p : List α) : Keeps s (s.setPage i p) :=
  ⟨by simp [PS.setPage], rfl, rfl⟩

theorem advance_keeps {s s' : PS α} (h : advance s = .ok s') : Keeps s s' := by
  unfold advance at h
  obtain ⟨p, -, h⟩ := bind_eq_ok.1 h
  split at h
  · split at h
    · obtain rfl := ok_inj h; exact ⟨by simp [growBase], rfl, rfl⟩
    · obtain rfl := ok_inj h; exact ⟨Nat.le_refl _, rfl, rfl⟩
  · obtain rfl := ok_inj h; exact .refl _

theorem pushBack_keeps {s s' : PS α} {x : α} (h : pushBack s x = .ok s') : Keeps s s' := by
  unfold pushBack at h
  obtain ⟨p, -, h⟩ := bind_eq_ok.1 h
  obtain rfl := ok_inj h; exact setPage_keeps _ _ _

theorem push_keeps {s s' : PS α} {x : α} (h : push s x = .ok s') : Keeps s s' := by
  unfold push at h
  obtain ⟨p, h1, h⟩ := bind_eq_ok.1 h
  exact (advance_keeps h1).trans (pushBack_keeps h)

theorem pushMany_keeps {s s' : PS α} {x : α} {xs : List α} (h : pushMany s x xs = .ok s') : Keeps s s' := by
  induction xs generalizing s x with
  | nil => exact push_keeps h
  | cons y ys ih =>
    unfold pushMany at h
    obtain ⟨p, h1, h⟩ := bind_eq_ok.1 h
    obtain ⟨q, h2, h⟩ := bind_eq_ok.1 h
    exact ((advance_keeps h1).trans (pushBack_keeps h2)).trans (ih h)

theorem popOne_keeps {s s' : PS α} (h : popOne s = .ok s') : Keeps s s' := by
  unfold popOne at h
  obtain ⟨p, -, h⟩ := bind_eq_ok.1 h
  split at h
  · cases h
  · simp only [] at h
    split at h <;> obtain rfl := ok_inj h <;> exact ⟨by simp [PS.setPage], rfl, rfl⟩

theorem popMany_keeps {s s' : PS α} {n : Nat} {vs : List α} (h : popMany s n = .ok (s', vs)) : Keeps s s' := by
  induction n generalizing s vs with
  | zero => unfold popMany at h; cases ok_inj h; exact .refl _
  | succ n ih =>
    unfold popMany at h
    obtain ⟨v, -, h⟩ := bind_eq_ok.1 h
    obtain ⟨s1, h1, h⟩ := bind_eq_ok.1 h
    obtain ⟨⟨s2, vs2⟩, h2, h⟩ := bind_eq_ok.1 h
    cases ok_inj h
    exact (popOne_keeps h1).trans (ih h2)

theorem discardLoop_len : ∀ (c n : Nat) (b : List (List α)) {b' : List (List α)} {c' : Nat},
    discardLoop b c n = .ok (b', c') → b'.length = b.length
  | 0, n, b, b', c', h => by
    unfold discardLoop at h
    split at h
    · cases h
    · split at h <;> cases ok_inj h <;> simp
  | c + 1, n, b, b', c', h => by
    unfold discardLoop at h
    split at h
    · cases h
    · split at h
      · rw [discardLoop_len c _ _ h]; simp
      · cases ok_inj h; simp

theorem clearLoop_len : ∀ (c : Nat) (b : List (List α)), (clearLoop b c).length = b.length
  | 0, b => rfl
  | c + 1, b => by rw [clearLoop, clearLoop_len c]; simp

theorem clear_keeps {s s' : PS α} (h : clear s = .ok s') : Keeps s s' := by
  unfold clear at h
  obtain ⟨v, -, h⟩ := bind_eq_ok.1 h
  obtain rfl := ok_inj h
  exact ⟨by simp [clearLoop_len], rfl, rfl⟩

theorem discardToLoop_len : ∀ (c i : Nat) (b : List (List α)) {b' : List (List α)},
    discardToLoop b i c = .ok b' → b'.length = b.length
  | 0, i, b, b', h => by
    unfold discardToLoop at h
    split at h
    · obtain rfl := ok_inj h; rfl
    · cases h
  | c + 1, i, b, b', h => by
    unfold discardToLoop at h
    split at h
    · obtain rfl := ok_inj h; rfl
    · rw [discardToLoop_len c _ _ h]; simp

theorem internalDiscard_keeps {s s' : PS α} {i : Nat} {d : Int} (h : internalDiscard s i d = .ok s') :
    Keeps s s' := by
  unfold internalDiscard at h
  obtain ⟨b, h1, h⟩ := bind_eq_ok.1 h
  simp only [] at h
  obtain ⟨p, -, h⟩ := bind_eq_ok.1 h
  have hb := discardToLoop_len _ _ _ h1
  split at h
  · split at h <;> obtain rfl := ok_inj h <;> exact ⟨by simp [PS.setPage, hb], rfl, rfl⟩
  · split at h
    · cases h
    · obtain rfl := ok_inj h; exact ⟨by simp [PS.setPage, hb], rfl, rfl⟩

theorem popReverse_keeps {s s' : PS α} {n : Nat} {vs : List α} (h : popReverse s n = .ok (s', vs)) :
    Keeps s s' := by
  unfold popReverse at h
  obtain ⟨p, -, h⟩ := bind_eq_ok.1 h
  obtain ⟨q, -, h⟩ := bind_eq_ok.1 h
  obtain ⟨r, h1, h⟩ := bind_eq_ok.1 h
  cases ok_inj h
  exact internalDiscard_keeps h1

/-- Stack calls other than shrink. -/
theorem step_keeps {s s' : PS α} {o : Out α} (op : Op α) (hs : op ≠ .shrink) (hn : op ≠ .syncNew)
    (hd : op ≠ .syncDrop) (h : step s op = .ok (s', o)) : Keeps s s' := by
  have query : ∀ {β : Type} {x : Res β} {f : β → Out α},
      (x >>= fun v => (Except.ok (s, f v) : Res (PS α × Out α))) = .ok (s', o) → Keeps s s' := by
    intro β x f h
    obtain ⟨v, -, h⟩ := bind_eq_ok.1 h
    cases ok_inj h; exact .refl _
  have cmd : ∀ {x : Res (PS α)}, (x >>= fun s1 => (Except.ok (s1, .unit) : Res (PS α × Out α))) = .ok (s', o) →
      x = .ok s' := by
    intro x h
    obtain ⟨v, h1, h⟩ := bind_eq_ok.1 h
    cases ok_inj h; exact h1
  cases op with
  | push x => exact push_keeps (cmd h)
  | pushMany x xs => exact pushMany_keeps (cmd h)
  | pushEmplace x => exact push_keeps (cmd h)
  | pop => exact popOne_keeps (cmd h)
  | popMany n =>
    unfold step at h
    obtain ⟨⟨s1, v⟩, h1, h⟩ := bind_eq_ok.1 h
    cases ok_inj h
    exact popMany_keeps h1
  | top => exact query h
  | setTop x =>
    have := cmd h
    unfold setTop at this
    obtain ⟨v, -, h⟩ := bind_eq_ok.1 this
    split at h
    · cases h
    · obtain rfl := ok_inj h; exact setPage_keeps _ _ _
  | discard n =>
    have := cmd h
    unfold discard at this
    obtain ⟨⟨b, c⟩, h1, h⟩ := bind_eq_ok.1 this
    obtain rfl := ok_inj h
    exact ⟨by simp [discardLoop_len _ _ _ h1], rfl, rfl⟩
  | peek n => exact query h
  | peekReverse n => exact query h
  | peekDepth d n => exact query h
  | empty => exact query h
  | size => exact query h
  | stats => exact query h
  | shrink => exact absurd rfl hs
  | syncNew => exact absurd rfl hn
  | syncDrop => exact absurd rfl hd

/-! ### Invariant of the iterator system -/

/-- State of an iterator on which no call has thrown. -/
structure ItOk (ps len : Nat) (it : SIter) : Prop where
  bnd  : it.bound = 0
  page : it.page < len
  data : it.dpage = it.page
  lo   : -1 ≤ it.off
  hi   : it.off < ps
  mark : it.off = -1 → it.page = 0

theorem ItOk.mono {ps n m : Nat} {it : SIter} (h : ItOk ps n it) (hm : n ≤ m) : ItOk ps m it :=
  ⟨h.bnd, Nat.lt_of_lt_of_le h.page hm, h.data, h.lo, h.hi, h.mark⟩

structure SInv (ps al : Nat) (y : Sys α) : Prop where
  inv  : Inv ps al y.st
  cnt  : y.st.syncCount = y.its.length
  req  : y.its = [] → y.st.shrinkReq = false
  its  : ∀ it ∈ y.its, it.threw = false → ItOk ps y.st.base.length it

section
variable {ps al : Nat} {sc : Int} {sr : Bool} {pre : List (List α)} {cp : List α}
  {rest : List (List α)}

theorem page_lt (i : Nat) (h : i < pre.length) :
    (mkS ps al pre cp rest sc sr).page i = .ok pre[i] := by
  simp [PS.page, List.getElem?_append_left h, List.getElem?_eq_getElem h]

theorem page_gt (i : Nat) (h : i < (mkS ps al pre cp rest sc sr).base.length) :
    ∃ p, (mkS ps al pre cp rest sc sr).page i = .ok p := by
  simp only [PS.page]
  rw [List.getElem?_eq_getElem h]; exact ⟨_, rfl⟩

theorem synchronize_mk (it : SIter) : synchronize (mkS ps al pre cp rest sc sr) it
    = ((mkS ps al pre cp rest sc sr).page it.page >>= fun p =>
        if pre.length = it.page then
          if it.dpage ≠ it.page then .error (.ub .ptrRange)
          else if 0 ≤ it.off ∧ it.off < p.length then .ok (.inSync it)
          else resyncTop (mkS ps al pre cp rest sc sr) it
        else if it.page < pre.length then .ok (.inSync it)
        else resyncTop (mkS ps al pre cp rest sc sr) it) := rfl

/-- What synchronize does to an iterator on which no call has thrown. -/
theorem synchronize_spec (g : Good ps pre cp) {it : SIter}
    (h : ItOk ps (mkS ps al pre cp rest sc sr).base.length it) :
    (it.page < pre.length ∧ synchronize (mkS ps al pre cp rest sc sr) it = .ok (.inSync it)) ∨
    (it.page = pre.length ∧ 0 ≤ it.off ∧ it.off < cp.length ∧
      synchronize (mkS ps al pre cp rest sc sr) it = .ok (.inSync it)) ∨
    ((pre.length < it.page ∨ it.page = pre.length ∧ (it.off < 0 ∨ cp.length ≤ it.off)) ∧
      synchronize (mkS ps al pre cp rest sc sr) it = resyncTop (mkS ps al pre cp rest sc sr) it) := by
  obtain ⟨p, hp⟩ := page_gt (ps := ps) (al := al) (sc := sc) (sr := sr) it.page h.page
  rcases Nat.lt_trichotomy it.page pre.length with hlt | heq | hgt
  · left
    refine ⟨hlt, ?_⟩
    rw [synchronize_mk, hp, bind_ok]
    rw [if_neg (by omega), if_pos hlt]
  · right
    have hp' : p = cp := by
      rw [heq, mkS_page] at hp; exact (ok_inj hp).symm
    subst hp'
    by_cases ho : 0 ≤ it.off ∧ it.off < p.length
    · left
      refine ⟨heq, ho.1, ho.2, ?_⟩
      rw [synchronize_mk, hp, bind_ok]
      rw [if_pos heq.symm, if_neg (by simp [h.data]), if_pos ho]
    · right
      refine ⟨Or.inr ⟨heq, by omega⟩, ?_⟩
      rw [synchronize_mk, hp, bind_ok]
      rw [if_pos heq.symm, if_neg (by simp [h.data]), if_neg ho]
  · right; right
    refine ⟨Or.inl hgt, ?_⟩
    rw [synchronize_mk, hp, bind_ok]
    rw [if_neg (by omega), if_neg (by omega)]

theorem resyncTop_empty (it : SIter) (h : cp = []) : resyncTop (mkS ps al pre cp rest sc sr) it
    = .ok (.threw { it with page := pre.length, threw := true }) := by
  simp [resyncTop, h]

theorem resyncTop_ne (it : SIter) (h : cp ≠ []) : resyncTop (mkS ps al pre cp rest sc sr) it
    = .ok (.resync { it with page := pre.length, dpage := pre.length, off := (cp.length : Int) - 1 }) := by
  show ((mkS ps al pre cp rest sc sr).page pre.length >>= fun p => _) = _
  rw [mkS_page, bind_ok, if_neg (by simpa using h)]; rfl

/-- any outcome of synchronize leaves a good iterator -/
theorem synchronize_ok (g : Good ps pre cp) {it : SIter}
    (h : ItOk ps (mkS ps al pre cp rest sc sr).base.length it) {r : SyncRes}
    (hr : synchronize (mkS ps al pre cp rest sc sr) it = .ok r) :
    match r with
    | .inSync it' => it' = it
    | .resync it' => ItOk ps (mkS ps al pre cp rest sc sr).base.length it' ∧ it'.threw = it.threw
    | .threw it' => it'.threw = true := by
  rcases synchronize_spec (al := al) (rest := rest) (sc := sc) (sr := sr) g h with ⟨_, e⟩ | ⟨_, _, _, e⟩ | ⟨_, e⟩
  · rw [e] at hr; obtain rfl := ok_inj hr; rfl
  · rw [e] at hr; obtain rfl := ok_inj hr; rfl
  · rw [e] at hr
    by_cases hc : cp = []
    · rw [resyncTop_empty _ hc] at hr; obtain rfl := ok_inj hr; rfl
    · rw [resyncTop_ne _ hc] at hr; obtain rfl := ok_inj hr
      have := List.length_pos_iff.2 hc
      have hle := g.le
      refine ⟨⟨h.bnd, ?_, rfl, ?_, ?_, ?_⟩, rfl⟩
      · simp
      · show (-1 : Int) ≤ (cp.length : Int) - 1; omega
      · show (cp.length : Int) - 1 < ps; omega
      · intro e; exfalso; revert e; show (cp.length : Int) - 1 ≠ -1; omega

theorem syncGet_ok (g : Good ps pre cp) {it it' : SIter} {o : SOut α}
    (h : ItOk ps (mkS ps al pre cp rest sc sr).base.length it)
    (hr : syncGet (mkS ps al pre cp rest sc sr) it = .ok (it', o)) :
    it'.threw = true ∨ ItOk ps (mkS ps al pre cp rest sc sr).base.length it' := by
  unfold syncGet at hr
  obtain ⟨r, h1, hr⟩ := bind_eq_ok.1 hr
  have := synchronize_ok g h h1
  cases r with
  | threw i => cases ok_inj hr; exact Or.inl this
  | inSync i =>
    obtain ⟨v, -, hr⟩ := bind_eq_ok.1 hr
    cases ok_inj hr; simp only at this; subst this; exact Or.inr h
  | resync i =>
    obtain ⟨v, -, hr⟩ := bind_eq_ok.1 hr
    cases ok_inj hr; exact Or.inr this.1

theorem page_full (g : Good ps pre cp) {i : Nat} {p : List α} (hi : i < pre.length)
    (hp : (mkS ps al pre cp rest sc sr).page i = .ok p) : p.length = ps := by
  rw [page_lt i hi] at hp
  obtain rfl := ok_inj hp
  exact g.full _ (List.getElem_mem _)

theorem syncInc_ok (h0 : 0 < ps) (g : Good ps pre cp) {it it' : SIter} {o : SOut α}
    (h : ItOk ps (mkS ps al pre cp rest sc sr).base.length it)
    (hr : syncInc (mkS ps al pre cp rest sc sr) it = .ok (it', o)) :
    it'.threw = true ∨ ItOk ps (mkS ps al pre cp rest sc sr).base.length it' := by
  unfold syncInc at hr
  obtain ⟨r, h1, hr1⟩ := bind_eq_ok.1 hr
  clear hr
  have := synchronize_ok g h h1
  cases r with
  | threw i => cases ok_inj hr1; exact Or.inl this
  | resync i => cases ok_inj hr1; exact Or.inr this.1
  | inSync i =>
    simp only at this; subst this
    right
    replace hr1 := (if_neg (c := i.dpage ≠ i.page) (by simp [h.data])).symm.trans hr1
    have hpre : i.page ≤ pre.length := by
      rcases synchronize_spec (al := al) (rest := rest) (sc := sc) (sr := sr) g h with ⟨_, e⟩ | ⟨_, _, _, e⟩ | ⟨_, e⟩
      · omega
      · omega
      · rw [e] at h1
        by_cases hc : cp = []
        · rw [resyncTop_empty _ hc] at h1; cases ok_inj h1
        · rw [resyncTop_ne _ hc] at h1; cases ok_inj h1
    split at hr1
    · rename_i hc
      have hne : i.page ≠ 0 := by rw [← h.bnd]; exact hc.2
      rw [if_neg hne] at hr1
      obtain ⟨q, hq, hr1⟩ := bind_eq_ok.1 hr1
      obtain ⟨d, hd, hr1⟩ := bind_eq_ok.1 hr1
      cases ok_inj hr1
      have hql := page_full g (by omega) hq
      rw [ptrDec, if_neg (by omega)] at hd
      obtain rfl := ok_inj hd
      refine ⟨h.bnd, ?_, rfl, ?_, ?_, ?_⟩
      · show i.page - 1 < _; have := h.page; omega
      · show (-1 : Int) ≤ (q.length : Int) - 1; omega
      · show (q.length : Int) - 1 < ps; omega
      · intro e; exfalso; revert e; show (q.length : Int) - 1 ≠ -1; omega
    · rename_i hc
      obtain ⟨d, hd, hr1⟩ := bind_eq_ok.1 hr1
      cases ok_inj hr1
      unfold ptrDec at hd
      split at hd
      · cases hd
      · rename_i hn
        obtain rfl := ok_inj hd
        refine ⟨h.bnd, h.page, h.data, ?_, ?_, ?_⟩
        · show (-1 : Int) ≤ i.off - 1; omega
        · show i.off - 1 < ps; have := h.hi; omega
        · intro e
          have e : i.off - 1 = -1 := e
          have : i.off = 0 := by omega
          show i.page = 0
          refine Classical.byContradiction fun hne => hc ⟨this, ?_⟩
          rw [h.bnd]; exact hne

theorem syncDec_ok (h0 : 0 < ps) (g : Good ps pre cp) {it it' : SIter} {o : SOut α}
    (h : ItOk ps (mkS ps al pre cp rest sc sr).base.length it)
    (hr : syncDec (mkS ps al pre cp rest sc sr) it = .ok (it', o)) :
    it'.threw = true ∨ ItOk ps (mkS ps al pre cp rest sc sr).base.length it' := by
  unfold syncDec at hr
  obtain ⟨r, h1, hr1⟩ := bind_eq_ok.1 hr
  clear hr
  have := synchronize_ok g h h1
  cases r with
  | threw i => cases ok_inj hr1; exact Or.inl this
  | resync i => cases ok_inj hr1; exact Or.inr this.1
  | inSync i =>
    simp only at this; subst this
    right
    replace hr1 := (if_neg (c := i.dpage ≠ i.page) (by simp [h.data])).symm.trans hr1
    obtain ⟨p, hp, hr1⟩ := bind_eq_ok.1 hr1
    obtain ⟨d, hd, hr1⟩ := bind_eq_ok.1 hr1
    unfold ptrInc at hd
    split at hd
    · rename_i hlt
      obtain rfl := ok_inj hd
      split at hr1
      · obtain ⟨q, hq, hr1⟩ := bind_eq_ok.1 hr1
        cases ok_inj hr1
        refine ⟨h.bnd, ?_, rfl, ?_, ?_, ?_⟩
        · show i.page + 1 < _
          unfold PS.page at hq
          split at hq
          · rename_i e; exact (List.getElem?_eq_some_iff.1 e).1
          · cases hq
        · show (-1 : Int) ≤ 0; omega
        · show (0 : Int) < ps; omega
        · intro e; exact absurd e (by show ¬ ((0 : Int) = -1); omega)
      · rename_i hne
        cases ok_inj hr1
        have hlen : p.length ≤ ps := by
          rcases synchronize_spec (al := al) (rest := rest) (sc := sc) (sr := sr) g h with ⟨hl, e⟩ | ⟨hl, _, _, e⟩ | ⟨_, e⟩
          · rw [page_full g hl hp]; exact Nat.le_refl _
          · rw [hl, mkS_page] at hp; rw [← ok_inj hp]; exact g.le
          · rw [e] at h1
            by_cases hc : cp = []
            · rw [resyncTop_empty _ hc] at h1; cases ok_inj h1
            · rw [resyncTop_ne _ hc] at h1; cases ok_inj h1
        have hlo := h.lo
        refine ⟨h.bnd, h.page, h.data, ?_, ?_, ?_⟩
        · show (-1 : Int) ≤ i.off + 1; omega
        · show i.off + 1 < ps; omega
        · intro e; have e : i.off + 1 = -1 := e; omega
    · cases hd

end

theorem SInv_init {ps al : Nat} (ha : 0 < al) : SInv ps al (⟨init ps al, []⟩ : Sys α) :=
  ⟨Inv_of_R (R_init ha), rfl, fun _ => rfl, by simp⟩

theorem useIter_inv {ps al : Nat} {y y' : Sys α} {i : Nat} {o : SOut α}
    {f : PS α → SIter → Res (SIter × SOut α)} (h : SInv ps al y)
    (hf : ∀ it it' o, it.threw = false → ItOk ps y.st.base.length it → f y.st it = .ok (it', o) →
      it'.threw = true ∨ ItOk ps y.st.base.length it')
    (hth : ∀ it it' o, f y.st it = .ok (it', o) → it.threw = true → it'.threw = true)
    (he : useIter y i f = .ok (y', o)) : SInv ps al y' ∧ y'.st = y.st ∧ y'.its.length = y.its.length := by
  unfold useIter at he
  split at he
  · cases he
  · rename_i it hit
    obtain ⟨⟨it', o'⟩, h1, he⟩ := bind_eq_ok.1 he
    cases ok_inj he
    have hmem : it ∈ y.its := List.mem_of_getElem? hit
    refine ⟨⟨h.inv, by simp [h.cnt], fun e => h.req (by simpa using e), ?_⟩, rfl, by simp⟩
    intro j hj hnt
    rcases List.mem_or_eq_of_mem_set hj with hj | rfl
    · exact h.its j hj hnt
    · cases hb : it.threw with
      | true => rw [hth it j o h1 hb] at hnt; cases hnt
      | false =>
        rcases hf it j o hb (h.its it hmem hb) h1 with e | e
        · rw [e] at hnt; cases hnt
        · exact e

def SyncRes.iter : SyncRes → SIter
  | .inSync i => i | .resync i => i | .threw i => i

theorem synchronize_threw {s : PS α} {it : SIter} {r : SyncRes} (h : synchronize s it = .ok r)
    (ht : it.threw = true) : r.iter.threw = true := by
  have hres : ∀ r, resyncTop s it = .ok r → r.iter.threw = true := by
    intro r hr
    unfold resyncTop at hr
    obtain ⟨p, -, hr⟩ := bind_eq_ok.1 hr
    simp only [] at hr
    split at hr <;> (obtain rfl := ok_inj hr)
    · rfl
    · exact ht
  unfold synchronize at h
  obtain ⟨p, -, h⟩ := bind_eq_ok.1 h
  split at h
  · split at h
    · cases h
    · split at h
      · obtain rfl := ok_inj h; exact ht
      · exact hres r h
  · split at h
    · obtain rfl := ok_inj h; exact ht
    · exact hres r h

theorem syncGet_threw {s : PS α} {it it' : SIter} {o : SOut α} (h : syncGet s it = .ok (it', o))
    (ht : it.threw = true) : it'.threw = true := by
  unfold syncGet at h
  obtain ⟨r, h1, h⟩ := bind_eq_ok.1 h
  have := synchronize_threw h1 ht
  cases r with
  | threw i => cases ok_inj h; exact this
  | inSync i => obtain ⟨v, -, h⟩ := bind_eq_ok.1 h; cases ok_inj h; exact this
  | resync i => obtain ⟨v, -, h⟩ := bind_eq_ok.1 h; cases ok_inj h; exact this

theorem syncInc_threw {s : PS α} {it it' : SIter} {o : SOut α} (h : syncInc s it = .ok (it', o))
    (ht : it.threw = true) : it'.threw = true := by
  unfold syncInc at h
  obtain ⟨r, h1, h⟩ := bind_eq_ok.1 h
  have := synchronize_threw h1 ht
  cases r with
  | threw i => cases ok_inj h; exact this
  | resync i => cases ok_inj h; exact this
  | inSync i =>
    dsimp only at h
    split at h
    · cases h
    · split at h
      · split at h
        · cases h
        · obtain ⟨q, -, h⟩ := bind_eq_ok.1 h
          obtain ⟨d, -, h⟩ := bind_eq_ok.1 h
          cases ok_inj h; exact this
      · obtain ⟨d, -, h⟩ := bind_eq_ok.1 h
        cases ok_inj h; exact this

theorem syncDec_threw {s : PS α} {it it' : SIter} {o : SOut α} (h : syncDec s it = .ok (it', o))
    (ht : it.threw = true) : it'.threw = true := by
  unfold syncDec at h
  obtain ⟨r, h1, h⟩ := bind_eq_ok.1 h
  have := synchronize_threw h1 ht
  cases r with
  | threw i => cases ok_inj h; exact this
  | resync i => cases ok_inj h; exact this
  | inSync i =>
    dsimp only at h
    split at h
    · cases h
    · obtain ⟨q, -, h⟩ := bind_eq_ok.1 h
      obtain ⟨d, -, h⟩ := bind_eq_ok.1 h
      split at h
      · obtain ⟨q, -, h⟩ := bind_eq_ok.1 h
        cases ok_inj h; exact this
      · cases ok_inj h; exact this

theorem syncDrop_count (s : PS α) : (syncDrop s).syncCount = s.syncCount - 1 := by
  unfold syncDrop; simp only []; split <;> rfl

theorem clear_inv {ps al : Nat} {s s' : PS α} (h : Inv ps al s) (he : clear s = .ok s') : Inv ps al s' := by
  obtain ⟨pre, cp, k, n, sr, rfl, g⟩ := h
  rw [clear_spec] at he
  obtain rfl := ok_inj he
  exact ⟨[], _, pre.length + k, n, sr, by simp [← List.replicate_append_replicate], (head_good g).1⟩

theorem popReverse_inv {ps al : Nat} (h0 : 0 < ps) {s s' : PS α} {n : Nat} {vs : List α} (h : Inv ps al s)
    (h1 : 1 ≤ n) (h2 : n ≤ (contents s).length) (h3 : cleanRemainder ps ((contents s).length - n))
    (he : popReverse s n = .ok (s', vs)) : Inv ps al s' := by
  obtain ⟨pre, cp, k, m, sr, rfl, g⟩ := h
  rw [contents_mk, List.length_reverse] at h2 h3
  obtain ⟨pre', cp', rest', e, g', c', l', cl, -⟩ := popReverse_spec (al := al) (sc := m) (sr := sr) h0
    (List.replicate k []) g n h1 h2
  rw [e] at he
  obtain rfl := (Prod.mk.inj (ok_inj he)).1
  obtain ⟨j, rfl⟩ := cl h3
  exact ⟨pre', cp', j + k, m, sr, by simp [← List.replicate_append_replicate], g'⟩

theorem newIter_inv {ps al : Nat} (h0 : 0 < ps) (ha : 0 < al) {y : Sys α} {it : SIter} (h : SInv ps al y)
    (hb : ItOk ps y.st.base.length it) :
    SInv ps al (⟨syncNew y.st, y.its ++ [it]⟩ : Sys α) ∧
    (y.its ++ [it] ≠ [] → y.st.base.length ≤ (syncNew y.st).base.length) ∧
    (y.its ++ [it] ≠ [] → (syncNew y.st).shrinkReq = (y.st.shrinkReq || (false && !y.its.isEmpty))) := by
  refine ⟨⟨Inv_step h0 ha h.inv .syncNew (fun e => by cases e) rfl, ?_, by simp, ?_⟩, fun _ => Nat.le_refl _,
    fun _ => by simp [syncNew]⟩
  · simp [syncNew, h.cnt]
  · intro j hj ht
    rcases List.mem_append.1 hj with hj | hj
    · exact h.its j hj ht
    · rw [List.mem_singleton] at hj; subst hj; exact hb

theorem shrink_keeps {s : PS α} (h : 0 < s.syncCount) :
    shrinkToFit s = { s with shrinkReq := true } := by
  unfold shrinkToFit; rw [if_pos h]

theorem call_inv {ps al : Nat} {y : Sys α} {s' : PS α} (h : SInv ps al y)
    (hi : Inv ps al s') (hk : Keeps y.st s') : SInv ps al { y with st := s' } :=
  ⟨hi, by simp [hk.cnt, h.cnt], fun e => by rw [← h.req e]; exact hk.req,
    fun it hm ht => (h.its it hm ht).mono hk.len⟩

/-- One allowed step: the invariant, no page freed while iterators remain, and the request flag. -/
theorem SInv_step {ps al : Nat} (h0 : 0 < ps) (ha : 0 < al) {y y' : Sys α} {o : SOut α} (op : SOp α)
    (h : SInv ps al y) (hal : Allowed ps y op) (he : sstep y op = .ok (y', o)) :
    SInv ps al y' ∧ (y'.its ≠ [] → y.st.base.length ≤ y'.st.base.length) ∧
    (y'.its ≠ [] → y'.st.shrinkReq = (y.st.shrinkReq || (op.isShrink && !y.its.isEmpty))) := by
  have huse : ∀ {i f}, (∀ it it' o, it.threw = false → ItOk ps y.st.base.length it → f y.st it = .ok (it', o) →
      it'.threw = true ∨ ItOk ps y.st.base.length it') →
      (∀ it it' o, f y.st it = .ok (it', o) → it.threw = true → it'.threw = true) → op.isShrink = false →
      useIter y i f = .ok (y', o) → SInv ps al y' ∧ (y'.its ≠ [] → y.st.base.length ≤ y'.st.base.length) ∧
    (y'.its ≠ [] → y'.st.shrinkReq = (y.st.shrinkReq || (op.isShrink && !y.its.isEmpty))) := by
    intro i f h1 h2 h3 h4
    obtain ⟨a, b, c⟩ := useIter_inv h h1 h2 h4
    exact ⟨a, fun _ => by rw [b]; exact Nat.le_refl _, fun _ => by rw [b, h3]; simp⟩
  have hcall : ∀ {s'}, Inv ps al s' → Keeps y.st s' → op.isShrink = false → y' = { y with st := s' } →
      SInv ps al y' ∧ (y'.its ≠ [] → y.st.base.length ≤ y'.st.base.length) ∧
      (y'.its ≠ [] → y'.st.shrinkReq = (y.st.shrinkReq || (op.isShrink && !y.its.isEmpty))) := by
    intro s' hi hk hs hy
    subst hy
    exact ⟨call_inv h hi hk, fun _ => hk.len, fun _ => by rw [hs]; simp [hk.req]⟩
  cases op with
  | call op =>
    unfold sstep at he
    obtain ⟨⟨s', o'⟩, h1, he⟩ := bind_eq_ok.1 he
    cases ok_inj he
    have hi := Inv_step h0 ha h.inv op (fun e => absurd e hal.2) h1
    by_cases hs : op = .shrink
    · subst hs
      have h1 := congrArg Prod.fst (ok_inj h1)
      subst h1
      by_cases hem : y.its = []
      · have hc : ¬ (y.st.syncCount > 0) := by rw [h.cnt, hem]; simp
        have hsf : shrinkToFit y.st = internalShrink y.st := by unfold shrinkToFit; rw [if_neg hc]
        refine ⟨⟨hi, ?_, ?_, ?_⟩, ?_, ?_⟩
        · simp only [hsf]; exact h.cnt
        · simp only [hsf]; exact h.req
        · simp [hem]
        · exact fun e => absurd hem e
        · exact fun e => absurd hem e
      · have hc : y.st.syncCount > 0 := by
          rw [h.cnt]; have := List.length_pos_iff.2 hem; omega
        have hsf := shrink_keeps hc
        refine ⟨⟨hi, ?_, fun e => absurd e hem, ?_⟩, ?_, ?_⟩
        · simp only [hsf]; exact h.cnt
        · simp only [hsf]; exact h.its
        · simp [hsf]
        · simp [hsf, SOp.isShrink, hem]
    · refine hcall hi (step_keeps op hs hal.1 hal.2 h1) ?_ rfl
      cases op <;> first | rfl | exact absurd rfl hs
  | clear =>
    unfold sstep at he
    obtain ⟨s', h1, he⟩ := bind_eq_ok.1 he
    cases ok_inj he
    exact hcall (clear_inv h.inv h1) (clear_keeps h1) rfl rfl
  | popReverse n =>
    unfold sstep at he
    obtain ⟨⟨s', vs⟩, h1, he⟩ := bind_eq_ok.1 he
    cases ok_inj he
    exact hcall (popReverse_inv h0 h.inv hal.1 hal.2.1 hal.2.2 h1) (popReverse_keeps h1) rfl rfl
  | newBegin =>
    unfold sstep at he
    obtain ⟨it, h1, he⟩ := bind_eq_ok.1 he
    cases ok_inj he
    have hb : ItOk ps y.st.base.length it := by
      obtain ⟨pre, cp, k, n, sr, e, g⟩ := h.inv
      rw [e] at h1 ⊢
      unfold syncBegin at h1
      rw [mkS_cur, mkS_page, bind_ok] at h1
      obtain rfl := ok_inj h1
      have hle := g.le
      refine ⟨rfl, by simp, rfl, ?_, ?_, ?_⟩
      · show (-1 : Int) ≤ (cp.length : Int) - 1; omega
      · show (cp.length : Int) - 1 < ps; omega
      · intro e
        have e : (cp.length : Int) - 1 = -1 := e
        have : cp = [] := List.length_eq_zero_iff.1 (by omega)
        show pre.length = 0
        rw [g.ne this]; rfl
    exact newIter_inv h0 ha h hb
  | newEnd =>
    unfold sstep at he
    obtain ⟨it, h1, he⟩ := bind_eq_ok.1 he
    cases ok_inj he
    have hb : ItOk ps y.st.base.length it := by
      obtain ⟨pre, cp, k, n, sr, e, g⟩ := h.inv
      rw [e] at h1 ⊢
      unfold syncEnd at h1
      obtain ⟨p, -, h1⟩ := bind_eq_ok.1 h1
      obtain rfl := ok_inj h1
      refine ⟨rfl, ?_, rfl, ?_, ?_, fun _ => rfl⟩
      · simp only [mkS_base, List.length_append, List.length_cons]; omega
      · show (-1 : Int) ≤ -1; omega
      · show (-1 : Int) < ps; omega
    exact newIter_inv h0 ha h hb
  | drop i =>
    simp only [sstep] at he
    split at he
    · rename_i hi
      cases ok_inj he
      by_cases hl : y.its.length = 1
      · have he0 : y.its.eraseIdx i = [] := by
          apply List.length_eq_zero_iff.1; rw [List.length_eraseIdx_of_lt hi]; omega
        have hinv : Inv ps al (syncDrop y.st) :=
          Inv_step h0 ha h.inv .syncDrop (fun _ => by rw [h.cnt]; omega) rfl
        refine ⟨⟨hinv, ?_, ?_, ?_⟩, fun e => absurd he0 e, fun e => absurd he0 e⟩
        · simp only [he0]; rw [syncDrop_count, h.cnt, hl]; rfl
        · intro _
          unfold syncDrop
          simp only []
          split
          · rfl
          · rename_i hn
            have hz : y.st.syncCount - 1 = 0 := by rw [h.cnt, hl]; rfl
            show y.st.shrinkReq = false
            cases hb : y.st.shrinkReq with
            | false => rfl
            | true => exact absurd ⟨hz, hb⟩ hn
        · simp [he0]
      · have hne : ¬ ((y.st.syncCount - 1 = 0) ∧ y.st.shrinkReq = true) := by
          rintro ⟨h1, -⟩; rw [h.cnt] at h1; omega
        have hsd : syncDrop y.st = { y.st with syncCount := y.st.syncCount - 1 } := by
          unfold syncDrop; exact if_neg hne
        have hinv : Inv ps al (syncDrop y.st) :=
          Inv_step h0 ha h.inv .syncDrop (fun _ => by rw [h.cnt]; omega) rfl
        refine ⟨⟨hinv, ?_, ?_, ?_⟩, ?_, ?_⟩
        · simp only [syncDrop_count, h.cnt, List.length_eraseIdx_of_lt hi]; omega
        · intro e
          have := congrArg List.length e
          simp only [List.length_eraseIdx_of_lt hi, List.length_nil] at this; omega
        · intro it hm ht
          simp only [hsd]
          exact h.its it (List.mem_of_mem_eraseIdx hm) ht
        · intro _; simp [hsd]
        · intro _; simp [hsd, SOp.isShrink]
    · cases he
  | get i =>
    refine huse (f := syncGet) ?_ (fun _ _ _ h1 h2 => syncGet_threw h1 h2) rfl he
    intro it it' o _ hok h1
    obtain ⟨pre, cp, k, n, sr, e, g⟩ := h.inv
    rw [e] at h1 hok ⊢; exact syncGet_ok g hok h1
  | inc i =>
    refine huse (f := syncInc) ?_ (fun _ _ _ h1 h2 => syncInc_threw h1 h2) rfl he
    intro it it' o _ hok h1
    obtain ⟨pre, cp, k, n, sr, e, g⟩ := h.inv
    rw [e] at h1 hok ⊢; exact syncInc_ok h0 g hok h1
  | dec i =>
    refine huse (f := syncDec) ?_ (fun _ _ _ h1 h2 => syncDec_threw h1 h2) rfl he
    intro it it' o _ hok h1
    obtain ⟨pre, cp, k, n, sr, e, g⟩ := h.inv
    rw [e] at h1 hok ⊢; exact syncDec_ok h0 g hok h1
  | eq i j =>
    simp only [sstep] at he
    split at he
    · cases ok_inj he; exact ⟨h, fun _ => Nat.le_refl _, fun _ => by simp [SOp.isShrink]⟩
    · cases he
  | copy i => exact absurd hal id

theorem SReach.inv {ps al : Nat} (h0 : 0 < ps) (ha : 0 < al) {y : Sys α} (h : SReach ps al y) :
    SInv ps al y := by
  induction h with
  | init => exact SInv_init ha
  | step op _ hal he ih => exact (SInv_step h0 ha op ih hal he).1

end Falcon.PagedStack
