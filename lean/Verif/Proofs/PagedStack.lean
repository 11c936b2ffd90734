import Verif.Model.PagedStack
import Verif.Spec.Stack
/-
Helper lemmas about the PagedStack model.
-/
namespace Falcon.PagedStack
variable {α : Type}

/-- A stack state displayed as: pages below the current one, current page, pages above. -/
def mkS (ps al : Nat) (pre : List (List α)) (cp : List α) (rest : List (List α))
    (sc : Int) (sr : Bool) : PS α :=
  { pageSize := ps, allocSize := al, base := pre ++ cp :: rest, cur := pre.length,
    syncCount := sc, shrinkReq := sr }

/-- The structural invariant of the part of the stack up to the current page. -/
structure Good (ps : Nat) (pre : List (List α)) (cp : List α) : Prop where
  full : ∀ p ∈ pre, p.length = ps
  le   : cp.length ≤ ps
  ne   : cp = [] → pre = []

section basics
variable {ps al : Nat} {pre : List (List α)} {cp : List α} {rest : List (List α)}
  {sc : Int} {sr : Bool}

@[simp] theorem mkS_page : (mkS ps al pre cp rest sc sr).page pre.length = .ok cp := by
  simp [PS.page, mkS]

@[simp] theorem mkS_cur : (mkS ps al pre cp rest sc sr).cur = pre.length := rfl
@[simp] theorem mkS_ps : (mkS ps al pre cp rest sc sr).pageSize = ps := rfl
@[simp] theorem mkS_base : (mkS ps al pre cp rest sc sr).base = pre ++ cp :: rest := rfl

@[simp] theorem mkS_setPage (q : List α) :
    (mkS ps al pre cp rest sc sr).setPage pre.length q = mkS ps al pre q rest sc sr := by
  simp [PS.setPage, mkS]

theorem mkS_step (q : List α) :
    mkS ps al (pre ++ [q]) cp rest sc sr
      = { mkS ps al pre q (cp :: rest) sc sr with cur := pre.length + 1 } := by
  simp [mkS]

@[simp] theorem bind_ok {β γ : Type} (x : β) (f : β → Res γ) :
    ((Except.ok x : Res β) >>= f) = f x := rfl
@[simp] theorem bind_err {β γ : Type} (e : Fault) (f : β → Res γ) :
    ((Except.error e : Res β) >>= f) = .error e := rfl

theorem push_room (x : α) (h : cp.length ≠ ps) :
    push (mkS ps al pre cp rest sc sr) x = .ok (mkS ps al pre (cp ++ [x]) rest sc sr) := by
  simp [push, advance, pushBack, h]

theorem push_next (x : α) (r : List α) (h : cp.length = ps) :
    push (mkS ps al pre cp (r :: rest) sc sr) x
      = .ok (mkS ps al (pre ++ [cp]) (r ++ [x]) rest sc sr) := by
  have e : ({ mkS ps al pre cp (r :: rest) sc sr with cur := pre.length + 1 } : PS α)
      = mkS ps al (pre ++ [cp]) r rest sc sr := (mkS_step cp).symm
  have : advance (mkS ps al pre cp (r :: rest) sc sr)
      = .ok (mkS ps al (pre ++ [cp]) r rest sc sr) := by
    simp [advance, h, ← e]
  simp only [push, this, pushBack, bind_ok, mkS_cur, mkS_page, mkS_setPage]

theorem push_grow (x : α) (h : cp.length = ps) (ha : 0 < al) :
    push (mkS ps al pre cp [] sc sr) x
      = .ok (mkS ps al (pre ++ [cp]) [x] (List.replicate (al - 1) []) sc sr) := by
  obtain ⟨a, rfl⟩ : ∃ a, al = a + 1 := ⟨al - 1, by omega⟩
  have : advance (mkS ps (a + 1) pre cp [] sc sr)
      = .ok (mkS ps (a + 1) (pre ++ [cp]) [] (List.replicate a []) sc sr) := by
    simp only [advance, mkS_cur, mkS_page, bind_ok, mkS_ps, h, if_true]
    simp [growBase, mkS, List.replicate_succ]
  simp only [push, this, pushBack, bind_ok, mkS_cur, mkS_page, mkS_setPage]
  simp

theorem top_mk : top (mkS ps al pre cp rest sc sr)
    = match cp.getLast? with
      | some x => .ok x
      | none => .error (.ub .emptyBack) := by
  simp only [top, mkS_cur, mkS_page, bind_ok]
  cases cp.getLast? <;> rfl

theorem setTop_mk (x y : α) : setTop (mkS ps al pre (cp ++ [x]) rest sc sr) y
    = .ok (mkS ps al pre (cp ++ [y]) rest sc sr) := by
  simp [setTop]

theorem popOne_stay (x : α) (h : cp ≠ [] ∨ pre = []) :
    popOne (mkS ps al pre (cp ++ [x]) rest sc sr) = .ok (mkS ps al pre cp rest sc sr) := by
  simp only [popOne, mkS_cur, mkS_page, bind_ok, mkS_setPage]
  rw [if_neg (by simp), if_neg]
  · simp
  · rcases h with h | h <;> simp [h]

theorem popOne_cross (q : List α) (x : α) :
    popOne (mkS ps al (pre ++ [q]) [x] rest sc sr) = .ok (mkS ps al pre q ([] :: rest) sc sr) := by
  simp only [popOne, mkS_cur, mkS_page, bind_ok, mkS_setPage]
  rw [if_neg (by simp), if_pos (by simp)]
  simp [mkS]

theorem popOne_empty : popOne (mkS ps al pre [] rest sc sr) = .error (.ub .emptyPopBack) := by
  simp [popOne]

end basics

/-- content of the displayed stack, bottom first -/
def cont (pre : List (List α)) (cp : List α) : List α := pre.flatten ++ cp

theorem nil_or_snoc {β : Type} (l : List β) : l = [] ∨ ∃ l' x, l = l' ++ [x] := by
  rcases List.eq_nil_or_concat l with h | ⟨l', x, h⟩
  · exact Or.inl h
  · exact Or.inr ⟨l', x, by simpa using h⟩

/-! ### Good -/
namespace Good
variable {ps : Nat} {pre : List (List α)} {cp : List α}

theorem nil : Good ps ([] : List (List α)) [] := ⟨by simp, by simp, by simp⟩

theorem snoc_room (g : Good ps pre cp) (x : α) (h : cp.length ≠ ps) : Good ps pre (cp ++ [x]) :=
  ⟨g.full, by have := g.le; simp; omega, by simp⟩

theorem snoc_next (g : Good ps pre cp) (x : α) (h : cp.length = ps) (h0 : 0 < ps) :
    Good ps (pre ++ [cp]) [x] := by
  refine ⟨?_, by simp; omega, by simp⟩
  intro p hp
  rcases List.mem_append.1 hp with hp | hp
  · exact g.full p hp
  · simp at hp; simpa [hp] using h

theorem pop_stay {x : α} (g : Good ps pre (cp ++ [x])) (h : cp ≠ [] ∨ pre = []) : Good ps pre cp :=
  ⟨g.full, by have := g.le; simp at this; omega, fun e => by rcases h with h | h; exact absurd e h; exact h⟩

theorem pop_cross {q : List α} (g : Good ps (pre ++ [q]) cp) (h0 : 0 < ps) : Good ps pre q := by
  have hq := g.full q (by simp)
  refine ⟨fun p hp => g.full p (by simp [hp]), by omega, ?_⟩
  rintro rfl; simp at hq; omega

theorem len_pre (g : Good ps pre cp) : pre.flatten.length = pre.length * ps := by
  have := g.full
  clear g
  induction pre with
  | nil => simp
  | cons p pre ih =>
    have h1 := this p (by simp)
    have h2 := ih (fun q hq => this q (by simp [hq]))
    simp only [List.flatten_cons, List.length_append, List.length_cons, h1, h2]
    rw [Nat.add_mul]; omega

theorem len (g : Good ps pre cp) : (cont pre cp).length = pre.length * ps + cp.length := by
  rw [cont, List.length_append, g.len_pre]

theorem pages (g : Good ps pre cp) (h0 : 0 < ps) :
    StackSpec.pagesFor ps (pre.length * ps + cp.length) = pre.length + 1 := by
  unfold StackSpec.pagesFor
  by_cases hc : cp = []
  · have := g.ne hc; subst hc; subst this
    simp
    have : (ps - 1) / ps = 0 := Nat.div_eq_of_lt (by omega)
    omega
  · have h1 : 0 < cp.length := List.length_pos_iff.2 hc
    have h2 := g.le
    have : (pre.length * ps + cp.length + ps - 1) / ps = pre.length + 1 := by
      have e : pre.length * ps + cp.length + ps - 1 = (cp.length - 1) + ps * (pre.length + 1) := by
        rw [Nat.mul_add, Nat.mul_comm]; omega
      rw [e, Nat.add_mul_div_left _ _ h0, Nat.div_eq_of_lt (by omega)]; omega
    omega

theorem topPage (g : Good ps pre cp) (h0 : 0 < ps) :
    StackSpec.onTopPage ps (pre.length * ps + cp.length) = cp.length := by
  unfold StackSpec.onTopPage; rw [g.pages h0]; simp

theorem full_iff (g : Good ps pre cp) (h0 : 0 < ps) (k : Nat) :
    pre.length * ps + cp.length = (pre.length + 1 + k) * ps ↔ (cp.length = ps ∧ k = 0) := by
  have := g.le
  rw [Nat.add_mul, Nat.add_mul]
  rcases Nat.eq_zero_or_pos k with rfl | hk
  · simp
  · have : ps ≤ k * ps := Nat.le_mul_of_pos_left _ hk
    omega

end Good

/-! ### Positions

In a well-formed stack the element at index `i` (counted from the bottom) lives on page
`i / ps` at offset `i % ps`. -/

theorem elem_at {ps : Nat} (h0 : 0 < ps) : ∀ (pre : List (List α)) (cp : List α)
    (rest : List (List α)), (∀ p ∈ pre, p.length = ps) → cp.length ≤ ps → ∀ i x,
    (cont pre cp)[i]? = some x →
    ∃ p, (pre ++ cp :: rest)[i / ps]? = some p ∧ p[i % ps]? = some x ∧ i / ps ≤ pre.length
      ∧ (i / ps < pre.length → p.length = ps) ∧ (i / ps = pre.length → p = cp)
  | [], cp, rest, _, hc, i, x, h => by
    have hi : i < cp.length := by
      simp [cont] at h; exact (List.getElem?_eq_some_iff.1 h).1
    have hd : i / ps = 0 := Nat.div_eq_of_lt (by omega)
    have hm : i % ps = i := Nat.mod_eq_of_lt (by omega)
    exact ⟨cp, by simp [hd], by simpa [hm, cont] using h, by simp [hd], by simp, by simp⟩
  | q :: pre, cp, rest, hf, hc, i, x, h => by
    have hq : q.length = ps := hf q (by simp)
    by_cases hi : i < ps
    · have hd : i / ps = 0 := Nat.div_eq_of_lt hi
      have hm : i % ps = i := Nat.mod_eq_of_lt hi
      refine ⟨q, by simp [hd], ?_, by simp [hd], by simp [hq], by simp [hd]⟩
      rw [hm]
      rw [cont, List.flatten_cons, List.append_assoc, List.getElem?_append_left (by omega)] at h
      exact h
    · have hd : i / ps = (i - ps) / ps + 1 := by
        conv => lhs; rw [show i = (i - ps) + ps by omega]
        exact Nat.add_div_right _ h0
      have hm : i % ps = (i - ps) % ps := by
        conv => lhs; rw [show i = (i - ps) + ps by omega]
        exact Nat.add_mod_right _ _
      rw [cont, List.flatten_cons, List.append_assoc, List.getElem?_append_right (by omega), hq] at h
      obtain ⟨p, h1, h2, h3, h4, h5⟩ := elem_at h0 pre cp rest
        (fun p hp => hf p (by simp [hp])) hc (i - ps) x h
      refine ⟨p, by simpa [hd] using h1, by simpa [hm] using h2, by simp [hd]; omega, ?_, ?_⟩
      · intro h; exact h4 (by simp [hd] at h; omega)
      · intro h; exact h5 (by simp [hd] at h; omega)

/-- position of index `i` -/
def pos (ps : Nat) (i bound : Nat) : Iter := { page := i / ps, off := ((i % ps : Nat) : Int), bound := bound }

theorem deref_mk (s : PS α) (pg : Nat) (off : Int) (b : Nat) :
    Iter.deref s ⟨pg, off, b⟩ = (s.page pg >>= fun p =>
      if off < 0 then .error (.ub .derefData)
      else match p[off.toNat]? with
        | some x => .ok x
        | none   => .error (.ub .derefData)) := rfl

theorem fwdInc_mk (s : PS α) (pg : Nat) (off : Int) (b : Nat) :
    fwdInc s ⟨pg, off, b⟩ = (s.page pg >>= fun _ =>
      if off = 0 ∧ pg ≠ b then
        if pg = 0 then .error (.ub .decListBegin)
        else s.page (pg - 1) >>= fun q => ptrDec q.length >>= fun o => .ok ⟨pg - 1, o, b⟩
      else ptrDec off >>= fun o => .ok ⟨pg, o, b⟩) := rfl

theorem fwdDec_mk (s : PS α) (pg : Nat) (off : Int) (b : Nat) :
    fwdDec s ⟨pg, off, b⟩ = (s.page pg >>= fun p => ptrInc p off >>= fun o =>
      if o = p.length then s.page (pg + 1) >>= fun _ => .ok ⟨pg + 1, 0, b⟩
      else .ok ⟨pg, o, b⟩) := rfl

theorem revInc_mk (s : PS α) (pg : Nat) (off : Int) (b : Nat) :
    revInc s ⟨pg, off, b⟩ = (s.page pg >>= fun p => ptrInc p off >>= fun o =>
      if o = p.length ∧ pg ≠ b then s.page (pg + 1) >>= fun _ => .ok ⟨pg + 1, 0, b⟩
      else .ok ⟨pg, o, b⟩) := rfl

theorem revDec_mk (s : PS α) (pg : Nat) (off : Int) (b : Nat) :
    revDec s ⟨pg, off, b⟩ = (s.page pg >>= fun _ =>
      if off = 0 then
        if pg = 0 then .error (.ub .decListBegin)
        else s.page (pg - 1) >>= fun q => ptrDec q.length >>= fun o => .ok ⟨pg - 1, o, b⟩
      else ptrDec off >>= fun o => .ok ⟨pg, o, b⟩) := rfl

theorem succ_cross {ps i : Nat} (h0 : 0 < ps) (hm : (i + 1) % ps = 0) :
    (i + 1) / ps = i / ps + 1 ∧ i % ps = ps - 1 := by
  obtain ⟨c, hc⟩ := Nat.dvd_of_mod_eq_zero hm
  obtain ⟨c, rfl⟩ : ∃ c', c = c' + 1 := by
    cases c with
    | zero => simp at hc
    | succ c => exact ⟨c, rfl⟩
  have e1 : (i + 1) / ps = c + 1 := by rw [hc]; exact Nat.mul_div_cancel_left _ h0
  have ei : i = ps * c + (ps - 1) := by
    rw [Nat.mul_add] at hc; omega
  have e2 : i / ps = c := by
    rw [ei, Nat.mul_add_div h0, Nat.div_eq_of_lt (by omega)]; omega
  refine ⟨by omega, ?_⟩
  rw [ei, Nat.mul_add_mod]; exact Nat.mod_eq_of_lt (by omega)

theorem succ_stay {ps i : Nat} (h0 : 0 < ps) (hm : ¬ (i + 1) % ps = 0) :
    (i + 1) / ps = i / ps ∧ (i + 1) % ps = i % ps + 1 := by
  have hi := Nat.mod_lt i h0
  have a := Nat.div_add_mod i ps
  by_cases h2 : i % ps + 1 = ps
  · exfalso; apply hm
    have : i + 1 = ps * (i / ps + 1) := by rw [Nat.mul_add]; omega
    rw [this]; exact Nat.mul_mod_right _ _
  · have e : i + 1 = ps * (i / ps) + (i % ps + 1) := by omega
    constructor
    · conv => lhs; rw [e]
      rw [Nat.mul_add_div h0, Nat.div_eq_of_lt (a := i % ps + 1) (by omega), Nat.add_zero]
    · conv => lhs; rw [e]
      rw [Nat.mul_add_mod]; exact Nat.mod_eq_of_lt (by omega)

section iters
variable {ps al : Nat} {pre : List (List α)} {cp : List α} {rest : List (List α)}
  {sc : Int} {sr : Bool}

theorem deref_pos (g : Good ps pre cp) (h0 : 0 < ps) (i b : Nat) (x : α)
    (h : (cont pre cp)[i]? = some x) :
    (pos ps i b).deref (mkS ps al pre cp rest sc sr) = .ok x := by
  obtain ⟨p, h1, h2, -⟩ := elem_at h0 pre cp rest g.full g.le i x h
  have hp : (mkS ps al pre cp rest sc sr).page (i / ps) = .ok p := by simp [PS.page, h1]
  rw [pos, deref_mk, hp, bind_ok]
  rw [if_neg (by omega), Int.toNat_natCast, h2]

theorem page_pos (g : Good ps pre cp) (h0 : 0 < ps) (i : Nat)
    (h : i < (cont pre cp).length) :
    ∃ p, (mkS ps al pre cp rest sc sr).page (i / ps) = .ok p ∧ i % ps < p.length ∧ i / ps ≤ pre.length
      ∧ (i / ps < pre.length → p.length = ps) ∧ (i / ps = pre.length → p = cp) := by
  obtain ⟨p, h1, h2, h3, h4, h5⟩ := elem_at h0 pre cp rest g.full g.le i _
    (List.getElem?_eq_getElem h)
  refine ⟨p, by simp [PS.page, h1], ?_, h3, h4, h5⟩
  exact (List.getElem?_eq_some_iff.1 h2).1

theorem last_pos (g : Good ps pre cp) (h0 : 0 < ps) (i : Nat)
    (h : i + 1 = (cont pre cp).length) : i / ps = pre.length ∧ i % ps + 1 = cp.length := by
  rw [g.len] at h
  have hne : cp ≠ [] := by
    rintro rfl; have := g.ne rfl; subst this; simp at h
  have := List.length_pos_iff.2 hne
  have := g.le
  have e : i = ps * pre.length + (cp.length - 1) := by rw [Nat.mul_comm]; omega
  rw [e, Nat.mul_add_div h0, Nat.mul_add_mod, Nat.div_eq_of_lt (by omega), Nat.mod_eq_of_lt (by omega)]
  omega

theorem fwdInc_succ (g : Good ps pre cp) (h0 : 0 < ps) (i : Nat)
    (h : i + 1 < (cont pre cp).length) :
    fwdInc (mkS ps al pre cp rest sc sr) (pos ps (i + 1) 0) = .ok (pos ps i 0) := by
  obtain ⟨p, h1, h2, h3, h4, h5⟩ := page_pos (al := al) (rest := rest) (sc := sc) (sr := sr) g h0 (i+1) h
  rw [pos, fwdInc_mk, h1, bind_ok, pos]
  by_cases hm : (i + 1) % ps = 0
  · obtain ⟨e1, e3⟩ := succ_cross h0 hm
    obtain ⟨q, q1, q2, q3, q4, q5⟩ := page_pos (al := al) (rest := rest) (sc := sc) (sr := sr) g h0 i (by omega)
    have hq : q.length = ps := q4 (by omega)
    have e4 : ((ps : Int) - 1) = ((i % ps : Nat) : Int) := by omega
    have e0 : (i + 1) / ps ≠ 0 := by rw [e1]; exact Nat.succ_ne_zero _
    rw [if_pos ⟨by simp [hm], e0⟩, if_neg e0, e1, Nat.add_sub_cancel, q1, bind_ok,
      ptrDec, hq, if_neg (by omega), bind_ok, e4]
  · obtain ⟨e1, e3⟩ := succ_stay h0 hm
    have e4 : (((i + 1) % ps : Nat) : Int) - 1 = ((i % ps : Nat) : Int) := by omega
    rw [if_neg (fun hh => hm (by exact_mod_cast hh.1)), ptrDec, if_neg (by omega), bind_ok, e1, e4]

theorem fwdDec_pos (g : Good ps pre cp) (h0 : 0 < ps) (i b : Nat)
    (h : i + 1 < (cont pre cp).length) :
    fwdDec (mkS ps al pre cp rest sc sr) (pos ps i b) = .ok (pos ps (i + 1) b) := by
  obtain ⟨p, h1, h2, h3, h4, h5⟩ := page_pos (al := al) (rest := rest) (sc := sc) (sr := sr) g h0 i (by omega)
  obtain ⟨q, q1, q2, q3, q4, q5⟩ := page_pos (al := al) (rest := rest) (sc := sc) (sr := sr) g h0 (i+1) h
  rw [pos, fwdDec_mk, h1, bind_ok, pos, ptrInc, if_pos (by omega), bind_ok]
  by_cases hm : (i + 1) % ps = 0
  · obtain ⟨e1, e3⟩ := succ_cross h0 hm
    have hp := h4 (by omega)
    rw [if_pos (by omega), ← e1, q1, bind_ok, hm]; rfl
  · obtain ⟨e1, e3⟩ := succ_stay h0 hm
    have hpq : p = q := by rw [e1] at q1; rw [q1] at h1; injection h1 with h1; exact h1.symm
    subst hpq
    rw [if_neg (by omega), e1, e3]; rfl

theorem revInc_pos (g : Good ps pre cp) (h0 : 0 < ps) (i b : Nat) (hb : pre.length ≤ b)
    (h : i + 1 < (cont pre cp).length) :
    revInc (mkS ps al pre cp rest sc sr) (pos ps i b) = .ok (pos ps (i + 1) b) := by
  obtain ⟨p, h1, h2, h3, h4, h5⟩ := page_pos (al := al) (rest := rest) (sc := sc) (sr := sr) g h0 i (by omega)
  obtain ⟨q, q1, q2, q3, q4, q5⟩ := page_pos (al := al) (rest := rest) (sc := sc) (sr := sr) g h0 (i+1) h
  rw [pos, revInc_mk, h1, bind_ok, pos, ptrInc, if_pos (by omega), bind_ok]
  by_cases hm : (i + 1) % ps = 0
  · obtain ⟨e1, e3⟩ := succ_cross h0 hm
    have hp := h4 (by omega)
    rw [if_pos ⟨by omega, by omega⟩, ← e1, q1, bind_ok, hm]; rfl
  · obtain ⟨e1, e3⟩ := succ_stay h0 hm
    have hpq : p = q := by rw [e1] at q1; rw [q1] at h1; injection h1 with h1; exact h1.symm
    subst hpq
    rw [if_neg (by omega), e1, e3]; rfl

/-- stepping from the last element: to the end of the current page when the bound is the
current page -/
theorem revInc_last (g : Good ps pre cp) (h0 : 0 < ps) (i : Nat)
    (h : i + 1 = (cont pre cp).length) :
    revInc (mkS ps al pre cp rest sc sr) (pos ps i pre.length)
      = .ok { page := pre.length, off := cp.length, bound := pre.length } := by
  obtain ⟨hp, hm⟩ := last_pos g h0 i h
  rw [pos, revInc_mk, hp, mkS_page, bind_ok, ptrInc, if_pos (by omega), bind_ok, if_neg (by simp)]
  congr 2; omega

theorem revDec_succ (g : Good ps pre cp) (h0 : 0 < ps) (i b : Nat)
    (h : i + 1 < (cont pre cp).length) :
    revDec (mkS ps al pre cp rest sc sr) (pos ps (i + 1) b) = .ok (pos ps i b) := by
  obtain ⟨p, h1, h2, h3, h4, h5⟩ := page_pos (al := al) (rest := rest) (sc := sc) (sr := sr) g h0 (i+1) h
  rw [pos, revDec_mk, h1, bind_ok, pos]
  by_cases hm : (i + 1) % ps = 0
  · obtain ⟨e1, e3⟩ := succ_cross h0 hm
    obtain ⟨q, q1, q2, q3, q4, q5⟩ := page_pos (al := al) (rest := rest) (sc := sc) (sr := sr) g h0 i (by omega)
    have hq : q.length = ps := q4 (by omega)
    have e4 : ((ps : Int) - 1) = ((i % ps : Nat) : Int) := by omega
    have e0 : (i + 1) / ps ≠ 0 := by rw [e1]; exact Nat.succ_ne_zero _
    rw [if_pos (by simp [hm]), if_neg e0, e1, Nat.add_sub_cancel, q1, bind_ok,
      ptrDec, hq, if_neg (by omega), bind_ok, e4]
  · obtain ⟨e1, e3⟩ := succ_stay h0 hm
    have e4 : (((i + 1) % ps : Nat) : Int) - 1 = ((i % ps : Nat) : Int) := by omega
    rw [if_neg (fun hh => hm (by exact_mod_cast hh)), ptrDec, if_neg (by omega), bind_ok, e1, e4]

theorem fwdInc_zero : fwdInc (mkS ps al pre cp rest sc sr) (pos ps 0 0)
    = .ok { page := 0, off := -1, bound := 0 } := by
  have : ∃ p, (mkS ps al pre cp rest sc sr).page 0 = .ok p := by
    cases pre <;> simp [PS.page]
  obtain ⟨p, hp⟩ := this
  simp [fwdInc, pos, hp, ptrDec]

end iters
end Falcon.PagedStack
