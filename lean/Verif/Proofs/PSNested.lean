import Verif.Spec.PSNested
import Verif.Proofs.PSMore
/-
Helper lemmas for the calls made by elements.
-/
namespace Falcon.PSNested
open Falcon.PagedStack

variable {V : Type}

/-- Busy places and the height at which the innermost element operation started. -/
structure Books (ps : Nat) (at? : Option Nat) (busy : List Slot) (pages : Nat) : Prop where
  out  : at? = none → busy = []
  mine : ∀ b, at? = some b → (b / ps, b % ps) ∈ busy
  all  : ∀ b, at? = some b → ∀ x ∈ busy, x.2 < ps ∧ b ≤ x.1 * ps + x.2 ∧ x.1 < pages

/-- The stack between two calls, inside any number of element operations. -/
structure Mid (ps al : Nat) (at? : Option Nat) (busy : List Slot) (s : PS V) (l : List V)
    (pre : List (List V)) (cp : List V) (k n : Nat) (sr : Bool) : Prop where
  st   : s = mkS ps al pre cp (List.replicate k []) n sr
  full : ∀ p ∈ pre, p.length = ps
  le   : cp.length ≤ ps
  ne   : cp = [] → pre = [] ∨ at? = some l.length
  con  : l = (cont pre cp).reverse
  low  : ∀ b, at? = some b → l.length ≤ b
  edge : ∀ b, at? = some b → b % ps = 0 → l.length = b ∧ cp = []
  bk   : Books ps at? busy s.base.length

def Rel (ps al : Nat) (at? : Option Nat) (busy : List Slot) (s : PS V) (l : List V) : Prop :=
  ∃ pre cp k n sr, Mid ps al at? busy s l pre cp k n sr

section
variable {ps al : Nat} {at? : Option Nat} {busy : List Slot} {s : PS V} {l : List V}
  {pre : List (List V)} {cp : List V} {k n : Nat} {sr : Bool}

theorem flat_len (h : ∀ p ∈ pre, p.length = ps) : pre.flatten.length = pre.length * ps := by
  induction pre with
  | nil => simp
  | cons p pre ih =>
    simp [h p (by simp), ih (fun q hq => h q (by simp [hq])), Nat.add_mul]
    omega

theorem Mid.len (m : Mid ps al at? busy s l pre cp k n sr) : l.length = pre.length * ps + cp.length := by
  rw [m.con]; simp [cont, flat_len m.full, Nat.add_comm]

theorem div_of (h0 : 0 < ps) {a b c : Nat} (e : c = a * ps + b) (hb : b < ps) : c / ps = a ∧ c % ps = b := by
  subst e
  constructor
  · rw [Nat.mul_comm, Nat.mul_add_div h0, Nat.div_eq_of_lt hb]; simp
  · rw [Nat.mul_comm, Nat.mul_add_mod, Nat.mod_eq_of_lt hb]

/-- not at the edge of an element operation: an ordinary stack -/
theorem Mid.good (m : Mid ps al at? busy s l pre cp k n sr) (h : ¬ (at? = some l.length ∧ l.length % ps = 0)) :
    Good ps pre cp := by
  refine ⟨m.full, m.le, fun e => ?_⟩
  rcases m.ne e with h' | h'
  · exact h'
  · exfalso
    refine h ⟨h', ?_⟩
    rw [m.len, e]; simp

/-- where the next element goes when the page has room -/
theorem Mid.slot (h0 : 0 < ps) (m : Mid ps al at? busy s l pre cp k n sr) (h : cp.length ≠ ps) :
    (pre.length, cp.length) = (l.length / ps, l.length % ps) := by
  have := div_of h0 m.len (by have := m.le; omega)
  rw [this.1, this.2]

theorem slot_eq (b : Nat) : b / ps * ps + b % ps = b := by
  rw [Nat.mul_comm]; exact Nat.div_add_mod b ps

theorem Books.busy_iff {pages : Nat} (bk : Books ps at? busy pages) {h : Nat}
    (low : ∀ b, at? = some b → h ≤ b) : (h / ps, h % ps) ∈ busy ↔ at? = some h := by
  constructor
  · intro hm
    cases e : at? with
    | none => rw [bk.out e] at hm; cases hm
    | some b =>
      have h1 := (bk.all b e _ hm).2.1
      have h2 := low b e
      rw [slot_eq] at h1
      congr 1; omega
  · intro e; exact bk.mine h e

theorem Books.push (h0 : 0 < ps) {pages pages' : Nat} (bk : Books ps at? busy pages) {h : Nat}
    (low : ∀ b, at? = some b → h ≤ b) (hp : h / ps < pages') (hle : pages ≤ pages') :
    Books ps (some h) ((h / ps, h % ps) :: busy) pages' := by
  refine ⟨by simp, fun b e => by cases e; simp, fun b e x hx => ?_⟩
  cases e
  rcases List.mem_cons.1 hx with rfl | hx
  · exact ⟨Nat.mod_lt _ h0, by rw [slot_eq]; exact Nat.le_refl _, hp⟩
  · cases e : at? with
    | none => rw [bk.out e] at hx; cases hx
    | some b =>
      obtain ⟨a1, a2, a3⟩ := bk.all b e x hx
      have := low b e
      exact ⟨a1, by omega, by omega⟩

/-- back in the enclosing operation -/
theorem Books.back {pages pages' : Nat} (bk : Books ps at? busy pages) {h : Nat} {x : Slot}
    (bk' : Books ps (some h) (x :: busy) pages') : Books ps at? busy pages' :=
  ⟨bk.out, bk.mine, fun b e y hy => ⟨(bk.all b e y hy).1, (bk.all b e y hy).2.1, (bk'.all h rfl y (by simp [hy])).2.2⟩⟩

/-- `advance()` on an ordinary stack finds the place for the next element -/
theorem Mid.advance (h0 : 0 < ps) (ha : 0 < al) (m : Mid ps al at? busy s l pre cp k n sr)
    (h : at? ≠ some l.length) :
    ∃ s' pre' cp' k', advance s = .ok s' ∧
      Mid ps al (some l.length) ((l.length / ps, l.length % ps) :: busy) s' l pre' cp' k' n sr ∧
      pre'.length = l.length / ps ∧ cp'.length = l.length % ps := by
  have g := m.good (fun e => h e.1)
  have hl := m.len
  by_cases hf : cp.length = ps
  · have hlen : l.length = (pre ++ [cp]).length * ps + 0 := by
      rw [hl, hf]; simp [Nat.add_mul]
    have hdm := div_of h0 hlen h0
    have hdiv : (pre ++ [cp]).length = l.length / ps := hdm.1.symm
    have hmod : ([] : List V).length = l.length % ps := by simp [hdm.2]
    have key : ∀ k', ∀ s', s' = mkS ps al (pre ++ [cp]) [] (List.replicate k' []) (n : Int) sr →
        s.base.length ≤ s'.base.length → Mid ps al (some l.length) ((l.length / ps, l.length % ps) :: busy) s' l
          (pre ++ [cp]) [] k' n sr := by
      intro k' s' e hb
      refine ⟨e, ?_, by simp, fun _ => .inr rfl, ?_, fun b e => by cases e; exact Nat.le_refl _,
        fun b e _ => by cases e; exact ⟨rfl, rfl⟩, ?_⟩
      · intro p hp
        rcases List.mem_append.1 hp with hp | hp
        · exact m.full p hp
        · simp at hp; rw [hp]; exact hf
      · rw [m.con]; simp [cont]
      · refine m.bk.push h0 m.low ?_ hb
        rw [e, ← hdiv]; simp
    have hst := m.st
    rcases k with _ | k
    · obtain ⟨a, rfl⟩ : ∃ a, al = a + 1 := ⟨al - 1, by omega⟩
      refine ⟨mkS ps (a + 1) (pre ++ [cp]) [] (List.replicate a []) n sr, pre ++ [cp], [], a, ?_,
        key a _ rfl (by rw [hst]; simp), hdiv, hmod⟩
      rw [hst]
      simp only [PagedStack.advance, mkS_cur, mkS_page, bind_ok, mkS_ps, hf, if_true]
      simp [growBase, mkS, List.replicate_succ]
    · refine ⟨mkS ps al (pre ++ [cp]) [] (List.replicate k []) n sr, pre ++ [cp], [], k, ?_,
        key k _ rfl (by rw [hst]; simp), hdiv, hmod⟩
      rw [hst]
      simp only [PagedStack.advance, mkS_cur, mkS_page, bind_ok, mkS_ps, hf, if_true]
      simp [mkS, List.replicate_succ]
  · have hs := m.slot h0 hf
    simp only [Prod.mk.injEq] at hs
    refine ⟨s, pre, cp, k, ?_, ⟨m.st, m.full, m.le, fun _ => .inr rfl, m.con,
      fun b e => by cases e; exact Nat.le_refl _, ?_, ?_⟩, hs.1, hs.2⟩
    · rw [m.st]; simp [PagedStack.advance, hf]
    · intro b e hb; cases e
      refine ⟨rfl, List.length_eq_zero_iff.1 ?_⟩
      rw [hs.2]; exact hb
    · refine m.bk.push h0 m.low ?_ (Nat.le_refl _)
      rw [← hs.1, m.st]; simp

/-- `advance()` at the height at which the element operation started: the place is busy -/
theorem Mid.advance_busy (h0 : 0 < ps) (m : Mid ps al at? busy s l pre cp k n sr)
    (h : at? = some l.length) : PagedStack.advance s = .ok s ∧ (pre.length, cp.length) ∈ busy := by
  have hf : cp.length ≠ ps := by
    intro e
    have hz : l.length % ps = 0 := by rw [m.len, e]; simp
    have := (m.edge _ h hz).2
    rw [this] at e; simp at e; omega
  refine ⟨by rw [m.st]; simp [PagedStack.advance, hf], ?_⟩
  rw [m.slot h0 hf]
  exact m.bk.mine _ h

end

theorem Mid.size {ps al : Nat} {at? : Option Nat} {busy : List Slot} {s : PS V} {l : List V}
    {pre : List (List V)} {cp : List V} {k n : Nat} {sr : Bool} (m : Mid ps al at? busy s l pre cp k n sr) :
    PagedStack.size s = .ok l.length := by
  have e : (pre.map List.length).sum = pre.length * ps := by
    rw [← List.length_flatten]; exact flat_len m.full
  rw [m.st, m.len]
  simp [PagedStack.size, e]

theorem Mid.isEmpty {ps al : Nat} {at? : Option Nat} {busy : List Slot} {s : PS V} {l : List V}
    {pre : List (List V)} {cp : List V} {k n : Nat} {sr : Bool} (h0 : 0 < ps)
    (m : Mid ps al at? busy s l pre cp k n sr) : PagedStack.isEmpty s = .ok l.isEmpty := by
  have hl := m.len
  rw [m.st]
  cases pre with
  | nil =>
    cases cp with
    | nil => rw [m.con]; simp [PagedStack.isEmpty, PS.page, mkS, cont]
    | cons c cp =>
      cases l with
      | nil => simp at hl
      | cons x xs => simp [PagedStack.isEmpty, PS.page, mkS]
  | cons p pre =>
    cases l with
    | nil => simp [Nat.add_mul] at hl; omega
    | cons x xs => simp [PagedStack.isEmpty, PS.page, mkS]

/-- the top of an ordinary stack -/
theorem Mid.cp_ne {ps al : Nat} {at? : Option Nat} {busy : List Slot} {s : PS V} {x : V} {l : List V}
    {pre : List (List V)} {cp : List V} {k n : Nat} {sr : Bool} (m : Mid ps al at? busy s (x :: l) pre cp k n sr)
    (h : ¬ (at? = some (x :: l).length ∧ (x :: l).length % ps = 0)) :
    ∃ cp', cp = cp' ++ [x] ∧ l = (cont pre cp').reverse := by
  have g := m.good h
  rcases nil_or_snoc cp with e | ⟨cp', y, e⟩
  · have := g.ne e
    have hc := m.con
    rw [e, this] at hc; simp [cont] at hc
  · have hc := m.con
    rw [e] at hc
    simp [cont] at hc
    exact ⟨cp', by rw [e, hc.1], by rw [hc.2]; simp [cont]⟩

theorem top_spec {ps al : Nat} {at? : Option Nat} {busy : List Slot} {s : PS V} {l : List V}
    {pre : List (List V)} {cp : List V} {k n : Nat} {sr : Bool} (m : Mid ps al at? busy s l pre cp k n sr) :
    PagedStack.top s = (match cp.getLast? with | some x => .ok x | none => .error (.ub .emptyBack)) := by
  rw [m.st]; exact top_mk

/-- at the edge, or on an empty stack, the current page holds nothing -/
theorem Mid.cp_nil {ps al : Nat} {at? : Option Nat} {busy : List Slot} {s : PS V} {l : List V}
    {pre : List (List V)} {cp : List V} {k n : Nat} {sr : Bool} (m : Mid ps al at? busy s l pre cp k n sr)
    (h : (at? = some l.length ∧ l.length % ps = 0) ∨ l = []) : cp = [] := by
  rcases h with ⟨h1, h2⟩ | h
  · exact (m.edge _ h1 h2).2
  · have := m.len
    rw [h] at this
    exact List.length_eq_zero_iff.1 (by simp at this; omega)

/-- the state in which the destructor runs -/
theorem Mid.unpop {ps al : Nat} {at? : Option Nat} {busy : List Slot} {s : PS V} {x : V} {l : List V}
    {pre : List (List V)} {cp : List V} {k n : Nat} {sr : Bool} (h0 : 0 < ps)
    (m : Mid ps al at? busy s (x :: l) pre (cp ++ [x]) k n sr) (hc : l = (cont pre cp).reverse) :
    (pre.length, cp.length) = (l.length / ps, l.length % ps) ∧
    Mid ps al (some l.length) ((l.length / ps, l.length % ps) :: busy) (s.setPage s.cur cp) l pre cp k n sr := by
  have hle := m.le
  simp at hle
  have hl : l.length = pre.length * ps + cp.length := by rw [hc]; simp [cont, flat_len m.full, Nat.add_comm]
  have hd := div_of h0 hl (by omega)
  refine ⟨by rw [hd.1, hd.2], ?_, m.full, by omega, fun _ => .inr rfl, hc, fun b e => by cases e; exact Nat.le_refl _, ?_, ?_⟩
  · rw [m.st]; simp
  · intro b e hb; cases e
    exact ⟨rfl, List.length_eq_zero_iff.1 (by omega)⟩
  · refine m.bk.push h0 (fun b e => by have := m.low b e; simp at this; omega) ?_ ?_
    · rw [hd.1, m.st]; simp [PS.setPage]
    · simp [PS.setPage]

/-- after the destructor: the step back completes the pop -/
theorem after_pop {ps al : Nat} {at? : Option Nat} {busy : List Slot} {s t : PS V} {x : V} {l l' : List V}
    {h : Nat} {sl : Slot} (h0 : 0 < ps) (m : Rel ps al at? busy s (x :: l)) 
    (hne : ¬ (at? = some (x :: l).length ∧ (x :: l).length % ps = 0))
    (r : Rel ps al (some h) (sl :: busy) t l') (hh : h = l.length) :
    ∃ q, t.page t.cur = .ok q ∧
      Rel ps al at? busy (if q = [] ∧ t.cur ≠ 0 then { t with cur := t.cur - 1 } else t) l' := by
  obtain ⟨pre0, cp0, k0, n0, sr0, m0⟩ := m
  obtain ⟨pre, cp, k, n, sr, m⟩ := r
  have hlow : l'.length ≤ l.length := by have := m.low h rfl; omega
  have low : ∀ b, at? = some b → l'.length ≤ b := fun b e => by
    have := m0.low b e; simp at this; omega
  have edge : ∀ b, at? = some b → b % ps = 0 → False := fun b e hb => by
    have := (m0.edge b e hb).1
    exact hne ⟨by rw [e, this], by rw [this]; exact hb⟩
  refine ⟨cp, by rw [m.st]; simp, ?_⟩
  by_cases hc : cp = [] ∧ t.cur ≠ 0
  · rw [if_pos hc]
    obtain ⟨hc1, hc2⟩ := hc
    have hpre : pre ≠ [] := by
      intro e; rw [m.st, e] at hc2; simp [mkS] at hc2
    rcases nil_or_snoc pre with e | ⟨pre', q, e⟩
    · exact absurd e hpre
    · refine ⟨pre', q, k + 1, n, sr, ?_, fun p hp => m.full p (by rw [e]; simp [hp]), ?_, ?_, ?_, low,
        fun b e hb => (edge b e hb).elim, ?_⟩
      · rw [m.st, e, hc1]; simp [mkS, List.replicate_succ]
      · rw [m.full q (by rw [e]; simp)]; exact Nat.le_refl _
      · intro hq
        have := m.full q (by rw [e]; simp)
        rw [hq] at this; simp at this; omega
      · rw [m.con, e, hc1]; simp [cont]
      · exact m0.bk.back m.bk
  · rw [if_neg hc]
    refine ⟨pre, cp, k, n, sr, m.st, m.full, m.le, fun e => ?_, m.con, low, fun b e hb => (edge b e hb).elim, m0.bk.back m.bk⟩
    left
    apply Classical.byContradiction
    intro hp
    refine hc ⟨e, ?_⟩
    rw [m.st]; simp [mkS]; exact hp

/-- after the copy constructor -/
theorem after_push {ps al : Nat} {at? : Option Nat} {busy : List Slot} {s t : PS V} {l l' : List V}
    {h : Nat} {sl : Slot} (h0 : 0 < ps) (m : Rel ps al at? busy s l) (hne : at? ≠ some l.length)
    (r : Rel ps al (some h) (sl :: busy) t l') (hh : h = l.length) (hsl : sl = (h / ps, h % ps)) (v : V) :
    ∃ q, t.page sl.1 = .ok q ∧ (q.length = sl.2 ↔ l'.length = l.length) ∧
      (l'.length = l.length → Rel ps al at? busy (t.setPage sl.1 (q ++ [v])) (v :: l')) := by
  obtain ⟨pre0, cp0, k0, n0, sr0, m0⟩ := m
  obtain ⟨pre, cp, k, n, sr, m⟩ := r
  subst hh
  have hlow : l'.length ≤ l.length := m.low _ rfl
  have hl := m.len
  by_cases he : l'.length = l.length
  · have hcp : cp.length ≠ ps := by
      intro e
      have hz : l.length % ps = 0 := by rw [← he, hl, e]; simp
      have := (m.edge _ rfl hz).2
      rw [this] at e; simp at e; omega
    have hs := m.slot h0 hcp
    rw [he] at hs
    have hs1 : sl.1 = pre.length := by rw [hsl, ← hs]
    have hs2 : sl.2 = cp.length := by rw [hsl, ← hs]
    refine ⟨cp, by rw [hs1, m.st]; simp, by simp [hs2, he], fun _ => ?_⟩
    refine ⟨pre, cp ++ [v], k, n, sr, by rw [hs1, m.st]; simp, m.full, by have := m.le; simp; omega,
      by simp, by rw [m.con]; simp [cont], ?_, ?_, ?_⟩
    · intro b e
      have := m0.low b e
      have : b ≠ l.length := fun e' => hne (by rw [e, e'])
      simp; omega
    · intro b e hb
      have := (m0.edge b e hb).1
      exact absurd (by rw [e, this]) hne
    · have := m0.bk.back m.bk
      simpa [PS.setPage] using this
  · have hlt : l'.length < l.length := by omega
    have hnz : l.length % ps ≠ 0 := fun hz => he (m.edge _ rfl hz).1
    have hpg : sl.1 < t.base.length := (m.bk.all _ rfl sl (by simp)).2.2
    have hge : pre.length ≤ sl.1 := by
      rw [hsl]; dsimp only
      rw [Nat.le_div_iff_mul_le h0]; omega
    have hlq : t.base.length = pre.length + 1 + k := by rw [m.st]; simp; omega
    by_cases heq : sl.1 = pre.length
    · refine ⟨cp, by rw [heq, m.st]; simp, ?_, fun e => absurd e he⟩
      have hsum := slot_eq (ps := ps) l.length
      have h1 : l.length / ps = pre.length := by rw [← heq, hsl]
      rw [h1] at hsum
      have h2 : sl.2 = l.length % ps := by rw [hsl]
      constructor
      · intro e; exfalso; rw [h2] at e; omega
      · intro e; exact absurd e he
    · refine ⟨[], ?_, ?_, fun e => absurd e he⟩
      · rw [m.st]
        simp only [PS.page, mkS_base]
        rw [List.getElem?_append_right (by omega)]
        obtain ⟨j, hj⟩ : ∃ j, sl.1 - pre.length = j + 1 := ⟨sl.1 - pre.length - 1, by omega⟩
        rw [hj, List.getElem?_cons_succ, List.getElem?_replicate, if_pos (by omega)]
      · rw [hsl]
        constructor
        · intro e; exact absurd e.symm hnz
        · intro e; exact absurd e he

@[simp] theorem enter_off (busy : List Slot) : enter false busy = .ok () := by simp [enter]
@[simp] theorem plain_ok {β : Type} (x : β) : plain (.ok x) = .ok x := rfl
@[simp] theorem plain_error {β : Type} (f : Fault) : plain (.error f : Res β) = .error (.plain f) := rfl
@[simp] theorem bok {β γ : Type} (x : β) (f : β → Except Bad γ) : ((Except.ok x : Except Bad β) >>= f) = f x := rfl
@[simp] theorem berr {β γ : Type} (e : Bad) (f : β → Except Bad γ) :
    ((Except.error e : Except Bad β) >>= f) = .error e := rfl

/-- what a call does, against what the rules say -/
def Matches (ps al : Nat) (at? : Option Nat) (busy : List Slot) (r : Except Bad (PS V × List (Out V))) :
    Option (List V × List (Out V)) → Prop
  | none         => ∃ e, r = .error e
  | some (l, os) => ∃ s, r = .ok (s, os) ∧ Rel ps al at? busy s l

theorem permitted_pop (ps : Nat) (at? : Option Nat) (l : List V) (during : List (Call V)) :
    permitted ps at? l (.pop during) = if at? = some l.length ∧ l.length % ps = 0 then none
      else match l with
        | []     => none
        | _ :: l => permits ps (some l.length) l during := by
  rw [permitted.eq_def]; cases l <;> rfl

theorem permitted_top (ps : Nat) (at? : Option Nat) (l : List V) :
    permitted ps at? l .top = if at? = some l.length ∧ l.length % ps = 0 then none
      else match l with
        | []     => none
        | v :: _ => some (l, [.top v]) := by
  rw [permitted.eq_def]; cases l <;> rfl

mutual
theorem call_matches {ps al : Nat} (h0 : 0 < ps) (ha : 0 < al) (c : Call V) (at? : Option Nat) (busy : List Slot)
    (s : PS V) (l : List V) (r : Rel ps al at? busy s l) :
    Matches ps al at? busy (call false busy s c) (permitted ps at? l c) := by
  have r0 := r
  obtain ⟨pre, cp, k, n, sr, m⟩ := r
  match c with
  | .push v during =>
    rw [permitted, call]
    simp only [enter_off, bok]
    by_cases hb : at? = some l.length
    · rw [if_pos hb]
      obtain ⟨e1, e2⟩ := m.advance_busy h0 hb
      refine ⟨.overlap, ?_⟩
      have hcur : s.cur = pre.length := by rw [m.st]; simp
      have hp : s.page pre.length = .ok cp := by rw [m.st]; simp
      simp only [e1, plain_ok, bok, hp, hcur, e2, if_true]
    · rw [if_neg hb]
      obtain ⟨s1, pre1, cp1, k1, e1, m1, l1, l2⟩ := m.advance h0 ha hb
      have hp : s1.page (l.length / ps) = .ok cp1 := by rw [← l1, m1.st]; simp
      have hcur : s1.cur = l.length / ps := by rw [m1.st]; simp [l1]
      simp only [e1, plain_ok, bok, hp, l2, hcur]
      have hnb : (l.length / ps, l.length % ps) ∉ busy := fun hm => hb ((m.bk.busy_iff m.low).1 hm)
      rw [if_neg hnb]
      have ih := calls_matches h0 ha during (some l.length) ((l.length / ps, l.length % ps) :: busy) s1 l
        ⟨pre1, cp1, k1, n, sr, m1⟩
      cases hq : permits ps (some l.length) l during with
      | none =>
        rw [hq] at ih
        obtain ⟨e, he⟩ := ih
        exact ⟨e, by rw [he]; rfl⟩
      | some res =>
        obtain ⟨l', os⟩ := res
        rw [hq] at ih
        obtain ⟨t, he, rt⟩ := ih
        obtain ⟨q, eq, hiff, hrel⟩ := after_push h0 r0 hb rt rfl rfl v
        simp only at eq hiff hrel ⊢
        rw [he]
        simp only [bok, eq, plain_ok]
        by_cases hh : l'.length = l.length
        · rw [if_pos hh, if_pos (hiff.2 hh)]
          exact ⟨_, rfl, hrel hh⟩
        · rw [if_neg hh, if_neg (fun e => hh (hiff.1 e))]
          exact ⟨.hole, rfl⟩
  | .pop during =>
    have hp : s.page s.cur = .ok cp := by rw [m.st]; simp
    rw [permitted_pop, call]
    simp only [enter_off, bok, hp, plain_ok]
    by_cases hb : at? = some l.length ∧ l.length % ps = 0
    · rw [if_pos hb, if_pos (m.cp_nil (.inl hb))]
      exact ⟨_, rfl⟩
    · rw [if_neg hb]
      cases l with
      | nil =>
        rw [if_pos (m.cp_nil (.inr rfl))]
        exact ⟨_, rfl⟩
      | cons x l =>
        obtain ⟨cp', rfl, hc⟩ := m.cp_ne hb
        rw [if_neg (by simp)]
        obtain ⟨hs, m1⟩ := m.unpop h0 hc
        have hcur : s.cur = l.length / ps := by
          rw [m.st]; simp only [mkS_cur]; exact congrArg Prod.fst hs
        have hlen : (cp' ++ [x]).length - 1 = l.length % ps := by
          simp; exact congrArg Prod.snd hs
        rw [hlen, List.dropLast_concat]
        have ih := calls_matches h0 ha during (some l.length) ((l.length / ps, l.length % ps) :: busy)
          (s.setPage s.cur cp') l ⟨pre, cp', k, n, sr, m1⟩
        rw [← hcur] at ih
        simp only
        cases hq : permits ps (some l.length) l during with
        | none =>
          rw [hq] at ih
          obtain ⟨e, he⟩ := ih
          exact ⟨e, by rw [he]; rfl⟩
        | some res =>
          obtain ⟨l', os⟩ := res
          rw [hq] at ih
          obtain ⟨t, he, rt⟩ := ih
          obtain ⟨q, eq, hrel⟩ := after_pop h0 r0 hb rt rfl
          rw [he]
          simp only [bok, eq, plain_ok]
          refine ⟨_, ?_, hrel⟩
          split <;> rfl
  | .top =>
    rw [permitted_top, call]
    simp only [enter_off, bok, top_spec m]
    by_cases hb : at? = some l.length ∧ l.length % ps = 0
    · rw [if_pos hb, m.cp_nil (.inl hb)]
      exact ⟨_, rfl⟩
    · rw [if_neg hb]
      cases l with
      | nil => rw [m.cp_nil (.inr rfl)]; exact ⟨_, rfl⟩
      | cons x l =>
        obtain ⟨cp', rfl, hc⟩ := m.cp_ne hb
        refine ⟨s, ?_, r0⟩
        simp
  | .empty =>
    rw [permitted, call]
    simp only [enter_off, bok, m.isEmpty h0, plain_ok]
    exact ⟨s, rfl, r0⟩
  | .size =>
    rw [permitted, call]
    simp only [enter_off, bok, m.size, plain_ok]
    exact ⟨s, rfl, r0⟩

theorem calls_matches {ps al : Nat} (h0 : 0 < ps) (ha : 0 < al) (cs : List (Call V)) (at? : Option Nat)
    (busy : List Slot) (s : PS V) (l : List V) (r : Rel ps al at? busy s l) :
    Matches ps al at? busy (calls false busy s cs) (permits ps at? l cs) := by
  match cs with
  | [] => rw [permits, calls]; exact ⟨s, rfl, r⟩
  | c :: cs =>
    rw [permits, calls]
    have h1 := call_matches h0 ha c at? busy s l r
    cases hq : permitted ps at? l c with
    | none =>
      rw [hq] at h1
      obtain ⟨e, he⟩ := h1
      exact ⟨e, by rw [he]; rfl⟩
    | some res =>
      obtain ⟨l1, o⟩ := res
      rw [hq] at h1
      obtain ⟨s1, e1, r1⟩ := h1
      have h2 := calls_matches h0 ha cs at? busy s1 l1 r1
      simp only
      rw [e1]
      simp only [bok]
      cases hq2 : permits ps at? l1 cs with
      | none =>
        rw [hq2] at h2
        obtain ⟨e, he⟩ := h2
        exact ⟨e, by rw [he]; rfl⟩
      | some res =>
        obtain ⟨l2, os⟩ := res
        rw [hq2] at h2
        obtain ⟨s2, e2, r2⟩ := h2
        exact ⟨s2, by rw [e2]; rfl, r2⟩
end

/-- outside of element operations: an ordinary stack -/
theorem Rel_none {ps al : Nat} {s : PS V} {l : List V} : Rel ps al none [] s l ↔ Inv ps al s ∧ contents s = l := by
  constructor
  · rintro ⟨pre, cp, k, n, sr, m⟩
    exact ⟨⟨pre, cp, k, n, sr, m.st, m.good (by simp)⟩, by rw [m.st, contents_mk, m.con]⟩
  · rintro ⟨⟨pre, cp, k, n, sr, e, g⟩, rfl⟩
    refine ⟨pre, cp, k, n, sr, e, g.full, g.le, fun h => .inl (g.ne h), by rw [e, contents_mk], by simp, by simp,
      ⟨fun _ => rfl, by simp, by simp⟩⟩

end Falcon.PSNested
