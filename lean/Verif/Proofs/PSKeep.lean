import Verif.Model.StackAssign
import Verif.Spec.StackIter
import Verif.Proofs.PSIter
import Verif.Proofs.PSMore
/-
Helper lemmas: iterators that outlive changes of the stack above them.
-/
namespace Falcon.StackSpec
variable {α : Type}
open Falcon.PagedStack

theorem pushes_items (ps al : Nat) : ∀ (xs : List α) (t : St α),
    (xs.foldl (push ps al) t).items = xs.reverse ++ t.items
  | [], t => rfl
  | x :: xs, t => by rw [List.foldl_cons, pushes_items ps al xs]; simp [push]

/-- a call that leaves the element at height `h` alone leaves everything up to it alone -/
theorem step_below {ps al h : Nat} {t t' : St α} {o : Out α} {op : Op α}
    (hs : step ps al t op = some (t', o)) (h' : h < t'.items.length) (h0 : h < t.items.length)
    (hw : ∀ y, op = .setTop y → h + 1 < t.items.length) :
    t'.items.reverse.take (h + 1) = t.items.reverse.take (h + 1) := by
  have keep : ∀ a b : List α, a <:+ b → h < a.length →
      b.reverse.take (h + 1) = a.reverse.take (h + 1) := by
    rintro a b ⟨c, rfl⟩ hl
    rw [List.reverse_append, List.take_append_of_le_length (by simp; omega)]
  cases op <;> simp only [step] at hs
  case push x => injection hs with hs; injection hs with hs; subst hs; exact keep _ _ ⟨[x], rfl⟩ h0
  case pushEmplace x => injection hs with hs; injection hs with hs; subst hs; exact keep _ _ ⟨[x], rfl⟩ h0
  case pushMany x xs =>
    injection hs with hs; injection hs with hs; subst hs
    exact keep _ _ ⟨(x :: xs).reverse, (pushes_items ps al (x :: xs) t).symm⟩ h0
  case setTop y =>
    have hw := hw y rfl
    revert hs
    cases ht : t.items with
    | nil => simp
    | cons a as =>
      intro hs
      rw [ht] at hw
      injection hs with hs; injection hs with hs; subst hs
      have hl : h < as.length := by simpa using hw
      rw [keep as (y :: as) ⟨[y], rfl⟩ hl, keep as (a :: as) ⟨[a], rfl⟩ hl]
  case pop =>
    revert hs
    cases ht : t.items with
    | nil => simp
    | cons a as =>
      intro hs
      injection hs with hs; injection hs with hs; subst hs
      exact (keep as (a :: as) ⟨[a], rfl⟩ h').symm
  case popMany n =>
    split at hs
    · injection hs with hs; injection hs with hs; subst hs
      exact (keep _ _ (List.drop_suffix n _) h').symm
    · cases hs
  case discard n =>
    split at hs
    · injection hs with hs; injection hs with hs; subst hs
      exact (keep _ _ (List.drop_suffix n _) h').symm
    · cases hs
  all_goals
    (repeat' split at hs) <;> first
    | (cases hs; done)
    | (cases hs; rfl)

theorem Undisturbed.run {ps al h pages : Nat} : ∀ {ops : List (Op α)} {t : St α},
    Undisturbed ps al h pages t ops → h < t.items.length → pages ≤ t.blocks →
    ∃ t' os, run ps al t ops = some (t', os) ∧ h < t'.items.length ∧ pages ≤ t'.blocks ∧
      t'.items.reverse.take (h + 1) = t.items.reverse.take (h + 1)
  | [], t, _, hl, hb => ⟨t, [], rfl, hl, hb, rfl⟩
  | op :: ops, t, ⟨t1, o, hs, h1, hw, hb1, hu⟩, hl, hb => by
    obtain ⟨t', os, e, h2, h3, h4⟩ := Undisturbed.run hu h1 hb1
    refine ⟨t', o :: os, ?_, h2, h3, by rw [h4, step_below hs h1 hl hw]⟩
    simp [StackSpec.run, hs, e]

end Falcon.StackSpec

namespace Falcon.PagedStack
variable {α : Type} {ps al : Nat} {sc : Int} {sr : Bool}

/-- a stack reached by an undisturbing history -/
theorem keep_run (h0 : 0 < ps) (ha : 0 < al) {s : PS α} (hi : Inv ps al s) {h pages : Nat}
    {ops : List (Op α)}
    (hu : StackSpec.Undisturbed ps al h pages
      ⟨contents s, s.base.length, s.syncCount.toNat, s.shrinkReq⟩ ops)
    (hl : h < (contents s).length) (hb : pages ≤ s.base.length) :
    ∃ s' os, run s ops = .ok (s', os) ∧ Inv ps al s' ∧ h < (contents s').length ∧
      pages ≤ s'.base.length ∧
      (contents s').reverse.take (h + 1) = (contents s).reverse.take (h + 1) := by
  obtain ⟨t', os, e, h1, h2, h3⟩ := hu.run hl hb
  obtain ⟨s', e', r⟩ := R_run h0 ha ops (R_of_Inv hi) e
  have hc := contents_of_R r
  refine ⟨s', os, e', Inv_of_R r, by rw [hc]; exact h1, ?_, by rw [hc]; exact h3⟩
  obtain ⟨pre, cp, k, rfl, g, -, hbl⟩ := r
  simp only [mkS_base, List.length_append, List.length_cons, List.length_replicate]
  omega

/-- reverse loop whose bound is below the current page: it stops at the end of the bound page -/
theorem loop_rev_low (h0 : 0 < ps) {pre : List (List α)} {cp : List α} {rest : List (List α)}
    (g : Good ps pre cp) (b : Nat) (hb : b < pre.length) : ∀ (k i fuel : Nat),
    i + k + 1 = (b + 1) * ps → k + 2 ≤ fuel →
    loop (mkS ps al pre cp rest sc sr) (revInc (mkS ps al pre cp rest sc sr))
      ⟨pre.length, cp.length, pre.length⟩ fuel (pos ps i b) = .error (.ub .derefData) := by
  have hlen := g.len
  have hcp : 0 < cp.length := by
    rcases Nat.eq_zero_or_pos cp.length with h | h
    · have := g.ne (List.length_eq_zero_iff.1 h); subst this; simp at hb
    · exact h
  have hB : (b + 1) * ps ≤ pre.length * ps := Nat.mul_le_mul_right _ hb
  intro k
  induction k with
  | zero =>
    intro i fuel hi hf
    obtain ⟨f, rfl⟩ : ∃ f, fuel = f + 2 := ⟨fuel - 2, by omega⟩
    have hm : (i + 1) % ps = 0 := by rw [show i + 1 = (b + 1) * ps by omega]; exact Nat.mul_mod_left _ _
    obtain ⟨e1, e2⟩ := succ_cross h0 hm
    have ed : i / ps = b := by
      have : (i + 1) / ps = b + 1 := by
        rw [show i + 1 = (b + 1) * ps by omega]; exact Nat.mul_div_cancel _ h0
      omega
    have hi' : i < (cont pre cp).length := by omega
    obtain ⟨p, h1, h2, h3, h4, h5⟩ := page_pos (al := al) (rest := rest) (sc := sc) (sr := sr) g h0 i hi'
    have hp := h4 (by omega)
    rw [ed] at h1
    have n1 : (pos ps i b).eqv ⟨pre.length, cp.length, pre.length⟩ = false := by
      simp only [pos, Iter.eqv, ed, Bool.and_eq_false_imp]; intro h
      simp at h; omega
    have st : revInc (mkS ps al pre cp rest sc sr) (pos ps i b) = .ok ⟨b, ps, b⟩ := by
      rw [pos, revInc_mk, ed, h1, bind_ok, ptrInc, if_pos (by omega), bind_ok, if_neg (by simp)]
      congr 2; omega
    have n2 : Iter.eqv ⟨b, ps, b⟩ ⟨pre.length, cp.length, pre.length⟩ = false := by
      simp only [Iter.eqv, Bool.and_eq_false_imp]; intro h
      simp at h; omega
    have d2 : Iter.deref (mkS ps al pre cp rest sc sr) ⟨b, ps, b⟩ = .error (.ub .derefData) := by
      rw [deref_mk, h1, bind_ok, if_neg (by omega), Int.toNat_natCast, List.getElem?_eq_none (by omega)]
    simp only [loop, n1, deref_pos g h0 i b _ (List.getElem?_eq_getElem hi'), bind_ok, st, n2, d2, bind_err,
      Bool.false_eq_true, if_false]
  | succ k ih =>
    intro i fuel hi hf
    obtain ⟨f, rfl⟩ : ∃ f, fuel = f + 1 := ⟨fuel - 1, by omega⟩
    have hi' : i < (cont pre cp).length := by omega
    have hi2 : i + 1 < (cont pre cp).length := by omega
    obtain ⟨p, h1, h2, h3, h4, h5⟩ := page_pos (al := al) (rest := rest) (sc := sc) (sr := sr) g h0 i hi'
    obtain ⟨q, q1, q2, q3, q4, q5⟩ := page_pos (al := al) (rest := rest) (sc := sc) (sr := sr) g h0 (i+1) hi2
    have ed : i / ps ≤ b := by
      have : i / ps < b + 1 := (Nat.div_lt_iff_lt_mul h0).2 (by omega)
      omega
    have n1 : (pos ps i b).eqv ⟨pre.length, cp.length, pre.length⟩ = false := by
      simp only [pos, Iter.eqv, Bool.and_eq_false_imp]; intro h
      simp at h; omega
    have st : revInc (mkS ps al pre cp rest sc sr) (pos ps i b) = .ok (pos ps (i + 1) b) := by
      rw [pos, revInc_mk, h1, bind_ok, pos, ptrInc, if_pos (by omega), bind_ok]
      by_cases hm : (i + 1) % ps = 0
      · obtain ⟨e1, e3⟩ := succ_cross h0 hm
        have hp := h4 (by omega)
        have : i / ps ≠ b := by
          have : (i + 1) / ps < b + 1 := (Nat.div_lt_iff_lt_mul h0).2 (by omega)
          omega
        rw [if_pos ⟨by omega, this⟩, ← e1, q1, bind_ok, hm]; rfl
      · obtain ⟨e1, e3⟩ := succ_stay h0 hm
        have hpq : p = q := by rw [e1] at q1; rw [q1] at h1; injection h1 with h1; exact h1.symm
        subst hpq
        rw [if_neg (by omega), e1, e3]; rfl
    simp only [loop, n1, deref_pos g h0 i b _ (List.getElem?_eq_getElem hi'), bind_ok, st,
      ih (i + 1) f (by omega) (by omega), bind_err, Bool.false_eq_true, if_false]

/-- reverse loop whose bound is above the current page: it walks onto the next, empty page -/
theorem loop_rev_high (h0 : 0 < ps) {pre : List (List α)} {cp : List α} {rest : List (List α)}
    (g : Good ps pre cp) (b : Nat) (hb : pre.length < b) : ∀ (k i fuel : Nat),
    i + k + 1 = (cont pre cp).length → k + 2 ≤ fuel →
    loop (mkS ps al pre cp ([] :: rest) sc sr) (revInc (mkS ps al pre cp ([] :: rest) sc sr))
      ⟨pre.length, cp.length, pre.length⟩ fuel (pos ps i b) = .error (.ub .derefData) := by
  intro k
  induction k with
  | zero =>
    intro i fuel hi hf
    obtain ⟨f, rfl⟩ : ∃ f, fuel = f + 2 := ⟨fuel - 2, by omega⟩
    obtain ⟨e1, e2⟩ := last_pos g h0 i hi
    have hi' : i < (cont pre cp).length := by omega
    have n1 : (pos ps i b).eqv ⟨pre.length, cp.length, pre.length⟩ = false := by
      simp only [pos, Iter.eqv, Bool.and_eq_false_imp]; intro _
      rw [beq_eq_false_iff_ne]; omega
    have pn : (mkS ps al pre cp ([] :: rest) sc sr).page (pre.length + 1) = .ok [] := by
      simp [PS.page, mkS]
    have st : revInc (mkS ps al pre cp ([] :: rest) sc sr) (pos ps i b) = .ok ⟨pre.length + 1, 0, b⟩ := by
      rw [pos, revInc_mk, e1, mkS_page, bind_ok, ptrInc, if_pos (by omega), bind_ok,
        if_pos ⟨by omega, by omega⟩, pn, bind_ok]
    have n2 : Iter.eqv ⟨pre.length + 1, 0, b⟩ ⟨pre.length, cp.length, pre.length⟩ = false := by
      simp [Iter.eqv]
    have d2 : Iter.deref (mkS ps al pre cp ([] :: rest) sc sr) ⟨pre.length + 1, 0, b⟩
        = .error (.ub .derefData) := by
      rw [deref_mk, pn, bind_ok, if_neg (by omega)]; rfl
    simp only [loop, n1, deref_pos g h0 i b _ (List.getElem?_eq_getElem hi'), bind_ok, st, n2, d2, bind_err,
      Bool.false_eq_true, if_false]
  | succ k ih =>
    intro i fuel hi hf
    obtain ⟨f, rfl⟩ : ∃ f, fuel = f + 1 := ⟨fuel - 1, by omega⟩
    have hi' : i < (cont pre cp).length := by omega
    have n1 : (pos ps i b).eqv ⟨pre.length, cp.length, pre.length⟩ = false := by
      obtain ⟨p, h1, h2, h3, h4, h5⟩ := page_pos (al := al) (rest := rest) (sc := sc) (sr := sr) g h0 i hi'
      simp only [pos, Iter.eqv, Bool.and_eq_false_imp]
      intro e
      have e := h5 (by simpa using e)
      subst e
      rw [beq_eq_false_iff_ne]; omega
    simp only [loop, n1, deref_pos g h0 i b _ (List.getElem?_eq_getElem hi'), bind_ok,
      revInc_pos g h0 i b (by omega) (show i + 1 < (cont pre cp).length by omega),
      ih (i + 1) f (by omega) (by omega), bind_err, Bool.false_eq_true, if_false]

theorem rend_mk {pre : List (List α)} {cp : List α} {rest : List (List α)} :
    rend (mkS ps al pre cp rest sc sr) = .ok ⟨pre.length, cp.length, pre.length⟩ := by
  simp only [rend, mkS_cur, mkS_page, bind_ok]

/-- writing at index `i` -/
theorem set_at (h0 : 0 < ps) (v : α) : ∀ (pre : List (List α)) (cp : List α)
    (rest : List (List α)), (∀ p ∈ pre, p.length = ps) → cp.length ≤ ps → ∀ i,
    i < (cont pre cp).length → ∃ p pre' cp',
    (pre ++ cp :: rest)[i / ps]? = some p ∧ i % ps < p.length ∧
    (pre ++ cp :: rest).set (i / ps) (p.set (i % ps) v) = pre' ++ cp' :: rest ∧
    (∀ p ∈ pre', p.length = ps) ∧ cp'.length = cp.length ∧ pre'.length = pre.length ∧
    cont pre' cp' = (cont pre cp).set i v
  | [], cp, rest, _, hc, i, h => by
    have hi : i < cp.length := by simpa [cont] using h
    have hd : i / ps = 0 := Nat.div_eq_of_lt (by omega)
    have hm : i % ps = i := Nat.mod_eq_of_lt (by omega)
    exact ⟨cp, [], cp.set i v, by simp [hd], by omega, by simp [hd, hm], by simp, by simp, rfl, by simp [cont]⟩
  | q :: pre, cp, rest, hf, hc, i, h => by
    have hq : q.length = ps := hf q (by simp)
    by_cases hi : i < ps
    · have hd : i / ps = 0 := Nat.div_eq_of_lt hi
      have hm : i % ps = i := Nat.mod_eq_of_lt hi
      refine ⟨q, q.set i v :: pre, cp, by simp [hd], by omega, by simp [hd, hm], ?_, rfl, by simp, ?_⟩
      · intro p hp
        rcases List.mem_cons.1 hp with rfl | hp
        · simpa using hq
        · exact hf p (by simp [hp])
      · simp only [cont, List.flatten_cons, List.append_assoc]
        rw [List.set_append_left _ _ (by omega)]
    · have hd : i / ps = (i - ps) / ps + 1 := by
        conv => lhs; rw [show i = (i - ps) + ps by omega]
        exact Nat.add_div_right _ h0
      have hm : i % ps = (i - ps) % ps := by
        conv => lhs; rw [show i = (i - ps) + ps by omega]
        exact Nat.add_mod_right _ _
      have hl : i - ps < (cont pre cp).length := by
        simp only [cont, List.flatten_cons, List.length_append] at h ⊢; omega
      obtain ⟨p, pre', cp', h1, h2, h3, h4, h5, h6, h7⟩ := set_at h0 v pre cp rest
        (fun p hp => hf p (by simp [hp])) hc (i - ps) hl
      refine ⟨p, q :: pre', cp', by simpa [hd] using h1, by omega, ?_, ?_, h5, by simp [h6], ?_⟩
      · rw [hd, hm]; simp [h3]
      · intro p hp
        rcases List.mem_cons.1 hp with rfl | hp
        · exact hq
        · exact h4 p hp
      · rw [show cont (q :: pre') cp' = q ++ cont pre' cp' by simp [cont],
          show cont (q :: pre) cp = q ++ cont pre cp by simp [cont], h7,
          List.set_append_right _ _ (by omega), hq]

theorem assign_pos (h0 : 0 < ps) {pre : List (List α)} {cp : List α} {rest : List (List α)}
    (g : Good ps pre cp) (i b : Nat) (v : α) (hi : i < (cont pre cp).length) :
    ∃ pre' cp', (pos ps i b).assign (mkS ps al pre cp rest sc sr) v
        = .ok (mkS ps al pre' cp' rest sc sr) ∧ Good ps pre' cp' ∧
      cont pre' cp' = (cont pre cp).set i v ∧ pre'.length = pre.length := by
  obtain ⟨p, pre', cp', h1, h2, h3, h4, h5, h6, h7⟩ := set_at h0 v pre cp rest g.full g.le i hi
  refine ⟨pre', cp', ?_, ⟨h4, by rw [h5]; exact g.le, ?_⟩, h7, h6⟩
  · have hp : (mkS ps al pre cp rest sc sr).page (i / ps) = .ok p := by simp [PS.page, h1]
    simp only [Iter.assign, pos, hp, bind_ok]
    have n : ¬ ((i % ps : Nat) : Int) < 0 := by omega
    simp only [n, Int.toNat_natCast, h2, if_true, if_false]
    simp only [PS.setPage, mkS_base, h3]
    simp [mkS, h6]
  · intro e
    have : cp = [] := List.length_eq_zero_iff.1 (by rw [← h5, e]; rfl)
    have := g.ne this
    subst this
    exact List.length_eq_zero_iff.1 h6

end Falcon.PagedStack
