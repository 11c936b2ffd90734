import Verif.Props.PSGuard
/- C123 continued: multi-element calls in which no element operation throws. -/
namespace Falcon.PSGuard
open Falcon.PagedStack
variable {α : Type}

/-- C123, when nothing throws: `pop(v1..vn)` stores the `n` topmost elements, the stack holds the
others and no exception leaves the call. -/
theorem C123_pop_all (ps al : Nat) (h0 : 0 < ps) (ha : 0 < al) (s : PS α) (h : Reach ps al s)
    (n : Nat) (hn : n ≤ (contents s).length) :
    ∃ s', popThrow s (List.replicate n false) = .ok (s', (contents s).take n, false) ∧
      contents s' = (contents s).drop n ∧ BehavesLike ps al s' ((contents s).drop n) := by
  have hinv := h.inv h0 ha
  clear h
  induction n generalizing s with
  | zero => exact ⟨s, by simp [popThrow], by simp, by simpa using behaves_of_Inv h0 ha hinv⟩
  | succ k ih =>
    have hR := R_of_Inv hinv
    cases hc : contents s with
    | nil => rw [hc] at hn; exact absurd hn (Nat.not_succ_le_zero _)
    | cons x xs =>
      obtain ⟨s1, e1, -⟩ := R_step h0 ha hR .top (t' := ⟨contents s, s.base.length, s.syncCount.toNat, s.shrinkReq⟩)
        (o := .val x) (by simp [StackSpec.step, hc])
      obtain ⟨s2, e2, r2⟩ := R_step h0 ha hR .pop (t' := ⟨xs, s.base.length, s.syncCount.toNat, s.shrinkReq⟩)
        (o := .unit) (by simp [StackSpec.step, hc])
      simp only [step] at e1 e2
      cases ht : top s with
      | error f => rw [ht] at e1; exact nomatch e1
      | ok v =>
        rw [ht] at e1
        simp only [bind_ok, Except.ok.injEq, Prod.mk.injEq, Out.val.injEq] at e1
        cases hp : popOne s with
        | error f => rw [hp] at e2; exact nomatch e2
        | ok s3 =>
          rw [hp] at e2
          simp only [bind_ok, Except.ok.injEq, Prod.mk.injEq] at e2
          rw [← e2.1] at r2
          have hc3 : contents s3 = xs := contents_of_R r2
          obtain ⟨s', e', c', b'⟩ := ih s3 (by rw [hc3]; rw [hc] at hn; simpa using hn) (Inv_of_R r2)
          refine ⟨s', ?_, by rw [c', hc3, List.drop_succ_cons], by rw [List.drop_succ_cons, ← hc3]; exact b'⟩
          simp only [List.replicate_succ, popThrow, ht, bind_ok, Bool.false_eq_true, if_false,
            hp, e', hc3, e1.2, List.take_succ_cons]

/-- C123, when nothing throws: `push(x1..xn)` puts all elements on the stack and no exception
leaves the call. -/
theorem C123_push_all (ps al : Nat) (h0 : 0 < ps) (ha : 0 < al) (s : PS α) (h : Reach ps al s) (xs : List α) :
    ∃ s', pushThrow s (xs.map some) = .ok (s', false) ∧ contents s' = xs.reverse ++ contents s ∧
      BehavesLike ps al s' (xs.reverse ++ contents s) := by
  induction xs generalizing s with
  | nil => exact ⟨s, rfl, rfl, behaves_of_Inv h0 ha (h.inv h0 ha)⟩
  | cons x xs ih =>
    obtain ⟨s1, e1, r1⟩ := R_push h0 ha (R_of_Inv (h.inv h0 ha)) x
    have hr : Reach ps al s1 := Reach.call (o := .unit) (.push x) h (by simp) (by simp only [step, e1, bind_ok])
    have hc1 : contents s1 = x :: contents s := by
      rw [contents_of_R r1]; simp [StackSpec.push]
    obtain ⟨s', e', c', b'⟩ := ih s1 hr
    rw [hc1] at c' b'
    refine ⟨s', by simp only [List.map_cons, pushThrow, e1, bind_ok, e'], by rw [c']; simp, ?_⟩
    rw [show (x :: xs).reverse ++ contents s = xs.reverse ++ x :: contents s by simp]
    exact b'

/-- non-vacuity: three of five elements on pages of two -/
example : ∃ s : PS Nat, Reach 2 1 s ∧ contents s = [5, 4, 3, 2, 1] ∧
    (popThrow s [false, false, false]).map (fun r => (r.2.1, r.2.2)) = .ok ([5, 4, 3], false) :=
  ⟨_, Reach.call (o := .unit) (.pushMany 1 [2, 3, 4, 5]) .init (by simp) rfl, rfl, rfl⟩

end Falcon.PSGuard
