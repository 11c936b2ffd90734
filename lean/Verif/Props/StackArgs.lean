import Verif.Proofs.PSZero
import Verif.Props.PagedStack
/-
C23 at the two boundary arguments of the constructor of PagedStack.
-/
namespace Falcon.PagedStack
variable {α : Type}

/-- forward loop at page size 0 -/
theorem loopZ {al : Nat} {sc : Int} {sr : Bool} {c : List α} {rest : List (List α)} :
    ∀ (i fuel : Nat), i < c.length → i + 2 ≤ fuel →
    loop (mkS 0 al [[]] c rest sc sr) (fwdInc (mkS 0 al [[]] c rest sc sr)) ⟨0, -1, 0⟩ fuel ⟨1, i, 0⟩
      = .ok (some (c.take (i + 1)).reverse)
  | i, 0, _, h => by omega
  | 0, fuel + 1, hi, hf => by
    have st : fwdInc (mkS 0 al [[]] c rest sc sr) ⟨1, (0 : Nat), 0⟩ = .ok ⟨0, -1, 0⟩ := by
      rw [fwdInc_mk, page1Z, bind_ok, if_pos ⟨rfl, by decide⟩, if_neg (by decide), page0Z, bind_ok]; rfl
    obtain ⟨f, rfl⟩ : ∃ f, fuel = f + 1 := ⟨fuel - 1, by omega⟩
    have n1 : Iter.eqv ⟨1, (0 : Nat), 0⟩ ⟨0, -1, 0⟩ = false := rfl
    have n2 : Iter.eqv ⟨0, -1, 0⟩ ⟨0, -1, 0⟩ = true := rfl
    simp only [loop, n1, n2, derefZ 0 0 hi, bind_ok, st, if_true, Bool.false_eq_true, if_false]
    rw [take_succ_rev _ _ hi]; simp
  | i + 1, fuel + 1, hi, hf => by
    have n1 : Iter.eqv ⟨1, (i + 1 : Nat), 0⟩ ⟨0, -1, 0⟩ = false := rfl
    simp only [loop, n1, derefZ (i + 1) 0 hi, bind_ok, fwdIncZ, loopZ (al := al) (sc := sc) (sr := sr) (c := c) (rest := rest) i fuel (by omega) (by omega),
      Bool.false_eq_true, if_false]
    rw [take_succ_rev _ _ hi]

/-- C23 (exact, page size 0): a stack constructed with page size 0 (and some preallocation) still
returns from every call, except the statistics, what an ideal stack returns, and forward iteration
visits its elements; but reverse iteration is undefined as soon as the stack is not empty, the page
that holds the elements exceeds the reserved page size (so the elements move, C20), and the
statistics count a page size of 0 and two pages for any number of elements. -/
theorem C23_page_size_zero_partial (ps al : Nat) (ha : 0 < al) (ops : List (Op α)) (hn : Op.stats ∉ ops)
    (t : StackSpec.St α) (os : List (Out α))
    (h : StackSpec.run ps al (StackSpec.init al) ops = some (t, os)) :
    ∃ s, run (init 0 al) ops = .ok (s, os) ∧ contents s = t.items ∧
      (∀ fuel, t.items.length + 2 ≤ fuel → forEach s fuel = .ok (some t.items)) ∧
      (t.items = [] → ∀ fuel, 1 ≤ fuel → forEachReverse s fuel = .ok (some [])) ∧
      (t.items ≠ [] → ∀ fuel, 1 ≤ fuel → forEachReverse s fuel = .error (.ub .derefData)) ∧
      (t.items ≠ [] → ∃ p ∈ s.base, p = t.items.reverse ∧ s.pageSize < p.length) ∧
      ∃ b, getStats s = .ok { blocks := b, depth := 0, curBlock := if t.items = [] then 1 else 2,
                              curData := t.items.length } := by
  obtain ⟨k, rfl⟩ : ∃ k, al = k + 1 := ⟨al - 1, by omega⟩
  obtain ⟨s, e, r⟩ := RZ_run ha ps ops (RZ_init k) hn h
  refine ⟨s, e, contents_of_RZ r, ?_⟩
  obtain ⟨j, rfl⟩ := r
  by_cases hi : t.items = []
  · rw [hi, List.reverse_nil, mkZ_nil]
    refine ⟨?_, ?_, fun hh => absurd rfl hh, fun hh => absurd rfl hh, ⟨1 + j, ?_⟩⟩
    · intro fuel hf
      obtain ⟨f, rfl⟩ : ∃ f, fuel = f + 1 := ⟨fuel - 1, by omega⟩
      rfl
    · intro _ fuel hf
      obtain ⟨f, rfl⟩ : ∃ f, fuel = f + 1 := ⟨fuel - 1, by omega⟩
      rfl
    · simp [getStats, mkS, PS.page]; omega
  · have hr : t.items.reverse ≠ [] := by simpa using hi
    have hl : 0 < t.items.length := List.length_pos_iff.2 hi
    rw [mkZ_ne hr]
    refine ⟨?_, fun hh => absurd hh hi, ?_, ?_, ⟨2 + j, ?_⟩⟩
    · intro fuel hf
      have hb : begin_ (mkS 0 (k + 1) [[]] t.items.reverse (List.replicate j []) t.iters t.pending)
          = .ok ⟨1, (t.items.length - 1 : Nat), 0⟩ := by
        simp only [begin_, mkS_cur, mkS_page, bind_ok, List.length_reverse]
        congr 2; omega
      simp only [forEach, hb, end_spec, bind_ok]
      rw [loopZ _ fuel (by simp; omega) (by omega),
        List.take_of_length_le (by simp; omega), List.reverse_reverse]
    · intro _ fuel hf
      obtain ⟨f, rfl⟩ : ∃ f, fuel = f + 1 := ⟨fuel - 1, by omega⟩
      simp only [forEachReverse, rbegin, rend, page0Z, mkS_cur, mkS_page, bind_ok, loop]
      rfl
    · intro _
      exact ⟨t.items.reverse, by simp, rfl, by simpa using hl⟩
    · simp [getStats, mkS, PS.page, hi]; omega

/-- C23 (exact, preallocation 0): every call that looks at the stack is undefined, whatever the page
size; there is no page at all. -/
theorem C23_prealloc_zero_partial (ps : Nat) (op : Op α) :
    ((∀ n, op = .popMany n → 0 < n) ∧ op ≠ .shrink ∧ op ≠ .syncNew ∧ op ≠ .syncDrop →
      step (init ps 0) op = .error (.ub .derefListEnd)) ∧
    ((op = .popMany 0 ∨ op = .shrink ∨ op = .syncNew ∨ op = .syncDrop) →
      ∃ s o, step (init ps 0) op = .ok (s, o) ∧ s.base = []) := by
  constructor
  · rintro ⟨h1, h2, h3, h4⟩
    cases op with
    | pushMany x xs => cases xs <;> rfl
    | popMany n =>
      have := h1 n rfl
      obtain ⟨m, rfl⟩ : ∃ m, n = m + 1 := ⟨n - 1, by omega⟩
      rfl
    | shrink => exact absurd rfl h2
    | syncNew => exact absurd rfl h3
    | syncDrop => exact absurd rfl h4
    | _ => rfl
  · rintro (rfl | rfl | rfl | rfl) <;> exact ⟨_, _, rfl, rfl⟩

example : StackSpec.run 3 2 (StackSpec.init 2)
    ([.pushMany 1 [2, 3, 4], .popMany 2, .syncNew, .shrink, .top, .syncDrop, .discard 2, .push 5] : List (Op Nat))
    = some (⟨[5], 1, 0, false⟩, [.unit, .vals [4, 3], .unit, .unit, .val 2, .unit, .unit, .unit]) := rfl

end Falcon.PagedStack
