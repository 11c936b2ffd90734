import Verif.Props.PagedStack
import Verif.Props.StackArgs
import Verif.Props.StackIter
import Verif.Props.StackLife
import Verif.Props.StackRace
/-
Each theorem below, applied to concrete data: its hypotheses can be met.

The stack: page size 2, two pages at a time, with the elements 1, 2, 3, 4, 5 (5 on top) on three of four pages.
-/
namespace Falcon.PagedStack

def five : PS Nat := mkS 2 2 [[1, 2], [3, 4]] [5] [[]] 0 false

theorem five_reach : Reach 2 2 five := Reach.call (o := .unit) (.pushMany 1 [2, 3, 4, 5]) .init (by simp) rfl

example : contents five = [5, 4, 3, 2, 1] ∧ five.base.length = 4 := ⟨rfl, rfl⟩

theorem p2 : 0 < 2 := by decide

example := C01_lifo_refinement 2 1 p2 (by decide) [.pushMany 1 [2, 3, 4, 5], .popMany 3, .push 6, .top, .size] _ _
  (show StackSpec.run 2 1 (StackSpec.init 1) _ = some (⟨[6, 2, 1], 3, 0, false⟩, [.unit, .vals [5, 4, 3], .unit, .val 6, .nat 3]) by decide)
example := C01_reachable_behaves 2 2 p2 p2 five five_reach
example := C02_fault_boundary 2 2 p2 p2 five five_reach (.popMany 6)
example := C02_fault_boundary 2 2 p2 p2 five five_reach (.popMany 5)
example := C03_push_many_contents 2 2 p2 p2 five five_reach 6 [7, 8]
example := C04_pop_undoes_push 2 2 p2 p2 five five_reach 6 [7, 8]
example := C05_discard_is_pops 2 2 p2 p2 five five_reach 4 (by decide)
example := C05_discard_zero 2 2 p2 p2 five five_reach
example := C06_clear_partial 2 2 p2 p2 five five_reach
example := C07_pop_reverse_partial 2 2 p2 p2 five five_reach 2 (by decide) (by decide)
example := C08_discard_forward_partial 2 2 p2 p2 five five_reach 3 (by decide)
example := C08_discard_reverse_partial 2 2 p2 p2 five five_reach 4 1 (by decide) (by decide)
example := (C09_peeks 2 2 p2 p2 five five_reach 3 4).2.2 (by decide) (by decide)
example := C10_forward_iteration 2 2 p2 p2 five five_reach 6 (by decide)
example := C11_forward_inverse 2 2 p2 p2 five five_reach 1 3 (by decide)
example := C11_forward_positions 2 2 p2 p2 five five_reach 3 (by decide)
example := C11_reverse_inverse 2 2 p2 p2 five five_reach 5 1 3 (by decide) (by decide)
example := C12_reverse_partial 2 2 p2 p2 five five_reach 6 (by decide)
example := C13_from_top_iteration 2 2 p2 p2 five five_reach 4 5 (by decide) (by decide)
example := C14_size_empty_stats 2 2 p2 p2 five five_reach
example := C15_shrink 2 2 p2 p2 five five_reach rfl
example := C20_push_stable 2 2 p2 p2 five _ five_reach 6 (show push five 6 = .ok (mkS 2 2 [[1, 2], [3, 4]] [5, 6] [[]] 0 false) from rfl)
example := C21_push_allocation 2 2 p2 p2 five _ five_reach 6 (show push five 6 = .ok (mkS 2 2 [[1, 2], [3, 4]] [5, 6] [[]] 0 false) from rfl)
example := C21_refill_no_allocation 2 2 p2 p2 [6, 7, 8] five five_reach (by decide)
example := C22_push_throw_partial 2 2 p2 p2 five five_reach
example := C23_constructor_partial (α := Nat) 2 2 p2 p2
example := C23_page_size_zero_partial 2 2 p2 [.pushMany 1 [2, 3], .pop] (by simp) _ _
  (show StackSpec.run 2 2 (StackSpec.init 2) _ = some (⟨[2, 1], 2, 0, false⟩, [.unit, .unit]) by decide)

example := C145_assign_forward 2 2 p2 p2 five five_reach 3 (by decide) 9
example := C145_assign_reverse 2 2 p2 p2 five five_reach 4 2 (by decide) (by decide) 9
example := C145_forward 2 2 p2 p2 five five_reach 2 (by decide) [.push 6, .pop, .pop] ⟨_, _, rfl, by decide, by simp, by decide, _, _, rfl, by decide, by simp, by decide, _, _, rfl, by decide, by simp, by decide, trivial⟩
example := C145_rbegin_partial 2 2 p2 p2 five five_reach 2 (by decide) [.push 6, .pop] ⟨_, _, rfl, by decide, by simp, by decide, _, _, rfl, by decide, by simp, by decide, trivial⟩
example := C145_reverse_partial 2 2 p2 p2 five five_reach 4 1 (by decide) (by decide) [.push 6, .pop] ⟨_, _, rfl, by decide, by simp, by decide, _, _, rfl, by decide, by simp, by decide, trivial⟩

example := C146_at_once_partial 2 2 p2 p2 [.pushMany 1 [2, 3, 4, 5], .popMany 3, .push 6, .setTop 7] _ (show Ideal.run 2 {} _ = some ⟨6, [⟨5, 7⟩, ⟨1, 2⟩, ⟨0, 1⟩], 0⟩ by decide)
example := C146_clear_partial 2 2 p2 p2 [.pushMany 1 [2, 3, 4, 5], .popMany 3, .push 6] _ (show Ideal.run 2 {} _ = some ⟨6, [⟨5, 6⟩, ⟨1, 2⟩, ⟨0, 1⟩], 0⟩ by decide)
example := C146_discard_iter_partial 2 2 p2 p2 [.pushMany 1 [2, 3, 4, 5], .popMany 3, .push 6] _ (show Ideal.run 2 {} _ = some ⟨6, [⟨5, 6⟩, ⟨1, 2⟩, ⟨0, 1⟩], 0⟩ by decide)
example := C146_pop_reverse_partial 2 2 p2 p2 [.pushMany 1 [2, 3, 4, 5], .popMany 3, .push 6] _ (show Ideal.run 2 {} _ = some ⟨6, [⟨5, 6⟩, ⟨1, 2⟩, ⟨0, 1⟩], 0⟩ by decide)
  2 (by decide) (by decide)
example : True := by
  obtain ⟨b, s, h, -⟩ := C146_at_once_partial 2 2 p2 p2 [.pushMany 1 [2, 3, 4, 5], .popMany 3, .push 6] _ (show Ideal.run 2 {} _ = some ⟨6, [⟨5, 6⟩, ⟨1, 2⟩, ⟨0, 1⟩], 0⟩ by decide)
  have := C146_exactly_once 2 2 p2 p2 _ b s h
  trivial

/-! An iterator at the element 3, another thread pops. -/

def three : Iter := { page := 1, off := 0, bound := 0 }
theorem three_at : At 2 2 three := ⟨rfl, rfl⟩

example := C152_down_partial p2 p2 five_reach .pop (show 0 < 5 by decide) 2 (by decide) (by decide) three three_at
example := C152_ends_partial p2 p2 five_reach .pop (show 0 < 5 by decide)
example := C152_positions_partial p2 p2 five_reach
example := C152_safe_partial p2 p2 five_reach .pop (show 0 < 5 by decide) 2 (by decide) (by simp) three three_at rfl
example := C152_up_partial p2 p2 five_reach .pop (show 0 < 5 by decide) 2 (by decide) three three_at
example := C152_walk_partial p2 p2 five_reach .pop (show 0 < 5 by decide) 2 (by decide) three three_at rfl
example := C152_write_partial p2 p2 five_reach .pop (show 0 < 5 by decide) 2 (by decide) three three_at
example := C152_rbegin_partial p2 p2 five_reach (.push 6) trivial (show step five (.push 6) = .ok (mkS 2 2 [[1, 2], [3, 4]] [5, 6] [[]] 0 false, .unit) from rfl) rfl rfl
example := C152_assigned_partial (s := five) (it := three) (v := 9) (show Iter.assign five three 9 = .ok (mkS 2 2 [[1, 2], [9, 4]] [5] [[]] 0 false) from rfl)
  (.elem 1 0) (by simp [Cell.Same, five, mkS])
example := C152_elements_partial p2 p2 five_reach .pop (show 0 < 5 by decide) (by simp) 2 (by decide) three three_at 9
  (show Iter.assign five three 9 = .ok (mkS 2 2 [[1, 2], [9, 4]] [5] [[]] 0 false) from rfl) (by simp [lockFoot, elemReads, three])
  (show step five .pop = .ok (mkS 2 2 [[1, 2]] [3, 4] [[], []] 0 false, .unit) from rfl)
example := C152_read_partial (s := five) (s2 := mkS 2 2 [[1, 2]] [3, 4] [[], []] 0 false) (.read three) (by
  intro c hc; simp [useFoot, useReads, three] at hc; subst hc; rfl) (show result five _ = .ok (.inr 3) from rfl)
example := C152_written_partial (s := five) (show step five .pop = .ok (mkS 2 2 [[1, 2]] [3, 4] [[], []] 0 false, .unit) from rfl)
  .cur (by simp [Cell.Same, five, mkS])

end Falcon.PagedStack
