import Verif.Witness.Stack
import Verif.Props.PSAllocBack
import Verif.Props.PSCopyMore
import Verif.Props.PSGuardMore
import Verif.Props.PSLoop
import Verif.Props.PSNested
import Verif.Props.PSThrow
import Verif.Props.PSSync
import Verif.Props.PSSyncDec
import Verif.Props.ItemStack
/- Each theorem below, applied to concrete data: its hypotheses can be met. -/
namespace Falcon.PagedStack

/-! Two iterators, one at the element 3 (which is then popped), one at the end. -/

def its : Sys Nat := ⟨mkS 2 2 [[1, 2]] [3] [] 2 false, [⟨1, 1, 0, 0, false⟩, ⟨0, 0, -1, 0, false⟩]⟩

theorem its_reach : SReach 2 2 its :=
  .step (o := .unit) .newEnd (.step (o := .unit) .newBegin loop0_reach trivial rfl) trivial rfl

example := C16_no_page_freed 2 2 p2 p2 its _ its_reach (.call .shrink) ⟨by simp, by simp⟩ _
  (show sstep its (.call .shrink) = .ok (⟨mkS 2 2 [[1, 2]] [3] [] 2 true, its.its⟩, .call .unit) from rfl) (by simp [its])
example := C17_sync_safe_partial 2 2 p2 p2 its its_reach 0 ⟨1, 1, 0, 0, false⟩ rfl rfl (by simp [SIter.atEnd])
example := C18_sync_iteration 2 2 p2 p2 five five_reach 6 (by decide)
theorem its_stands : Stands 2 its 0 2 := ⟨_, rfl, rfl, by simp [SIter.atEnd], rfl⟩
theorem its_end : StandsAtEnd its 1 := ⟨_, rfl, rfl, rfl, rfl⟩
example := C141_dec_partial p2 p2 its its_reach 0 2 its_stands
example := C141_undo_partial p2 p2 its its_reach 0 2 its_stands
example := C141_dec_end_partial p2 p2 its its_reach 1 its_end
example := C141_upward_partial 2 2 p2 p2 its its_reach 1 its_end (by decide)
example := C19_copy_partial five rfl [.newBegin, .copy 0] (.call .shrink) (by simp) _ _ _ _
  (show srun ⟨five, []⟩ [.newBegin, .copy 0] = .ok (⟨mkS 2 2 [[1, 2], [3, 4]] [5] [[]] 1 false, [⟨2, 2, 0, 0, false⟩, ⟨2, 2, 0, 0, false⟩]⟩, [.unit, .unit]) from rfl)
  (show sstep _ (.call .shrink) = .ok (⟨mkS 2 2 [[1, 2], [3, 4]] [5] [[]] 1 true, [⟨2, 2, 0, 0, false⟩, ⟨2, 2, 0, 0, false⟩]⟩, .call .unit) from rfl) (by decide)
example := C22_next_push 2 2 p2 p2 five five_reach 3 9

/-! A loop at its beginning, beside nobody. -/

theorem begun : sstep loop0 .newBegin = .ok (loop1, .unit) := rfl
example := C140_ends_partial p2 p2 loop0 loop1 .unit loop0_reach begun (startLoop loop0 loop1) [] (.refl _)
example := C140_no_fault_partial p2 p2 loop0 loop1 .unit loop0_reach begun (startLoop loop0 loop1) [] (.refl _) rfl
example := C140_throws_only_empty_partial p2 p2 loop0 loop1 .unit loop0_reach begun (startLoop loop0 loop1) [] (.refl _)
example := C140_top_to_bottom_partial p2 p2 loop0 loop1 .unit loop0_reach begun (startLoop loop0 loop1) [] (.refl _)

end Falcon.PagedStack

namespace Falcon.PSAlloc
open Falcon.PagedStack (p2 contents)

/-- Pages of three, the page full; the next push fails, is repeated. -/
example : ∃ s : PSA Nat, Tried 3 1 s ∧ Clean 3 1 s ∧ Any 3 1 s ∧ ∃ s' o', push s 4 [true, false] = .ok (s', o', .badAlloc) ∧
    ∃ s'' o'' m, push s 4 [] = .ok (s'', o'', .done m) :=
  ⟨_, .push (x := 3) (o := []) (.push (x := 2) (o := []) (.push (x := 1) (o := []) (.init (o := []) rfl) rfl) rfl) rfl,
    .push (x := 3) (o := []) (.push (x := 2) (o := []) (.push (x := 1) (o := []) (.init (o := []) rfl) rfl) rfl) rfl,
    .push (x := 3) (o := []) (.push (x := 2) (o := []) (.push (x := 1) (o := []) (.init (o := []) rfl) rfl) rfl) rfl, _, _, rfl, _, _, _, rfl⟩

end Falcon.PSAlloc

namespace Falcon.PSGuard
open Falcon.PagedStack

example := C123_pop_throws 2 2 p2 p2 five five_reach 3 (by decide) [false]
example := C123_push_throws_partial 2 2 p2 p2 five five_reach [6, 7] [some 8]
example := C123_pop_all 2 2 p2 p2 five five_reach 3 (by decide)
example := C123_push_all 2 2 p2 p2 five five_reach [6, 7]
example := C122_conservation 2 1 p2 (by decide) [.push 1, .check 0, .push 2, .push 3, .pop 0, .check 0, .pop 0, .check (0 : Nat)] _ rfl
example := C122_guarded_pop_partial 2 1 p2 (by decide) 0 [.push 1, .check 0, .push 2, .push 3, .pop 0, .check 0, .pop 0, .check 0] (by simp [OnlyConsumer]) .hang

end Falcon.PSGuard

namespace Falcon.PSNested
open Falcon.PagedStack

def seven : PS Nat := mkS 4 1 [[1, 2, 3, 4]] [5, 6, 7] [] 0 false
theorem seven_reach : Reach 4 1 seven := Reach.call (o := .unit) (.pushMany 1 [2, 3, 4, 5, 6, 7]) .init (by simp) rfl

example := C159_cleanup (by decide) (by decide) seven_reach 7 6 [5, 4, 3, 2, 1] rfl (by decide)
example := (C159_exact_partial (by decide) (by decide) seven_reach [.pop [.top, .pop []], .push 8 [.empty, .size], .pop [.size]] _ _).2
  (show permits 4 none [7, 6, 5, 4, 3, 2, 1] _ = some ([5, 4, 3, 2, 1], [Out.top 6, .empty false, .size 5, .size 5]) by decide +kernel)
example := C159_otherwise_partial (by decide) (by decide) seven_reach [.push 8 [.push 9 []]] (show permits 4 none [7, 6, 5, 4, 3, 2, 1] _ = none by decide +kernel)
example := C159_queries (by decide) (by decide) seven_reach [.push 8 [.empty, .size], .pop [.size]] (by simp [Asks]) _ _
  (show expects [7, 6, 5, 4, 3, 2, 1] _ = some ([7, 6, 5, 4, 3, 2, 1], [.empty false, .size 7, .size 7]) by decide +kernel)
example := C159_silent seven [.push 8 [], .top, .pop []] (by simp [Silent])

end Falcon.PSNested

namespace Falcon.ItemStack
open Falcon.PagedStack Falcon.Item

/-- A text on the stack and a number and a text in variables. -/
def few : List IOp := [.emplace (.string ['a']), .new (.int32 5), .new (.string ['c'])]

theorem few_flat : FlatCopies true { st := init 2 2 } few := by
  refine ⟨trivial, fun s h => ⟨trivial, fun s h => ⟨trivial, fun s h => trivial⟩⟩⟩

theorem few_run : ∃ s, run true { st := init 2 2 } few = some (.ok s) ∧ (∃ x xs, contents s.st = x :: xs ∧ ¬ x.Flat) ∧
    (∃ x, s.vars[1]? = some x ∧ ¬ x.Flat) ∧ 0 < s.vars.length :=
  ⟨_, rfl, ⟨_, _, rfl, by simp [Item.Flat, make]⟩, ⟨_, rfl, by simp [Item.Flat, make]⟩, by decide⟩

example : True := by
  obtain ⟨s, h, ⟨x, xs, h1, h2⟩, ⟨y, h3, h4⟩, h5⟩ := few_run
  have a := C147_items_partial true 2 2 p2 p2 few few_flat _ h
  have b := C147_pop_always_dangles_partial true 2 2 p2 p2 few few_flat s h x xs h1 h2 0 h5
  have c := C147_push_always_dangles_partial true 2 2 p2 p2 few few_flat s h (.string ['d']) (by simp [FlatVal])
  have d := C147_push_var_always_double_frees_partial true 2 2 p2 p2 few few_flat s h 1 y h3 h4
  trivial

end Falcon.ItemStack
