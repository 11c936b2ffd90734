import Verif.Model.PagedStack
import Verif.Model.PSSync
/-
Validation of the model against the project's own unit tests, not part of any proof: every test of
src/test/engine/pagedstack.fut.cpp is transcribed call by call, and running it on the model gives
the values the test expects.  Strings are written as numbers above 100 (the stack never looks at
its elements).
-/
namespace Falcon.Check.PagedStackTests
open Falcon.PagedStack

/-- what the calls return -/
def outs (s : PS Nat) (ops : List (Op Nat)) : Option (List (Out Nat)) := (run s ops).toOption.map (·.2)

/-- `m_stack{4,2}` -/
def m_stack : PS Nat := init 4 2

/-- the stack after the calls -/
def after (ops : List (Op Nat)) : PS Nat := match run m_stack ops with | .ok r => r.1 | .error _ => m_stack

/-- smoke -/
example : outs m_stack [.empty, .size] = some [.bool true, .nat 0] := by decide

/-- simple_push -/
example : outs m_stack [.push 101, .empty, .size, .top] = some [.unit, .bool false, .nat 1, .val 101] := by decide

/-- double_push -/
example : outs m_stack [.pushMany 1 [101], .empty, .size, .top] = some [.unit, .bool false, .nat 2, .val 101] := by decide

/-- simple_emplace, double_emplace, top (stacks of the default sizes 4000, 2) -/
example : outs (init 4000 2) [.pushEmplace 101, .empty, .size, .top] = some [.unit, .bool false, .nat 1, .val 101] := by decide
example : outs (init 4000 2) [.pushEmplace 100, .pushEmplace 101, .empty, .size, .top] =
    some [.unit, .unit, .bool false, .nat 2, .val 101] := by decide
example : outs (init 4000 2) [.pushEmplace 100, .empty, .setTop 102, .top] = some [.unit, .bool false, .unit, .val 102] := by decide

/-- fill_one_buffer -/
example : outs m_stack [.pushMany 1 [2, 3, 101], .top, .stats] = some [.unit, .val 101, .stats ⟨2, 4, 1, 4⟩] := by decide

/-- pure_pop, pure_pop_clear, pop_first, pop_last -/
example : outs m_stack [.push 101, .push 102, .pop, .top, .stats] = some [.unit, .unit, .unit, .val 101, .stats ⟨2, 4, 1, 1⟩] := by decide
example : outs m_stack [.push 101, .pop, .stats] = some [.unit, .unit, .stats ⟨2, 4, 1, 0⟩] := by decide
example : outs m_stack [.push 101, .popMany 1, .stats] = some [.unit, .vals [101], .stats ⟨2, 4, 1, 0⟩] := by decide
example : outs m_stack [.pushMany 1 [2, 3, 101], .popMany 1, .stats] = some [.unit, .vals [101], .stats ⟨2, 4, 1, 3⟩] := by decide

/-- pop_all -/
example : outs m_stack [.pushMany 1 [2, 3, 101], .popMany 4, .stats] = some [.unit, .vals [101, 3, 2, 1], .stats ⟨2, 4, 1, 0⟩] := by decide

/-- next_buff, pop_across_buffs -/
example : outs m_stack [.pushMany 1 [2, 3, 4, 101], .top, .stats] = some [.unit, .val 101, .stats ⟨2, 4, 2, 1⟩] := by decide
example : outs m_stack [.pushMany 1 [2, 3, 4, 101], .top, .stats, .popMany 4, .stats] =
    some [.unit, .val 101, .stats ⟨2, 4, 2, 1⟩, .vals [101, 4, 3, 2], .stats ⟨2, 4, 1, 1⟩] := by decide

/-- `for(int i = 1; i <= 16; ++i) m_stack.push(i);` -/
def push16 : List (Op Nat) := (List.range' 1 16).map .push

/-- realloc, realloc_and_repush -/
example : (outs m_stack (push16 ++ [.push 101, .top, .stats])).map (·.drop 17) = some [.val 101, .stats ⟨6, 4, 5, 1⟩] := by decide
example : (outs m_stack (.push 101 :: push16 ++ List.replicate 16 .pop ++ [.top, .pop, .empty])).map (·.drop 33) =
    some [.val 101, .unit, .bool true] := by decide

/-- empty_and_repush -/
example : (outs m_stack (.push 101 :: push16 ++ List.replicate 16 .pop ++ [.pop, .pushMany 102 [2, 3, 4, 101], .top, .popMany 5, .empty])).map (·.drop 34) =
    some [.unit, .val 101, .vals [101, 4, 3, 2, 102], .bool true] := by decide

/-- shrink -/
example : (outs m_stack (.push 101 :: push16 ++ List.replicate 7 .pop ++ [.shrink, .stats, .size, .top])).map (·.drop 25) =
    some [.stats ⟨3, 4, 3, 2⟩, .nat 10, .val 9] := by decide

/-- shrink_and_reuse -/
example : (outs m_stack (.push 101 :: push16 ++ List.replicate 7 .pop ++ .shrink :: push16 ++ .top :: List.replicate 25 .pop ++
    [.stats, .size, .top])).map (fun r => (r[41]?, r.drop 67)) = some (some (.val 16), [.stats ⟨7, 4, 1, 1⟩, .nat 1, .val 101]) := by decide +kernel

/-- check_iterator: the values seen by the loop, then `--e; e--; *e; ++e; *e` from the end -/
def checkIterator (s : PS Nat) (inc dec : PS Nat → Iter → Res Iter) (b e : Res Iter) : Option (Option (List Nat) × Nat × Nat) :=
  (do let b ← b
      let e ← e
      let vs ← loop s (inc s) e 20 b
      let i ← dec s e
      let i ← dec s i
      let x ← i.deref s
      let i ← inc s i
      let y ← i.deref s
      .ok (vs, x, y) : Res _).toOption

/-- direct_iterator, direct_const_iterator -/
example : (let s := after [.pushMany 1 [2, 3, 4, 5]]
    checkIterator s fwdInc fwdDec (begin_ s) (end_ s)) = some (some [5, 4, 3, 2, 1], 2, 1) := by decide

/-- reverse_iterator, reverse_const_iterator -/
example : (let s := after [.pushMany 1 [2, 3, 4, 5]]
    checkIterator s revInc revDec (rbegin s) (rend s)) = some (some [1, 2, 3, 4, 5], 4, 5) := by decide

/-- from_top -/
example : (let s := after [.pushMany 1 [2, 3, 4, 5, 6]]
    checkIterator s revInc revDec (fromTop s 6) (rend s)) = some (some [1, 2, 3, 4, 5, 6], 5, 6) := by decide

/-- sync_iterator -/
example : (syncForEach (after [.pushMany 1 [2, 3, 4, 5]]) 20).toOption = some (some [5, 4, 3, 2, 1]) := by decide

/-- `si != m_stack.sync_end()` with a temporary -/
def notEnd : List (SOp Nat) := [.newEnd, .eq 0 1, .drop 1]

/-- sync_iterator_shrink -/
example : ((srun ⟨m_stack, []⟩ ([.call (.pushMany 1 [2, 3, 4, 5, 101, 102, 103]), .newBegin, .call (.popMany 3),
      .get 0, .inc 0, .get 0, .inc 0, .get 0, .inc 0, .call (.popMany 2), .call .shrink, .call .stats] ++
      notEnd ++ [.get 0, .inc 0] ++ notEnd ++ [.get 0, .inc 0] ++ notEnd ++ [.drop 0, .call .stats])).toOption.map (·.2)) =
    some ([.call .unit, .unit, .call (.vals [103, 102, 101]),
      .val 5, .unit, .val 4, .unit, .val 3, .unit, .call (.vals [5, 4]), .call .unit, .call (.stats ⟨2, 4, 1, 3⟩)] ++
      [.unit, .bool false, .unit] ++ [.val 2, .unit] ++ [.unit, .bool false, .unit] ++ [.val 1, .unit] ++
      [.unit, .bool true, .unit] ++ [.unit, .call (.stats ⟨1, 4, 1, 3⟩)]) := by decide

/-- `si.get(svalue); ++si;` -/
def getInc : List (SOp Nat) := [.get 0, .inc 0]

/-- sync_iterator_jump_base -/
example : ((srun ⟨m_stack, []⟩ ((List.range 17).map (fun p => .call (.push p)) ++ .newBegin ::
      (List.replicate 9 getInc).flatten ++ .call (.discard 5) :: getInc ++ .call (.discard 8) :: getInc ++
      [.get 0, .call .top, .inc 0])).toOption.map (fun r => r.2.drop 18)) =
    some (([16, 15, 14, 13, 12, 11, 10, 9, 8].map (fun n => [SOut.val n, .unit])).flatten ++
      [.call .unit, .val 7, .unit, .call .unit, .val 3, .unit, .val 2, .call (.val 3), .unit]) := by decide

/-- peek, peek_reverse_one, peek_reverse, peek_depth -/
example : outs m_stack [.pushMany 101 [1, 2, 3, 102], .peek 5, .top] = some [.unit, .vals [102, 3, 2, 1, 101], .val 102] := by decide
example : outs m_stack [.pushMany 101 [1, 2, 3, 102], .peekDepth 1 1, .top] = some [.unit, .vals [102], .val 102] := by decide
example : outs m_stack [.pushMany 101 [1, 2, 3, 102], .peekReverse 5] = some [.unit, .vals [101, 1, 2, 3, 102]] := by decide
example : outs m_stack [.pushMany 100 [101, 1, 2, 3, 102], .peekDepth 5 5] = some [.unit, .vals [101, 1, 2, 3, 102]] := by decide

/-- discard_count -/
example : outs m_stack [.pushMany 100 [101, 1, 2, 3, 102], .discard 0, .top, .discard 1, .top, .discard 1, .top, .discard 3, .top,
      .discard 1, .empty, .discard 0, .empty] =
    some [.unit, .unit, .val 102, .unit, .val 3, .unit, .val 2, .unit, .val 100, .unit, .bool true, .unit, .bool true] := by decide

/-- `auto iter = begin; iter += n; m_stack.discard(iter);` -/
def discardAt (s : PS Nat) (n : Nat) : Res (PS Nat) := do discardIter s (← stepN (fwdInc s) n (← begin_ s))

/-- `auto iter = rbegin; iter += n; m_stack.discard(iter);` -/
def discardAtR (s : PS Nat) (n : Nat) : Res (PS Nat) := do discardIter s (← stepN (revInc s) n (← rbegin s))

/-- the stack of the discard tests -/
def dstack : PS Nat := after [.pushMany 100 [101, 1, 2, 3, 102]]

/-- discard_direct -/
example : (do
    let s ← discardAt dstack 0
    let a ← top s
    let s ← discardAt s 0
    let b ← top s
    let s ← discardAt s 1
    let c ← top s
    let s ← discardAt s 0
    let d ← top s
    let s ← discardAt s 0
    .ok (a, b, c, d, ← isEmpty s) : Res _).toOption = some (3, 2, 101, 100, true) := by decide

/-- discard_direct_all, discard_reverse, discard_reverse_all -/
example : (do top (← discardAt dstack 4)).toOption = some 100 := by decide
example : (do top (← discardAtR dstack 4)).toOption = some 2 := by decide
example : (do isEmpty (← discardAtR dstack 0)).toOption = some true := by decide

/-- pop_reverse -/
example : (do
    let (s, vs) ← popReverse dstack 5
    .ok (vs, ← top s) : Res _).toOption = some ([101, 1, 2, 3, 102], 100) := by decide

/-- allocator_smoke, allocator: every page is one list node and one reserved block, so the number of
allocations of both kinds is the number of pages -/
example : (m_stack.base.length, (after [.pushMany 1 [2, 3, 4, 5, 6, 7, 8, 9, 10, 11, 12]]).base.length,
    (after [.pushMany 1 [2, 3, 4, 5, 6, 7, 8, 9, 10, 11, 12], .popMany 5, .pushMany 12 [11, 10, 9, 8, 13]]).base.length) = (2, 4, 4) := by decide

end Falcon.Check.PagedStackTests
