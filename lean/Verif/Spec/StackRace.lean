import Verif.Model.StackRace
import Verif.Spec.StackObs
/-
Vocabulary: data races between uses of plain iterators and calls on a PagedStack.
-/
namespace Falcon.PagedStack
variable {α : Type}

/-- Iterator `it` designates the element that has `h` elements below it. -/
def At (ps h : Nat) (it : Iter) : Prop := it.page = h / ps ∧ it.off = ((h % ps : Nat) : Int)

/-- How many elements a call adds. -/
def adds : Op α → Nat
  | .push _ | .pushEmplace _ => 1
  | .pushMany _ xs => xs.length + 1
  | _ => 0

/-- How many elements a call removes. -/
def takes : Op α → Nat
  | .pop => 1
  | .popMany n | .discard n => n
  | _ => 0

/-- The call reads the element that has `h` elements below it, of `n`. -/
def Looks (n h : Nat) : Op α → Prop
  | .popMany m | .peek m | .peekReverse m => h < n ∧ n ≤ h + m
  | .peekDepth d m => n ≤ h + d ∧ h + d < n + m
  | _ => False

/-- The documented preconditions, for a stack of `n` elements. -/
def Callable (n : Nat) : Op α → Prop
  | .pop | .top | .setTop _ => 0 < n
  | .popMany m | .discard m | .peek m | .peekReverse m => m ≤ n
  | .peekDepth d m => m ≤ d ∧ d ≤ n
  | _ => True

/-- One thread is about to use an iterator, another to make a call: a data race. -/
def RaceWith (s : PS α) (u : Use) (op : Op α) : Prop := ∃ x ∈ useFoot s u, ∃ y ∈ lockFoot s op, Race.Clash x y

/-- Two threads are about to use iterators: a data race. -/
def RaceUses (s : PS α) (u u' : Use) : Prop := ∃ x ∈ useFoot s u, ∃ y ∈ useFoot s u', Race.Clash x y

/-- What a use without the mutex yields: an iterator or an element. -/
def result (s : PS α) : Use → Res (Iter ⊕ α)
  | .begin => do .ok (.inl (← begin_ s))
  | .end_ => do .ok (.inl (← PagedStack.end_ s))
  | .rbegin => do .ok (.inl (← PagedStack.rbegin s))
  | .rend => do .ok (.inl (← PagedStack.rend s))
  | .inc it => do .ok (.inl (← fwdInc s it))
  | .dec it => do .ok (.inl (← fwdDec s it))
  | .rinc it => do .ok (.inl (← revInc s it))
  | .rdec it => do .ok (.inl (← revDec s it))
  | .read it => do .ok (.inr (← it.deref s))
  | .write it => .ok (.inl it)

/-- A cell has the same contents in both stacks. -/
def Cell.Same (s s' : PS α) : Cell → Prop
  | .cur => s.cur = s'.cur
  | .head => s.base = [] ↔ s'.base = []
  | .tail => s.base.length = s'.base.length
  | .next i => (i < s.base.length ↔ i < s'.base.length) ∧ (i + 1 < s.base.length ↔ i + 1 < s'.base.length)
  | .prev i | .start i => i < s.base.length ↔ i < s'.base.length
  | .finish i => s.base[i]?.map List.length = s'.base[i]?.map List.length
  | .elem i j => s.base[i]?.bind (·[j]?) = s'.base[i]?.bind (·[j]?)
  | .sync => s.syncCount = s'.syncCount
  | .shrinkReq => s.shrinkReq = s'.shrinkReq

end Falcon.PagedStack
