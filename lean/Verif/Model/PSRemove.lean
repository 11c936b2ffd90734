import Verif.Model.PagedStack
/-
Removing elements from a `PagedStack`, with what the destructors of the elements find if they look at the
stack meanwhile.

The elements live in `std::vector` pages. libstdc++ lowers the end pointer and then destroys the element in
`pop_back` (stl_vector.h); `clear()` and `resize()` to fewer elements call `_M_erase_at_end`, which
destroys the elements from the first one to remove up to the last and lowers the end pointer afterwards.

Simplifications: as in `Model/PagedStack.lean`; destructors look at the stack only, by `size()`, `empty()`
and `top()` (what happens when they change it is the subject of `Model/PSNested.lean`).
-/
namespace Falcon.PSRemove
open Falcon.PagedStack

variable {V : Type}

/-- The destructor of `elem` runs and calls `size()`, `empty()` and `top()`. pagedstack.h 435, 555-558, 693-703. -/
structure Glimpse (V : Type) where
  elem  : V
  size  : Res Nat
  empty : Res Bool
  top   : Res V

/-- What a destructor finds that runs while the stack is in state `s`. pagedstack.h 435, 555-558, 693-703. -/
def look (s : PS V) (v : V) : Glimpse V := ⟨v, PagedStack.size s, isEmpty s, PagedStack.top s⟩

/-- `m_curBase->clear()` (k = 0) and `m_curBase->resize(k)`, 501, 507, 530: all elements from index k on are destroyed
in ascending order, and only then does the page become shorter. -/
def eraseFrom (s : PS V) (k : Nat) : Res (PS V × List (Glimpse V)) := do
  let p ← s.page s.cur
  .ok (s.setPage s.cur (p.take k), (p.drop k).map (look s))

/-- `discard(count)`, 496-508; the first argument is the index of the current page. -/
def discardAt : Nat → PS V → Nat → Res (PS V × List (Glimpse V))
  | 0, s, count => do
    let p ← s.page s.cur
    if count ≥ p.length then eraseFrom s 0 else eraseFrom s (p.length - count)
  | c + 1, s, count => do
    let p ← s.page s.cur
    if count ≥ p.length then do
      let (s, g) ← eraseFrom s 0
      let (s, g') ← discardAt c { s with cur := c } (count - p.length)
      .ok (s, g ++ g')
    else eraseFrom s (p.length - count)

/-- `discard(count)`, 496-508. -/
def discard (s : PS V) (count : Nat) : Res (PS V × List (Glimpse V)) := discardAt s.cur s count

/-- `clear()`, 526-533; the first argument is the index of the current page. -/
def clearAt : Nat → PS V → Res (PS V × List (Glimpse V))
  | 0, s => do
    let _ ← s.page s.cur
    .ok (s, [])
  | c + 1, s => do
    let (s, g) ← eraseFrom s 0
    let (s, g') ← clearAt c { s with cur := c }
    .ok (s, g ++ g')

/-- `clear()`, 526-533. -/
def clear (s : PS V) : Res (PS V × List (Glimpse V)) := clearAt s.cur s

/-- `pop()`, 469-473, 96-101: the page is shorter already when the destructor runs, but `m_curBase` is still the old one. -/
def pop (s : PS V) : Res (PS V × Glimpse V) := do
  let p ← s.page s.cur
  match p.getLast? with
  | none   => .error (.ub .emptyPopBack)
  | some v => do
    let t := s.setPage s.cur p.dropLast
    let s ← popOne s
    .ok (s, look t v)

end Falcon.PSRemove
