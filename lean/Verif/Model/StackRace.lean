import Verif.Model.StackAssign
import Verif.Spec.DataRace
/-
Memory accesses of `falcon::PagedStack` instantiated with a real mutex (pagedstack.h), as far as two
threads can meet in them.

Public calls lock `m_mutex` (434-721); begin(), end(), rbegin(), rend() 560-574 and the plain
iterators 156-297 do not.  A cell is what one thread can access without touching another cell:
`m_curBase`, the pointers of a list node, the first and last pointer of a page, an element.

Simplifications: what a call reads under the mutex is listed for elements only, because elements are the
only cells that are ever written without the mutex; a vector operation that leaves the size alone writes
nothing (so in libstdc++); pages keep the capacity they reserved; clear(), discard(iterator) and
pop_reverse() are left out, as are the assertions.
-/
namespace Falcon.PagedStack
variable {α : Type}

/-- Memory cells. pagedstack.h 59-66; std::list and std::vector. -/
inductive Cell where
  | cur                  -- m_curBase
  | head                 -- first node of m_base
  | tail                 -- last node of m_base, and its length
  | next (i : Nat) | prev (i : Nat)       -- of the node of page i
  | start (i : Nat) | finish (i : Nat)    -- data(), data() + size() of page i
  | elem (i j : Nat)
  | sync                 -- m_syncIterCount
  | shrinkReq
  deriving DecidableEq, Repr

/-- The cells of `k` nodes from page `a` on: they are made, or destroyed. pagedstack.h 69-76, 139-146. -/
def nodes (a k : Nat) : List Cell :=
  (List.range k).flatMap fun j => [.next (a + j), .prev (a + j), .start (a + j), .finish (a + j)]

/-- Elements `a`, ..., `b - 1` of page `i`: they are destroyed. pagedstack.h 109, 117, 121, 500, 507. -/
def elems (i a b : Nat) : List Cell := (List.range (b - a)).map fun j => .elem i (a + j)

/-- `advance` 78-87, with `growBase` 69-76. -/
def advanceW (s : PS α) : List Cell :=
  match s.base[s.cur]? with
  | none   => []
  | some p =>
    if p.length = s.pageSize then
      if s.cur + 1 = s.base.length then [.cur, .tail, .next s.cur] ++ nodes s.base.length s.allocSize
      else [.cur]
    else []

/-- `push_back`, `emplace_back` 129, 135, 461. -/
def pushBackW (s : PS α) : List Cell :=
  match s.base[s.cur]? with
  | none   => []
  | some p => [.elem s.cur p.length, .finish s.cur]

/-- `push(x1, ..., xn)` 127-137, 437-462. -/
def pushW : PS α → List α → List Cell
  | _, []      => []
  | s, x :: xs =>
    advanceW s ++ match advance s with
      | .error _ => []
      | .ok s'   => pushBackW s' ++ match pushBack s' x with
        | .error _ => []
        | .ok s''  => pushW s'' xs

/-- `internal_pop_one` 96-101. -/
def popOneW (s : PS α) : List Cell :=
  match s.base[s.cur]? with
  | none   => []
  | some p => [.elem s.cur (p.length - 1), .finish s.cur] ++ if p.length = 1 ∧ s.cur ≠ 0 then [.cur] else []

/-- `pop()`, `pop(v1, ..., vn)` 89-103, 469-487. -/
def popW : PS α → Nat → List Cell
  | _, 0     => []
  | s, n + 1 => popOneW s ++ match popOne s with
    | .error _ => []
    | .ok s'   => popW s' n

/-- `resize(n)` to a smaller size, `clear()` with `n = 0`, of page `i`: 500, 507. -/
def cutW (i : Nat) (p : List α) (n : Nat) : List Cell :=
  if p.length ≤ n then [] else .finish i :: elems i n p.length

/-- `discard(size_t)` 496-508. -/
def discardW (base : List (List α)) : Nat → Nat → List Cell
  | 0, count =>
    match base[0]? with
    | none   => []
    | some p => cutW 0 p (p.length - count)
  | c + 1, count =>
    match base[c + 1]? with
    | none   => []
    | some p =>
      if count ≥ p.length then cutW (c + 1) p 0 ++ .cur :: discardW base c (count - p.length)
      else cutW (c + 1) p (p.length - count)

/-- `internal_shrink_to_fit` 139-146: the pages behind the current one are destroyed. -/
def eraseW (s : PS α) : List Cell :=
  if s.base.length ≤ s.cur + 1 then []
  else [.next s.cur, .tail] ++ nodes (s.cur + 1) (s.base.length - (s.cur + 1)) ++
    ((s.base.drop (s.cur + 1)).zipIdx (s.cur + 1)).flatMap fun (p, i) => elems i 0 p.length

/-- The cells a call writes; a destroyed element or node counts as written. pagedstack.h 434-721. -/
def writes (s : PS α) : Op α → List Cell
  | .push x | .pushEmplace x => pushW s [x]
  | .pushMany x xs => pushW s (x :: xs)
  | .pop           => popW s 1
  | .popMany n     => popW s n
  | .setTop _      =>
    match s.base[s.cur]? with
    | none   => []
    | some p => [.elem s.cur (p.length - 1)]
  | .discard n     => discardW s.base s.cur n
  | .shrink        => if s.syncCount > 0 then [.shrinkReq] else eraseW s
  | .syncNew       => [.sync]
  | .syncDrop      => .sync :: if s.syncCount = 1 ∧ s.shrinkReq = true then .shrinkReq :: eraseW s else []
  | .top | .peek _ | .peekReverse _ | .peekDepth _ _ | .empty | .size | .stats => []

/-- The elements `distribute` (distribute.h 21-48) reads, from `it` on. -/
def distributeR (step : Iter → Res Iter) : Nat → Iter → List Cell
  | 0,     _  => []
  | n + 1, it => .elem it.page it.off.toNat :: match step it with
    | .error _ => []
    | .ok it'  => distributeR step n it'

/-- The elements `pop(v1, ..., vn)` 89-94 reads. -/
def popR : PS α → Nat → List Cell
  | _, 0     => []
  | s, n + 1 =>
    match s.base[s.cur]? with
    | none   => []
    | some p => .elem s.cur (p.length - 1) :: match popOne s with
      | .error _ => []
      | .ok s'   => popR s' n

/-- The elements a call reads. `top()` 435 returns a reference and reads nothing. `pop(v...)` 91,
`peek` 626-664. -/
def elemReads (s : PS α) : Op α → List Cell
  | .popMany n     => popR s n
  | .peek n        => peekCells begin_ (fwdInc s) n
  | .peekReverse n => peekCells (fun s => fromTop s n) (revInc s) n
  | .peekDepth d n => peekCells (fun s => fromTop s d) (revInc s) n
  | _ => []
where
  peekCells (from_ : PS α → Res Iter) (step : Iter → Res Iter) (n : Nat) : List Cell :=
    match from_ s with
    | .error _ => []
    | .ok it   => distributeR step n it

/-- An access of a thread; the only mutex is the stack's. pagedstack.h 64. -/
abbrev Acc := Race.Access Cell Unit

/-- Accesses of a public call, all under the mutex. pagedstack.h 434-721. -/
def lockFoot (s : PS α) (op : Op α) : List Acc :=
  (writes s op).map (⟨·, true, false, [()]⟩) ++ (elemReads s op).map (⟨·, false, false, [()]⟩)

/-- What can be done without the mutex: pagedstack.h 156-297 and 560-574; `read` and `write` through
`*it`, and through the reference top() 435 returned. -/
inductive Use where
  | begin | end_ | rbegin | rend
  | inc (it : Iter) | dec (it : Iter)          -- forward iterators 266-282
  | rinc (it : Iter) | rdec (it : Iter)        -- reverse iterators 194-210
  | read (it : Iter) | write (it : Iter)
  deriving DecidableEq, Repr

/-- Cells read without the mutex. pagedstack.h 159-297, 560-574. -/
def useReads (s : PS α) : Use → List Cell
  | .begin  => [.cur, .finish s.cur, .head]
  | .end_   => [.head, .start 0]
  | .rbegin => [.head, .start 0, .tail]
  | .rend   => [.cur, .finish s.cur]
  | .inc it => .start it.page :: if it.off = 0 ∧ it.page ≠ it.bound then [.prev it.page, .finish (it.page - 1)] else []
  | .rdec it => .start it.page :: if it.off = 0 then [.prev it.page, .finish (it.page - 1)] else []
  | .dec it => .finish it.page :: if atEnd it then [.next it.page, .start (it.page + 1)] else []
  | .rinc it => .finish it.page :: if atEnd it ∧ it.page ≠ it.bound then [.next it.page, .start (it.page + 1)] else []
  | .read it => [.elem it.page it.off.toNat]
  | .write _ => []
where
  atEnd (it : Iter) : Bool :=
    match s.base[it.page]? with
    | none   => false
    | some p => it.off + 1 == (p.length : Int)

/-- Cells written without the mutex. pagedstack.h 159, 232. -/
def useWrites : Use → List Cell
  | .write it => [.elem it.page it.off.toNat]
  | _ => []

/-- Accesses without the mutex. pagedstack.h 156-297, 560-574. -/
def useFoot (s : PS α) (u : Use) : List Acc :=
  (useReads s u).map (⟨·, false, false, []⟩) ++ (useWrites u).map (⟨·, true, false, []⟩)

end Falcon.PagedStack
