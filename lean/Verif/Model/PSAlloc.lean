import Verif.Model.PagedStack
/-
Model of `falcon::PagedStack` (src/include/falcon/engine/pagedstack.h) when memory runs out.
Pages carry their capacity; every allocation asks an oracle, the list of the outcomes of the
allocations to come (`true`: succeeds; an exhausted list means success from then on).
Simplifications: as in Model/PagedStack; sync iterators are left out; `std::vector` grows as in
libstdc++ (capacity doubles, 1 at first); a throwing `push_back` leaves the vector unchanged
(strong guarantee of the standard).
-/
namespace Falcon.PSAlloc
open Falcon.PagedStack
variable {α : Type}

/-- A page: `std::vector<_T>`, pagedstack.h 57. -/
structure Page (α : Type) where
  items : List α
  cap   : Nat
  deriving DecidableEq, Repr

/-- Fields of `PagedStack`, pagedstack.h 57-66. -/
structure PSA (α : Type) where
  pageSize  : Nat
  allocSize : Nat
  base      : List (Page α)
  cur       : Nat
  deriving DecidableEq, Repr

/-- Outcome of the next allocation. Not in the code: the environment. -/
def alloc : List Bool → Bool × List Bool
  | []     => (true, [])
  | b :: o => (b, o)

/-- What a push did: returned normally (and whether elements that were on the stack have moved in
memory), or threw `std::bad_alloc`. pagedstack.h 127-130. -/
inductive POut where
  | done (moved : Bool)
  | badAlloc
  deriving DecidableEq, Repr

/-- Loop of `growBase` 69-76 with `n` rounds to go: a list node is allocated (72), then the page
in it reserves its elements (73).  `false`: `std::bad_alloc` left the loop. -/
def growBase (s : PSA α) (o : List Bool) : Nat → PSA α × List Bool × Bool
  | 0     => (s, o, true)
  | n + 1 =>
    let (b1, o) := alloc o
    if b1 = false then (s, o, false)
    else
      let (b2, o) := if s.pageSize = 0 then (true, o) else alloc o
      if b2 = false then ({ s with base := s.base ++ [⟨[], 0⟩] }, o, false)
      else growBase { s with base := s.base ++ [⟨[], s.pageSize⟩] } o n

/-- `*iter` for a list iterator. pagedstack.h 423-721. -/
def PSA.page (s : PSA α) (i : Nat) : Res (Page α) :=
  match s.base[i]? with
  | some p => .ok p
  | none   => .error (.ub .derefListEnd)

/-- `advance` 78-87; when `growBase` throws (83) `m_curBase` is back on the full page (82). -/
def advance (s : PSA α) (o : List Bool) : Res (PSA α × List Bool × Bool) :=
  match s.page s.cur with
  | .error e => .error e
  | .ok p    =>
    if p.items.length = s.pageSize then
      if s.cur + 1 = s.base.length then
        match growBase s o s.allocSize with
        | (s', o', false) => .ok (s', o', false)
        | (s', o', true)  => .ok ({ s' with cur := s'.cur + 1 }, o', true)
      else .ok ({ s with cur := s.cur + 1 }, o, true)
    else .ok (s, o, true)

/-- `m_curBase->push_back(data)` 129: reallocates when the capacity is used up. -/
def pushBack (s : PSA α) (x : α) (o : List Bool) : Res (PSA α × List Bool × POut) :=
  match s.page s.cur with
  | .error e => .error e
  | .ok p    =>
    if p.items.length < p.cap then
      .ok ({ s with base := s.base.set s.cur ⟨p.items ++ [x], p.cap⟩ }, o, .done false)
    else
      match alloc o with
      | (false, o') => .ok (s, o', .badAlloc)
      | (true, o')  =>
        .ok ({ s with base := s.base.set s.cur ⟨p.items ++ [x], if p.cap = 0 then 1 else 2 * p.cap⟩ }, o',
          .done (!p.items.isEmpty))

/-- `internal_push` 127-130. -/
def push (s : PSA α) (x : α) (o : List Bool) : Res (PSA α × List Bool × POut) :=
  match advance s o with
  | .error e          => .error e
  | .ok (s, o, false) => .ok (s, o, .badAlloc)
  | .ok (s, o, true)  => pushBack s x o

/-- `internal_pop_one` 96-101; the capacity of the page is kept. -/
def popOne (s : PSA α) : Res (PSA α) :=
  match s.page s.cur with
  | .error e => .error e
  | .ok p    =>
    if p.items = [] then .error (.ub .emptyPopBack)
    else
      let s' := { s with base := s.base.set s.cur ⟨p.items.dropLast, p.cap⟩ }
      if p.items.dropLast = [] ∧ s.cur ≠ 0 then .ok { s' with cur := s.cur - 1 } else .ok s'

/-- Constructor 423-432; `none`: `std::bad_alloc`, there is no object. -/
def init (ps al : Nat) (o : List Bool) : Option (PSA α × List Bool) :=
  match growBase { pageSize := ps, allocSize := al, base := [], cur := 0 } o al with
  | (s, o, true) => some (s, o)
  | (_, _, false) => none

/-- The stack without the capacities, as in Model/PagedStack: pagedstack.h 57-66. -/
def toPS (s : PSA α) : PS α :=
  { pageSize := s.pageSize, allocSize := s.allocSize, base := s.base.map Page.items, cur := s.cur,
    syncCount := 0, shrinkReq := false }

end Falcon.PSAlloc
