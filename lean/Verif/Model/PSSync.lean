import Verif.Model.PagedStack
/-
Model of the sync iterators of `PagedStack` (pagedstack.h 302-401, 148-154, 576-581): a stack
together with the list of sync iterators that are alive.

Every call takes the stack mutex for its whole duration, so a history of calls from any number
of threads is a sequence of the steps below (that the mutex gives this is C24/C32).
Simplifications: pages are named by their index (a page freed by `erase` and a page allocated
later may get the same index; the index is out of range until then), and an invalidated vector
iterator still has its numeric offset as long as the vector's storage is not freed.
-/
namespace Falcon.PagedStack
variable {α : Type}

/-- Fields of `sync_iterator_base`, 395-398: `m_iBase` is `page`, `m_iData` points at offset
`off` (`-1` for the `begin()-1` mark) of the storage of page `dpage`, `m_iBaseBegin` is `bound`.
`threw` is a ghost flag: some call on this iterator has thrown. -/
structure SIter where
  page  : Nat
  dpage : Nat
  off   : Int
  bound : Nat
  threw : Bool
  deriving DecidableEq, Repr

/-- A stack and its live sync iterators. pagedstack.h 302-400: the stack's list of registered iterators. -/
structure Sys (α : Type) where
  st  : PS α
  its : List SIter
  deriving DecidableEq, Repr

/-- Outcome of `synchronize`. pagedstack.h 302-400. -/
inductive SyncRes where
  | inSync (it : SIter)     -- returned true
  | resync (it : SIter)     -- returned false, iterator moved to the top
  | threw  (it : SIter)     -- threw runtime_error
  deriving DecidableEq, Repr

/-- 380-391: move to the current page; throw if it is empty (`m_iBase` is already changed then,
`m_iData` is not). -/
def resyncTop (s : PS α) (it : SIter) : Res SyncRes := do
  let p ← s.page s.cur
  let it := { it with page := s.cur }
  if p.length = 0 then .ok (.threw { it with threw := true })
  else .ok (.resync { it with dpage := s.cur, off := (p.length : Int) - 1 })

/-- `synchronize` 363-393.  `m_iBase->size() > m_iData - m_iBase->begin()` compares unsigned, so
a negative difference counts as huge; subtracting pointers into different arrays is undefined.
The search 372-378 starts from a live list node, so the page must still exist. -/
def synchronize (s : PS α) (it : SIter) : Res SyncRes := do
  let p ← s.page it.page
  if s.cur = it.page then
    if it.dpage ≠ it.page then .error (.ub .ptrRange)
    else if 0 ≤ it.off ∧ it.off < p.length then .ok (.inSync it)
    else resyncTop s it
  else if it.page < s.cur then .ok (.inSync it)
  else resyncTop s it

/-- `*m_iData`. pagedstack.h 302-400. -/
def SIter.deref (s : PS α) (it : SIter) : Res α := do
  let p ← s.page it.dpage
  if it.off < 0 then .error (.ub .derefData)
  else match p[it.off.toNat]? with
    | some x => .ok x
    | none   => .error (.ub .derefData)

/-- What a call on a sync iterator reports. pagedstack.h 302-400. -/
inductive SOut (α : Type) where
  | unit
  | val (x : α)
  | bool (b : Bool)
  | call (o : Out α)
  | threw
  deriving DecidableEq, Repr

/-- `get` 306-310. -/
def syncGet (s : PS α) (it : SIter) : Res (SIter × SOut α) := do
  match ← synchronize s it with
  | .threw it  => .ok (it, .threw)
  | .inSync it => do .ok (it, .val (← it.deref s))
  | .resync it => do .ok (it, .val (← it.deref s))

/-- `operator++` 321-331. -/
def syncInc (s : PS α) (it : SIter) : Res (SIter × SOut α) := do
  match ← synchronize s it with
  | .threw it  => .ok (it, .threw)
  | .resync it => .ok (it, .unit)
  | .inSync it =>
    if it.dpage ≠ it.page then .error (.ub .ptrRange)
    else if it.off = 0 ∧ it.page ≠ it.bound then
      if it.page = 0 then .error (.ub .decListBegin)
      else do
        let q ← s.page (it.page - 1)
        let o ← ptrDec q.length
        .ok ({ it with page := it.page - 1, dpage := it.page - 1, off := o }, .unit)
    else do
      let o ← ptrDec it.off
      .ok ({ it with off := o }, .unit)

/-- `operator--` 333-343. -/
def syncDec (s : PS α) (it : SIter) : Res (SIter × SOut α) := do
  match ← synchronize s it with
  | .threw it  => .ok (it, .threw)
  | .resync it => .ok (it, .unit)
  | .inSync it =>
    if it.dpage ≠ it.page then .error (.ub .ptrRange)
    else do
      let p ← s.page it.page
      let o ← ptrInc p it.off
      if o = p.length then do
        let _ ← s.page (it.page + 1)
        .ok ({ it with page := it.page + 1, dpage := it.page + 1, off := 0 }, .unit)
      else .ok ({ it with off := o }, .unit)

/-- `operator==` 312-315. -/
def SIter.eqv (a b : SIter) : Bool := a.page == b.page && a.dpage == b.dpage && a.off == b.off

/-- `sync_begin` 576, 578: `--m_curBase->end()`. -/
def syncBegin (s : PS α) : Res SIter := do
  let p ← s.page s.cur
  .ok { page := s.cur, dpage := s.cur, off := (p.length : Int) - 1, bound := 0, threw := false }

/-- `sync_end` 577, 579. -/
def syncEnd (s : PS α) : Res SIter := do
  let _ ← s.page 0
  .ok { page := 0, dpage := 0, off := -1, bound := 0, threw := false }

/-- Calls of a program that uses a stack and sync iterators; `i` names a live iterator by its
place in the list of live iterators. pagedstack.h 302-400, 423-721. -/
inductive SOp (α : Type) where
  | call (op : Op α)            -- any stack call (not the internal syncNew / syncDrop)
  | clear
  | popReverse (n : Nat)
  | newBegin                    -- sync_begin()
  | newEnd                      -- sync_end()
  | drop (i : Nat)              -- destructor
  | get (i : Nat)
  | inc (i : Nat)
  | dec (i : Nat)
  | eq (i j : Nat)
  | copy (i : Nat)              -- implicit copy constructor (the class declares none)
  deriving DecidableEq, Repr

/-- A use of iterator `i`. pagedstack.h 302-400. -/
def useIter (y : Sys α) (i : Nat) (f : PS α → SIter → Res (SIter × SOut α)) : Res (Sys α × SOut α) :=
  match y.its[i]? with
  | none    => .error (.ub .useAfterFree)
  | some it => do
      let (it', o) ← f y.st it
      .ok ({ y with its := y.its.set i it' }, o)

/-- One step of the program. pagedstack.h 302-400, 423-721. -/
def sstep (y : Sys α) : SOp α → Res (Sys α × SOut α)
  | .call op      => do
      let (s, o) ← step y.st op
      .ok ({ y with st := s }, .call o)
  | .clear        => do .ok ({ y with st := ← clear y.st }, .unit)
  | .popReverse n => do
      let (s, vs) ← popReverse y.st n
      .ok ({ y with st := s }, .call (.vals vs))
  | .newBegin     => do
      let it ← syncBegin y.st
      .ok ({ st := syncNew y.st, its := y.its ++ [it] }, .unit)
  | .newEnd       => do
      let it ← syncEnd y.st
      .ok ({ st := syncNew y.st, its := y.its ++ [it] }, .unit)
  | .drop i       =>
      if i < y.its.length then .ok ({ st := syncDrop y.st, its := y.its.eraseIdx i }, .unit)
      else .error (.ub .useAfterFree)
  | .get i        => useIter y i syncGet
  | .inc i        => useIter y i syncInc
  | .dec i        => useIter y i syncDec
  | .eq i j       =>
      match y.its[i]?, y.its[j]? with
      | some a, some b => .ok (y, .bool (a.eqv b))
      | _, _           => .error (.ub .useAfterFree)
  | .copy i       =>
      match y.its[i]? with
      | some a => .ok ({ y with its := y.its ++ [a] }, .unit)
      | none   => .error (.ub .useAfterFree)

/-- A whole history. Not in the code: a history of calls of pagedstack.h 302-721. -/
def srun (y : Sys α) : List (SOp α) → Res (Sys α × List (SOut α))
  | []        => .ok (y, [])
  | op :: ops => do
      let (y, o) ← sstep y op
      let (y, os) ← srun y ops
      .ok (y, o :: os)

/-- `for(auto it = s.sync_begin(), e = s.sync_end(); it != e; ++it) { it.get(v); visit(v); }`
with a step bound (`none`: bound reached), no other call in between; an exception ends it.
Not in the code: a loop using pagedstack.h 302-400. -/
def syncLoop (s : PS α) (e : SIter) : Nat → SIter → Res (Option (List α))
  | 0,        _  => .ok none
  | fuel + 1, it =>
    if it.eqv e then .ok (some [])
    else do
      match ← syncGet s it with
      | (it, .val v) => do
          match ← syncInc s it with
          | (it, .unit) => do
              match ← syncLoop s e fuel it with
              | none    => .ok none
              | some vs => .ok (some (v :: vs))
          | _ => .error (.exn .runtimeError)
      | _ => .error (.exn .runtimeError)

/-- Not in the code: a loop using pagedstack.h 302-400. -/
def syncForEach (s : PS α) (fuel : Nat) : Res (Option (List α)) := do
  let b ← syncBegin s
  let e ← syncEnd s
  syncLoop s e fuel b

end Falcon.PagedStack
