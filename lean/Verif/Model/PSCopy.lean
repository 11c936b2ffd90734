import Verif.Model.PagedStack
/-
Model of several `falcon::PagedStack` objects with the copy, move and swap operations that the
compiler generates for them (src/include/falcon/engine/pagedstack.h 57-66: no special member is
declared, so all of them are memberwise; with the default `dummy_mutex` 32-37 all members can be
copied).

Every object owns the nodes of its `std::list m_base`; a node is a heap cell holding one page.
The list iterator `m_curBase` designates a node, *not* a position: copying an object copies the
designated node, moving an object moves the nodes and therefore keeps the iterator valid.
Simplifications: as in Model/PagedStack; `std::list` operations behave as in libstdc++ (copy
assignment reuses the nodes of the target, move assignment frees them and takes the source's,
self move assignment empties the list).
-/
namespace Falcon.PSCopy
open Falcon.PagedStack

/-- Fields of one `PagedStack`: pagedstack.h 57-66. `cur = none` is `m_base.end()`. -/
structure Obj where
  pageSize  : Nat
  allocSize : Nat
  nodes     : List Nat
  cur       : Option Nat
  syncCount : Int
  shrinkReq : Bool
  deriving DecidableEq, Repr

/-- The objects of the program (by variable number) and the list nodes: pagedstack.h 57-66. -/
structure World (α : Type) where
  heap : Nat → Option (List α)
  next : Nat
  objs : Nat → Option Obj

variable {α : Type}

/-- No object exists yet. Initial state of a program using pagedstack.h. -/
def empty : World α := { heap := fun _ => none, next := 0, objs := fun _ => none }

/-- The variable `i` holds `o` from now on. Not in the code: update of the state. -/
def World.put (w : World α) (i : Nat) (o : Option Obj) : World α :=
  { w with objs := fun k => if k = i then o else w.objs k }

/-- The nodes `ns` are freed: `std::list` destructor / `clear` / `erase`, pagedstack.h 139-146. -/
def World.free (w : World α) (ns : List Nat) : World α :=
  { w with heap := fun n => if n ∈ ns then none else w.heap n }

/-- The stack as `Model/PagedStack` sees it, when `m_curBase` designates a node of the object's
own list; pagedstack.h 57-66. -/
def load (w : World α) (o : Obj) : Option (PS α) :=
  match o.cur with
  | none   => none
  | some c =>
    if c ∈ o.nodes then
      some { pageSize := o.pageSize, allocSize := o.allocSize,
             base := o.nodes.map (fun n => (w.heap n).getD []), cur := o.nodes.idxOf c,
             syncCount := o.syncCount, shrinkReq := o.shrinkReq }
    else none

/-- State after a call that turned the stack into `s`: pages appended by `growBase` (69-76) get
new nodes, the nodes of pages erased by `internal_shrink_to_fit` (139-146) are freed. -/
def store (w : World α) (i : Nat) (o : Obj) (s : PS α) : World α :=
  let fresh := List.range' w.next (s.base.length - o.nodes.length)
  let nodes := o.nodes.take s.base.length ++ fresh
  { heap := fun n =>
      if n ∈ nodes then s.base[nodes.idxOf n]?
      else if n ∈ o.nodes then none
      else w.heap n
    next := w.next + (s.base.length - o.nodes.length)
    objs := fun k => if k = i then
        some { o with nodes := nodes, cur := nodes[s.cur]?,
                      syncCount := s.syncCount, shrinkReq := s.shrinkReq }
      else w.objs k }

/-- A call on an object whose `m_curBase` designates the page `p` (node `c`) of another list.
`push` 127-130 and `pop` 96-101 work on that page; every comparison of `m_curBase` with
`m_base.begin()`/`m_base.end()` compares iterators of different lists, which is undefined.
Simplification: the calls not listed here (all of them compare or may compare) are taken to be
undefined. -/
def callForeign (w : World α) (o : Obj) (c : Nat) (p : List α) : Op α → Res (World α × Out α)
  | .push x =>
      if p.length = o.pageSize then .error (.ub .foreignIter)
      else .ok ({ w with heap := fun n => if n = c then some (p ++ [x]) else w.heap n }, .unit)
  | .pushEmplace x =>
      if p.length = o.pageSize then .error (.ub .foreignIter)
      else .ok ({ w with heap := fun n => if n = c then some (p ++ [x]) else w.heap n }, .unit)
  | .pop =>
      if p = [] then .error (.ub .emptyPopBack)
      else if p.dropLast = [] then .error (.ub .foreignIter)
      else .ok ({ w with heap := fun n => if n = c then some p.dropLast else w.heap n }, .unit)
  | .top =>
      match p.getLast? with
      | some x => .ok (w, .val x)
      | none   => .error (.ub .emptyBack)
  | .setTop x =>
      if p = [] then .error (.ub .emptyBack)
      else .ok ({ w with heap := fun n => if n = c then some (p.dropLast ++ [x]) else w.heap n }, .unit)
  | _ => .error (.ub .foreignIter)

/-- A public call on the object `i` (pagedstack.h 423-721). -/
def call (w : World α) (i : Nat) (op : Op α) : Res (World α × Out α) :=
  match w.objs i with
  | none   => .error (.ub .useAfterFree)
  | some o =>
    match load w o with
    | some s =>
      match PagedStack.step s op with
      | .ok (s', out) => .ok (store w i o s', out)
      | .error e      => .error e
    | none =>
      match o.cur with
      | none   => .error (.ub .derefListEnd)
      | some c =>
        match op with
        | .syncDrop => -- 148-154, does not look at the page
          if o.syncCount - 1 = 0 ∧ o.shrinkReq = true then .error (.ub .foreignIter)
          else .ok (w.put i (some { o with syncCount := o.syncCount - 1 }), .unit)
        | .shrink => -- 541-548
          if o.syncCount > 0 then .ok (w.put i (some { o with shrinkReq := true }), .unit)
          else .error (.ub .foreignIter)
        | op =>
          match w.heap c with
          | none   => .error (.ub .useAfterFree)
          | some p => callForeign w o c p op

/-- Constructor, pagedstack.h 423-432. -/
def construct (w : World α) (i ps al : Nat) : World α :=
  let ns := List.range' w.next al
  { heap := fun n => if n ∈ ns then some [] else w.heap n
    next := w.next + al
    objs := fun k => if k = i then
        some { pageSize := ps, allocSize := al, nodes := ns, cur := ns.head?, syncCount := 0,
               shrinkReq := false }
      else w.objs k }

/-- The page held by the `k`-th node of `ns`. Part of copying `m_base`, pagedstack.h 61. -/
def nodePage (w : World α) (ns : List Nat) (k : Nat) : Option (List α) := ns[k]?.bind w.heap

/-- Implicit copy constructor (57-66): the pages are copied to new nodes, `m_curBase` is copied
as it is. -/
def copyConstruct (w : World α) (i : Nat) (o : Obj) : World α :=
  let ns := List.range' w.next o.nodes.length
  { heap := fun n => if n ∈ ns then nodePage w o.nodes (ns.idxOf n) else w.heap n
    next := w.next + o.nodes.length
    objs := fun k => if k = i then some { o with nodes := ns } else w.objs k }

/-- Implicit copy assignment (57-66) of `o` to the object `i` that holds `t`: `std::list`
copies page by page into the nodes of the target, adds or erases nodes at the end. -/
def copyAssign (w : World α) (i : Nat) (t o : Obj) : World α :=
  let fresh := List.range' w.next (o.nodes.length - t.nodes.length)
  let ns := t.nodes.take o.nodes.length ++ fresh
  { heap := fun n =>
      if n ∈ ns then nodePage w o.nodes (ns.idxOf n)
      else if n ∈ t.nodes then none
      else w.heap n
    next := w.next + (o.nodes.length - t.nodes.length)
    objs := fun k => if k = i then some { o with nodes := ns } else w.objs k }

/-- A moved-from object (57-66): the list is empty, the other members keep their values. -/
def Obj.gone (o : Obj) : Obj := { o with nodes := [] }

/-- Implicit move assignment (57-66) of the moved value `o` to the object `i` that holds `t`. -/
def takeOver (w : World α) (i : Nat) (t o : Obj) : World α := (w.free t.nodes).put i (some o)

/-- What a program does with `PagedStack` variables: declarations, copies, moves, `std::swap`,
end of life, calls. pagedstack.h 57-66, 423-721. -/
inductive Act (α : Type) where
  | new (i ps al : Nat)
  | copyNew (i j : Nat)        -- PagedStack i(j);
  | moveNew (i j : Nat)        -- PagedStack i(std::move(j));
  | copyTo (i j : Nat)         -- i = j;
  | moveTo (i j : Nat)         -- i = std::move(j);
  | swap (i j : Nat)           -- std::swap(i, j);
  | destroy (i : Nat)
  | call (i : Nat) (op : Op α)
  deriving DecidableEq, Repr

/-- `i = std::move(j)`, 57-66. -/
def moveTo (w : World α) (i j : Nat) : Res (World α) :=
  match w.objs i, w.objs j with
  | some t, some o =>
    if i = j then .ok ((w.free o.nodes).put i (some o.gone))
    else .ok ((takeOver w i t o).put j (some o.gone))
  | _, _ => .error (.ub .useAfterFree)

/-- `std::swap(i, j)`: `T t(std::move(i)); i = std::move(j); j = std::move(t);`, 57-66. -/
def swap (w : World α) (i j : Nat) : Res (World α) :=
  match w.objs i with
  | none   => .error (.ub .useAfterFree)
  | some t =>
    match moveTo (w.put i (some t.gone)) i j with
    | .error e => .error e
    | .ok w'   =>
      match w'.objs j with
      | none    => .error (.ub .useAfterFree)
      | some o' => .ok (takeOver w' j o' t)

/-- One action of the program; a declaration reuses a variable only after its end of life.
pagedstack.h 57-66, 423-721. -/
def act (w : World α) : Act α → Res (World α × Out α)
  | .new i ps al  => .ok (construct w i ps al, .unit)
  | .copyNew i j  =>
    match w.objs j with
    | some o => .ok (copyConstruct w i o, .unit)
    | none   => .error (.ub .useAfterFree)
  | .moveNew i j  =>
    match w.objs j with
    | some o => .ok ((w.put i (some o)).put j (some o.gone), .unit)
    | none   => .error (.ub .useAfterFree)
  | .copyTo i j   =>
    match w.objs i, w.objs j with
    | some t, some o => if i = j then .ok (w, .unit) else .ok (copyAssign w i t o, .unit)
    | _, _           => .error (.ub .useAfterFree)
  | .moveTo i j   =>
    match moveTo w i j with
    | .ok w'   => .ok (w', .unit)
    | .error e => .error e
  | .swap i j     =>
    match swap w i j with
    | .ok w'   => .ok (w', .unit)
    | .error e => .error e
  | .destroy i    =>
    match w.objs i with
    | some o => .ok ((w.free o.nodes).put i none, .unit)
    | none   => .error (.ub .doubleFree)
  | .call i op    => call w i op

/-- A program: everything its calls returned. Not in the code: a history of uses of pagedstack.h. -/
def run (w : World α) : List (Act α) → Res (World α × List (Out α))
  | []      => .ok (w, [])
  | a :: as =>
    match act w a with
    | .error e     => .error e
    | .ok (w', o)  =>
      match run w' as with
      | .error e       => .error e
      | .ok (w'', os)  => .ok (w'', o :: os)

end Falcon.PSCopy
