import Verif.Model.PagedStack
/-
Writing through an iterator of `falcon::PagedStack`.
-/
namespace Falcon.PagedStack
variable {α : Type}

/-- `*it = v` through the reference returned by `operator*`, pagedstack.h 159-161 (reverse) and
232-234 (forward): the element the data pointer designates is overwritten.  The data pointer is
valid exactly for the elements of the page. -/
def Iter.assign (s : PS α) (it : Iter) (v : α) : Res (PS α) := do
  let p ← s.page it.page
  if it.off < 0 then .error (.ub .derefData)
  else if it.off.toNat < p.length then .ok (s.setPage it.page (p.set it.off.toNat v))
  else .error (.ub .derefData)

end Falcon.PagedStack
