import Verif.Model.Lifetime
/- Specification of the life of global objects, over what can be seen only. -/
namespace Falcon.Lifetime

/-- The objects whose constructors completed, in that order; those whose destructors began, in that order. -/
def makes (tr : List Ev) : List Obj := tr.filterMap (fun e => match e with | .made o => some o | _ => none)
def kills (tr : List Ev) : List Obj := tr.filterMap (fun e => match e with | .killed o => some o | _ => none)

/-- The user's objects in a list. -/
def users (os : List Obj) : List Nat := os.filterMap (fun o => match o with | .user i => some i | _ => none)

/-- What is seen when a use succeeds. -/
def seen : Use → Ev
  | .single k => .used k
  | .compose => .composed

/-- Every use of a singleton is of an instance that was completely constructed and not yet destroyed. -/
def UsesAlive (tr : List Ev) : Prop :=
  ∀ pre k post, tr = pre ++ .used k :: post → .made (.inst k) ∈ pre ∧ .killed (.inst k) ∉ pre

/-- No constructor leads back to itself. -/
def Acyclic (P : Prog) : Prop :=
  ∃ rank : Nat → Nat, ∀ k j, .single j ∈ P.ctor (.inst k) → rank j < rank k

/-- A destructor composes no log entry, and uses only singletons that the constructor of the same object uses as well
(or ones that are never destroyed, and whose constructor needs none). -/
def Careful (P : Prog) : Prop :=
  ∀ o, .compose ∉ P.dtor o ∧
    ∀ k, .single k ∈ P.dtor o → .single k ∈ P.ctor o ∨ (P.leaked k = true ∧ P.ctor (.inst k) = [])

/-- Whether an object is ever destroyed. -/
def Prog.dies (P : Prog) : Obj → Bool
  | .user _ => true
  | .inst k => !P.leaked k

/-- Of two objects, the one completed later is destroyed earlier (if it was completed before the other's destructor began). -/
def Reverse (P : Prog) (tr : List Ev) : Prop :=
  ∀ a b c d o p, tr = a ++ .made o :: b ++ .made p :: c ++ .killed o :: d → P.dies p = true → p ∈ kills c

end Falcon.Lifetime
