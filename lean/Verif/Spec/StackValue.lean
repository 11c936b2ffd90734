import Verif.Model.PSCopy
import Verif.Spec.Stack
/-
Specification: stack variables with value semantics.  A variable holds an ideal stack of its own
(`live`) or nothing that can be used (`spent`: moved from).  What a copy holds is a parameter:
in the ideal semantics (`copies = true`) an ideal stack equal to the source's, in the weaker one
(`copies = false`) nothing usable.
-/
namespace Falcon.StackValue
open Falcon.PagedStack (Op Out)
open Falcon.PSCopy (Act)
variable {α : Type}

inductive Val (α : Type) where
  | live (ps al : Nat) (t : StackSpec.St α)
  | spent

/-- the values of the variables; `none`: no such variable at the moment -/
abbrev Env (α : Type) := Nat → Option (Val α)

def Env.set (e : Env α) (i : Nat) (v : Option (Val α)) : Env α := fun k => if k = i then v else e k

/-- the value of a copy: a stack with the same elements and pages and no iterators on it -/
def copyOf (copies : Bool) (ps al : Nat) (t : StackSpec.St α) : Val α :=
  if copies then .live ps al { t with iters := 0, pending := false } else .spent

/-- One action; `none` when its preconditions do not hold (use of a variable that does not exist
or holds nothing usable, or a precondition of the call). -/
def act (copies : Bool) (e : Env α) : Act α → Option (Env α × Out α)
  | .new i ps al =>
    match e i with
    | none   => if 0 < ps ∧ 0 < al then some (e.set i (some (.live ps al (StackSpec.init al))), .unit) else none
    | some _ => none
  | .copyNew i j =>
    match e i, e j with
    | none, some (.live ps al t) => some (e.set i (some (copyOf copies ps al t)), .unit)
    | _, _ => none
  | .moveNew i j =>
    match e i, e j with
    | none, some (.live ps al t) => some ((e.set i (some (.live ps al t))).set j (some .spent), .unit)
    | _, _ => none
  | .copyTo i j =>
    match e i, e j with
    | some _, some (.live ps al t) =>
      if i = j then some (e, .unit) else some (e.set i (some (copyOf copies ps al t)), .unit)
    | _, _ => none
  | .moveTo i j =>
    match e i, e j with
    | some _, some (.live ps al t) =>
      if i = j then some (e.set i (some .spent), .unit)
      else some ((e.set i (some (.live ps al t))).set j (some .spent), .unit)
    | _, _ => none
  | .swap i j =>
    match e i, e j with
    | some (.live ps al t), some (.live ps' al' t') =>
      some ((e.set i (some (.live ps' al' t'))).set j (some (.live ps al t)), .unit)
    | _, _ => none
  | .destroy i =>
    match e i with
    | some _ => some (e.set i none, .unit)
    | none   => none
  | .call i op =>
    match e i with
    | some (.live ps al t) =>
      match StackSpec.step ps al t op with
      | some (t', o) => some (e.set i (some (.live ps al t')), o)
      | none         => none
    | _ => none

def run (copies : Bool) (e : Env α) : List (Act α) → Option (Env α × List (Out α))
  | []      => some (e, [])
  | a :: as =>
    match act copies e a with
    | none        => none
    | some (e, o) =>
      match run copies e as with
      | none         => none
      | some (e, os) => some (e, o :: os)

/-- no variables -/
def none' : Env α := fun _ => none

end Falcon.StackValue
