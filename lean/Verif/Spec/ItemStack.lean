import Verif.Model.ItemStack
import Verif.Spec.Item
import Verif.Spec.StackObs
/- Vocabulary for items on a stack. -/
namespace Falcon.ItemStack
open Falcon.Item (Item Heap Val)
open Falcon.PagedStack

/-- Values that are stored in the item itself. -/
def FlatVal : Val → Prop
  | .cstring _ | .string _ | .bignum _ => False
  | _ => True

/-- The statement copies or overwrites only items without heap data. Constructing, push_emplace, pop(),
discard(n), clear() and reading are unrestricted. -/
def FlatOnly (s : St) : IOp → Prop
  | .push k      => ∀ i, s.vars[k]? = some i → i.Flat
  | .pushTemp v  => FlatVal v
  | .popInto ks  => (∀ i ∈ (contents s.st).take ks.length, i.Flat) ∧ ∀ k ∈ ks, ∀ i, s.vars[k]? = some i → i.Flat
  | .setTop k    => (∀ i, s.vars[k]? = some i → i.Flat) ∧ ∀ i, (contents s.st).head? = some i → i.Flat
  | .copyTop     => ∀ i, (contents s.st).head? = some i → i.Flat
  | _            => True

/-- ... in every statement of the program. -/
def FlatCopies (cs : Bool) (s : St) : List IOp → Prop
  | []      => True
  | o :: os => FlatOnly s o ∧ ∀ s', exec cs s o = some (.ok s') → FlatCopies cs s' os

end Falcon.ItemStack
