import Verif.Model.Futex
/-
Vocabulary of the mutual exclusion statements (C24-C28, C32).
-/
namespace Falcon.Futex
variable {σ τ ω : Type}

/-- States that some schedule (with arbitrary spurious failures) reaches. -/
inductive Reach (c : Client σ τ ω) (spin : BitVec 32) (g : σ) (prog : Nat → List ω) : St σ τ ω → Prop where
  | init : Reach c spin g prog (initial g prog)
  | step {s s'} (i : Nat) (spurious : Bool) : Reach c spin g prog s →
      step c spin s i spurious = some s' → Reach c spin g prog s'

/-- Thread `i` is between a returned lock() and its unlock(). -/
def Holds (s : St σ τ ω) (i : Nat) : Prop := ∃ rest l, (s.th i).pc = .inside rest l

/-- Thread `i` has nothing left to do. -/
def Done (s : St σ τ ω) (i : Nat) : Prop := (s.th i).pc = .out ∧ (s.th i).todo = []

/-- One operation executed alone, without interruption. -/
def alone (c : Client σ τ ω) (g : σ) (op : ω) : σ × τ :=
  (c.micro op).foldl (fun p m => m p) (g, c.start op)

/-- Operations executed one after the other: final shared state and the result of each, tagged
with the thread. -/
def sequential (c : Client σ τ ω) (g : σ) : List (Nat × ω) → σ × List (Nat × τ)
  | []             => (g, [])
  | (i, op) :: ops =>
    let (g', r) := alone c g op
    let (g'', rs) := sequential c g' ops
    (g'', (i, r) :: rs)

/-- The entries of thread `i`, in order. -/
def ofThread {β : Type} (i : Nat) (l : List (Nat × β)) : List β :=
  l.filterMap fun p => if p.1 = i then some p.2 else none

end Falcon.Futex
