import Verif.Model.FutexWeak
import Verif.Spec.Mutex
/-
Vocabulary of C136: a Futex under a weak memory model.
-/
namespace Falcon.Futex
variable {σ τ ω : Type}

/-- States that some schedule, with every choice the memory model leaves, reaches. -/
inductive WReach (o : Orders) (c : Client σ τ ω) (spin : BitVec 32) (g : σ) (prog : Nat → List ω) : WSt σ τ ω → Prop where
  | init : WReach o c spin g prog (winitial g prog)
  | step {s s'} (i : Nat) (ch : Choice) : WReach o c spin g prog s →
      wstep o c spin s i ch = some s' → WReach o c spin g prog s'

/-- Thread `i` is between a returned lock() and its unlock(). -/
def WHolds (s : WSt σ τ ω) (i : Nat) : Prop := ∃ rest l, (s.th i).pc = .inside rest l

/-- Thread `i` is about to access the guarded data although it does not know about all accesses made before. -/
def RacesFor (s : WSt σ τ ω) (i : Nat) : Prop :=
  ∃ f fs l, (s.th i).pc = .inside (f :: fs) l ∧ (s.view i).data + 1 ≠ s.vers.length

/-- What the guarded data are now. -/
def newest (s : WSt σ τ ω) : Option σ := s.vers.getLast?

end Falcon.Futex
