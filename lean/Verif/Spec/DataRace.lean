/-
Data races, as in C++ [intro.races]: two accesses to one memory location by different threads, at
least one of them a write, not both atomic, that nothing orders.  Two accesses made while holding a
common mutex are ordered.
-/
namespace Falcon.Race

structure Access (L M : Type) where
  loc    : L
  write  : Bool
  atomic : Bool
  held   : List M          -- mutexes held during the access

variable {L M : Type}

/-- The two accesses would be a data race if two threads were about to make them. -/
def Clash (x y : Access L M) : Prop :=
  x.loc = y.loc ∧ (x.write = true ∨ y.write = true) ∧ ¬(x.atomic = true ∧ y.atomic = true) ∧ ∀ k ∈ x.held, k ∉ y.held

end Falcon.Race
