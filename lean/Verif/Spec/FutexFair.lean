import Verif.Spec.Mutex
/-
Vocabulary of C148: endless executions of threads using a Futex.
-/
namespace Falcon.Futex
variable {σ τ ω : Type}

/-- A thread that has completed all its operations is given those of `again` (none: it is finished). -/
def refill (again : Nat → List ω) (i : Nat) (s : St σ τ ω) : St σ τ ω :=
  if (s.th i).todo = [] then { s with th := upd s.th i { s.th i with todo := again i } } else s

/-- An endless execution. At time `k` thread `(f k).1` gets the processor, and its attempt, if it makes one, fails
spuriously if `(f k).2`. A thread that is finished does nothing. -/
def endless (c : Client σ τ ω) (spin : BitVec 32) (again : Nat → List ω) (s0 : St σ τ ω) (f : Nat → Nat × Bool) : Nat → St σ τ ω
  | 0     => s0
  | k + 1 =>
    let s := endless c spin again s0 f k
    match step c spin s (f k).1 (f k).2 with
    | none    => s
    | some s' => refill again (f k).1 s'

/-- A fair scheduler and a usable compare_exchange_weak: every one of the `n` threads gets the processor again and
again, and again and again without a spurious failure. -/
def Fair (n : Nat) (f : Nat → Nat × Bool) : Prop := ∀ i, i < n → ∀ k, ∃ k', k ≤ k' ∧ f k' = (i, false)

/-- Thread `i` is inside lock(). -/
def Waits (s : St σ τ ω) (i : Nat) : Prop := ∃ sc, (s.th i).pc = .trying sc

end Falcon.Futex
