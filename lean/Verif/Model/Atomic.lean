import Verif.Basic
/-
Model of the atomic operations (src/include/falcon/atomic_gcc.h 28-80, atomic_vc.h 30-100).
Every operation is one indivisible read-modify-write of a 32 bit two's complement integer.
-/
namespace Falcon.Atomic

/-- The three build variants: GCC/Clang builtins, Visual C++ for x64/ARM, Visual C++ with
`_M_IX86`. -/
inductive Platform where
  | gcc | vc64 | vcX86
  deriving DecidableEq, Repr

/-- `int32`, the type of the variable in atomic_gcc.h 24-80 and atomic_vc.h 30-100. -/
abbrev I32 := BitVec 32

/-- `atomicInc` (gcc 28-31 `__sync_add_and_fetch`; vc 33-36 `InterlockedIncrement`): new value. -/
def inc (x : I32) : I32 × I32 := (x + 1, x + 1)

/-- `atomicDec` (gcc 34-37; vc 39-42): new value. -/
def dec (x : I32) : I32 × I32 := (x + (-1), x + (-1))

/-- `atomicAdd` (gcc 40-43; vc 45-52: on `_M_IX86` `InterlockedExchangeAdd`, which returns the
initial value, elsewhere `InterlockedAdd`, which returns the new value). -/
def add (p : Platform) (x v : I32) : I32 × I32 :=
  match p with
  | .gcc   => (x + v, x + v)
  | .vc64  => (x + v, x + v)
  | .vcX86 => (x + v, x)

/-- `atomicFetch` (gcc 46-49; vc 55-57, compare-exchange of 0 with 0). -/
def fetch (p : Platform) (x : I32) : I32 × I32 :=
  match p with
  | .gcc => (x, x)
  | _    => (if x = 0 then 0 else x, x)

/-- `atomicSet` (gcc 52-54; vc 60-62). -/
def set (_x v : I32) : I32 := v

/-- `atomicExchange` (gcc 57-60; vc 65-68): previous value. -/
def exchange (x v : I32) : I32 × I32 := (v, x)

/-- `atomicCAS` (gcc 62-65 `__sync_bool_compare_and_swap`; vc 70-73
`InterlockedCompareExchange(&target, newVal, compareTo) == compareTo`). -/
def cas (p : Platform) (x compareTo newVal : I32) : I32 × Bool :=
  match p with
  | .gcc => if x = compareTo then (newVal, true) else (x, false)
  | _    => (if x = compareTo then newVal else x, x == compareTo)

/-- `atomicXor` (gcc 67-70; vc 75-82): previous value. -/
def xor (x v : I32) : I32 × I32 := (x ^^^ v, x)
/-- `atomicAnd` (gcc 72-75; vc 84-91): previous value. -/
def and (x v : I32) : I32 × I32 := (x &&& v, x)
/-- `atomicOr` (gcc 77-80; vc 93-100): previous value. -/
def or (x v : I32) : I32 × I32 := (x ||| v, x)

/-- Calls on one atomic variable. atomic_gcc.h 24-80, atomic_vc.h 30-100: one constructor per function. -/
inductive Op where
  | inc
  | dec
  | add (v : I32)
  | fetch
  | set (v : I32)
  | exchange (v : I32)
  | cas (compareTo newVal : I32)
  | xor (v : I32)
  | and (v : I32)
  | or (v : I32)
  deriving DecidableEq, Repr

/-- What a call returns. Result types of atomic_gcc.h 24-80, atomic_vc.h 30-100. -/
inductive Ret where
  | unit
  | int (v : I32)
  | bool (b : Bool)
  deriving DecidableEq, Repr

/-- One call: the value left in the variable and the value returned (atomic_gcc.h 28-80,
atomic_vc.h 33-100). -/
def step (p : Platform) (x : I32) : Op → I32 × Ret
  | .inc        => ((inc x).1, .int (inc x).2)
  | .dec        => ((dec x).1, .int (dec x).2)
  | .add v      => ((add p x v).1, .int (add p x v).2)
  | .fetch      => ((fetch p x).1, .int (fetch p x).2)
  | .set v      => (set x v, .unit)
  | .exchange v => ((exchange x v).1, .int (exchange x v).2)
  | .cas a b    => ((cas p x a b).1, .bool (cas p x a b).2)
  | .xor v      => ((xor x v).1, .int (xor x v).2)
  | .and v      => ((and x v).1, .int (and x v).2)
  | .or v       => ((or x v).1, .int (or x v).2)

/-- One interleaving: the calls of all threads in the order in which they take effect.
Not in the code: the callers of atomic_gcc.h 24-80. -/
def run (p : Platform) (x : I32) : List (Nat × Op) → I32 × List (Nat × Ret)
  | []             => (x, [])
  | (i, op) :: ops =>
    let (x', r) := step p x op
    let (x'', rs) := run p x' ops
    (x'', (i, r) :: rs)

end Falcon.Atomic
