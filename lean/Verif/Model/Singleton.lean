import Verif.Basic
/-
Model of src/include/falcon/singleton.h: any number of `Singleton<T>` objects, for any number of types
T, used by any number of threads.

What C++11 guarantees of a function-local static ([stmt.dcl]/4) is part of the model: `get` runs T's
constructor under a guard; a thread that arrives while another one constructs waits; if the
constructor throws, the object counts as not constructed and the next call tries again; re-entering
`get` from T's own constructor is undefined. Not modelled: destruction at program exit.
-/
namespace Falcon.Singleton

/-- The accessors: singleton.h: `get()` 31-34, `operator->` 36, `operator*` 37, `mtbl->` and `mtbl*` 49-55. -/
inductive Acc where
  | get | arrow | star | mArrow | mStar
  deriving DecidableEq, Repr

/-- Accessors through which the instance can be written: `operator->`/`operator*` return const.
singleton.h 31-37, 49-55. -/
def Acc.mutable : Acc → Bool
  | .get | .mArrow | .mStar => true
  | .arrow | .star => false

/-- State of the static of one type, by its guard. singleton.h 31-34. -/
inductive Guard where
  | raw                   -- not constructed
  | busy (tid : Nat)      -- this thread is in the constructor
  | done
  deriving DecidableEq, Repr

/-- What a thread is doing. singleton.h 31-37, 49-55. -/
inductive Pc where
  | idle
  | inGet (obj : Nat) (ty : Nat) (acc : Acc) (w : Option Nat)     -- about to enter get()
  | ctor (obj : Nat) (ty : Nat) (acc : Acc) (w : Option Nat)      -- in T's constructor
  | have (obj : Nat) (ty : Nat) (acc : Acc) (w : Option Nat) (inst : Nat)    -- get() returned the address `inst`
  deriving DecidableEq, Repr

/-- Observable events, newest last: construction completed, a read of the value, a write.
Not in the code: ghost record of the uses of singleton.h 31-55. -/
inductive Ev where
  | built (ty : Nat) (inst : Nat) (v : Nat)
  | read (ty : Nat) (obj : Nat) (acc : Acc) (inst : Nat) (v : Nat)
  | wrote (ty : Nat) (obj : Nat) (acc : Acc) (inst : Nat) (v : Nat)
  deriving DecidableEq, Repr

/-- singleton.h 31-34: the statics, and the threads that use them. -/
structure St where
  guard : Nat → Guard := fun _ => .raw
  val   : Nat → Nat := fun _ => 0              -- contents of the static, by address
  pc    : Nat → Pc := fun _ => .idle
  tr    : List Ev := []

/-- Address of the static `inst` of `Singleton<T>::get`, singleton.h 32: one per T; it does not depend on the
object get() is called on. -/
def instOf (_obj ty : Nat) : Nat := ty

/-- Not in the code: a step of one thread using singleton.h 31-55. -/
def setPc (s : St) (t : Nat) (p : Pc) : St := { s with pc := fun u => if u = t then p else s.pc u }
/-- Not in the code: the guard variable the compiler adds to singleton.h 32. -/
def setGuard (s : St) (ty : Nat) (g : Guard) : St := { s with guard := fun u => if u = ty then g else s.guard u }
/-- Not in the code: a write through singleton.h 31-34, 49-55. -/
def setVal (s : St) (a : Nat) (v : Nat) : St := { s with val := fun u => if u = a then v else s.val u }

/-- One step of thread `t`. singleton.h 31-37, 49-55. -/
inductive Step : St → Nat → St → Prop
  /-- The thread calls an accessor of object `obj` of type Singleton<ty>, to read (`none`) or write. -/
  | call {s t obj ty acc w} : s.pc t = .idle → (w ≠ none → acc.mutable = true) → Step s t (setPc s t (.inGet obj ty acc w))
  /-- 32: guard found raw, this thread constructs. -/
  | enter {s t obj ty acc w} : s.pc t = .inGet obj ty acc w → s.guard (instOf obj ty) = .raw →
      Step s t (setPc (setGuard s (instOf obj ty) (.busy t)) t (.ctor obj ty acc w))
  /-- 32: constructor completes with some initial value. -/
  | built {s t obj ty acc w v} : s.pc t = .ctor obj ty acc w →
      Step s t { (setPc (setVal (setGuard s (instOf obj ty) .done) (instOf obj ty) v) t (.have obj ty acc w (instOf obj ty))) with tr := s.tr ++ [.built ty (instOf obj ty) v] }
  /-- 32: constructor throws; the accessor throws. -/
  | threw {s t obj ty acc w} : s.pc t = .ctor obj ty acc w → Step s t (setPc (setGuard s (instOf obj ty) .raw) t .idle)
  /-- 32-33: already constructed. -/
  | found {s t obj ty acc w} : s.pc t = .inGet obj ty acc w → s.guard (instOf obj ty) = .done →
      Step s t (setPc s t (.have obj ty acc w (instOf obj ty)))
  /-- The caller reads through what the accessor returned. -/
  | read {s t obj ty acc a} : s.pc t = .have obj ty acc none a →
      Step s t { (setPc s t .idle) with tr := s.tr ++ [.read ty obj acc a (s.val a)] }
  /-- The caller writes through what the accessor returned. -/
  | write {s t obj ty acc a v} : s.pc t = .have obj ty acc (some v) a →
      Step s t { (setPc (setVal s a v) t .idle) with tr := s.tr ++ [.wrote ty obj acc a v] }

/-- Not in the code: an execution of the threads using singleton.h 31-55. -/
inductive Reach : St → Prop
  | init : Reach {}
  | step {s t s'} : Reach s → Step s t s' → Reach s'

end Falcon.Singleton
