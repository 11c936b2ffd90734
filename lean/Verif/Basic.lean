/-
Common vocabulary: undefined behaviour, exceptions and process termination are explicit
outcomes of the model (never assumed away).
-/
namespace Falcon

/-- Kinds of undefined behaviour that the modelled code can run into. -/
inductive UB where
  | derefListEnd      -- dereference of `std::list::end()`
  | decListBegin      -- decrement of `std::list::begin()`
  | emptyBack         -- `back()` of an empty vector
  | emptyPopBack      -- `pop_back()` of an empty vector
  | derefData         -- dereference of a vector position that holds no element
  | ptrRange          -- pointer arithmetic below `begin()-1`
  | nullDeref         -- dereference of a null pointer
  | doubleFree        -- second `delete` of the same object
  | useAfterFree      -- access to a deleted object
  | badFree           -- `delete` of something that was not obtained by `new`
  | overflowWrite     -- write past the end of a buffer
  | overflowRead      -- read past the end of a buffer
  | uninitRead        -- use of an indeterminate value
  | castRange         -- conversion of a floating value that does not fit the integer type
  | foreignIter       -- comparison of iterators of different containers
  deriving DecidableEq, Repr

/-- C++ exceptions that the modelled code throws. -/
inductive Exn where
  | runtimeError
  | invalidArgument
  | outOfRange
  | invalidCategory
  | elementCopy       -- exception thrown by the element's copy constructor
  | user
  deriving DecidableEq, Repr

/-- Ways in which a modelled call does not return normally. -/
inductive Fault where
  | ub (u : UB)
  | exn (e : Exn)
  | terminate         -- `std::terminate`, e.g. exception leaving a `noexcept` function
  | hang              -- does not return
  deriving DecidableEq, Repr

abbrev Res (α : Type _) := Except Fault α

end Falcon
