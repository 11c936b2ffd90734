import Verif.Basic
import Verif.Model.FloatText
/-
Model of items and handlers: src/include/falcon/engine/{item,itemdata,handler,flathandler,
deephandler,deepflatcopyhandler,nilhandler,boolhandler,inthandler,floathandler,stringhandler,
bignumhandler,handlerfactory}.h, src/engine/handlerfactory.cpp, types.h.

Not modelled: `Item::get<T>` (item.h 76-96; it cannot be instantiated: line 95 converts a union to a
pointer), the value of a BigNum (boost), the text of a float.
-/
namespace Falcon.Item

/-- `String` in item.h 31-70, stringhandler.h 23-31. -/
abbrev Str := List Char

/-- An IEEE double: (-1)^neg * m * 2^e. `double` in itemdata.h 23-52, floathandler.h 23-37. -/
inductive Dbl where
  | nan
  | inf (neg : Bool)
  | fin (neg : Bool) (m : Nat) (e : Int)
  deriving DecidableEq, Repr

/-- Types an Item can be constructed from, or somebody may try to. int64 is `long long`, uint64 is
`unsigned long long` (types.h 36, 47 of the Unix branch), so `long` and `unsigned long` are types of
their own. -/
inductive CType where
  | bool | char | schar | uchar | short | ushort | int | uint | long | ulong | llong | ullong | float | double
  | cstring | mutableCstring | string | bignum | pointer
  deriving DecidableEq, Repr

/-- `union ItemData` 23-29: what was stored last. `dangling` is the address of something that no
longer exists. -/
inductive Data where
  | bool (b : Bool)
  | word (w : BitVec 64)         -- int64Value or uint64Value
  | num (d : Dbl)
  | ptr (a : Nat)                -- a heap object
  | dangling
  deriving DecidableEq, Repr

/-- The statically allocated handlers, handlerfactory.cpp 20-25. -/
inductive Hd where
  | nil | bool | int | float | string | bignum
  deriving DecidableEq, Repr

/-- Item: its ItemData (itemdata.h 23-52) and its handler, item.h 24-101. -/
structure Item where
  data    : Data
  handler : Hd
  deriving DecidableEq, Repr

/-- Heap objects made by `new String` / `new BigNum`. item.h 31-70. -/
inductive Obj where
  | str (s : Str)
  | big (zero : Bool)            -- all that is used of the value: is_zero()
  deriving DecidableEq, Repr

/-- The free store as item.h 31-74 uses it. -/
structure Heap where
  obj  : Nat → Option Obj := fun _ => none     -- live objects
  next : Nat := 0

/-- `new`, item.h 31-70. -/
def Heap.alloc (h : Heap) (o : Obj) : Nat × Heap :=
  (h.next, { obj := fun x => if x = h.next then some o else h.obj x, next := h.next + 1 })

/-- `delete p`. item.h 72-74 and the handlers' destroy. -/
def Heap.free (h : Heap) : Data → Res Heap
  | .ptr a => match h.obj a with
    | some _ => .ok { h with obj := fun x => if x = a then none else h.obj x }
    | none   => .error (.ub .doubleFree)
  | _ => .error (.ub .badFree)

/-- `*p` for the String and BigNum of itemdata.h 23-52. -/
def Heap.deref (h : Heap) : Data → Res Obj
  | .ptr a => match h.obj a with
    | some o => .ok o
    | none   => .error (.ub .useAfterFree)
  | _ => .error (.ub .useAfterFree)

/-- C++ values. `charSigned` is a property of the platform. The argument types of the constructors, item.h 31-70. -/
inductive Val where
  | bool (b : Bool)
  | char (c : BitVec 8)
  | byte (c : BitVec 8)
  | int32 (n : BitVec 32)
  | uint32 (n : BitVec 32)
  | int64 (n : BitVec 64)
  | uint64 (n : BitVec 64)
  | numeric (d : Dbl)
  | cstring (s : Str)            -- the memory from the pointer on
  | string (s : Str)
  | bignum (zero : Bool)
  deriving DecidableEq, Repr

/-- ItemData(const T&) 30-51, for the types stored in the union itself. -/
def toData (charSigned : Bool) : Val → Data
  | .bool b    => .bool b                                               -- 33
  | .char c    => .word (if charSigned then c.signExtend 64 else c.setWidth 64)  -- 35
  | .byte c    => .word (c.setWidth 64)                                 -- 37
  | .int32 n   => .word (n.signExtend 64)                               -- 39
  | .int64 n   => .word n                                               -- 41
  | .uint32 n  => .word (n.setWidth 64)                                 -- 43
  | .uint64 n  => .word n                                               -- 45
  | .numeric d => .num d                                                -- 47
  | _          => .dangling                                             -- 49: address of the parameter

/-- Item(T value) item.h 31-70. -/
def make (charSigned : Bool) (h : Heap) : Val → Item × Heap
  | .bool b     => (⟨toData charSigned (.bool b), .bool⟩, h)            -- 34-35
  | .char c     => (⟨toData charSigned (.char c), .int⟩, h)
  | .byte c     => (⟨toData charSigned (.byte c), .int⟩, h)
  | .int32 c    => (⟨toData charSigned (.int32 c), .int⟩, h)
  | .uint32 c   => (⟨toData charSigned (.uint32 c), .int⟩, h)
  | .int64 c    => (⟨toData charSigned (.int64 c), .int⟩, h)
  | .uint64 c   => (⟨toData charSigned (.uint64 c), .int⟩, h)
  | .numeric d  => (⟨toData charSigned (.numeric d), .float⟩, h)
  | .cstring s  => let (a, h) := h.alloc (.str (s.takeWhile (· ≠ '\x00'))); (⟨.ptr a, .string⟩, h)   -- 58-59
  | .string s   => let (a, h) := h.alloc (.str s); (⟨.ptr a, .string⟩, h)                            -- 61-62
  | .bignum z   => let (a, h) := h.alloc (.big z); (⟨.ptr a, .bignum⟩, h)                            -- 65-66

/-- `Item()` 29: `ItemData(nullptr)` stores the address of the parameter. -/
def makeNil : Item := ⟨.dangling, .nil⟩

/-- Which branch of 33-69 a type takes; false: line 68 throws. -/
def supported : CType → Bool
  | .bool | .char | .uchar | .int | .uint | .llong | .ullong | .double | .cstring | .string | .bignum => true
  | _ => false

/-- `Item(T value)` for a type: throws invalid_argument (68) for all others. -/
def construct (t : CType) : Except Exn Unit := if supported t then .ok () else .error .invalidArgument

/-! ### Conversions -/

/-- Reading `int64Value`. -/
def int64Value : Data → Res Int
  | .word w => .ok w.toInt
  | _       => .error (.ub .uninitRead)

/-- Reading `boolValue`, itemdata.h 23-52. -/
def boolValue : Data → Res Bool
  | .bool b => .ok b
  | _       => .error (.ub .uninitRead)

/-- Reading `numericValue`, itemdata.h 23-52. -/
def numericValue : Data → Res Dbl
  | .num d => .ok d
  | _      => .error (.ub .uninitRead)

/-- Decimal representation. inthandler.h 31. -/
def dec (n : Int) : Str := if n < 0 then '-' :: Nat.toDigits 10 n.natAbs else Nat.toDigits 10 n.toNat

/-- `isspace` in the C locale. Used by stringhandler.h 30. -/
def isSpace (c : Char) : Bool := c = ' ' ∨ c = '\t' ∨ c = '\n' ∨ c = '\x0b' ∨ c = '\x0c' ∨ c = '\r'

/-- An optional sign. Used by stringhandler.h 30. -/
def splitSign : Str → Bool × Str
  | '-' :: r => (true, r)
  | '+' :: r => (false, r)
  | r        => (false, r)

/-- Used by stringhandler.h 30. -/
def signed (neg : Bool) (n : Nat) : Int := if neg then -(n : Int) else n

/-- What `std::stoll(s)` does: strtoll(…, 10), then the checks. -/
def stoll (s : Str) : Except Exn Int :=
  let p := splitSign (s.dropWhile isSpace)
  let ds := p.2.takeWhile Char.isDigit
  if ds = [] then .error .invalidArgument
  else
    let v := signed p.1 (Nat.ofDigitChars 10 ds 0)
    if v < -9223372036854775808 ∨ v > 9223372036854775807 then .error .outOfRange else .ok v

/-- `static_cast<int64>(double)`: truncation; undefined if the result does not fit. -/
def castInt : Dbl → Res Int
  | .fin neg m e =>
    let a : Nat := if e ≥ 0 then m * 2 ^ e.toNat else m / 2 ^ (-e).toNat
    let v : Int := if neg then -(a : Int) else a
    if v < -9223372036854775808 ∨ v > 9223372036854775807 then .error (.ub .castRange) else .ok v
  | _ => .error (.ub .castRange)

/-- `x != 0.0`. floathandler.h 35. -/
def nonZero : Dbl → Bool
  | .fin _ m _ => decide (m ≠ 0)
  | _ => true

/-- toInt of the handlers; `noexcept`: an exception terminates the program. BigNum (bignumhandler 38)
is not modelled: the argument `big` stands for it. -/
def toInt (big : Obj → Int) (h : Heap) (i : Item) : Res Int :=
  match i.handler with
  | .nil    => .ok 0                                                        -- nilhandler.h 30
  | .bool   => boolValue i.data >>= fun b => .ok (if b then 1 else 0)       -- boolhandler.h 30
  | .int    => int64Value i.data                                            -- inthandler.h 36
  | .float  => numericValue i.data >>= castInt                              -- floathandler.h 36
  | .string => h.deref i.data >>= fun o => match o with                     -- stringhandler.h 30
    | .str s => match stoll s with
      | .ok v => .ok v
      | .error _ => .error .terminate
    | .big _ => .error (.ub .uninitRead)
  | .bignum => h.deref i.data >>= fun o => .ok (big o)

/-- toBool of the handlers. item.h 98-100 and the files *handler.h 22-38. -/
def toBool (h : Heap) (i : Item) : Res Bool :=
  match i.handler with
  | .nil    => .ok false                                                    -- nilhandler.h 29
  | .bool   => boolValue i.data                                             -- boolhandler.h 29
  | .int    => int64Value i.data >>= fun n => .ok (decide (n ≠ 0))          -- inthandler.h 35
  | .float  => numericValue i.data >>= fun d => .ok (nonZero d)             -- floathandler.h 35
  | .string => h.deref i.data >>= fun o => match o with                     -- stringhandler.h 29
    | .str s => .ok (decide (s ≠ []))
    | .big _ => .error (.ub .uninitRead)
  | .bignum => h.deref i.data >>= fun o => match o with                     -- bignumhandler.h 37
    | .big z => .ok (!z)
    | .str _ => .error (.ub .uninitRead)

/-- `ss << numericValue`, floathandler.h 31, with the default precision 6. The sign that some libraries print
before "nan" is not modelled. -/
def floatText : Dbl → Str
  | .nan => ['n', 'a', 'n']
  | .inf neg => (if neg then ['-'] else []) ++ ['i', 'n', 'f']
  | .fin neg m e => FloatText.text 6 neg (m * 2 ^ e)

/-- toString of the handlers; `fl`, `big` stand for the float and BigNum formatting.
item.h 98-100 and the files *handler.h 22-38. -/
def toString (fl : Dbl → Str) (big : Obj → Str) (h : Heap) (i : Item) : Res Str :=
  match i.handler with
  | .nil    => .ok ['n', 'i', 'l']                                          -- nilhandler.h 28
  | .bool   => boolValue i.data >>= fun b => .ok (if b then ['t', 'r', 'u', 'e'] else ['f', 'a', 'l', 's', 'e'])
  | .int    => int64Value i.data >>= fun n => .ok (dec n)                   -- inthandler.h 29-33
  | .float  => numericValue i.data >>= fun d => .ok (fl d)                  -- floathandler.h 29-33
  | .string => h.deref i.data >>= fun o => match o with                     -- stringhandler.h 27
    | .str s => .ok s
    | .big _ => .error (.ub .uninitRead)
  | .bignum => h.deref i.data >>= fun o => .ok (big o)

/-! ### Life time -/

/-- isFlat: flathandler.h 28, deephandler.h 30. -/
def Hd.isFlat : Hd → Bool
  | .string | .bignum => false
  | _ => true

/-- isCopyFlat: flathandler.h 29, deepflatcopyhandler.h 25. -/
def Hd.isCopyFlat : Hd → Bool := fun _ => true

/-- typeName. The files *handler.h 22-38. -/
def Hd.typeName : Hd → Str
  | .nil => ['N', 'i', 'l']
  | .bool => ['B', 'o', 'o', 'l']
  | .int => ['I', 'n', 't']
  | .float => ['F', 'l', 'o', 'a', 't']
  | .string => ['S', 't', 'r', 'i', 'n', 'g']
  | .bignum => ['B', 'i', 'g', 'N', 'u', 'm']

/-- destroy: flathandler.h 26 does nothing, deephandler.h 28 deletes. -/
def destroy (h : Heap) (hd : Hd) (d : Data) : Res Heap := if hd.isFlat then .ok h else h.free d

/-- allocate: nil 0, bool false, int 0, float 0.0; deephandler.h 27 `return new T` goes through
ItemData(const T&) with T a pointer type: the object is made, but what is stored is the address of
the temporary pointer. -/
def allocate (h : Heap) : Hd → Data × Heap
  | .nil    => (.word 0, h)
  | .bool   => (.bool false, h)
  | .int    => (.word 0, h)
  | .float  => (.num (.fin false 0 0), h)
  | .string => (.dangling, (h.alloc (.str [])).2)
  | .bignum => (.dangling, (h.alloc (.big true)).2)

/-- A program with item variables. Not in the code: a user of item.h 24-101. -/
structure St where
  heap : Heap := {}
  var  : Nat → Option Item := fun _ => none

/-- What a user of item.h 24-101 writes. -/
inductive Op where
  | new (x : Nat) (v : Val)        -- Item x(v)
  | newNil (x : Nat)               -- Item x
  | copy (x y : Nat)               -- Item x(y): implicit copy constructor
  | assign (x y : Nat)             -- x = y: implicit assignment
  | del (x : Nat)                  -- end of x's life: ~Item 72-74
  | use (x : Nat)                  -- x.toString()
  deriving DecidableEq, Repr

/-- Not in the code: a variable of a user of item.h 24-101. -/
def setVar (s : St) (x : Nat) (i : Option Item) : St := { s with var := fun y => if y = x then i else s.var y }

/-- One statement. `none`: not a program (variable in use / not in use).
Each case runs the member of item.h 24-101 it names. -/
def exec (cs : Bool) (s : St) : Op → Option (Res St)
  | .new x v => match s.var x with
    | some _ => none
    | none => let (i, h) := make cs s.heap v; some (.ok (setVar { s with heap := h } x (some i)))
  | .newNil x => match s.var x with
    | some _ => none
    | none => some (.ok (setVar s x (some makeNil)))
  | .copy x y => match s.var x, s.var y with
    | none, some i => some (.ok (setVar s x (some i)))
    | _, _ => none
  | .assign x y => match s.var x, s.var y with
    | some _, some i => some (.ok (setVar s x (some i)))
    | _, _ => none
  | .del x => match s.var x with
    | none => none
    | some i => match destroy s.heap i.handler i.data with
      | .ok h => some (.ok (setVar { s with heap := h } x none))
      | .error e => some (.error e)
  | .use x => match s.var x with
    | none => none
    | some i => match toString (fun _ => []) (fun _ => []) s.heap i with
      | .ok _ => some (.ok s)
      | .error e => some (.error e)

/-- Not in the code: a sequence of statements of a user of item.h 24-101. -/
def run (cs : Bool) (s : St) : List Op → Option (Res St)
  | [] => some (.ok s)
  | o :: os => match exec cs s o with
    | none => none
    | some (.error e) => some (.error e)
    | some (.ok s') => run cs s' os

end Falcon.Item
