import Verif.Model.Item
import Verif.Model.Code
import Verif.Model.Singleton
import Verif.Model.Futex
import Verif.Model.LogSystem
import Verif.Model.Logger
import Verif.Model.LogStream
/-
Validation of the model against the project's own unit tests, not part of any proof:
src/test/engine/item.fut.cpp, compiler.fut.cpp, singleton.fut.cpp, futex.fut.cpp and
logsystem.fut.cpp, transcribed and run on the model under one schedule each.
-/
namespace Falcon.Check

/-! ### item.fut.cpp -/

section
open Falcon.Item

/-- the item made from a value, and what is on the heap then -/
def mk (v : Val) : Item × Heap := make true ⟨fun _ => none, 0⟩ v

/-- no test uses bignums or floats -/
def noBig : Obj → Int := fun _ => 0

/-- Smoke -/
example : (toInt noBig (mk (.int64 0)).2 (mk (.int64 0)).1).toOption = some 0 := by decide

/-- StringItem -/
example : (toString (fun _ => []) (fun _ => []) (mk (.cstring "Hello world".toList)).2 (mk (.cstring "Hello world".toList)).1).toOption
    = some "Hello world".toList := by decide

/-- StringBool -/
example : (toBool (mk (.cstring ['a', 'b', 'c'])).2 (mk (.cstring ['a', 'b', 'c'])).1).toOption = some true ∧
    (toBool (mk (.cstring [])).2 (mk (.cstring [])).1).toOption = some false := by decide

/-- StringNumber -/
example : (toInt noBig (mk (.cstring ['1', '0', '0'])).2 (mk (.cstring ['1', '0', '0'])).1).toOption = some 100 := by decide
end

/-! ### compiler.fut.cpp -/

/-- Smoke -/
example : ((Code.compile {} 0 { rest := ['0'] }).bind Except.toOption).bind
    (fun r => ((Code.run r.1 [.use 0]).bind Except.toOption).map (·.out)) = some [['0']] := by decide

/-! ### singleton.fut.cpp -/

section
open Falcon.Singleton

/-- Smoke: a write through `mtbl`, then reads through `*` and `get()` -/
example : ∃ s, Reach s ∧ s.tr = [.built 0 0 0, .wrote 0 0 .mStar 0 5, .read 0 0 .star 0 5, .read 0 0 .get 0 5] := by
  refine ⟨_, .step (t := 0) (.step (t := 0) (.step (t := 0) (.step (t := 0) (.step (t := 0) (.step (t := 0) (.step (t := 0) (.step (t := 0)
    (.step (t := 0) (.step (t := 0) .init
    (.call (obj := 0) (ty := 0) (acc := .mStar) (w := some 5) rfl (fun _ => rfl)))
    (.enter rfl rfl)) (.built (v := 0) rfl)) (.write rfl))
    (.call (obj := 0) (ty := 0) (acc := .star) (w := none) rfl (fun h => absurd rfl h))) (.found rfl rfl)) (.read rfl))
    (.call (obj := 0) (ty := 0) (acc := .get) (w := none) rfl (fun h => absurd rfl h))) (.found rfl rfl)) (.read rfl), rfl⟩
end

/-! ### futex.fut.cpp (smoke, smoke2; what thread_counter and the performance tests expect is C25) -/

section
open Falcon.Futex

/-- the guarded section increments a counter in one step -/
def counter : Client Nat Nat Unit := { micro := fun _ => [fun p => (p.1 + 1, p.2)], start := fun _ => 0 }

/-- thread 0 locks, is inside, unlocks -/
def steps (n : Nat) : Option (St Nat Nat Unit) :=
  (List.replicate n ()).foldl (fun s _ => s.bind (fun s => step counter 0#32 s 0 false)) (some (initial 0 (fun i => if i = 0 then [()] else [])))

/-- isLocked() before lock(), after lock(), after unlock() -/
example : ((steps 0).map isLocked, (steps 2).map isLocked, (steps 4).map isLocked, (steps 4).map (·.shared)) =
    (some false, some true, some false, some 1) := by decide
end

/-! ### logsystem.fut.cpp -/

section
open Falcon.Log

/-- `std::regex` as far as the tests use it: `*` is not an expression, `Good.*` matches what begins
with `Good`, `.*::INTERNAL` matches what ends with `::INTERNAL`, others match themselves -/
def rx : Rx :=
  { valid := fun re => decide (re ≠ ['*'])
    full := fun re c =>
      if re = "Good.*".toList then decide (c.take 4 = "Good".toList)
      else if re = ".*::INTERNAL".toList then decide (c.drop (c.length - 10) = "::INTERNAL".toList)
      else decide (re = c) }

/-- the logging thread runs until it has to wait -/
def settle : Nat → St × List Ev → St × List Ev
  | 0,     r => r
  | n + 1, r => match step rx r.1 .log with
                | none        => r
                | some (s, e) => settle n (s, r.2 ++ [e])

/-- SetUp: listener 1 and catcher 2, then the test's own calls, then the logging thread -/
def logged (acts : List Act) : Option (St × List Ev) :=
  (run rx (init 1 false true) ([.call 0 (.addListener 1), .call 0 (.addListener 2)] ++ acts)).map (settle 60)

/-- `sendLog(level, category)` -/
def msg (lvl : Int) (cat : Str) : Msg := { file := "File".toList, line := 101, level := lvl, cat := cat, text := "Message".toList }

def sendLog (lvl : Int) (cat : Str) : List Act := .call 0 (.log (msg lvl cat)) :: List.replicate 4 (.cli 0)

/-- `m_log->stop()` -/
def stopped (r : St × List Ev) : Option (St × List Ev) :=
  (run rx r.1 [.call 0 .stop, .cli 0, .cli 0, .log, .cli 0, .cli 0]).map (fun q => (q.1, r.2 ++ q.2))

/-- who received the message -/
def received (es : List Ev) : List LId := es.filterMap (fun e => match e with | .deliver l _ => some l | _ => none)

/-- what `sanityCheck()` reads, and who received the message -/
def sane (acts : List Act) : Option (Diags × List LId) :=
  ((logged acts).bind stopped).map (fun r => (getDiags r.1, received r.2))

/-- Smoke -/
example : (logged []).map (fun r => getDiags r.1) = some ⟨64, 0, 0, 0, 0, 2, 0, 0⟩ := by decide +kernel

/-- ReceiveMessage -/
example : sane (sendLog 3 "Category".toList) = some (⟨64, 1, 1, 0, 0, 0, 2, 2⟩, [1, 2]) := by decide +kernel
example : ((logged (sendLog 3 "Category".toList)).map (fun r => r.2.filter (fun e => match e with | .deliver 1 _ => true | _ => false))) =
    some [.deliver 1 (msg 3 "Category".toList)] := by decide +kernel

/-- ThrowCategory -/
example : (run rx (init 1 false true) [.call 0 (.addListener 1), .call 0 (.category 1 ['*'])]).map Prod.snd =
    some [.did 0 (.addListener 1), .threw 0 (.category 1 ['*'])] := by decide +kernel

/-- DiscardLevel -/
example : sane (.call 0 (.llevel 1 4) :: sendLog 5 "Category".toList) = some (⟨64, 1, 1, 0, 0, 0, 2, 2⟩, [2]) := by decide +kernel

/-- DiscardCategory -/
example : sane (.call 0 (.category 1 "SomeCategory".toList) :: sendLog 0 "Category".toList) = some (⟨64, 1, 1, 0, 0, 0, 2, 2⟩, [2]) := by decide +kernel

/-- ListenerDisabled -/
example : sane (.call 0 (.enable 1 false) :: sendLog 5 "Category".toList) = some (⟨64, 1, 1, 0, 0, 0, 2, 1⟩, [2]) := by decide +kernel

/-- RightCategory -/
example : sane (.call 0 (.category 1 "Good.*".toList) :: sendLog 3 "GoodCategory".toList) = some (⟨64, 1, 1, 0, 0, 0, 2, 2⟩, [1, 2]) := by decide +kernel
end

end Falcon.Check
