import Verif.Check.EngineTests
/-
Validation of the model against the project's own unit tests, not part of any proof:
src/test/engine/logger.fut.cpp and logstream.fut.cpp, transcribed and run on the model under one schedule
each.
-/
namespace Falcon.Check

/-- `std::string::find`: where `w` begins in `s` for the first time -/
def find (w : List Char) : List Char → Option Nat
  | []      => if w = [] then some 0 else none
  | c :: cs => if (c :: cs).take w.length = w then some 0 else (find w cs).map (· + 1)

/-- `std::string::rfind` -/
def rfind (w : List Char) : List Char → Option Nat
  | []      => if w = [] then some 0 else none
  | c :: cs => match rfind w cs with
               | some n => some (n + 1)
               | none   => if (c :: cs).take w.length = w then some 0 else none

/-! ### logger.fut.cpp -/

section
open Falcon.Logger

/-- thread 0 runs the statements to their end; FALCON_MIN_LOG_LEVEL is LLTRACE (logger.h 27) -/
def composed (ops : List Op) : List Falcon.Log.Msg :=
  (runS 5 { level := 5, th := fun _ => { todo := ops } } (List.replicate 40 0)).out.map Prod.snd

/-- what the default listener puts on the stream given to it, at one moment of the day -/
def written (ms : List Falcon.Log.Msg) : List Char :=
  (ms.foldl (fun o m => LogStream.onMessage '/' o ⟨2019, 3, 2, 11, 12, 5⟩ m) ({} : LogStream.OS)).text

def here : List Char := "/src/test/engine/logger.fut.cpp".toList
/-- `LOG_INFO << ...`, `LOG_TRC << ...` -/
def info (parts : List Op) : Op := .log here 86 3 parts
def trc (parts : List Op) : Op := .log here 86 5 parts
def say (s : String) : Op := .put (.text s.toList)

/-- Smoke -/
example : (find "Hello World".toList (written (composed [.lput (.text "Hello World".toList), .complete]))).isSome := by decide +kernel

/-- AutoEnd -/
example : (find "Hello Auto".toList (written (composed [info [say "Hello Auto"]]))).isSome := by decide +kernel

/-- Category -/
example : (find "The Category".toList (written (composed [.categoryMacro "The Category".toList, info [say "Hello Category"]]))).isSome := by
  decide +kernel

/-- TempCategory: what is on the stream, and the places the test compares -/
def temps : List Char :=
  written (composed [.categoryMacro "Cat".toList, info [.putCat "Temp".toList, say "One"], info [say "Two"]])

example : temps = ("2019-03-02 11:12:05 [INFO] (Temp) logger.fut.cpp:86 One\n" ++
                   "2019-03-02 11:12:05 [INFO] (Cat) logger.fut.cpp:86 Two\n").toList := by decide +kernel

example : ∃ cat temp one, find "Cat".toList temps = some cat ∧ find "Temp".toList temps = some temp ∧ find "One".toList temps = some one ∧
    rfind "Temp".toList temps = some temp ∧ temp < one ∧ temp < cat ∧ one < cat :=
  ⟨84, 28, 52, by decide +kernel, by decide +kernel, by decide +kernel, by decide +kernel, by decide, by decide, by decide⟩

/-- LogBlock -/
example : (find "Hello partial world".toList (written (composed [.block here 143 3
    [.lput (.text "Hello".toList), .lput (.text " partial".toList), .lput (.text " world".toList)] false]))).isSome := by decide +kernel

/-- CategoryFilter: the calls before the first line, and those before the last -/
def set1 : List FOp := [.level 3, .dflt 3, .filter ".*::INTERNAL".toList 5]
def set2 : List FOp := set1 ++ [.clear, .level 5]

/-- the general level after the calls: the LOG macros see LLTRACE both times -/
example : ((frun rx finit set1).toOption.map (·.level), (frun rx finit set2).toOption.map (·.level)) = (some 5, some 5) := by decide +kernel

/-- how often each line reaches the stream: INFO once, TRACE never, INTERNAL once; FINAL never -/
example : ((frun rx finit set1).toOption.map (fun s =>
      (composed [.categoryMacro "Test::BASE".toList, info [say "Line INFO"], trc [say "Line TRACE"],
            .categoryMacro "Test::INTERNAL".toList, trc [say "Line INTERNAL"]]).map (fun m => (m.cat, m.text, lines rx s m)))) =
    some [("Test::BASE".toList, "Line INFO".toList, 1), ("Test::BASE".toList, "Line TRACE".toList, 0),
          ("Test::INTERNAL".toList, "Line INTERNAL".toList, 1)] := by decide +kernel

example : ((frun rx finit set2).toOption.map (fun s =>
      (composed [.categoryMacro "Test::INTERNAL".toList, trc [say "Line FINAL"]]).map (fun m => (m.cat, m.text, lines rx s m)))) =
    some [("Test::INTERNAL".toList, "Line FINAL".toList, 0)] := by decide +kernel
end

/-! ### logstream.fut.cpp (Smoke is ReceiveMessage of logsystem.fut.cpp) -/

section
open Falcon.LogStream

/-- `sendLog()` as the listener sees it -/
def sent : Call := .msg (msgActs '/' ⟨2019, 3, 2, 1, 33, 45⟩ { file := "File".toList, line := 101, level := 3, cat := [], text := "Message".toList })

/-- thread 0 (the test) makes the calls, then thread 1 (the logging thread) writes; the test holds a shared_ptr to stream `shared 0` -/
def listened (calls : List Call) (look : Sid) : Option (List Char × Bool) :=
  (crun { ls := { refs := fun n => if n = 0 then [none] else [] },
          th := fun i => if i = 0 then { todo := calls } else if i = 1 then { todo := [sent] } else {} }
    (List.replicate 20 0 ++ List.replicate 60 1)).toOption.map (fun s => ((s.ls.os look).text, s.ls.dead look))

def shown : List Char := "2019-03-02 01:33:45 [INFO] File:101 Message\n".toList
example : (find "Message".toList shown).isSome := by decide +kernel

/-- SharedStream, UniqueStream, WriteOnStream -/
example : listened [.share (some 0)] (.shared 0) = some (shown, false) := by decide +kernel
example : listened [.own true] (.owned 0) = some (shown, false) := by decide +kernel
example : listened [.writeOn (some 7)] (.raw 7) = some (shown, false) := by decide +kernel

/-- ChangeStream: the last stream gets the line, the others nothing -/
example : listened [.share (some 0), .own true, .writeOn (some 7)] (.raw 7) = some (shown, false) := by decide +kernel
example : (listened [.share (some 0), .own true, .writeOn (some 7)] (.shared 0),
    listened [.share (some 0), .own true, .writeOn (some 7)] (.owned 0)) = (some ([], false), some ([], false)) := by decide +kernel
end

end Falcon.Check
