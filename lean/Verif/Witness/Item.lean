import Verif.Props.Item
import Verif.Props.Code
import Verif.Props.LogFilter
import Verif.Props.FilterRace

/-!
Theorems about items, code buffers and the filter of a Logger, applied to concrete data: the hypotheses are met.
-/
namespace Falcon.Item

/-- C71: the unsigned 32-bit 4294967295 converts to exactly that, and is true. -/
example (cs : Bool) (big : Obj → Int) (h h' : Heap) :
    toInt big h' (make cs h (.uint32 4294967295)).1 = .ok 4294967295 ∧
    toBool h' (make cs h (.uint32 4294967295)).1 = .ok true := by
  obtain ⟨h1, h2, -⟩ := C71_int_items cs big h h' (.uint32 4294967295) 4294967295 (by cases cs <;> decide) (by decide)
  exact ⟨h1, h2.trans (by decide)⟩

/-- C72: an unsigned 64-bit value above 2^63 prints as a negative number; a char as a number. -/
example (fl : Dbl → Str) (big : Obj → Str) (h h' : Heap) :
    (∃ t, toString fl big h' (make true h (.uint64 18446744073709551615)).1 = .ok t ∧ IsDecimal (-1) t) ∧
    (∃ t, toString fl big h' (make true h (.char 65)).1 = .ok t ∧ IsDecimal 65 t) := by
  obtain ⟨t, h1, h2⟩ := C72_text_partial true fl big h h' (.uint64 18446744073709551615) 18446744073709551615 (by decide)
  obtain ⟨t2, h3, h4⟩ := C72_text_partial true fl big h h' (.char 65) 65 (by decide)
  exact ⟨⟨t, h1, by simpa using h2⟩, ⟨t2, h3, by simpa using h4⟩⟩

/-- C73: 5 and 6 have different texts. -/
example (fl : Dbl → Str) (big : Obj → Str) (h h' : Heap) :
    toString fl big h (make true h (.int64 5)).1 ≠ toString fl big h' (make true h' (.int64 6)).1 :=
  fun e => absurd (C73_text_injective true fl big h h' 5 6 e) (by decide)

/-- C77, C114: the handler of an integer is flat, that of a string is not. -/
example (big : Obj → Int) (h : Heap) :
    toInt big h ⟨(allocate h .int).1, .int⟩ = .ok 0 ∧ toBool h ⟨(allocate h .bool).1, .bool⟩ = .ok false ∧
    (make true h (.int32 7)).1.handler.isFlat = true ∧ ¬ (make true h (.string ['a'])).1.handler.isFlat = true := by
  refine ⟨(C77_flat_partial big h .int rfl).2.1, (C77_flat_partial big h .bool rfl).2.2, ?_, ?_⟩
  · exact (C114_flat true h (.int32 7)).mpr rfl
  · intro e
    have := (C114_flat true h (.string ['a'])).mp e
    exact absurd this (Nat.succ_ne_self _)

example (h h' : Heap) : destroy h' (make true h (.numeric .nan)).1.handler (make true h (.numeric .nan)).1.data = .ok h' :=
  (C114_copy_flat_partial true (.numeric .nan) h rfl).2 h'

/-- C76: after this history the only live object is the one that a live Item of a string refers to. -/
example : ∃ s, run true {} [.new 0 (.string ['a']), .new 1 (.int32 5), .copy 2 1, .new 3 (.bignum true), .del 3] = some (.ok s) ∧
    ∀ a, s.heap.obj a ≠ none ↔ ∃ x i, s.var x = some i ∧ ¬ i.Flat ∧ i.data = .ptr a := by
  have hc : FlatCopies true {} [.new 0 (.string ['a']), .new 1 (.int32 5), .copy 2 1, .new 3 (.bignum true), .del 3] := by
    refine ⟨trivial, ?_⟩
    intro s h; cases h
    refine ⟨trivial, ?_⟩
    intro s h; cases h
    refine ⟨by intro i h; cases h; constructor <;> decide, ?_⟩
    intro s h; cases h
    refine ⟨trivial, ?_⟩
    intro s h; cases h
    exact ⟨trivial, fun _ _ => trivial⟩
  obtain ⟨r, hr⟩ := Option.isSome_iff_exists.mp
    (show (run true {} [.new 0 (.string ['a']), .new 1 (.int32 5), .copy 2 1, .new 3 (.bignum true), .del 3]).isSome = true by decide)
  obtain ⟨s, rfl, h⟩ := C76_lifetime_partial true _ hc r hr
  exact ⟨s, hr, h⟩

end Falcon.Item

namespace Falcon.Code

/-- C80: a Code made, moved, used and destroyed leaves no buffer. -/
example : ∃ s, run {} [.new 0 ['a'] 1, .move 1 0, .use 1, .del 0, .del 1] = some (.ok s) ∧ ∀ p, s.buf p = none := by
  have hd : Ideal.Run {} [.new 0 ['a'] 1, .move 1 0, .use 1, .del 0, .del 1] ⟨fun _ => none, [['a']]⟩ := by
    refine .cons (.new rfl (by constructor <;> decide)) (.cons (.move rfl rfl) (.cons (.use rfl) (.cons (.del (v := none) rfl) ?_)))
    have : Ideal.Step _ (.del 1) _ := .del (a := ⟨fun y => if y = 0 then none else if y = 1 then some (some ['a']) else if y = 0 then some none else if y = 0 then some (some ['a']) else none, [['a']]⟩) (x := 1) (v := some ['a']) rfl
    refine .cons this ?_
    have e : (⟨fun y => if y = 1 then none else if y = 0 then none else if y = 1 then some (some ['a']) else if y = 0 then some none else if y = 0 then some (some ['a']) else none, [['a']]⟩ : Ideal) = ⟨fun _ => none, [['a']]⟩ := by
      congr 1; funext y; by_cases h1 : y = 1 <;> by_cases h0 : y = 0 <;> simp [h1, h0]
    rw [e]
    exact .nil
  exact C80_no_leak_partial _ _ hd fun _ => rfl

/-- C81: two words, three Codes asked for: the third is empty. -/
example : ∃ s j, compileLoop {} { rest := [' ', 'a', 'b', '\n', 'c'] } 3 = some (.ok (s, j)) ∧ s.out.length = 3 ∧
    s.out[0]? = some ['a', 'b'] ∧ s.out[1]? = some ['c'] ∧ s.out[2]? = some [] := by
  have hw : Words [' ', 'a', 'b', '\n', 'c'] [['a', 'b'], ['c']] := by
    have h2 := WordsP.cons (sep := isBlank) (sp := ['\n']) (w := ['c']) (rest := []) (ws := []) (by decide) (by simp) (by decide) (by simp) (.nil (by simp))
    exact WordsP.cons (sp := [' ']) (w := ['a', 'b']) (rest := ['\n', 'c']) (by decide) (by simp) (by decide) (by intro c r h; cases h; rfl) h2
  obtain ⟨s, j, h1, h2, h3, -⟩ := C81_words_partial _ _ hw (by decide) 3
  exact ⟨s, j, h1, h2, h3 0 (by decide), h3 1 (by decide), h3 2 (by decide)⟩

end Falcon.Code

namespace Falcon.LogFilter

/-- C153: a clear before any filter crashes. -/
example : Logger.frun Logger.anyRx Logger.finit [.level 2, .clear, .dflt 3] = .error (.ub .nullDeref) :=
  (C153_only_crash Logger.anyRx [.level 2, .clear, .dflt 3] (by decide)).1

end Falcon.LogFilter

namespace Falcon.FilterRace
open Falcon.Log (Str Rx Msg LId setLst)
open Falcon.Logger (Fs FOp FInv finit fstep frun categoryFilter clearFilter lines anyRx)

/-- C155: after a filter at 4 was set, another thread's level change meanwhile ... -/
example : ∃ s, run anyRx { fs := finit } (beside ['a'] 4 [.dflt 2] [.level 2] [.dflt 1] [.level 4] [] [.dflt 5]) = .ok s ∧
    s.pc = .idle ∧ s.res = [none] := by
  obtain ⟨s, h1, h2, h3, -⟩ := C155_filter_exact_partial anyRx [] finit rfl ['a'] 4 [.dflt 2] [.level 2] [.dflt 1] [.level 4] [] [.dflt 5] [] []
  exact ⟨s, h1, h2, h3⟩

example : ∃ fs s, frun anyRx finit [.filter ['a'] 4] = .ok fs ∧ run anyRx { fs := fs } (besideClear [.level 1]) = .ok s ∧
    frun anyRx fs [.level 1, .clear] = .ok s.fs := by
  obtain ⟨fs, hfs, hp⟩ : ∃ fs, frun anyRx finit [.filter ['a'] 4] = .ok fs ∧ fs.proxy ≠ none := ⟨_, rfl, by decide⟩
  obtain ⟨s, h1, -, h3⟩ := C155_clear_exact_partial anyRx _ fs hfs [.level 1] [] [] hp
  exact ⟨fs, s, hfs, h1, h3⟩

example : ∃ s os, run anyRx { fs := finit } (.env (.level 3) :: beside ['a'] 4 [.dflt 2] [.level 2] [.dflt 1] [.level 4] [] [.dflt 5]) = .ok s ∧
    frun anyRx finit os = .ok s.fs ∧ os.filter isFilterCall = [.filter ['a'] 4] := by
  obtain ⟨s, hr, hp, hm⟩ : ∃ s, run anyRx { fs := finit } (.env (.level 3) :: beside ['a'] 4 [.dflt 2] [.level 2] [.dflt 1] [.level 4] [] [.dflt 5]) = .ok s ∧
    s.pc = .idle ∧ s.made = [.filter ['a'] 4] := ⟨_, rfl, rfl, rfl⟩
  obtain ⟨os, h1, h2, -⟩ := C155_histories_partial anyRx _ s hr hp
  exact ⟨s, os, hr, h1, h2.trans hm⟩

example : ∃ s, run anyRx { fs := finit } [.filter ['a'] 4, .env (.level 2), .go, .go, .go, .go] = .ok s ∧
    ∀ m, lines anyRx s.fs m = if s.fs.level < m.level then 0 else if m.level ≤ (s.fs.lst 0).level then 1 else 0 := by
  obtain ⟨s, hr, hp⟩ : ∃ s, run anyRx { fs := finit } [.filter ['a'] 4, .env (.level 2), .go, .go, .go, .go] = .ok s ∧ s.pc ≠ .idle := ⟨_, rfl, nofun⟩
  exact ⟨s, hr, C155_inside_partial anyRx _ s hr hp⟩

example : ∃ a b s, [.env (.level 2), .clear] = a ++ .clear :: b ∧ run anyRx { fs := finit } a = .ok s ∧ s.pc = .idle :=
  let ⟨_, a, b, s, h1, h2, h3, _⟩ := C155_no_fault anyRx [.env (.level 2), .clear] (.ub .nullDeref) rfl
  ⟨a, b, s, h1, h2, h3⟩

end Falcon.FilterRace
