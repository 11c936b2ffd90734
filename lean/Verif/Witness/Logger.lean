import Verif.Props.Logger
import Verif.Props.LoggerExact
import Verif.Props.LoggerThrow
/- Each theorem about the Logger's statements and filters, applied to concrete data: its hypotheses can be met. -/
namespace Falcon.Logger

/-- Thread 0 has these operations to perform, under its category "A". -/
def busy (ops : List Op) : W := { level := 4, th := fun i => if i = 0 then { todo := ops, tls := { category := ['A'] } } else { todo := [] } }

theorem ready_busy (ops : List Op) : Ready ((busy ops).th 0).tls := ⟨rfl, rfl, rfl, rfl⟩

def msg3 : Stm := .log ['f'] 1 3 none [.text ['x'], .num 12]
def msg5 : Stm := .log ['f'] 2 5 none [.text ['y']]
def catMsg (c : Falcon.Log.Str) : Stm := .log ['f'] 7 3 (some c) [.text ['t']]

example : True := by
  have := C56_filtered_no_effect 5 (busy [msg5.toOp, msg3.toOp]) 0 ['f'] 2 5 none [.text ['y']] [msg3.toOp] rfl (by decide)
  have := C57_temporary_category 5 (busy [(catMsg ['T']).toOp, msg3.toOp]) 0 ['f'] ['f'] 7 1 3 3 ['T'] [.text ['t']] [.text ['x'], .num 12]
    (by decide) rfl rfl (by decide) (by decide) (ready_busy _) rfl
  have := C57_exact_partial 5 (busy [(catMsg []).toOp, msg3.toOp]) 0 ['f'] 7 3 [] [.text ['t']] [msg3.toOp] rfl (by decide) (ready_busy _) rfl
  have := C58_nesting_exact_partial 5 (busy [.log ['g'] 9 2 [.put (.text ['a']), msg3.toOp, .put (.text ['b'])], msg3.toOp]) 0 ['g'] ['f'] 9 1 2 3
    [.text ['a']] [.text ['x'], .num 12] [.text ['b']] [msg3.toOp] rfl rfl rfl (by decide) (by decide) (ready_busy _) rfl
  have := C58_filtered_nested_partial 5 (busy [.log ['g'] 9 2 [.put (.text ['a']), msg5.toOp, .put (.text ['b'])], msg3.toOp]) 0 ['g'] ['f'] 9 2 2 5
    [.text ['a']] [.text ['y']] [.text ['b']] [msg3.toOp] rfl rfl (by decide) (by decide) (ready_busy _) rfl
  have := C59_block_partial 5 (busy [.block ['g'] 9 2 [.lput (.text ['a']), .lput (.num 3)] false, msg3.toOp]) 0 ['g'] 9 2 [.text ['a'], .num 3] [msg3.toOp]
    rfl (by decide) (ready_busy _) rfl
  have := C59_early_exit_exact_partial 5 (busy [.block ['g'] 9 2 [.lput (.text ['a'])] true, msg3.toOp, msg5.toOp]) 0 ['g'] ['f'] 9 1 2 3 [.text ['a']]
    [.text ['x'], .num 12] [msg5.toOp] rfl rfl (by decide) (by decide) (ready_busy _) rfl
  have := C61_default_build_partial (busy [.categoryMacro ['B'], msg3.toOp, msg5.toOp]) 0 ['B'] [msg3, msg5] (by decide)
    (by simp [msg3, msg5, Stm.isPlain, Piece.isPlain]) (ready_busy _) rfl
  have := C104_after_statement_partial 5 (busy [(Stm.log ['f'] 1 3 none [.hex, .num 255, .nullStr, .text ['q']]).toOp, msg3.toOp]) 0 ['f'] 1 3 none
    [.hex, .num 255, .nullStr, .text ['q']] [msg3.toOp] (by decide) rfl
  trivial

/-! Filters: the general level is 3, "a" is wanted in detail, then "b" as well. -/

def filtered : List FOp := [.level 3, .filter ['a'] 4, .level 2, .dflt 2]
def filteredS : Fs := (categoryFilter anyRx { finit with level := 3 } ['a'] 4).1

example : True := by
  have := C62_restores_last_partial anyRx { finit with level := 3 } ['a'] 4 [.level 2, .dflt 2, .level 5] (by simp) _ rfl
  have := C62_same_lines_partial anyRx [.level 3, .filter ['a'] 4, .clear] _ rfl (by decide) ['b'] 5 _ rfl ⟨['f'], 1, 4, ['b'], ['x']⟩
  have := C62_callable_exact_partial anyRx filtered _ rfl
  have := C62_exact_partial anyRx { finit with level := 3 } [(['a'], 4), (['c'], 2)] (['b'], 5)
  have := C63_detail_partial anyRx [.level 3, .dflt 3] _ rfl ['a'] 5 rfl (by decide) rfl ⟨['f'], 1, 4, ['a'], ['x']⟩ (by decide) (by decide)
  have := C64_invalid_expression_partial anyRx filtered _ rfl ['('] 5
  trivial

/-! Exceptions. -/

example : True := by
  have r : Ready ({} : Tls) := ⟨rfl, rfl, rfl, rfl⟩
  have := C154_flow_partial 5 fine (fun _ => rfl) false busyProg { level := 5 }
  have := C154_log_exact_partial 5 fine (fun _ => rfl) false ['f'] 1 3 (some ['C']) [.text ['x'], .num 7] 9 { level := 5 } rfl (by decide) r
  have := C154_log_filtered_partial 5 fine false ['f'] 1 4 none [.text ['x']] 9 { level := 3 } (by decide)
  have := C154_nothing_left_partial 5 fine false ['f'] 1 3 (.seq (.put (.text ['x'])) (.thrw 4)) { level := 5 } _ _ (by decide) rfl (by decide)
  have := C154_block_exact_partial 5 fine (fun _ => rfl) ['f'] ['g'] 1 2 3 4 (some ['C']) [.text ['x']] [.text ['y']] 9 { level := 5 } rfl rfl (by decide) (by decide) r
  have := C154_later_partial 5 fine (fun _ => rfl) busyProg (by decide) { level := 5 } r ['g'] 2 4 (some ['C']) [.text ['y']] rfl
  have := C154_terminate_exact_partial 5 (fun k => if k = 1 then .kills else .ok) false ['f'] 1 3 (.seq (.put (.text ['x'])) (.log ['g'] 2 3 (.put (.text ['y']))))
    { level := 5 } (by decide)
  have := C154_block_memory_partial 5 (fun _ => .throws) ['f'] 1 3 [.text ['x']] { level := 5 } rfl (by decide) r rfl
  trivial

end Falcon.Logger
