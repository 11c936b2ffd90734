import Verif.Props.RunnersDefined
import Verif.Props.Nested
import Verif.Props.FutFormat
import Verif.Props.FutDirect
/- The theorems about tests and runners, applied to concrete data: their hypotheses can be met. -/
namespace Falcon.Fut

/-- Test 1 passes and writes, test 2 fails a check, test 3 throws. -/
def threeDefs : Nat → TestDef := fun t =>
  if t = 1 then ⟨['A'], ['a'], fun _ => { body := [.out ['o'], .check true ['f'] 1 [] []] }⟩
  else if t = 2 then ⟨['B'], ['b'], fun _ => { setUp := [.step 1], body := [.check false ['d', '/', 'f'] 7 ['e'] ['v']], tearDown := [.step 2] }⟩
  else ⟨['A'], ['c'], fun _ => { body := [.thrw (.std ['w'])] }⟩

theorem three_keeps : ∀ t k, ((threeDefs t).script k).KeepsStreams := by
  intro t k a ha
  unfold threeDefs at ha
  split at ha
  · simp at ha; rcases ha with rfl | rfl <;> rfl
  · split at ha
    · simp at ha; rcases ha with rfl | rfl | rfl <;> rfl
    · simp at ha; subst ha; rfl

theorem three_checks : ∀ t k, ((threeDefs t).script k).ChecksOnly := by
  intro t k a ha
  unfold threeDefs at ha
  split at ha
  · simp at ha; rcases ha with rfl | rfl <;> rfl
  · split at ha
    · simp at ha; rcases ha with rfl | rfl | rfl <;> rfl
    · simp at ha; subst ha; rfl

def threeUT : UT := registered threeDefs [1, 2, 3]

theorem sane_start : Sane {} := ⟨by decide, fun t => ⟨by simp, by simp⟩, fun t => ⟨by simp, by simp⟩⟩

theorem three_run : ∃ d, performUnitTests {} secFmt true threeDefs threeUT {} = .ok d :=
  C156_checks_only _ _ _ _ _ _ (.inl rfl) three_checks

example : True := by
  obtain ⟨d, h⟩ := three_run
  have := C85_passed_partial _ _ _ _ _ _ _ h
  have := C85_e_is_noop_partial {} secFmt true threeDefs threeUT {} ['p'] [.quiet] [.test "A::a".toList] (by
    intro o ho; simp at ho; rcases ho with rfl | rfl
    · trivial
    · show (findByName threeUT "A::a".toList).isSome; decide +kernel)
  have := C89_kth_partial {} secFmt true threeDefs threeUT {} rfl 0 d h
  have := C138_neutral_partial {} true threeDefs threeUT {} d three_keeps sane_start h (fun _ f => f) (fun _ _ h => h) {}
  have := C156_first_run_partial {} secFmt true threeDefs threeUT {} (.inl rfl) rfl (by decide)
  have := C97_names (threeDefs 1) (threeDefs 1) rfl (by decide) (by decide)
  have := C98_name '/' threeUT ['d', '/'] ['p'] ['.', 'x'] (.inr ⟨['d'], rfl⟩) (by decide) (by decide) (.inr ⟨['x'], rfl⟩)
  have := C99_time_of_day 86399990 86400010 (by decide) (by decide)
  have := C99_modulo_day 86399990 186400010 (by decide)
  have := C101_reported_partial {} (threeDefs 2) 2 {} (by decide) ['f'] 7 ("e".toList ++ txtActually ++ ['v'] ++ txtClose) (by decide +kernel)
  have := C126_elapsed_partial { clock := fun k => 10 * k } (threeDefs 2) 2 {} rfl rfl (by decide)
  trivial

example : True := by
  obtain ⟨d, h⟩ := C156_checks_only {} secFmt true threeDefs { threeUT with verbosity := 0 } {} (.inl rfl) three_checks
  have := C92_silent_partial _ _ _ _ _ _ _ rfl rfl three_keeps h .stdout (fun t => ⟨by simp, by simp⟩)
  have := C92_exact_partial _ _ _ _ _ _ _ rfl rfl h .stdout (.inl rfl)
  have := C92_silent_iff_partial _ _ _ _ _ _ _ rfl rfl h (.inl rfl)
  trivial

/-! Two runners: the program `mixed` of Props/RunnersBad up to runner 1's main(). -/

def mixedOps : List ROp := mixed.take 9
def mixedOuts : List ROut := [.runner 0, .done, .runner 1, .done, .done, .done, .code 0 [(1, 3, true)], .code (-1) [(1, 2, false), (2, 1, true)], .code (-1) [(1, 2, false)]]
def mixedHist : List (ROp × ROut) := mixedOps.zip mixedOuts

theorem mixed_exec : ∃ s, RExec {} secFmt true (rstart mixedTests {}) mixedHist s := by
  have key : (rrun {} secFmt true (rstart mixedTests {}) mixedOps).toOption.map Prod.snd = some mixedOuts := by decide +kernel
  cases h : rrun {} secFmt true (rstart mixedTests {}) mixedOps with
  | error e => rw [h] at key; cases key
  | ok r =>
    rw [h] at key
    have e : r.2 = mixedOuts := Option.some.inj key
    exact ⟨r.1, by unfold mixedHist; rw [← e]; exact rrun_exec h⟩

theorem mixed_checks : ∀ t k, (mixedTests t k).ChecksOnly := by
  intro t k a ha
  unfold mixedTests at ha
  split at ha
  · simp only [List.nil_append, List.append_nil, List.mem_singleton] at ha; subst ha; rfl
  · simp at ha

theorem mixed_plain : ∀ e ∈ mixedHist, e.1.Plain := by
  intro e he
  simp [mixedHist, mixedOps, mixedOuts, mixed] at he
  rcases he with rfl | rfl | rfl | rfl | rfl | rfl | rfl | rfl | rfl <;> trivial

example : True := by
  obtain ⟨s, r⟩ := mixed_exec
  have i := r.rinv
  have given : Given mixedHist 0 := ⟨.make, by simp [mixedHist, mixedOps, mixedOuts, mixed]⟩
  have notOver : ¬ Over mixedHist 0 := by
    rintro (⟨a, o, h⟩ | ⟨o, h⟩) <;> simp [mixedHist, mixedOps, mixedOuts, mixed] at h
  obtain ⟨x, hx⟩ := Option.isSome_iff_exists.1 ((i.units 0).2 ⟨given, notOver⟩)
  have := C143_names_partial _ _ _ _ _ _ _ r 0 x hx
  have := C144_sound_partial _ _ _ _ _ _ _ r (.perform 0)
  have := C144_singleton_partial _ _ _ _ _ _ _ r
  have notDel : ∀ t ∈ testsOfUnit mixedHist 0, ¬ Deleted mixedHist t := by
    rintro t - ⟨o, h⟩; simp [mixedHist, mixedOps, mixedOuts, mixed] at h
  obtain ⟨s', out, hs⟩ := (C144_defined_partial _ _ _ _ _ _ _ mixed_checks mixed_plain r (.perform 0) trivial).2 ⟨⟨given, notOver⟩, notDel⟩
  have := C143_own _ _ _ _ _ _ _ _ r 0 (.perform 0) out (.inl rfl) hs
  obtain ⟨s', out, hs⟩ := (C144_defined_partial _ _ _ _ _ _ _ mixed_checks mixed_plain r (.performTest 0 ['A', ':', ':', 'x']) trivial).2 ⟨⟨given, notOver⟩, notDel⟩
  have := C143_lookup _ _ _ _ _ _ _ _ r 0 _ out hs
  trivial

end Falcon.Fut
