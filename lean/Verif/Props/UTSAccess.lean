import Verif.Props.UTSingleton
/- C158: the accesses of singleton() to the pointer. -/
namespace Falcon.UTS

/-- C158 (what the races are about): every access of singleton() to the pointer is a plain one, made without a mutex; a step that
changes the pointer makes a write, and a write stores a runner; each call reads the pointer first and last. -/
theorem C158_accesses_partial (s : St) (i : Nat) :
    (∀ x ∈ access s i, x.atomic = false ∧ x.held = []) ∧
    ((step s i).1.ptr ≠ s.ptr → ∃ x ∈ access s i, x.write = true) ∧
    (∀ x ∈ access s i, x.write = true → ∃ u, (step s i).1.ptr = some u) ∧
    ((∃ u, .returned i u ∈ (step s i).2) → ∃ x ∈ access s i, x.write = false) ∧
    (.called i ∈ (step s i).2 → ∃ x ∈ access (step s i).1 i, x.write = false) := by
  unfold access step
  cases h : s.pc i <;> simp [setPc]
  all_goals (try split) <;> simp

/-- Witness: the reading of a call that finds no runner, and the writing of it. -/
example : access (run {} [0]).1 0 = [⟨(), false, false, []⟩] ∧ access (run {} [0, 0, 0]).1 0 = [⟨(), true, false, []⟩] ∧
    (step (run {} [0, 0, 0]).1 0).1.ptr ≠ (run {} [0, 0, 0]).1.ptr :=
  ⟨rfl, rfl, by decide⟩

end Falcon.UTS
