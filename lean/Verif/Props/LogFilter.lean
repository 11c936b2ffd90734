import Verif.Proofs.LogFilter
/-
C153: what a Logger writes after any history of level, filter and clear calls.
-/
namespace Falcon.LogFilter
open Falcon.Logger (FOp Fs finit frun)
open Falcon.Log (Rx Msg Str)

/-- C153: after any history of `level(n)`, `defaultListener()->level(n)`, `categoryFilter(re, l)`
and `clearFilter()` calls on a new Logger, every message is written as often as Spec/LogFilter
says: it depends only on the general level, the default listener's level and the last filter. -/
theorem C153_history (rx : Rx) (os : List FOp) (t : St) (h : calls rx init os = some t) :
    ∃ s, frun rx finit os = .ok s ∧ s.level = t.level ∧ ∀ m, Logger.lines rx s m = lines rx t m := by
  obtain ⟨s, e, hs⟩ := (same_init.run os).1 t h
  exact ⟨s, e, hs.level, fun m => hs.lines m⟩

/-- C153: the only call that goes wrong is `clearFilter()` on a Logger that was never asked for a
filter; it dereferences a null pointer. -/
theorem C153_only_crash (rx : Rx) (os : List FOp) (h : calls rx init os = none) :
    frun rx finit os = .error (.ub .nullDeref) ∧
    ∃ a b, os = a ++ .clear :: b ∧ ∀ re l, FOp.filter re l ∉ a := by
  refine ⟨(same_init.run os).2 h, ?_⟩
  have key : ∀ (os : List FOp) (t : St), calls rx t os = none → t.back = none →
      ∃ a b, os = a ++ .clear :: b ∧ ∀ re l, FOp.filter re l ∉ a := by
    intro os
    induction os with
    | nil => intro t h _; exact nomatch h
    | cons o os ih =>
      intro t h hb
      cases o with
      | clear => exact ⟨[], os, rfl, by simp⟩
      | level n =>
        obtain ⟨a, b, rfl, hn⟩ := ih { t with level := n } h hb
        exact ⟨_ :: a, b, rfl, by simpa using hn⟩
      | dflt n =>
        obtain ⟨a, b, rfl, hn⟩ := ih { t with dflt := n } h hb
        exact ⟨_ :: a, b, rfl, by simpa using hn⟩
      | filter re l =>
        -- a filter was asked for: nothing can go wrong any more
        exfalso
        have ok : ∀ (os : List FOp) (t : St), t.back ≠ none → calls rx t os ≠ none := by
          intro os
          induction os with
          | nil => intro t _ h; exact nomatch h
          | cons o os ih =>
            intro t hb h
            cases o with
            | level n => exact ih { t with level := n } hb h
            | dflt n => exact ih { t with dflt := n } hb h
            | filter re l => exact ih _ (by simp) h
            | clear =>
              cases hb' : t.back with
              | none => exact hb hb'
              | some b =>
                simp only [calls, call, hb'] at h
                exact ih _ (by simp) h
        exact ok os _ (by simp) h
  exact key os init h rfl

/-- C153: a level set with `level(n)` while no filter is in force is the level in force after any
number of filters asked for and cleared one at a time. -/
theorem C153_level_survives (rx : Rx) (os : List FOp) (t : St) (h : calls rx init os = some t) (n : Int)
    (fs : List (Str × Int)) :
    ∃ s, frun rx finit (os ++ .level n :: fs.flatMap (fun f => [.filter f.1 f.2, .clear])) = .ok s ∧
      s.level = n ∧ ∀ m : Msg, n < m.level → Logger.lines rx s m = 0 := by
  have app : ∀ (a b : List FOp) (t t' : St), calls rx t a = some t' → calls rx t (a ++ b) = calls rx t' b := by
    intro a
    induction a with
    | nil => intro b t t' h; simp only [calls, Option.some.injEq] at h; subst h; rfl
    | cons o a ih =>
      intro b t t' h
      simp only [calls, List.cons_append] at h ⊢
      split at h
      · exact nomatch h
      · rename_i t1 h1
        exact ih b t1 t' h
  have key : ∀ (fs : List (Str × Int)) (t : St), t.level = n →
      ∃ t', calls rx t (fs.flatMap (fun f => [.filter f.1 f.2, .clear])) = some t' ∧ t'.level = n := by
    intro fs
    induction fs with
    | nil => intro t ht; exact ⟨t, rfl, ht⟩
    | cons f fs ih =>
      intro t ht
      exact ih _ (by exact ht)
  obtain ⟨t', e, hn⟩ := key fs { t with level := n } rfl
  obtain ⟨s, es, hl, hm⟩ := C153_history rx (os ++ .level n :: fs.flatMap (fun f => [.filter f.1 f.2, .clear])) t' (by
    rw [app _ _ _ _ h]; exact e)
  refine ⟨s, es, hl.trans hn, fun m hlt => ?_⟩
  rw [hm]
  unfold lines
  rw [if_pos (by omega)]

/-- non-vacuity: two filters on top of each other, one of them cleared -/
example : calls Logger.anyRx init [.level 3, .dflt 2, .filter ['a'] 4, .filter ['b'] 5, .clear] =
    some { level := 4, dflt := 2, filter := none, back := some 4 } ∧
    calls Logger.anyRx init [.level 3, .dflt 2, .filter ['a'] 4] =
    some { level := 4, dflt := 2, filter := some (['a'], 4), back := some 3 } ∧
    calls Logger.anyRx init [.level 3, .clear] = none := by decide

/-- non-vacuity: a message is written twice, once, not at all -/
example : (lines Logger.anyRx { level := 4, dflt := 2, filter := some (['a'], 4), back := some 3 } (Logger.fm 2 ['a']) = 2) ∧
    (lines Logger.anyRx { level := 4, dflt := 2, filter := some (['a'], 4), back := some 3 } (Logger.fm 4 ['a']) = 1) ∧
    (lines Logger.anyRx { level := 4, dflt := 2, filter := some (['a'], 4), back := some 3 } (Logger.fm 4 ['b']) = 0) := by decide

end Falcon.LogFilter
