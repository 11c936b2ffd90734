import Verif.Props.FutexWeak

/-! C136 applied to a run to the end of two threads that each add one under the lock. -/
namespace Falcon.Futex

/-- Both threads run to the end. -/
def toTheEnd : List (Nat × Choice) :=
  handOver ++ [(1, { ver := 2 }), (1, { ver := 3 }), (1, { start := 12, time := 13 })]

theorem counted : ∃ w, WReach codeOrders counter 0 0 demoProg w ∧ newest w = some 2 ∧ ∀ i, (w.th i).pc = .out ∧ (w.th i).todo = [] := by
  cases h : wrun codeOrders counter 0 (winitial 0 demoProg) toTheEnd with
  | none =>
    have : (wrun codeOrders counter 0 (winitial 0 demoProg) toTheEnd).isSome = true := by decide
    rw [h] at this; cases this
  | some w =>
    have hr : WReach codeOrders counter 0 0 demoProg w := wreach_of_wrun _ .init h
    refine ⟨w, hr, ?_, ?_⟩
    · have : (wrun codeOrders counter 0 (winitial 0 demoProg) toTheEnd).map newest = some (some 2) := by decide
      rw [h] at this; exact Option.some.inj this
    · intro i
      have hw : some w = wrun codeOrders counter 0 (winitial 0 demoProg) toTheEnd := h.symm
      match i with
      | 0 =>
        have : w = (wrun codeOrders counter 0 (winitial 0 demoProg) toTheEnd).get rfl := Option.some.inj (hw.trans (Option.some_get _).symm)
        rw [this]; exact ⟨rfl, rfl⟩
      | 1 =>
        have : w = (wrun codeOrders counter 0 (winitial 0 demoProg) toTheEnd).get rfl := Option.some.inj (hw.trans (Option.some_get _).symm)
        rw [this]; exact ⟨rfl, rfl⟩
      | k + 2 =>
        have : w = (wrun codeOrders counter 0 (winitial 0 demoProg) toTheEnd).get rfl := Option.some.inj (hw.trans (Option.some_get _).symm)
        rw [this]; exact ⟨rfl, rfl⟩

example : ∃ order : List (Nat × Unit), (∀ i, ofThread i order = demoProg i) ∧ (sequential counter 0 order).1 = 2 := by
  obtain ⟨w, h, hn, hd⟩ := counted
  obtain ⟨order, h1, h2, -⟩ := C136_final_state counter 0 0 demoProg w h hd
  exact ⟨order, h1, Option.some.inj (h2.symm.trans hn)⟩

/-- Thread 0 is trying and nobody holds the lock: it can get it. -/
example : ∃ w ch w', wrun codeOrders counter 0 (winitial 0 demoProg) [(0, {})] = some w ∧
    wstep codeOrders counter 0 w 0 ch = some w' ∧ WHolds w' 0 := by
  obtain ⟨w, hw, sc, hp⟩ : ∃ w, wrun codeOrders counter 0 (winitial 0 demoProg) [(0, {})] = some w ∧ ∃ sc, (w.th 0).pc = .trying sc :=
    ⟨_, rfl, _, rfl⟩
  have hr : WReach codeOrders counter 0 0 demoProg w := wreach_of_wrun _ .init hw
  have hf : ∀ j, ¬ WHolds w j := by
    cases hw
    rintro j ⟨r, l, e⟩
    match j with
    | 0 => cases e
    | 1 => cases e
    | k + 2 => cases e
  obtain ⟨ch, w', h1, h2⟩ := C136_acquires_when_free counter 0 0 demoProg w hr 0 sc hp hf
  exact ⟨w, ch, w', hw, h1, h2⟩

end Falcon.Futex
