import Verif.Props.LoggerThrow
/- C154: logging goes on after a LOG_BLOCK whose commit() ran out of memory. -/
namespace Falcon.Logger
open Falcon.Log (Str Msg)

/-- C154 (memory short once): a LOG_BLOCK whose commit() runs out of memory is caught by the caller and memory is back for
the next commit(): the LOG statement that follows logs one message, with the text of the block in front of its own; after
it nothing is left over. -/
theorem C154_memory_back_partial (min : Int) (fate : Nat → Fate) (f f' : Str) (l l' lvl lvl' : Int) (tc : Option Str) (ps qs : List Piece) (s : Ctx)
    (hp : ps.all Piece.isPlain = true) (hq : qs.all Piece.isPlain = true) (h : lvl ≤ min ∧ lvl ≤ s.level) (h' : lvl' ≤ min ∧ lvl' ≤ s.level)
    (hr : Ready s.tls) (hf : fate s.commits = .throws) (hf' : fate (s.commits + 1) = .ok) :
    ∃ s', exec min fate false (.seq (.tryc (Stm.block f l lvl ps).toProg .skip) (Stm.log f' l' lvl' tc qs).toProg) s = (s', .done) ∧
      s'.out = s.out ++ [{ file := f', line := l', level := lvl', cat := msgCat s.tls.category tc, text := plainText ps ++ plainText qs }] ∧
      Ready s'.tls := by
  obtain ⟨r1, r2, r3, r4⟩ := hr
  have ht : ps.foldl insert (locate s.tls f l lvl) = { locate s.tls f l lvl with composer := plainText ps } := by
    rw [foldl_insert]
    simp [locate, r1, r2, r3, renderP_plain ps hp]
  have hb : exec min fate false (Stm.block f l lvl ps).toProg s =
      (Ctx.failed { s with tls := { locate s.tls f l lvl with composer := plainText ps } }, .threw none) := by
    simp only [Stm.toProg, Stm.withEnd, exec]
    rw [if_pos h, exec_lputs]
    simp [exec, hf, ht]
  obtain ⟨m1, m2, m3, m4⟩ := composed_plain (t := { locate s.tls f l lvl with composer := plainText ps }) (f := f') (l := l') (lvl := lvl') (tc := tc) hq r2 r3 r4
  have hl : exec min fate false (Stm.log f' l' lvl' tc qs).toProg (Ctx.failed { s with tls := { locate s.tls f l lvl with composer := plainText ps } }) =
      (Ctx.commit { Ctx.failed s with tls := Tls.composed { locate s.tls f l lvl with composer := plainText ps } f' l' lvl' tc qs }, .done) := by
    simp only [Stm.toProg]
    have h2 : lvl' ≤ min ∧ lvl' ≤ (Ctx.failed { s with tls := { locate s.tls f l lvl with composer := plainText ps } }).level := h'
    rw [exec_logparts, if_pos h2]
    simp [exec, Ctx.failed, hf']
  refine ⟨_, by simp only [exec, hb]; exact hl, ?_, m2⟩
  rw [commit_out]
  dsimp only
  rw [m4, if_pos (show lvl' ≤ (Ctx.failed s).level from h'.2), m1]
  rfl

/-- Witness: memory is short for the first commit() only. -/
example : ∃ s', exec 5 (fun k => if k = 0 then .throws else .ok) false
    (.seq (.tryc (Stm.block ['f'] 1 3 [.text ['a']]).toProg .skip) (Stm.log ['g'] 2 3 none [.text ['b']]).toProg) { level := 5 } = (s', .done) ∧
    s'.out = [{ file := ['g'], line := 2, level := 3, cat := [], text := ['a', 'b'] }] := by
  obtain ⟨s', h1, h2, -⟩ := C154_memory_back_partial 5 (fun k => if k = 0 then .throws else .ok) ['f'] ['g'] 1 2 3 3 none [.text ['a']] [.text ['b']]
    { level := 5 } rfl rfl (by decide) (by decide) ⟨rfl, rfl, rfl, rfl⟩ rfl rfl
  exact ⟨s', h1, h2⟩

end Falcon.Logger
