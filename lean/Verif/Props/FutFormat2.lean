import Verif.Spec.FormatText
import Verif.Props.FutFormat
/-
C138 for every format of std::cout.
-/
namespace Falcon.Fut
open FormatText

theorem pad_filled (f : Format) (b : Str) : Filled f.width f.fill f.left b (f.pad b) := by
  unfold Format.pad
  refine ⟨?_, ?_, ?_⟩
  · split <;> simp <;> omega
  · intro h; rw [if_pos h]; exact ⟨_, rfl, fun c hc => (List.mem_replicate.1 hc).2⟩
  · intro h; rw [h, if_neg (by simp)]; exact ⟨_, rfl, fun c hc => (List.mem_replicate.1 hc).2⟩

theorem filled_pad (f : Format) (b v : Str) (h : Filled f.width f.fill f.left b v) : v = f.pad b := by
  obtain ⟨h1, h2, h3⟩ := h
  unfold Format.pad
  cases hl : f.left with
  | true =>
    obtain ⟨r, rfl, hr⟩ := h2 hl
    rw [if_pos rfl]
    congr 1
    refine List.eq_replicate_iff.2 ⟨?_, hr⟩
    simp at h1; omega
  | false =>
    obtain ⟨r, rfl, hr⟩ := h3 hl
    rw [if_neg (by simp)]
    congr 1
    refine List.eq_replicate_iff.2 ⟨?_, hr⟩
    simp at h1; omega

theorem int_dec (f : Format) (n : Int) (h : f.base = 10) :
    f.int n = sign f.plus n ++ Nat.toDigits 10 n.natAbs := by
  unfold Format.int sign showInt
  rw [if_pos h]
  by_cases hn : n < 0
  · rw [if_neg (by omega), if_pos hn, if_pos hn]; rfl
  · rw [if_neg hn, if_neg hn]
    cases f.plus
    · simp
    · rw [if_pos ⟨rfl, by omega⟩]; simp

theorem int_bits (f : Format) (n : Int) (u : Nat) (h : f.base ≠ 10) (hu : u < 2 ^ 32)
    (he : ∃ k : Int, n = u + k * 2 ^ 32) : f.int n = Nat.toDigits f.base u := by
  obtain ⟨k, rfl⟩ := he
  unfold Format.int
  rw [if_neg h]
  congr 1
  omega

theorem secs_eq (f : Format) (ms : Int) : f.secs ms = sign f.plus ms ++
    (if f.fixed then FloatText.fixedText f.prec |FloatText.seconds ms|
     else FloatText.text f.prec false |FloatText.seconds ms|) := by
  unfold Format.secs sign FloatText.text
  by_cases hn : ms < 0
  · rw [if_neg (by omega), if_pos hn, if_pos hn]
    cases f.fixed <;> simp [hn]
  · rw [if_neg hn, if_neg hn]
    cases f.plus <;> cases f.fixed <;> simp [hn, show 0 ≤ ms by omega]

theorem body_text {f : Format} {x : Tok} {b : Str} (h : Body f x b) :
    emit f x = (f.pad b, { f with width := 0 }) := by
  cases h with
  | text s => rfl
  | dec n h => rw [← int_dec f n h]; rfl
  | bits n u h hu he => rw [← int_bits f n u h hu he]; rfl
  | fixed ms h => rw [show sign f.plus ms ++ FloatText.fixedText f.prec |FloatText.seconds ms| = f.secs ms by rw [secs_eq, h]; rfl]; rfl
  | general ms h => rw [show sign f.plus ms ++ FloatText.text f.prec false |FloatText.seconds ms| = f.secs ms by rw [secs_eq, h]; rfl]; rfl

/-- C138 (exact, any format): what the runner's `<<`s show, and the format they leave, is what the relation says:
nothing else is shown, and nothing else can be. In particular a pending width goes to the first item only, base and sign
flags change every number, and only the width and the precision are ever different afterwards. -/
theorem C138_any_format_partial (f f' : Format) (xs : List Tok) (w : Str) :
    Writes f xs w f' ↔ emits f xs = (w, f') := by
  constructor
  · intro h
    induction h with
    | done f => rfl
    | prec h ih => simp only [emits, emit, ih]; rfl
    | item hb hv h ih => simp only [emits, body_text hb, ih, filled_pad _ _ _ hv]
  · intro h
    have key : ∀ f, Writes f xs (emits f xs).1 (emits f xs).2 := by
      clear h
      induction xs with
      | nil => intro f; exact .done f
      | cons x xs ih =>
        intro f
        cases x with
        | prec n => exact .prec (ih _)
        | text s => exact .item (.text s) (pad_filled f s) (ih _)
        | int n =>
          by_cases hb : f.base = 10
          · have := int_dec f n hb
            refine .item (.dec n hb) ?_ (ih _)
            rw [← this]; exact pad_filled f _
          · refine .item (.bits n (n % 4294967296).toNat hb (by omega) ⟨n / 4294967296, by omega⟩) ?_ (ih _)
            have : f.int n = Nat.toDigits f.base (n % 4294967296).toNat := by unfold Format.int; rw [if_neg hb]
            rw [← this]; exact pad_filled f _
        | secs ms =>
          have e := secs_eq f ms
          cases hf : f.fixed with
          | true =>
            rw [hf, if_pos rfl] at e
            refine .item (.fixed ms hf) ?_ (ih _)
            rw [← e]; exact pad_filled f _
          | false =>
            rw [hf, if_neg (by simp)] at e
            refine .item (.general ms hf) ?_ (ih _)
            rw [← e]; exact pad_filled f _
    have := key f
    rw [h] at this
    exact this

/-- What a run shows is made of these, test by test: its start, what the test wrote itself, its end; then the report. -/
inductive WritesRun (defs : Nat → TestDef) (u u' : UT) (w' : World) : Format → List Played → Str → Format → Prop where
  | report {f f' : Format} {s : Str} (h : Writes f (reportToks defs u' w') s f') : WritesRun defs u u' w' f [] s f'
  | test {f f1 f2 f' : Format} {p : Played} {ps : List Played} {a b r : Str}
      (ha : Writes f (beginToks u (defs p.test).fullName p.count) a f1)
      (hb : Writes (p.leaves f1) (endToks u (defs p.test).fullName p.count p.test p.ended) b f2)
      (h : WritesRun defs u u' w' f2 ps r f') : WritesRun defs u u' w' f (p :: ps) (a ++ p.direct ++ b ++ r) f'

/-- C138 (exact, whole runs, any formats left by the tests). -/
theorem C138_any_run_partial (defs : Nat → TestDef) (u u' : UT) (w' : World) (f : Format) (ps : List Played)
    (s : Str) (f' : Format) :
    WritesRun defs u u' w' f ps s f' ↔ playRun defs u f ps u' w' = (s, f') := by
  constructor
  · intro h
    induction h with
    | report h =>
      have h := (C138_any_format_partial _ _ _ _).1 h
      simp only [playRun, playAll, h, List.nil_append]
    | test ha hb h ih =>
      have ha := (C138_any_format_partial _ _ _ _).1 ha
      have hb := (C138_any_format_partial _ _ _ _).1 hb
      simp only [playRun, playAll, ha, hb, Prod.mk.injEq] at ih ⊢
      exact ⟨by rw [← ih.1]; simp, ih.2⟩
  · intro h
    have key : ∀ f, WritesRun defs u u' w' f ps (playRun defs u f ps u' w').1 (playRun defs u f ps u' w').2 := by
      clear h
      induction ps with
      | nil => intro f; exact .report ((C138_any_format_partial _ _ _ _).2 rfl)
      | cons p ps ih =>
        intro f
        have := WritesRun.test (p := p) (f := f) ((C138_any_format_partial _ _ _ _).2 rfl) ((C138_any_format_partial _ _ _ _).2 rfl) (ih _)
        simpa [playRun, playAll] using this
    have := key f
    rw [h] at this
    exact this

/-- a pending width of 6, hexadecimal: the first item takes the width, the number its base -/
example : Writes { base := 16, width := 6, fill := '.', left := true } [.text "ab".toList, .int (-1)] "ab....ffffffff".toList
    { base := 16, width := 0, fill := '.', left := true } :=
  (C138_any_format_partial _ _ _ _).2 (by decide +kernel)

end Falcon.Fut
