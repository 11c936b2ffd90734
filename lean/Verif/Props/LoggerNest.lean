import Verif.Spec.LoggerNest
import Verif.Props.LoggerThrow
/-
C58 for every nesting of LOG statements.
-/
namespace Falcon.Logger
open Falcon.Log (Str Msg)

theorem sinceClosed_closed (pre : List Tok) : sinceClosed (pre ++ [.closed]) = [] := by simp [sinceClosed]
theorem sinceClosed_other (pre : List Tok) (t : Tok) (h : t ≠ .closed) : sinceClosed (pre ++ [t]) = sinceClosed pre ++ [t] := by
  have : (t != Tok.closed) = true := by simpa using h
  simp [sinceClosed, this]

theorem plainText_append (a b : List Piece) : plainText (a ++ b) = plainText a ++ plainText b := by
  induction a with
  | nil => rfl
  | cons p a ih => cases p <;> simp [plainText, ih]

theorem lastOpened_append (a b : List Tok) : lastOpened (a ++ b) = (lastOpened b).or (lastOpened a) := by
  induction a with
  | nil => simp [lastOpened]
  | cons t a ih =>
    cases t with
    | opened f l lvl => simp only [List.cons_append, lastOpened, ih]; cases lastOpened b <;> simp
    | piece p => exact ih
    | cat c => exact ih
    | closed => exact ih

theorem emittedAll_append (cat : Str) (a b : List Tok) : ∀ pre, emittedAll cat pre (a ++ b) = emittedAll cat pre a ++ emittedAll cat (pre ++ a) b := by
  induction a with
  | nil => intro pre; simp [emittedAll]
  | cons t a ih =>
    intro pre
    cases t <;> simp [emittedAll, ih]

/-- the thread's members, behind the tokens `pre` -/
structure Heard (cat : Str) (lv : Int) (pre : List Tok) (t : Tls) : Prop where
  text : t.composer = heard pre
  temp : t.temp = lastCat pre
  hex  : t.isHex = false
  bad  : t.bad = false
  cat  : t.category = cat
  loc  : ∀ f l lvl, lastOpened pre = some (f, l, lvl) → t.file = f ∧ t.line = l ∧ t.lvl = lvl ∧ lvl ≤ lv

theorem Heard.exec {min lv : Int} {fate : Nat → Fate} (hf : ∀ k, fate k = .ok) (cat : Str) (p : Prog) :
    ∀ (act : Bool) (pre : List Tok) (s : Ctx), p.nest = true → s.level = lv → Heard cat lv pre s.tls →
    ∃ s', Logger.exec min fate act p s = (s', .done) ∧ s'.level = lv ∧ Heard cat lv (pre ++ tape min lv act p) s'.tls ∧
      s'.out = s.out ++ emittedAll cat pre (tape min lv act p) := by
  induction p with
  | skip => intro act pre s _ hl h; exact ⟨s, rfl, hl, by simpa [tape] using h, by simp [tape, emittedAll]⟩
  | seq a b iha ihb =>
    intro act pre s hn hl h
    simp only [Prog.nest, Bool.and_eq_true] at hn
    obtain ⟨s1, e1, l1, h1, o1⟩ := iha act pre s hn.1 hl h
    obtain ⟨s2, e2, l2, h2, o2⟩ := ihb act _ s1 hn.2 l1 h1
    refine ⟨s2, by simp only [Logger.exec, e1, e2], l2, by simpa [tape] using h2, ?_⟩
    rw [o2, o1, tape, emittedAll_append, List.append_assoc]
  | put p =>
    intro act pre s hn hl h
    cases act with
    | false => exact ⟨s, rfl, hl, by simpa [tape] using h, by simp [tape, emittedAll]⟩
    | true =>
      refine ⟨{ s with tls := insert s.tls p }, rfl, hl, ?_, by simp [tape, emittedAll]⟩
      have hne : (Tok.piece p) ≠ .closed := nofun
      have hh : heard (pre ++ [.piece p]) = heard pre ++ plainText [p] := by
        simp only [heard, sinceClosed_other _ _ hne, List.filterMap_append]
        exact plainText_append _ _
      have hc : lastCat (pre ++ [.piece p]) = lastCat pre := by
        simp only [lastCat, sinceClosed_other _ _ hne, List.filterMap_append]; simp [Tok.cat?]
      have ho : lastOpened (pre ++ [.piece p]) = lastOpened pre := by rw [lastOpened_append]; rfl
      simp only [tape, if_true]
      have hi : (insert s.tls p) = { s.tls with composer := s.tls.composer ++ plainText [p] } := by
        have hx := h.hex
        have hb := h.bad
        cases p <;> simp_all [Logger.insert, plainText, Piece.isPlain, Prog.nest]
      rw [hi]
      exact ⟨by rw [hh, ← h.text], by rw [hc]; exact h.temp, h.hex, h.bad, h.cat, by rw [ho]; exact h.loc⟩
  | cat c =>
    intro act pre s hn hl h
    cases act with
    | false => exact ⟨s, rfl, hl, by simpa [tape] using h, by simp [tape, emittedAll]⟩
    | true =>
      refine ⟨{ s with tls := { s.tls with temp := c } }, rfl, hl, ?_, by simp [tape, emittedAll]⟩
      have hne : (Tok.cat c) ≠ .closed := nofun
      have hh : heard (pre ++ [.cat c]) = heard pre := by
        simp [heard, sinceClosed_other _ _ hne, List.filterMap_append, List.filterMap_cons, Tok.piece?]
      have hc : lastCat (pre ++ [.cat c]) = c := by
        simp only [lastCat, sinceClosed_other _ _ hne, List.filterMap_append]; simp [Tok.cat?]
      have ho : lastOpened (pre ++ [.cat c]) = lastOpened pre := by rw [lastOpened_append]; rfl
      simp only [tape, if_true]
      exact ⟨by rw [hh]; exact h.text, by rw [hc], h.hex, h.bad, h.cat, by rw [ho]; exact h.loc⟩
  | log f l lvl parts ih =>
    intro act pre s hn hl h
    simp only [Prog.nest] at hn
    rw [exec_log_eq]
    subst hl
    by_cases ha : lvl ≤ min ∧ lvl ≤ s.level
    · rw [if_pos ha]
      simp only [tape]
      rw [if_pos ha]
      have hne : (Tok.opened f l lvl) ≠ .closed := nofun
      have h0 : Heard cat s.level (pre ++ [.opened f l lvl]) (locate s.tls f l lvl) := by
        refine ⟨?_, ?_, h.hex, h.bad, h.cat, ?_⟩
        · have hh : heard (pre ++ [.opened f l lvl]) = heard pre := by
            simp [heard, sinceClosed_other _ _ hne, List.filterMap_append, List.filterMap_cons, Tok.piece?]
          rw [hh]; exact h.text
        · have hc : lastCat (pre ++ [.opened f l lvl]) = lastCat pre := by
            simp only [lastCat, sinceClosed_other _ _ hne, List.filterMap_append]; simp [Tok.cat?]
          rw [hc]; exact h.temp
        · intro f' l' lvl' he
          rw [lastOpened_append] at he
          simp only [lastOpened, Option.getD_none, Option.some_or, Option.some.injEq, Prod.mk.injEq] at he
          obtain ⟨rfl, rfl, rfl⟩ := he
          exact ⟨rfl, rfl, rfl, ha.2⟩
      obtain ⟨s1, e1, l1, h1, o1⟩ := ih true _ { s with tls := locate s.tls f l lvl } hn rfl h0
      rw [e1]
      dsimp only
      rw [hf]
      refine ⟨s1.commit, rfl, l1, ?_, ?_⟩
      · have hpre : pre ++ Tok.opened f l lvl :: (tape min s.level true parts ++ [.closed]) =
            (pre ++ [.opened f l lvl] ++ tape min s.level true parts) ++ [.closed] := by simp
        rw [hpre]
        generalize pre ++ [Tok.opened f l lvl] ++ tape min s.level true parts = q at h1
        refine ⟨?_, ?_, h1.hex, rfl, h1.cat, ?_⟩
        · simp only [heard, sinceClosed_closed]; rfl
        · simp only [lastCat, sinceClosed_closed]; rfl
        · intro f' l' lvl' he
          have ho : lastOpened (q ++ [.closed]) = lastOpened q := by rw [lastOpened_append]; rfl
          rw [ho] at he
          exact h1.loc f' l' lvl' he
      · have hem : emittedAll cat pre (Tok.opened f l lvl :: (tape min s.level true parts ++ [.closed])) =
            emittedAll cat (pre ++ [.opened f l lvl]) (tape min s.level true parts) ++
              [emitted cat (pre ++ [.opened f l lvl] ++ tape min s.level true parts)] := by
          simp only [emittedAll, emittedAll_append]
        rw [hem, commit_out, o1, List.append_assoc]
        have hsome : ∃ o, lastOpened (pre ++ [Tok.opened f l lvl] ++ tape min s.level true parts) = some o := by
          rw [lastOpened_append, lastOpened_append]
          cases lastOpened (tape min s.level true parts) with
          | none => exact ⟨_, rfl⟩
          | some o => exact ⟨_, rfl⟩
        generalize pre ++ [Tok.opened f l lvl] ++ tape min s.level true parts = q at h1 hsome ⊢
        obtain ⟨⟨f', l', lvl'⟩, ho⟩ := hsome
        obtain ⟨g1, g2, g3, g4⟩ := h1.loc f' l' lvl' ho
        rw [if_pos (by rw [g3, l1]; exact g4)]
        congr 2
        simp only [Tls.msg, Tls.effCat, emitted, ho, Option.getD_some, g1, g2, g3, h1.text, h1.temp, h1.cat]
    · rw [if_neg ha]
      simp only [tape]
      rw [if_neg ha]
      exact ih false pre s hn rfl h
  | block => intro _ _ _ hn; cases hn
  | lput => intro _ _ _ hn; cases hn
  | setCategory => intro _ _ _ hn; cases hn
  | level => intro _ _ _ hn; cases hn
  | thrw => intro _ _ _ hn; cases hn
  | tryc => intro _ _ _ hn; cases hn

/-- C58 (what happens, exactly, for every nesting): when LOG statements are nested to whatever depth and in whatever number,
each that is admitted emits one message when it ends; its text is what was inserted - by any of the statements - since the
last end of any of them, its file, line and level are those of the statement that began last. Statements that are not
admitted leave no trace, those nested in them are treated like the others. The thread is ready again afterwards if nothing
stands outside a statement. -/
theorem C58_every_nesting_partial (min : Int) (fate : Nat → Fate) (hf : ∀ k, fate k = .ok) (p : Prog) (hn : p.nest = true) (s : Ctx) (hr : Ready s.tls) :
    ∃ s', Logger.exec min fate false p s = (s', .done) ∧ s'.level = s.level ∧
      s'.out = s.out ++ emittedAll s.tls.category [] (tape min s.level false p) ∧
      s'.tls.composer = heard (tape min s.level false p) ∧ s'.tls.category = s.tls.category := by
  have h0 : Heard s.tls.category s.level [] s.tls := ⟨hr.1, hr.2.2.2, hr.2.1, hr.2.2.1, rfl, by simp [lastOpened]⟩
  obtain ⟨s', e, l, h, o⟩ := Heard.exec (min := min) hf s.tls.category p false [] s hn rfl h0
  exact ⟨s', e, l, o, h.text, h.cat⟩

/-- C58 (what holds): without nesting the rule gives every statement its own message. -/
theorem C58_rule_flat_partial (min lv : Int) (cat f : Str) (l lvl : Int) (ps : List Piece) (h : lvl ≤ min ∧ lvl ≤ lv) :
    emittedAll cat [] (tape min lv false (Stm.log f l lvl none ps).toProg) =
      [{ file := f, line := l, level := lvl, cat := cat, text := plainText ps }] := by
  have ht : ∀ (ps : List Piece), tape min lv true (Prog.ofList (ps.map Prog.put ++ [.skip])) = ps.map Tok.piece := by
    intro ps
    induction ps with
    | nil => rfl
    | cons p ps ih => simp only [List.map_cons, List.cons_append, Prog.ofList, tape, if_true, ih]; rfl
  have hno : ∀ (ps : List Piece) (pre : List Tok), emittedAll cat pre (ps.map Tok.piece) = [] := by
    intro ps
    induction ps with
    | nil => intro pre; rfl
    | cons p ps ih => intro pre; exact ih _
  have hs : sinceClosed (Tok.opened f l lvl :: ps.map Tok.piece) = Tok.opened f l lvl :: ps.map Tok.piece := by
    simp only [sinceClosed]
    have hk : ∀ q : List Tok, (∀ t ∈ q, (t != .closed) = true) → q.takeWhile (fun t => t != .closed) = q := by
      intro q
      induction q with
      | nil => intro _; rfl
      | cons t q ih => intro hq; rw [List.takeWhile_cons, if_pos (hq t (by simp)), ih fun u hu => hq u (by simp [hu])]
    rw [hk, List.reverse_reverse]
    intro t ht
    simp only [List.mem_reverse, List.mem_cons, List.mem_map] at ht
    rcases ht with rfl | ⟨p, -, rfl⟩ <;> rfl
  have ho : ∀ ps : List Piece, lastOpened (ps.map Tok.piece) = none := by
    intro ps; induction ps with
    | nil => rfl
    | cons p ps ih => exact ih
  have hp : ∀ ps : List Piece, (ps.map Tok.piece).filterMap Tok.piece? = ps := by
    intro ps; induction ps with
    | nil => rfl
    | cons p ps ih => simp only [List.map_cons, List.filterMap_cons, Tok.piece?, ih]
  have hc : ∀ ps : List Piece, (ps.map Tok.piece).filterMap Tok.cat? = [] := by
    intro ps; induction ps with
    | nil => rfl
    | cons p ps ih => simp only [List.map_cons, List.filterMap_cons, Tok.cat?, ih]
  simp only [Stm.toProg, Stm.withEnd, tape]
  rw [if_pos h, ht]
  simp only [emittedAll, emittedAll_append, hno, List.nil_append, List.cons_append, emitted, heard, lastCat, hs, List.filterMap_cons, hp, hc, Tok.piece?, Tok.cat?, lastOpened, ho]
  rfl

/-- two statements in one, one of them filtered, a third inside the second -/
example : (Prog.log ['o'] 1 3 (.seq (.put (.text ['a'])) (.seq (.log ['i'] 2 4 (.seq (.put (.num 7)) (.log ['j'] 3 1 (.put (.text ['z'])))))
      (.seq (.log ['k'] 4 9 (.put (.text ['q']))) (.put (.text ['b'])))))).nest = true ∧
    emittedAll ['C'] [] (tape 5 5 false (.log ['o'] 1 3 (.seq (.put (.text ['a'])) (.seq (.log ['i'] 2 4 (.seq (.put (.num 7)) (.log ['j'] 3 1 (.put (.text ['z'])))))
      (.seq (.log ['k'] 4 9 (.put (.text ['q']))) (.put (.text ['b']))))))) =
      [⟨['j'], 3, 1, ['C'], ['a', '7', 'z']⟩, ⟨['j'], 3, 1, ['C'], []⟩, ⟨['j'], 3, 1, ['C'], ['b']⟩] := by decide

end Falcon.Logger
