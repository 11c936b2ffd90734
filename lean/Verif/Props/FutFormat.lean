import Verif.Model.FutFormat
import Verif.Props.Console
/-
C138: formatting left on std::cout by a test.
-/
namespace Falcon.Fut

/-- The format in which decimal numbers and texts come out as they are. Fill character, alignment and precision are free. -/
structure Neutral (f : Format) : Prop where
  base  : f.base = 10
  plus  : f.plus = false
  width : f.width = 0
  fixed : f.fixed = false

theorem Neutral.pad {f : Format} (h : Neutral f) (s : Str) : f.pad s = s := by
  unfold Format.pad
  rw [h.width]
  split <;> simp

theorem Neutral.int {f : Format} (h : Neutral f) (n : Int) : f.int n = showInt n := by
  unfold Format.int
  rw [if_pos h.base, h.plus, if_neg (by simp)]
  rfl

theorem Neutral.secs {f : Format} (h : Neutral f) (ms : Int) : f.secs ms = FloatText.text f.prec (decide (ms < 0)) |FloatText.seconds ms| := by
  unfold Format.secs
  rw [h.plus, h.fixed, if_neg (by simp), if_neg (by simp)]
  rfl

theorem Neutral.emit {f : Format} (h : Neutral f) (x : Tok) : Neutral (emit f x).2 := by
  cases x <;> exact ⟨h.base, h.plus, by first | rfl | exact h.width, h.fixed⟩

theorem Neutral.emits {f : Format} (h : Neutral f) (xs : List Tok) : Neutral (emits f xs).2 := by
  induction xs generalizing f with
  | nil => exact h
  | cons x xs ih => exact ih (h.emit x)

/-- The text without any format: `p` is the precision. -/
def bare : Nat → List Tok → Str
  | _, []             => []
  | p, .text s :: xs  => s ++ bare p xs
  | p, .int n :: xs   => showInt n ++ bare p xs
  | p, .secs ms :: xs => FloatText.text p (decide (ms < 0)) |FloatText.seconds ms| ++ bare p xs
  | _, .prec p :: xs  => bare p xs

theorem Neutral.bare {f : Format} (h : Neutral f) (xs : List Tok) : (Falcon.Fut.emits f xs).1 = bare f.prec xs := by
  induction xs generalizing f with
  | nil => rfl
  | cons x xs ih =>
    have := ih (h.emit x)
    cases x with
    | text s => show f.pad s ++ _ = _; rw [this, h.pad]; rfl
    | int n => show f.pad (f.int n) ++ _ = _; rw [this, h.pad, h.int]; rfl
    | secs ms => show f.pad (f.secs ms) ++ _ = _; rw [this, h.pad, h.secs]; rfl
    | prec p => show [] ++ _ = _; rw [this]; rfl

theorem bare_append (p : Nat) (xs ys : List Tok) (h : ∀ n, .prec n ∉ xs) : bare p (xs ++ ys) = bare p xs ++ bare p ys := by
  induction xs with
  | nil => rfl
  | cons x xs ih =>
    have h1 := ih (fun n hn => h n (List.mem_cons_of_mem _ hn))
    cases x with
    | prec n => exact absurd (List.mem_cons_self) (h n)
    | _ => simp only [List.cons_append, bare, h1, List.append_assoc]

theorem bare_free (p q : Nat) (xs : List Tok) (h : ∀ x ∈ xs, ∃ s, x = .text s ∨ ∃ n, x = .int n) : bare p xs = bare q xs := by
  induction xs with
  | nil => rfl
  | cons x xs ih =>
    obtain ⟨s, rfl | ⟨n, rfl⟩⟩ := h x (by simp)
    · simp only [bare, ih (fun y hy => h y (List.mem_cons_of_mem _ hy))]
    · simp only [bare, ih (fun y hy => h y (List.mem_cons_of_mem _ hy))]

theorem testLine_ends (n : Nat) (name word : Str) (ms : Int) : (testLine n name word ms).dropLast ++ "\n".toList = testLine n name word ms := by
  unfold testLine
  have e : ("]\n".toList : Str) = ["]".toList.head!] ++ ['\n'] := by decide
  rw [e, ← List.append_assoc, List.dropLast_concat]
  rfl

theorem bare_line (p : Nat) (n : Nat) (name word : Str) (ms : Int) : bare p (lineToks n name word ms) = testLine n name word ms := by
  simp only [lineToks, bare, List.append_nil]
  exact testLine_ends n name word ms

theorem showInt_nat (n : Nat) : showInt (n : Int) = Nat.toDigits 10 n := by
  have : ¬ ((n : Int) < 0) := by omega
  simp only [showInt, this, if_false, List.nil_append]
  rfl

theorem bare_begin (p : Nat) (defs : Nat → TestDef) (u : UT) (n t : Nat) : bare p (beginToks u (defs t).fullName n) = goText defs u n t := by
  unfold beginToks goText
  split
  · exact bare_line _ _ _ _ _
  · rfl

theorem bare_end (p : Nat) (defs : Nat → TestDef) (u : UT) (n t : Nat) (w : World) : bare p (endToks u (defs t).fullName n t w) = endText defs u n t w := by
  unfold endToks endText
  have h1 : ∀ k, Tok.prec k ∉ outToks u (defs t).fullName t w := by intro k; unfold outToks; split <;> simp
  have h2 : ∀ k, Tok.prec k ∉ errToks u (defs t).fullName t w := by intro k; unfold errToks; split <;> simp
  rw [bare_append _ _ _ (fun k hk => (List.mem_append.1 hk).elim (h1 k) (h2 k)), bare_append _ _ _ h1]
  congr 1
  · congr 1
    · unfold outToks
      split
      · simp only [bare, List.append_nil, List.append_assoc]; rfl
      · rfl
    · unfold errToks
      split
      · simp only [bare, List.append_nil, List.append_assoc]; rfl
      · rfl
  · unfold verdictToks
    split
    · simp only [bare, List.append_nil, List.append_assoc, showInt_nat]; rfl
    · split
      · simp only [bare, List.append_nil, List.append_assoc, showInt_nat]; rfl
      · split
        · exact bare_line _ _ _ _ _
        · rfl

/-- The tokens are what endTest writes: with a format as it is initially they give the text of Model/UnitTest.lean. -/
theorem C138_end_text (defs : Nat → TestDef) (u : UT) (n t : Nat) (w w' : World) (h : utEnd defs u n t w = .ok w') :
    ∃ w1, endTest u.capture t w = .ok w1 ∧ w' = print w1 (emits {} (endToks u (defs t).fullName n t w1)).1 := by
  obtain ⟨w1, h1, h2⟩ := utEnd_text defs u n t w w' h
  refine ⟨w1, h1, ?_⟩
  have hN : Neutral {} := ⟨rfl, rfl, rfl, rfl⟩
  rw [hN.bare, bare_end, h2]

theorem bare_names (p : Nat) (ns : List Str) (ys : List Tok) : bare p (namesToks ns ++ ys) = Console.failedCases ns ++ bare p ys := by
  cases ns with
  | nil => rfl
  | cons n ns =>
    have h1 : ∀ k, Tok.prec k ∉ namesToks (n :: ns) := by
      intro k hk
      simp [namesToks] at hk
    rw [bare_append _ _ _ h1]
    congr 1
    have h2 : ∀ (ms : List Str) (zs : List Tok), bare p (ms.flatMap (fun m => [.text ", ".toList, .text m]) ++ zs) = ms.flatMap (fun m => Console.text ", " ++ m) ++ bare p zs := by
      intro ms zs
      induction ms with
      | nil => rfl
      | cons m ms ih =>
        simp only [List.flatMap_cons, List.cons_append, List.nil_append, bare, ih, List.append_assoc]
        rfl
    simp only [namesToks, List.cons_append, List.nil_append, bare, h2, Console.failedCases, rule_bar, List.append_nil, List.append_assoc]
    rfl

theorem bare_comps (p : Nat) (cs : List Comp) (ys : List Tok) (q : Nat) (hy : ∀ p, bare p ys = bare q ys) :
    bare p (cs.flatMap compToks ++ ys) =
      (cs.map (fun c => (c.name, secFmt.g3 c.lapse.elapsed, decide (c.failures = 0)))).flatMap (fun c => Console.total (Console.text "  Component ") c.1 c.2.1 c.2.2) ++ bare q ys := by
  induction cs generalizing p with
  | nil => exact hy p
  | cons c cs ih =>
    simp only [List.flatMap_cons, List.map_cons, compToks, List.cons_append, List.nil_append, bare, ih, List.append_assoc]
    rw [← List.append_assoc (Console.total _ _ _ _), ← total_text]
    simp only [secFmt, List.append_assoc]

theorem bare_report (p : Nat) (defs : Nat → TestDef) (u : UT) (w : World) : bare p (reportToks defs u w) =
    Console.summary u.verbosity ((failedList u w).map (fun t => (defs t).fullName))
      (u.comps.map (fun c => (c.name, secFmt.g3 c.lapse.elapsed, decide (c.failures = 0)))) u.name (secFmt.g4 u.lapse.elapsed) (decide (u.status = 0)) := by
  unfold reportToks Console.summary
  by_cases hv : u.verbosity > 0
  · have hv' : ¬ u.verbosity = 0 := by omega
    rw [if_pos hv, if_neg hv']
    have e3 : ∀ p, bare p [.text "Unit Test ".toList, .text u.name, .text " (elapsed ".toList, .prec 4, .secs u.lapse.elapsed, .text "s) ".toList,
        .text (if u.status = 0 then "Passed\n".toList else "FAILED \n".toList)] = Console.total (Console.text "Unit Test ") u.name (secFmt.g4 u.lapse.elapsed) (decide (u.status = 0)) := by
      intro p
      rw [← total_text]
      simp only [bare, secFmt, List.append_assoc, List.append_nil]
    have e2 : ∀ p, bare p ((if u.comps.length > 1 then u.comps.flatMap compToks else []) ++
        [.text "Unit Test ".toList, .text u.name, .text " (elapsed ".toList, .prec 4, .secs u.lapse.elapsed, .text "s) ".toList,
        .text (if u.status = 0 then "Passed\n".toList else "FAILED \n".toList)]) =
        (if (u.comps.map (fun c => (c.name, secFmt.g3 c.lapse.elapsed, decide (c.failures = 0)))).length < 2 then [] else
          (u.comps.map (fun c => (c.name, secFmt.g3 c.lapse.elapsed, decide (c.failures = 0)))).flatMap (fun c => Console.total (Console.text "  Component ") c.1 c.2.1 c.2.2)) ++
        Console.total (Console.text "Unit Test ") u.name (secFmt.g4 u.lapse.elapsed) (decide (u.status = 0)) := by
      intro p
      rw [List.length_map]
      by_cases hl : u.comps.length > 1
      · have hl' : ¬ u.comps.length < 2 := by omega
        rw [if_pos hl, if_neg hl', bare_comps p u.comps _ 6 (fun p => by rw [e3, e3]), e3]
      · have hl' : u.comps.length < 2 := by omega
        rw [if_neg hl, if_pos hl', List.nil_append, e3]
        rfl
    rw [List.append_assoc]
    by_cases h0 : u.status = 0
    · rw [if_neg (not_not.2 h0), List.nil_append, e2, if_pos (decide_eq_true h0), List.nil_append]
    · have hd : ¬ (decide (u.status = 0) = true) := by simpa using h0
      rw [if_pos h0, if_neg hd, bare_names, e2, List.append_assoc]
  · have hv' : u.verbosity = 0 := by omega
    rw [if_neg hv, if_pos hv']
    rfl

/-- The tokens are what report() writes. -/
theorem C138_report_text (defs : Nat → TestDef) (u : UT) (w : World) : report secFmt defs u w = print w (emits {} (reportToks defs u w)).1 := by
  have hN : Neutral {} := ⟨rfl, rfl, rfl, rfl⟩
  rw [hN.bare, bare_report, report_text]

/-! ### whole runs -/

/-- A performed test whose outcome was `o` and which treated the format of std::cout as `g` says. -/
def playedAs (g : Nat → Format → Format) (o : Outcome) : Played :=
  { count := o.number, test := o.test, direct := o.direct, leaves := g o.number
    ended := { tc := fun _ => { status := o.status, outStr := o.out, errStr := o.err, failDesc := o.desc, failFile := o.file, failLine := o.line, lapse := ⟨0, o.millis⟩ } } }

theorem told_played (defs : Nat → TestDef) (u : UT) (g : Nat → Format → Format) (o : Outcome) (hin : o.inTime) :
    goText defs u o.number o.test ++ o.direct ++ endText defs u o.number o.test (playedAs g o).ended = Console.told u.verbosity (defs o.test).fullName o := by
  have hel : Lapse.elapsed ⟨0, o.millis⟩ = o.millis := by
    unfold Lapse.elapsed
    rw [if_neg (by have := hin.1; simp only; omega)]
    simp
  have h := endText_told defs u o.number o.test {} (playedAs g o).ended (by show 0 ≤ Lapse.elapsed ⟨0, o.millis⟩; rw [hel]; exact hin.1)
    (by show Lapse.elapsed ⟨0, o.millis⟩ ≤ _; rw [hel]; exact hin.2)
  have ho : outcomeOf u.capture o.number o.test {} ((playedAs g o).ended.tc o.test) = { o with direct := [], directErr := [] } := by
    have h1 : (if u.capture then [] else outText ({} : Script).done) = [] := by split <;> rfl
    have h2 : (if u.capture then [] else errText ({} : Script).done) = [] := by split <;> rfl
    show Outcome.mk _ _ _ (if u.capture then [] else outText ({} : Script).done) (if u.capture then [] else errText ({} : Script).done) _ _ _ _ _ (Lapse.elapsed ⟨0, o.millis⟩) = _
    rw [hel, h1, h2]
    rfl
  have h1 : (if u.capture then [] else outText ({} : Script).done) = [] := by split <;> rfl
  rw [ho, h1] at h
  have hgo : goText defs u o.number o.test = if u.verbosity < 3 then [] else Console.line o.number (defs o.test).fullName (Console.text "-1.000000") (Console.text "GO") := by
    unfold goText
    rw [go_text]
    by_cases h : u.verbosity < 3
    · rw [if_pos h, if_neg (by omega)]
    · rw [if_neg h, if_pos (by omega)]
  have hv : Console.verdict u.verbosity (defs o.test).fullName { o with direct := [], directErr := [] } = Console.verdict u.verbosity (defs o.test).fullName o := rfl
  unfold Console.told at h ⊢
  rw [hgo] at h ⊢
  rw [hv] at h
  simp only [List.append_nil, List.append_assoc, List.append_cancel_left_eq, List.nil_append] at h ⊢
  exact h

theorem play_neutral (defs : Nat → TestDef) (u : UT) (g : Nat → Format → Format) (hg : ∀ n f, Neutral f → Neutral (g n f)) (os : List Outcome)
    (hin : ∀ o ∈ os, o.inTime) (f : Format) (hf : Neutral f) :
    (playAll defs u f (os.map (playedAs g))).1 = os.flatMap (fun o => Console.told u.verbosity (defs o.test).fullName o) ∧
    Neutral (playAll defs u f (os.map (playedAs g))).2 := by
  induction os generalizing f with
  | nil => exact ⟨rfl, hf⟩
  | cons o os ih =>
    have n1 := hf.emits (beginToks u (defs o.test).fullName o.number)
    have n2 := hg o.number _ n1
    have n3 := n2.emits (endToks u (defs o.test).fullName o.number o.test (playedAs g o).ended)
    obtain ⟨h1, h2⟩ := ih (fun o ho => hin o (by simp [ho])) _ n3
    refine ⟨?_, h2⟩
    rw [List.flatMap_cons, ← h1, ← told_played defs u g o (hin o (by simp)), ← bare_begin f.prec, ← bare_end ((g o.number (Falcon.Fut.emits f (beginToks u (defs o.test).fullName o.number)).2).prec),
      ← hf.bare, ← n2.bare]
    rfl

/-- C138 (what holds): as long as no test leaves std::cout with another base, with showpos, with a pending width or with
fixed - whatever precision, fill character and alignment it leaves - the console shows exactly the run of C127, and
std::cout is in such a state at the end. -/
theorem C138_neutral_partial (env : Env) (canOpen : Bool) (defs : Nat → TestDef) (u : UT) (w : World) (d : Done)
    (hk : ∀ t k, ((defs t).script k).KeepsStreams) (hs : Sane w)
    (h : performUnitTests env secFmt canOpen defs u w = .ok d)
    (g : Nat → Format → Format) (hg : ∀ n f, Neutral f → Neutral (g n f)) (f : Format) (hf : Neutral f) :
    ∃ os w1, Conducted env defs u.capture (decide (0 < u.verbosity)) 0 (init u w).2 os w1 ∧ d.w.tc = w1.tc ∧ d.log = os.map entry ∧
      ((∀ o ∈ os, o.inTime) → d.w.content w.cout = w.content w.cout ++ (playRun defs u f (os.map (playedAs g)) d.u d.w).1) ∧
      ((∀ o ∈ os, o.inTime) → Neutral (playRun defs u f (os.map (playedAs g)) d.u d.w).2) := by
  unfold performUnitTests at h
  simp only at h
  have hu0 : (if (init u w).1.toPerform = [] then { (init u w).1 with toPerform := (init u w).1.tests } else (init u w).1) =
      { u with status := 0, failedCount := some 0, toPerform := u.selection } := by
    clear h
    unfold UT.selection init
    simp only
    split <;> rfl
  rw [hu0] at h
  cases h1 : runAllTests env defs { u with status := 0, failedCount := some 0, toPerform := u.selection } (init u w).2 with
  | error e => rw [h1] at h; cases h
  | ok s =>
    rw [h1] at h; simp only at h
    obtain ⟨os, q, lq⟩ := runAllTests_shows env defs hk _ (init u w).2 s (hs.congr rfl rfl) h1
    have hrep := C138_report_text defs s.u s.w
    have hd : d.u = s.u ∧ d.log = s.log ∧ ∃ x, d.w = (report secFmt defs s.u s.w).put (report secFmt defs s.u s.w).cerr x := by
      have hnil : ∀ (x : World) (b : Buf), x.put b [] = x := by intro x b; cases x; simp [World.put]
      split at h
      · cases h
        exact ⟨rfl, rfl, [], (hnil _ _).symm⟩
      · split at h
        · cases hxt : xmlText secFmt defs s.u (report secFmt defs s.u s.w) with
          | error e => rw [hxt] at h; cases h
          | ok x =>
            rw [hxt] at h; cases h
            exact ⟨rfl, rfl, [], (hnil _ _).symm⟩
        · cases h
          exact ⟨rfl, rfl, _, rfl⟩
    obtain ⟨d1, d2, x, d3⟩ := hd
    have hcout : s.w.cout = w.cout := q.cout
    have hcerr : s.w.cerr = w.cerr := q.cerr
    have htc : d.w.tc = s.w.tc := by rw [d3, hrep]; rfl
    have hrt : reportToks defs d.u d.w = reportToks defs s.u s.w := by
      have : failedList d.u d.w = failedList s.u s.w := by
        unfold failedList hasPassed
        rw [htc, d1]
      unfold reportToks
      rw [this, d1]
    refine ⟨os, s.w, q.cond, htc, by rw [d2, lq], ?_, ?_⟩
    · intro hin
      obtain ⟨p1, p2⟩ := play_neutral defs u g hg os hin f hf
      have ht := q.text hin
      have h0 : (init u w).2.cout = w.cout := rfl
      rw [h0] at ht
      show _ = _ ++ ((playAll defs u f (os.map (playedAs g))).1 ++ (Falcon.Fut.emits (playAll defs u f (os.map (playedAs g))).2 (reportToks defs d.u d.w)).1)
      rw [p1, p2.bare, hrt, bare_report, ← bare_report 6]
      have hN : Neutral {} := ⟨rfl, rfl, rfl, rfl⟩
      rw [← show (Falcon.Fut.emits {} (reportToks defs s.u s.w)).1 = bare 6 (reportToks defs s.u s.w) from hN.bare _]
      rw [d3, hrep]
      simp only [World.put, print, hcerr, if_neg hs.ne, hcout, if_true]
      rw [ht, List.append_assoc]; rfl
    · intro hin
      exact (play_neutral defs u g hg os hin f hf).2.emits _

/-- C138: with -q nothing is written to std::cout whatever the format, and the format is not touched. -/
theorem C138_silent_partial (defs : Nat → TestDef) (u u' : UT) (w' : World) (f : Format) (ps : List Played) (hq : u.verbosity = 0) (hq' : u'.verbosity = 0) :
    (playRun defs u f ps u' w').1 = ps.flatMap Played.direct ∧ (playRun defs u f ps u' w').2 = ps.foldl (fun f p => p.leaves f) f := by
  have hb : ∀ n c, beginToks u n c = [] := by intro n c; unfold beginToks; rw [if_neg (by omega)]
  have he : ∀ n c t w, endToks u n c t w = [] := by
    intro n c t w
    unfold endToks outToks errToks verdictToks
    rw [if_neg (by omega), if_neg (by omega), if_neg (by omega), if_neg (by omega), if_neg (by omega)]
    rfl
  have hr : reportToks defs u' w' = [] := by unfold reportToks; rw [if_neg (by omega)]
  have hp : (playAll defs u f ps).1 = ps.flatMap Played.direct ∧ (playAll defs u f ps).2 = ps.foldl (fun f p => p.leaves f) f := by
    induction ps generalizing f with
    | nil => exact ⟨rfl, rfl⟩
    | cons p ps ih =>
      obtain ⟨h1, h2⟩ := ih (p.leaves f)
      simp only [playAll, hb, he, emits]
      exact ⟨by rw [h1]; simp, by rw [h2]; rfl⟩
  unfold playRun
  rw [hr]
  refine ⟨?_, hp.2⟩
  show (playAll defs u f ps).1 ++ [] = _
  rw [hp.1, List.append_nil]

/-- C138: the lines `[  1: name   0.000s OK  ]` are made in a stream of their own: base, sign, precision and fixed on
std::cout have no influence on them. -/
theorem C138_status_line_partial (f : Format) (n : Nat) (name word : Str) (ms : Int) (hw : f.width = 0) :
    (emits f (lineToks n name word ms)).1 = testLine n name word ms := by
  have hp : ∀ g : Format, g.width = 0 → ∀ s, g.pad s = s := by
    intro g hg s
    unfold Format.pad
    rw [hg]
    split <;> simp
  show f.pad _ ++ (Format.pad _ _ ++ []) = _
  rw [hp f hw, hp _ rfl, List.append_nil]
  exact testLine_ends n name word ms

/-! ### refutations -/

/-- The report of the failure of test 10, at line 26, with this format on std::cout. -/
def failureShown (f : Format) : Str :=
  (emits f (verdictToks {} "C::t".toList 10 0 { tc := fun _ => { status := .fail, failFile := "f.cpp".toList, failLine := some 26, failDesc := "x".toList } })).1

/-- C138 is false: after a test that leaves `std::hex` on std::cout, failures are reported with number and line in
hexadecimal. -/
theorem C138_hex_refuted :
    failureShown {} = "\n======================================================================\nFailure in case 10: C::t at f.cpp: 26\nx\n".toList ∧
    failureShown { base := 16 } = "\n======================================================================\nFailure in case a: C::t at f.cpp: 1a\nx\n".toList := by
  decide +kernel

/-- C138 is false: `std::setw(n)` and `std::setfill(c)` left pending by a test pad the next line of the report. -/
theorem C138_width_refuted :
    (emits { width := 80, fill := '*' } (lineToks 1 "C::t".toList "OK".toList 0)).1 =
      "********".toList ++ testLine 1 "C::t".toList "OK".toList 0 := by
  decide +kernel

/-- C138 is false in the other direction: unless silent, a run leaves std::cout with the precision 4. -/
theorem C138_precision_refuted (defs : Nat → TestDef) (u u' : UT) (w' : World) (f : Format) (ps : List Played) (hv : 0 < u'.verbosity) :
    (playRun defs u f ps u' w').2.prec = 4 := by
  have app : ∀ (xs ys : List Tok) (f : Format), (emits f (xs ++ ys)).2 = (emits (emits f xs).2 ys).2 := by
    intro xs
    induction xs with
    | nil => intro ys f; rfl
    | cons x xs ih => intro ys f; exact ih ys _
  unfold playRun reportToks
  rw [if_pos hv]
  simp only [app]
  rfl

/-- The hypotheses can be met: a test that prints with a precision of its own and leaves it. -/
example : Neutral {} ∧ ∀ (n : Nat) (f : Format), Neutral f → Neutral ((fun _ f => { f with prec := 12, fill := '.' } : Nat → Format → Format) n f) :=
  ⟨⟨rfl, rfl, rfl, rfl⟩, fun _ f h => ⟨h.base, h.plus, h.width, h.fixed⟩⟩

end Falcon.Fut
