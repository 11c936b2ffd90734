import Verif.Spec.Console
import Verif.Proofs.UnitTest2
import Verif.Props.FloatText
/- Lemmas about what a test run prints. -/
namespace Falcon.Fut

theorem print_print (w : World) (a b : Str) : print (print w a) b = print w (a ++ b) := by
  simp only [print, World.put]
  congr 1
  funext c
  split <;> simp

theorem print_if (w : World) (c : Prop) [Decidable c] (s : Str) : (if c then print w s else w) = print w (if c then s else []) := by
  split
  · rfl
  · rw [print_nil]

theorem hasPassed_print (u : UT) (w : World) (s : Str) (t : Nat) : hasPassed u (print w s) t = hasPassed u w t := rfl

/-- What ending a test prints. -/
def endText (defs : Nat → TestDef) (u : UT) (n t : Nat) (w : World) : Str :=
  (if cstr (w.tc t).outStr ≠ [] ∧ (u.verbosity ≥ 5 ∨ (u.verbosity > 0 ∧ hasPassed u w t = false)) then
    ("\n".toList ++ rule ++ "\nSTDOUT ".toList ++ (defs t).fullName ++ "\n".toList ++ rule ++ "\n".toList ++ cstr (w.tc t).outStr ++ "\n".toList) else []) ++
  (if cstr (w.tc t).errStr ≠ [] ∧ (u.verbosity ≥ 4 ∨ (u.verbosity > 0 ∧ hasPassed u w t = false)) then
    ("\n".toList ++ rule ++ "\nSTDERR ".toList ++ (defs t).fullName ++ "\n".toList ++ rule ++ "\n".toList ++ cstr (w.tc t).errStr ++ "\n".toList) else []) ++
  (if u.verbosity > 0 ∧ (w.tc t).status = .error then
    "\n".toList ++ rule ++ "\nUncaught error in Case ".toList ++ Nat.toDigits 10 n ++ ": ".toList ++ (defs t).fullName ++ "\n".toList ++ (w.tc t).failDesc ++ "\n".toList
  else if u.verbosity ≥ 1 ∧ (w.tc t).status = .fail then
    "\n".toList ++ rule ++ "\nFailure in case ".toList ++ Nat.toDigits 10 n ++ ": ".toList ++ (defs t).fullName ++ " at ".toList ++
        (w.tc t).failFile ++ ": ".toList ++ showInt ((w.tc t).failLine.getD 0) ++ "\n".toList ++ (w.tc t).failDesc ++ "\n".toList
  else if u.verbosity ≥ 2 then
    testLine n (defs t).fullName (if hasPassed u w t then "OK".toList else "FAIL".toList) (w.tc t).lapse.elapsed
  else [])

theorem utEnd_text (defs : Nat → TestDef) (u : UT) (n t : Nat) (w w' : World) (h : utEnd defs u n t w = .ok w') :
    ∃ w1, endTest u.capture t w = .ok w1 ∧ w' = print w1 (endText defs u n t w1) := by
  unfold utEnd at h
  cases he : endTest u.capture t w with
  | error e => rw [he] at h; cases h
  | ok w1 =>
    rw [he] at h
    refine ⟨w1, rfl, ?_⟩
    dsimp only at h
    unfold showVerdict showErr showOut at h
    rw [print_if w1] at h
    rw [print_if (print w1 _)] at h
    simp only [hasPassed_print, print_print, show ∀ s, (print w1 s).tc = w1.tc from fun _ => rfl] at h
    unfold endText
    split at h
    · rename_i hc; cases h; rw [if_pos hc]
    · rename_i hc
      rw [if_neg hc]
      split at h
      · rename_i hc2
        rw [if_pos hc2]
        split at h
        · cases h
        · rename_i l hl; cases h; rw [hl]; simp only [List.append_assoc, Option.getD_some]
      · rename_i hc2
        rw [if_neg hc2]
        split at h
        · rename_i hc3; cases h; rw [if_pos hc3]
        · rename_i hc3; cases h; rw [if_neg hc3]; simp only [List.append_nil]

/-- What beginning a test prints. -/
def goText (defs : Nat → TestDef) (u : UT) (n t : Nat) : Str := if u.verbosity ≥ 3 then testLine n (defs t).fullName "GO".toList (-1000) else []

theorem utBegin_text (defs : Nat → TestDef) (u : UT) (n t : Nat) (w : World) :
    utBegin defs u n t w = beginTest u.capture t (print w (goText defs u n t)) := by
  unfold utBegin goText
  dsimp only
  rw [print_if]

/-! ### The texts are those of the specification -/

theorem rule_bar : rule = Console.bar := by decide

theorem lastDigits_three (n : Nat) : FloatText.lastDigits 3 n = Console.number (n / 100 % 10) ++ Console.number (n / 10 % 10) ++ Console.number (n % 10) := by
  have hd : ∀ k, k < 10 → Nat.toDigits 10 k = [Nat.digitChar k] := by decide
  unfold Console.number
  rw [hd _ (Nat.mod_lt _ (by omega)), hd _ (Nat.mod_lt _ (by omega)), hd _ (Nat.mod_lt _ (by omega))]
  simp [FloatText.lastDigits, Nat.div_div_eq_div_mul]

theorem secs_text (ms : Int) (h0 : 0 ≤ ms) (h1 : ms ≤ 1125899906842624) : FloatText.fixedText 3 (FloatText.seconds ms) = Console.seconds ms.toNat := by
  rw [FloatText.fixed_seconds ms h0 h1, lastDigits_three]
  unfold Console.seconds Console.number Console.text
  simp

theorem line_text (n : Nat) (name word : Str) (ms : Int) (h0 : 0 ≤ ms) (h1 : ms ≤ 1125899906842624) :
    testLine n name word ms = Console.line n name (Console.seconds ms.toNat ++ Console.text "s") word := by
  unfold testLine
  rw [if_pos h0, secs_text ms h0 h1]
  rfl

theorem go_text (n : Nat) (name : Str) : testLine n name "GO".toList (-1000) = Console.line n name (Console.text "-1.000000") (Console.text "GO") := by
  have h : '-' :: FloatText.fixedText 6 |FloatText.seconds (-1000)| = Console.text "-1.000000" := by decide +kernel
  unfold testLine
  rw [if_neg (by omega), h]
  rfl

theorem showInt_text (k : Int) : showInt k = Console.integer k := by
  cases k with
  | ofNat n =>
    have : ¬ (Int.ofNat n < 0) := by simp
    simp only [showInt, Console.integer, Console.number, this, if_false, List.nil_append]
    rfl
  | negSucc n =>
    have : Int.negSucc n < 0 := Int.negSucc_lt_zero n
    simp only [showInt, Console.integer, Console.number, this, if_true]
    rfl

theorem cstr_shown (s : Str) : cstr s = Console.shown s := by
  unfold cstr Console.shown
  congr 1

theorem ite_text (c d : Prop) [Decidable c] [Decidable d] (a b : Str) (h : c ↔ d) (hab : a = b) : (if c then a else []) = (if d then b else []) := by
  subst hab
  by_cases hc : c
  · rw [if_pos hc, if_pos (h.1 hc)]
  · rw [if_neg hc, if_neg (fun x => hc (h.2 x))]

theorem endText_told (defs : Nat → TestDef) (u : UT) (n t : Nat) (sc : Script) (w : World)
    (h0 : 0 ≤ (w.tc t).lapse.elapsed) (h1 : (w.tc t).lapse.elapsed ≤ 1125899906842624) :
    goText defs u n t ++ (if u.capture then [] else outText sc.done) ++ endText defs u n t w =
      Console.told u.verbosity (defs t).fullName (outcomeOf u.capture n t sc (w.tc t)) := by
  unfold Console.told endText goText
  have hp : ∀ (x : Bool), (hasPassed u w t = x) = ((decide ((w.tc t).status = .success)) = x) := by intro x; rw [hasPassed_eq]
  rw [go_text]
  have e1 : (if u.verbosity ≥ 3 then Console.line n (defs t).fullName (Console.text "-1.000000") (Console.text "GO") else []) =
      (if u.verbosity < 3 then [] else Console.line n (defs t).fullName (Console.text "-1.000000") (Console.text "GO")) := by
    by_cases h : u.verbosity < 3
    · rw [if_pos h, if_neg (by omega)]
    · rw [if_neg h, if_pos (by omega)]
  rw [e1]
  simp only [List.append_assoc]
  congr 1
  congr 1
  congr 1
  · refine ite_text _ _ _ _ ?_ ?_
    · rw [cstr_shown, hasPassed_eq, decide_eq_false_iff_not]
      exact and_congr Iff.rfl (or_congr Iff.rfl (and_congr (by omega) Iff.rfl))
    · rw [cstr_shown, rule_bar]
      simp [Console.stream, Console.text, outcomeOf]
  congr 1
  · refine ite_text _ _ _ _ ?_ ?_
    · rw [cstr_shown, hasPassed_eq, decide_eq_false_iff_not]
      exact and_congr Iff.rfl (or_congr Iff.rfl (and_congr (by omega) Iff.rfl))
    · rw [cstr_shown, rule_bar]
      simp [Console.stream, Console.text, outcomeOf]
  · rw [hasPassed_eq, rule_bar, line_text n _ _ _ h0 h1, showInt_text]
    unfold Console.verdict
    have ho : (outcomeOf u.capture n t sc (w.tc t)).status = (w.tc t).status := rfl
    rw [ho]
    have k2 : ∀ (a b : Str), (if u.verbosity ≥ 2 then a else b) = if u.verbosity < 2 then b else a := by
      intro a b
      by_cases h : u.verbosity < 2
      · rw [if_pos h, if_neg (by omega)]
      · rw [if_neg h, if_pos (by omega)]
    have k3 : ∀ (s s' : Status) (a b : Str), s ≠ s' → (if u.verbosity > 0 ∧ s = s' then a else b) = b := by
      intro s s' a b h
      rw [if_neg (fun x => h x.2)]
    have k4 : ∀ (s s' : Status) (a b : Str), s ≠ s' → (if u.verbosity ≥ 1 ∧ s = s' then a else b) = b := by
      intro s s' a b h
      rw [if_neg (fun x => h x.2)]
    have k5 : ∀ (s : Status) (a b : Str), (if u.verbosity > 0 ∧ s = s then a else b) = if u.verbosity = 0 then b else a := by
      intro s a b
      by_cases h : u.verbosity = 0
      · rw [if_pos h, if_neg (by omega)]
      · rw [if_neg h, if_pos ⟨by omega, rfl⟩]
    have k6 : ∀ (s : Status) (a b : Str), (if u.verbosity ≥ 1 ∧ s = s then a else b) = if u.verbosity = 0 then b else a := by
      intro s a b
      by_cases h : u.verbosity = 0
      · rw [if_pos h, if_neg (by omega)]
      · rw [if_neg h, if_pos ⟨by omega, rfl⟩]
    have k7 : ∀ (a b : Str), (if u.verbosity = 0 then (if u.verbosity < 2 then [] else a) else b) = if u.verbosity = 0 then [] else b := by
      intro a b
      by_cases h : u.verbosity = 0
      · rw [if_pos h, if_pos h, if_pos (by omega)]
      · rw [if_neg h, if_neg h]
    cases hs : (w.tc t).status with
    | none => rw [k3 _ _ _ _ (by decide), k4 _ _ _ _ (by decide), k2]; rfl
    | success => rw [k3 _ _ _ _ (by decide), k4 _ _ _ _ (by decide), k2]; rfl
    | outOnError => rw [k3 _ _ _ _ (by decide), k4 _ _ _ _ (by decide), k2]; rfl
    | error =>
      rw [k5, k4 _ _ _ _ (by decide), k2, k7]
      simp only [List.append_assoc]
      rfl
    | fail =>
      rw [k3 _ _ _ _ (by decide), k6, k2, k7]
      simp only [List.append_assoc]
      rfl

/-! ### The loops -/

theorem Conducted.prepend {env : Env} {defs : Nat → TestDef} {c l : Bool} {n : Nat} {w w1 w2 : World} {os : List Outcome} (h : Aside l w w1)
    (p : Conducted env defs c l n w1 os w2) : Conducted env defs c l n w os w2 := by
  cases p with
  | done h' => exact .done (h.trans h')
  | test h' he hp =>
    rename_i w1' w2' t rest
    have hr : ((defs t).script (w1'.tc t).runs) = ((defs t).script (w1'.tc t).runs) := rfl
    exact .test (h.trans h') he hp

theorem Conducted.append {env : Env} {defs : Nat → TestDef} {c l : Bool} {n : Nat} {w w1 w2 : World} {os os' : List Outcome}
    (p : Conducted env defs c l n w os w1) (p' : Conducted env defs c l (n + os.length) w1 os' w2) : Conducted env defs c l n w (os ++ os') w2 := by
  induction p with
  | done h => exact p'.prepend h
  | test h he _ ih =>
    refine .test h he (ih ?_)
    rw [List.length_cons] at p'
    rw [show ∀ a b : Nat, a + 1 + b = a + (b + 1) by omega]
    exact p'

theorem Conducted.performed {env : Env} {defs : Nat → TestDef} {c l : Bool} {n : Nat} {w w1 : World} {os : List Outcome}
    (p : Conducted env defs c l n w os w1) : Performed env defs c l w (os.map (fun o => (o.test, o.status))) w1 := by
  induction p with
  | done h => exact .done h
  | test h he _ ih => exact .test h he ih

/-- Everything between beginning and ending a test, as the console sees it. -/
theorem middle (env : Env) (defs : Nat → TestDef) (cap : Bool) (t : Nat) (w w2 : World) (hk : ((defs t).script (w.tc t).runs).KeepsStreams)
    (hne : w.cout ≠ w.cerr) (h : endTest cap t (run env (defs t) t (beginTest cap t w)) = .ok w2) :
    w2.cout = w.cout ∧ w2.cerr = w.cerr ∧ ∀ b, b ≠ .capOut t → b ≠ .capErr t →
      w2.content b = w.content b ++ (if b = w.cout then (if cap then [] else outText ((defs t).script (w.tc t).runs).done) else []) ++
        (if b = w.cerr then (if cap then [] else errText ((defs t).script (w.tc t).runs).done) else []) := by
  cases cap with
  | true =>
    obtain ⟨w', g1, g2, g3⟩ := C91_restored_partial env (defs t) t w
    obtain ⟨w'', k1, _, _, _, _, k2⟩ := C91_captured_partial env (defs t) t w hk
    rw [h] at g1 k1; cases g1; cases k1
    refine ⟨g2, g3, fun b b1 b2 => ?_⟩
    rw [k2 b b1 b2]; simp
  | false =>
    cases h
    have hb : beginTest false t w = setStatus w t .none := rfl
    have hs : nextScript (defs t) t (beginTest false t w) = (defs t).script (w.tc t).runs := by rw [begin_script]; rfl
    have hw := wrote_run env (defs t) t (beginTest false t w) (by rw [hs]; exact hk) (by rw [hb]; exact hne)
    rw [hs] at hw
    refine ⟨hw.cout, hw.cerr, fun b b1 b2 => ?_⟩
    have := hw.content b
    simpa [hb, setStatus, World.setTc] using this

/-- The world went from `w` to `w'`, and the console shows this. -/
structure Shows (env : Env) (defs : Nat → TestDef) (cap : Bool) (v : Nat) (n : Nat) (w : World) (os : List Outcome) (w' : World) : Prop where
  cond : Conducted env defs cap (decide (0 < v)) n w os w'
  cout : w'.cout = w.cout
  cerr : w'.cerr = w.cerr
  nums : os.map Outcome.number = List.range' (n + 1) os.length
  text : (∀ o ∈ os, o.inTime) → w'.content w.cout = w.content w.cout ++ os.flatMap (fun o => Console.told v (defs o.test).fullName o)
  errs : w'.content w.cerr = w.content w.cerr ++ os.flatMap Outcome.directErr
  rest : ∀ b, b ≠ w.cout → b ≠ w.cerr → (∀ t, b ≠ .capOut t ∧ b ≠ .capErr t) → w'.content b = w.content b

theorem Shows.nil (env : Env) (defs : Nat → TestDef) (cap : Bool) (v n : Nat) (w : World) (k : Nat) : Shows env defs cap v n w [] { w with tick := k } :=
  ⟨.done (Aside.tick _ _), rfl, rfl, rfl, fun _ => by simp, by simp, fun _ _ _ _ => rfl⟩

theorem Shows.append {env : Env} {defs : Nat → TestDef} {cap : Bool} {v n : Nat} {w w1 w2 : World} {os os' : List Outcome}
    (p : Shows env defs cap v n w os w1) (p' : Shows env defs cap v (n + os.length) w1 os' w2) : Shows env defs cap v n w (os ++ os') w2 := by
  refine ⟨p.cond.append p'.cond, p'.cout.trans p.cout, p'.cerr.trans p.cerr, ?_, ?_, ?_, ?_⟩
  · rw [List.map_append, p.nums, p'.nums, List.length_append, ← List.range'_append_1]
    congr 2; omega
  · intro h
    rw [← p.cout, p'.text (fun o ho => h o (by simp [ho])), p.cout, p.text (fun o ho => h o (by simp [ho]))]
    simp
  · rw [← p.cerr, p'.errs, p.cerr, p.errs]; simp
  · intro b h1 h2 h3
    rw [p'.rest b (by rw [p.cout]; exact h1) (by rw [p.cerr]; exact h2) h3, p.rest b h1 h2 h3]

theorem Sane.congr {w w' : World} (h : Sane w) (h1 : w'.cout = w.cout) (h2 : w'.cerr = w.cerr) : Sane w' :=
  ⟨by rw [h1, h2]; exact h.ne, by rw [h1]; exact h.out, by rw [h2]; exact h.err⟩

theorem performOne_shows (env : Env) (defs : Nat → TestDef) (hk : ∀ t k, ((defs t).script k).KeepsStreams) (s s' : RunSt) (t : Nat) (f : Bool)
    (hs : Sane s.w) (h : performOne env defs s t = .ok (s', f)) :
    ∃ o, Shows env defs s.u.capture s.u.verbosity s.count s.w [o] s'.w ∧ s'.log = s.log ++ [entry o] ∧ o.test = t := by
  unfold performOne at h
  dsimp only at h
  rw [utBegin_text] at h
  cases he : utEnd defs s.u (s.count + 1) t (run env (defs t) t (beginTest s.u.capture t (print s.w (goText defs s.u (s.count + 1) t)))) with
  | error e => rw [he] at h; cases h
  | ok w' =>
    rw [he] at h
    obtain ⟨w2, e2, a2⟩ := utEnd_text _ _ _ _ _ _ he
    have hw' : s'.w = w' ∧ s'.log = s.log ++ [(s.count + 1, t, decide ((w2.tc t).status = .success))] := by
      have hst : (w'.tc t).status = (w2.tc t).status := by rw [a2]; rfl
      simp only [hasPassed_eq, hst] at h
      by_cases hx : (w2.tc t).status = .success
      · simp only [hx, decide_true, if_true] at h
        cases h; simp [hx]
      · simp only [hx, decide_false, Bool.false_eq_true, if_false] at h
        cases h; simp [hx]
    generalize hw1 : print s.w (goText defs s.u (s.count + 1) t) = w1 at e2
    have c1 : w1.cout = s.w.cout := by rw [← hw1]; rfl
    have c2 : w1.cerr = s.w.cerr := by rw [← hw1]; rfl
    have hcont1 : ∀ b, w1.content b = if b = s.w.cout then s.w.content b ++ goText defs s.u (s.count + 1) t else s.w.content b := by
      intro b; rw [← hw1]; rfl
    obtain ⟨m1, m2, m3⟩ := middle env defs s.u.capture t w1 w2 (hk t _) (by rw [c1, c2]; exact hs.ne) e2
    refine ⟨outcomeOf s.u.capture (s.count + 1) t ((defs t).script (w1.tc t).runs) (w2.tc t), ⟨?_, ?_, ?_, ?_, ?_, ?_, ?_⟩, ?_, rfl⟩
    · have ha1 : Aside (decide (0 < s.u.verbosity)) s.w w1 := by
        rw [← hw1]
        unfold goText
        rw [← print_if]
        exact Aside.cond _ _ _ _ (fun h => decide_eq_true (by omega))
      have ha2 : Aside (decide (0 < s.u.verbosity)) w2 s'.w := by
        rw [hw'.1]
        obtain ⟨w2', x1, x2⟩ := utEnd_ok _ _ _ _ _ _ he
        rw [hw1, e2] at x1; cases x1
        exact x2
      exact .test ha1 e2 (.done ha2)
    · rw [hw'.1, a2]; exact m1.trans c1
    · rw [hw'.1, a2]; exact m2.trans c2
    · rfl
    · intro hin
      have hin' := hin _ (List.mem_singleton.2 rfl)
      have htold := endText_told defs s.u (s.count + 1) t ((defs t).script (w1.tc t).runs) w2 hin'.1 hin'.2
      rw [List.flatMap_cons, List.flatMap_nil, List.append_nil]
      show _ = _ ++ Console.told s.u.verbosity (defs t).fullName _
      rw [← htold, hw'.1, a2]
      have h2 : w2.cout = s.w.cout := m1.trans c1
      have : (print w2 (endText defs s.u (s.count + 1) t w2)).content s.w.cout = w2.content s.w.cout ++ endText defs s.u (s.count + 1) t w2 := by
        simp [print, World.put, h2]
      rw [this, m3 _ (hs.out t).1 (hs.out t).2, hcont1, if_pos rfl, c1, if_pos rfl, c2, if_neg hs.ne]
      simp
    · rw [List.flatMap_cons, List.flatMap_nil, List.append_nil, hw'.1, a2]
      have h2 : w2.cout = s.w.cout := m1.trans c1
      have : (print w2 (endText defs s.u (s.count + 1) t w2)).content s.w.cerr = w2.content s.w.cerr := by
        simp [print, World.put, h2, Ne.symm hs.ne]
      rw [this, m3 _ (hs.err t).1 (hs.err t).2, hcont1, if_neg (Ne.symm hs.ne), c1, if_neg (Ne.symm hs.ne), c2, if_pos rfl]
      simp [outcomeOf]
    · intro b h1 h2 h3
      rw [hw'.1, a2]
      have h4 : w2.cout = s.w.cout := m1.trans c1
      have : (print w2 (endText defs s.u (s.count + 1) t w2)).content b = w2.content b := by
        simp [print, World.put, h4, h1]
      rw [this, m3 _ (h3 t).1 (h3 t).2, hcont1, if_neg h1, c1, if_neg h1, c2, if_neg h2]; simp
    · exact hw'.2

theorem performTests_shows (env : Env) (defs : Nat → TestDef) (hk : ∀ t k, ((defs t).script k).KeepsStreams) (ts : List Nat) (s s' : RunSt) (k : Nat)
    (hs : Sane s.w) (h : performTests env defs s ts = .ok (s', k)) :
    ∃ os, Shows env defs s.u.capture s.u.verbosity s.count s.w os s'.w ∧ s'.log = s.log ++ os.map entry ∧ os.map Outcome.test = ts ∧
      s'.count = s.count + os.length ∧ s'.u.capture = s.u.capture ∧ s'.u.verbosity = s.u.verbosity := by
  induction ts generalizing s k with
  | nil =>
    cases h
    exact ⟨[], Shows.nil env defs _ _ _ _ _, by simp, rfl, rfl, rfl, rfl⟩
  | cons t ts ih =>
    unfold performTests at h
    cases h1 : performOne env defs s t with
    | error e => rw [h1] at h; cases h
    | ok x =>
      obtain ⟨s1, f⟩ := x
      rw [h1] at h; simp only at h
      cases h2 : performTests env defs s1 ts with
      | error e => rw [h2] at h; cases h
      | ok y =>
        obtain ⟨s2, k2⟩ := y
        rw [h2] at h; simp only at h
        cases h
        obtain ⟨st, _, _, c1, u1, _⟩ := performOne_ok _ _ _ _ _ _ h1
        obtain ⟨o, p1, l1, t1⟩ := performOne_shows _ _ hk _ _ _ _ hs h1
        obtain ⟨os, p2, l2, t2, c2, v1, v2⟩ := ih s1 k2 (hs.congr p1.cout p1.cerr) h2
        have w1 : s1.u.capture = s.u.capture := by rw [u1]; rfl
        have w2 : s1.u.verbosity = s.u.verbosity := by rw [u1]; rfl
        rw [w1, w2, c1] at p2
        refine ⟨o :: os, Shows.append p1 p2, ?_, by simp [t1, t2], ?_, v1.trans w1, v2.trans w2⟩
        · rw [l2, l1]; simp
        · rw [c2, c1]; simp; omega

theorem performComps_shows (env : Env) (defs : Nat → TestDef) (hk : ∀ t k, ((defs t).script k).KeepsStreams) (cs cs' : List Comp) (s s' : RunSt)
    (hs : Sane s.w) (h : performComps env defs s cs = .ok (s', cs')) :
    ∃ os, Shows env defs s.u.capture s.u.verbosity s.count s.w os s'.w ∧ s'.log = s.log ++ os.map entry := by
  induction cs generalizing s cs' with
  | nil =>
    cases h
    exact ⟨[], Shows.nil env defs _ _ _ _ _, by simp⟩
  | cons c cs ih =>
    unfold performComps at h
    simp only [readClock] at h
    cases h1 : performTests env defs { s with w := { s.w with tick := s.w.tick + 1 } } c.tests with
    | error e => rw [h1] at h; cases h
    | ok x =>
      obtain ⟨s1, k⟩ := x
      rw [h1] at h; simp only at h
      cases h2 : performComps env defs { s1 with w := { s1.w with tick := s1.w.tick + 1 } } cs with
      | error e => rw [h2] at h; cases h
      | ok y =>
        obtain ⟨s2, cs2⟩ := y
        rw [h2] at h; simp only at h
        cases h
        obtain ⟨os1, p1, l1, _, c1, v1, v2⟩ := performTests_shows env defs hk c.tests { s with w := { s.w with tick := s.w.tick + 1 } } s1 k (hs.congr rfl rfl) h1
        have p0 := (Shows.nil env defs s.u.capture s.u.verbosity s.count s.w (s.w.tick + 1)).append p1
        have p0' := p0.append (Shows.nil env defs s.u.capture s.u.verbosity _ s1.w (s1.w.tick + 1))
        obtain ⟨os2, p2, l2⟩ := ih cs2 { s1 with w := { s1.w with tick := s1.w.tick + 1 } } (hs.congr p0'.cout p0'.cerr) h2
        simp only [c1, v1, v2] at p2
        have p3 := p0'.append (by simpa using p2)
        refine ⟨os1 ++ os2, by simpa using p3, ?_⟩
        rw [l2, l1]; simp

theorem runAllTests_shows (env : Env) (defs : Nat → TestDef) (hk : ∀ t k, ((defs t).script k).KeepsStreams) (u : UT) (w : World) (s : RunSt)
    (hs : Sane w) (h : runAllTests env defs u w = .ok s) :
    ∃ os, Shows env defs u.capture u.verbosity 0 w os s.w ∧ s.log = os.map entry := by
  unfold runAllTests at h
  simp only [readClock] at h
  cases h1 : performComps env defs { u := u, w := { w with tick := w.tick + 1 } } (groupTests defs u.comps u.toPerform) with
  | error e => rw [h1] at h; cases h
  | ok x =>
    obtain ⟨s1, cs⟩ := x
    rw [h1] at h; simp only at h
    cases h
    obtain ⟨os, p, l⟩ := performComps_shows env defs hk _ cs _ s1 (hs.congr rfl rfl) h1
    have p0 := (Shows.nil env defs u.capture u.verbosity 0 w (w.tick + 1)).append p
    have p1 := p0.append (Shows.nil env defs u.capture u.verbosity _ s1.w (s1.w.tick + 1))
    exact ⟨os, by simpa using p1, by simpa using l⟩

/-! ### The summary -/

theorem foldl_print (cs : List Comp) (g : Comp → Str) (w : World) : cs.foldl (fun w c => print w (g c)) w = print w (cs.flatMap g) := by
  induction cs generalizing w with
  | nil => rw [List.flatMap_nil, print_nil]; rfl
  | cons c cs ih => rw [List.foldl_cons, ih, print_print, List.flatMap_cons]

theorem sepBy_text (n : Str) (ns : List Str) : sepBy ", ".toList (n :: ns) = n ++ ns.flatMap (fun m => Console.text ", " ++ m) := by
  induction ns generalizing n with
  | nil => simp [sepBy]
  | cons m ms ih =>
    rw [List.flatMap_cons, show sepBy ", ".toList (n :: m :: ms) = n ++ ", ".toList ++ sepBy ", ".toList (m :: ms) from rfl, ih]
    simp [Console.text]

theorem total_text (what : String) (name time : Str) (p : Prop) [Decidable p] :
    what.toList ++ name ++ " (elapsed ".toList ++ time ++ "s) ".toList ++ (if p then "Passed\n".toList else "FAILED \n".toList) =
      Console.total (Console.text what) name time (decide p) := by
  unfold Console.total Console.text
  by_cases h : p
  · have hd : decide p = true := decide_eq_true h
    rw [if_pos h, if_pos hd]
  · have hd : ¬ decide p = true := by simpa using h
    rw [if_neg h, if_neg hd]

theorem report_text (fmt : Fmt) (defs : Nat → TestDef) (u : UT) (w : World) :
    report fmt defs u w = print w (Console.summary u.verbosity ((failedList u w).map (fun t => (defs t).fullName))
      (u.comps.map (fun c => (c.name, fmt.g3 c.lapse.elapsed, decide (c.failures = 0)))) u.name (fmt.g4 u.lapse.elapsed) (decide (u.status = 0))) := by
  have e1 : (if u.status ≠ 0 ∧ failedList u w ≠ [] then
        "\n".toList ++ rule ++ "\nFailed cases: ".toList ++ sepBy ", ".toList ((failedList u w).map (fun t => (defs t).fullName)) ++ "\n".toList ++ rule ++ "\n".toList
      else []) =
      (if decide (u.status = 0) = true then [] else Console.failedCases ((failedList u w).map (fun t => (defs t).fullName))) := by
    by_cases h0 : u.status = 0
    · rw [if_neg (fun x => x.1 h0), if_pos (decide_eq_true h0)]
    · have hd : ¬ (decide (u.status = 0) = true) := by simpa using h0
      rw [if_neg hd]
      cases hf : failedList u w with
      | nil => exact if_neg (fun x => x.2 rfl)
      | cons t ts =>
        have hc : u.status ≠ 0 ∧ t :: ts ≠ [] := ⟨h0, by simp⟩
        rw [if_pos hc, List.map_cons, sepBy_text, rule_bar]
        simp [Console.failedCases, Console.text]
  have e2 : (if u.comps.length > 1 then u.comps.flatMap (fun c => "  Component ".toList ++ c.name ++ " (elapsed ".toList ++ fmt.g3 c.lapse.elapsed ++ "s) ".toList ++
        (if c.failures = 0 then "Passed\n".toList else "FAILED \n".toList)) else []) =
      (if (u.comps.map (fun c => (c.name, fmt.g3 c.lapse.elapsed, decide (c.failures = 0)))).length < 2 then [] else
        (u.comps.map (fun c => (c.name, fmt.g3 c.lapse.elapsed, decide (c.failures = 0)))).flatMap (fun c => Console.total (Console.text "  Component ") c.1 c.2.1 c.2.2)) := by
    rw [List.length_map]
    by_cases hl : u.comps.length > 1
    · have hl' : ¬ u.comps.length < 2 := by omega
      rw [if_pos hl, if_neg hl', List.flatMap_map]
      congr 1
      funext c
      exact total_text _ _ _ _
    · have hl' : u.comps.length < 2 := by omega
      rw [if_neg hl, if_pos hl']
  unfold report Console.summary
  by_cases hv : u.verbosity > 0
  · have hv' : ¬ u.verbosity = 0 := by omega
    rw [if_pos hv, if_neg hv']
    unfold showComps showFailed
    simp only [foldl_print]
    rw [print_if w, print_if (print w _), print_print, print_print, e1]
    rw [← e2]
    rw [total_text, List.append_assoc]
  · have hv' : u.verbosity = 0 := by omega
    rw [if_neg hv, if_pos hv', print_nil]

end Falcon.Fut
