import Verif.Proofs.Xml
import Verif.Props.UnitTest
import Mathlib.Tactic.ByContra
/- C96: the XML report. -/
namespace Falcon.Fut
open Xml

theorem nodup_case : (["id".toList, "name".toList, "time".toList] : List Str).Nodup := by decide
theorem nodup_comp : (["id".toList, "name".toList, "tests".toList, "failures".toList, "time".toList] : List Str).Nodup := by decide
theorem nodup_fail : (["message".toList, "type".toList] : List Str).Nodup := by decide

theorem blank_nl : blank ['\n'] = true := by decide

theorem read_xmlCase (fmt : Fmt) (defs : Nat → TestDef) (u : UT) (w : World) (cn : Str) (t : Nat) (s : Str)
    (htime : ∀ ms, Plain (fmt.g6 ms)) (hid : Plain u.id) (hcn : Plain cn) (hcase : Plain (defs t).caseName)
    (hdesc : (w.tc t).status ≠ .success → Plain (w.tc t).failDesc ∧ Plain (w.tc t).failFile)
    (hcd : (w.tc t).status ≠ .success → ¬ "]]>".toList <:+: (w.tc t).failDesc ∧ ¬ "]]>".toList <:+: (w.tc t).failFile)
    (h : xmlCase fmt defs u w cn t = .ok s) (toks : List Tok) (stack : List Str) (hs : stack ≠ []) :
    (P.mk toks stack (.text ['\n'])).read s = some ⟨toks ++ caseToks fmt defs u w cn t, stack, .text ['\n']⟩ := by
  obtain ⟨-, -, n3, n4, n5, n6, -, -, n9, n10, n11⟩ := names
  have hattrs : ∀ a ∈ caseAttrs fmt u w cn (defs t) t, Name a.1 ∧ Plain a.2 := by
    intro a ha
    unfold caseAttrs at ha
    simp only [List.mem_cons, List.not_mem_nil, or_false] at ha
    rcases ha with rfl | rfl | rfl
    · exact ⟨n5, ((((hid.append plain_dot).append hcn).append plain_dot).append hcase)⟩
    · exact ⟨n6, hcase⟩
    · exact ⟨n9, htime _⟩
  have hopen := fun (tk : List Tok) => read_openTag tk stack ['\n'] "testcase".toList (caseAttrs fmt u w cn (defs t) t) blank_nl (Or.inl hs) n3 (by simp [caseAttrs]) hattrs nodup_case
  unfold xmlCase at h
  dsimp only at h
  by_cases hp : hasPassed u w t = true
  · rw [if_pos hp] at h
    injection h with h; subst h
    have hst := (hasPassed_iff u w t).1 hp
    rw [read_append, hopen]
    rw [Option.bind_some]
    rw [read_closeTag _ _ _ _ blank_nl n3]
    unfold caseToks
    rw [if_pos hst]
    simp [caseAttrs]
  · rw [if_neg hp] at h
    have hst : (w.tc t).status ≠ .success := fun h => hp ((hasPassed_iff u w t).2 h)
    cases hl : (w.tc t).failLine with
    | none => rw [hl] at h; exact absurd h (by simp)
    | some line =>
      rw [hl] at h
      injection h with h; subst h
      obtain ⟨f1, f2, f3⟩ := failText_ok (w.tc t) line (hdesc hst).1 (hdesc hst).2 (hcd hst).1 (hcd hst).2
      rw [List.append_assoc, List.append_assoc, List.append_assoc, read_append, hopen]
      rw [Option.bind_some]
      have hfa : ∀ a ∈ [("message".toList, (w.tc t).failDesc), ("type".toList, statusDesc (w.tc t).status)], Name a.1 ∧ Plain a.2 := by
        intro a ha
        simp only [List.mem_cons, List.not_mem_nil, or_false] at ha
        rcases ha with rfl | rfl
        · exact ⟨n10, (hdesc hst).1⟩
        · exact ⟨n11, plain_status _⟩
      rw [read_append, read_openTag _ _ _ _ _ blank_nl (Or.inl (by simp)) n4 (by simp) hfa nodup_fail]
      · rw [Option.bind_some]
        rw [read_append, read_text _ _ _ _ f1 f2]
        rw [Option.bind_some]
        rw [read_append, List.cons_append, List.nil_append, read_closeTag_text _ _ _ _ f3 n4]
        rw [Option.bind_some]
        rw [read_closeTag _ _ _ _ blank_nl n3]
        unfold caseToks
        rw [if_neg hst, hl, statusWord_eq, decimal_eq]
        simp [caseAttrs, failText]

theorem read_xmlCases (fmt : Fmt) (defs : Nat → TestDef) (u : UT) (w : World) (cn : Str) (ts : List Nat) (s : Str)
    (htime : ∀ ms, Plain (fmt.g6 ms)) (hid : Plain u.id) (hcn : Plain cn) (hcase : ∀ t ∈ ts, Plain (defs t).caseName)
    (hdesc : ∀ t ∈ ts, (w.tc t).status ≠ .success → Plain (w.tc t).failDesc ∧ Plain (w.tc t).failFile)
    (hcd : ∀ t ∈ ts, (w.tc t).status ≠ .success → ¬ "]]>".toList <:+: (w.tc t).failDesc ∧ ¬ "]]>".toList <:+: (w.tc t).failFile)
    (h : xmlCases fmt defs u w cn ts = .ok s) (toks : List Tok) (stack : List Str) (hs : stack ≠ []) :
    (P.mk toks stack (.text ['\n'])).read s = some ⟨toks ++ ts.flatMap (caseToks fmt defs u w cn), stack, .text ['\n']⟩ := by
  induction ts generalizing toks s with
  | nil => unfold xmlCases at h; injection h with h; subst h; simp [P.read]
  | cons t ts ih =>
    unfold xmlCases at h
    cases h1 : xmlCase fmt defs u w cn t with
    | error e => rw [h1] at h; exact absurd h (by simp)
    | ok a =>
      rw [h1] at h
      cases h2 : xmlCases fmt defs u w cn ts with
      | error e => rw [h2] at h; exact absurd h (by simp)
      | ok b =>
        rw [h2] at h
        injection h with h; subst h
        rw [read_append, read_xmlCase fmt defs u w cn t a htime hid hcn (hcase t (by simp)) (hdesc t (by simp)) (hcd t (by simp)) h1 toks stack hs]
        rw [Option.bind_some]
        rw [ih b (fun x hx => hcase x (by simp [hx])) (fun x hx => hdesc x (by simp [hx])) (fun x hx => hcd x (by simp [hx])) h2]
        simp

theorem read_xmlComps (fmt : Fmt) (defs : Nat → TestDef) (u : UT) (w : World) (cs : List Comp) (s : Str)
    (htime : ∀ ms, Plain (fmt.g6 ms)) (hid : Plain u.id) (hcomp : ∀ c ∈ cs, Plain c.name) (hcase : ∀ c ∈ cs, ∀ t ∈ c.tests, Plain (defs t).caseName)
    (hdesc : ∀ c ∈ cs, ∀ t ∈ c.tests, (w.tc t).status ≠ .success → Plain (w.tc t).failDesc ∧ Plain (w.tc t).failFile)
    (hcd : ∀ c ∈ cs, ∀ t ∈ c.tests, (w.tc t).status ≠ .success → ¬ "]]>".toList <:+: (w.tc t).failDesc ∧ ¬ "]]>".toList <:+: (w.tc t).failFile)
    (h : xmlComps fmt defs u w cs = .ok s) (toks : List Tok) (stack : List Str) (hs : stack ≠ []) :
    (P.mk toks stack (.text ['\n'])).read s = some ⟨toks ++ cs.flatMap (compToks fmt defs u w), stack, .text ['\n']⟩ := by
  obtain ⟨-, n2, -, -, n5, n6, n7, n8, n9, -, -⟩ := names
  induction cs generalizing toks s with
  | nil => unfold xmlComps at h; injection h with h; subst h; simp [P.read]
  | cons c cs ih =>
    unfold xmlComps at h
    cases h1 : xmlCases fmt defs u w c.name c.tests with
    | error e => rw [h1] at h; exact absurd h (by simp)
    | ok a =>
      rw [h1] at h
      cases h2 : xmlComps fmt defs u w cs with
      | error e => rw [h2] at h; exact absurd h (by simp)
      | ok b =>
        rw [h2] at h
        injection h with h; subst h
        have hattrs : ∀ a ∈ compAttrs fmt u c, Name a.1 ∧ Plain a.2 := by
          intro a ha
          unfold compAttrs at ha
          simp only [List.mem_cons, List.not_mem_nil, or_false] at ha
          have hc := hcomp c (by simp)
          rcases ha with rfl | rfl | rfl | rfl | rfl
          · exact ⟨n5, (hid.append plain_dot).append hc⟩
          · exact ⟨n6, hc⟩
          · exact ⟨n7, plain_digits _⟩
          · exact ⟨n8, plain_digits _⟩
          · exact ⟨n9, htime _⟩
        rw [List.append_assoc, List.append_assoc, read_append, read_openTag _ _ _ _ _ blank_nl (Or.inl hs) n2 (by simp [compAttrs]) hattrs nodup_comp]
        rw [Option.bind_some]
        rw [read_append, read_xmlCases fmt defs u w c.name c.tests a htime hid (hcomp c (by simp)) (hcase c (by simp)) (hdesc c (by simp)) (hcd c (by simp)) h1 _ _ (by simp)]
        rw [Option.bind_some]
        rw [read_append, read_closeTag _ _ _ _ blank_nl n2]
        rw [Option.bind_some]
        rw [ih b (fun x hx => hcomp x (by simp [hx])) (fun x hx => hcase x (by simp [hx])) (fun x hx => hdesc x (by simp [hx])) (fun x hx => hcd x (by simp [hx])) h2]
        simp [compToks, compAttrs]

theorem read_pi (toks : List Tok) (stack : List Str) (b : Bool) (cs : Str) (h : ∀ c ∈ cs, legal c = true ∧ c ≠ '>') :
    ∃ b', (P.mk toks stack (.pi b)).read cs = some ⟨toks, stack, .pi b'⟩ := by
  induction cs generalizing b with
  | nil => exact ⟨b, rfl⟩
  | cons c cs ih =>
    obtain ⟨l, g⟩ := h c (by simp)
    have hst : (P.mk toks stack (.pi b)).step c = some ⟨toks, stack, .pi (c == '?')⟩ := by simp [P.step, l, g]
    rw [step_some hst]
    exact ih _ (fun x hx => h x (by simp [hx]))

theorem read_head : (P.read {} txtXmlHead) = some ⟨[], [], .text ['\n']⟩ := by
  have e : txtXmlHead = '<' :: '?' :: ("xml version=\"1.0\" encoding=\"utf-8\"".toList ++ ['?', '>', '\n']) := by decide
  have h1 : (P.mk [] [] (.text [])).step '<' = some ⟨[], [], .lt⟩ := by decide
  have h2 : (P.mk [] [] .lt).step '?' = some ⟨[], [], .pi false⟩ := by decide
  obtain ⟨b, hb⟩ := read_pi [] [] false "xml version=\"1.0\" encoding=\"utf-8\"".toList (by decide)
  have h3 : ∀ b, (P.mk [] [] (.pi b)).step '?' = some ⟨[], [], .pi true⟩ := by decide
  have h4 : (P.mk [] [] (.pi true)).step '>' = some ⟨[], [], .text []⟩ := by decide
  have h5 : (P.mk [] [] (.text [])).step '\n' = some ⟨[], [], .text ['\n']⟩ := by decide
  rw [e, step_some h1, step_some h2, read_append, hb, Option.bind_some, step_some (h3 _), step_some h4, step_some h5]
  rfl

theorem read_xmlText (fmt : Fmt) (defs : Nat → TestDef) (u : UT) (w : World) (x : Str) (hp : PlainNames fmt defs u w)
    (hd : ∀ c ∈ u.comps, ∀ t ∈ c.tests, (w.tc t).status ≠ .success → Plain (w.tc t).failDesc) (h : xmlText fmt defs u w = .ok x) :
    Xml.read x = some (reportToks fmt defs u w) := by
  obtain ⟨n1, -, -, -, n5, n6, n7, n8, n9, -, -⟩ := names
  unfold xmlText at h
  cases hf : u.failedCount with
  | none => rw [hf] at h; exact absurd h (by simp)
  | some fc =>
    rw [hf] at h
    cases hc : xmlComps fmt defs u w u.comps with
    | error e => rw [hc] at h; exact absurd h (by simp)
    | ok s =>
      rw [hc] at h
      injection h with h; subst h
      have hattrs : ∀ a ∈ runAttrs fmt u fc, Name a.1 ∧ Plain a.2 := by
        intro a ha
        unfold runAttrs at ha
        simp only [List.mem_cons, List.not_mem_nil, or_false] at ha
        rcases ha with rfl | rfl | rfl | rfl | rfl
        · exact ⟨n5, hp.id⟩
        · exact ⟨n6, hp.name⟩
        · exact ⟨n7, plain_digits _⟩
        · exact ⟨n8, plain_digits _⟩
        · exact ⟨n9, hp.time _⟩
      unfold Xml.read
      rw [List.append_assoc, List.append_assoc, read_append, read_head]
      rw [Option.bind_some]
      rw [read_append, read_openTag _ _ _ _ _ blank_nl (Or.inr rfl) n1 (by simp [runAttrs]) hattrs nodup_comp]
      rw [Option.bind_some]
      rw [read_append, read_xmlComps fmt defs u w u.comps s hp.time hp.id hp.comp hp.case (fun c hc t ht hs => ⟨hd c hc t ht hs, hp.file c hc t ht hs⟩) hp.cdata hc _ _ (by simp)]
      rw [Option.bind_some]
      rw [read_closeTag _ _ _ _ blank_nl n1]
      rw [Option.bind_some]
      unfold P.finish
      dsimp only
      rw [if_pos ⟨rfl, by simp, blank_nl⟩]
      unfold reportToks
      rw [hf]
      simp [runAttrs]

/-- The start tag the reader is in. -/
def Xml.Mode.tag : Mode → Option (Str × List (Str × Str))
  | .attrs n as => some (n, as)
  | .aname n as _ => some (n, as)
  | .aeq n as _ => some (n, as)
  | .aval n as _ => some (n, as)
  | .val n as _ _ _ => some (n, as)
  | .valRef n as _ _ _ _ => some (n, as)
  | .aend n as => some (n, as)
  | .slash n as => some (n, as)
  | _ => none

theorem open_toks {p q : P} {n : Str} {as : List (Str × Str)} (h : p.open n as = some q) : q.toks = p.toks ++ [.start n as] := by
  unfold P.open at h; split at h
  · exact absurd h (by simp)
  · injection h with h; subst h; rfl

theorem close_toks {p q : P} {n : Str} (h : p.close n = some q) : q.toks = p.toks ++ [.stop n] := by
  unfold P.close at h; split at h
  · exact absurd h (by simp)
  · split at h
    · injection h with h; subst h; rfl
    · exact absurd h (by simp)

theorem value_tag {p q : P} {n : Str} {as : List (Str × Str)} {a v : Str} (h : p.value n as a v = some q) : q = { p with mode := .aend n (as ++ [(a, v)]) } := by
  unfold P.value at h; split at h
  · exact absurd h (by simp)
  · injection h with h; exact h.symm

/-- Reading a character in a start tag keeps the attributes read so far, or completes the tag. -/
theorem step_tag {p q : P} {c : Char} {n : Str} {as : List (Str × Str)} (ht : p.mode.tag = some (n, as)) (h : p.step c = some q) :
    (q.toks = p.toks ∧ ∃ bs, q.mode.tag = some (n, as ++ bs)) ∨ (∃ ts, q.toks = p.toks ++ .start n as :: ts) := by
  unfold P.step at h
  split at h
  · exact absurd h (by simp)
  · split at h <;> rename_i hm <;> rw [hm] at ht <;> simp only [Mode.tag, Option.some.injEq, Prod.mk.injEq, reduceCtorEq] at ht <;> obtain ⟨rfl, rfl⟩ := ht
    · split at h
      · injection h with h; subst h; left; exact ⟨rfl, [], by simp [hm, Mode.tag]⟩
      · split at h
        · right; exact ⟨[], open_toks h⟩
        · split at h
          · injection h with h; subst h; left; exact ⟨rfl, [], by simp [Mode.tag]⟩
          · split at h
            · injection h with h; subst h; left; exact ⟨rfl, [], by simp [Mode.tag]⟩
            · exact absurd h (by simp)
    · split at h
      · injection h with h; subst h; left; exact ⟨rfl, [], by simp [Mode.tag]⟩
      · split at h
        · injection h with h; subst h; left; exact ⟨rfl, [], by simp [Mode.tag]⟩
        · split at h
          · injection h with h; subst h; left; exact ⟨rfl, [], by simp [Mode.tag]⟩
          · exact absurd h (by simp)
    · split at h
      · injection h with h; subst h; left; exact ⟨rfl, [], by simp [Mode.tag]⟩
      · split at h
        · injection h with h; subst h; left; exact ⟨rfl, [], by simp [hm, Mode.tag]⟩
        · exact absurd h (by simp)
    · split at h
      · injection h with h; subst h; left; exact ⟨rfl, [], by simp [Mode.tag]⟩
      · split at h
        · injection h with h; subst h; left; exact ⟨rfl, [], by simp [hm, Mode.tag]⟩
        · exact absurd h (by simp)
    · split at h
      · rw [value_tag h]; left; exact ⟨rfl, _, rfl⟩
      · split at h
        · exact absurd h (by simp)
        · split at h
          · injection h with h; subst h; left; exact ⟨rfl, [], by simp [Mode.tag]⟩
          · injection h with h; subst h; left; exact ⟨rfl, [], by simp [Mode.tag]⟩
    · split at h
      · rw [Option.map_eq_some_iff] at h
        obtain ⟨r, -, h⟩ := h
        subst h; left; exact ⟨rfl, [], by simp [Mode.tag]⟩
      · split at h
        · injection h with h; subst h; left; exact ⟨rfl, [], by simp [Mode.tag]⟩
        · exact absurd h (by simp)
    · split at h
      · injection h with h; subst h; left; exact ⟨rfl, [], by simp [Mode.tag]⟩
      · split at h
        · right; exact ⟨[], open_toks h⟩
        · split at h
          · injection h with h; subst h; left; exact ⟨rfl, [], by simp [Mode.tag]⟩
          · exact absurd h (by simp)
    · split at h
      · rw [Option.bind_eq_some_iff] at h
        obtain ⟨r, h1, h2⟩ := h
        right
        have e := close_toks h2
        rw [open_toks h1, List.append_assoc] at e
        exact ⟨_, e⟩
      · exact absurd h (by simp)

/-- What was read is never taken back. -/
theorem step_toks {p q : P} {c : Char} (h : p.step c = some q) : p.toks <+: q.toks := by
  cases ht : p.mode.tag with
  | some x =>
    rcases step_tag (n := x.1) (as := x.2) ht h with ⟨e, -⟩ | ⟨ts, e⟩
    · rw [e]; exact List.prefix_refl _
    · rw [e]; exact List.prefix_append _ _
  | none =>
    unfold P.step at h
    split at h
    · exact absurd h (by simp)
    · split at h <;> rename_i hm <;> rw [hm] at ht <;> simp only [Mode.tag, reduceCtorEq] at ht
      all_goals
        repeat' split at h
      all_goals first
        | (cases h; done)
        | (rw [open_toks h]; exact List.prefix_append _ _)
        | (rw [close_toks h]; exact List.prefix_append _ _)
        | (rw [Option.map_eq_some_iff] at h; obtain ⟨r, -, h⟩ := h; subst h; exact List.prefix_refl _)
        | (injection h with h; subst h; first | exact List.prefix_refl _ | exact List.prefix_append _ _)

/-- The start tag read behind the tokens `T` has a first attribute that is not the one reported. -/
def Wrong (T : List Tok) (n a d : Str) (q : P) : Prop :=
  (∃ d' as ts, d' ≠ d ∧ q.toks = T ++ .start n ((a, d') :: as) :: ts) ∨ (q.toks = T ∧ ∃ d' as, d' ≠ d ∧ q.mode.tag = some (n, (a, d') :: as))

theorem Wrong.step {T : List Tok} {n a d : Str} {p q : P} {c : Char} (hw : Wrong T n a d p) (h : p.step c = some q) : Wrong T n a d q := by
  rcases hw with ⟨d', as, ts, hd, ht⟩ | ⟨ht, d', as, hd, hm⟩
  · obtain ⟨us, hu⟩ := step_toks h
    left; exact ⟨d', as, ts ++ us, hd, by rw [← hu, ht]; simp⟩
  · rcases step_tag hm h with ⟨e, bs, hb⟩ | ⟨ts, e⟩
    · right; exact ⟨by rw [e, ht], d', as ++ bs, hd, by rw [hb]; rfl⟩
    · left; exact ⟨d', as, ts, hd, by rw [e, ht]⟩

theorem Wrong.read {T : List Tok} {n a d : Str} {p q : P} {s : Str} (hw : Wrong T n a d p) (h : p.read s = some q) : Wrong T n a d q := by
  induction s generalizing p with
  | nil => rw [P.read] at h; injection h with h; subst h; exact hw
  | cons c cs ih =>
    rw [P.read, Option.bind_eq_some_iff] at h
    obtain ⟨r, h1, h2⟩ := h
    exact ih (hw.step h1) h2

theorem read_lost (T : List Tok) (stack : List Str) (n a d rest : Str) (cs : Str) :
    (∀ d0 v, d = d0 ++ cs → (v.length < d0.length ∨ ¬ v <+: d) → ∀ q, (P.mk T stack (.val n [] a '"' v)).read (cs ++ '"' :: rest) = some q → Wrong T n a d q) ∧
    (∀ d0 v e, d = d0 ++ cs → (v.length + e.length + 1 ≤ d0.length ∨ ¬ v <+: d) → ∀ q, (P.mk T stack (.valRef n [] a '"' v e)).read (cs ++ '"' :: rest) = some q → Wrong T n a d q) := by
  have mis : ∀ v x, ¬ v <+: d → ¬ (v ++ [x]) <+: d := fun v x h h' => h ((List.prefix_append _ _).trans h')
  have fin : ∀ v, v ≠ d → ∀ q, (P.mk T stack (.val n [] a '"' v)).read ('"' :: rest) = some q → Wrong T n a d q := by
    intro v hv q hq
    have hs : (P.mk T stack (.val n [] a '"' v)).step '"' = some ⟨T, stack, .aend n [(a, v)]⟩ := rfl
    rw [step_some hs] at hq
    exact Wrong.read (Or.inr ⟨rfl, v, [], hv, rfl⟩) hq
  induction cs with
  | nil =>
    refine ⟨?_, ?_⟩
    · intro d0 v hd hv q hq
      refine fin v ?_ q hq
      intro e; subst e
      rcases hv with h | h
      · rw [hd] at h; simp at h
      · exact h (List.prefix_refl _)
    · intro d0 v e hd hv q hq
      exact absurd hq (by rw [List.nil_append, P.read]; simp [P.step, legal, show isSpace '"' = false by decide, show ('"').isAlphanum = false by decide])
  | cons c cs ih =>
    refine ⟨?_, ?_⟩
    · intro d0 v hd hv q hq
      have hd' : d = (d0 ++ [c]) ++ cs := by rw [hd]; simp
      rw [List.cons_append, P.read, Option.bind_eq_some_iff] at hq
      obtain ⟨r, h1, h2⟩ := hq
      unfold P.step at h1
      split at h1
      · exact absurd h1 (by simp)
      · dsimp only at h1
        split at h1
        · rw [value_tag h1] at h2
          refine Wrong.read (Or.inr ⟨rfl, v, [], ?_, rfl⟩) h2
          intro e; subst e
          rcases hv with h | h
          · rw [hd] at h; simp only [List.length_append, List.length_cons] at h; omega
          · exact h (List.prefix_refl _)
        · split at h1
          · exact absurd h1 (by simp)
          · split at h1
            · injection h1 with h1; subst h1
              refine ih.2 _ v [] hd' ?_ q h2
              rcases hv with h | h
              · left; simp; omega
              · right; exact h
            · injection h1 with h1; subst h1
              refine ih.1 _ _ hd' ?_ q h2
              rcases hv with h | h
              · left; simp; omega
              · right; exact mis _ _ h
    · intro d0 v e hd hv q hq
      have hd' : d = (d0 ++ [c]) ++ cs := by rw [hd]; simp
      rw [List.cons_append, P.read, Option.bind_eq_some_iff] at hq
      obtain ⟨r, h1, h2⟩ := hq
      unfold P.step at h1
      split at h1
      · exact absurd h1 (by simp)
      · dsimp only at h1
        split at h1
        · rw [Option.map_eq_some_iff] at h1
          obtain ⟨x, hx, h1⟩ := h1
          subst h1
          refine ih.1 _ _ hd' ?_ q h2
          rcases hv with h | h
          · left
            have : e ≠ [] := by intro he; subst he; revert hx; rw [show deref [] = none by decide]; simp
            have : 0 < e.length := List.length_pos_iff.2 this
            simp; omega
          · right; exact mis _ _ h
        · split at h1
          · injection h1 with h1; subst h1
            refine ih.2 _ v (e ++ [c]) hd' ?_ q h2
            rcases hv with h | h
            · left; simp; omega
            · right; exact h
          · exact absurd h1 (by simp)

/-- A value that is not plain is not read back. -/
theorem read_notPlain (T : List Tok) (stack : List Str) (n a d rest : Str) (ha : Name a) (hd : ¬ Plain d) (q : P)
    (h : (P.mk T stack (.attrs n [])).read (attr a d ++ rest) = some q) : Wrong T n a d q := by
  obtain ⟨c, cs, e, hc, hcs⟩ := ha
  obtain ⟨l, s, g, sl, eq, -⟩ := nameChar_facts (nameStart_char hc)
  have h1 : (P.mk T stack (.attrs n [])).step c = some ⟨T, stack, .aname n [] [c]⟩ := by simp [P.step, l, s, g, sl, hc]
  subst e
  have e1 : "=\"".toList = ['=', '"'] := rfl
  have e2 : "\"".toList = ['"'] := rfl
  unfold attr at h
  rw [e1, e2] at h
  simp only [List.cons_append, List.append_assoc, List.nil_append] at h
  rw [step_some h1, read_append, read_aname _ _ _ _ _ _ hcs] at h
  rw [Option.bind_some] at h
  have h2 : ∀ b : Str, (P.mk T stack (.aname n [] b)).step '=' = some ⟨T, stack, .aval n [] b⟩ := fun _ => rfl
  have h3 : ∀ b : Str, (P.mk T stack (.aval n [] b)).step '"' = some ⟨T, stack, .val n [] b '"' []⟩ := fun _ => rfl
  rw [step_some (h2 _), step_some (h3 _)] at h
  -- the first character that is not plain
  obtain ⟨p, x, s, e, hp, hx⟩ : ∃ p x s, d = p ++ x :: s ∧ Plain p ∧ ¬ (x ≠ '"' ∧ x ≠ '&' ∧ x ≠ '<' ∧ 32 ≤ x.toNat) := by
    clear h
    induction d with
    | nil => exact absurd (by intro c hc; simp at hc) hd
    | cons y ys ih =>
      by_cases hy : (y ≠ '"' ∧ y ≠ '&' ∧ y ≠ '<' ∧ 32 ≤ y.toNat)
      · obtain ⟨p, x, s, e, hp, hx⟩ := ih (fun hpl => hd (fun z hz => by
          rcases List.mem_cons.1 hz with rfl | hz
          · exact hy
          · exact hpl z hz))
        refine ⟨y :: p, x, s, by rw [e]; rfl, ?_, hx⟩
        intro z hz
        rcases List.mem_cons.1 hz with rfl | hz
        · exact hy
        · exact hp z hz
      · exact ⟨[], y, ys, rfl, by intro c hc; simp at hc, hy⟩
  have hds : d ++ '"' :: rest = p ++ (x :: (s ++ '"' :: rest)) := by rw [e]; simp
  rw [hds, read_append, read_val _ _ _ _ _ _ _ hp] at h
  rw [Option.bind_some, List.nil_append] at h
  rw [P.read, Option.bind_eq_some_iff] at h
  obtain ⟨r, h4, h5⟩ := h
  have hd' : d = (p ++ [x]) ++ s := by rw [e]; simp
  unfold P.step at h4
  split at h4
  · exact absurd h4 (by simp)
  · rename_i hl
    dsimp only at h4
    split at h4
    · rw [value_tag h4] at h5
      refine Wrong.read (Or.inr ⟨rfl, p, [], ?_, rfl⟩) h5
      intro he; rw [e] at he; simp at he
    · split at h4
      · exact absurd h4 (by simp)
      · split at h4
        · injection h4 with h4; subst h4
          exact (read_lost T stack n _ d rest s).2 (p ++ [x]) p [] hd' (by left; simp) q h5
        · rename_i a1 a2 a3
          injection h4 with h4; subst h4
          refine (read_lost T stack n _ d rest s).1 (p ++ [x]) _ hd' (Or.inr ?_) q h5
          have hx32 : ¬ 32 ≤ x.toNat := fun hh => hx ⟨a1, a3, a2, hh⟩
          have hsp : isSpace x = true := by
            have hl' : legal x = true := by simpa using hl
            unfold legal at hl'
            simp only [Bool.or_eq_true, decide_eq_true_eq] at hl'
            rcases hl' with h | h
            · exact h
            · exact absurd h hx32
          rw [hsp]
          intro hpre
          rw [e] at hpre
          have := (List.prefix_append_right_inj p).1 hpre
          obtain ⟨us, hu⟩ := this
          simp at hu
          rw [← hu.1] at hx32
          exact hx32 (by decide)

theorem Wrong.notPre {T : List Tok} {n a d : Str} {q : P} (h : Wrong T n a d q) (as : List (Str × Str)) (E : List Tok) :
    ¬ (T ++ .start n ((a, d) :: as) :: E) <+: q.toks := by
  rintro ⟨us, hu⟩
  rcases h with ⟨d', bs, ts, hd, e⟩ | ⟨e, -⟩
  · rw [e, List.append_assoc] at hu
    have := List.append_cancel_left hu
    simp only [List.cons_append, List.cons.injEq, Tok.start.injEq, Prod.mk.injEq] at this
    exact hd this.1.2.1.2.symm
  · rw [e, List.append_assoc] at hu
    have := congrArg List.length hu
    simp at this

theorem lost_xmlCase (fmt : Fmt) (defs : Nat → TestDef) (u : UT) (w : World) (cn : Str) (t : Nat) (s rest : Str)
    (htime : ∀ ms, Plain (fmt.g6 ms)) (hid : Plain u.id) (hcn : Plain cn) (hcase : Plain (defs t).caseName)
    (hst : (w.tc t).status ≠ .success) (hdesc : ¬ Plain (w.tc t).failDesc)
    (h : xmlCase fmt defs u w cn t = .ok s) (toks : List Tok) (stack : List Str) (hs : stack ≠ []) (q : P)
    (hq : (P.mk toks stack (.text ['\n'])).read (s ++ rest) = some q) : ¬ (toks ++ caseToks fmt defs u w cn t) <+: q.toks := by
  obtain ⟨-, -, n3, n4, n5, n6, -, -, n9, n10, n11⟩ := names
  have hattrs : ∀ a ∈ caseAttrs fmt u w cn (defs t) t, Name a.1 ∧ Plain a.2 := by
    intro a ha
    unfold caseAttrs at ha
    simp only [List.mem_cons, List.not_mem_nil, or_false] at ha
    rcases ha with rfl | rfl | rfl
    · exact ⟨n5, ((((hid.append plain_dot).append hcn).append plain_dot).append hcase)⟩
    · exact ⟨n6, hcase⟩
    · exact ⟨n9, htime _⟩
  have hopen := read_openTag toks stack ['\n'] "testcase".toList (caseAttrs fmt u w cn (defs t) t) blank_nl (Or.inl hs) n3 (by simp [caseAttrs]) hattrs nodup_case
  unfold xmlCase at h
  dsimp only at h
  rw [if_neg (fun hp => hst ((hasPassed_iff u w t).1 hp))] at h
  cases hl : (w.tc t).failLine with
  | none => rw [hl] at h; exact absurd h (by simp)
  | some line =>
    rw [hl] at h
    injection h with h; subst h
    rw [List.append_assoc, List.append_assoc, List.append_assoc, List.append_assoc, read_append, hopen, Option.bind_some] at hq
    generalize hT : toks ++ [Tok.start "testcase".toList (caseAttrs fmt u w cn (defs t) t)] = T at hq
    generalize failText (w.tc t) line ++ (closeTag "failure".toList ++ (closeTag "testcase".toList ++ rest)) = rest' at hq
    have e : openTag "failure".toList [("message".toList, (w.tc t).failDesc), ("type".toList, statusDesc (w.tc t).status)] ++ rest' =
        "<failure ".toList ++ (attr "message".toList (w.tc t).failDesc ++ (' ' :: attr "type".toList (statusDesc (w.tc t).status) ++ ">\n".toList ++ rest')) := by
      have e1 : "<failure ".toList = '<' :: "failure".toList ++ [' '] := rfl
      rw [e1]; simp [openTag]
    have hhead : (P.mk T ("testcase".toList :: stack) (.text ['\n'])).read "<failure ".toList = some ⟨T, "testcase".toList :: stack, .attrs "failure".toList []⟩ := by
      have e1 : "<failure ".toList = '<' :: 'f' :: ("ailure".toList ++ [' ']) := by decide
      have h1 : (P.mk T ("testcase".toList :: stack) .lt).step 'f' = some ⟨T, "testcase".toList :: stack, .name ['f']⟩ := rfl
      have h2 : (P.mk T ("testcase".toList :: stack) (.name (['f'] ++ "ailure".toList))).step ' ' = some ⟨T, "testcase".toList :: stack, .attrs "failure".toList []⟩ := rfl
      rw [e1, step_some (read_lt _ _ _ blank_nl), step_some h1, read_append, read_name _ _ _ _ (by decide), Option.bind_some, step_some h2]
      rfl
    rw [e, read_append, hhead, Option.bind_some] at hq
    have hw := read_notPlain T ("testcase".toList :: stack) "failure".toList "message".toList (w.tc t).failDesc _ n10 hdesc q hq
    have hn := hw.notPre [("type".toList, statusDesc (w.tc t).status)]
      [.text ("\n".toList ++ (w.tc t).failDesc ++ "\nFile: ".toList ++ (w.tc t).failFile ++ "\nLine: ".toList ++ showInt ((w.tc t).failLine.getD 0) ++ "\n".toList),
       .stop "failure".toList, .stop "testcase".toList]
    intro hc
    apply hn
    rw [← hT]
    unfold caseToks at hc
    rw [if_neg hst, statusWord_eq, decimal_eq] at hc
    unfold caseAttrs
    simp only [List.append_assoc, List.cons_append, List.nil_append] at hc ⊢
    exact hc

theorem read_toks {p q : P} {s : Str} (h : p.read s = some q) : p.toks <+: q.toks := by
  induction s generalizing p with
  | nil => rw [P.read] at h; injection h with h; subst h; exact List.prefix_refl _
  | cons c cs ih =>
    rw [P.read, Option.bind_eq_some_iff] at h
    obtain ⟨r, h1, h2⟩ := h
    exact (step_toks h1).trans (ih h2)

theorem lost_xmlCases (fmt : Fmt) (defs : Nat → TestDef) (u : UT) (w : World) (cn : Str) (ts : List Nat) (s rest : Str)
    (htime : ∀ ms, Plain (fmt.g6 ms)) (hid : Plain u.id) (hcn : Plain cn) (hcase : ∀ t ∈ ts, Plain (defs t).caseName)
    (hfile : ∀ t ∈ ts, (w.tc t).status ≠ .success → Plain (w.tc t).failFile)
    (hcd : ∀ t ∈ ts, (w.tc t).status ≠ .success → ¬ "]]>".toList <:+: (w.tc t).failDesc ∧ ¬ "]]>".toList <:+: (w.tc t).failFile)
    (hbad : ∃ t ∈ ts, (w.tc t).status ≠ .success ∧ ¬ Plain (w.tc t).failDesc)
    (h : xmlCases fmt defs u w cn ts = .ok s) (toks : List Tok) (stack : List Str) (hs : stack ≠ []) (q : P)
    (hq : (P.mk toks stack (.text ['\n'])).read (s ++ rest) = some q) : ¬ (toks ++ ts.flatMap (caseToks fmt defs u w cn)) <+: q.toks := by
  induction ts generalizing toks s with
  | nil => obtain ⟨t, ht, -⟩ := hbad; exact absurd ht (by simp)
  | cons t ts ih =>
    unfold xmlCases at h
    cases h1 : xmlCase fmt defs u w cn t with
    | error e => rw [h1] at h; exact absurd h (by simp)
    | ok a =>
      rw [h1] at h
      cases h2 : xmlCases fmt defs u w cn ts with
      | error e => rw [h2] at h; exact absurd h (by simp)
      | ok b =>
        rw [h2] at h
        injection h with h; subst h
        rw [List.append_assoc] at hq
        by_cases hb : (w.tc t).status ≠ .success ∧ ¬ Plain (w.tc t).failDesc
        · have := lost_xmlCase fmt defs u w cn t a (b ++ rest) htime hid hcn (hcase t (by simp)) hb.1 hb.2 h1 toks stack hs q hq
          intro hc
          apply this
          rw [List.flatMap_cons, ← List.append_assoc] at hc
          exact (List.prefix_append _ _).trans hc
        · have hp : (w.tc t).status ≠ .success → Plain (w.tc t).failDesc := fun hst => by by_contra hpl; exact hb ⟨hst, hpl⟩
          rw [read_append, read_xmlCase fmt defs u w cn t a htime hid hcn (hcase t (by simp)) (fun hst => ⟨hp hst, hfile t (by simp) hst⟩) (hcd t (by simp)) h1 toks stack hs, Option.bind_some] at hq
          have := ih b (fun x hx => hcase x (by simp [hx])) (fun x hx => hfile x (by simp [hx])) (fun x hx => hcd x (by simp [hx]))
            (by
              obtain ⟨x, hx, hx'⟩ := hbad
              rcases List.mem_cons.1 hx with rfl | hx
              · exact absurd hx' hb
              · exact ⟨x, hx, hx'⟩) h2 _ hq
          rwa [List.flatMap_cons, ← List.append_assoc]

theorem lost_xmlComps (fmt : Fmt) (defs : Nat → TestDef) (u : UT) (w : World) (cs : List Comp) (s rest : Str)
    (htime : ∀ ms, Plain (fmt.g6 ms)) (hid : Plain u.id) (hcomp : ∀ c ∈ cs, Plain c.name) (hcase : ∀ c ∈ cs, ∀ t ∈ c.tests, Plain (defs t).caseName)
    (hfile : ∀ c ∈ cs, ∀ t ∈ c.tests, (w.tc t).status ≠ .success → Plain (w.tc t).failFile)
    (hcd : ∀ c ∈ cs, ∀ t ∈ c.tests, (w.tc t).status ≠ .success → ¬ "]]>".toList <:+: (w.tc t).failDesc ∧ ¬ "]]>".toList <:+: (w.tc t).failFile)
    (hbad : ∃ c ∈ cs, ∃ t ∈ c.tests, (w.tc t).status ≠ .success ∧ ¬ Plain (w.tc t).failDesc)
    (h : xmlComps fmt defs u w cs = .ok s) (toks : List Tok) (stack : List Str) (hs : stack ≠ []) (q : P)
    (hq : (P.mk toks stack (.text ['\n'])).read (s ++ rest) = some q) : ¬ (toks ++ cs.flatMap (compToks fmt defs u w)) <+: q.toks := by
  obtain ⟨-, n2, -, -, n5, n6, n7, n8, n9, -, -⟩ := names
  induction cs generalizing toks s with
  | nil => obtain ⟨t, ht, -⟩ := hbad; exact absurd ht (by simp)
  | cons c cs ih =>
    unfold xmlComps at h
    cases h1 : xmlCases fmt defs u w c.name c.tests with
    | error e => rw [h1] at h; exact absurd h (by simp)
    | ok a =>
      rw [h1] at h
      cases h2 : xmlComps fmt defs u w cs with
      | error e => rw [h2] at h; exact absurd h (by simp)
      | ok b =>
        rw [h2] at h
        injection h with h; subst h
        have hattrs : ∀ a ∈ compAttrs fmt u c, Name a.1 ∧ Plain a.2 := by
          intro a ha
          unfold compAttrs at ha
          simp only [List.mem_cons, List.not_mem_nil, or_false] at ha
          have hc := hcomp c (by simp)
          rcases ha with rfl | rfl | rfl | rfl | rfl
          · exact ⟨n5, (hid.append plain_dot).append hc⟩
          · exact ⟨n6, hc⟩
          · exact ⟨n7, plain_digits _⟩
          · exact ⟨n8, plain_digits _⟩
          · exact ⟨n9, htime _⟩
        rw [List.append_assoc, List.append_assoc, List.append_assoc, read_append, read_openTag _ _ _ _ _ blank_nl (Or.inl hs) n2 (by simp [compAttrs]) hattrs nodup_comp, Option.bind_some] at hq
        have hE : toks ++ (c :: cs).flatMap (compToks fmt defs u w) =
            ((toks ++ [Tok.start "testsuite".toList (compAttrs fmt u c)]) ++ c.tests.flatMap (caseToks fmt defs u w c.name)) ++ ([.stop "testsuite".toList] ++ cs.flatMap (compToks fmt defs u w)) := by
          simp [compToks, compAttrs]
        by_cases hb : ∃ t ∈ c.tests, (w.tc t).status ≠ .success ∧ ¬ Plain (w.tc t).failDesc
        · have := lost_xmlCases fmt defs u w c.name c.tests a _ htime hid (hcomp c (by simp)) (hcase c (by simp)) (hfile c (by simp)) (hcd c (by simp)) hb h1 _ _ (by simp) q hq
          intro hc
          rw [hE] at hc
          exact this ((List.prefix_append _ _).trans hc)
        · have hp : ∀ t ∈ c.tests, (w.tc t).status ≠ .success → Plain (w.tc t).failDesc := fun t ht hst => by by_contra hpl; exact hb ⟨t, ht, hst, hpl⟩
          rw [read_append, read_xmlCases fmt defs u w c.name c.tests a htime hid (hcomp c (by simp)) (hcase c (by simp))
            (fun t ht hst => ⟨hp t ht hst, hfile c (by simp) t ht hst⟩) (hcd c (by simp)) h1 _ _ (by simp), Option.bind_some,
            read_append, read_closeTag _ _ _ _ blank_nl n2, Option.bind_some] at hq
          have := ih b (fun x hx => hcomp x (by simp [hx])) (fun x hx => hcase x (by simp [hx])) (fun x hx => hfile x (by simp [hx])) (fun x hx => hcd x (by simp [hx]))
            (by
              obtain ⟨x, hx, hx'⟩ := hbad
              rcases List.mem_cons.1 hx with rfl | hx
              · exact absurd hx' hb
              · exact ⟨x, hx, hx'⟩) h2 _ hq
          rw [hE]
          rw [List.append_assoc _ [Tok.stop "testsuite".toList]] at this
          exact this

/-- A bad description makes the document unreadable, or read as something else than what was reported. -/
theorem lost_xmlText (fmt : Fmt) (defs : Nat → TestDef) (u : UT) (w : World) (x : Str) (hp : PlainNames fmt defs u w)
    (hbad : ∃ c ∈ u.comps, ∃ t ∈ c.tests, (w.tc t).status ≠ .success ∧ ¬ Plain (w.tc t).failDesc) (h : xmlText fmt defs u w = .ok x) :
    Xml.read x ≠ some (reportToks fmt defs u w) := by
  obtain ⟨n1, -, -, -, n5, n6, n7, n8, n9, -, -⟩ := names
  unfold xmlText at h
  cases hf : u.failedCount with
  | none => rw [hf] at h; exact absurd h (by simp)
  | some fc =>
    rw [hf] at h
    cases hc : xmlComps fmt defs u w u.comps with
    | error e => rw [hc] at h; exact absurd h (by simp)
    | ok s =>
      rw [hc] at h
      injection h with h; subst h
      have hattrs : ∀ a ∈ runAttrs fmt u fc, Name a.1 ∧ Plain a.2 := by
        intro a ha
        unfold runAttrs at ha
        simp only [List.mem_cons, List.not_mem_nil, or_false] at ha
        rcases ha with rfl | rfl | rfl | rfl | rfl
        · exact ⟨n5, hp.id⟩
        · exact ⟨n6, hp.name⟩
        · exact ⟨n7, plain_digits _⟩
        · exact ⟨n8, plain_digits _⟩
        · exact ⟨n9, hp.time _⟩
      intro hr
      unfold Xml.read at hr
      rw [Option.bind_eq_some_iff] at hr
      obtain ⟨q, hq, hfin⟩ := hr
      rw [List.append_assoc, List.append_assoc, read_append, read_head, Option.bind_some,
        read_append, read_openTag _ _ _ _ _ blank_nl (Or.inr rfl) n1 (by simp [runAttrs]) hattrs nodup_comp, Option.bind_some] at hq
      have hl := lost_xmlComps fmt defs u w u.comps s _ hp.time hp.id hp.comp hp.case hp.file hp.cdata hbad hc _ _ (by simp) q hq
      apply hl
      unfold P.finish at hfin
      split at hfin
      · split at hfin
        · injection hfin with hfin
          rw [hfin]
          unfold reportToks
          rw [hf]
          exact List.prefix_append _ _
        · exact absurd hfin (by simp)
      · exact absurd hfin (by simp)

/-- The report of a completed run: what C96 claims holds exactly if every failure description is free of quotes, ampersands,
less-thans and control characters. (Assumed of everything else that goes into the report: the names of the run,
components, cases and files and the printed times are.) -/
theorem C96_exact_partial (env : Env) (fmt : Fmt) (canOpen : Bool) (defs : Nat → TestDef) (u : UT) (w : World) (d : Done) (x : Str)
    (h : performUnitTests env fmt canOpen defs u w = .ok d) (hx : d.xml = some x) (hp : PlainNames fmt defs d.u d.w) :
    Xml.read x = some (reportToks fmt defs d.u d.w) ↔
      ∀ c ∈ d.u.comps, ∀ t ∈ c.tests, (d.w.tc t).status ≠ .success → Plain (d.w.tc t).failDesc := by
  have hy : xmlText fmt defs d.u d.w = .ok x := by
    unfold performUnitTests at h
    dsimp only at h
    split at h
    · exact absurd h (by simp)
    · split at h
      · injection h with h; subst h; exact absurd hx (by simp)
      · split at h
        · split at h
          · exact absurd h (by simp)
          · rename_i y hy
            injection h with h; subst h
            dsimp only at hx ⊢
            injection hx with hx; subst hx
            exact hy
        · injection h with h; subst h; exact absurd hx (by simp)
  constructor
  · intro hr c hc t ht hst
    by_contra hpl
    exact lost_xmlText fmt defs _ _ x hp ⟨c, hc, t, ht, hst, hpl⟩ hy hr
  · intro hd
    exact read_xmlText fmt defs _ _ x hp hd hy

/-- A failed EXPECT_EQ, EXPECT_TRUE, ... with a printable actual value never gives a plain description. -/
theorem C96_checks_not_plain_partial (env : Env) (c : Tc) (file : Str) (line : Int) (expected actual : Str) (ha : visible actual ≠ []) :
    ¬ Plain (checkFail env c file line expected actual).failDesc := by
  intro h
  unfold checkFail at h
  dsimp only at h
  rw [cstr_visible, if_neg ha] at h
  have hm : '"' ∈ expected ++ txtActually ++ visible actual ++ txtClose := by
    have : '"' ∈ txtClose := by decide
    simp [this]
  exact (h '"' hm).1 rfl

/-- One failing check, and one test that throws. -/
def quoteDefs : Nat → TestDef := fun t => ⟨['C'], ['a'], fun _ => { body := if t = 0 then [.check false ['f'] 3 ['x'] ['1']] else [.thrw .other] }⟩

def zeroFmt : Fmt := ⟨fun _ => ['0'], fun _ => ['0'], fun _ => ['0']⟩

/-- C96 does not hold: after one failed EXPECT_EQ the report is not well formed. -/
theorem C96_quote_refuted :
    (performUnitTests {} zeroFmt true quoteDefs { registered quoteDefs [0] with xmlReport := ['r'], verbosity := 0 } {}).toOption.map (fun d => d.xml.map Xml.read) = some (some none) := by
  decide +kernel

/-- And after a test that threw an exception, the report contains a line number that was never set. -/
theorem C96_uninitialised_refuted (fmt : Fmt) :
    performUnitTests {} fmt true quoteDefs { registered quoteDefs [1] with xmlReport := ['r'], verbosity := 0 } {} = .error (.ub .uninitRead) := by
  rfl

/-- One test that passes, one that fails with a plain message. -/
def plainDefs : Nat → TestDef := fun t => ⟨['C'], ['a'], fun _ => { body := if t = 0 then [] else [.failNow ['f'] 3 ['n', 'o']] }⟩

def plainUT : UT := { registered plainDefs [0, 1] with xmlReport := ['r'], verbosity := 0, id := ['u'], name := ['u'] }

/-- The hypotheses of C96_exact_partial are met, with a failed test, and the report reads back. -/
example : ∃ d x, performUnitTests {} zeroFmt true plainDefs plainUT {} = .ok d ∧ d.xml = some x ∧ PlainNames zeroFmt plainDefs d.u d.w ∧
    (∃ c ∈ d.u.comps, ∃ t ∈ c.tests, (d.w.tc t).status ≠ .success) ∧ Xml.read x = some (reportToks zeroFmt plainDefs d.u d.w) := by
  obtain ⟨d, h⟩ : ∃ d, performUnitTests {} zeroFmt true plainDefs plainUT {} = .ok d := ⟨_, rfl⟩
  obtain ⟨x, hx⟩ : ∃ x, d.xml = some x := by
    have : (performUnitTests {} zeroFmt true plainDefs plainUT {}).toOption.map (fun d => d.xml.isSome) = some true := by decide +kernel
    rw [h] at this
    simpa [Except.toOption, Option.isSome_iff_exists] using this
  have hc : d.u.comps.map (fun c => (c.name, c.tests)) = [(['C'], [0, 1])] ∧ d.u.id = ['u'] ∧ d.u.name = ['u'] ∧ (d.w.tc 0).status = .success ∧
      (d.w.tc 1).status = .fail ∧ (d.w.tc 1).failDesc = ['n', 'o'] ∧ (d.w.tc 1).failFile = ['f'] := by
    have : (performUnitTests {} zeroFmt true plainDefs plainUT {}).toOption.map (fun d => (d.u.comps.map (fun c => (c.name, c.tests)), d.u.id, d.u.name, (d.w.tc 0).status,
      (d.w.tc 1).status, (d.w.tc 1).failDesc, (d.w.tc 1).failFile)) = some ([(['C'], [0, 1])], ['u'], ['u'], .success, .fail, ['n', 'o'], ['f']) := by rfl
    rw [h] at this
    simpa [Except.toOption] using this
  obtain ⟨hcm, h1, h2, h3, h4, h5, h6⟩ := hc
  obtain ⟨c, hc1, hn, ht⟩ : ∃ c, d.u.comps = [c] ∧ c.name = ['C'] ∧ c.tests = [0, 1] := by
    cases hcs : d.u.comps with
    | nil => rw [hcs] at hcm; simp at hcm
    | cons c cs =>
      rw [hcs] at hcm
      simp at hcm
      exact ⟨c, by rw [hcm.2], hcm.1.1, hcm.1.2⟩
  have hp : PlainNames zeroFmt plainDefs d.u d.w := by
    refine ⟨fun ms => ?_, by rw [h1]; unfold Plain; decide, by rw [h2]; unfold Plain; decide, ?_, ?_, ?_, ?_⟩
    · show Plain ['0']
      unfold Plain; decide
    · rw [hc1]; intro c' hc'; rw [List.mem_singleton] at hc'; rw [hc', hn]; unfold Plain; decide
    · intro c' _ t _; show Plain ['a']; unfold Plain; decide
    · rw [hc1]; intro c' hc'; rw [List.mem_singleton] at hc'; rw [hc', ht]
      intro t htm hst
      simp only [List.mem_cons, List.not_mem_nil, or_false] at htm
      rcases htm with rfl | rfl
      · exact absurd h3 hst
      · rw [h6]; unfold Plain; decide
    · rw [hc1]; intro c' hc'; rw [List.mem_singleton] at hc'; rw [hc', ht]
      intro t htm hst
      simp only [List.mem_cons, List.not_mem_nil, or_false] at htm
      rcases htm with rfl | rfl
      · exact absurd h3 hst
      · rw [h5, h6]; decide
  refine ⟨d, x, h, hx, hp, ⟨c, by rw [hc1]; simp, 1, by rw [ht]; simp, by rw [h4]; simp⟩, ?_⟩
  rw [C96_exact_partial {} zeroFmt true plainDefs plainUT {} d x h hx hp, hc1]
  intro c' hc'; rw [List.mem_singleton] at hc'; rw [hc', ht]
  intro t htm hst
  simp only [List.mem_cons, List.not_mem_nil, or_false] at htm
  rcases htm with rfl | rfl
  · exact absurd h3 hst
  · rw [h5]; unfold Plain; decide

end Falcon.Fut
