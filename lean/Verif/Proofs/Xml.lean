import Verif.Spec.Xml
import Verif.Proofs.UnitTest
import Mathlib.Tactic.Tauto
/- Reading what the report writer writes. -/
namespace Falcon.Fut.Xml

theorem read_append (p : P) (a b : Str) : p.read (a ++ b) = (p.read a).bind (fun q => q.read b) := by
  induction a generalizing p with
  | nil => rfl
  | cons c cs ih =>
    simp only [List.cons_append, P.read]
    cases p.step c with
    | none => rfl
    | some q => simp [ih]

/-- A name the reader accepts. -/
def Name (n : Str) : Prop := ∃ c cs, n = c :: cs ∧ nameStart c = true ∧ ∀ x ∈ cs, nameChar x = true

theorem nameChar_facts {c : Char} (h : nameChar c = true) : legal c = true ∧ isSpace c = false ∧ c ≠ '>' ∧ c ≠ '/' ∧ c ≠ '=' ∧ c ≠ '?' := by
  unfold nameChar nameStart at h
  simp only [Bool.or_eq_true, beq_iff_eq] at h
  have hn : c = '_' ∨ c = ':' ∨ c = '-' ∨ c = '.' ∨ (48 ≤ c.toNat ∧ c.toNat ≤ 57) ∨ (65 ≤ c.toNat ∧ c.toNat ≤ 90) ∨ (97 ≤ c.toNat ∧ c.toNat ≤ 122) := by
    rcases h with (((h | h) | h) | h) | h
    · unfold Char.isAlpha Char.isUpper Char.isLower at h
      rcases h with h | h
      · simp only [Bool.or_eq_true, Bool.and_eq_true, decide_eq_true_eq, UInt32.le_iff_toNat_le] at h
        rcases h with h | h
        · right; right; right; right; right; left; exact h
        · right; right; right; right; right; right; exact h
      · left; exact h
    · right; left; exact h
    · unfold Char.isDigit at h
      simp only [Bool.and_eq_true, decide_eq_true_eq, UInt32.le_iff_toNat_le] at h
      right; right; right; right; left; exact h
    · right; right; left; exact h
    · right; right; right; left; exact h
  rcases hn with h | h | h | h | h
  · subst h; decide
  · subst h; decide
  · subst h; decide
  · subst h; decide
  · have h32 : 32 ≤ c.toNat := by omega
    have ne : ∀ d : Char, (d.toNat < 48 ∨ (57 < d.toNat ∧ d.toNat < 65)) → c ≠ d := by
      intro d hd e; subst e; omega
    refine ⟨by unfold legal; simp [h32], ?_, ne _ (by decide), ne _ (by decide), ne _ (by decide), ne _ (by decide)⟩
    unfold isSpace
    simp only [Bool.or_eq_false_iff, beq_eq_false_iff_ne, ne_eq]
    exact ⟨⟨⟨ne _ (by decide), ne _ (by decide)⟩, ne _ (by decide)⟩, ne _ (by decide)⟩

theorem nameStart_char {c : Char} (h : nameStart c = true) : nameChar c = true := by unfold nameChar; simp [h]

theorem read_name (toks : List Tok) (stack : List Str) (n : Str) (cs : Str) (h : ∀ x ∈ cs, nameChar x = true) :
    (P.mk toks stack (.name n)).read cs = some ⟨toks, stack, .name (n ++ cs)⟩ := by
  induction cs generalizing n with
  | nil => simp [P.read]
  | cons c cs ih =>
    obtain ⟨l, s, g, sl, -, -⟩ := nameChar_facts (h c (by simp))
    have hst : (P.mk toks stack (.name n)).step c = some ⟨toks, stack, .name (n ++ [c])⟩ := by
      simp [P.step, l, s, g, sl, h c (by simp)]
    rw [P.read, hst]; simp only [Option.bind_some]
    rw [ih _ (fun x hx => h x (by simp [hx]))]; simp

theorem read_aname (toks : List Tok) (stack : List Str) (n : Str) (as : List (Str × Str)) (a cs : Str) (h : ∀ x ∈ cs, nameChar x = true) :
    (P.mk toks stack (.aname n as a)).read cs = some ⟨toks, stack, .aname n as (a ++ cs)⟩ := by
  induction cs generalizing a with
  | nil => simp [P.read]
  | cons c cs ih =>
    obtain ⟨l, s, -, -, e, -⟩ := nameChar_facts (h c (by simp))
    have hst : (P.mk toks stack (.aname n as a)).step c = some ⟨toks, stack, .aname n as (a ++ [c])⟩ := by
      simp [P.step, l, s, e, h c (by simp)]
    rw [P.read, hst]; simp only [Option.bind_some]
    rw [ih _ (fun x hx => h x (by simp [hx]))]; simp

theorem read_cname (toks : List Tok) (stack : List Str) (n : Str) (cs : Str) (h : ∀ x ∈ cs, nameChar x = true) :
    (P.mk toks stack (.cname n)).read cs = some ⟨toks, stack, .cname (n ++ cs)⟩ := by
  induction cs generalizing n with
  | nil => simp [P.read]
  | cons c cs ih =>
    obtain ⟨l, s, g, -, -, -⟩ := nameChar_facts (h c (by simp))
    have hst : (P.mk toks stack (.cname n)).step c = some ⟨toks, stack, .cname (n ++ [c])⟩ := by
      simp [P.step, l, s, g, h c (by simp)]
    rw [P.read, hst]; simp only [Option.bind_some]
    rw [ih _ (fun x hx => h x (by simp [hx]))]; simp

theorem plain_facts {c : Char} (h : c ≠ '"' ∧ c ≠ '&' ∧ c ≠ '<' ∧ 32 ≤ c.toNat) : legal c = true ∧ (if isSpace c then ' ' else c) = c := by
  refine ⟨by unfold legal; simp [h.2.2.2], ?_⟩
  split
  · rename_i hs
    unfold isSpace at hs
    simp only [Bool.or_eq_true, beq_iff_eq] at hs
    rcases hs with ((e | e) | e) | e
    · exact e.symm
    · subst e; exact absurd h.2.2.2 (by decide)
    · subst e; exact absurd h.2.2.2 (by decide)
    · subst e; exact absurd h.2.2.2 (by decide)
  · rfl

theorem read_val (toks : List Tok) (stack : List Str) (n : Str) (as : List (Str × Str)) (a v cs : Str) (h : Plain cs) :
    (P.mk toks stack (.val n as a '"' v)).read cs = some ⟨toks, stack, .val n as a '"' (v ++ cs)⟩ := by
  induction cs generalizing v with
  | nil => simp [P.read]
  | cons c cs ih =>
    have hc := h c (by simp)
    obtain ⟨l, s⟩ := plain_facts hc
    have hst : (P.mk toks stack (.val n as a '"' v)).step c = some ⟨toks, stack, .val n as a '"' (v ++ [c])⟩ := by
      simp only [P.step, l, hc.1, hc.2.1, hc.2.2.1, s]; rfl
    rw [P.read, hst]; simp only [Option.bind_some]
    rw [ih _ (fun x hx => h x (by simp [hx]))]; simp

theorem step_some {p q : P} {c : Char} {cs : Str} (h : p.step c = some q) : p.read (c :: cs) = q.read cs := by rw [P.read, h]; rfl

theorem read_attr (toks : List Tok) (stack : List Str) (n : Str) (as : List (Str × Str)) (a v : Str) (ha : Name a) (hv : Plain v) (hn : a ∉ as.map Prod.fst) :
    (P.mk toks stack (.attrs n as)).read (attr a v) = some ⟨toks, stack, .aend n (as ++ [(a, v)])⟩ := by
  obtain ⟨c, cs, e, hc, hcs⟩ := ha
  obtain ⟨l, s, g, sl, eq, -⟩ := nameChar_facts (nameStart_char hc)
  have h1 : (P.mk toks stack (.attrs n as)).step c = some ⟨toks, stack, .aname n as [c]⟩ := by simp [P.step, l, s, g, sl, hc]
  subst e
  unfold attr
  simp only [List.cons_append, List.append_assoc]
  rw [step_some h1, read_append, read_aname _ _ _ _ _ _ hcs]
  simp only [Option.bind_some]
  have h2 : ∀ b : Str, (P.mk toks stack (.aname n as b)).step '=' = some ⟨toks, stack, .aval n as b⟩ := fun _ => rfl
  have h3 : ∀ b : Str, (P.mk toks stack (.aval n as b)).step '"' = some ⟨toks, stack, .val n as b '"' []⟩ := fun _ => rfl
  have e1 : "=\"".toList = ['=', '"'] := rfl
  have e2 : "\"".toList = ['"'] := rfl
  rw [e1, e2]
  simp only [List.cons_append, List.nil_append]
  rw [step_some (h2 _), step_some (h3 _), read_append, read_val _ _ _ _ _ _ _ hv]
  simp only [Option.bind_some, List.nil_append]
  have h4 : (P.mk toks stack (.val n as (c :: cs) '"' v)).step '"' = some ⟨toks, stack, .aend n (as ++ [(c :: cs, v)])⟩ := by
    have : as.any (fun x => x.1 == c :: cs) = false := by
      rw [List.any_eq_false]
      intro x hx hh
      exact hn (List.mem_map.2 ⟨x, hx, by simpa using hh⟩)
    simp only [P.step, P.value, this]; rfl
  rw [step_some h4]; rfl

theorem read_attrs (toks : List Tok) (stack : List Str) (n : Str) (bs as : List (Str × Str)) (hv : ∀ a ∈ bs, Name a.1 ∧ Plain a.2) (hn : ((as ++ bs).map Prod.fst).Nodup) :
    (P.mk toks stack (.aend n as)).read (bs.flatMap (fun a => ' ' :: attr a.1 a.2)) = some ⟨toks, stack, .aend n (as ++ bs)⟩ := by
  induction bs generalizing as with
  | nil => simp [P.read]
  | cons b bs ih =>
    have h1 : (P.mk toks stack (.aend n as)).step ' ' = some ⟨toks, stack, .attrs n as⟩ := rfl
    rw [List.flatMap_cons, List.cons_append, step_some h1, read_append, read_attr _ _ _ _ _ _ (hv b (by simp)).1 (hv b (by simp)).2]
    · simp only [Option.bind_some]
      rw [ih (as ++ [(b.1, b.2)]) (fun a ha => hv a (by simp [ha])) (by simpa using hn)]
      simp
    · intro hm
      rw [List.map_append, List.map_cons, List.nodup_append] at hn
      exact hn.2.2 _ hm _ (by simp) rfl

/-- What reading a `<` behind the text `t` does. -/
theorem read_lt (toks : List Tok) (stack : List Str) (t : Str) (h : blank t = true) : (P.mk toks stack (.text t)).step '<' = some ⟨toks, stack, .lt⟩ := by
  have l : legal '<' = true := by decide
  simp [P.step, l, h]

theorem read_lt_text (toks : List Tok) (stack : List Str) (t : Str) (h : blank t = false) (hs : stack ≠ []) :
    (P.mk toks stack (.text t)).step '<' = some ⟨toks ++ [.text t], stack, .lt⟩ := by
  have l : legal '<' = true := by decide
  simp [P.step, l, h, hs]

theorem read_openTag (toks : List Tok) (stack : List Str) (t n : Str) (bs : List (Str × Str)) (ht : blank t = true) (hs : stack ≠ [] ∨ toks = [])
    (hn : Name n) (hb : bs ≠ []) (hv : ∀ a ∈ bs, Name a.1 ∧ Plain a.2) (hd : (bs.map Prod.fst).Nodup) :
    (P.mk toks stack (.text t)).read (openTag n bs) = some ⟨toks ++ [.start n bs], n :: stack, .text ['\n']⟩ := by
  obtain ⟨c, cs, e, hc, hcs⟩ := hn
  obtain ⟨l, s, g, sl, eq, qu⟩ := nameChar_facts (nameStart_char hc)
  have h1 : (P.mk toks stack .lt).step c = some ⟨toks, stack, .name [c]⟩ := by simp [P.step, l, sl, qu, hc]
  subst e
  unfold openTag
  simp only [List.cons_append, List.append_assoc]
  rw [step_some (read_lt _ _ _ ht), step_some h1, read_append, read_name _ _ _ _ hcs]
  simp only [Option.bind_some, List.cons_append, List.nil_append]
  cases bs with
  | nil => exact absurd rfl hb
  | cons b bs =>
    have h2 : (P.mk toks stack (.name (c :: cs))).step ' ' = some ⟨toks, stack, .attrs (c :: cs) []⟩ := rfl
    rw [List.flatMap_cons, List.cons_append, List.cons_append, step_some h2, List.append_assoc, read_append, read_attr _ _ _ _ _ _ (hv b (by simp)).1 (hv b (by simp)).2 (by simp)]
    simp only [Option.bind_some]
    rw [read_append, read_attrs _ _ _ _ _ (fun a ha => hv a (by simp [ha])) (by simpa using hd)]
    simp only [Option.bind_some]
    have e1 : ">\n".toList = ['>', '\n'] := rfl
    rw [e1]
    have h3 : ∀ as, (P.mk toks stack (.aend (c :: cs) as)).step '>' = some ⟨toks ++ [.start (c :: cs) as], (c :: cs) :: stack, .text []⟩ := by
      intro as
      have l : legal '>' = true := by decide
      have sp : isSpace '>' = false := by decide
      have : ¬ (stack = [] ∧ toks ≠ []) := by rintro ⟨h, h'⟩; rcases hs with hs | hs <;> contradiction
      simp only [P.step, l, sp, P.open, if_neg this]; rfl
    have h4 : ∀ ts st, (P.mk ts st (.text [])).step '\n' = some ⟨ts, st, .text ['\n']⟩ := fun _ _ => rfl
    rw [step_some (h3 _), step_some (h4 _ _)]
    rfl

theorem read_closeTag_aux (toks : List Tok) (stack : List Str) (n : Str) (hn : Name n) :
    (P.mk toks (n :: stack) .lt).read ('/' :: n ++ ">\n".toList) = some ⟨toks ++ [.stop n], stack, .text ['\n']⟩ := by
  obtain ⟨c, cs, e, hc, hcs⟩ := hn
  have h1 : (P.mk toks (n :: stack) .lt).step '/' = some ⟨toks, n :: stack, .cname []⟩ := rfl
  rw [List.cons_append, step_some h1, read_append, read_cname]
  · simp only [Option.bind_some, List.nil_append]
    have e1 : ">\n".toList = ['>', '\n'] := rfl
    rw [e1]
    have h3 : (P.mk toks (n :: stack) (.cname n)).step '>' = some ⟨toks ++ [.stop n], stack, .text []⟩ := by
      have l : legal '>' = true := by decide
      simp only [P.step, l, P.close]; simp
    have h4 : ∀ ts st, (P.mk ts st (.text [])).step '\n' = some ⟨ts, st, .text ['\n']⟩ := fun _ _ => rfl
    rw [step_some h3, step_some (h4 _ _)]; rfl
  · intro x hx
    subst e
    rcases List.mem_cons.1 hx with rfl | hx
    · exact nameStart_char hc
    · exact hcs x hx

theorem read_closeTag (toks : List Tok) (stack : List Str) (t n : Str) (ht : blank t = true) (hn : Name n) :
    (P.mk toks (n :: stack) (.text t)).read (closeTag n) = some ⟨toks ++ [.stop n], stack, .text ['\n']⟩ := by
  have e : closeTag n = '<' :: ('/' :: n ++ ">\n".toList) := rfl
  rw [e, step_some (read_lt _ _ _ ht)]
  exact read_closeTag_aux _ _ _ hn

theorem read_closeTag_text (toks : List Tok) (stack : List Str) (t n : Str) (ht : blank t = false) (hn : Name n) :
    (P.mk toks (n :: stack) (.text t)).read (closeTag n) = some ⟨toks ++ [.text t, .stop n], stack, .text ['\n']⟩ := by
  have e : closeTag n = '<' :: ('/' :: n ++ ">\n".toList) := rfl
  rw [e, step_some (read_lt_text _ _ _ ht (by simp))]
  rw [read_closeTag_aux _ _ _ hn]; simp

/-- Text: no `<`, no `&`, no control characters but white space, no `]]>`. -/
theorem read_text (toks : List Tok) (stack : List Str) (t cs : Str) (h : ∀ c ∈ cs, legal c = true ∧ c ≠ '<' ∧ c ≠ '&') (hb : ¬ "]]>".toList <:+: t ++ cs) :
    (P.mk toks stack (.text t)).read cs = some ⟨toks, stack, .text (t ++ cs)⟩ := by
  induction cs generalizing t with
  | nil => simp [P.read]
  | cons c cs ih =>
    obtain ⟨l, h1, h2⟩ := h c (by simp)
    have h3 : ¬ (c = '>' ∧ "]]".toList <:+ t) := by
      rintro ⟨rfl, u, hu⟩
      apply hb
      refine ⟨u, cs, ?_⟩
      rw [← hu]
      have : "]]>".toList = "]]".toList ++ ['>'] := rfl
      rw [this]; simp
    have hst : (P.mk toks stack (.text t)).step c = some ⟨toks, stack, .text (t ++ [c])⟩ := by
      simp only [P.step, l, h1, h2, if_neg h3]; rfl
    rw [step_some hst, ih _ (fun x hx => h x (by simp [hx])) (by simpa using hb)]
    simp

theorem names : Name "testsuites".toList ∧ Name "testsuite".toList ∧ Name "testcase".toList ∧ Name "failure".toList ∧ Name "id".toList ∧ Name "name".toList ∧
    Name "tests".toList ∧ Name "failures".toList ∧ Name "time".toList ∧ Name "message".toList ∧ Name "type".toList := by
  refine ⟨?_, ?_, ?_, ?_, ?_, ?_, ?_, ?_, ?_, ?_, ?_⟩ <;> exact ⟨_, _, rfl, by decide, by decide⟩

theorem Plain.append {a b : Str} (ha : Plain a) (hb : Plain b) : Plain (a ++ b) := by
  intro c hc
  rcases List.mem_append.1 hc with h | h
  · exact ha c h
  · exact hb c h

theorem plain_digits (n : Nat) : Plain (Nat.toDigits 10 n) := by
  intro c hc
  have := Nat.isDigit_of_mem_toDigits (by decide) (by decide) hc
  unfold Char.isDigit at this
  simp only [Bool.and_eq_true, decide_eq_true_eq, UInt32.le_iff_toNat_le] at this
  have h : 48 ≤ c.toNat ∧ c.toNat ≤ 57 := this
  refine ⟨?_, ?_, ?_, by omega⟩ <;> (intro e; subst e; exact absurd h (by decide))

theorem statusWord_eq (s : Status) : statusWord s = statusDesc s := by cases s <;> rfl

theorem decimal_eq (n : Int) : decimal n = showInt n := by
  cases n with
  | ofNat n => simp [decimal, showInt]
  | negSucc n => simp [decimal, showInt, Int.negSucc_lt_zero, Int.natAbs]

theorem plain_int (n : Int) : Plain (showInt n) := by
  unfold showInt
  apply Plain.append
  · split
    · intro c hc; simp at hc; subst hc; decide
    · intro c hc; simp at hc
  · exact plain_digits _

theorem plain_status (s : Status) : Plain (statusDesc s) := by
  cases s <;> (unfold Plain statusDesc; decide)

theorem plain_dot : Plain ".".toList := by unfold Plain; decide

theorem infix_split {p a b : Str} {x : Char} (hx : x ∉ p) (h : p <:+: a ++ x :: b) : p <:+: a ∨ p <:+: b := by
  obtain ⟨u, v, h⟩ := h
  rw [List.append_assoc] at h
  rcases List.append_eq_append_iff.1 h with ⟨c, hc, hd⟩ | ⟨c, hc, hd⟩
  · -- a = u ++ c, p ++ v = c ++ x :: b
    rcases List.append_eq_append_iff.1 hd with ⟨d, he, hf⟩ | ⟨d, he, hf⟩
    · left; exact ⟨u, d, by rw [hc, he]; simp⟩
    · -- p = c ++ d, x :: b = d ++ v
      cases d with
      | nil => left; exact ⟨u, [], by rw [hc, he]; simp⟩
      | cons y ys =>
        simp only [List.cons_append, List.cons.injEq] at hf
        exact absurd (by rw [he, hf.1]; simp) hx
  · -- u = a ++ c, x :: b = c ++ (p ++ v)
    cases c with
    | nil =>
      cases p with
      | nil => right; exact ⟨[], b, by simp⟩
      | cons y ys => simp only [List.nil_append, List.cons_append, List.cons.injEq] at hd; exact absurd (by rw [hd.1]; simp) hx
    | cons y ys =>
      simp only [List.cons_append, List.cons.injEq] at hd
      right; exact ⟨ys, v, by rw [hd.2]; simp⟩

theorem cdata_none {s : Str} (h : '>' ∉ s) : ¬ "]]>".toList <:+: s := fun hi => h (hi.subset (by decide))

/-- The text of a failure element is text. -/
theorem failText_ok (c : Tc) (line : Int) (hd : Plain c.failDesc) (hf : Plain c.failFile) (bd : ¬ "]]>".toList <:+: c.failDesc) (bf : ¬ "]]>".toList <:+: c.failFile) :
    (∀ x ∈ failText c line, legal x = true ∧ x ≠ '<' ∧ x ≠ '&') ∧ ¬ "]]>".toList <:+: '\n' :: failText c line ∧ blank ('\n' :: failText c line) = false := by
  have pl : ∀ s, Plain s → ∀ x ∈ s, legal x = true ∧ x ≠ '<' ∧ x ≠ '&' := fun s hs x hx => ⟨(plain_facts (hs x hx)).1, (hs x hx).2.2.1, (hs x hx).2.1⟩
  refine ⟨?_, ?_, ?_⟩
  · intro x hx
    unfold failText at hx
    simp only [List.mem_append] at hx
    rcases hx with ((((h | h) | h) | h) | h) | h
    · exact pl _ hd x h
    · revert x; decide
    · exact pl _ hf x h
    · revert x; decide
    · exact pl _ (plain_int line) x h
    · revert x; decide
  · intro h
    have e : '\n' :: failText c line = [] ++ '\n' :: (c.failDesc ++ '\n' :: ("File:".toList ++ ' ' :: (c.failFile ++ '\n' :: ("Line:".toList ++ ' ' :: (showInt line ++ '\n' :: []))))) := by
      unfold failText
      have e1 : "\nFile: ".toList = '\n' :: ("File:".toList ++ [' ']) := rfl
      have e2 : "\nLine: ".toList = '\n' :: ("Line:".toList ++ [' ']) := rfl
      have e3 : "\n".toList = ['\n'] := rfl
      rw [e1, e2, e3]; simp
    rw [e] at h
    have n1 : '\n' ∉ "]]>".toList := by decide
    have n2 : ' ' ∉ "]]>".toList := by decide
    have dg : '>' ∉ showInt line := by
      intro hm
      unfold showInt at hm
      rcases List.mem_append.1 hm with h | h
      · split at h <;> simp at h
      · exact absurd (Nat.isDigit_of_mem_toDigits (by decide) (by decide) h) (by decide)
    rcases infix_split n1 h with h | h
    · exact cdata_none (by simp) h
    rcases infix_split n1 h with h | h
    · exact bd h
    rcases infix_split n2 h with h | h
    · exact cdata_none (by decide) h
    rcases infix_split n1 h with h | h
    · exact bf h
    rcases infix_split n2 h with h | h
    · exact cdata_none (by decide) h
    rcases infix_split n1 h with h | h
    · exact cdata_none dg h
    · exact cdata_none (by simp) h
  · unfold blank
    rw [List.all_eq_false]
    refine ⟨'F', ?_, by decide⟩
    unfold failText
    have : 'F' ∈ "\nFile: ".toList := by decide
    simp only [List.mem_cons, List.mem_append]
    tauto

end Falcon.Fut.Xml
