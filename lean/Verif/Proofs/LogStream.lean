import Verif.Spec.LogStream
/- Proofs about the text of log lines. -/
namespace Falcon.LogStream
open Falcon.Log (Str Msg levelToString)

theorem acts_append (o : OS) (a b : List Act) : o.acts (a ++ b) = (o.acts a).acts b := by
  simp [OS.acts, List.foldl_append]

/-- The text a `<<` produces on a plain stream with width 0. -/
theorem act_str {o : OS} (h : o.Plain) (s : Str) : o.act (.str s) = { o with text := o.text ++ s } := by
  obtain ⟨h1, h2, h3⟩ := h
  cases o; simp_all [OS.act, OS.put]

theorem act_int {o : OS} (h : o.Plain) (n : Int) : o.act (.int n) = { o with text := o.text ++ dec n } := by
  obtain ⟨h1, h2, h3⟩ := h
  cases o; simp_all [OS.act, OS.put, intText]

/-- Two digits. -/
def two (n : Nat) : Str := [Nat.digitChar (n / 10), Nat.digitChar (n % 10)]

theorem pad_two {n : Nat} (h : n < 100) :
    List.replicate (2 - (dec (n : Int)).length) '0' ++ dec (n : Int) = two n := by
  have e : dec (n : Int) = Nat.toDigits 10 n := by simp [dec]
  rw [e]
  by_cases hn : n < 10
  · rw [Nat.toDigits_of_lt_base hn, two]
    have : n / 10 = 0 := by omega
    have h2 : n % 10 = n := by omega
    rw [this, h2]; rfl
  · rw [Nat.toDigits_of_base_le (by omega) (by omega), Nat.toDigits_of_lt_base (by omega), two]; rfl

def padded (n : Nat) : List Act := [.setfill '0', .setw 2, .int n]

theorem acts_padded {o : OS} (h : o.Plain) {n : Nat} (hn : n < 100) :
    o.acts (padded n) = { o with text := o.text ++ two n, fill := '0' } := by
  obtain ⟨h1, h2, h3⟩ := h
  have := pad_two hn
  cases o; simp_all [OS.acts, padded, OS.act, OS.put, intText]

/-- The date text. -/
def dateText (t : Tm) : Str :=
  dec t.year ++ ['-'] ++ two t.mon ++ ['-'] ++ two t.day ++ [' '] ++ two t.hour ++ [':'] ++ two t.min ++ [':'] ++ two t.sec ++ [' ']

theorem Tm.Valid.small {t : Tm} (h : t.Valid) : t.Small := by
  simp only [Tm.Valid, Tm.Small] at *; omega

def pl (x : Str) (f : Char) : OS := { text := x, fill := f }

theorem plain_iff {o : OS} : o.Plain ↔ o = pl o.text o.fill := by
  cases o; simp [OS.Plain, pl]

theorem pl_plain (x : Str) (f : Char) : (pl x f).Plain := ⟨rfl, rfl, rfl⟩

theorem pl_str (x : Str) (f : Char) (s : Str) : (pl x f).acts [.str s] = pl (x ++ s) f := by
  simp [OS.acts, act_str (pl_plain x f)]; rfl

theorem pl_int (x : Str) (f : Char) (n : Int) : (pl x f).acts [.int n] = pl (x ++ dec n) f := by
  simp [OS.acts, act_int (pl_plain x f)]; rfl

theorem pl_padded (x : Str) (f : Char) {n : Nat} (hn : n < 100) : (pl x f).acts (padded n) = pl (x ++ two n) '0' := by
  rw [acts_padded (pl_plain x f) hn]; rfl

theorem pl_setw0 (x : Str) (f : Char) : (pl x f).acts [.setw 0] = pl x f := rfl

theorem acts_date {o : OS} (h : o.Plain) {t : Tm} (ht : t.Small) :
    o.acts (dateActs t) = { o with text := o.text ++ dateText t, fill := '0' } := by
  obtain ⟨h1, h2, h3, h4, h5⟩ := ht
  have e : ({ o with text := o.text ++ dateText t, fill := '0' } : OS) = pl (o.text ++ dateText t) '0' := by
    obtain ⟨p1, p2, p3⟩ := h; cases o; simp_all [pl]
  rw [e, plain_iff.1 h]
  have e2 : dateActs t = [.int t.year] ++ [.str ['-']] ++ padded t.mon ++ [.str ['-']] ++ padded t.day ++ [.str [' ']]
    ++ padded t.hour ++ [.str [':']] ++ padded t.min ++ [.str [':']] ++ padded t.sec ++ [.str [' ']] ++ [.setw 0] := rfl
  rw [e2]
  simp only [acts_append]
  rw [pl_int, pl_str, pl_padded _ _ h1, pl_str, pl_padded _ _ h2, pl_str, pl_padded _ _ h3, pl_str, pl_padded _ _ h4, pl_str, pl_padded _ _ h5, pl_str, pl_setw0]
  simp [dateText, pl]

/-- The text after the date. -/
def bodyText (sep : Char) (m : Msg) : Str :=
  ['['] ++ levelToString m.level ++ [']', ' '] ++ (if m.cat = [] then [] else ['('] ++ m.cat ++ [')', ' '])
  ++ fileShown sep m.file ++ [':'] ++ dec m.line ++ [' '] ++ m.text ++ ['\n']

theorem acts_body {o : OS} (h : o.Plain) (sep : Char) (m : Msg) :
    o.acts (bodyActs sep m) = { o with text := o.text ++ bodyText sep m } := by
  have key : ∀ (as : List Act) (o : OS), o.Plain → (∀ a ∈ as, (∃ s, a = .str s) ∨ ∃ n, a = .int n) →
      o.acts as = { o with text := o.text ++ (as.map fun a => match a with | .str s => s | .int n => dec n | _ => []).flatten } := by
    intro as
    induction as with
    | nil => intro o _ _; simp [OS.acts]
    | cons a as ih =>
      intro o ho ha
      have hr := fun b hb => ha b (List.mem_cons_of_mem _ hb)
      rcases ha a List.mem_cons_self with ⟨s, rfl⟩ | ⟨n, rfl⟩
      · have := ih (o.act (.str s)) (by rw [act_str ho]; exact ho) hr
        simp only [OS.acts, List.foldl_cons] at this ⊢
        rw [this, act_str ho]; simp
      · have := ih (o.act (.int n)) (by rw [act_int ho]; exact ho) hr
        simp only [OS.acts, List.foldl_cons] at this ⊢
        rw [this, act_int ho]; simp
  rw [key _ _ h]
  · congr 2
    unfold bodyActs bodyText
    by_cases hc : m.cat = [] <;> simp [hc]
  · intro a ha
    unfold bodyActs at ha
    have str : ∀ {l : List Str} {a : Act}, a ∈ l.map Act.str → (∃ s, a = .str s) ∨ ∃ n, a = .int n := by
      intro l a h; obtain ⟨s, -, rfl⟩ := List.mem_map.1 h; exact .inl ⟨s, rfl⟩
    rcases List.mem_append.1 ha with ha | ha
    · rcases List.mem_append.1 ha with ha | ha
      · exact str (l := [['['], levelToString m.level, [']', ' ']]) (by simpa using ha)
      · split at ha
        · cases ha
        · exact str (l := [['('], m.cat, [')', ' ']]) (by simpa using ha)
    · rcases List.mem_append.1 (show a ∈ [Act.str (fileShown sep m.file), .str [':']] ++ [.int m.line, .str [' '], .str m.text, .str ['\n']] from ha) with ha | ha
      · exact str (l := [fileShown sep m.file, [':']]) (by simpa using ha)
      · rcases List.mem_cons.1 ha with rfl | ha
        · exact .inr ⟨_, rfl⟩
        · exact str (l := [[' '], m.text, ['\n']]) (by simpa using ha)

/-- The whole line. -/
def lineText (sep : Char) (t : Tm) (m : Msg) : Str := dateText t ++ bodyText sep m

theorem onMessage_eq {o : OS} (h : o.Plain) {t : Tm} (ht : t.Small) (sep : Char) (m : Msg) :
    onMessage sep o t m = { o with text := o.text ++ lineText sep t m, fill := '0' } := by
  unfold onMessage msgActs
  rw [acts_append, acts_date h ht]
  have hp : ({ o with text := o.text ++ dateText t, fill := '0' } : OS).Plain := h
  rw [acts_body hp]
  simp [lineText]

/-! Digits -/

theorem dec_nat (n : Nat) : dec (n : Int) = Nat.toDigits 10 n := by simp [dec]

theorem four {y : Int} (h1 : 1000 ≤ y) (h2 : y ≤ 9999) :
    dec y = [Nat.digitChar (y.toNat / 1000), Nat.digitChar (y.toNat / 100 % 10), Nat.digitChar (y.toNat / 10 % 10), Nat.digitChar (y.toNat % 10)] := by
  have e : dec y = Nat.toDigits 10 y.toNat := by simp [dec]; omega
  rw [e]
  generalize hn : y.toNat = n
  rw [Nat.toDigits_of_base_le (by omega) (by omega), Nat.toDigits_of_base_le (by omega) (by omega), Nat.toDigits_of_base_le (by omega) (by omega),
    Nat.toDigits_of_lt_base (by omega)]
  have : n / 10 / 10 = n / 100 := by omega
  have h3 : n / 100 / 10 = n / 1000 := by omega
  simp [this, h3]

theorem dateText_length {t : Tm} (h : t.Valid) : (dateText t).length = 20 := by
  simp [dateText, four h.1 h.2.1, two]

theorem digit_lt {a b : Nat} (ha : a < 10) (hb : b < 10) : Nat.digitChar a < Nat.digitChar b ↔ a < b := by
  have : ∀ a : Fin 10, ∀ b : Fin 10, Nat.digitChar a < Nat.digitChar b ↔ a.1 < b.1 := by decide
  exact this ⟨a, ha⟩ ⟨b, hb⟩

theorem digit_inj {a b : Nat} (ha : a < 10) (hb : b < 10) : Nat.digitChar a = Nat.digitChar b ↔ a = b := by
  have : ∀ a : Fin 10, ∀ b : Fin 10, Nat.digitChar a = Nat.digitChar b ↔ a.1 = b.1 := by decide
  exact this ⟨a, ha⟩ ⟨b, hb⟩

theorem two_lt {a b : Nat} (ha : a < 100) (hb : b < 100) (r s : Str) : two a ++ r < two b ++ s ↔ a < b ∨ a = b ∧ r < s := by
  simp only [two, List.cons_append, List.nil_append, List.cons_lt_cons_iff]
  rw [digit_lt (by omega) (by omega), digit_inj (by omega) (by omega), digit_lt (by omega) (by omega), digit_inj (by omega) (by omega)]
  by_cases h : r < s <;> simp only [h, and_true, and_false, or_false] <;> omega

theorem one_lt (c : Char) (r s : Str) : [c] ++ r < [c] ++ s ↔ r < s := by
  simp

theorem four_lt {a b : Int} (ha : 1000 ≤ a) (ha' : a ≤ 9999) (hb : 1000 ≤ b) (hb' : b ≤ 9999) (r s : Str) :
    dec a ++ r < dec b ++ s ↔ a < b ∨ a = b ∧ r < s := by
  rw [four ha ha', four hb hb']
  simp only [List.cons_append, List.nil_append, List.cons_lt_cons_iff]
  rw [digit_lt (by omega) (by omega), digit_inj (by omega) (by omega), digit_lt (by omega) (by omega), digit_inj (by omega) (by omega),
    digit_lt (by omega) (by omega), digit_inj (by omega) (by omega), digit_lt (by omega) (by omega), digit_inj (by omega) (by omega)]
  by_cases h : r < s <;> simp only [h, and_true, and_false, or_false] <;> omega

theorem date_lt {a b : Tm} (ha : a.Valid) (hb : b.Valid) : dateText a < dateText b ↔ a.before b := by
  obtain ⟨h1, h2, h3, h4, h5, h6, h7, h8, h9⟩ := ha
  obtain ⟨g1, g2, g3, g4, g5, g6, g7, g8, g9⟩ := hb
  unfold dateText
  simp only [List.append_assoc]
  rw [four_lt h1 h2 g1 g2, one_lt, two_lt (by omega) (by omega), one_lt, two_lt (by omega) (by omega), one_lt, two_lt (by omega) (by omega), one_lt,
    two_lt (by omega) (by omega), one_lt, two_lt (by omega) (by omega)]
  simp only [Tm.before]
  have : ¬ ([' '] : Str) < [' '] := by decide
  simp [this]

/-! The reader -/

theorem cut_append {c : Char} {s r : Str} (h : c ∉ s) : cut c (s ++ c :: r) = some (s, r) := by
  induction s with
  | nil => simp [cut]
  | cons x xs ih =>
    have hx : x ≠ c := fun e => h (e ▸ List.mem_cons_self)
    have := ih (fun hm => h (List.mem_cons_of_mem _ hm))
    simp [cut, hx, this]

theorem isDigit_dec {c : Char} {n : Nat} (h : c ∈ Nat.toDigits 10 n) : c.isDigit = true :=
  Nat.isDigit_of_mem_toDigits (by omega) (by omega) h

theorem space_not_dec (n : Int) : ' ' ∉ dec n := by
  intro h
  unfold dec at h
  split at h
  · rcases List.mem_cons.1 h with e | e
    · cases e
    · have := isDigit_dec e; exact absurd this (by decide)
  · have := isDigit_dec h; exact absurd this (by decide)

theorem newline_not_dec (n : Int) : '\n' ∉ dec n := by
  intro h
  unfold dec at h
  split at h
  · rcases List.mem_cons.1 h with e | e
    · cases e
    · have := isDigit_dec e; exact absurd this (by decide)
  · have := isDigit_dec h; exact absurd this (by decide)

theorem readInt_dec (n : Int) : readInt (dec n) = n := by
  unfold dec
  split
  · simp only [readInt, Nat.ofDigitChars_ten_toDigits]; omega
  · rename_i h
    have hne : ∀ s, Nat.toDigits 10 n.toNat ≠ '-' :: s := by
      intro s e
      have : '-' ∈ Nat.toDigits 10 n.toNat := by rw [e]; exact List.mem_cons_self
      exact absurd (isDigit_dec this) (by decide)
    have : readInt (Nat.toDigits 10 n.toNat) = (Nat.ofDigitChars 10 (Nat.toDigits 10 n.toNat) 0 : Int) := by
      generalize hg : Nat.toDigits 10 n.toNat = g at hne
      unfold readInt
      split
      · exact absurd rfl (hne _)
      · rfl
    rw [this, Nat.ofDigitChars_ten_toDigits]; omega

theorem levelToString_four (l : Int) : ∃ a b c d, levelToString l = [a, b, c, d] := by
  unfold levelToString; repeat' split
  all_goals exact ⟨_, _, _, _, rfl⟩

theorem readTail_body (date level cat f txt : Str) (n : Int) (hf : ':' ∉ f) :
    readTail date level cat (f ++ [':'] ++ dec n ++ [' '] ++ txt ++ ['\n']) =
      some { date := date, level := level, cat := cat, file := f, line := n, text := txt } := by
  unfold readTail
  have e : f ++ [':'] ++ dec n ++ [' '] ++ txt ++ ['\n'] = f ++ ':' :: (dec n ++ ' ' :: (txt ++ ['\n'])) := by simp
  rw [e, cut_append hf]
  simp only [Option.bind_some]
  rw [cut_append (space_not_dec n)]
  simp [readInt_dec]

theorem readLine_eq (sep : Char) (t : Tm) (m : Msg) (ht : t.Valid) (hcat : ')' ∉ m.cat)
    (hf : ':' ∉ fileShown sep m.file) (hp : ∀ r, fileShown sep m.file ≠ '(' :: r) :
    readLine (lineText sep t m) = some { date := dateText t, level := levelToString m.level, cat := m.cat, file := fileShown sep m.file, line := m.line, text := m.text } := by
  obtain ⟨a, b, c, d, hl⟩ := levelToString_four m.level
  have hlen := dateText_length ht
  unfold readLine lineText
  have e1 : (dateText t ++ bodyText sep m).take 20 = dateText t := by rw [← hlen]; simp
  have e2 : (dateText t ++ bodyText sep m).drop 20 = bodyText sep m := by rw [← hlen]; simp
  simp only [e1, e2]
  unfold bodyText
  rw [hl]
  by_cases hc : m.cat = []
  · simp only [hc, if_true, List.append_nil, List.cons_append, List.nil_append]
    generalize hr : fileShown sep m.file ++ [':'] ++ dec m.line ++ [' '] ++ m.text ++ ['\n'] = r
    have hr' := readTail_body (dateText t) [a, b, c, d] [] (fileShown sep m.file) m.text m.line hf
    rw [hr] at hr'
    have hne : ∀ x, r ≠ '(' :: x := by
      intro x e
      rw [← hr] at e
      cases hfs : fileShown sep m.file with
      | nil => rw [hfs] at e; simp at e
      | cons y ys => rw [hfs] at e; simp at e; exact hp ys (by rw [hfs, e.1])
    split
    · rename_i x hx; exact absurd rfl (hne _)
    · exact hr'
  · simp only [hc, if_false, List.cons_append, List.nil_append, List.append_assoc]
    rw [cut_append hcat]
    simp only [Option.bind_some, List.drop_succ_cons, List.drop_zero]
    have hr' := readTail_body (dateText t) [a, b, c, d] m.cat (fileShown sep m.file) m.text m.line hf
    simpa using hr'

/-! File names -/

theorem rfind_none {c : Char} {s : Str} : rfind c s = none ↔ c ∉ s := by
  induction s with
  | nil => simp [rfind]
  | cons x xs ih =>
    unfold rfind
    cases h : rfind c xs with
    | some p =>
      have : c ∈ xs := Classical.byContradiction fun hc => by rw [ih.2 hc] at h; cases h
      simp [this]
    | none =>
      have := ih.1 h
      by_cases hx : x = c
      · simp [hx]
      · simp [hx, this]; exact fun e => hx e.symm

theorem rfind_some {c : Char} {s : Str} {p : Nat} (h : rfind c s = some p) : s = s.take p ++ c :: s.drop (p + 1) ∧ c ∉ s.drop (p + 1) := by
  induction s generalizing p with
  | nil => simp [rfind] at h
  | cons x xs ih =>
    unfold rfind at h
    cases hr : rfind c xs with
    | some q =>
      rw [hr] at h; simp at h; subst h
      obtain ⟨h1, h2⟩ := ih hr
      refine ⟨?_, by simpa using h2⟩
      rw [List.take_succ_cons, List.drop_succ_cons, List.cons_append, ← h1]
    | none =>
      rw [hr] at h; simp only at h
      split at h
      · rename_i hx
        cases h
        refine ⟨by simp [hx], by simpa using rfind_none.1 hr⟩
      · cases h

end Falcon.LogStream
