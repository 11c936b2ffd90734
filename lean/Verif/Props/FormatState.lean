import Verif.Props.LogStream
/-
C105 for streams in any format state: exactly what a message leaves behind, and exactly when the line is the usual one.
-/
namespace Falcon.LogStream
open Falcon.Log (Str Msg levelToString)

/-- `s` in a field of width `w`: filled up with `c` on the right if the stream adjusts to the left, else on the left. -/
def inField (left : Bool) (c : Char) (w : Nat) (s : Str) : Str :=
  if left then s ++ List.replicate (w - s.length) c else List.replicate (w - s.length) c ++ s

/-- Two-character field of the date. -/
def twoOn (hex left : Bool) (n : Nat) : Str := inField left '0' 2 (intText hex n)

/-- What follows the date. -/
def bodyOn (hex : Bool) (sep : Char) (m : Msg) : Str :=
  ['['] ++ levelName m.level ++ [']', ' '] ++ (if m.cat = [] then [] else ['('] ++ m.cat ++ [')', ' ']) ++
  fileShown sep m.file ++ [':'] ++ intText hex m.line ++ [' '] ++ m.text ++ ['\n']

/-- What a message adds to a stream whose base is hexadecimal or not and which adjusts to the left or not; `y` is what shows
the year. -/
def lineOn (hex left : Bool) (sep : Char) (y : Str) (t : Tm) (m : Msg) : Str :=
  y ++ (['-'] ++ (twoOn hex left t.mon ++ (['-'] ++ (twoOn hex left t.day ++ ([' '] ++ (twoOn hex left t.hour ++ ([':'] ++
  (twoOn hex left t.min ++ ([':'] ++ (twoOn hex left t.sec ++ ([' '] ++ bodyOn hex sep m)))))))))))

attribute [local irreducible] intText

/-- a stream between two `<<`: nothing pending -/
def at0 (x : Str) (h l : Bool) (f : Char) : OS := { text := x, isHex := h, left := l, fill := f, width := 0 }

theorem at0_str (x : Str) (h l : Bool) (f : Char) (s : Str) : (at0 x h l f).acts [.str s] = at0 (x ++ s) h l f := by
  cases l <;> simp [at0, OS.acts, OS.act, OS.put]
theorem at0_int (x : Str) (h l : Bool) (f : Char) (n : Int) : (at0 x h l f).acts [.int n] = at0 (x ++ intText h n) h l f := by
  simp only [at0, OS.acts, List.foldl_cons, List.foldl_nil, OS.act, OS.put]
  generalize intText h n = s
  cases l <;> simp
theorem at0_padded (x : Str) (h l : Bool) (f : Char) (n : Nat) :
    (at0 x h l f).acts (padded n) = at0 (x ++ twoOn h l n) h l '0' := by
  cases l <;> simp [at0, padded, OS.acts, OS.act, OS.put, inField, twoOn]
theorem at0_setw (x : Str) (h l : Bool) (f : Char) : (at0 x h l f).acts [.setw 0] = at0 x h l f := rfl
theorem first_int (o : OS) (n : Int) :
    o.acts [.int n] = at0 (o.text ++ inField o.left o.fill o.width (intText o.isHex n)) o.isHex o.left o.fill := by
  cases o; simp only [OS.acts, List.foldl_cons, List.foldl_nil, OS.act, OS.put, at0, inField]

theorem onMessage_any (sep : Char) (o : OS) (t : Tm) (m : Msg) :
    onMessage sep o t m = { o with text := o.text ++ lineOn o.isHex o.left sep (inField o.left o.fill o.width (intText o.isHex t.year)) t m,
                                   fill := '0', width := 0 } := by
  have hl : levelToString m.level = levelName m.level := levelToString_name m.level
  have e2 : dateActs t = [.int t.year] ++ [.str ['-']] ++ padded t.mon ++ [.str ['-']] ++ padded t.day ++ [.str [' ']]
    ++ padded t.hour ++ [.str [':']] ++ padded t.min ++ [.str [':']] ++ padded t.sec ++ [.str [' ']] ++ [.setw 0] := rfl
  have e3 : bodyActs sep m = [.str ['[']] ++ [.str (levelToString m.level)] ++ [.str [']', ' ']] ++
      (if m.cat = [] then [] else [.str ['(']] ++ [.str m.cat] ++ [.str [')', ' ']]) ++
      [.str (fileShown sep m.file)] ++ [.str [':']] ++ [.int m.line] ++ [.str [' ']] ++ [.str m.text] ++ [.str ['\n']] := by
    unfold bodyActs; split <;> rfl
  have e4 : ∀ (x : Str) (h l : Bool) (f : Char), (at0 x h l f).acts (if m.cat = [] then [] else [.str ['(']] ++ [.str m.cat] ++ [.str [')', ' ']]) =
      at0 (x ++ (if m.cat = [] then [] else ['('] ++ m.cat ++ [')', ' '])) h l f := by
    intro x h l f
    split
    · simp [OS.acts]
    · simp only [acts_append, at0_str, List.append_assoc]
  unfold onMessage msgActs
  rw [e2, e3]
  simp only [acts_append]
  rw [first_int o]
  simp only [at0_str, at0_int, at0_padded, at0_setw, e4, hl]
  simp only [at0, lineOn, bodyOn, List.append_assoc]

/-- C105 (exact, 1): whatever the format state of the stream, a message leaves base and adjustment alone, sets the fill
character to '0' and the width to 0. So the state is left as it was exactly if it already was like that. -/
theorem C105_state_exact_partial (sep : Char) (o : OS) (t : Tm) (m : Msg) :
    let o' := onMessage sep o t m
    o'.isHex = o.isHex ∧ o'.left = o.left ∧ o'.fill = '0' ∧ o'.width = 0 ∧
    ((o'.isHex = o.isHex ∧ o'.left = o.left ∧ o'.fill = o.fill ∧ o'.width = o.width) ↔ o.fill = '0' ∧ o.width = 0) := by
  rw [onMessage_any]
  refine ⟨rfl, rfl, rfl, rfl, ⟨fun h => ⟨h.2.2.1.symm, h.2.2.2.symm⟩, fun h => ⟨rfl, rfl, h.1.symm, h.2.symm⟩⟩⟩

/-- C105 (exact, 2): the line on a stream in any state: the year in the field that was pending, two-character fields for the
rest of the date, the line number, in the base of the stream. -/
theorem C105_line_exact_partial (sep : Char) (o : OS) (t : Tm) (m : Msg) :
    (onMessage sep o t m).text = o.text ++ lineOn o.isHex o.left sep (inField o.left o.fill o.width (intText o.isHex t.year)) t m := by
  rw [onMessage_any]

/-! when it is the usual line -/

theorem field_dec {n : Nat} (hn : n < 100) : twoOn false false n = two n := by
  simp only [twoOn, inField, intText]; exact pad_two hn

theorem field_left {n : Nat} (hn : n < 100) :
    twoOn false true n = if n < 10 then [Nat.digitChar n, '0'] else two n := by
  have e : intText false (n : Int) = Nat.toDigits 10 n := by simp [intText, dec]
  rw [twoOn, e]
  simp only [inField, if_true]
  split
  · rename_i h; rw [Nat.toDigits_of_lt_base h]; rfl
  · rename_i h
    rw [Nat.toDigits_of_base_le (by omega) (by omega), Nat.toDigits_of_lt_base (by omega), two]; rfl

theorem field_left_eq {n : Nat} (hn : n < 100) : twoOn false true n = two n ↔ n = 0 ∨ 10 ≤ n := by
  rw [field_left hn]
  split
  · rename_i h
    have h1 : n / 10 = 0 := by omega
    have h2 : n % 10 = n := by omega
    simp only [two, h1, h2, List.cons.injEq, and_true]
    have : '0' = Nat.digitChar 0 := rfl
    rw [this, digit_inj h (by omega), digit_inj (by omega) h]
    omega
  · rename_i h; simp; omega

theorem field_length (hex left : Bool) {n : Nat} (hn : n < 100) : (twoOn hex left n).length = 2 := by
  have hl : 1 ≤ (intText hex (n : Int)).length ∧ (intText hex (n : Int)).length ≤ 2 := by
    cases hex with
    | false =>
      have e : intText false (n : Int) = Nat.toDigits 10 n := by simp [intText, dec]
      rw [e]
      exact ⟨Nat.length_toDigits_pos, (Nat.length_toDigits_le_iff (by omega) (by omega)).2 (by omega)⟩
    | true =>
      have e : intText true (n : Int) = Nat.toDigits 16 n := by
        have : ((n : Int) % 4294967296).toNat = n := by omega
        simp [intText, this]
      rw [e]
      exact ⟨Nat.length_toDigits_pos, (Nat.length_toDigits_le_iff (by omega) (by omega)).2 (by omega)⟩
  unfold twoOn inField
  generalize intText hex (n : Int) = s at *
  cases left <;> simp <;> omega

theorem hexdigit_inj {a b : Nat} (ha : a < 16) (hb : b < 16) : Nat.digitChar a = Nat.digitChar b ↔ a = b := by
  have : ∀ a : Fin 16, ∀ b : Fin 16, Nat.digitChar a = Nat.digitChar b ↔ a.1 = b.1 := by decide
  exact this ⟨a, ha⟩ ⟨b, hb⟩

theorem hex_year {y : Int} (h1 : 1000 ≤ y) (h2 : y ≤ 9999) :
    (y < 4096 ∧ intText true y = [Nat.digitChar (y.toNat / 256), Nat.digitChar (y.toNat / 16 % 16), Nat.digitChar (y.toNat % 16)]) ∨
    (4096 ≤ y ∧ intText true y = [Nat.digitChar (y.toNat / 4096), Nat.digitChar (y.toNat / 256 % 16), Nat.digitChar (y.toNat / 16 % 16), Nat.digitChar (y.toNat % 16)]) := by
  have e : intText true y = Nat.toDigits 16 y.toNat := by
    have : (y % 4294967296).toNat = y.toNat := by omega
    simp [intText, this]
  rw [e]
  by_cases h : y < 4096
  · refine .inl ⟨h, ?_⟩
    generalize hn : y.toNat = n
    rw [Nat.toDigits_of_base_le (by omega) (by omega), Nat.toDigits_of_base_le (by omega) (by omega), Nat.toDigits_of_lt_base (by omega)]
    have h1 : n / 16 / 16 = n / 256 := by omega
    simp [h1]
  · refine .inr ⟨by omega, ?_⟩
    generalize hn : y.toNat = n
    rw [Nat.toDigits_of_base_le (by omega) (by omega), Nat.toDigits_of_base_le (by omega) (by omega), Nat.toDigits_of_base_le (by omega) (by omega), Nat.toDigits_of_lt_base (by omega)]
    have h1 : n / 16 / 16 = n / 256 := by omega
    have h2 : n / 256 / 16 = n / 4096 := by omega
    simp [h1, h2]

theorem digit_ne_dash {a : Nat} (h : a < 16) : Nat.digitChar a ≠ '-' := by
  have : ∀ a : Fin 16, Nat.digitChar a ≠ '-' := by decide
  exact this ⟨a, h⟩

theorem parts {n : Nat} (h1 : 1000 ≤ n) (h2 : n < 4096) : n = 256 * (n / 256) + 16 * (n / 16 % 16) + n % 16 ∧
    n = 1000 * (n / 1000) + 100 * (n / 100 % 10) + 10 * (n / 10 % 10) + n % 10 ∧
    n / 1000 ≤ 4 ∧ 1 ≤ n / 1000 ∧ n / 100 % 10 ≤ 9 ∧ n / 10 % 10 ≤ 9 := by omega

/-- the year in hexadecimal, in whatever field, is never the year in decimal followed by a dash -/
theorem hex_year_differs (left : Bool) (c : Char) (w : Nat) {y : Int} (h1 : 1000 ≤ y) (h2 : y ≤ 9999) (r r' : Str) :
    inField left c w (intText true y) ++ ['-'] ++ r ≠ dec y ++ ['-'] ++ r' := by
  intro he
  rw [four h1 h2] at he
  have d1 : y.toNat / 1000 < 16 := by omega
  have d2 : y.toNat / 100 % 10 < 16 := by omega
  have d3 : y.toNat / 10 % 10 < 16 := by omega
  have d4 : y.toNat % 10 < 16 := by omega
  have k1 := digit_ne_dash d1
  have k2 := digit_ne_dash d2
  have k3 := digit_ne_dash d3
  have k4 := digit_ne_dash d4
  have j3 := digit_ne_dash (a := y.toNat / 16 % 16) (by omega)
  have j4 := digit_ne_dash (a := y.toNat % 16) (by omega)
  rcases hex_year h1 h2 with ⟨hy, e⟩ | ⟨hy, e⟩
  · have j2 := digit_ne_dash (a := y.toNat / 256) (by omega)
    rw [e] at he
    simp only [inField, List.length_cons, List.length_nil] at he
    have hcases : w ≤ 3 ∨ w = 4 ∨ ∃ k, w = k + 5 := by
      rcases Nat.lt_or_ge w 5 with h | h
      · omega
      · exact .inr (.inr ⟨w - 5, by omega⟩)
    rcases hcases with hw | rfl | ⟨k, rfl⟩
    · have : w - (0 + 1 + 1 + 1) = 0 := by omega
      rw [this] at he
      cases left <;> simp at he <;> exact k4 he.2.2.2.1.symm
    · cases left with
      | true =>
        simp at he
        obtain ⟨a1, a2, a3, -⟩ := he
        rw [hexdigit_inj (by omega) d1] at a1
        rw [hexdigit_inj (by omega) d2] at a2
        rw [hexdigit_inj (by omega) d3] at a3
        omega
      | false =>
        simp at he
        obtain ⟨a0, a1, a2, a3, -⟩ := he
        rw [hexdigit_inj (by omega) d2] at a1
        rw [hexdigit_inj (by omega) d3] at a2
        rw [hexdigit_inj (by omega) d4] at a3
        clear a0 k1 k2 k3 k4 j2 j3 j4 e d1 d2 d3 d4
        generalize hn : y.toNat = n at *
        have hn1 : 1000 ≤ n ∧ n < 4096 := by omega
        clear hn h1 h2 hy
        obtain ⟨e1, e2, e3⟩ := parts hn1.1 hn1.2
        rw [a1, a2, a3] at e1
        generalize n / 1000 = A at *
        generalize n / 100 % 10 = B at *
        generalize n / 10 % 10 = C at *
        generalize n % 10 = D at *
        clear a1 a2 a3
        omega
    · have hk : k + 5 - (0 + 1 + 1 + 1) = k + 2 := by omega
      rw [hk] at he
      simp only [List.replicate_succ] at he
      cases left with
      | true =>
        simp at he
        obtain ⟨a1, a2, a3, -⟩ := he
        rw [hexdigit_inj (by omega) d1] at a1
        rw [hexdigit_inj (by omega) d2] at a2
        rw [hexdigit_inj (by omega) d3] at a3
        omega
      | false =>
        match k with
        | 0 => simp at he; try exact j4 he.2.2.2.2.1
        | 1 => simp [List.replicate_succ] at he; try exact j3 he.2.2.2.2.1
        | 2 => simp [List.replicate_succ] at he; try exact j2 he.2.2.2.2.1
        | k + 3 =>
          simp [List.replicate_succ] at he
          obtain ⟨a1, a2, a3, a4, a5, -⟩ := he
          exact k1 (a1 ▸ a5)
  · have j1 := digit_ne_dash (a := y.toNat / 4096) (by omega)
    have j2 := digit_ne_dash (a := y.toNat / 256 % 16) (by omega)
    rw [e] at he
    simp only [inField, List.length_cons, List.length_nil] at he
    have hcases : w ≤ 4 ∨ ∃ k, w = k + 5 := by
      rcases Nat.lt_or_ge w 5 with h | h
      · omega
      · exact .inr ⟨w - 5, by omega⟩
    rcases hcases with hw | ⟨k, rfl⟩
    · have : w - (0 + 1 + 1 + 1 + 1) = 0 := by omega
      rw [this] at he
      cases left <;> simp at he <;>
      · obtain ⟨a1, a2, a3, a4, -⟩ := he
        rw [hexdigit_inj (by omega) d1] at a1
        rw [hexdigit_inj (by omega) d2] at a2
        rw [hexdigit_inj (by omega) d3] at a3
        rw [hexdigit_inj (by omega) d4] at a4
        omega
    · have hk : k + 5 - (0 + 1 + 1 + 1 + 1) = k + 1 := by omega
      rw [hk] at he
      simp only [List.replicate_succ] at he
      cases left with
      | true =>
        simp at he
        obtain ⟨a1, a2, a3, a4, -⟩ := he
        rw [hexdigit_inj (by omega) d1] at a1
        rw [hexdigit_inj (by omega) d2] at a2
        rw [hexdigit_inj (by omega) d3] at a3
        rw [hexdigit_inj (by omega) d4] at a4
        omega
      | false =>
        match k with
        | 0 => simp at he; try exact j4 he.2.2.2.2.1
        | 1 => simp [List.replicate_succ] at he; try exact j3 he.2.2.2.2.1
        | 2 => simp [List.replicate_succ] at he; try exact j2 he.2.2.2.2.1
        | 3 => simp [List.replicate_succ] at he; try exact j1 he.2.2.2.2.1
        | k + 4 =>
          simp [List.replicate_succ] at he
          obtain ⟨a1, a2, a3, a4, a5, -⟩ := he
          exact k1 (a1 ▸ a5)

/-- C105 (exact, 3): for times with a four digit year, the line is the one a fresh stream gets exactly if the stream is in
decimal, no width beyond 4 is pending, and it does not adjust to the left or no field of the date below the year is
from 1 to 9. -/
theorem C105_line_same_partial (sep : Char) (o : OS) (t : Tm) (m : Msg) (ht : t.Valid) :
    (onMessage sep o t m).text = o.text ++ (onMessage sep {} t m).text ↔
      o.isHex = false ∧ o.width ≤ 4 ∧ (o.left = false ∨ ∀ n ∈ [t.mon, t.day, t.hour, t.min, t.sec], n = 0 ∨ 10 ≤ n) := by
  have hs := ht.small
  obtain ⟨h1, h2, -⟩ := ht
  obtain ⟨s1, s2, s3, s4, s5⟩ := hs
  rw [onMessage_any, onMessage_any]
  simp only [List.nil_append, List.append_cancel_left_eq]
  have hf : inField false ' ' 0 (intText false t.year) = dec t.year := by simp [inField, intText]
  rw [hf]
  cases hx : o.isHex with
  | true =>
    refine ⟨fun he => absurd he ?_, fun h => nomatch h.1⟩
    unfold lineOn
    have := hex_year_differs o.left o.fill o.width h1 h2
    intro he
    rw [← List.append_assoc, ← List.append_assoc (dec t.year)] at he
    exact this _ _ he
  | false =>
    have hfour : (intText false t.year).length = 4 := by simp only [intText]; rw [if_neg (by decide), four h1 h2]; rfl
    have hly : ∀ w, (inField o.left o.fill w (intText false t.year)).length = max w 4 := by
      intro w; unfold inField; cases o.left <;> simp [hfour] <;> omega
    constructor
    · intro he
      have hlen := congrArg List.length he
      simp only [lineOn, bodyOn, List.length_append, hly, field_length false _ s1, field_length false _ s2, field_length false _ s3,
        field_length false _ s4, field_length false _ s5] at hlen
      have hd : (dec t.year).length = 4 := by rw [four h1 h2]; rfl
      rw [hd] at hlen
      have hw : o.width ≤ 4 := by omega
      refine ⟨rfl, hw, ?_⟩
      have hyear : inField o.left o.fill o.width (intText false t.year) = dec t.year := by
        have : o.width - (intText false t.year).length = 0 := by omega
        unfold inField; rw [this]; cases o.left <;> simp [intText]
      rw [hyear] at he
      cases hl : o.left with
      | false => exact .inl rfl
      | true =>
        refine .inr ?_
        rw [hl] at he
        unfold lineOn at he
        rw [List.append_cancel_left_eq, List.append_cancel_left_eq] at he
        obtain ⟨a1, he⟩ := List.append_inj he (by rw [field_length _ _ s1, field_length _ _ s1])
        rw [List.append_cancel_left_eq] at he
        obtain ⟨a2, he⟩ := List.append_inj he (by rw [field_length _ _ s2, field_length _ _ s2])
        rw [List.append_cancel_left_eq] at he
        obtain ⟨a3, he⟩ := List.append_inj he (by rw [field_length _ _ s3, field_length _ _ s3])
        rw [List.append_cancel_left_eq] at he
        obtain ⟨a4, he⟩ := List.append_inj he (by rw [field_length _ _ s4, field_length _ _ s4])
        rw [List.append_cancel_left_eq] at he
        obtain ⟨a5, he⟩ := List.append_inj he (by rw [field_length _ _ s5, field_length _ _ s5])
        rw [field_dec s1, field_left_eq s1] at a1
        rw [field_dec s2, field_left_eq s2] at a2
        rw [field_dec s3, field_left_eq s3] at a3
        rw [field_dec s4, field_left_eq s4] at a4
        rw [field_dec s5, field_left_eq s5] at a5
        intro n hn
        simp only [List.mem_cons, List.not_mem_nil, or_false] at hn
        rcases hn with rfl | rfl | rfl | rfl | rfl <;> assumption
    · rintro ⟨-, hw, hl⟩
      have hyear : inField o.left o.fill o.width (intText false t.year) = dec t.year := by
        have : o.width - (intText false t.year).length = 0 := by omega
        unfold inField; rw [this]; cases o.left <;> simp [intText]
      rw [hyear]
      cases hl' : o.left with
      | false => rfl
      | true =>
        rw [hl'] at hl
        rcases hl with hl | hl
        · cases hl
        · have g : ∀ n, n ∈ [t.mon, t.day, t.hour, t.min, t.sec] → n < 100 → twoOn false true n = twoOn false false n :=
            fun n hn hlt => by rw [field_dec hlt, field_left_eq hlt]; exact hl n hn
          unfold lineOn
          rw [g t.mon (by simp) s1, g t.day (by simp) s2, g t.hour (by simp) s3, g t.min (by simp) s4, g t.sec (by simp) s5]

/-- a stream that adjusts to the left, with a pending width: 12 October, 10:00:30 -/
example : String.ofList (onMessage '/' { left := true, width := 3, fill := '*' } ⟨2019, 10, 12, 10, 0, 30⟩ ⟨['a', '/', 'b'], 7, 3, [], ['x']⟩).text =
    "2019-10-12 10:00:30 [INFO] b:7 x\n" := by decide +kernel
/-- one that adjusts to the left, at 9:05 -/
example : String.ofList (onMessage '/' { left := true, width := 6, fill := '*' } ⟨2019, 3, 2, 9, 5, 0⟩ ⟨['b'], 7, 3, [], ['x']⟩).text =
    "2019**-30-20 90:50:00 [INFO] b:7 x\n" := by decide +kernel

end Falcon.LogStream
