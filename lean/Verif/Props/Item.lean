import Verif.Spec.Item
/- C71-C78, C107: items and handlers. -/
namespace Falcon.Item

/-! ### C71 -/

theorem signExtend_val {w : Nat} (hw : w ≤ 64) (n : BitVec w) : (n.signExtend 64).toInt = n.toInt :=
  BitVec.toInt_signExtend_of_le hw

theorem setWidth_val {w : Nat} (hw : w < 64) (n : BitVec w) : (n.setWidth 64).toInt = (n.toNat : Int) := by
  have h1 : n.toNat < 2 ^ w := n.isLt
  have h2 : 2 ^ w ≤ 2 ^ 63 := Nat.pow_le_pow_right (by omega) (by omega)
  have e : (n.setWidth 64).toNat = n.toNat := by
    rw [BitVec.toNat_setWidth]; exact Nat.mod_eq_of_lt (by omega)
  rw [BitVec.toInt_eq_toNat_of_lt (by rw [e]; omega), e]

/-- C71: an item made from an integer of any supported type up to 64 bits signed gives that value
back; toBool says whether it is non-zero. Whatever happens to the heap in between. -/
theorem C71_int_items (cs : Bool) (big : Obj → Int) (h h' : Heap) (v : Val) (n : Int) (hv : v.intVal cs = some n)
    (hfit : -9223372036854775808 ≤ n ∧ n ≤ 9223372036854775807) :
    toInt big h' (make cs h v).1 = .ok n ∧ toBool h' (make cs h v).1 = .ok (decide (n ≠ 0)) ∧ (make cs h v).2 = h := by
  have key : ∀ w : BitVec 64, w.toInt = n → toInt big h' ⟨.word w, .int⟩ = .ok n ∧ toBool h' ⟨.word w, .int⟩ = .ok (decide (n ≠ 0)) := by
    intro w hw; subst hw; exact ⟨rfl, rfl⟩
  cases v with
  | char c =>
    simp only [Val.intVal, Option.some.injEq] at hv
    cases cs
    · obtain ⟨a, b⟩ := key (c.setWidth 64) (by rw [setWidth_val (by omega)]; simpa using hv)
      exact ⟨a, b, rfl⟩
    · obtain ⟨a, b⟩ := key (c.signExtend 64) (by rw [signExtend_val (by omega)]; simpa using hv)
      exact ⟨a, b, rfl⟩
  | byte c =>
    simp only [Val.intVal, Option.some.injEq] at hv
    obtain ⟨a, b⟩ := key (c.setWidth 64) (by rw [setWidth_val (by omega)]; exact hv)
    exact ⟨a, b, rfl⟩
  | int32 c =>
    simp only [Val.intVal, Option.some.injEq] at hv
    obtain ⟨a, b⟩ := key (c.signExtend 64) (by rw [signExtend_val (by omega)]; exact hv)
    exact ⟨a, b, rfl⟩
  | uint32 c =>
    simp only [Val.intVal, Option.some.injEq] at hv
    obtain ⟨a, b⟩ := key (c.setWidth 64) (by rw [setWidth_val (by omega)]; exact hv)
    exact ⟨a, b, rfl⟩
  | int64 c =>
    simp only [Val.intVal, Option.some.injEq] at hv
    obtain ⟨a, b⟩ := key c hv
    exact ⟨a, b, rfl⟩
  | uint64 c =>
    simp only [Val.intVal, Option.some.injEq] at hv
    obtain ⟨a, b⟩ := key c (by rw [BitVec.toInt_eq_toNat_of_lt (by omega)]; exact hv)
    exact ⟨a, b, rfl⟩
  | _ => cases hv

/-- C71: the 64 bits of an unsigned value are kept, and toBool is right for all of them. -/
theorem C71_uint64_bits (cs : Bool) (h h' : Heap) (c : BitVec 64) :
    (make cs h (.uint64 c)).1.data = .word c ∧ toBool h' (make cs h (.uint64 c)).1 = .ok (decide (c ≠ 0)) := by
  refine ⟨rfl, ?_⟩
  show Except.ok (decide (c.toInt ≠ 0)) = _
  congr 1
  rw [decide_eq_decide]
  constructor
  · intro h e; apply h; rw [e]; rfl
  · intro h e; apply h; exact BitVec.eq_of_toInt_eq (by rw [e]; rfl)

/-- Non-vacuity: the char -1, the largest uint32, the smallest int64. -/
example : Val.intVal true (.char 255) = some (-1) ∧ Val.intVal false (.char 255) = some 255 ∧ Val.intVal true (.uint32 4294967295) = some 4294967295 ∧
    Val.intVal true (.int64 9223372036854775808) = some (-9223372036854775808) := by decide

/-! ### C72 -/

/-- C72 does not hold: the item for 2^64-1 prints "-1". -/
theorem C72_uint64_text_refuted (fl : Dbl → Str) (big : Obj → Str) :
    toString fl big {} (make true {} (.uint64 18446744073709551615)).1 = .ok ['-', '1'] := by rfl

theorem toDigits_head (n : Nat) : (Nat.toDigits 10 n).head? = some '0' → Nat.toDigits 10 n = ['0'] := by
  induction n using Nat.strongRecOn with
  | ind n ih =>
    rw [Nat.toDigits_eq_if (by omega)]
    by_cases h : n < 10
    · rw [if_pos h]
      intro hh
      rw [List.head?_cons] at hh
      rw [Option.some.inj hh]
    · rw [if_neg h]
      intro hh
      have hne : Nat.toDigits 10 (n / 10) ≠ [] := Nat.toDigits_ne_nil
      have h2 : (Nat.toDigits 10 (n / 10)).head? = some '0' := by
        cases hd : Nat.toDigits 10 (n / 10) with
        | nil => exact absurd hd hne
        | cons a l => rw [hd] at hh; simpa using hh
      have h3 := ih (n / 10) (by omega) h2
      have h4 : Nat.ofDigitChars 10 (Nat.toDigits 10 (n / 10)) 0 = n / 10 := Nat.ofDigitChars_ten_toDigits
      rw [h3] at h4
      have h5 : Nat.ofDigitChars 10 ['0'] 0 = 0 := by decide
      omega

theorem dec_isDecimal (n : Int) : IsDecimal n (dec n) := by
  have hd : ∀ n, ∀ c ∈ Nat.toDigits 10 n, c.isDigit = true := fun n _ hc => Nat.isDigit_of_mem_toDigits (by omega) (by omega) hc
  have hv : ∀ n, (Nat.toDigits 10 n).foldl (fun v c => 10 * v + (c.toNat - '0'.toNat)) 0 = n := fun n => Nat.ofDigitChars_ten_toDigits
  unfold dec
  by_cases h : n < 0
  · rw [if_pos h]
    exact ⟨_, by rw [if_pos h], Nat.toDigits_ne_nil, hd _, toDigits_head _, hv _⟩
  · rw [if_neg h]
    exact ⟨_, by rw [if_neg h], Nat.toDigits_ne_nil, hd _, toDigits_head _, by rw [hv]; omega⟩

theorem text_aux (cs : Bool) (fl : Dbl → Str) (big : Obj → Str) (h h' : Heap) (v : Val) (n : Int) (hv : v.intVal cs = some n) :
    toString fl big h' (make cs h v).1 = .ok (dec (if n ≤ 9223372036854775807 then n else n - 18446744073709551616)) := by
  have key : ∀ w : BitVec 64, w.toInt = (if n ≤ 9223372036854775807 then n else n - 18446744073709551616) →
      toString fl big h' ⟨.word w, .int⟩ = .ok (dec (if n ≤ 9223372036854775807 then n else n - 18446744073709551616)) := by
    intro w hw; rw [← hw]; rfl
  cases v with
  | char c =>
    simp only [Val.intVal, Option.some.injEq] at hv
    cases cs
    · refine key (c.setWidth 64) ?_
      have := c.isLt
      rw [setWidth_val (by omega)]; simp at hv; rw [if_pos (by omega)]; exact hv
    · refine key (c.signExtend 64) ?_
      have := BitVec.toInt_lt (x := c)
      rw [signExtend_val (by omega)]; simp at hv; rw [if_pos (by omega)]; exact hv
  | byte c =>
    simp only [Val.intVal, Option.some.injEq] at hv
    refine key (c.setWidth 64) ?_
    have := c.isLt
    rw [setWidth_val (by omega), if_pos (by omega)]; exact hv
  | int32 c =>
    simp only [Val.intVal, Option.some.injEq] at hv
    refine key (c.signExtend 64) ?_
    have := BitVec.toInt_lt (x := c)
    rw [signExtend_val (by omega), if_pos (by omega)]; exact hv
  | uint32 c =>
    simp only [Val.intVal, Option.some.injEq] at hv
    refine key (c.setWidth 64) ?_
    have := c.isLt
    rw [setWidth_val (by omega), if_pos (by omega)]; exact hv
  | int64 c =>
    simp only [Val.intVal, Option.some.injEq] at hv
    refine key c ?_
    have := BitVec.toInt_lt (x := c)
    rw [if_pos (by omega)]; exact hv
  | uint64 c =>
    simp only [Val.intVal, Option.some.injEq] at hv
    refine key c ?_
    have := c.isLt
    rw [BitVec.toInt_eq_toNat_cond]
    by_cases hc : 2 * c.toNat < 2 ^ 64
    · rw [if_pos hc, if_pos (by omega)]; exact hv
    · rw [if_neg hc, if_neg (by omega)]; omega
  | _ => cases hv

/-- C72 (what holds, exactly): every integer item prints the decimal representation of its value,
except unsigned 64 bit values from 2^63 on, which print their value minus 2^64. -/
theorem C72_text_partial (cs : Bool) (fl : Dbl → Str) (big : Obj → Str) (h h' : Heap) (v : Val) (n : Int) (hv : v.intVal cs = some n) :
    ∃ t, toString fl big h' (make cs h v).1 = .ok t ∧
      IsDecimal (if n ≤ 9223372036854775807 then n else n - 18446744073709551616) t := ⟨_, text_aux cs fl big h h' v n hv, dec_isDecimal _⟩

/-- C72: the decimal representation determines the number. -/
theorem C72_decimal_unique_partial (a b : Int) (t : Str) (ha : IsDecimal a t) (hb : IsDecimal b t) : a = b := by
  obtain ⟨d1, e1, -, g1, -, v1⟩ := ha
  obtain ⟨d2, e2, -, g2, -, v2⟩ := hb
  have dash : ∀ ds : Str, (∀ c ∈ ds, c.isDigit = true) → ∀ r, ds ≠ '-' :: r := by
    intro ds hd r e; have := hd '-' (by rw [e]; exact List.mem_cons_self); revert this; decide
  by_cases h1 : a < 0 <;> by_cases h2 : b < 0
  · rw [if_pos h1] at e1; rw [if_pos h2, e1] at e2; injection e2 with _ e; subst e; omega
  · rw [if_pos h1] at e1; rw [if_neg h2, e1] at e2; exact absurd e2.symm (dash d2 g2 d1)
  · rw [if_neg h1] at e1; rw [if_pos h2, e1] at e2; exact absurd e2 (dash d1 g1 d2)
  · rw [if_neg h1] at e1; rw [if_neg h2, e1] at e2; subst e2; omega

example : IsDecimal (-120) ['-', '1', '2', '0'] := ⟨['1', '2', '0'], by decide, by decide, by decide, by decide, by decide⟩

/-! ### C74 -/


theorem dropWhile_append_of {p : Char → Bool} {a b : Str} (ha : ∀ c ∈ a, p c = true) (hb : ∀ c r, b = c :: r → p c = false) :
    (a ++ b).dropWhile p = b := by
  induction a with
  | nil =>
    cases b with
    | nil => rfl
    | cons c r => simp [hb c r rfl]
  | cons x xs ih =>
    simp only [List.cons_append, List.dropWhile_cons, ha x List.mem_cons_self, if_true]
    exact ih (fun c hc => ha c (List.mem_cons_of_mem _ hc))

theorem takeWhile_append_of {p : Char → Bool} {a b : Str} (ha : ∀ c ∈ a, p c = true) (hb : ∀ c r, b = c :: r → p c = false) :
    (a ++ b).takeWhile p = a := by
  induction a with
  | nil =>
    cases b with
    | nil => rfl
    | cons c r => simp [hb c r rfl]
  | cons x xs ih =>
    simp only [List.cons_append, List.takeWhile_cons, ha x List.mem_cons_self, if_true]
    rw [ih (fun c hc => ha c (List.mem_cons_of_mem _ hc))]

theorem isSpace_iff {c : Char} : isSpace c = true ↔ c ∈ [' ', '\t', '\n', '\x0b', '\x0c', '\r'] := by
  simp [isSpace]

theorem digit_props {c : Char} (h : c.isDigit = true) : isSpace c = false ∧ c ≠ '-' ∧ c ≠ '+' := by
  refine ⟨?_, ?_, ?_⟩
  · cases hs : isSpace c with
    | false => rfl
    | true =>
      simp only [isSpace, decide_eq_true_eq] at hs
      rcases hs with rfl | rfl | rfl | rfl | rfl | rfl <;> exact absurd h (by decide)
  · rintro rfl; exact absurd h (by decide)
  · rintro rfl; exact absurd h (by decide)

theorem splitSign_digit {ds rest : Str} (hne : ds ≠ []) (hd : ∀ c ∈ ds, c.isDigit = true) : splitSign (ds ++ rest) = (false, ds ++ rest) := by
  cases ds with
  | nil => exact absurd rfl hne
  | cons c r =>
    obtain ⟨-, h1, h2⟩ := digit_props (hd c List.mem_cons_self)
    simp only [List.cons_append, splitSign]
    split
    · rename_i heq; injection heq with h _; exact absurd h h1
    · rename_i heq; injection heq with h _; exact absurd h h2
    · rfl

theorem stoll_iff (s : Str) (v : Int) : stoll s = .ok v ↔ BeginsWithNumber s v := by
  constructor
  · intro h
    unfold stoll at h
    simp only at h
    split at h
    · cases h
    · rename_i hne
      split at h
      · cases h
      · rename_i hr
        have hv := Except.ok.inj h
        have hsp : s = s.takeWhile isSpace ++ s.dropWhile isSpace := (List.takeWhile_append_dropWhile).symm
        have htd := fun t : Str => (List.takeWhile_append_dropWhile (p := Char.isDigit) (l := t)).symm
        have hrest : ∀ t : Str, ∀ c r, t.dropWhile Char.isDigit = c :: r → c.isDigit = false := by
          intro t c r h
          have := List.head?_dropWhile_not Char.isDigit t
          rw [h] at this; simpa using this
        have hdig : ∀ t : Str, ∀ c ∈ t.takeWhile Char.isDigit, c.isDigit = true := fun t c hc => by
          exact List.all_eq_true.1 (List.all_takeWhile) c hc
        have hws : ∀ c ∈ s.takeWhile isSpace, c ∈ [' ', '\t', '\n', '\x0b', '\x0c', '\r'] := fun c hc => isSpace_iff.1 (List.all_eq_true.1 (List.all_takeWhile) c hc)
        generalize hg : s.dropWhile isSpace = t at *
        -- which sign
        have cases3 : (∃ r, t = '-' :: r ∧ splitSign t = (true, r)) ∨ (∃ r, t = '+' :: r ∧ splitSign t = (false, r)) ∨ splitSign t = (false, t) := by
          unfold splitSign
          split
          · exact .inl ⟨_, rfl, rfl⟩
          · exact .inr (.inl ⟨_, rfl, rfl⟩)
          · exact .inr (.inr rfl)
        rcases cases3 with ⟨r, e1, e2⟩ | ⟨r, e1, e2⟩ | e2
        · rw [e2] at hne hv hr
          refine ⟨s.takeWhile isSpace, ['-'], r.takeWhile Char.isDigit, r.dropWhile Char.isDigit, ?_, hws, by simp, hne, hdig r, hrest r, ?_, ?_⟩
          · rw [List.append_assoc _ _ (r.dropWhile _), ← htd r, List.append_assoc, List.singleton_append, ← e1]; exact hsp
          · simpa [signed] using hv.symm
          · simp only [signed, if_true] at hr hv; omega
        · rw [e2] at hne hv hr
          refine ⟨s.takeWhile isSpace, ['+'], r.takeWhile Char.isDigit, r.dropWhile Char.isDigit, ?_, hws, by simp, hne, hdig r, hrest r, ?_, ?_⟩
          · rw [List.append_assoc _ _ (r.dropWhile _), ← htd r, List.append_assoc, List.singleton_append, ← e1]; exact hsp
          · simpa [signed] using hv.symm
          · simp only [signed, Bool.false_eq_true, if_false] at hr hv; omega
        · rw [e2] at hne hv hr
          refine ⟨s.takeWhile isSpace, [], t.takeWhile Char.isDigit, t.dropWhile Char.isDigit, ?_, hws, by simp, hne, hdig t, hrest t, ?_, ?_⟩
          · rw [List.append_nil, List.append_assoc, ← htd t]; exact hsp
          · simpa [signed] using hv.symm
          · simp only [signed, Bool.false_eq_true, if_false] at hr hv; omega
  · rintro ⟨ws, sg, ds, rest, rfl, hws, hsg, hne, hd, hrest, hv, h1, h2⟩
    have hdw : (ws ++ sg ++ ds ++ rest).dropWhile isSpace = sg ++ (ds ++ rest) := by
      rw [List.append_assoc, List.append_assoc]
      refine dropWhile_append_of (fun c hc => isSpace_iff.2 (hws c hc)) ?_
      intro c r hcr
      rcases hsg with rfl | rfl | rfl
      · cases ds with
        | nil => exact absurd rfl hne
        | cons x xs =>
          simp only [List.nil_append, List.cons_append] at hcr
          injection hcr with e _; subst e
          exact (digit_props (hd x List.mem_cons_self)).1
      · simp only [List.cons_append, List.nil_append] at hcr
        injection hcr with e _; subst e; decide
      · simp only [List.cons_append, List.nil_append] at hcr
        injection hcr with e _; subst e; decide
    have htw : (ds ++ rest).takeWhile Char.isDigit = ds := takeWhile_append_of hd hrest
    unfold stoll; rw [hdw]
    rcases hsg with rfl | rfl | rfl
    · have e : splitSign ([] ++ (ds ++ rest)) = (false, ds ++ rest) := by rw [List.nil_append]; exact splitSign_digit hne hd
      simp only [e, htw, if_neg hne, signed, Bool.false_eq_true, if_false]
      simp at hv
      rw [← hv, if_neg (by omega)]
    · have e : splitSign (['+'] ++ (ds ++ rest)) = (false, ds ++ rest) := rfl
      simp only [e, htw, if_neg hne, signed, Bool.false_eq_true, if_false]
      simp at hv
      rw [← hv, if_neg (by omega)]
    · have e : splitSign (['-'] ++ (ds ++ rest)) = (true, ds ++ rest) := rfl
      simp only [e, htw, if_neg hne, signed, if_true]
      simp at hv
      rw [← hv, if_neg (by omega)]

theorem toInt_string (cs : Bool) (big : Obj → Int) (h : Heap) (s : Str) :
    toInt big (make cs h (.string s)).2 (make cs h (.string s)).1 = match stoll s with | .ok v => .ok v | .error _ => .error .terminate := by
  simp [make, Heap.alloc, toInt, Heap.deref]
  rfl

/-- C74 does not hold: a text item that is not a number brings the program down. -/
theorem C74_terminates_refuted (big : Obj → Int) :
    toInt big (make true {} (.string ['a', 'b', 'c'])).2 (make true {} (.string ['a', 'b', 'c'])).1 = .error .terminate ∧
    toInt big (make true {} (.string [])).2 (make true {} (.string [])).1 = .error .terminate := by
  refine ⟨?_, ?_⟩ <;> rw [toInt_string] <;> rfl

/-- C74 (what happens, exactly): toInt() of a text item returns iff the text begins with a number that
fits 64 bits, and then returns it; otherwise std::terminate is called. -/
theorem C74_toInt_exact_partial (cs : Bool) (big : Obj → Int) (h : Heap) (s : Str) :
    (∀ v, toInt big (make cs h (.string s)).2 (make cs h (.string s)).1 = .ok v ↔ BeginsWithNumber s v) ∧
    ((¬ ∃ v, BeginsWithNumber s v) → toInt big (make cs h (.string s)).2 (make cs h (.string s)).1 = .error .terminate) := by
  rw [toInt_string]
  constructor
  · intro v
    rw [← stoll_iff]
    cases stoll s <;> simp
  · intro hn
    cases hs : stoll s with
    | ok v => exact absurd ⟨v, (stoll_iff s v).1 hs⟩ hn
    | error e => rfl

example : BeginsWithNumber " -12x".toList (-12) :=
  ⟨[' '], ['-'], ['1', '2'], ['x'], by decide, by decide, by decide, by decide, by decide, by rintro c r ⟨⟩; decide, by decide, by decide, by decide⟩

/-! ### C73 -/

theorem dec_digits (n : Nat) : ∀ c ∈ Nat.toDigits 10 n, c.isDigit = true := fun _ hc => Nat.isDigit_of_mem_toDigits (by omega) (by omega) hc

/-- C73: int64 -> text -> int64 is the identity. -/
theorem C73_round_trip (cs : Bool) (fl : Dbl → Str) (bigS : Obj → Str) (bigI : Obj → Int) (h h' : Heap) (n : BitVec 64) :
    ∃ t, toString fl bigS h (make cs h (.int64 n)).1 = .ok t ∧
      toInt bigI (make cs h' (.string t)).2 (make cs h' (.string t)).1 = .ok n.toInt := by
  refine ⟨dec n.toInt, rfl, ?_⟩
  rw [(C74_toInt_exact_partial cs bigI h' _).1]
  have h1 := BitVec.toInt_lt (x := n)
  have h2 := BitVec.le_toInt (x := n)
  generalize n.toInt = k at *
  unfold dec
  split
  · refine ⟨[], ['-'], Nat.toDigits 10 k.natAbs, [], by simp, by simp, by simp, Nat.toDigits_ne_nil, dec_digits _, by simp, ?_, by omega, by omega⟩
    rw [Nat.ofDigitChars_ten_toDigits]; rw [if_pos rfl]; omega
  · refine ⟨[], [], Nat.toDigits 10 k.toNat, [], by simp, by simp, by simp, Nat.toDigits_ne_nil, dec_digits _, by simp, ?_, by omega, by omega⟩
    rw [Nat.ofDigitChars_ten_toDigits]; simp; omega

theorem dec_injective (a b : Int) (h : dec a = dec b) : a = b := by
  have dash : ∀ n, '-' ∉ Nat.toDigits 10 n := fun n hm => absurd (dec_digits n _ hm) (by decide)
  unfold dec at h
  split at h <;> split at h
  · injection h with _ h
    have := congrArg (fun l => Nat.ofDigitChars 10 l 0) h
    simp only [Nat.ofDigitChars_ten_toDigits] at this; omega
  · exact absurd (h ▸ List.mem_cons_self) (dash _)
  · exact absurd (h ▸ List.mem_cons_self) (dash _)
  · have := congrArg (fun l => Nat.ofDigitChars 10 l 0) h
    simp only [Nat.ofDigitChars_ten_toDigits] at this; omega

/-- C73: the texts of different integers are different. -/
theorem C73_text_injective (cs : Bool) (fl : Dbl → Str) (bigS : Obj → Str) (h h' : Heap) (a b : BitVec 64)
    (he : toString fl bigS h (make cs h (.int64 a)).1 = toString fl bigS h' (make cs h' (.int64 b)).1) : a = b := by
  have h1 : toString fl bigS h (make cs h (.int64 a)).1 = .ok (dec a.toInt) := rfl
  have h2 : toString fl bigS h' (make cs h' (.int64 b)).1 = .ok (dec b.toInt) := rfl
  rw [h1, h2] at he
  injection he with he
  exact BitVec.eq_of_toInt_eq (dec_injective _ _ he)

/-! ### C75 -/

/-- C75: text, boolean and nil items convert as documented. -/
theorem C75_conversions (cs : Bool) (fl : Dbl → Str) (bigS : Obj → Str) (bigI : Obj → Int) (h h' : Heap) :
    (∀ s, toString fl bigS (make cs h (.string s)).2 (make cs h (.string s)).1 = .ok s) ∧
    (∀ s, toBool (make cs h (.string s)).2 (make cs h (.string s)).1 = .ok (decide (s ≠ []))) ∧
    (∀ s t, '\x00' ∉ s → toString fl bigS (make cs h (.cstring (s ++ '\x00' :: t))).2 (make cs h (.cstring (s ++ '\x00' :: t))).1 = .ok s) ∧
    (toString fl bigS h' (make cs h (.bool true)).1 = .ok "true".toList ∧ toString fl bigS h' (make cs h (.bool false)).1 = .ok "false".toList) ∧
    (∀ b, toBool h' (make cs h (.bool b)).1 = .ok b ∧ toInt bigI h' (make cs h (.bool b)).1 = .ok (if b then 1 else 0)) ∧
    (toString fl bigS h' makeNil = .ok "nil".toList ∧ toInt bigI h' makeNil = .ok 0 ∧ toBool h' makeNil = .ok false) := by
  refine ⟨?_, ?_, ?_, ⟨rfl, rfl⟩, ?_, ⟨rfl, rfl, rfl⟩⟩
  · intro s; simp [make, Heap.alloc, toString, Heap.deref]; rfl
  · intro s; simp [make, Heap.alloc, toBool, Heap.deref]; rfl
  · intro s t hs
    have : (s ++ '\x00' :: t).takeWhile (· ≠ '\x00') = s :=
      takeWhile_append_of (p := fun c => decide (c ≠ '\x00')) (fun c hc => by simp; rintro rfl; exact hs hc) (by intro c r e; injection e with e _; subst e; simp)
    simp only [make, Heap.alloc, toString, Heap.deref]
    rw [this]; simp; rfl
  · intro b; exact ⟨rfl, rfl⟩

/-- C75: a BigNum item is false exactly if the number is zero. -/
theorem C75_bignum (cs : Bool) (h : Heap) (zero : Bool) :
    toBool (make cs h (.bignum zero)).2 (make cs h (.bignum zero)).1 = .ok (!zero) := by
  simp [make, Heap.alloc, toBool, Heap.deref]; rfl

/-! ### C78 -/

/-- C78: a finite double converts to the value rounded toward zero whenever that fits 64 bits, and only
then is the conversion defined; toBool is x != 0 (so NaN is true and -0.0 is false). -/
theorem C78_float_items (cs : Bool) (big : Obj → Int) (h h' : Heap) (neg : Bool) (m : Nat) (e : Int) :
    (∀ r, toInt big h' (make cs h (.numeric (.fin neg m e))).1 = .ok r ↔
      IsTrunc neg m e r ∧ -9223372036854775808 ≤ r ∧ r ≤ 9223372036854775807) ∧
    toBool h' (make cs h (.numeric (.fin neg m e))).1 = .ok (decide (m ≠ 0)) ∧
    toInt big h' (make cs h (.numeric .nan)).1 = .error (.ub .castRange) ∧
    (∀ b, toInt big h' (make cs h (.numeric (.inf b))).1 = .error (.ub .castRange)) ∧
    toBool h' (make cs h (.numeric .nan)).1 = .ok true ∧ (∀ b, toBool h' (make cs h (.numeric (.inf b))).1 = .ok true) := by
  refine ⟨?_, rfl, rfl, fun _ => rfl, rfl, fun _ => rfl⟩
  intro r
  have hd : toInt big h' (make cs h (.numeric (.fin neg m e))).1 = castInt (.fin neg m e) := rfl
  rw [hd]
  -- the magnitude
  generalize ha : (if e ≥ 0 then m * 2 ^ e.toNat else m / 2 ^ (-e).toNat) = a
  have htr : ∀ r : Int, IsTrunc neg m e r ↔ r = (if neg then -(a : Int) else a) := by
    intro r
    unfold IsTrunc
    have mag : (r.natAbs * 2 ^ (-e).toNat ≤ m * 2 ^ e.toNat ∧ m * 2 ^ e.toNat < (r.natAbs + 1) * 2 ^ (-e).toNat) ↔ r.natAbs = a := by
      by_cases he : e ≥ 0
      · rw [if_pos he] at ha
        have : (-e).toNat = 0 := by omega
        rw [this, ha]; simp; omega
      · rw [if_neg he] at ha
        have : e.toNat = 0 := by omega
        rw [this]
        have hp : 0 < 2 ^ (-e).toNat := Nat.pow_pos (by omega)
        simp only [Nat.pow_zero, Nat.mul_one]
        rw [← Nat.le_div_iff_mul_le hp, ← Nat.div_lt_iff_lt_mul hp, ha]; omega
    constructor
    · rintro ⟨h1, h2, h3, h4⟩
      have := mag.1 ⟨h1, h2⟩
      cases neg
      · have := h3 rfl; simp; omega
      · have := h4 rfl; simp; omega
    · intro hr
      have h0 : r.natAbs = a := by cases neg <;> simp at hr <;> omega
      obtain ⟨h1, h2⟩ := mag.2 h0
      refine ⟨h1, h2, ?_, ?_⟩
      · rintro rfl; simp at hr; omega
      · rintro rfl; simp at hr; omega
  rw [htr r]
  unfold castInt
  simp only [ha]
  generalize (if neg = true then -(a : Int) else (a : Int)) = k
  by_cases hh : k < -9223372036854775808 ∨ k > 9223372036854775807
  · rw [if_pos hh]
    constructor
    · intro h; cases h
    · rintro ⟨rfl, h1, h2⟩; omega
  · rw [if_neg hh]
    constructor
    · intro h; have := Except.ok.inj h; subst this; exact ⟨rfl, by omega, by omega⟩
    · rintro ⟨rfl, -, -⟩; rfl

/-- -2.75 = -11 * 2^-2 becomes -2. -/
example : IsTrunc true 11 (-2) (-2) := by simp [IsTrunc]

/-! ### C107 -/

/-- C107 does not hold: constructing an Item from a long, unsigned long (size_t), short, unsigned
short, signed char, float or char* compiles and throws. -/
theorem C107_types_refuted : ∀ t ∈ [CType.long, .ulong, .short, .ushort, .schar, .float, .mutableCstring], construct t = .error .invalidArgument := by
  intro t ht; cases t <;> first | rfl | (simp at ht; done)

/-- C107 (exactly): it throws for all types but these. -/
theorem C107_types_partial (t : CType) : construct t = .ok () ↔
    t ∈ [CType.bool, .char, .uchar, .int, .uint, .llong, .ullong, .double, .cstring, .string, .bignum] := by
  cases t <;> simp [construct, supported]

/-! ### C77 -/

/-- C77 does not hold for text and BigNum: destroying what allocate() returned is undefined, and the
allocated object is lost. -/
theorem C77_deep_refuted (h : Heap) : destroy (allocate h .string).2 .string (allocate h .string).1 = .error (.ub .badFree) ∧
    destroy (allocate h .bignum).2 .bignum (allocate h .bignum).1 = .error (.ub .badFree) ∧
    (allocate h .string).2.obj h.next = some (.str []) := by
  refine ⟨rfl, rfl, ?_⟩
  simp [allocate, Heap.alloc]

/-- C77 (what holds): for the flat handlers allocate and destroy do not touch the heap, and what they
allocate is zero. -/
theorem C77_flat_partial (big : Obj → Int) (h : Heap) (hd : Hd) (hf : hd.isFlat = true) :
    destroy (allocate h hd).2 hd (allocate h hd).1 = .ok h ∧
    toInt big h ⟨(allocate h hd).1, hd⟩ = .ok 0 ∧ toBool h ⟨(allocate h hd).1, hd⟩ = .ok false := by
  cases hd <;> first | (cases hf; done) | exact ⟨rfl, rfl, rfl⟩

/-- C77 (what holds, exactly): what a flat handler allocates is, bit for bit, what an item made from
false, from 0 or from +0.0 holds; and for nil a cleared word, whereas Item() stores an address. -/
theorem C77_default_partial (cs : Bool) (h : Heap) :
    allocate h .bool = ((make cs h (.bool false)).1.data, h) ∧ allocate h .int = ((make cs h (.int64 0)).1.data, h) ∧
    allocate h .float = ((make cs h (.numeric (.fin false 0 0))).1.data, h) ∧ allocate h .nil = ((make cs h (.int64 0)).1.data, h) ∧
    (allocate h .nil).1 ≠ makeNil.data :=
  ⟨rfl, rfl, rfl, rfl, by simp [allocate, makeNil]⟩

/-! ### C114 -/

/-- C114: different handlers have different type names, namely these. -/
theorem C114_type_names : (∀ a b : Hd, a.typeName = b.typeName → a = b) ∧
    Hd.nil.typeName = "Nil".toList ∧ Hd.bool.typeName = "Bool".toList ∧ Hd.int.typeName = "Int".toList ∧
    Hd.float.typeName = "Float".toList ∧ Hd.string.typeName = "String".toList ∧ Hd.bignum.typeName = "BigNum".toList :=
  ⟨fun a b h => by cases a <;> cases b <;> first | rfl | (exact absurd h (by decide)), rfl, rfl, rfl, rfl, rfl, rfl⟩

/-- C114: isFlat() says whether an item of that type is kept without storage of its own: constructing
an item leaves the heap alone iff its handler is flat. -/
theorem C114_flat (cs : Bool) (h : Heap) (v : Val) : (make cs h v).1.handler.isFlat = true ↔ (make cs h v).2.next = h.next := by
  cases v <;> simp [make, Hd.isFlat, Heap.alloc]

/-- C114 does not hold for isCopyFlat(): it is true for text and BigNum items, whose bitwise copy cannot
be destroyed independently. -/
theorem C114_copy_flat_refuted (cs : Bool) (t : Str) :
    (make cs {} (.string t)).1.handler.isCopyFlat = true ∧
    run cs {} [.new 0 (.string t), .copy 1 0, .del 0, .del 1] = some (.error (.ub .doubleFree)) := ⟨rfl, rfl⟩

/-- C114 (what holds): bitwise copies of flat items can be destroyed independently, in any order. -/
theorem C114_copy_flat_partial (cs : Bool) (v : Val) (h : Heap) (hf : (make cs h v).1.handler.isFlat = true) :
    (make cs h v).1.handler.isCopyFlat = true ∧ ∀ h', destroy h' (make cs h v).1.handler (make cs h v).1.data = .ok h' :=
  ⟨rfl, fun h' => by unfold destroy; rw [if_pos hf]⟩

/-! ### C76 -/

/-- Handler and data fit together; `o`: the heap objects. -/
def Fits (obj : Nat → Option Obj) (i : Item) : Prop :=
  match i.handler with
  | .nil => True
  | .bool => ∃ b, i.data = .bool b
  | .int => ∃ w, i.data = .word w
  | .float => ∃ d, i.data = .num d
  | .string => ∃ a t, i.data = .ptr a ∧ obj a = some (.str t)
  | .bignum => ∃ a z, i.data = .ptr a ∧ obj a = some (.big z)

structure Own (s : St) : Prop where
  fits  : ∀ x i, s.var x = some i → Fits s.heap.obj i
  dist  : ∀ x y i j a, s.var x = some i → s.var y = some j → ¬ i.Flat → ¬ j.Flat → i.data = .ptr a → j.data = .ptr a → x = y
  live  : ∀ a, s.heap.obj a ≠ none → ∃ x i, s.var x = some i ∧ ¬ i.Flat ∧ i.data = .ptr a
  fresh : ∀ a, s.heap.obj a ≠ none → a < s.heap.next

theorem flat_iff (i : Item) : ¬ i.Flat ↔ i.handler = .string ∨ i.handler = .bignum := by
  unfold Item.Flat
  cases i.handler <;> simp

theorem Fits.deep {obj : Nat → Option Obj} {i : Item} (h : Fits obj i) (hd : ¬ i.Flat) : ∃ a o, i.data = .ptr a ∧ obj a = some o := by
  unfold Fits at h
  rcases (flat_iff i).1 hd with e | e <;> rw [e] at h
  · obtain ⟨a, t, h1, h2⟩ := h; exact ⟨a, _, h1, h2⟩
  · obtain ⟨a, t, h1, h2⟩ := h; exact ⟨a, _, h1, h2⟩

/-- An item stays well formed if its object, if any, is still there. -/
theorem Fits.mono {obj obj' : Nat → Option Obj} {i : Item} (h : Fits obj i) (hk : ¬ i.Flat → ∀ a, i.data = .ptr a → obj' a = obj a) : Fits obj' i := by
  unfold Fits at *
  cases hh : i.handler <;> rw [hh] at h <;> simp only at h ⊢
  · exact h
  · exact h
  · exact h
  · obtain ⟨a, t, h1, h2⟩ := h
    exact ⟨a, t, h1, by rw [hk ((flat_iff i).2 (.inl hh)) a h1]; exact h2⟩
  · obtain ⟨a, t, h1, h2⟩ := h
    exact ⟨a, t, h1, by rw [hk ((flat_iff i).2 (.inr hh)) a h1]; exact h2⟩

/-- Adding a flat item in a variable that held nothing or a flat item. -/
theorem Own.setFlat {s : St} (g : Own s) (x : Nat) (i : Item) (hx : ∀ j, s.var x = some j → j.Flat) (hi : i.Flat) (hf : Fits s.heap.obj i) :
    Own (setVar s x (some i)) := by
  refine ⟨?_, ?_, ?_, g.fresh⟩
  · intro y j hy
    by_cases e : y = x
    · subst e; simp [setVar] at hy; subst hy; exact hf
    · simp [setVar, e] at hy; exact g.fits y j hy
  · intro y z j k a hy hz hj hk
    by_cases e : y = x
    · subst e; simp [setVar] at hy; subst hy; exact absurd hi hj
    · by_cases e2 : z = x
      · subst e2; simp [setVar] at hz; subst hz; exact absurd hi hk
      · simp [setVar, e] at hy; simp [setVar, e2] at hz; exact g.dist y z j k a hy hz hj hk
  · intro a ha
    obtain ⟨y, j, h1, h2, h3⟩ := g.live a ha
    refine ⟨y, j, ?_, h2, h3⟩
    have : y ≠ x := fun e => h2 (hx j (e ▸ h1))
    simp [setVar, this]; exact h1

/-- A new deep item. -/
theorem Own.setDeep {s : St} (g : Own s) (x : Nat) (hd : Hd) (o : Obj) (hx : s.var x = none) (hh : hd = .string ∨ hd = .bignum)
    (hf : Fits (s.heap.alloc o).2.obj ⟨.ptr (s.heap.alloc o).1, hd⟩) :
    Own (setVar { s with heap := (s.heap.alloc o).2 } x (some ⟨.ptr (s.heap.alloc o).1, hd⟩)) := by
  have hne : ∀ a, s.heap.obj a ≠ none → a ≠ s.heap.next := fun a h e => by have := g.fresh a h; omega
  have old : ∀ y i, s.var y = some i → ¬ i.Flat → ∀ a, i.data = .ptr a → a ≠ s.heap.next := by
    intro y i hy hi a ha
    obtain ⟨b, o, h1, h2⟩ := (g.fits y i hy).deep hi
    rw [ha] at h1; cases h1
    exact hne a (by rw [h2]; simp)
  refine ⟨?_, ?_, ?_, ?_⟩
  · intro y j hy
    by_cases e : y = x
    · subst e; simp [setVar] at hy; subst hy; exact hf
    · simp [setVar, e] at hy
      refine (g.fits y j hy).mono (fun hj a ha => ?_)
      simp [setVar, Heap.alloc, old y j hy hj a ha]
  · intro y z j k a hy hz hj hk ha hb
    by_cases e : y = x <;> by_cases e2 : z = x
    · rw [e, e2]
    · subst e; simp [setVar] at hy; simp [setVar, e2] at hz
      have := old z k hz hk a hb
      subst hy; simp [Heap.alloc] at ha; exact absurd ha.symm this
    · subst e2; simp [setVar] at hz; simp [setVar, e] at hy
      have := old y j hy hj a ha
      subst hz; simp [Heap.alloc] at hb; exact absurd hb.symm this
    · simp [setVar, e] at hy; simp [setVar, e2] at hz
      exact g.dist y z j k a hy hz hj hk ha hb
  · intro a ha
    by_cases e : a = s.heap.next
    · refine ⟨x, ⟨.ptr (s.heap.alloc o).1, hd⟩, by simp [setVar], (flat_iff _).2 hh, by simp [Heap.alloc, e]⟩
    · simp [setVar, Heap.alloc, e] at ha
      obtain ⟨y, j, h1, h2, h3⟩ := g.live a ha
      refine ⟨y, j, ?_, h2, h3⟩
      have : y ≠ x := fun e => by rw [e, hx] at h1; cases h1
      simp [setVar, this]; exact h1
  · intro a ha
    by_cases e : a = s.heap.next
    · simp [setVar, Heap.alloc, e]
    · simp [setVar, Heap.alloc, e] at ha
      have := g.fresh a ha
      simp [setVar, Heap.alloc]; omega

theorem Own.mkItem {cs : Bool} {s : St} (g : Own s) (x : Nat) (v : Val) (hx : s.var x = none) :
    Own (setVar { s with heap := (make cs s.heap v).2 } x (some (make cs s.heap v).1)) := by
  have hx' : ∀ j, s.var x = some j → j.Flat := fun j h => by rw [hx] at h; cases h
  cases v with
  | bool b => exact g.setFlat x _ hx' (by constructor <;> simp [make]) ⟨_, rfl⟩
  | char b => exact g.setFlat x _ hx' (by constructor <;> simp [make]) ⟨_, rfl⟩
  | byte b => exact g.setFlat x _ hx' (by constructor <;> simp [make]) ⟨_, rfl⟩
  | int32 b => exact g.setFlat x _ hx' (by constructor <;> simp [make]) ⟨_, rfl⟩
  | uint32 b => exact g.setFlat x _ hx' (by constructor <;> simp [make]) ⟨_, rfl⟩
  | int64 b => exact g.setFlat x _ hx' (by constructor <;> simp [make]) ⟨_, rfl⟩
  | uint64 b => exact g.setFlat x _ hx' (by constructor <;> simp [make]) ⟨_, rfl⟩
  | numeric b => exact g.setFlat x _ hx' (by constructor <;> simp [make]) ⟨_, rfl⟩
  | cstring t => exact g.setDeep x .string _ hx (.inl rfl) ⟨_, _, rfl, by simp [Heap.alloc]; rfl⟩
  | string t => exact g.setDeep x .string _ hx (.inl rfl) ⟨_, _, rfl, by simp [Heap.alloc]; rfl⟩
  | bignum t => exact g.setDeep x .bignum _ hx (.inr rfl) ⟨_, _, rfl, by simp [Heap.alloc]; rfl⟩

theorem Own.del {s : St} (g : Own s) (x : Nat) (i : Item) (hx : s.var x = some i) :
    ∃ h, destroy s.heap i.handler i.data = .ok h ∧ Own (setVar { s with heap := h } x none) := by
  by_cases hf : i.Flat
  · have hfl : i.handler.isFlat = true := by
      unfold Item.Flat at hf; cases hh : i.handler <;> simp_all [Hd.isFlat]
    refine ⟨s.heap, by simp [destroy, hfl], ?_, ?_, ?_, g.fresh⟩
    · intro y j hy
      by_cases e : y = x
      · subst e; simp [setVar] at hy
      · simp [setVar, e] at hy; exact g.fits y j hy
    · intro y z j k a hy hz
      by_cases e : y = x
      · subst e; simp [setVar] at hy
      · by_cases e2 : z = x
        · subst e2; simp [setVar] at hz
        · simp [setVar, e] at hy; simp [setVar, e2] at hz; exact g.dist y z j k a hy hz
    · intro a ha
      obtain ⟨y, j, h1, h2, h3⟩ := g.live a ha
      refine ⟨y, j, ?_, h2, h3⟩
      have : y ≠ x := by rintro rfl; rw [hx] at h1; cases h1; exact h2 hf
      simp [setVar, this]; exact h1
  · have hfl : i.handler.isFlat = false := by
      rcases (flat_iff i).1 hf with e | e <;> rw [e] <;> rfl
    obtain ⟨a, o, h1, h2⟩ := (g.fits x i hx).deep hf
    have hdes : destroy s.heap i.handler i.data = .ok { s.heap with obj := fun y => if y = a then none else s.heap.obj y } := by
      simp [destroy, hfl, h1, Heap.free, h2]
    refine ⟨_, hdes, ?_, ?_, ?_, ?_⟩
    · intro y j hy
      by_cases e : y = x
      · subst e; simp [setVar] at hy
      · simp [setVar, e] at hy
        refine (g.fits y j hy).mono (fun hj b hb => ?_)
        have : b ≠ a := fun e' => e (g.dist y x j i a hy hx hj hf (e' ▸ hb) h1)
        simp [setVar, this]
    · intro y z j k b hy hz
      by_cases e : y = x
      · subst e; simp [setVar] at hy
      · by_cases e2 : z = x
        · subst e2; simp [setVar] at hz
        · simp [setVar, e] at hy; simp [setVar, e2] at hz; exact g.dist y z j k b hy hz
    · intro b hb
      by_cases e : b = a
      · subst e; simp [setVar] at hb
      · simp [setVar, e] at hb
        obtain ⟨y, j, g1, g2, g3⟩ := g.live b hb
        refine ⟨y, j, ?_, g2, g3⟩
        have : y ≠ x := by
          rintro rfl; rw [hx] at g1; cases g1; rw [h1] at g3; cases g3; exact e rfl
        simp [setVar, this]; exact g1
    · intro b hb
      by_cases e : b = a
      · subst e; simp [setVar] at hb
      · simp [setVar, e] at hb; exact g.fresh b hb

theorem Own.use {s : St} (g : Own s) (x : Nat) (i : Item) (hx : s.var x = some i) (fl : Dbl → Str) (big : Obj → Str) :
    ∃ t, toString fl big s.heap i = .ok t := by
  have hf := g.fits x i hx
  unfold Fits at hf
  unfold toString
  cases hh : i.handler <;> rw [hh] at hf <;> simp only at hf ⊢
  · exact ⟨_, rfl⟩
  · obtain ⟨b, e⟩ := hf; rw [e]; exact ⟨_, rfl⟩
  · obtain ⟨b, e⟩ := hf; rw [e]; exact ⟨_, rfl⟩
  · obtain ⟨b, e⟩ := hf; rw [e]; exact ⟨_, rfl⟩
  · obtain ⟨a, t, e, e2⟩ := hf; exact ⟨t, by simp [e, Heap.deref, e2]; rfl⟩
  · obtain ⟨a, t, e, e2⟩ := hf; exact ⟨big (.big t), by simp [e, Heap.deref, e2]; rfl⟩

theorem Own.step {cs : Bool} {s : St} (g : Own s) (o : Op)
    (hc : match o with
     | .copy _ y => ∀ i, s.var y = some i → i.Flat
     | .assign x y => (∀ i, s.var y = some i → i.Flat) ∧ (∀ i, s.var x = some i → i.Flat)
     | _ => True) (r : Res St) (hr : exec cs s o = some r) : ∃ s', r = .ok s' ∧ Own s' := by
  cases o with
  | new x v =>
    simp only [exec] at hr
    cases hx : s.var x with
    | some j => rw [hx] at hr; cases hr
    | none => rw [hx] at hr; cases hr; exact ⟨_, rfl, g.mkItem x v hx⟩
  | newNil x =>
    simp only [exec] at hr
    cases hx : s.var x with
    | some j => rw [hx] at hr; cases hr
    | none =>
      rw [hx] at hr; cases hr
      exact ⟨_, rfl, g.setFlat x makeNil (fun j h => by rw [hx] at h; cases h) (by constructor <;> simp [makeNil]) (by simp [Fits, makeNil])⟩
  | copy x y =>
    simp only [exec] at hr
    cases hx : s.var x with
    | some j => rw [hx] at hr; cases hy : s.var y <;> rw [hy] at hr <;> cases hr
    | none =>
      rw [hx] at hr
      cases hy : s.var y with
      | none => rw [hy] at hr; cases hr
      | some i =>
        rw [hy] at hr; cases hr
        exact ⟨_, rfl, g.setFlat x i (fun j h => by rw [hx] at h; cases h) (hc i hy) (g.fits y i hy)⟩
  | assign x y =>
    simp only [exec] at hr
    cases hx : s.var x with
    | none => rw [hx] at hr; cases hr
    | some j =>
      rw [hx] at hr
      cases hy : s.var y with
      | none => rw [hy] at hr; cases hr
      | some i =>
        rw [hy] at hr; cases hr
        exact ⟨_, rfl, g.setFlat x i hc.2 (hc.1 i hy) (g.fits y i hy)⟩
  | del x =>
    simp only [exec] at hr
    cases hx : s.var x with
    | none => rw [hx] at hr; cases hr
    | some i =>
      rw [hx] at hr
      obtain ⟨h, e, g'⟩ := g.del x i hx
      simp only [e] at hr; cases hr
      exact ⟨_, rfl, g'⟩
  | use x =>
    simp only [exec] at hr
    cases hx : s.var x with
    | none => rw [hx] at hr; cases hr
    | some i =>
      rw [hx] at hr
      obtain ⟨t, e⟩ := g.use x i hx (fun _ => []) (fun _ => [])
      simp only [e] at hr; cases hr
      exact ⟨_, rfl, g⟩

theorem Own.run {cs : Bool} {s : St} (g : Own s) (os : List Op) (hc : FlatCopies cs s os) (r : Res St) (hr : run cs s os = some r) :
    ∃ s', r = .ok s' ∧ Own s' := by
  induction os generalizing s with
  | nil => simp only [Falcon.Item.run] at hr; cases hr; exact ⟨s, rfl, g⟩
  | cons o os ih =>
    simp only [Falcon.Item.run] at hr
    cases he : exec cs s o with
    | none => rw [he] at hr; cases hr
    | some q =>
      obtain ⟨s1, rfl, g1⟩ := g.step o (by
        have := hc.1
        cases o <;> simpa using this) q he
      rw [he] at hr
      exact ih g1 (hc.2 s1 he) hr

theorem own_init : Own {} := by
  refine ⟨?_, ?_, ?_, ?_⟩
  · intro x i h; cases h
  · intro x y i j a h; cases h
  · intro a h; exact absurd rfl h
  · intro a h; exact absurd rfl h

/-- C76 does not hold: copying a text item and letting both go out of scope deletes the text twice. -/
theorem C76_copy_refuted : run true {} [.new 0 (.string ['a']), .copy 1 0, .del 1, .del 0] = some (.error (.ub .doubleFree)) := by rfl

/-- C76 does not hold: after assigning over a text item its text is leaked. -/
theorem C76_assign_leaks_refuted : (run true {} [.new 0 (.string ['a']), .new 1 (.int32 5), .assign 0 1, .del 0, .del 1]).map
    (fun r => r.toOption.map fun s => (s.heap.obj 0, s.var 0, s.var 1)) = some (some (some (.str ['a']), none, none)) := by decide

/-- C76 (what holds): as long as only items without heap data are copied or assigned, no statement is
undefined, and a heap object exists iff some item variable in scope owns it: everything is freed
exactly once, nothing leaks. -/
theorem C76_lifetime_partial (cs : Bool) (os : List Op) (hc : FlatCopies cs {} os) (r : Res St) (hr : run cs {} os = some r) :
    ∃ s, r = .ok s ∧ ∀ a, s.heap.obj a ≠ none ↔ ∃ x i, s.var x = some i ∧ ¬ i.Flat ∧ i.data = .ptr a := by
  obtain ⟨s, rfl, g⟩ := own_init.run os hc r hr
  refine ⟨s, rfl, fun a => ⟨g.live a, ?_⟩⟩
  rintro ⟨x, i, h1, h2, h3⟩
  obtain ⟨b, o, e1, e2⟩ := (g.fits x i h1).deep h2
  rw [h3] at e1; cases e1; rw [e2]; simp

/-- C76 (the failure is unavoidable): in any state reached that way, copying a text or BigNum item and
then destroying original and copy, in either order, is a double delete. -/
theorem C76_copy_always_double_frees_partial (cs : Bool) (os : List Op) (hc : FlatCopies cs {} os) (s : St) (hr : run cs {} os = some (.ok s))
    (x y : Nat) (i : Item) (hx : s.var x = some i) (hd : ¬ i.Flat) (hy : s.var y = none) :
    run cs s [.copy y x, .del x, .del y] = some (.error (.ub .doubleFree)) ∧ run cs s [.copy y x, .del y, .del x] = some (.error (.ub .doubleFree)) := by
  obtain ⟨s0, e, g⟩ := own_init.run os hc _ hr
  cases e
  obtain ⟨a, o, e1, e2⟩ := (g.fits x i hx).deep hd
  have hxy : x ≠ y := by rintro rfl; rw [hx] at hy; cases hy
  have hfl : i.handler.isFlat = false := by
    rcases (flat_iff i).1 hd with e | e <;> rw [e] <;> rfl
  constructor
  · simp [run, exec, hx, hy, setVar, hxy, hxy.symm, destroy, hfl, e1, Heap.free, e2]
  · simp [run, exec, hx, hy, setVar, hxy, hxy.symm, destroy, hfl, e1, Heap.free, e2]

/-- Non-vacuity: a history with text items, copies of flat items, and all destroyed. -/
example : FlatCopies true {} [.new 0 (.string ['a']), .new 1 (.int32 5), .copy 2 1, .use 0, .del 0, .assign 1 2, .del 1] ∧
    (run true {} [.new 0 (.string ['a']), .new 1 (.int32 5), .copy 2 1, .use 0, .del 0, .assign 1 2, .del 1]).isSome = true := by
  refine ⟨?_, by decide⟩
  refine ⟨trivial, ?_⟩
  intro s h; cases h
  refine ⟨trivial, ?_⟩
  intro s h; cases h
  refine ⟨by intro i h; cases h; constructor <;> decide, ?_⟩
  intro s h; cases h
  refine ⟨trivial, ?_⟩
  intro s h; cases h
  refine ⟨trivial, ?_⟩
  intro s h; cases h
  refine ⟨⟨by intro i h; cases h; constructor <;> decide, by intro i h; cases h; constructor <;> decide⟩, ?_⟩
  intro s h; cases h
  exact ⟨trivial, fun _ _ => trivial⟩

end Falcon.Item
