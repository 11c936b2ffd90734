import Verif.Proofs.FloatText
import Verif.Props.Item
import Verif.Props.Xml
/-
C115-C118: floating point numbers as texts.
-/
namespace Falcon.FloatText
open Falcon.Item

/-- The number a finite double stands for. -/
def Val (neg : Bool) (m : Nat) (e : Int) : ℚ := if neg then -(m * 2 ^ e) else m * 2 ^ e

/-! ### C115 -/

/-- C115: the text of a finite float item is a decimal number of at most six significant digits, and no
such number is closer to the value. -/
theorem C115_text (cs : Bool) (big : Obj → Str) (h h' : Heap) (neg : Bool) (m : Nat) (e : Int) :
    ∃ t q, Item.toString floatText big h' (make cs h (.numeric (.fin neg m e))).1 = .ok t ∧
      readDec t = some q ∧ Nearest 6 (Val neg m e) q := by
  obtain ⟨q, h1, h2⟩ := text_nearest 6 (by norm_num) neg ((m : ℚ) * 2 ^ e) (mul_nonneg (by positivity) (Falcon.Fut.two_pos e).le)
  exact ⟨_, q, rfl, h1, h2⟩

theorem nearest_neg {p : Nat} {v q : ℚ} (h : Nearest p v q) : Nearest p (-v) (-q) := by
  obtain ⟨⟨n, j, h3, h4⟩, h5⟩ := h
  refine ⟨⟨-n, j, by rwa [abs_neg], by rw [h4]; push_cast; ring⟩, ?_⟩
  rintro d ⟨n', j', h6, h7⟩
  have := h5 (-d) ⟨-n', j', by rwa [abs_neg], by rw [h7]; push_cast; ring⟩
  rw [← abs_neg, ← abs_neg (d - -v)]
  convert this using 2 <;> ring

/-- A closest decimal number of p digits is within half a unit of the p-th digit. -/
theorem nearest_error {p : Nat} (hp : 0 < p) {v q : ℚ} (h : Nearest p v q) : |q - v| ≤ |v| / (2 * 10 ^ (p - 1)) := by
  have pos : ∀ {v q : ℚ}, 0 < v → Nearest p v q → |q - v| ≤ |v| / (2 * 10 ^ (p - 1)) := by
    intro v q hv h
    refine le_trans (h.2 _ (sci_nearest p hp v hv).1) ?_
    obtain ⟨-, -, -, h4⟩ := sci_spec p hp v hv
    rw [h4]
    have hL := Int.zpow_log_le_self (b := 10) (by norm_num) hv
    push_cast at hL
    obtain ⟨k, hk⟩ : ∃ k, k = Int.log 10 v := ⟨_, rfl⟩
    rw [← hk] at hL ⊢
    have hg := ten_pos (k - p + 1)
    have near : |(Falcon.Fut.roundEven (v / 10 ^ (k - p + 1)) : ℚ) - v / 10 ^ (k - p + 1)| ≤ 1 / 2 := by
      rcases le_or_gt (v / 10 ^ (k - p + 1) - ⌊v / 10 ^ (k - p + 1)⌋) (1 / 2) with hh | hh
      · refine le_trans (roundEven_near _ ⌊v / 10 ^ (k - p + 1)⌋) ?_
        rw [abs_sub_comm, abs_of_nonneg (by linarith [Int.floor_le (v / 10 ^ (k - p + 1))])]
        exact hh
      · refine le_trans (roundEven_near _ (⌊v / 10 ^ (k - p + 1)⌋ + 1)) ?_
        have := Int.lt_floor_add_one (v / 10 ^ (k - p + 1))
        push_cast
        rw [abs_of_nonneg (by linarith)]
        linarith
    have e1 : (10 : ℚ) ^ (k - p + 1) = 10 ^ k / 10 ^ (p - 1) := by
      rw [div_eq_mul_inv, ← zpow_natCast, ← zpow_neg, ← zpow_add₀ (by norm_num)]; congr 1; omega
    calc |(Falcon.Fut.roundEven (v / 10 ^ (k - p + 1)) : ℚ) * 10 ^ (k - p + 1) - v|
        = |(Falcon.Fut.roundEven (v / 10 ^ (k - p + 1)) : ℚ) - v / 10 ^ (k - p + 1)| * 10 ^ (k - p + 1) := by
          rw [← abs_of_pos hg, ← abs_mul, abs_of_pos hg, sub_mul, div_mul_cancel₀ _ hg.ne']
      _ ≤ 1 / 2 * 10 ^ (k - p + 1) := mul_le_mul_of_nonneg_right near hg.le
      _ = 10 ^ k / (2 * 10 ^ (p - 1)) := by rw [e1]; field_simp
      _ ≤ v / (2 * 10 ^ (p - 1)) := by apply div_le_div_of_nonneg_right hL; positivity
      _ = |v| / (2 * 10 ^ (p - 1)) := by rw [abs_of_pos hv]
  rcases lt_trichotomy v 0 with hv | hv | hv
  · have := pos (v := -v) (q := -q) (by linarith) (nearest_neg h)
    rw [abs_neg] at this
    convert this using 1
    rw [← abs_neg]; congr 1; ring
  · subst hv
    have := h.2 0 ⟨0, 0, by simp, by simp⟩
    simpa using this
  · exact pos hv h

theorem nearest_exact {p : Nat} {v q : ℚ} (h : Nearest p v q) (hv : IsDec p v) : q = v := by
  have := h.2 v hv
  rw [sub_self, abs_zero] at this
  have := abs_nonpos_iff.1 this
  linarith

/-- C115: the text is off by at most five millionths of the value, and exact if the value has at most six
significant digits. -/
theorem C115_accuracy (cs : Bool) (big : Obj → Str) (h h' : Heap) (neg : Bool) (m : Nat) (e : Int) (t : Item.Str)
    (ht : Item.toString floatText big h' (make cs h (.numeric (.fin neg m e))).1 = .ok t) :
    ∃ q, readDec t = some q ∧ |q - Val neg m e| ≤ 5 / 1000000 * |Val neg m e| ∧ (IsDec 6 (Val neg m e) → q = Val neg m e) := by
  obtain ⟨t', q, h1, h2, h3⟩ := C115_text cs big h h' neg m e
  rw [h1] at ht
  injection ht with ht; subst ht
  refine ⟨q, h2, ?_, nearest_exact h3⟩
  have := nearest_error (by norm_num) h3
  norm_num at this ⊢
  linarith

/-- C115: not a number and infinities. -/
theorem C115_special (cs : Bool) (big : Obj → Str) (h h' : Heap) :
    Item.toString floatText big h' (make cs h (.numeric .nan)).1 = .ok "nan".toList ∧
    Item.toString floatText big h' (make cs h (.numeric (.inf false))).1 = .ok "inf".toList ∧
    Item.toString floatText big h' (make cs h (.numeric (.inf true))).1 = .ok "-inf".toList := ⟨rfl, rfl, rfl⟩

/-- C115 does not hold in the strong form: the text does not identify the number, 16777216.0 and 16777217.0
have the same one. -/
theorem C115_distinct_refuted (big : Obj → Str) :
    Item.toString floatText big {} (make true {} (.numeric (.fin false 16777216 0))).1 = .ok "1.67772e+07".toList ∧
    Item.toString floatText big {} (make true {} (.numeric (.fin false 16777217 0))).1 = .ok "1.67772e+07".toList := by
  have h1 : floatText (.fin false 16777216 0) = "1.67772e+07".toList := by decide +kernel
  have h2 : floatText (.fin false 16777217 0) = "1.67772e+07".toList := by decide +kernel
  exact ⟨congrArg Except.ok h1, congrArg Except.ok h2⟩

/-- C115 (what holds): different numbers of at most six digits have different texts. -/
theorem C115_distinct_partial (cs : Bool) (big : Obj → Str) (h h' : Heap) (n1 n2 : Bool) (m1 m2 : Nat) (e1 e2 : Int)
    (d1 : IsDec 6 (Val n1 m1 e1)) (d2 : IsDec 6 (Val n2 m2 e2))
    (he : Item.toString floatText big h' (make cs h (.numeric (.fin n1 m1 e1))).1
      = Item.toString floatText big h' (make cs h (.numeric (.fin n2 m2 e2))).1) : Val n1 m1 e1 = Val n2 m2 e2 := by
  obtain ⟨t, q, h1, h2, h3⟩ := C115_text cs big h h' n1 m1 e1
  obtain ⟨t', q', h1', h2', h3'⟩ := C115_text cs big h h' n2 m2 e2
  rw [h1, h1'] at he
  injection he with he; subst he
  rw [h2] at h2'
  injection h2' with h2'; subst h2'
  rw [← nearest_exact h3 d1, ← nearest_exact h3' d2]

/-- 0.25 = 1 * 2^-2 is a number of at most six digits. -/
example : IsDec 6 (Val true 1 (-2)) ∧ floatText (.fin true 1 (-2)) = "-0.25".toList :=
  ⟨⟨-25, -2, by norm_num, by norm_num [Val]⟩, by decide +kernel⟩

/-! ### Characters -/

theorem withFrac_chars {i f : List Char} {P : Char → Prop} (hi : ∀ c ∈ i, P c) (hf : ∀ c ∈ f, P c) (hd : P '.') : ∀ c ∈ withFrac i f, P c := by
  intro c hc
  unfold withFrac at hc
  split at hc
  · exact hi c hc
  · rcases List.mem_append.1 hc with h | h
    · exact hi c h
    · rcases List.mem_cons.1 h with rfl | h
      · exact hd
      · apply hf
        obtain ⟨n, hn⟩ := strip_spec f
        rw [hn]; exact List.mem_append_left _ h

theorem text_chars (p : Nat) (neg : Bool) (x : ℚ) : ∀ c ∈ text p neg x, c.isDigit = true ∨ c = '-' ∨ c = '+' ∨ c = '.' ∨ c = 'e' := by
  have hds : ∀ n, ∀ c ∈ Nat.toDigits 10 n, c.isDigit = true ∨ c = '-' ∨ c = '+' ∨ c = '.' ∨ c = 'e' := fun n c hc => .inl (toDigits_digit n c hc)
  have h0 : ∀ c ∈ ['0'], c.isDigit = true ∨ c = '-' ∨ c = '+' ∨ c = '.' ∨ c = 'e' := by
    intro c hc; rw [List.mem_singleton] at hc; subst hc; exact .inl rfl
  have hexp : ∀ k, ∀ c ∈ expText k, c.isDigit = true ∨ c = '-' ∨ c = '+' ∨ c = '.' ∨ c = 'e' := by
    intro k c hc
    unfold expText at hc
    simp only [List.cons_append, List.mem_cons, List.mem_append] at hc
    rcases hc with h | h | h | h
    · simp [h]
    · split at h <;> simp [h]
    · split at h
      · exact h0 c h
      · simp at h
    · exact hds _ c h
  intro c hc
  unfold text at hc
  rcases List.mem_append.1 hc with h | h
  · split at h
    · simp at h; simp [h]
    · simp at h
  · split at h
    · exact h0 c h
    · unfold posText at h
      generalize sci p x = sk at h
      obtain ⟨s, k⟩ := sk
      dsimp only at h
      split at h
      · split at h
        · exact withFrac_chars (fun c hc => hds s c (List.mem_of_mem_take hc)) (fun c hc => hds s c (List.mem_of_mem_drop hc)) (by simp) c h
        · refine withFrac_chars h0 (fun c hc => ?_) (by simp) c h
          rcases List.mem_append.1 hc with h | h
          · rw [List.eq_of_mem_replicate h]; exact .inl rfl
          · exact hds s c h
      · rcases List.mem_append.1 h with h | h
        · exact withFrac_chars (fun c hc => hds s c (List.mem_of_mem_take hc)) (fun c hc => hds s c (List.mem_of_mem_drop hc)) (by simp) c h
        · exact hexp k c h

/-- The times in the XML report never need escaping: the hypothesis about them in C96_exact_partial is met. -/
theorem time_plain (ms : Int) : Falcon.Fut.Xml.Plain (Falcon.Fut.secFmt.g6 ms) := by
  intro c hc
  have := text_chars 6 _ _ c hc
  rcases this with h | rfl | rfl | rfl | rfl
  · rw [Char.isDigit_iff_toNat] at h
    have h48 : '0'.toNat = 48 := rfl
    refine ⟨?_, ?_, ?_, by omega⟩ <;> rintro rfl <;> revert h <;> decide
  all_goals decide

/-! ### C116 -/

/-- `ms / 1000.0` is off by at most 2^-53 of the exact quotient. -/
theorem rne_close (x : ℚ) (hx : 2 ^ (-1022 : ℤ) ≤ x) : |Falcon.Fut.rne x - x| ≤ x / 9007199254740992 := by
  have hx0 : 0 < x := lt_of_lt_of_le (Falcon.Fut.two_pos _) hx
  have hL := Int.zpow_log_le_self (b := 2) (by norm_num) hx0
  push_cast at hL
  have hlog : -1022 ≤ Int.log 2 x := by
    have := Int.log_mono_right (b := 2) (Falcon.Fut.two_pos (-1022)) hx
    rwa [show ((2 : ℚ) ^ (-1022 : ℤ)) = ((2 : ℕ) : ℚ) ^ (-1022 : ℤ) by push_cast; rfl, Int.log_zpow (by norm_num)] at this
  have hl : Falcon.Fut.lastPlace x = Int.log 2 x - 52 := by
    unfold Falcon.Fut.lastPlace; rw [abs_of_pos hx0]; omega
  unfold Falcon.Fut.rne
  rw [hl]
  obtain ⟨k, hk⟩ : ∃ k, k = Int.log 2 x := ⟨_, rfl⟩
  rw [← hk] at hL ⊢
  have hg := Falcon.Fut.two_pos (k - 52)
  have near : ∀ z : ℚ, |(Falcon.Fut.roundEven z : ℚ) - z| ≤ 1 / 2 := by
    intro z
    rcases le_or_gt (z - ⌊z⌋) (1 / 2) with hh | hh
    · refine le_trans (roundEven_near _ ⌊z⌋) ?_
      rw [abs_sub_comm, abs_of_nonneg (by linarith [Int.floor_le z])]
      exact hh
    · refine le_trans (roundEven_near _ (⌊z⌋ + 1)) ?_
      have := Int.lt_floor_add_one z
      push_cast
      rw [abs_of_nonneg (by linarith)]
      linarith
  calc |(Falcon.Fut.roundEven (x / 2 ^ (k - 52)) : ℚ) * 2 ^ (k - 52) - x|
      = |(Falcon.Fut.roundEven (x / 2 ^ (k - 52)) : ℚ) - x / 2 ^ (k - 52)| * 2 ^ (k - 52) := by
        rw [← abs_of_pos hg, ← abs_mul, abs_of_pos hg, sub_mul, div_mul_cancel₀ _ hg.ne']
    _ ≤ 1 / 2 * 2 ^ (k - 52) := mul_le_mul_of_nonneg_right (near _) hg.le
    _ = 2 ^ k / 9007199254740992 := by
        rw [zpow_sub₀ (by norm_num)]; norm_num; ring
    _ ≤ x / 9007199254740992 := by apply div_le_div_of_nonneg_right hL; norm_num

theorem seconds_neg (ms : Int) : seconds (-ms) = - seconds ms := by
  unfold seconds
  push_cast
  rw [Falcon.Fut.rne_neg, neg_div, Falcon.Fut.rne_neg]

theorem seconds_close (ms : Int) (h0 : 0 ≤ ms) (h1 : ms ≤ 1125899906842624) :
    |seconds ms - ms / 1000| ≤ (ms : ℚ) / 1000 / 9007199254740992 := by
  have hi : Falcon.Fut.rne (ms : ℚ) = ms :=
    Falcon.Fut.Rounding.int Falcon.Fut.rne_rounding ms (by rw [abs_of_nonneg h0]; omega)
  unfold seconds
  rw [hi]
  rcases eq_or_lt_of_le h0 with h | h
  · subst h
    have : Falcon.Fut.rne (((0 : ℤ) : ℚ) / 1000) = 0 := by
      have := Falcon.Fut.Rounding.int Falcon.Fut.rne_rounding 0 (by norm_num)
      simpa using this
    rw [this]; simp
  · apply rne_close
    have : (1 : ℚ) ≤ ms := by exact_mod_cast h
    have h2 : (2 : ℚ) ^ (-1022 : ℤ) ≤ 2 ^ (-10 : ℤ) := zpow_le_zpow_right₀ (by norm_num) (by norm_num)
    have h3 : (2 : ℚ) ^ (-10 : ℤ) ≤ 1 / 1000 := by norm_num
    exact le_trans h2 (le_trans h3 (by linarith))

/-- Different decimal numbers of p digits are not too close. -/
theorem spacing {p : Nat} (hp : 0 < p) {x q : ℚ} (hx0 : 0 < x) (hx : IsDec p x) (hq : IsDec p q)
    (hc : |q - x| < x / 10 ^ (p + 1)) : q = x := by
  obtain ⟨h1, h2, h3, h4⟩ := sci_spec p hp x hx0
  have hxe := nearest_exact (sci_nearest p hp x hx0) hx
  generalize sci p x = sk at h1 h2 h3 h4 hxe
  obtain ⟨s, k⟩ := sk
  dsimp only at h1 h2 hxe
  obtain ⟨n, j, hn, rfl⟩ := hq
  have hg := ten_pos (k - p + 1)
  have hub : x < 10 ^ (k + 1) := by
    rw [← hxe]
    calc (s : ℚ) * 10 ^ (k - p + 1) < (10 ^ p : ℕ) * 10 ^ (k - p + 1) := by
          apply mul_lt_mul_of_pos_right _ hg; exact_mod_cast h2
      _ = 10 ^ (k + 1) := by push_cast; rw [← zpow_natCast, ← zpow_add₀ (by norm_num)]; congr 1; omega
  have hlb : 10 ^ k ≤ x := by
    rw [← hxe]
    calc (10 : ℚ) ^ k = ((10 ^ (p - 1) : ℕ) : ℚ) * 10 ^ (k - p + 1) := by
          push_cast; rw [← zpow_natCast, ← zpow_add₀ (by norm_num)]; congr 1; omega
      _ ≤ (s : ℚ) * 10 ^ (k - p + 1) := by
          apply mul_le_mul_of_nonneg_right _ hg.le; exact_mod_cast h1
  have hsmall : |(n : ℚ) * 10 ^ j - x| < 10 ^ (k - p) := by
    refine lt_of_lt_of_le hc ?_
    rw [div_le_iff₀ (by positivity)]
    refine le_trans hub.le (le_of_eq ?_)
    rw [← zpow_natCast, ← zpow_add₀ (by norm_num)]; congr 1; push_cast; omega
  rcases le_or_gt (k - p) j with hj | hj
  · -- both are multiples of 10^(k-p)
    have e1 : (n : ℚ) * 10 ^ j - x = ((n * 10 ^ (j - (k - p)).toNat - s * 10 : ℤ) : ℚ) * 10 ^ (k - p) := by
      rw [← hxe]; push_cast
      rw [sub_mul, mul_assoc (n : ℚ), ← zpow_natCast, ← zpow_add₀ (by norm_num), mul_assoc (s : ℚ)]
      congr 2
      · congr 1; omega
      · rw [show k - (p : ℤ) + 1 = 1 + (k - p) by ring, zpow_add₀ (by norm_num), zpow_one]
    rw [e1, abs_mul, abs_of_pos (ten_pos (k - p))] at hsmall
    have h5 : |((n * 10 ^ (j - (k - p)).toNat - s * 10 : ℤ) : ℚ)| < 1 := by
      have := ten_pos (k - p)
      by_contra hcon
      have := mul_le_mul_of_nonneg_right (not_lt.1 hcon) this.le
      linarith
    have h6 : (n * 10 ^ (j - (k - p)).toNat - s * 10 : ℤ) = 0 := by
      rw [← Int.cast_abs] at h5
      have : |n * 10 ^ (j - (k - p)).toNat - (s : ℤ) * 10| < 1 := by exact_mod_cast h5
      exact Int.abs_lt_one_iff.1 this
    rw [h6] at e1
    simp only [Int.cast_zero, zero_mul] at e1
    linarith
  · -- the other one is too small
    exfalso
    have hq : (n : ℚ) * 10 ^ j ≤ (10 ^ p - 1) * 10 ^ (k - p - 1) := by
      rcases le_or_gt n 0 with hn0 | hn0
      · have a : (n : ℚ) * 10 ^ j ≤ 0 := mul_nonpos_of_nonpos_of_nonneg (by exact_mod_cast hn0) (ten_pos j).le
        have b : (0 : ℚ) ≤ (10 ^ p - 1) * 10 ^ (k - p - 1) := by
          apply mul_nonneg _ (ten_pos _).le
          have : (1 : ℚ) ≤ 10 ^ p := one_le_pow₀ (by norm_num)
          linarith
        linarith
      · have a : (n : ℚ) ≤ 10 ^ p - 1 := by
          rw [abs_of_pos hn0] at hn
          have : n ≤ 10 ^ p - 1 := by omega
          exact_mod_cast this
        have b : (10 : ℚ) ^ j ≤ 10 ^ (k - p - 1) := zpow_le_zpow_right₀ (by norm_num) (by omega)
        have c : (0 : ℚ) ≤ 10 ^ p - 1 := by
          have : (1 : ℚ) ≤ 10 ^ p := one_le_pow₀ (by norm_num)
          linarith
        exact mul_le_mul a b (ten_pos j).le c
    have e2 : (10 : ℚ) ^ p * 10 ^ (k - p - 1) = 10 ^ (k - 1) := by
      rw [← zpow_natCast, ← zpow_add₀ (by norm_num)]; congr 1; omega
    have e3 : (10 : ℚ) ^ k = 10 * 10 ^ (k - 1) := by
      rw [show k = 1 + (k - 1) by ring, zpow_add₀ (by norm_num), zpow_one]; simp
    have e4 : (10 : ℚ) ^ (k - p) ≤ 10 ^ (k - 1) := zpow_le_zpow_right₀ (by norm_num) (by omega)
    have := ten_pos (k - p - 1)
    have := ten_pos (k - 1)
    have := neg_abs_le ((n : ℚ) * 10 ^ j - x)
    have : (n : ℚ) * 10 ^ j ≤ 10 ^ (k - 1) := by linarith
    linarith

/-- The decimal number closest to the double `ms / 1000.0` is one closest to the exact quotient. -/
theorem nearest_seconds {p : Nat} (hp3 : 3 ≤ p) (hp : p ≤ 6) (ms : Int) (h0 : 0 ≤ ms) (h1 : ms ≤ 1125899906842624) {q : ℚ}
    (hq : Nearest p (seconds ms) q) : Nearest p (ms / 1000) q := by
  have hcl := seconds_close ms h0 h1
  generalize seconds ms = y at hq hcl
  have hms : (0 : ℚ) ≤ ms := by exact_mod_cast h0
  have hms1 : (ms : ℚ) ≤ 1125899906842624 := by exact_mod_cast h1
  by_cases hd : IsDec p ((ms : ℚ) / 1000)
  · -- the exact quotient has at most p digits
    suffices q = (ms : ℚ) / 1000 by
      subst this; exact ⟨hd, fun d _ => by simp⟩
    have h2 := hq.2 _ hd
    rcases eq_or_lt_of_le hms with hz | hz
    · rw [← hz] at hcl h2 ⊢
      simp only [zero_div, sub_zero, zero_sub, abs_neg] at hcl h2 ⊢
      have hy := abs_nonpos_iff.1 hcl
      rw [hy] at h2
      simpa using h2
    · apply spacing (by omega) (by linarith) hd hq.1
      have h3 : |q - (ms : ℚ) / 1000| ≤ |q - y| + |y - (ms : ℚ) / 1000| := abs_sub_le _ _ _
      rw [abs_sub_comm ((ms : ℚ) / 1000) y] at h2
      have h4 : (ms : ℚ) / 1000 / 10 ^ 7 ≤ (ms : ℚ) / 1000 / 10 ^ (p + 1) := by
        apply div_le_div_of_nonneg_left (by linarith) (by positivity)
        exact pow_le_pow_right₀ (by norm_num) (by omega)
      have h5 : (ms : ℚ) / 1000 / 9007199254740992 + (ms : ℚ) / 1000 / 9007199254740992 < (ms : ℚ) / 1000 / 10 ^ 7 := by
        have : 0 < (ms : ℚ) / 1000 := by linarith
        generalize (ms : ℚ) / 1000 = w at this ⊢
        norm_num
        linarith
      linarith
  · -- otherwise it is large, and decimal numbers of p digits around it are multiples of 0.001
    have hbig : 10 ^ p ≤ ms := by
      by_contra hcon
      apply hd
      refine ⟨ms, -3, by rw [abs_of_nonneg h0]; omega, by norm_num; ring⟩
    obtain ⟨B, hB⟩ : ∃ B : ℚ, B = 10 ^ p / 1000 := ⟨_, rfl⟩
    have hBx : B ≤ (ms : ℚ) / 1000 := by
      rw [hB]
      have : ((10 ^ p : ℤ) : ℚ) ≤ ms := by exact_mod_cast hbig
      push_cast at this
      linarith
    have hB1 : 1 ≤ B := by
      have : (10 : ℚ) ^ 3 ≤ 10 ^ p := pow_le_pow_right₀ (by norm_num) hp3
      rw [hB]; norm_num at this ⊢; linarith
    have hBd : IsDec p B := ⟨1, p - 3, by
      have : (1 : ℤ) < 10 ^ p := one_lt_pow₀ (by norm_num) (by omega)
      simpa using this, by
        rw [hB, zpow_sub₀ (by norm_num)]; push_cast; norm_num⟩
    have hε : |y - (ms : ℚ) / 1000| ≤ 1 / 4000 := by
      refine le_trans hcl ?_
      have : (ms : ℚ) / 1000 / 9007199254740992 ≤ 1125899906842624 / 1000 / 9007199254740992 := by
        apply div_le_div_of_nonneg_right _ (by norm_num); linarith
      refine le_trans this ?_; norm_num
    have hε' := abs_le.1 hε
    -- a decimal number of p digits is a multiple of 0.001 or at most B/10
    have alt : ∀ d, IsDec p d → (∃ a : ℤ, d = a / 1000) ∨ d ≤ B / 10 := by
      rintro d ⟨n, j, hn, rfl⟩
      rcases le_or_gt (-3) j with hj | hj
      · refine .inl ⟨n * 10 ^ (j + 3).toNat, ?_⟩
        push_cast
        rw [← zpow_natCast, show (((j + 3).toNat : ℕ) : ℤ) = j + 3 by omega, zpow_add₀ (by norm_num)]
        norm_num
        ring
      · refine .inr ?_
        have hn' : (n : ℚ) ≤ 10 ^ p := by
          have : n ≤ 10 ^ p := le_trans (le_abs_self n) hn.le
          exact_mod_cast this
        have b : (10 : ℚ) ^ j ≤ 10 ^ (-4 : ℤ) := zpow_le_zpow_right₀ (by norm_num) (by omega)
        calc (n : ℚ) * 10 ^ j ≤ 10 ^ p * 10 ^ j := mul_le_mul_of_nonneg_right hn' (ten_pos j).le
          _ ≤ 10 ^ p * 10 ^ (-4 : ℤ) := mul_le_mul_of_nonneg_left b (by positivity)
          _ = B / 10 := by rw [hB]; norm_num; ring
    obtain ⟨a, rfl⟩ : ∃ a : ℤ, q = a / 1000 := by
      rcases alt q hq.1 with h | h
      · exact h
      · exfalso
        have h2 := hq.2 B hBd
        rw [abs_sub_comm, abs_of_nonneg (by linarith)] at h2
        have : |B - y| < y - q := by rw [abs_lt]; constructor <;> linarith
        linarith
    refine ⟨hq.1, ?_⟩
    -- compare with multiples of 0.001
    have cmp : ∀ b : ℤ, IsDec p ((b : ℚ) / 1000) → |(a : ℚ) / 1000 - ms / 1000| ≤ |(b : ℚ) / 1000 - ms / 1000| := by
      intro b hb
      have h2 := hq.2 _ hb
      have sc : ∀ c : ℤ, |(c : ℚ) / 1000 - ms / 1000| = ((|c - ms| : ℤ) : ℚ) / 1000 := by
        intro c
        rw [← sub_div, abs_div, abs_of_pos (show (0 : ℚ) < 1000 by norm_num)]
        push_cast; rfl
      rw [sc, sc]
      have t1 : |(a : ℚ) / 1000 - ms / 1000| ≤ |(a : ℚ) / 1000 - y| + |y - ms / 1000| := abs_sub_le _ _ _
      have t2 : |(b : ℚ) / 1000 - y| ≤ |(b : ℚ) / 1000 - ms / 1000| + |ms / 1000 - y| := abs_sub_le _ _ _
      rw [abs_sub_comm ((ms : ℚ) / 1000) y] at t2
      rw [sc] at t1 t2
      have t3 : ((|a - ms| : ℤ) : ℚ) < ((|b - ms| + 1 : ℤ) : ℚ) := by
        push_cast
        have : ((|a - ms| : ℤ) : ℚ) / 1000 ≤ ((|b - ms| : ℤ) : ℚ) / 1000 + 1 / 2000 := by linarith
        push_cast at this
        linarith
      have t4 : |a - ms| < |b - ms| + 1 := by exact_mod_cast t3
      have t5 : ((|a - ms| : ℤ) : ℚ) ≤ ((|b - ms| : ℤ) : ℚ) := by exact_mod_cast (by omega : |a - ms| ≤ |b - ms|)
      linarith
    intro d hd'
    rcases alt d hd' with ⟨b, rfl⟩ | h
    · exact cmp b hd'
    · have hBb : B = ((10 ^ p : ℤ) : ℚ) / 1000 := by rw [hB]; push_cast; rfl
      refine le_trans (cmp (10 ^ p) (hBb ▸ hBd)) ?_
      rw [← hBb, abs_sub_comm, abs_of_nonneg (by linarith), abs_sub_comm, abs_of_nonneg (by linarith)]
      linarith

/-- C116: the seconds printed for a duration of ms milliseconds (in the XML report; with three digits for
components and four for the whole run in the summary) are the decimal number of that many digits that is
closest to ms/1000. -/
theorem C116_nearest (ms : Int) (h0 : 0 ≤ ms) (h1 : ms ≤ 1125899906842624) :
    (∃ q, readDec (Falcon.Fut.secFmt.g6 ms) = some q ∧ Nearest 6 (ms / 1000) q) ∧
    (∃ q, readDec (Falcon.Fut.secFmt.g3 ms) = some q ∧ Nearest 3 (ms / 1000) q) ∧
    (∃ q, readDec (Falcon.Fut.secFmt.g4 ms) = some q ∧ Nearest 4 (ms / 1000) q) := by
  have key : ∀ p : Nat, 3 ≤ p → p ≤ 6 →
      ∃ q, readDec (text p (decide (ms < 0)) |seconds ms|) = some q ∧ Nearest p ((ms : ℚ) / 1000) q := by
    intro p hp3 hp
    obtain ⟨q, a, b⟩ := text_nearest p (by omega) (decide (ms < 0)) |seconds ms| (abs_nonneg _)
    refine ⟨q, a, nearest_seconds hp3 hp ms h0 h1 ?_⟩
    have hneg : decide (ms < 0) = false := by simpa using h0
    rw [hneg] at b
    have hs : 0 ≤ seconds ms := by
      unfold seconds
      apply Falcon.Fut.rne_nonneg
      have := Falcon.Fut.rne_nonneg (x := (ms : ℚ)) (by exact_mod_cast h0)
      linarith
    rw [abs_of_nonneg hs] at b
    simpa using b
  exact ⟨key 6 (by norm_num) (by norm_num), key 3 (by norm_num) (by norm_num), key 4 (by norm_num) (by norm_num)⟩

/-- C116: times in the XML report are exact to the millisecond below 1000 seconds. -/
theorem C116_exact (ms : Int) (h0 : 0 ≤ ms) (h1 : ms < 1000000) : readDec (Falcon.Fut.secFmt.g6 ms) = some ((ms : ℚ) / 1000) := by
  obtain ⟨q, a, b⟩ := (C116_nearest ms h0 (by omega)).1
  rw [a, nearest_exact b ⟨ms, -3, by rw [abs_of_nonneg h0]; norm_num; omega, by norm_num; ring⟩]

/-- C116 does not hold for longer ones: 1000001 ms are printed as 1000 seconds; and with three digits (components in
the summary) 1.235 seconds are printed as 1.24 or 1.23 and 2000 seconds in scientific notation. -/
theorem C116_exact_refuted : Falcon.Fut.secFmt.g6 1000001 = "1000".toList ∧ Falcon.Fut.secFmt.g3 1236 = "1.24".toList ∧
    Falcon.Fut.secFmt.g3 2000000 = "2e+03".toList := by
  refine ⟨?_, ?_, ?_⟩ <;> decide +kernel

/-- C116: a test that took 1234 ms. -/
example : Falcon.Fut.secFmt.g6 1234 = "1.234".toList := by decide +kernel

/-! ### C117 -/

theorem digitChar_spec : ∀ k, k < 10 → (Nat.digitChar k).isDigit = true ∧ (Nat.digitChar k).toNat - 48 = k := by decide

theorem lastDigits_spec (d n : Nat) : (lastDigits d n).length = d ∧ (∀ c ∈ lastDigits d n, c.isDigit = true) ∧ digitsVal (lastDigits d n) = n % 10 ^ d := by
  induction d generalizing n with
  | zero => exact ⟨rfl, by simp [lastDigits], by simp [lastDigits, digitsVal, Nat.mod_one]⟩
  | succ d ih =>
    obtain ⟨h1, h2, h3⟩ := ih (n / 10)
    obtain ⟨c1, c2⟩ := digitChar_spec (n % 10) (Nat.mod_lt _ (by norm_num))
    refine ⟨by simp [lastDigits, h1], ?_, ?_⟩
    · intro c hc
      rcases List.mem_append.1 hc with h | h
      · exact h2 c h
      · rw [List.mem_singleton.1 h]; exact c1
    · show digitsVal (lastDigits d (n / 10) ++ [Nat.digitChar (n % 10)]) = _
      rw [digitsVal_append, h3]
      have : digitsVal [Nat.digitChar (n % 10)] = n % 10 := by simpa [digitsVal] using c2
      rw [this, Nat.pow_succ, List.length_singleton, Nat.pow_one, Nat.mul_comm (10 ^ d) 10, Nat.mod_mul, Nat.mul_comm]; omega

theorem readPos_fixed {i f : List Char} (hi : ∀ c ∈ i, c.isDigit = true) (hi0 : i ≠ []) (hf : ∀ c ∈ f, c.isDigit = true) (hf0 : f ≠ []) :
    readPos (i ++ '.' :: f) = some ((digitsVal i : ℚ) + (digitsVal f : ℚ) / 10 ^ f.length) := by
  obtain ⟨a, b⟩ := takeWhile_digits (r := '.' :: f) hi (by intro d hd; simp at hd; subst hd; rfl)
  obtain ⟨a', b'⟩ := takeWhile_digits (i := f) (r := []) hf (by intro c hc; simp at hc)
  rw [List.append_nil] at a' b'
  unfold readPos
  rw [a, b, if_neg hi0]
  show (if List.takeWhile Char.isDigit f = [] then none else _) = _
  rw [a', b', if_neg hf0]
  simp [readExp]

/-- Three digits behind the point show a duration below 35000 years exactly. -/
theorem fixed_seconds (ms : Int) (h0 : 0 ≤ ms) (h1 : ms ≤ 1125899906842624) :
    fixedText 3 (seconds ms) = Nat.toDigits 10 (ms.toNat / 1000) ++ '.' :: lastDigits 3 ms.toNat := by
  have hcl := seconds_close ms h0 h1
  have hms1 : (ms : ℚ) ≤ 1125899906842624 := by exact_mod_cast h1
  have hr : Falcon.Fut.roundEven (seconds ms * 10 ^ 3) = ms := by
    have h2 := roundEven_near (seconds ms * 10 ^ 3) ms
    have h3 : |(ms : ℚ) - seconds ms * 10 ^ 3| ≤ 1 / 4 := by
      have e : (ms : ℚ) - seconds ms * 10 ^ 3 = -((seconds ms - ms / 1000) * 1000) := by norm_num; ring
      rw [e, abs_neg, abs_mul, abs_of_pos (show (0 : ℚ) < 1000 by norm_num)]
      have : (ms : ℚ) / 1000 / 9007199254740992 ≤ 1125899906842624 / 1000 / 9007199254740992 := by
        apply div_le_div_of_nonneg_right _ (by norm_num); linarith
      have h4 : (1125899906842624 : ℚ) / 1000 / 9007199254740992 ≤ 1 / 4000 := by norm_num
      linarith
    have h5 : |((Falcon.Fut.roundEven (seconds ms * 10 ^ 3) - ms : ℤ) : ℚ)| < 1 := by
      push_cast
      have := abs_sub_le (Falcon.Fut.roundEven (seconds ms * 10 ^ 3) : ℚ) (seconds ms * 10 ^ 3) ms
      rw [abs_sub_comm (seconds ms * 10 ^ 3) (ms : ℚ)] at this
      refine lt_of_le_of_lt (this.trans (add_le_add (h2.trans h3) h3)) (by norm_num)
    rw [← Int.cast_abs] at h5
    have : |Falcon.Fut.roundEven (seconds ms * 10 ^ 3) - ms| < 1 := by exact_mod_cast h5
    have := Int.abs_lt_one_iff.1 this
    omega
  unfold fixedText
  dsimp only
  rw [hr]; norm_num

theorem read_fixed_seconds (n : Nat) : readDec (Nat.toDigits 10 (n / 1000) ++ '.' :: lastDigits 3 n) = some ((n : ℚ) / 1000) := by
  obtain ⟨h1, h2, h3⟩ := lastDigits_spec 3 n
  apply readDec_pos
  rw [readPos_fixed (toDigits_digit _) Nat.toDigits_ne_nil h2 (by intro h; rw [h] at h1; simp at h1), digitsVal_toDigits, h1, h3]
  congr 1
  have : (n : ℚ) = ((1000 * (n / 1000) + n % 1000 : ℕ) : ℚ) := by rw [Nat.div_add_mod]
  rw [this]; push_cast
  norm_num
  ring

theorem statusLine_of_testLine (count : Nat) (name result : List Char) (ms : Int) (hc : count < 1000) (hr : result.length ≤ 4)
    (h0 : 0 ≤ ms) (h1 : ms < 100000000) : Falcon.Fut.IsStatusLine count name result ms (Falcon.Fut.testLine count name result ms) := by
  have hcl : (Nat.toDigits 10 count).length ≤ 3 := (Nat.length_toDigits_le_iff (by norm_num) (by norm_num)).2 (by omega)
  have hsl : (Nat.toDigits 10 (ms.toNat / 1000)).length ≤ 5 := (Nat.length_toDigits_le_iff (by norm_num) (by norm_num)).2 (by omega)
  have hfl := (lastDigits_spec 3 ms.toNat).1
  have hfx := fixed_seconds ms h0 (by omega)
  refine ⟨Falcon.Fut.padLeft 3 (Nat.toDigits 10 count), Falcon.Fut.padRight 50 (name.take 50),
    Falcon.Fut.padRight 10 (fixedText 3 (seconds ms) ++ ['s']), Falcon.Fut.padRight 4 result, ?_, ?_, ?_, ?_, ?_, ?_, ?_, ?_, ?_⟩
  · unfold Falcon.Fut.testLine
    rw [if_pos h0]
    rfl
  · unfold Falcon.Fut.padLeft; rw [List.length_append, List.length_replicate]; omega
  · unfold Falcon.Fut.padRight; rw [List.length_append, List.length_replicate, List.length_take]; omega
  · unfold Falcon.Fut.padRight
    rw [hfx]
    simp only [List.length_append, List.length_replicate, List.length_cons, List.length_nil, hfl]; omega
  · unfold Falcon.Fut.padRight; rw [List.length_append, List.length_replicate]; omega
  · exact ⟨_, _, rfl, Nat.toDigits_ne_nil, toDigits_digit _, digitsVal_toDigits _⟩
  · exact ⟨_, rfl⟩
  · refine ⟨_, fixedText 3 (seconds ms), rfl, ?_⟩
    rw [hfx, read_fixed_seconds]
    congr 2
    have : ((ms.toNat : ℤ) : ℚ) = ms := by congr 1; omega
    rw [← this]; push_cast; rfl
  · exact ⟨_, rfl⟩

/-- C117: for a test that neither failed a check nor threw, the runner prints (from verbosity 2 on) one status line with
its number, name, duration and verdict, in fixed columns, as long as the number is below 1000 and the
duration below 100000 seconds. -/
theorem C117_status_line (defs : Nat → Falcon.Fut.TestDef) (u : Falcon.Fut.UT) (count t : Nat) (w : Falcon.Fut.World)
    (hv : 2 ≤ u.verbosity) (hs : (w.tc t).status ≠ .error ∧ (w.tc t).status ≠ .fail) (hc : count < 1000)
    (h0 : 0 ≤ (w.tc t).lapse.elapsed) (h1 : (w.tc t).lapse.elapsed < 100000000) :
    ∃ line, Falcon.Fut.showVerdict defs u count t w = .ok (w.put w.cout line) ∧
      Falcon.Fut.IsStatusLine count (defs t).fullName (if (w.tc t).status = .success then "OK".toList else "FAIL".toList) (w.tc t).lapse.elapsed line := by
  refine ⟨_, ?_, statusLine_of_testLine count _ _ _ hc (by split <;> decide) h0 h1⟩
  unfold Falcon.Fut.showVerdict
  rw [if_neg (by simp [hs.1]), if_neg (by simp [hs.2]), if_pos hv]
  have hp : Falcon.Fut.hasPassed u w t = decide ((w.tc t).status = .success) := by
    unfold Falcon.Fut.hasPassed
    cases (w.tc t).status <;> simp
  rw [hp]
  unfold Falcon.Fut.print
  congr 4
  by_cases h : (w.tc t).status = .success <;> simp [h]

theorem fixedText_no_s (d : Nat) (x : ℚ) : 's' ∉ fixedText d x := by
  intro h
  unfold fixedText at h
  dsimp only at h
  rcases List.mem_append.1 h with h | h
  · exact absurd (toDigits_digit _ _ h) (by decide)
  · rcases List.mem_cons.1 h with h | h
    · exact absurd h (by decide)
    · exact absurd ((lastDigits_spec _ _).2.1 _ h) (by decide)

/-- C117 (exactly, for durations below 35000 years): the line printed has its fixed columns if and only if the number of the test is
below 1000 and the duration is neither negative (the clock went back) nor 100000 seconds or more. -/
theorem C117_exact_partial (defs : Nat → Falcon.Fut.TestDef) (u : Falcon.Fut.UT) (count t : Nat) (w : Falcon.Fut.World)
    (hv : 2 ≤ u.verbosity) (hs : (w.tc t).status ≠ .error ∧ (w.tc t).status ≠ .fail)
    (hy : (w.tc t).lapse.elapsed ≤ 1125899906842624) :
    ∃ line, Falcon.Fut.showVerdict defs u count t w = .ok (w.put w.cout line) ∧
      (Falcon.Fut.IsStatusLine count (defs t).fullName (if (w.tc t).status = .success then "OK".toList else "FAIL".toList) (w.tc t).lapse.elapsed line ↔
        count < 1000 ∧ 0 ≤ (w.tc t).lapse.elapsed ∧ (w.tc t).lapse.elapsed < 100000000) := by
  refine ⟨Falcon.Fut.testLine count (defs t).fullName (if (w.tc t).status = .success then "OK".toList else "FAIL".toList) (w.tc t).lapse.elapsed, ?_,
    ?_, fun h => statusLine_of_testLine count _ _ _ h.1 (by split <;> decide) h.2.1 h.2.2⟩
  · unfold Falcon.Fut.showVerdict
    rw [if_neg (by simp [hs.1]), if_neg (by simp [hs.2]), if_pos hv]
    have hp : Falcon.Fut.hasPassed u w t = decide ((w.tc t).status = .success) := by
      unfold Falcon.Fut.hasPassed
      cases (w.tc t).status <;> simp
    rw [hp]
    unfold Falcon.Fut.print
    congr 4
    by_cases h : (w.tc t).status = .success <;> simp [h]
  · generalize (w.tc t).lapse.elapsed = ms at *
    have hrl : (if (w.tc t).status = .success then "OK".toList else "FAIL".toList).length ≤ 4 := by split <;> decide
    generalize (if (w.tc t).status = .success then "OK".toList else "FAIL".toList) = res at *
    rintro ⟨num, nm, tm, rs, hl, l1, l2, l3, l4, -, -, ⟨k, tt, htm, -⟩, -⟩
    have hlen := congrArg List.length hl
    unfold Falcon.Fut.testLine at hl hlen
    simp only [List.length_append, List.length_cons, List.length_nil, l1, l2, l3, l4] at hlen
    have e1 : (Falcon.Fut.padLeft 3 (Nat.toDigits 10 count)).length = max 3 (Nat.toDigits 10 count).length := by
      unfold Falcon.Fut.padLeft; rw [List.length_append, List.length_replicate]; omega
    have e2 : (Falcon.Fut.padRight 50 ((defs t).fullName.take 50)).length = 50 := by
      unfold Falcon.Fut.padRight; rw [List.length_append, List.length_replicate, List.length_take]; omega
    have e3 : (Falcon.Fut.padRight 4 res).length = 4 := by
      unfold Falcon.Fut.padRight; rw [List.length_append, List.length_replicate]; omega
    have e4 : ∀ s : List Char, (Falcon.Fut.padRight 10 s).length = max 10 s.length := by
      intro s; unfold Falcon.Fut.padRight; rw [List.length_append, List.length_replicate]; omega
    have e5 : (": ".toList).length = 2 := rfl
    have e6 : ("]\n".toList).length = 2 := rfl
    have e7 : ("[".toList).length = 1 := rfl
    have e8 : (" ".toList).length = 1 := rfl
    rw [e1, e2, e3, e5, e6, e7, e8] at hlen
    have hcnt : (Nat.toDigits 10 count).length ≤ 3 := by
      split at hlen <;> rw [e4] at hlen <;> omega
    refine ⟨by simpa using (Nat.length_toDigits_le_iff (by norm_num) (by norm_num)).1 hcnt, ?_⟩
    by_cases h0 : 0 ≤ ms
    · refine ⟨h0, ?_⟩
      rw [if_pos h0, e4, fixed_seconds ms h0 hy] at hlen
      have hfl := (lastDigits_spec 3 ms.toNat).1
      simp only [List.length_append, List.length_cons, List.length_nil, hfl] at hlen
      have hd : (Nat.toDigits 10 (ms.toNat / 1000)).length ≤ 5 := by omega
      have := (Nat.length_toDigits_le_iff (by norm_num) (by norm_num)).1 hd
      omega
    · exfalso
      rw [if_neg h0, e4] at hlen
      rw [if_neg h0] at hl
      have hl2 := (List.append_inj (by simpa only [List.append_assoc] using hl) (by rfl)).2
      have hl3 := (List.append_inj hl2 (by rw [e1, l1]; omega)).2
      have hl4 := (List.append_inj hl3 rfl).2
      have hl5 := (List.append_inj hl4 (by rw [e2, l2])).2
      have hl6 := (List.append_inj hl5 (by rw [e4, l3]; omega)).1
      have hmem : 's' ∈ tm := by rw [htm]; simp
      rw [← hl6] at hmem
      unfold Falcon.Fut.padRight at hmem
      rcases List.mem_append.1 hmem with hm | hm
      · rcases List.mem_cons.1 hm with hm | hm
        · exact absurd hm (by decide)
        · exact fixedText_no_s _ _ hm
      · exact absurd (List.mem_replicate.1 hm).2 (by decide)

/-- The line of test 7, passed after 1.5 seconds. -/
example : Falcon.Fut.testLine 7 "C::a".toList "OK".toList 1500 = "[  7: C::a                                              1.500s     OK  ]\n".toList := by
  decide +kernel

/-- C117 does not hold without the limits: from test 1000 on the columns move. -/
theorem C117_columns_refuted : (Falcon.Fut.testLine 1000 "C::a".toList "OK".toList 1500).length ≠ (Falcon.Fut.testLine 7 "C::a".toList "OK".toList 1500).length := by
  decide +kernel

/-! ### C118 -/

theorem digitsVal_lt (f : List Char) (hf : ∀ c ∈ f, c.isDigit = true) : digitsVal f < 10 ^ f.length := by
  induction f using List.reverseRecOn with
  | nil => decide
  | append_singleton f c ih =>
    rw [digitsVal_append, List.length_append, List.length_singleton, pow_one, pow_succ]
    have h1 := ih (fun d hd => hf d (List.mem_append_left _ hd))
    have h2 : digitsVal [c] < 10 := by
      have := hf c (by simp)
      simp [Char.isDigit, UInt32.le_iff_toNat_le] at this
      simp [digitsVal]
      have e : c.toNat = c.val.toNat := rfl
      omega
    omega

theorem withFrac_begins {i f : List Char} (hi : ∀ c ∈ i, c.isDigit = true) (hi0 : i ≠ []) (hf : ∀ c ∈ f, c.isDigit = true) :
    ∃ r q, withFrac i f = i ++ r ∧ (∀ c r', r = c :: r' → c.isDigit = false) ∧ readPos (withFrac i f) = some q ∧ ⌊q⌋ = (digitsVal i : ℤ) := by
  have h := readPos_withFrac (e := []) (k := 0) hi hi0 hf rfl (by intro c hc; simp at hc)
  rw [List.append_nil] at h
  have hl := digitsVal_lt f hf
  have hfl : ⌊((digitsVal i : ℚ) + (digitsVal f : ℚ) / 10 ^ f.length) * 10 ^ (0 : ℤ)⌋ = (digitsVal i : ℤ) := by
    rw [zpow_zero, mul_one, Int.floor_eq_iff]
    have hp : (0 : ℚ) < 10 ^ f.length := by positivity
    have : (digitsVal f : ℚ) / 10 ^ f.length < 1 := by rw [div_lt_one hp]; exact_mod_cast hl
    have : (0 : ℚ) ≤ (digitsVal f : ℚ) / 10 ^ f.length := by positivity
    push_cast
    constructor <;> linarith
  have hw : ∃ r, withFrac i f = i ++ r ∧ (∀ c r', r = c :: r' → c.isDigit = false) := by
    unfold withFrac
    split
    · exact ⟨[], by simp, by simp⟩
    · exact ⟨_, rfl, by rintro c r' ⟨⟩; rfl⟩
  obtain ⟨r, h1, h2⟩ := hw
  exact ⟨r, _, h1, h2, h, hfl⟩

/-- Texts without an exponent. -/
theorem posText_fixed (p : Nat) (hp : 0 < p) (x : ℚ) (hx : 0 < x) (hk : -4 ≤ (sci p x).2 ∧ (sci p x).2 < p) :
    ∃ i r q, posText p x = i ++ r ∧ i ≠ [] ∧ (∀ c ∈ i, c.isDigit = true) ∧ (∀ c r', r = c :: r' → c.isDigit = false) ∧
      readPos (posText p x) = some q ∧ ⌊q⌋ = (digitsVal i : ℤ) := by
  obtain ⟨h1, h2, -, -⟩ := sci_spec p hp x hx
  have hlen := length_toDigits hp h1 h2
  unfold posText
  generalize sci p x = sk at *
  obtain ⟨s, k⟩ := sk
  dsimp only at *
  rw [if_pos hk]
  have hd := toDigits_digit s
  split
  · rename_i hk0
    have hne : (Nat.toDigits 10 s).take (k.toNat + 1) ≠ [] := by
      intro h; have := congrArg List.length h; rw [List.length_take] at this; simp at this
    obtain ⟨r, q, a, b, c, d⟩ := withFrac_begins (i := (Nat.toDigits 10 s).take (k.toNat + 1)) (f := (Nat.toDigits 10 s).drop (k.toNat + 1))
      (fun c hc => hd c (List.mem_of_mem_take hc)) hne (fun c hc => hd c (List.mem_of_mem_drop hc))
    exact ⟨_, r, q, a, hne, fun c hc => hd c (List.mem_of_mem_take hc), b, c, d⟩
  · have hdf : ∀ c ∈ List.replicate ((-k).toNat - 1) '0' ++ Nat.toDigits 10 s, c.isDigit = true := by
      intro c hc
      rcases List.mem_append.1 hc with h | h
      · rw [(List.mem_replicate.1 h).2]; rfl
      · exact hd c h
    have hz : ∀ c ∈ ['0'], c.isDigit = true := by simp
    obtain ⟨r, q, a, b, c, d⟩ := withFrac_begins (i := ['0']) hz (by simp) hdf
    exact ⟨_, r, q, a, by simp, hz, b, c, d⟩

/-- The exponent, from the size of the rounded number. -/
theorem sci_exp (p : Nat) (hp : 0 < p) (x : ℚ) (hx : 0 < x) (a b : ℤ)
    (h1 : (10 : ℚ) ^ a ≤ ((sci p x).1 : ℚ) * 10 ^ ((sci p x).2 - p + 1)) (h2 : ((sci p x).1 : ℚ) * 10 ^ ((sci p x).2 - p + 1) < 10 ^ b) :
    a ≤ (sci p x).2 ∧ (sci p x).2 < b := by
  obtain ⟨g1, g2, -, -⟩ := sci_spec p hp x hx
  generalize sci p x = sk at *
  obtain ⟨s, k⟩ := sk
  dsimp only at *
  have e1 : (10 : ℚ) ^ k ≤ (s : ℚ) * 10 ^ (k - p + 1) := by
    have : (10 : ℚ) ^ k = ((10 ^ (p - 1) : ℕ) : ℚ) * 10 ^ (k - p + 1) := by
      push_cast
      rw [← zpow_natCast, ← zpow_add₀ (by norm_num)]
      congr 1; omega
    rw [this]
    exact mul_le_mul_of_nonneg_right (by exact_mod_cast g1) (ten_pos _).le
  have e2 : (s : ℚ) * 10 ^ (k - p + 1) < 10 ^ (k + 1) := by
    have : (10 : ℚ) ^ (k + 1) = ((10 ^ p : ℕ) : ℚ) * 10 ^ (k - p + 1) := by
      push_cast
      rw [← zpow_natCast, ← zpow_add₀ (by norm_num)]
      congr 1; omega
    rw [this]
    exact mul_lt_mul_of_pos_right (by exact_mod_cast g2) (ten_pos _)
  constructor
  · have := (zpow_lt_zpow_iff_right₀ (show (1 : ℚ) < 10 by norm_num)).1 (lt_of_le_of_lt h1 e2)
    omega
  · exact (zpow_lt_zpow_iff_right₀ (show (1 : ℚ) < 10 by norm_num)).1 (lt_of_le_of_lt e1 h2)

theorem readPos_nonneg {t : List Char} {u : ℚ} (h : readPos t = some u) : 0 ≤ u := by
  unfold readPos at h
  dsimp only at h
  split at h
  · cases h
  · split at h
    · split at h
      · cases h
      · obtain ⟨e, -, he⟩ := Option.map_eq_some_iff.1 h
        rw [← he]
        have := ten_pos e
        positivity
    · obtain ⟨e, -, he⟩ := Option.map_eq_some_iff.1 h
      rw [← he]
      have := ten_pos e
      positivity

/-- C118 does not hold: the text of 16777216.0, made an item and read as an integer, gives 1. -/
theorem C118_text_to_int_refuted (bigS : Obj → Str) (bigI : Obj → Int) :
    ∃ t, Item.toString floatText bigS {} (make true {} (.numeric (.fin false 16777216 0))).1 = .ok t ∧
      toInt bigI (make true {} (.string t)).2 (make true {} (.string t)).1 = .ok 1 := by
  refine ⟨"1.67772e+07".toList, (C115_distinct_refuted bigS).1, ?_⟩
  rw [(C74_toInt_exact_partial true bigI _ _).1]
  exact ⟨[], [], ['1'], ".67772e+07".toList, by decide, by decide, by decide, by decide, by decide, by rintro c r ⟨⟩; decide, by decide, by decide, by decide⟩

/-- C118 (what holds): if the number shown is 0 or from 0.0001 to below 1000000 in size, its text, made an item and read as an
integer, gives the number shown without its fraction. -/
theorem C118_text_to_int_partial (cs : Bool) (bigS : Obj → Str) (bigI : Obj → Int) (h h' : Heap) (neg : Bool) (m : Nat) (e : Int)
    (t : Item.Str) (q : ℚ) (ht : Item.toString floatText bigS h' (make cs h (.numeric (.fin neg m e))).1 = .ok t)
    (hq : readDec t = some q) (hs : q = 0 ∨ 1 / 10000 ≤ |q| ∧ |q| < 1000000) :
    toInt bigI (make cs h' (.string t)).2 (make cs h' (.string t)).1 = .ok (if q < 0 then ⌈q⌉ else ⌊q⌋) := by
  rw [(C74_toInt_exact_partial cs bigI h' _).1]
  have ht' : t = text 6 neg ((m : ℚ) * 2 ^ e) := by
    have : floatText (.fin neg m e) = t := by injection ht
    rw [← this]; rfl
  subst ht'
  have hx0 : (0 : ℚ) ≤ (m : ℚ) * 2 ^ e := mul_nonneg (by positivity) (Falcon.Fut.two_pos e).le
  generalize (m : ℚ) * 2 ^ e = x at *
  -- the unsigned part
  obtain ⟨i, r, u, a1, a2, a3, a4, a5, a6⟩ : ∃ i r u, (if x = 0 then ['0'] else posText 6 x) = i ++ r ∧ i ≠ [] ∧ (∀ c ∈ i, c.isDigit = true) ∧
      (∀ c r', r = c :: r' → c.isDigit = false) ∧ readPos (if x = 0 then ['0'] else posText 6 x) = some u ∧ (|q| = u → ⌊u⌋ = (digitsVal i : ℤ)) := by
    split
    · exact ⟨['0'], [], 0, by simp, by simp, by simp, by simp, by decide +kernel, by intro _; decide⟩
    · rename_i hxne
      have hx : 0 < x := lt_of_le_of_ne hx0 (Ne.symm hxne)
      by_cases hk : -4 ≤ (sci 6 x).2 ∧ (sci 6 x).2 < 6
      · obtain ⟨i, r, u, b1, b2, b3, b4, b5, b6⟩ := posText_fixed 6 (by norm_num) x hx hk
        exact ⟨i, r, u, b1, b2, b3, b4, b5, fun _ => b6⟩
      · exfalso
        have hr := readPos_posText 6 (by norm_num) x hx
        have hqu : |q| = ((sci 6 x).1 : ℚ) * 10 ^ ((sci 6 x).2 - (6 : ℕ) + 1) := by
          have hpos : (0 : ℚ) ≤ ((sci 6 x).1 : ℚ) * 10 ^ ((sci 6 x).2 - (6 : ℕ) + 1) := mul_nonneg (by positivity) (ten_pos _).le
          cases neg with
          | false =>
            have : readDec (text 6 false x) = _ := readDec_pos (t := text 6 false x) (by unfold text; rw [if_neg hxne]; exact hr)
            rw [this] at hq; injection hq with hq
            rw [← hq, abs_of_nonneg hpos]
          | true =>
            have : readDec (text 6 true x) = (readPos (posText 6 x)).map (fun q => -q) := by unfold text; rw [if_neg hxne]; rfl
            rw [this, hr] at hq; injection hq with hq
            rw [← hq, abs_neg, abs_of_nonneg hpos]
        obtain ⟨g1, -, -, -⟩ := sci_spec 6 (by norm_num) x hx
        apply hk
        refine sci_exp 6 (by norm_num) x hx (-4) 6 ?_ ?_
        · rw [← hqu]
          rcases hs with hs | hs
          · exfalso
            rw [hs, abs_zero] at hqu
            have : (0 : ℚ) < ((sci 6 x).1 : ℚ) * 10 ^ ((sci 6 x).2 - (6 : ℕ) + 1) :=
              mul_pos (by exact_mod_cast (by omega : 0 < (sci 6 x).1)) (ten_pos _)
            linarith
          · refine le_trans ?_ hs.1
            norm_num
        · rw [← hqu]
          rcases hs with hs | hs
          · rw [hs, abs_zero]; exact ten_pos 6
          · refine lt_of_lt_of_le hs.2 ?_
            norm_num
  have hu0 : 0 ≤ u := readPos_nonneg a5
  have key : (q = if neg then -u else u) := by
    cases neg with
    | false =>
      have : readDec (text 6 false x) = some u := readDec_pos a5
      rw [this] at hq; injection hq with hq; exact hq.symm
    | true =>
      have : readDec (text 6 true x) = (readPos (if x = 0 then ['0'] else posText 6 x)).map (fun q => -q) := rfl
      rw [this, a5] at hq; injection hq with hq; exact hq.symm
  have hqa : |q| = u := by
    rw [key]; split
    · rw [abs_neg, abs_of_nonneg hu0]
    · rw [abs_of_nonneg hu0]
  have a6 := a6 hqa
  have hul : u < 1000000 := by
    rw [← hqa]
    rcases hs with hs | hs
    · rw [hs, abs_zero]; norm_num
    · exact hs.2
  have hdl : (digitsVal i : ℤ) < 1000000 := by rw [← a6, Int.floor_lt]; exact_mod_cast hul
  have hde : (Nat.ofDigitChars 10 i 0 : ℤ) = digitsVal i := by rw [digitsVal_eq]
  have hv : (if q < 0 then ⌈q⌉ else ⌊q⌋) = if neg then -(digitsVal i : ℤ) else digitsVal i := by
    rw [← a6, key]
    cases neg with
    | false => simp [not_lt.2 hu0]
    | true =>
      by_cases h0 : u = 0
      · simp [h0]
      · have : 0 < u := lt_of_le_of_ne hu0 (Ne.symm h0)
        simp [this, Int.ceil_neg]
  refine ⟨[], if neg then ['-'] else [], i, r, ?_, by simp, ?_, a2, a3, a4, ?_, ?_, ?_⟩
  · unfold text; rw [a1]; cases neg <;> simp
  · cases neg <;> simp
  · rw [hv, hde]; cases neg <;> simp
  · rw [hv]; cases neg <;> simp <;> omega
  · rw [hv]; cases neg <;> simp <;> omega

/-- Texts with an exponent begin with one digit, not zero. -/
theorem posText_sci (p : Nat) (hp : 0 < p) (x : ℚ) (hx : 0 < x) (hk : ¬ (-4 ≤ (sci p x).2 ∧ (sci p x).2 < p)) :
    ∃ i r, posText p x = i ++ r ∧ i ≠ [] ∧ (∀ c ∈ i, c.isDigit = true) ∧ (∀ c r', r = c :: r' → c.isDigit = false) ∧
      1 ≤ digitsVal i ∧ digitsVal i ≤ 9 ∧ i.length = 1 := by
  obtain ⟨h1, h2, -, -⟩ := sci_spec p hp x hx
  have hlen := length_toDigits hp h1 h2
  unfold posText
  generalize sci p x = sk at *
  obtain ⟨s, k⟩ := sk
  dsimp only at *
  rw [if_neg hk]
  have hd := toDigits_digit s
  have hne : (Nat.toDigits 10 s).take 1 ≠ [] := by
    intro h; have := congrArg List.length h; rw [List.length_take] at this; simp at this
  obtain ⟨r, -, a, b, -, -⟩ := withFrac_begins (i := (Nat.toDigits 10 s).take 1) (f := (Nat.toDigits 10 s).drop 1)
    (fun c hc => hd c (List.mem_of_mem_take hc)) hne (fun c hc => hd c (List.mem_of_mem_drop hc))
  refine ⟨_, r ++ expText k, by rw [a, List.append_assoc], hne, fun c hc => hd c (List.mem_of_mem_take hc), ?_, ?_, ?_, ?_⟩
  · intro c r' he
    cases r with
    | nil => unfold expText at he; simp at he; rw [← he.1]; rfl
    | cons c' r'' => simp at he; exact he.1 ▸ b c' r'' rfl
  · have e := digitsVal_append ((Nat.toDigits 10 s).take 1) ((Nat.toDigits 10 s).drop 1)
    rw [List.take_append_drop, digitsVal_toDigits] at e
    have hl := digitsVal_lt ((Nat.toDigits 10 s).drop 1) (fun c hc => hd c (List.mem_of_mem_drop hc))
    rw [List.length_drop, hlen] at hl e
    rcases Nat.eq_zero_or_pos (digitsVal ((Nat.toDigits 10 s).take 1)) with h0 | h0
    · rw [h0] at e; omega
    · exact h0
  · have hl := digitsVal_lt ((Nat.toDigits 10 s).take 1) (fun c hc => hd c (List.mem_of_mem_take hc))
    have : ((Nat.toDigits 10 s).take 1).length ≤ 1 := by rw [List.length_take]; omega
    have h10 : 10 ^ ((Nat.toDigits 10 s).take 1).length ≤ 10 ^ 1 := Nat.pow_le_pow_right (by norm_num) this
    omega
  · rw [List.length_take]; omega

theorem toDigits_single (c : Char) (hc : c.isDigit = true) : Nat.toDigits 10 (digitsVal [c]) = [c] := by
  have h1 : 48 ≤ c.toNat ∧ c.toNat ≤ 57 := by
    simp [Char.isDigit, UInt32.le_iff_toNat_le] at hc
    exact hc
  have h2 : c = Char.ofNat c.toNat := (Char.ofNat_toNat c).symm
  generalize c.toNat = n at *
  obtain ⟨a, b⟩ := h1
  subst h2
  clear hc
  have h3 : ∀ k < 10, Nat.toDigits 10 (digitsVal [Char.ofNat (48 + k)]) = [Char.ofNat (48 + k)] := by decide
  have := h3 (n - 48) (by omega)
  rwa [show 48 + (n - 48) = n by omega] at this

/-- C118 (what happens otherwise): outside of that range the result is the first digit shown, whatever the number. -/
theorem C118_first_digit_partial (cs : Bool) (bigS : Obj → Str) (bigI : Obj → Int) (h h' : Heap) (neg : Bool) (m : Nat) (e : Int)
    (t : Item.Str) (q : ℚ) (ht : Item.toString floatText bigS h' (make cs h (.numeric (.fin neg m e))).1 = .ok t)
    (hq : readDec t = some q) (hs : ¬ (q = 0 ∨ 1 / 10000 ≤ |q| ∧ |q| < 1000000)) :
    ∃ (d : Int) (r : List Char), 1 ≤ d ∧ d ≤ 9 ∧ t = (if q < 0 then ['-'] else []) ++ Nat.toDigits 10 d.toNat ++ r ∧
      toInt bigI (make cs h' (.string t)).2 (make cs h' (.string t)).1 = .ok (if q < 0 then -d else d) := by
  have ht' : t = text 6 neg ((m : ℚ) * 2 ^ e) := by
    have : floatText (.fin neg m e) = t := by injection ht
    rw [← this]; rfl
  subst ht'
  have hx0 : (0 : ℚ) ≤ (m : ℚ) * 2 ^ e := mul_nonneg (by positivity) (Falcon.Fut.two_pos e).le
  generalize (m : ℚ) * 2 ^ e = x at *
  have hxne : x ≠ 0 := by
    rintro rfl
    apply hs; left
    cases neg with
    | false =>
      have h0 : readDec (text 6 false 0) = some 0 := by decide +kernel
      rw [h0] at hq; injection hq with hq; exact hq.symm
    | true =>
      have h0 : readDec (text 6 true 0) = some 0 := by decide +kernel
      rw [h0] at hq; injection hq with hq; exact hq.symm
  have hx : 0 < x := lt_of_le_of_ne hx0 (Ne.symm hxne)
  have hr := readPos_posText 6 (by norm_num) x hx
  obtain ⟨g1, g2, -, -⟩ := sci_spec 6 (by norm_num) x hx
  have hpos : (0 : ℚ) < ((sci 6 x).1 : ℚ) * 10 ^ ((sci 6 x).2 - (6 : ℕ) + 1) :=
    mul_pos (by exact_mod_cast (by omega : 0 < (sci 6 x).1)) (ten_pos _)
  have hqv : q = if neg then -(((sci 6 x).1 : ℚ) * 10 ^ ((sci 6 x).2 - (6 : ℕ) + 1)) else ((sci 6 x).1 : ℚ) * 10 ^ ((sci 6 x).2 - (6 : ℕ) + 1) := by
    cases neg with
    | false =>
      have : readDec (text 6 false x) = _ := readDec_pos (t := text 6 false x) (by unfold text; rw [if_neg hxne]; exact hr)
      rw [this] at hq; injection hq with hq
      rw [← hq]; simp
    | true =>
      have : readDec (text 6 true x) = (readPos (posText 6 x)).map (fun q => -q) := by unfold text; rw [if_neg hxne]; rfl
      rw [this, hr] at hq; injection hq with hq
      rw [← hq]; simp
  have hqs : q < 0 ↔ neg = true := by
    cases neg with
    | false => simp only [Bool.false_eq_true, if_false] at hqv; simp; rw [hqv]; exact hpos.le
    | true => simp only [if_true] at hqv; simp; rw [hqv]; linarith
  have hqa : |q| = ((sci 6 x).1 : ℚ) * 10 ^ ((sci 6 x).2 - (6 : ℕ) + 1) := by
    rw [hqv]; split
    · rw [abs_neg, abs_of_pos hpos]
    · rw [abs_of_pos hpos]
  have hk : ¬ (-4 ≤ (sci 6 x).2 ∧ (sci 6 x).2 < (6 : ℕ)) := by
    rintro ⟨k1, k2⟩
    apply hs; right
    rw [hqa]
    have g1' : (100000 : ℚ) ≤ ((sci 6 x).1 : ℚ) := by exact_mod_cast (by simpa using g1)
    have g2' : ((sci 6 x).1 : ℚ) < 1000000 := by exact_mod_cast (by simpa using g2)
    have b1 : (10 : ℚ) ^ (-9 : ℤ) ≤ 10 ^ ((sci 6 x).2 - (6 : ℕ) + 1) := zpow_le_zpow_right₀ (by norm_num) (by push_cast; omega)
    have b2 : (10 : ℚ) ^ ((sci 6 x).2 - (6 : ℕ) + 1) ≤ 10 ^ (0 : ℤ) := zpow_le_zpow_right₀ (by norm_num) (by push_cast at *; omega)
    have b0 := ten_pos ((sci 6 x).2 - (6 : ℕ) + 1)
    constructor
    · calc (1 : ℚ) / 10000 = 100000 * 10 ^ (-9 : ℤ) := by norm_num
        _ ≤ _ := mul_le_mul g1' b1 (ten_pos _).le (by positivity)
    · calc _ ≤ ((sci 6 x).1 : ℚ) * 10 ^ (0 : ℤ) := mul_le_mul_of_nonneg_left b2 (by positivity)
        _ < 1000000 := by simpa using g2'
  obtain ⟨i, r, a1, a2, a3, a4, a5, a6, a7⟩ := posText_sci 6 (by norm_num) x hx hk
  have hi1 : i = Nat.toDigits 10 (digitsVal i) := by
    obtain ⟨c, rfl⟩ := List.length_eq_one_iff.1 a7
    rw [toDigits_single c (a3 c (by simp))]
  refine ⟨digitsVal i, r, by exact_mod_cast a5, by exact_mod_cast a6, ?_, ?_⟩
  · rw [Int.toNat_natCast, ← hi1]
    unfold text; rw [if_neg hxne, a1]; simp only [hqs]; cases neg <;> simp
  · rw [(C74_toInt_exact_partial cs bigI h' _).1]
    have hde : (Nat.ofDigitChars 10 i 0 : ℤ) = digitsVal i := by rw [digitsVal_eq]
    refine ⟨[], if neg then ['-'] else [], i, r, ?_, by simp, ?_, a2, a3, a4, ?_, ?_, ?_⟩
    · unfold text; rw [if_neg hxne, a1]; cases neg <;> simp
    · cases neg <;> simp
    · rw [hde]; simp only [hqs]; cases neg <;> simp
    · simp only [hqs]; cases neg <;> simp <;> omega
    · simp only [hqs]; cases neg <;> simp <;> omega

example : readDec "1.67772e+07".toList = some 16777200 ∧ ¬ ((16777200 : ℚ) = 0 ∨ 1 / 10000 ≤ |(16777200 : ℚ)| ∧ |(16777200 : ℚ)| < 1000000) := by
  refine ⟨by decide +kernel, by norm_num⟩

/-- C118 (exactly): the integer read is the number shown without its fraction if and only if the number shown is 0 or from
0.0001 to below 1000000 in size. -/
theorem C118_exact_partial (cs : Bool) (bigS : Obj → Str) (bigI : Obj → Int) (h h' : Heap) (neg : Bool) (m : Nat) (e : Int)
    (t : Item.Str) (q : ℚ) (ht : Item.toString floatText bigS h' (make cs h (.numeric (.fin neg m e))).1 = .ok t)
    (hq : readDec t = some q) :
    toInt bigI (make cs h' (.string t)).2 (make cs h' (.string t)).1 = .ok (if q < 0 then ⌈q⌉ else ⌊q⌋) ↔
      (q = 0 ∨ 1 / 10000 ≤ |q| ∧ |q| < 1000000) := by
  refine ⟨fun hi => ?_, C118_text_to_int_partial cs bigS bigI h h' neg m e t q ht hq⟩
  by_contra hs
  obtain ⟨d, r, d1, d2, -, hd⟩ := C118_first_digit_partial cs bigS bigI h h' neg m e t q ht hq hs
  rw [hd] at hi
  have hi : (if q < 0 then -d else d) = (if q < 0 then ⌈q⌉ else ⌊q⌋) := by injection hi
  have hs' : |q| < 1 / 10000 ∨ 1000000 ≤ |q| := by
    by_contra hc
    push Not at hc
    exact hs (Or.inr hc)
  have hd1 : (1 : ℚ) ≤ d := by exact_mod_cast d1
  have hd2 : (d : ℚ) ≤ 9 := by exact_mod_cast d2
  by_cases h0 : q < 0
  · rw [if_pos h0, if_pos h0] at hi
    have c1 := Int.ceil_lt_add_one q
    have c2 := Int.le_ceil q
    rw [← hi] at c1 c2
    push_cast at c1 c2
    rw [abs_of_neg h0] at hs'
    rcases hs' with hs' | hs' <;> linarith
  · rw [if_neg h0, if_neg h0] at hi
    have c1 := Int.lt_floor_add_one q
    have c2 := Int.floor_le q
    rw [← hi] at c1 c2
    rw [abs_of_nonneg (not_lt.1 h0)] at hs'
    rcases hs' with hs' | hs' <;> linarith

/-- C118 (what holds): every integral number below a million comes back. -/
theorem C118_integers_partial (cs : Bool) (bigS : Obj → Str) (bigI : Obj → Int) (h h' : Heap) (neg : Bool) (m : Nat) (e : Int)
    (n : Int) (hn : Val neg m e = n) (hb : |n| < 1000000) :
    ∃ t, Item.toString floatText bigS h' (make cs h (.numeric (.fin neg m e))).1 = .ok t ∧
      toInt bigI (make cs h' (.string t)).2 (make cs h' (.string t)).1 = .ok n := by
  obtain ⟨t, q, h1, h2, h3⟩ := C115_text cs bigS h h' neg m e
  refine ⟨t, h1, ?_⟩
  have hq : q = n := by
    rw [← hn]; exact nearest_exact h3 ⟨n, 0, by norm_num; exact hb, by rw [hn]; simp⟩
  rw [C118_text_to_int_partial cs bigS bigI h h' neg m e t q h1 h2 ?_]
  · rw [hq]; simp
  · by_cases h0 : n = 0
    · left; rw [hq, h0]; rfl
    · right
      rw [hq, ← Int.cast_abs]
      have : 1 ≤ |n| := Int.one_le_abs h0
      constructor
      · refine le_trans (by norm_num) (show (1 : ℚ) ≤ ((|n| : ℤ) : ℚ) by exact_mod_cast this)
      · exact_mod_cast hb

/-- The item made from -12.75 gives "-12.75", which reads as -12. -/
example (big : Obj → Str) : Item.toString floatText big {} (make true {} (.numeric (.fin true 51 (-2)))).1 = .ok "-12.75".toList ∧
    readDec "-12.75".toList = some (-51 / 4) := by
  have h1 : floatText (.fin true 51 (-2)) = "-12.75".toList := by decide +kernel
  exact ⟨congrArg Except.ok h1, by decide +kernel⟩

end Falcon.FloatText
