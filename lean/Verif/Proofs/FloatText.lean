import Verif.Model.FloatText
import Verif.Spec.FloatText
import Verif.Proofs.FloatEq
import Mathlib.Tactic.Linarith
import Mathlib.Tactic.Positivity
import Mathlib.Tactic.FieldSimp
import Mathlib.Tactic.Ring
/-
Reading back what `FloatText.text` writes.
-/
namespace Falcon.FloatText
open Falcon.Fut (roundEven)

theorem ten_pos (k : ℤ) : (0 : ℚ) < 10 ^ k := zpow_pos (by norm_num) k

theorem roundEven_near (z : ℚ) (n : ℤ) : |(roundEven z : ℚ) - z| ≤ |(n : ℚ) - z| := by
  have h1 := Int.floor_le z
  have h2 := Int.lt_floor_add_one z
  have key : |(roundEven z : ℚ) - z| ≤ z - ⌊z⌋ ∧ |(roundEven z : ℚ) - z| ≤ ⌊z⌋ + 1 - z := by
    unfold roundEven
    split
    · rw [abs_sub_comm, abs_of_nonneg (by linarith)]; constructor <;> linarith
    · split
      · push_cast
        rw [abs_of_nonneg (by linarith)]; constructor <;> linarith
      · split
        · rw [abs_sub_comm, abs_of_nonneg (by linarith)]; constructor <;> linarith
        · push_cast
          rw [abs_of_nonneg (by linarith)]; constructor <;> linarith
  rcases le_or_gt n ⌊z⌋ with hn | hn
  · have : (n : ℚ) ≤ ⌊z⌋ := by exact_mod_cast hn
    rw [abs_sub_comm (n : ℚ), abs_of_nonneg (a := z - n) (by linarith)]
    linarith [key.1]
  · have : ((⌊z⌋ + 1 : ℤ) : ℚ) ≤ n := by exact_mod_cast hn
    push_cast at this
    rw [abs_of_nonneg (a := (n : ℚ) - z) (by linarith)]
    linarith [key.2]

/-- The digits and exponent: exactly `p` digits, standing for the decimal number closest to x. -/
theorem sci_spec (p : Nat) (hp : 0 < p) (x : ℚ) (hx : 0 < x) :
    10 ^ (p - 1) ≤ (sci p x).1 ∧ (sci p x).1 < 10 ^ p ∧
    ((sci p x).2 = Int.log 10 x ∨ (sci p x).2 = Int.log 10 x + 1) ∧
    ((sci p x).1 : ℚ) * 10 ^ ((sci p x).2 - p + 1)
      = roundEven (x / 10 ^ (Int.log 10 x - p + 1)) * 10 ^ (Int.log 10 x - p + 1) := by
  have hL := Int.zpow_log_le_self (b := 10) (by norm_num) hx
  have hU := Int.lt_zpow_succ_log_self (b := 10) (by norm_num) x
  push_cast at hL hU
  obtain ⟨k, hk⟩ : ∃ k, k = Int.log 10 x := ⟨_, rfl⟩
  rw [← hk] at hL hU ⊢
  have hg := ten_pos (k - p + 1)
  have e1 : (10 : ℚ) ^ k = ((10 ^ (p - 1) : ℕ) : ℚ) * 10 ^ (k - p + 1) := by
    push_cast; rw [← zpow_natCast, ← zpow_add₀ (by norm_num)]; congr 1; omega
  have e2 : (10 : ℚ) ^ (k + 1) = ((10 ^ p : ℕ) : ℚ) * 10 ^ (k - p + 1) := by
    push_cast; rw [← zpow_natCast, ← zpow_add₀ (by norm_num)]; congr 1; omega
  have z1 : (((10 ^ (p - 1) : ℕ) : ℤ) : ℚ) ≤ x / 10 ^ (k - p + 1) := by
    rw [le_div_iff₀ hg]; push_cast at e1 ⊢; rw [← e1]; exact hL
  have z2 : x / 10 ^ (k - p + 1) ≤ (((10 ^ p : ℕ) : ℤ) : ℚ) := by
    rw [div_le_iff₀ hg]; push_cast at e2 ⊢; rw [← e2]; exact hU.le
  have r1 := Falcon.Fut.roundEven_mono _ _ z1
  have r2 := Falcon.Fut.roundEven_mono _ _ z2
  rw [Falcon.Fut.roundEven_int] at r1 r2
  obtain ⟨r, hr⟩ : ∃ r, r = roundEven (x / 10 ^ (k - p + 1)) := ⟨_, rfl⟩
  rw [← hr] at r1 r2 ⊢
  have hsci : sci p x = if r.toNat = 10 ^ p then (10 ^ (p - 1), k + 1) else (r.toNat, k) := by
    unfold sci; rw [← hk]; dsimp only; rw [← hr]
  have hpp : 10 ^ p = 10 * 10 ^ (p - 1) := by
    obtain ⟨q, rfl⟩ : ∃ q, p = q + 1 := ⟨p - 1, by omega⟩
    rw [Nat.pow_succ]; simp; ring
  have hpos : 0 < 10 ^ (p - 1) := Nat.pow_pos (by norm_num)
  by_cases h : r.toNat = 10 ^ p
  · rw [hsci, if_pos h]
    refine ⟨Nat.le_refl _, by dsimp only; omega, .inr rfl, ?_⟩
    dsimp only
    have : (r : ℚ) = ((10 ^ p : ℕ) : ℚ) := by
      have : r = ((10 ^ p : ℕ) : ℤ) := by omega
      rw [this]; push_cast; rfl
    rw [this]; push_cast
    rw [← zpow_natCast, ← zpow_natCast, ← zpow_add₀ (by norm_num), ← zpow_add₀ (by norm_num)]; congr 1; omega
  · rw [hsci, if_neg h]
    refine ⟨by dsimp only; omega, by dsimp only; omega, .inl rfl, ?_⟩
    dsimp only
    have : ((r.toNat : ℕ) : ℚ) = (r : ℚ) := by
      have : ((r.toNat : ℕ) : ℤ) = r := by omega
      rw [← this]; push_cast; rfl
    rw [this]

/-- No decimal number of at most `p` digits is closer. -/
theorem sci_nearest (p : Nat) (hp : 0 < p) (x : ℚ) (hx : 0 < x) :
    Nearest p x ((sci p x).1 * 10 ^ ((sci p x).2 - p + 1)) := by
  obtain ⟨h1, h2, h3, h4⟩ := sci_spec p hp x hx
  refine ⟨⟨(sci p x).1, (sci p x).2 - p + 1, ?_, by push_cast; rfl⟩, ?_⟩
  · rw [abs_of_nonneg (by omega)]; exact_mod_cast h2
  rw [h4]
  rintro d ⟨n, j, hn, rfl⟩
  have hL := Int.zpow_log_le_self (b := 10) (by norm_num) hx
  push_cast at hL
  obtain ⟨k, hk⟩ : ∃ k, k = Int.log 10 x := ⟨_, rfl⟩
  rw [← hk] at hL ⊢
  have hg := ten_pos (k - p + 1)
  have grid : ∀ m : ℤ, |(roundEven (x / 10 ^ (k - p + 1)) : ℚ) * 10 ^ (k - p + 1) - x| ≤ |(m : ℚ) * 10 ^ (k - p + 1) - x| := by
    intro m
    have hm := roundEven_near (x / 10 ^ (k - p + 1)) m
    have := mul_le_mul_of_nonneg_right hm hg.le
    have ab : ∀ a : ℚ, |a - x / 10 ^ (k - p + 1)| * 10 ^ (k - p + 1) = |a * 10 ^ (k - p + 1) - x| := by
      intro a
      rw [← abs_of_pos hg, ← abs_mul, abs_of_pos hg, sub_mul, div_mul_cancel₀ _ hg.ne']
    rw [ab, ab] at this
    exact this
  rcases le_or_gt (k - p + 1) j with hj | hj
  · have : (n : ℚ) * 10 ^ j = ((n * 10 ^ (j - (k - p + 1)).toNat : ℤ) : ℚ) * 10 ^ (k - p + 1) := by
      push_cast
      rw [mul_assoc, ← zpow_natCast, ← zpow_add₀ (by norm_num)]; congr 2; omega
    rw [this]; exact grid _
  · have e1 : (10 : ℚ) ^ k = ((10 ^ (p - 1) : ℤ) : ℚ) * 10 ^ (k - p + 1) := by
      push_cast; rw [← zpow_natCast, ← zpow_add₀ (by norm_num)]; congr 1; omega
    have hd : (n : ℚ) * 10 ^ j ≤ 10 ^ k := by
      have hn' : (n : ℚ) ≤ 10 ^ p := by
        have : n ≤ 10 ^ p := le_trans (le_abs_self n) hn.le
        exact_mod_cast this
      have hj' : (10 : ℚ) ^ j ≤ 10 ^ (k - p) := zpow_le_zpow_right₀ (by norm_num) (by omega)
      calc (n : ℚ) * 10 ^ j ≤ 10 ^ p * 10 ^ j := mul_le_mul_of_nonneg_right hn' (ten_pos j).le
        _ ≤ 10 ^ p * 10 ^ (k - p) := mul_le_mul_of_nonneg_left hj' (by positivity)
        _ = 10 ^ k := by rw [← zpow_natCast, ← zpow_add₀ (by norm_num)]; congr 1; omega
    refine le_trans (grid (10 ^ (p - 1))) ?_
    rw [← e1, abs_sub_comm, abs_of_nonneg (by linarith), abs_sub_comm, abs_of_nonneg (a := x - _) (by linarith)]
    linarith

/-! ### Reading -/

theorem digitsVal_eq (ds : List Char) : digitsVal ds = Nat.ofDigitChars 10 ds 0 := by
  rw [Nat.ofDigitChars_eq_foldl]; rfl

theorem digitsVal_append (a b : List Char) : digitsVal (a ++ b) = digitsVal a * 10 ^ b.length + digitsVal b := by
  rw [digitsVal_eq, digitsVal_eq, digitsVal_eq, Nat.ofDigitChars_append, Nat.ofDigitChars_eq_ofDigitChars_zero, Nat.mul_comm]

theorem digitsVal_zeros (n : Nat) : digitsVal (List.replicate n '0') = 0 := by
  rw [digitsVal_eq, Nat.ofDigitChars_replicate_zero]; simp

theorem digitsVal_toDigits (n : Nat) : digitsVal (Nat.toDigits 10 n) = n := by
  rw [digitsVal_eq, Nat.ofDigitChars_ten_toDigits]

theorem toDigits_digit (n : Nat) : ∀ c ∈ Nat.toDigits 10 n, c.isDigit = true :=
  fun _ hc => Nat.isDigit_of_mem_toDigits (by norm_num) (by norm_num) hc

/-- A text none of whose characters, at the front, is a digit. -/
def NoDigitFirst (r : List Char) : Prop := ∀ c ∈ r.head?, c.isDigit = false

theorem takeWhile_digits {i r : List Char} (hi : ∀ c ∈ i, c.isDigit = true) (hr : NoDigitFirst r) :
    (i ++ r).takeWhile Char.isDigit = i ∧ (i ++ r).dropWhile Char.isDigit = r := by
  have hr' : r.takeWhile Char.isDigit = [] ∧ r.dropWhile Char.isDigit = r := by
    cases r with
    | nil => simp
    | cons c r =>
      have := hr c (by simp)
      simp [this]
  rw [List.takeWhile_append_of_pos hi, List.dropWhile_append_of_pos hi, hr'.1, hr'.2]; simp

/-- Removing the trailing zeros of a fraction. -/
theorem strip_spec (f : List Char) : ∃ n, f = (f.reverse.dropWhile (fun c => c == '0')).reverse ++ List.replicate n '0' := by
  have h := List.takeWhile_append_dropWhile (p := fun c => c == '0') (l := f.reverse)
  refine ⟨(f.reverse.takeWhile (fun c => c == '0')).length, ?_⟩
  have hz : f.reverse.takeWhile (fun c => c == '0') = List.replicate (f.reverse.takeWhile (fun c => c == '0')).length '0' := by
    rw [List.eq_replicate_iff]
    refine ⟨rfl, fun c hc => ?_⟩
    have h2 := List.all_takeWhile (p := fun c => c == '0') (l := f.reverse)
    have := List.all_eq_true.1 h2 c hc
    simpa using this
  have := congrArg List.reverse h
  rw [List.reverse_reverse, List.reverse_append, hz, List.reverse_replicate] at this
  exact this.symm

theorem readPos_withFrac {i f e : List Char} {k : Int} (hi : ∀ c ∈ i, c.isDigit = true) (hi0 : i ≠ [])
    (hf : ∀ c ∈ f, c.isDigit = true) (he : readExp e = some k) (hed : NoDigitFirst e) :
    readPos (withFrac i f ++ e) = some (((digitsVal i : ℚ) + (digitsVal f : ℚ) / 10 ^ f.length) * 10 ^ k) := by
  obtain ⟨n, hn⟩ := strip_spec f
  have hval : (digitsVal f : ℚ) / 10 ^ f.length
      = (digitsVal (f.reverse.dropWhile (fun c => c == '0')).reverse : ℚ) / 10 ^ ((f.reverse.dropWhile (fun c => c == '0')).reverse).length := by
    conv_lhs => rw [hn]
    rw [digitsVal_append, digitsVal_zeros, List.length_append, List.length_replicate, pow_add]
    push_cast
    field_simp
    ring
  unfold withFrac
  generalize hg : (f.reverse.dropWhile (fun c => c == '0')).reverse = g at hn hval
  have hgd : ∀ c ∈ g, c.isDigit = true := by
    intro c hc; apply hf; rw [hn]; simp [hc]
  rw [hval]
  cases g with
  | nil =>
    dsimp only
    obtain ⟨a, b⟩ := takeWhile_digits hi hed
    unfold readPos
    rw [a, b]
    rw [if_neg hi0]
    have : ∀ r, e ≠ '.' :: r := by
      rintro r rfl; simp [readExp] at he
    split
    · rename_i r; exact absurd rfl (this r)
    · rw [he]; simp [digitsVal]
  | cons c g =>
    dsimp only
    rw [List.append_assoc]
    obtain ⟨a, b⟩ := takeWhile_digits (r := '.' :: (c :: g) ++ e) hi (by intro d hd; simp at hd; subst hd; rfl)
    obtain ⟨a', b'⟩ := takeWhile_digits (i := c :: g) hgd hed
    unfold readPos
    rw [a, b, if_neg hi0]
    show (if List.takeWhile Char.isDigit ((c :: g) ++ e) = [] then none else _) = _
    have q1 : (c :: g).append e = c :: g ++ e := rfl
    rw [q1, a', b', if_neg (by simp), he]
    rfl

theorem readExp_expText (k : Int) : readExp (expText k) = some k := by
  have hd : ∀ c ∈ (if k.natAbs < 10 then ['0'] else []) ++ Nat.toDigits 10 k.natAbs, c.isDigit = true := by
    intro c hc
    rcases List.mem_append.1 hc with h | h
    · split at h
      · simp at h; subst h; rfl
      · simp at h
    · exact toDigits_digit _ c h
  have hne : (if k.natAbs < 10 then ['0'] else []) ++ Nat.toDigits 10 k.natAbs ≠ [] := by
    intro h; exact Nat.toDigits_ne_nil (List.append_eq_nil_iff.1 h).2
  have hv : digitsVal ((if k.natAbs < 10 then ['0'] else []) ++ Nat.toDigits 10 k.natAbs) = k.natAbs := by
    rw [digitsVal_append, digitsVal_toDigits]
    split <;> simp [digitsVal]
  unfold expText
  by_cases hk : k < 0
  · rw [if_pos hk]
    show (if _ ∧ _ then _ else _) = _
    rw [if_pos ⟨hne, List.all_eq_true.2 hd⟩]
    show some (-(digitsVal ((if k.natAbs < 10 then ['0'] else []) ++ Nat.toDigits 10 k.natAbs) : Int)) = _
    rw [hv]; congr 1; omega
  · rw [if_neg hk]
    show (if _ ∧ _ then _ else _) = _
    rw [if_pos ⟨hne, List.all_eq_true.2 hd⟩]
    show some ((digitsVal ((if k.natAbs < 10 then ['0'] else []) ++ Nat.toDigits 10 k.natAbs) : Int)) = _
    rw [hv]; congr 1; omega

theorem length_toDigits {p s : Nat} (hp : 0 < p) (h1 : 10 ^ (p - 1) ≤ s) (h2 : s < 10 ^ p) : (Nat.toDigits 10 s).length = p := by
  have a := (Nat.length_toDigits_le_iff (b := 10) (n := s) (k := p) (by norm_num) hp).2 h2
  by_cases hp1 : p = 1
  · have := Nat.length_toDigits_pos (b := 10) (n := s); omega
  · have b := (Nat.length_toDigits_le_iff (b := 10) (n := s) (k := p - 1) (by norm_num) (by omega)).not.2 (by omega)
    omega

theorem split_digits {ds : List Char} (m : Nat) :
    (digitsVal (ds.take m) : ℚ) + (digitsVal (ds.drop m) : ℚ) / 10 ^ (ds.drop m).length
      = (digitsVal ds : ℚ) / 10 ^ (ds.length - m) := by
  have : digitsVal ds = digitsVal (ds.take m) * 10 ^ (ds.drop m).length + digitsVal (ds.drop m) := by
    rw [← digitsVal_append, List.take_append_drop]
  rw [this, List.length_drop]
  push_cast
  field_simp

/-- The text of a positive number reads as the rounded number. -/
theorem readPos_posText (p : Nat) (hp : 0 < p) (x : ℚ) (hx : 0 < x) :
    readPos (posText p x) = some (((sci p x).1 : ℚ) * 10 ^ ((sci p x).2 - p + 1)) := by
  obtain ⟨h1, h2, -, -⟩ := sci_spec p hp x hx
  unfold posText
  generalize sci p x = sk at h1 h2
  obtain ⟨s, k⟩ := sk
  dsimp only at h1 h2 ⊢
  have hl := length_toDigits hp h1 h2
  have hd := toDigits_digit s
  have htake : ∀ m, ∀ c ∈ (Nat.toDigits 10 s).take m, c.isDigit = true := fun m c hc => hd c (List.mem_of_mem_take hc)
  have hdrop : ∀ m, ∀ c ∈ (Nat.toDigits 10 s).drop m, c.isDigit = true := fun m c hc => hd c (List.mem_of_mem_drop hc)
  have htake0 : ∀ m, 0 < m → (Nat.toDigits 10 s).take m ≠ [] := by
    intro m hm h
    have := congrArg List.length h
    rw [List.length_take, hl] at this; simp at this; omega
  split
  · rename_i hk
    split
    · rename_i hk0
      have := readPos_withFrac (e := []) (k := 0) (htake (k.toNat + 1)) (htake0 _ (by omega)) (hdrop (k.toNat + 1)) rfl (by simp [NoDigitFirst])
      rw [List.append_nil] at this
      rw [this, split_digits, hl, digitsVal_toDigits, zpow_zero, mul_one, div_eq_mul_inv, ← zpow_natCast, ← zpow_neg]
      congr 3; omega
    · rename_i hk0
      have := readPos_withFrac (e := []) (k := 0) (i := ['0']) (f := List.replicate ((-k).toNat - 1) '0' ++ Nat.toDigits 10 s)
        (by simp) (by simp) (by
          intro c hc
          rcases List.mem_append.1 hc with h | h
          · rw [List.eq_of_mem_replicate h]; rfl
          · exact hd c h) rfl (by simp [NoDigitFirst])
      rw [List.append_nil] at this
      rw [this, digitsVal_append, digitsVal_zeros, digitsVal_toDigits, List.length_append, List.length_replicate, hl]
      have z : digitsVal ['0'] = 0 := rfl
      rw [z]; push_cast
      rw [zero_mul, zero_add, zero_add, mul_one, div_eq_mul_inv, ← zpow_natCast, ← zpow_neg]
      congr 3; push_cast; omega
  · rename_i hk
    rw [readPos_withFrac (htake 1) (htake0 1 (by omega)) (hdrop 1) (readExp_expText k) (by
      intro c hc; unfold expText at hc; simp at hc; subst hc; rfl),
      split_digits, hl, digitsVal_toDigits, div_eq_mul_inv, ← zpow_natCast, ← zpow_neg, mul_assoc,
      ← zpow_add₀ (by norm_num)]
    congr 3; omega

theorem readPos_neg_head {t : List Char} {q : ℚ} (h : readPos t = some q) : ∀ r, t ≠ '-' :: r := by
  rintro r rfl
  have : (List.takeWhile Char.isDigit ('-' :: r)) = [] := by
    rw [List.takeWhile_cons]; rfl
  unfold readPos at h
  rw [this] at h
  simp at h

theorem readDec_pos {t : List Char} {q : ℚ} (h : readPos t = some q) : readDec t = some q := by
  unfold readDec
  split
  · rename_i r; exact absurd rfl (readPos_neg_head h r)
  · exact h

/-- The text of a number reads as a decimal number of at most `p` digits closest to it. -/
theorem text_nearest (p : Nat) (hp : 0 < p) (neg : Bool) (x : ℚ) (hx : 0 ≤ x) :
    ∃ q, readDec (text p neg x) = some q ∧ Nearest p (if neg then -x else x) q := by
  obtain ⟨q, h1, h2⟩ : ∃ q, readPos (if x = 0 then ['0'] else posText p x) = some q ∧ Nearest p x q := by
    split
    · rename_i h; subst h
      refine ⟨0, by simp [readPos, readExp, digitsVal], ⟨0, 0, by simp, by simp⟩, fun d _ => by simp⟩
    · rename_i h
      exact ⟨_, readPos_posText p hp x (lt_of_le_of_ne hx (Ne.symm h)), sci_nearest p hp x (lt_of_le_of_ne hx (Ne.symm h))⟩
  unfold text
  cases neg
  · exact ⟨q, by simpa using readDec_pos h1, by simpa using h2⟩
  · refine ⟨-q, ?_, ?_⟩
    · simp only [if_true, List.cons_append, List.nil_append]
      generalize (if x = 0 then ['0'] else posText p x) = t at h1 ⊢
      show (readPos t).map _ = _
      rw [h1]; rfl
    · obtain ⟨⟨n, j, h3, h4⟩, h5⟩ := h2
      refine ⟨⟨-n, j, by rwa [abs_neg], by rw [h4]; push_cast; ring⟩, ?_⟩
      rintro d ⟨n', j', h6, h7⟩
      have := h5 (-d) ⟨-n', j', by rwa [abs_neg], by rw [h7]; push_cast; ring⟩
      simp only [if_true]
      rw [← abs_neg, ← abs_neg (d - -x)]
      convert this using 2 <;> ring

end Falcon.FloatText
