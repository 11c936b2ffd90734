import Verif.Proofs.FloatEq
/- C100: EXPECT_FLOAT_EQ. -/
namespace Falcon.Fut

theorem trunc_lt {x : ℚ} {n : ℤ} (h : trunc x = n) : x < n + 1 ∧ (n : ℚ) - 1 < x ∧ (0 < n → (n : ℚ) ≤ x) ∧ (n < 0 → x ≤ n) := by
  unfold trunc at h
  split at h
  · rename_i h0
    have h1 := Int.floor_le x; have h2 := Int.lt_floor_add_one x
    rw [h] at h1 h2
    refine ⟨h2, by linarith, fun _ => h1, ?_⟩
    intro hn
    have : (0 : ℤ) ≤ ⌊x⌋ := Int.floor_nonneg.2 h0
    omega
  · rename_i h0
    have h1 := Int.le_ceil x; have h2 := Int.ceil_lt_add_one x
    rw [h] at h1 h2
    refine ⟨by linarith, by linarith, ?_, fun _ => h1⟩
    intro hn
    have : ⌈x⌉ ≤ 0 := Int.ceil_le.2 (by push_cast; linarith)
    omega

theorem trunc_eq_nonneg {x : ℚ} {n : ℤ} (hn : 0 ≤ n) (h1 : (n : ℚ) ≤ x) (h2 : x < n + 1) : trunc x = n := by
  have h0 : (0 : ℚ) ≤ x := le_trans (by exact_mod_cast hn) h1
  unfold trunc; rw [if_pos h0, Int.floor_eq_iff]; exact ⟨h1, h2⟩

theorem trunc_neg (x : ℚ) : trunc (-x) = - trunc x := by
  unfold trunc
  rcases lt_trichotomy 0 x with h | h | h
  · rw [if_neg (by linarith), if_pos (by linarith), Int.ceil_neg]
  · subst h; simp
  · rw [if_pos (by linarith), if_neg (by linarith), Int.floor_neg]

/-- Scaled values of moderate size are finite and fit int64. -/
theorem cell_ok {rnd : ℚ → ℚ} (h : Rounding rnd) (a : ℚ) (ha : |a| ≤ 920000000000000) :
    ((Dbl.fin a).scale rnd).toInt64 = .ok (trunc (rnd (a * 10000))) := by
  have hb : (9007199254740991 : ℚ) * 1024 = ((9007199254740991 : ℤ) : ℚ) * 2 ^ (10 : ℤ) := by norm_num
  have e1 := h.exact 9007199254740991 10 (by norm_num) (by norm_num)
  have e2 := h.exact (-9007199254740991) 10 (by norm_num) (by norm_num)
  rw [abs_le] at ha
  have u : rnd (a * 10000) ≤ 9007199254740991 * 1024 := by
    rw [hb, ← e1]; apply h.mono; rw [← hb]; linarith
  have l : -(9007199254740991 * 1024) ≤ rnd (a * 10000) := by
    have : -((9007199254740991 : ℚ) * 1024) = ((-9007199254740991 : ℤ) : ℚ) * 2 ^ (10 : ℤ) := by norm_num
    rw [this, ← e2]; apply h.mono; rw [← this]; linarith
  generalize hr : rnd (a * 10000) = r at u l
  unfold Dbl.scale
  dsimp only
  rw [hr]
  rw [if_neg (by
    intro hc
    have : |r| ≤ 9007199254740991 * 1024 := abs_le.2 ⟨l, u⟩
    have h2 : (9007199254740991 * 1024 : ℚ) < 2 ^ 1024 :=
      lt_of_lt_of_le (by norm_num : (9007199254740991 * 1024 : ℚ) < 2 ^ 64) (pow_le_pow_right₀ (by norm_num) (by norm_num))
    exact absurd (lt_of_lt_of_le h2 (le_trans hc this)) (lt_irrefl _))]
  unfold Dbl.toInt64
  dsimp only
  obtain ⟨t1, t2, -, -⟩ := trunc_lt (x := r) rfl
  rw [if_pos]
  have q1 : ((trunc r : ℤ) : ℚ) < ((9223372036854775808 : ℤ) : ℚ) := by push_cast; linarith
  have q2 : ((-9223372036854775808 : ℤ) : ℚ) < ((trunc r : ℤ) : ℚ) := by push_cast; linarith
  have q1' : trunc r < 9223372036854775808 := by exact_mod_cast q1
  have q2' : -9223372036854775808 < trunc r := by exact_mod_cast q2
  omega

theorem floatEq_eq {rnd : ℚ → ℚ} (h : Rounding rnd) (a b : ℚ) (ha : |a| ≤ 920000000000000) (hb : |b| ≤ 920000000000000) :
    floatEq rnd (.fin a) (.fin b) = .ok (decide (trunc (rnd (a * 10000)) = trunc (rnd (b * 10000)))) := by
  unfold floatEq floatCells; rw [cell_ok h a ha, cell_ok h b hb]

/-- C100 does not hold, with the arithmetic of real machines (and any other rounding): two numbers 0.00018 apart
pass, two numbers less than 0.000001 apart fail. All four are doubles. -/
theorem C100_tolerance_refuted (rnd : ℚ → ℚ) (h : Rounding rnd) :
    (floatEq rnd (.fin (3 / 32768)) (.fin (-3 / 32768)) = .ok true ∧ ¬ Close (3 / 32768) (-3 / 32768)) ∧
    (floatEq rnd (.fin 1) (.fin (1 - 1 / 1048576)) = .ok false ∧ Close 1 (1 - 1 / 1048576)) := by
  have r1 : rnd (3 / 32768 * 10000) = 1875 / 2048 := by
    have e := h.exact 1875 (-11) (by norm_num) (by norm_num)
    have q : (3 / 32768 * 10000 : ℚ) = ((1875 : ℤ) : ℚ) * 2 ^ (-11 : ℤ) := by norm_num
    rw [q, e]; norm_num
  have r2 : rnd (-3 / 32768 * 10000) = -(1875 / 2048) := by
    have e := h.exact (-1875) (-11) (by norm_num) (by norm_num)
    have q : (-3 / 32768 * 10000 : ℚ) = ((-1875 : ℤ) : ℚ) * 2 ^ (-11 : ℤ) := by norm_num
    rw [q, e]; norm_num
  have r3 : rnd (1 * 10000) = 10000 := by
    have e := h.int 10000 (by norm_num)
    push_cast at e
    rw [one_mul, e]
  have r4 : rnd ((1 - 1 / 1048576) * 10000) = 655359375 / 65536 := by
    have e := h.exact 655359375 (-16) (by norm_num) (by norm_num)
    have q : ((1 - 1 / 1048576) * 10000 : ℚ) = ((655359375 : ℤ) : ℚ) * 2 ^ (-16 : ℤ) := by norm_num
    rw [q, e]; norm_num
  have t1 : trunc (1875 / 2048) = 0 := trunc_eq_nonneg (by norm_num) (by norm_num) (by norm_num)
  have t2 : trunc (-(1875 / 2048)) = 0 := by rw [trunc_neg, t1]; rfl
  have t3 : trunc 10000 = 10000 := trunc_eq_nonneg (by norm_num) (by norm_num) (by norm_num)
  have t4 : trunc (655359375 / 65536) = 9999 := trunc_eq_nonneg (by norm_num) (by norm_num) (by norm_num)
  refine ⟨⟨?_, ?_⟩, ?_, ?_⟩
  · rw [floatEq_eq h _ _ (by rw [abs_le]; norm_num) (by rw [abs_le]; norm_num), r1, r2, t1, t2]; rfl
  · unfold Close; rw [abs_lt]; norm_num
  · rw [floatEq_eq h _ _ (by rw [abs_le]; norm_num) (by rw [abs_le]; norm_num), r3, r4, t3, t4]; rfl
  · unfold Close; rw [abs_lt]; norm_num

/-- The rounding of binary64 arithmetic is one the theorems speak about. -/
theorem C100_machine_rounding : Rounding rne := rne_rounding

/-- A scaled value with integer part n lies strictly between n-1 and n+1, for n of at most 53 bits. -/
theorem scaled_between {rnd : ℚ → ℚ} (h : Rounding rnd) (y : ℚ) (hy : |y| ≤ 9000000000000000) :
    (trunc (rnd y) : ℚ) - 1 < y ∧ y < trunc (rnd y) + 1 := by
  rw [abs_le] at hy
  have u : rnd y ≤ 9000000000000000 := by
    have := h.int 9000000000000000 (by norm_num); push_cast at this
    rw [← this]; exact h.mono _ _ hy.2
  have l : -9000000000000000 ≤ rnd y := by
    have := h.int (-9000000000000000) (by norm_num); push_cast at this
    rw [← this]; exact h.mono _ _ hy.1
  obtain ⟨t1, t2, t3, t4⟩ := trunc_lt (x := rnd y) rfl
  generalize hn : trunc (rnd y) = n at t1 t2 t3 t4
  have n1 : n ≤ 9000000000000000 := by
    have : (n : ℚ) < ((9000000000000001 : ℤ) : ℚ) := by push_cast; linarith
    have : n < 9000000000000001 := by exact_mod_cast this
    omega
  have n2 : -9000000000000000 ≤ n := by
    have : ((-9000000000000001 : ℤ) : ℚ) < (n : ℚ) := by push_cast; linarith
    have : -9000000000000001 < n := by exact_mod_cast this
    omega
  constructor
  · by_contra hc
    have e := h.int (n - 1) (by rw [abs_le]; omega)
    push_cast at e
    have := h.mono y (n - 1) (by linarith)
    rw [e] at this; linarith
  · by_contra hc
    have e := h.int (n + 1) (by rw [abs_le]; omega)
    push_cast at e
    have := h.mono (n + 1) y (by linarith)
    rw [e] at this; linarith

/-- What does hold, for numbers up to 9·10^11: if EXPECT_FLOAT_EQ passes the numbers differ by less than 0.0002,
if it fails they are different. -/
theorem C100_never_far_partial (rnd : ℚ → ℚ) (h : Rounding rnd) (a b : ℚ) (ha : |a| ≤ 900000000000) (hb : |b| ≤ 900000000000) :
    (floatEq rnd (.fin a) (.fin b) = .ok true → |a - b| < 2 / 10000) ∧
    (floatEq rnd (.fin a) (.fin b) = .ok false → a ≠ b) ∧
    (∃ r, floatEq rnd (.fin a) (.fin b) = .ok r) := by
  rw [floatEq_eq h a b (le_trans ha (by norm_num)) (le_trans hb (by norm_num))]
  refine ⟨?_, ?_, ⟨_, rfl⟩⟩
  · intro hp
    have hp' : trunc (rnd (a * 10000)) = trunc (rnd (b * 10000)) := by simpa using hp
    have s1 := scaled_between h (a * 10000) (by rw [abs_mul]; norm_num; linarith)
    have s2 := scaled_between h (b * 10000) (by rw [abs_mul]; norm_num; linarith)
    rw [hp'] at s1
    rw [abs_lt]; constructor <;> linarith [s1.1, s1.2, s2.1, s2.2]
  · intro hf e
    subst e
    simp at hf

/-- Numbers in the lower half of the same step of 0.0001, on the same side of zero, always pass. -/
theorem C100_same_step_partial (rnd : ℚ → ℚ) (h : Rounding rnd) (a b : ℚ) (n : ℕ) (hn : n ≤ 4000000000000000)
    (ha : n ≤ a * 10000 ∧ a * 10000 ≤ n + 1 / 2) (hb : n ≤ b * 10000 ∧ b * 10000 ≤ n + 1 / 2) :
    floatEq rnd (.fin a) (.fin b) = .ok true ∧ floatEq rnd (.fin (-a)) (.fin (-b)) = .ok true := by
  have key : ∀ x : ℚ, n ≤ x * 10000 ∧ x * 10000 ≤ n + 1 / 2 →
      |x| ≤ 920000000000000 ∧ trunc (rnd (x * 10000)) = n ∧ trunc (rnd (-x * 10000)) = -n := by
    intro x hx
    have hnq : (n : ℚ) ≤ 4000000000000000 := by exact_mod_cast hn
    have hn0 : (0 : ℚ) ≤ n := by positivity
    have e1 := h.int n (by rw [abs_le]; omega)
    have e2 := h.exact (2 * n + 1) (-1) (by rw [abs_le]; omega) (by norm_num)
    have e3 := h.int (-n) (by rw [abs_le]; omega)
    have e4 := h.exact (-(2 * n + 1)) (-1) (by rw [abs_le]; omega) (by norm_num)
    have q2 : (((2 * n + 1 : ℤ)) : ℚ) * 2 ^ (-1 : ℤ) = n + 1 / 2 := by push_cast; norm_num; ring
    have q4 : (((-(2 * n + 1) : ℤ)) : ℚ) * 2 ^ (-1 : ℤ) = -(n + 1 / 2) := by push_cast; norm_num; ring
    rw [q2] at e2; rw [q4] at e4
    push_cast at e1 e3
    have m1 := h.mono _ _ hx.1
    have m2 := h.mono _ _ hx.2
    have m3 := h.mono (-x * 10000) (-n) (by linarith [hx.1])
    have m4 := h.mono (-(n + 1 / 2)) (-x * 10000) (by linarith [hx.2])
    rw [e1] at m1; rw [e2] at m2; rw [e3] at m3; rw [e4] at m4
    refine ⟨by rw [abs_le]; constructor <;> linarith [hx.1, hx.2], trunc_eq_nonneg (by omega) (by push_cast; exact m1) (by push_cast; linarith), ?_⟩
    have : trunc (-(rnd (-x * 10000))) = n := trunc_eq_nonneg (by omega) (by push_cast; linarith) (by push_cast; linarith)
    rw [trunc_neg] at this; omega
  obtain ⟨a1, a2, a3⟩ := key a ha
  obtain ⟨b1, b2, b3⟩ := key b hb
  constructor
  · rw [floatEq_eq h a b a1 b1, a2, b2]; simp
  · rw [floatEq_eq h (-a) (-b) (by rw [abs_neg]; exact a1) (by rw [abs_neg]; exact b1), a3, b3]; simp

/-- The check is undefined behaviour, not a failed check, for a NaN or an infinity on either side, and for
numbers from 2^63/10000 (about 9.2·10^14) on. -/
theorem C100_undefined_partial (rnd : ℚ → ℚ) (h : Rounding rnd) (a b : Dbl)
    (ha : a = .nan ∨ (∃ s, a = .inf s) ∨ ∃ x, a = .fin x ∧ 9223372036854775808 ≤ x * 10000) :
    floatEq rnd a b = .error (.ub .castRange) ∧ floatEq rnd b a = .error (.ub .castRange) := by
  have hcell : (a.scale rnd).toInt64 = .error (.ub .castRange) := by
    rcases ha with e | ⟨s, e⟩ | ⟨x, e, hx⟩
    · subst e; rfl
    · subst e; rfl
    · subst e
      have e1 := h.exact 1 63 (by norm_num) (by norm_num)
      have q : (((1 : ℤ)) : ℚ) * 2 ^ (63 : ℤ) = 9223372036854775808 := by norm_num
      rw [q] at e1
      have m := h.mono _ _ hx
      rw [e1] at m
      unfold Dbl.scale
      dsimp only
      split
      · rfl
      · unfold Dbl.toInt64; dsimp only; rw [if_neg]
        obtain ⟨t1, -, -, -⟩ := trunc_lt (x := rnd (x * 10000)) rfl
        intro hc
        have : ((9223372036854775807 : ℤ) : ℚ) < ((trunc (rnd (x * 10000)) : ℤ) : ℚ) := by push_cast; linarith
        have : 9223372036854775807 < trunc (rnd (x * 10000)) := by exact_mod_cast this
        omega
  have hb : ∃ r, (b.scale rnd).toInt64 = r ∧ (∀ e, r = .error e → e = .ub .castRange) := by
    refine ⟨_, rfl, ?_⟩
    intro e he
    unfold Dbl.toInt64 at he
    split at he
    · split at he
      · exact absurd he (by simp)
      · simpa using he.symm
    · simpa using he.symm
  obtain ⟨r, hr, hr'⟩ := hb
  constructor
  · unfold floatEq floatCells; rw [hcell, hr]
  · unfold floatEq floatCells; rw [hcell, hr]
    cases r with
    | ok v => rfl
    | error e => rw [hr' e rfl]

/-- EXPECT_FLOAT_NE passes exactly when EXPECT_FLOAT_EQ fails. -/
theorem C100_ne_is_not_eq (rnd : ℚ → ℚ) (a b : Dbl) : floatNe rnd a b = (floatEq rnd a b).map (! ·) := by
  unfold floatNe floatEq
  cases hc : floatCells rnd a b with
  | error e => rfl
  | ok v => simp [Except.map]

/-- An argument written as a sum is not compared as that sum: EXPECT_FLOAT_EQ(0.5 + 0.5, 1.0) fails. -/
theorem C100_sum_refuted (rnd : ℚ → ℚ) (h : Rounding rnd) :
    floatEqSum rnd (1 / 2) (1 / 2) (.fin 1) = .ok false ∧ floatEq rnd (.fin (1 / 2 + 1 / 2)) (.fin 1) = .ok true := by
  have r1 : rnd (1 / 2 * 10000) = 5000 := by
    have e := h.int 5000 (by norm_num)
    push_cast at e
    rw [show (1 / 2 * 10000 : ℚ) = 5000 by norm_num, e]
  have r2 : rnd (1 / 2 + 5000) = 10001 / 2 := by
    have e := h.exact 10001 (-1) (by norm_num) (by norm_num)
    have q : (1 / 2 + 5000 : ℚ) = ((10001 : ℤ) : ℚ) * 2 ^ (-1 : ℤ) := by norm_num
    rw [q, e]; norm_num
  have r3 : rnd (1 * 10000) = 10000 := by
    have e := h.int 10000 (by norm_num)
    push_cast at e
    rw [one_mul, e]
  have t1 : trunc (10001 / 2) = 5000 := trunc_eq_nonneg (by norm_num) (by norm_num) (by norm_num)
  have t2 : trunc 10000 = 10000 := trunc_eq_nonneg (by norm_num) (by norm_num) (by norm_num)
  constructor
  · unfold floatEqSum
    rw [r1, r2, cell_ok h 1 (by norm_num), r3, t2]
    unfold Dbl.toInt64
    dsimp only
    rw [t1]; rfl
  · rw [floatEq_eq h _ _ (by rw [abs_le]; norm_num) (by norm_num)]
    norm_num

/-- The hypotheses are met: 1.23451 and 1.23455 lie in one step, on the machine. -/
example : floatEq rne (.fin (123451 / 100000)) (.fin (123455 / 100000)) = .ok true :=
  (C100_same_step_partial rne rne_rounding _ _ 12345 (by norm_num) (by norm_num) (by norm_num)).1

example : |(3 / 32768 : ℚ) - -3 / 32768| < 2 / 10000 :=
  (C100_never_far_partial rne rne_rounding _ _ (by rw [abs_le]; norm_num) (by rw [abs_le]; norm_num)).1 (C100_tolerance_refuted rne rne_rounding).1.1

example : floatEq rne (.fin 1) .nan = .error (.ub .castRange) := (C100_undefined_partial rne rne_rounding .nan (.fin 1) (Or.inl rfl)).2

end Falcon.Fut
