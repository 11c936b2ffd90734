import Verif.Spec.FloatEq
import Mathlib.Tactic.Linarith
import Mathlib.Tactic.NormNum
import Mathlib.Tactic.FieldSimp
import Mathlib.Tactic.Positivity
import Mathlib.Tactic.Ring
/- Rounding to nearest even is a rounding; truncation and rounding. -/
namespace Falcon.Fut

theorem roundEven_ge (z : ℚ) : ⌊z⌋ ≤ roundEven z := by
  unfold roundEven; split
  · exact le_refl _
  · split
    · omega
    · split <;> omega

theorem roundEven_le (z : ℚ) : roundEven z ≤ ⌊z⌋ + 1 := by
  unfold roundEven; split
  · omega
  · split
    · omega
    · split <;> omega

theorem roundEven_mono (x y : ℚ) (h : x ≤ y) : roundEven x ≤ roundEven y := by
  rcases lt_or_eq_of_le (Int.floor_le_floor h) with hf | hf
  · have := roundEven_le x; have := roundEven_ge y; omega
  · unfold roundEven
    rw [hf]
    by_cases a1 : x - ⌊y⌋ < 1 / 2
    · rw [if_pos a1]; split
      · omega
      · split
        · omega
        · split <;> omega
    · have b1 : ¬ y - ⌊y⌋ < 1 / 2 := by intro h2; exact a1 (by linarith)
      rw [if_neg a1, if_neg b1]
      by_cases a2 : 1 / 2 < x - ⌊y⌋
      · rw [if_pos a2, if_pos (by linarith)]
      · rw [if_neg a2]
        by_cases b2 : 1 / 2 < y - ⌊y⌋
        · rw [if_pos b2]; split <;> omega
        · rw [if_neg b2]

theorem roundEven_int (n : ℤ) : roundEven n = n := by
  unfold roundEven; simp

theorem roundEven_neg (z : ℚ) : roundEven (-z) = - roundEven z := by
  by_cases hz : z = ⌊z⌋
  · rw [hz]
    have : (-((⌊z⌋ : ℤ) : ℚ)) = ((-⌊z⌋ : ℤ) : ℚ) := by push_cast; rfl
    rw [this, roundEven_int, roundEven_int]
  · have hlt : (⌊z⌋ : ℚ) < z := lt_of_le_of_ne (Int.floor_le z) (fun h => hz h.symm)
    have hup : z < ⌊z⌋ + 1 := Int.lt_floor_add_one z
    have hfl : ⌊-z⌋ = -⌊z⌋ - 1 := by
      rw [Int.floor_eq_iff]; push_cast; constructor <;> linarith
    unfold roundEven
    rw [hfl]; push_cast
    by_cases h1 : z - ⌊z⌋ < 1 / 2
    · rw [if_pos h1, if_neg (by intro h; linarith), if_pos (by linarith)]; omega
    · rw [if_neg h1]
      by_cases h2 : 1 / 2 < z - ⌊z⌋
      · rw [if_pos h2, if_pos (by linarith)]; omega
      · rw [if_neg h2, if_neg (by intro h; linarith), if_neg (by intro h; linarith)]
        by_cases h3 : ⌊z⌋ % 2 = 0
        · rw [if_pos h3, if_neg (by omega)]; omega
        · rw [if_neg h3, if_pos (by omega)]; omega

theorem lastPlace_neg (x : ℚ) : lastPlace (-x) = lastPlace x := by unfold lastPlace; rw [abs_neg]

theorem rne_neg (x : ℚ) : rne (-x) = - rne x := by
  unfold rne; rw [lastPlace_neg, neg_div, roundEven_neg]; push_cast; ring

theorem two_pos (k : ℤ) : (0 : ℚ) < 2 ^ k := zpow_pos (by norm_num) k

theorem rne_nonneg {x : ℚ} (h : 0 ≤ x) : 0 ≤ rne x := by
  unfold rne
  have h1 : (0 : ℚ) ≤ x / 2 ^ lastPlace x := div_nonneg h (le_of_lt (two_pos _))
  have h2 := roundEven_mono _ _ h1
  have h3 : roundEven 0 = 0 := by simpa using roundEven_int 0
  rw [h3] at h2
  have : (0 : ℚ) ≤ (roundEven (x / 2 ^ lastPlace x) : ℚ) := by exact_mod_cast h2
  exact mul_nonneg this (le_of_lt (two_pos _))

theorem rne_mono_pos {x y : ℚ} (hx : 0 < x) (h : x ≤ y) : rne x ≤ rne y := by
  have hy : 0 < y := lt_of_lt_of_le hx h
  have hlog : Int.log 2 |x| ≤ Int.log 2 |y| := by rw [abs_of_pos hx, abs_of_pos hy]; exact Int.log_mono_right hx h
  by_cases hk : lastPlace x = lastPlace y
  · unfold rne; rw [hk]
    have h1 := roundEven_mono _ _ (div_le_div_of_nonneg_right h (le_of_lt (two_pos (lastPlace y))))
    have h2 : (roundEven (x / 2 ^ lastPlace y) : ℚ) ≤ (roundEven (y / 2 ^ lastPlace y) : ℚ) := by exact_mod_cast h1
    exact mul_le_mul_of_nonneg_right h2 (le_of_lt (two_pos _))
  · have hlt : lastPlace x < lastPlace y := by unfold lastPlace at hk ⊢; omega
    have hky : lastPlace y = Int.log 2 |y| - 52 := by unfold lastPlace at hlt ⊢; omega
    have hL : Int.log 2 |x| < Int.log 2 |y| := by unfold lastPlace at hlt; omega
    rw [abs_of_pos hx, abs_of_pos hy] at hL
    rw [abs_of_pos hy] at hky
    have hxlt : x < 2 ^ Int.log 2 y := by
      have := (Int.lt_zpow_iff_log_lt (b := 2) (by norm_num) hx).2 hL
      exact_mod_cast this
    have hyge : (2 : ℚ) ^ Int.log 2 y ≤ y := by
      have := Int.zpow_log_le_self (b := 2) (by norm_num) hy
      exact_mod_cast this
    have hxr : rne x ≤ 2 ^ Int.log 2 y := by
      unfold rne
      obtain ⟨N, hN⟩ : ∃ N : ℕ, Int.log 2 y - lastPlace x = N := ⟨(Int.log 2 y - lastPlace x).toNat, by omega⟩
      have e : (2 : ℚ) ^ Int.log 2 y = ((2 ^ N : ℤ) : ℚ) * 2 ^ lastPlace x := by
        have : Int.log 2 y = (N : ℤ) + lastPlace x := by omega
        rw [this, zpow_add₀ (by norm_num)]; push_cast; rw [zpow_natCast]
      have : x / 2 ^ lastPlace x ≤ ((2 ^ N : ℤ) : ℚ) := by
        rw [div_le_iff₀ (two_pos _), ← e]; exact le_of_lt hxlt
      have h1 := roundEven_mono _ _ this
      rw [roundEven_int] at h1
      rw [e]
      exact mul_le_mul_of_nonneg_right (by exact_mod_cast h1) (le_of_lt (two_pos _))
    have hyr : (2 : ℚ) ^ Int.log 2 y ≤ rne y := by
      unfold rne
      have e : (2 : ℚ) ^ Int.log 2 y = ((2 ^ 52 : ℤ) : ℚ) * 2 ^ lastPlace y := by
        have : Int.log 2 y = ((52 : ℕ) : ℤ) + lastPlace y := by omega
        rw [this, zpow_add₀ (by norm_num)]; push_cast; norm_num
      have : ((2 ^ 52 : ℤ) : ℚ) ≤ y / 2 ^ lastPlace y := by
        rw [le_div_iff₀ (two_pos _), ← e]; exact hyge
      have h1 := roundEven_mono _ _ this
      rw [roundEven_int] at h1
      rw [e]
      exact mul_le_mul_of_nonneg_right (by exact_mod_cast h1) (le_of_lt (two_pos _))
    exact le_trans hxr hyr

theorem rne_mono (x y : ℚ) (h : x ≤ y) : rne x ≤ rne y := by
  rcases lt_trichotomy 0 x with hx | hx | hx
  · exact rne_mono_pos hx h
  · subst hx
    have h0 : rne 0 = 0 := by simp [rne, roundEven]
    rw [h0]; exact rne_nonneg h
  · rcases lt_or_ge y 0 with hy | hy
    · have := rne_mono_pos (x := -y) (y := -x) (by linarith) (by linarith)
      rw [rne_neg, rne_neg] at this; linarith
    · have h1 := rne_nonneg hy
      have h2 := rne_nonneg (x := -x) (by linarith)
      rw [rne_neg] at h2; linarith

theorem rne_of_int (x : ℚ) (n : ℤ) (h : x = n * 2 ^ lastPlace x) : rne x = x := by
  unfold rne
  have : x / 2 ^ lastPlace x = n := by rw [div_eq_iff (ne_of_gt (two_pos _))]; exact h
  rw [this, roundEven_int]; exact h.symm

theorem rne_exact (m e : ℤ) (hm : |m| ≤ 9007199254740992) (he : -1074 ≤ e) : rne (m * 2 ^ e) = m * 2 ^ e := by
  by_cases h0 : m = 0
  · subst h0; simp [rne, roundEven]
  have hx : (0 : ℚ) < |(m : ℚ) * 2 ^ e| := abs_pos.2 (mul_ne_zero (by exact_mod_cast h0) (ne_of_gt (two_pos _)))
  by_cases hk : lastPlace ((m : ℚ) * 2 ^ e) ≤ e
  · obtain ⟨N, hN⟩ : ∃ N : ℕ, e - lastPlace ((m : ℚ) * 2 ^ e) = N := ⟨(e - lastPlace ((m : ℚ) * 2 ^ e)).toNat, by omega⟩
    apply rne_of_int _ (m * 2 ^ N)
    generalize lastPlace ((m : ℚ) * 2 ^ e) = k at hk hN
    have : e = (N : ℤ) + k := by omega
    rw [this, zpow_add₀ (by norm_num)]; push_cast; rw [zpow_natCast]; ring
  · have hk' : lastPlace ((m : ℚ) * 2 ^ e) = Int.log 2 |(m : ℚ) * 2 ^ e| - 52 := by unfold lastPlace at hk ⊢; omega
    have hle : (2 : ℚ) ^ Int.log 2 |(m : ℚ) * 2 ^ e| ≤ |(m : ℚ) * 2 ^ e| := by
      have := Int.zpow_log_le_self (b := 2) (by norm_num) hx
      exact_mod_cast this
    have hval : |(m : ℚ) * 2 ^ e| = |(m : ℚ)| * 2 ^ e := by rw [abs_mul, abs_of_pos (two_pos e)]
    have hmq : |(m : ℚ)| ≤ 2 ^ (53 : ℕ) := by
      have : ((|m| : ℤ) : ℚ) ≤ 9007199254740992 := by exact_mod_cast hm
      push_cast at this; norm_num; exact this
    have hL2 : Int.log 2 |(m : ℚ) * 2 ^ e| = e + 53 := by
      have h1 : (2 : ℚ) ^ Int.log 2 |(m : ℚ) * 2 ^ e| ≤ 2 ^ (e + 53) := by
        refine le_trans hle ?_
        rw [hval, show e + 53 = ((53 : ℕ) : ℤ) + e by omega, zpow_add₀ (by norm_num), zpow_natCast]
        exact mul_le_mul_of_nonneg_right hmq (le_of_lt (two_pos _))
      have h2 : Int.log 2 |(m : ℚ) * 2 ^ e| ≤ e + 53 := (zpow_le_zpow_iff_right₀ (by norm_num : (1 : ℚ) < 2)).1 h1
      omega
    have hmabs : |m| = 9007199254740992 := by
      have : (2 : ℚ) ^ (e + 53) ≤ |(m : ℚ)| * 2 ^ e := by rw [← hL2, ← hval]; exact hle
      rw [show e + 53 = ((53 : ℕ) : ℤ) + e by omega, zpow_add₀ (by norm_num), zpow_natCast] at this
      have h2 := le_of_mul_le_mul_right this (two_pos e)
      have h3 : (9007199254740992 : ℤ) ≤ |m| := by
        have : ((9007199254740992 : ℤ) : ℚ) ≤ ((|m| : ℤ) : ℚ) := by push_cast; norm_num at h2; exact h2
        exact_mod_cast this
      omega
    have hlp : lastPlace ((m : ℚ) * 2 ^ e) = e + 1 := by omega
    apply rne_of_int _ (m / 2)
    rw [hlp, zpow_add₀ (by norm_num)]
    have : ((m / 2 : ℤ) : ℚ) * 2 = m := by
      have : (m / 2) * 2 = m := by
        rcases abs_cases m with ⟨h, _⟩ | ⟨h, _⟩ <;> omega
      exact_mod_cast this
    rw [zpow_one, mul_comm ((2:ℚ)^e) 2, ← mul_assoc, this]

theorem rne_rounding : Rounding rne := ⟨rne_mono, rne_exact⟩

theorem id_rounding : Rounding id := ⟨fun _ _ h => h, fun _ _ _ _ => rfl⟩

theorem Rounding.int {rnd : ℚ → ℚ} (h : Rounding rnd) (n : ℤ) (hn : |n| ≤ 9007199254740992) : rnd n = n := by
  have := h.exact n 0 hn (by norm_num)
  simpa using this

end Falcon.Fut
