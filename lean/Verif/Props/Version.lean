import Verif.Model.Version
/- C102. -/
namespace Falcon.Version

/-- Every part below 256. -/
def Ver.Small (v : Ver) : Prop := v.major < 256 ∧ v.minor < 256 ∧ v.revision < 256 ∧ v.patch < 256

/-- Order of versions: the first part that differs decides. -/
def Ver.Lt (v w : Ver) : Prop :=
  v.major < w.major ∨ v.major = w.major ∧ (v.minor < w.minor ∨ v.minor = w.minor ∧
    (v.revision < w.revision ∨ v.revision = w.revision ∧ v.patch < w.patch))

theorem or_add (a b k : Nat) (hb : b < 2 ^ k) : (a * 2 ^ k) ||| b = a * 2 ^ k + b := by
  rw [Nat.mul_comm]; exact (Nat.two_pow_add_eq_or_of_lt hb a).symm

theorem regroup (x c : Nat) : x * 65536 + c * 256 = (x * 256 + c) * 256 := by omega

theorem num_toNat (v : Ver) (h : v.Small) : (num v).toNat = v.major * 16777216 + v.minor * 65536 + v.revision * 256 + v.patch := by
  obtain ⟨h1, h2, h3, h4⟩ := h
  have p24 : (2:Nat) ^ 24 = 16777216 := by decide
  have p16 : (2:Nat) ^ 16 = 65536 := by decide
  have p8 : (2:Nat) ^ 8 = 256 := by decide
  have p32 : (2:Nat) ^ 32 = 4294967296 := by decide
  have e1 : (BitVec.ofNat 32 v.major <<< 24).toNat = v.major * 2 ^ 24 := by
    rw [BitVec.toNat_shiftLeft, Nat.shiftLeft_eq, BitVec.toNat_ofNat, p24, p32]; omega
  have e2 : (BitVec.ofNat 32 v.minor <<< 16).toNat = v.minor * 2 ^ 16 := by
    rw [BitVec.toNat_shiftLeft, Nat.shiftLeft_eq, BitVec.toNat_ofNat, p16, p32]; omega
  have e3 : (BitVec.ofNat 32 v.revision <<< 8).toNat = v.revision * 2 ^ 8 := by
    rw [BitVec.toNat_shiftLeft, Nat.shiftLeft_eq, BitVec.toNat_ofNat, p8, p32]; omega
  have e4 : (BitVec.ofNat 32 v.patch).toNat = v.patch := by rw [BitVec.toNat_ofNat, p32]; omega
  unfold num
  rw [BitVec.toNat_or, BitVec.toNat_or, BitVec.toNat_or, e1, e2, e3, e4]
  rw [or_add v.major (v.minor * 2 ^ 16) 24 (by rw [p16, p24]; omega)]
  have q1 : v.major * 2 ^ 24 + v.minor * 2 ^ 16 = (v.major * 256 + v.minor) * 2 ^ 16 := by rw [p16, p24]; omega
  rw [q1, or_add _ (v.revision * 2 ^ 8) 16 (by rw [p16, p8]; omega)]
  have q2 : (v.major * 256 + v.minor) * 2 ^ 16 + v.revision * 2 ^ 8 = ((v.major * 256 + v.minor) * 256 + v.revision) * 2 ^ 8 := by
    rw [p16, p8]; exact regroup _ _
  rw [q2, or_add _ v.patch 8 (by rw [p8]; omega)]

/-- C102, injective: the number determines the version. -/
theorem C102_injective (v w : Ver) (hv : v.Small) (hw : w.Small) (h : num v = num w) : v = w := by
  have h' := congrArg BitVec.toNat h
  rw [num_toNat v hv, num_toNat w hw] at h'
  obtain ⟨h1, h2, h3, h4⟩ := hv
  obtain ⟨k1, k2, k3, k4⟩ := hw
  cases v; cases w; simp at *; omega

/-- C102, order: compared as unsigned numbers, packed versions are ordered like the versions. -/
theorem C102_order (v w : Ver) (hv : v.Small) (hw : w.Small) : (num v).toNat < (num w).toNat ↔ v.Lt w := by
  rw [num_toNat v hv, num_toNat w hw]
  obtain ⟨h1, h2, h3, h4⟩ := hv
  obtain ⟨k1, k2, k3, k4⟩ := hw
  unfold Ver.Lt; omega

theorem num_toInt (v : Ver) (hv : v.Small) (h : v.major < 128) : (num v).toInt = (num v).toNat := by
  have := num_toNat v hv
  obtain ⟨h1, h2, h3, h4⟩ := hv
  rw [BitVec.toInt_eq_toNat_cond, if_pos]
  rw [this]; omega

/-- C102, order, as the macro really compares (its type is int): it holds for major numbers up to 127. -/
theorem C102_signed_order_partial (v w : Ver) (hv : v.Small) (hw : w.Small) (h1 : v.major < 128) (h2 : w.major < 128) :
    (num v).toInt < (num w).toInt ↔ v.Lt w := by
  rw [num_toInt v hv h1, num_toInt w hw h2, ← C102_order v w hv hw]; omega

/-- C102 does not hold for int comparison from major 128 on: 128.0.0.0 is "older" than 127.0.0.0. -/
theorem C102_signed_order_refuted : (num ⟨128, 0, 0, 0⟩).toInt < (num ⟨127, 0, 0, 0⟩).toInt := by decide

/-- C102: the bound is needed. -/
theorem C102_bound_needed : num ⟨0, 0, 0, 256⟩ = num ⟨0, 0, 1, 0⟩ := by decide

example : Ver.Small ⟨2, 0, 255, 17⟩ := by unfold Ver.Small; decide

end Falcon.Version
