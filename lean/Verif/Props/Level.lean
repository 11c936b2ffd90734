import Verif.Props.UnitTest
/- C94: the argument of -v. -/
namespace Falcon.Fut

/-- C94 does not hold: text that is no number is accepted as level 0, a number followed by anything as that
number, and an empty argument makes the program use a level that was never set. -/
theorem C94_garbage_refuted :
    (parseParams {} {} ["-v".toList, "abc".toList]).toOption.map (fun x => (x.1.verbosity, x.2.2)) = some (0, 0) ∧
    (parseParams {} {} ["-v".toList, "3x".toList]).toOption.map (fun x => (x.1.verbosity, x.2.2)) = some (3, 0) ∧
    (parseParams {} {} ["-v".toList, []] = .error (.ub .uninitRead)) := by
  refine ⟨by decide, by decide, ?_⟩
  rw [parseParams]
  rfl

/-- The runner rejects its options: it returns 1, says so on the error stream, prints the help on the output stream, and its
settings are what they were. -/
def Rejected (u : UT) (w : World) (r : Res (UT × World × Int)) : Prop :=
  ∃ w' help, r = .ok (u, w', 1) ∧ w'.tr = w.tr ∧ w'.tc = w.tc ∧
    (w.cout ≠ w.cerr → w'.content w.cerr = w.content w.cerr ++ "Invalid options\n".toList ∧ w'.content w.cout = w.content w.cout ++ help ∧
      "UnitTest command line options:\n".toList <+: help)

theorem rejected_invalid (u : UT) (w : World) : Rejected u w (invalid u w) := by
  refine ⟨_, usageText, rfl, rfl, rfl, fun hne => ⟨?_, ?_, ?_⟩⟩
  · simp only [print, World.put]
    rw [if_neg (fun e => hne e.symm), if_pos trivial]
  · simp only [print, World.put]
    rw [if_pos trivial, if_neg hne]
  · exact List.isPrefixOf_iff_prefix.1 (by decide +kernel)

theorem parse_v (u : UT) (w : World) (a : Str) : parseParams u w ["-v".toList, a] =
    match readLevel a with
    | none => .error (.ub .uninitRead)
    | some l => if 0 ≤ l ∧ l ≤ 5 then .ok ({ u with verbosity := l.toNat }, w, 0) else invalid u w := by
  rw [parseParams.eq_def]; dsimp only
  rw [if_neg (by decide), if_neg (by decide), if_neg (by decide), if_neg (by decide), if_pos rfl]
  cases readLevel a with
  | none => rfl
  | some l => dsimp only; split <;> rfl

/-- C94 (exact, 1): whatever text follows -v, if reading an int from it stores `l`, the option is accepted iff 0 ≤ l ≤ 5, and
then sets that verbosity and nothing else. -/
theorem C94_level_partial (u : UT) (w : World) (a : Str) (l : Int) (h : Stores a l) :
    (0 ≤ l ∧ l ≤ 5 → parseParams u w ["-v".toList, a] = .ok ({ u with verbosity := l.toNat }, w, 0)) ∧
    (¬ (0 ≤ l ∧ l ≤ 5) → Rejected u w (parseParams u w ["-v".toList, a])) := by
  rw [parse_v, (readLevel_iff a l).2 h]
  dsimp only
  refine ⟨fun hl => if_pos hl, fun hl => ?_⟩
  rw [if_neg hl]; exact rejected_invalid u w

/-- C94 (exact, 2): the level is left unset, and then used, exactly if the argument is empty or blank. -/
theorem C94_unset_partial (u : UT) (w : World) (a : Str) :
    parseParams u w ["-v".toList, a] = .error (.ub .uninitRead) ↔ ∀ c ∈ a, White c := by
  have hd : a.dropWhile isBlank = [] ↔ ∀ c ∈ a, White c := by
    induction a with
    | nil => simp
    | cons c cs ih =>
      rw [List.dropWhile_cons]
      by_cases h : isBlank c = true
      · simp only [h, if_true, ih, List.mem_cons, forall_eq_or_imp, white_iff, true_and]
      · simp [h, white_iff]
  rw [← hd, parse_v]
  have hr : readLevel a = none ↔ a.dropWhile isBlank = [] := by
    unfold readLevel
    split
    · rename_i h; simp [h]
    · rename_i h; simp [h]
    · rename_i h; simp [h]
    · rename_i h1 h2 h3; simp; exact h1
  rw [← hr]
  cases readLevel a with
  | none => simp
  | some l =>
    simp only [reduceCtorEq, iff_false]
    split
    · intro h; cases h
    · intro h; cases h

theorem stores_nat (n : Nat) : Stores (Nat.toDigits 10 n) (min 2147483647 (n : Int)) := by
  have hne : Nat.toDigits 10 n ≠ [] := Nat.toDigits_ne_nil
  refine ⟨[], [], Nat.toDigits 10 n, [], by simp, by simp, .inl rfl, fun c hc => Nat.isDigit_of_mem_toDigits (by decide) (by decide) hc, by simp,
    fun _ h => absurd h hne, ?_⟩
  rw [if_neg (by decide), Nat.ofDigitChars_ten_toDigits]; omega

theorem stores_neg (n : Nat) : Stores ('-' :: Nat.toDigits 10 n) (max (-2147483648) (-(n : Int))) := by
  refine ⟨[], ['-'], Nat.toDigits 10 n, [], by simp, by simp, .inr (.inr rfl), fun c hc => Nat.isDigit_of_mem_toDigits (by decide) (by decide) hc, by simp,
    (fun h => by cases h), ?_⟩
  rw [if_pos rfl, Nat.ofDigitChars_ten_toDigits]; omega

/-- C94 (what holds): a decimal number is accepted iff it is at most 5, and then sets that verbosity. -/
theorem C94_number_partial (u : UT) (w : World) (n : Nat) :
    (n ≤ 5 → parseParams u w ["-v".toList, Nat.toDigits 10 n] = .ok ({ u with verbosity := n }, w, 0)) ∧
    (5 < n → Rejected u w (parseParams u w ["-v".toList, Nat.toDigits 10 n])) := by
  obtain ⟨h1, h2⟩ := C94_level_partial u w _ _ (stores_nat n)
  refine ⟨fun h => ?_, fun h => h2 (by omega)⟩
  rw [h1 (by omega)]
  have : (min 2147483647 (n : Int)).toNat = n := by omega
  rw [this]

/-- Negative numbers are rejected. -/
theorem C94_negative_partial (u : UT) (w : World) (n : Nat) (hn : 0 < n) : Rejected u w (parseParams u w ["-v".toList, '-' :: Nat.toDigits 10 n]) :=
  (C94_level_partial u w _ _ (stores_neg n)).2 (by omega)

/-- Non-vacuity: blanks, a sign and trailing text. -/
example : Stores " +4 of 5".toList 4 := (readLevel_iff _ _).1 (by decide)

end Falcon.Fut
