import Verif.Model.Distribute
/- C108. -/
namespace Falcon.Distribute

theorem assign_ok (seq : List Nat) (i : Nat) (m : Mem) (tgt a : Nat) (h : seq[i]? = some a) :
    assign seq i m tgt = .ok (fun b => if b = tgt then m a else m b) := by simp [assign, h]

/-- C108 does not hold when a target is an element that is read later: swapping two elements this way
duplicates one of them. -/
theorem C108_alias_refuted : ∃ m : Mem, m 0 = 1 ∧ m 1 = 2 ∧ ∃ m', distribute [0, 1] 0 m 1 [0] = .ok (m', 1) ∧ m' 1 = 1 ∧ m' 0 = 1 := by
  refine ⟨fun a => a + 1, rfl, rfl, _, rfl, rfl, rfl⟩

/-- C108: the k-th target gets the k-th value, nothing else changes, and the iterator is left on the last
element read, provided the sequence is long enough, no target is an element that is read after it was
assigned, and the targets are different variables. -/
theorem C108_values_partial (seq : List Nat) (i : Nat) (m : Mem) (tgt : Nat) (args : List Nat)
    (hlen : i + args.length < seq.length) (hnd : (tgt :: args).Nodup)
    (hal : ∀ (j k t : Nat), j < k → k < args.length + 1 → (tgt :: args)[j]? = some t → seq[i + k]? ≠ some t) :
    ∃ m', distribute seq i m tgt args = .ok (m', i + args.length) ∧
      (∀ (k t a : Nat), (tgt :: args)[k]? = some t → seq[i + k]? = some a → m' t = m a) ∧
      (∀ b, b ∉ tgt :: args → m' b = m b) := by
  induction args generalizing i m tgt with
  | nil =>
    have h0 : i < seq.length := by simpa using hlen
    have ha : seq[i]? = some seq[i] := by simp [h0]
    refine ⟨_, by simp only [distribute, assign_ok seq i m tgt _ ha]; rfl, ?_, ?_⟩
    · intro k t a hk hs
      cases k with
      | zero => simp at hk hs; subst hk; rw [ha] at hs; cases hs; simp
      | succ k => simp at hk
    · intro b hb; simp at hb; simp [hb]
  | cons t ts ih =>
    have h0 : i < seq.length := by simp at hlen; omega
    have ha : seq[i]? = some seq[i] := by simp [h0]
    obtain ⟨m', h1, h2, h3⟩ := ih (i + 1) (fun b => if b = tgt then m seq[i] else m b) t (by simp at hlen; omega)
      (List.nodup_cons.1 hnd).2 (fun j k u hjk hk hu => by
        have := hal (j + 1) (k + 1) u (by omega) (by simp; omega) (by simpa using hu)
        rwa [show i + 1 + k = i + (k + 1) by omega])
    refine ⟨m', ?_, ?_, ?_⟩
    · simp only [distribute, assign_ok seq i m tgt _ ha]
      rw [h1]; simp; omega
    · intro k u a hk hs
      cases k with
      | zero =>
        simp at hk hs; subst hk; rw [ha] at hs; cases hs
        rw [h3 tgt (List.nodup_cons.1 hnd).1]; simp
      | succ k =>
        have hs' : seq[i + 1 + k]? = some a := by rwa [show i + 1 + k = i + (k + 1) by omega]
        rw [h2 k u a (by simpa using hk) hs']
        have hk2 : k + 1 < (t :: ts).length + 1 := by
          have : (t :: ts)[k]? = some u := by simpa using hk
          obtain ⟨hlt, _⟩ := List.getElem?_eq_some_iff.1 this
          omega
        have : a ≠ tgt := by
          rintro rfl
          exact hal 0 (k + 1) a (by omega) hk2 (by simp) hs
        simp [this]
    · intro b hb
      have hb2 : b ≠ tgt ∧ b ∉ t :: ts := by simpa using hb
      rw [h3 b hb2.2]; simp [hb2.1]

/-- C108: with fewer values than targets the end of the sequence is dereferenced, always. -/
theorem C108_too_short_refuted (seq : List Nat) (i : Nat) (m : Mem) (tgt : Nat) (args : List Nat) (h : seq.length ≤ i + args.length) :
    distribute seq i m tgt args = .error (.ub .derefListEnd) := by
  induction args generalizing i m tgt with
  | nil =>
    have : seq[i]? = none := by simpa using h
    simp [distribute, assign, this]
  | cons t ts ih =>
    cases ha : seq[i]? with
    | none => simp [distribute, assign, ha]
    | some a => simp only [distribute, assign, ha]; exact ih (i + 1) _ t (by simp at h; omega)

/-- What is not a target keeps its value. -/
theorem untouched (seq : List Nat) (i : Nat) (m : Mem) (tgt : Nat) (args : List Nat) (m' : Mem) (n : Nat)
    (h : distribute seq i m tgt args = .ok (m', n)) (b : Nat) (hb : b ∉ tgt :: args) : m' b = m b := by
  induction args generalizing i m tgt with
  | nil =>
    cases h0 : seq[i]? with
    | none => simp [distribute, assign, h0] at h
    | some a0 =>
      simp only [distribute, assign, h0] at h
      cases h
      simp at hb; simp [hb]
  | cons t1 ts ih =>
    cases h0 : seq[i]? with
    | none => simp [distribute, assign, h0] at h
    | some a0 =>
      simp only [distribute, assign, h0] at h
      have hb2 : b ≠ tgt ∧ b ∉ t1 :: ts := by simpa using hb
      rw [ih (i + 1) _ t1 h hb2.2]; simp [hb2.1]

/-- An element none of the earlier arguments has overwritten: its own value is found. -/
theorem fresh (seq : List Nat) (i : Nat) (m : Mem) (tgt : Nat) (args : List Nat) (m' : Mem) (n : Nat)
    (h : distribute seq i m tgt args = .ok (m', n)) (hnd : (tgt :: args).Nodup)
    (k t a : Nat) (ht : (tgt :: args)[k]? = some t) (ha : seq[i + k]? = some a)
    (hno : ∀ j, j < k → (tgt :: args)[j]? ≠ some a) : m' t = m a := by
  induction args generalizing i m tgt k with
  | nil =>
    cases k with
    | succ k => simp at ht
    | zero =>
      have ha0 : seq[i]? = some a := by simpa using ha
      have htt : tgt = t := by simpa using ht
      simp only [distribute, assign, ha0] at h
      cases h
      simp [htt]
  | cons t1 ts ih =>
    cases h0 : seq[i]? with
    | none => simp [distribute, assign, h0] at h
    | some a0 =>
      simp only [distribute, assign, h0] at h
      have hnd2 := List.nodup_cons.1 hnd
      cases k with
      | zero =>
        have haa : a0 = a := by rw [Nat.add_zero, h0] at ha; exact Option.some.inj ha
        have htt : tgt = t := by simpa using ht
        rw [untouched seq (i + 1) _ t1 ts m' n h t (htt ▸ hnd2.1)]
        simp [htt, haa]
      | succ k =>
        have := ih (i + 1) _ t1 h hnd2.2 k (by simpa using ht) (by rwa [show i + 1 + k = i + (k + 1) by omega])
          (fun j hj hja => hno (j + 1) (by omega) (by simpa using hja))
        rw [this]
        have : a ≠ tgt := by
          rintro rfl
          exact hno 0 (by omega) (by simp)
        simp [this]

/-- What C108 asks of one call with memory `m`: it is defined, every target ends with the value that was at its place
in the sequence, nothing else changes, and the iterator is left on the last element read. -/
def Right (seq : List Nat) (i : Nat) (m : Mem) (tgt : Nat) (args : List Nat) : Prop :=
  ∃ m', distribute seq i m tgt args = .ok (m', i + args.length) ∧
    (∀ (k t a : Nat), (tgt :: args)[k]? = some t → seq[i + k]? = some a → m' t = m a) ∧
    (∀ b, b ∉ tgt :: args → m' b = m b)

/-- An element that an earlier argument has already overwritten: the value of an element further to the left is found
in its place. -/
theorem shadowed (seq : List Nat) (i : Nat) (m : Mem) (tgt : Nat) (args : List Nat) (m' : Mem) (n : Nat)
    (h : distribute seq i m tgt args = .ok (m', n)) (hnd : (tgt :: args).Nodup)
    (j k t a : Nat) (hjk : j < k) (ht : (tgt :: args)[k]? = some t) (hj : (tgt :: args)[j]? = some a)
    (ha : seq[i + k]? = some a) : ∃ l b, l < k ∧ seq[i + l]? = some b ∧ m' t = m b := by
  induction args generalizing i m tgt j k with
  | nil =>
    cases k with
    | zero => omega
    | succ k => simp at ht
  | cons t1 ts ih =>
    cases k with
    | zero => omega
    | succ k =>
      cases h0 : seq[i]? with
      | none => simp [distribute, assign, h0] at h
      | some a0 =>
        simp only [distribute, assign, h0] at h
        have hnd2 := (List.nodup_cons.1 hnd).2
        have ht' : (t1 :: ts)[k]? = some t := by simpa using ht
        have ha' : seq[i + 1 + k]? = some a := by rwa [show i + 1 + k = i + (k + 1) by omega]
        by_cases hex : ∃ j', j' < k ∧ (t1 :: ts)[j']? = some a
        · obtain ⟨j', hj', hja⟩ := hex
          obtain ⟨l, b, hl, hb, hm⟩ := ih (i + 1) _ t1 h hnd2 j' k hj' ht' hja ha'
          by_cases hbt : b = tgt
          · exact ⟨0, a0, by omega, by simpa using h0, by rw [hm]; simp [hbt]⟩
          · exact ⟨l + 1, b, by omega, by rwa [show i + (l + 1) = i + 1 + l by omega], by rw [hm]; simp [hbt]⟩
        · have hj0 : j = 0 := by
            cases j with
            | zero => rfl
            | succ j => exact absurd ⟨j, by omega, by simpa using hj⟩ hex
          subst hj0
          have hat : tgt = a := by simpa using hj
          refine ⟨0, a0, by omega, by simpa using h0, ?_⟩
          have := fresh seq (i + 1) _ t1 ts m' n h hnd2 k t a ht' ha' (fun j' h1 h2 => hex ⟨j', h1, h2⟩)
          rw [this]; simp [hat]

/-- C108, exactly: for a sequence of distinct elements that is long enough, the call does what is asked whatever the
values are if and only if the targets are different variables and none of them is an element still to be read. -/
theorem C108_exact_partial (seq : List Nat) (i : Nat) (tgt : Nat) (args : List Nat) (hseq : seq.Nodup) :
    (∀ m, Right seq i m tgt args) ↔
      (i + args.length < seq.length ∧ (tgt :: args).Nodup ∧
        ∀ (j k t : Nat), j < k → k < args.length + 1 → (tgt :: args)[j]? = some t → seq[i + k]? ≠ some t) := by
  have inj : ∀ (p q a : Nat), seq[p]? = some a → seq[q]? = some a → p = q := by
    intro p q a hp hq
    obtain ⟨h1, h2⟩ := List.getElem?_eq_some_iff.1 hp
    obtain ⟨h3, h4⟩ := List.getElem?_eq_some_iff.1 hq
    have hp' := List.pairwise_iff_getElem.1 hseq
    rcases Nat.lt_trichotomy p q with h | h | h
    · exact absurd (h2.trans h4.symm) (hp' p q h1 h3 h)
    · exact h
    · exact absurd (h4.trans h2.symm) (hp' q p h3 h1 h)
  constructor
  · intro H
    obtain ⟨m', h1, h2, -⟩ := H id
    have hlen : i + args.length < seq.length := by
      by_cases hl : seq.length ≤ i + args.length
      · rw [C108_too_short_refuted seq i id tgt args hl] at h1; cases h1
      · omega
    have hread : ∀ k, k < args.length + 1 → ∃ a, seq[i + k]? = some a := by
      intro k hk
      exact ⟨seq[i + k]'(by omega), List.getElem?_eq_getElem (by omega)⟩
    have hnd : (tgt :: args).Nodup := by
      refine List.pairwise_iff_getElem.2 ?_
      intro p q hp hq hpq heq
      have hq' : q < args.length + 1 := by simpa using hq
      obtain ⟨ap, hap⟩ := hread p (by omega)
      obtain ⟨aq, haq⟩ := hread q hq'
      have hqt : (tgt :: args)[q]? = some ((tgt :: args)[q]) := List.getElem?_eq_getElem hq
      have e1 := h2 q _ aq hqt haq
      have e2 := h2 p _ ap ((List.getElem?_eq_getElem hp).trans (congrArg some heq)) hap
      have : ap = aq := by simpa using e2.symm.trans e1
      have := inj _ _ _ hap (this ▸ haq)
      omega
    refine ⟨hlen, hnd, ?_⟩
    intro j k t hjk hk hj hs
    have hkt : (tgt :: args)[k]? = some ((tgt :: args)[k]'(by simpa using hk)) := List.getElem?_eq_getElem (by simpa using hk)
    obtain ⟨l, b, hl, hb, hm⟩ := shadowed seq i id tgt args m' _ h1 hnd j k _ t hjk hkt hj hs
    have := h2 k _ t hkt hs
    have hbt : b = t := by simpa using hm.symm.trans this
    have := inj _ _ _ hb (hbt ▸ hs)
    omega
  · rintro ⟨hlen, hnd, hal⟩ m
    exact C108_values_partial seq i m tgt args hlen hnd hal

/-- Non-vacuity of both sides: the first two elements of three put into other variables, and into each other. -/
example : ([5, 6, 7] : List Nat).Nodup ∧ (∀ m, Right [5, 6, 7] 0 m 8 [9]) ∧ ¬ (∀ m, Right [5, 6, 7] 0 m 6 [5]) := by
  refine ⟨by decide, (C108_exact_partial [5, 6, 7] 0 8 [9] (by decide)).2 ⟨by decide, by decide, ?_⟩, ?_⟩
  · intro j k t hjk hk hj
    obtain ⟨rfl, rfl⟩ : j = 0 ∧ k = 1 := by simp at hk; omega
    obtain rfl : 8 = t := by simpa using hj
    decide
  · intro H
    exact ((C108_exact_partial [5, 6, 7] 0 6 [5] (by decide)).1 H).2.2 0 1 6 (by decide) (by decide) (by decide) (by decide)

/-- Non-vacuity: three targets, a sequence of four, starting at the second. -/
example : 1 + [20, 21].length < [5, 6, 7, 8].length ∧ ([22, 20, 21] : List Nat).Nodup := by decide

end Falcon.Distribute
