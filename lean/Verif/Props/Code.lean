import Verif.Spec.Code
/- C79, C80, C81. -/
namespace Falcon.Code

/-! ### The buffer -/

theorem copyIn_ok (s : Str) (b : Buf) (i : Nat) (h : i + s.length ≤ bufSize) :
    ∃ b', b.copyIn i s = .ok b' ∧ ∀ j, b' j = if i ≤ j ∧ j < i + s.length then s[j - i]? else b j := by
  induction s generalizing b i with
  | nil => exact ⟨b, rfl, fun j => by rw [if_neg]; simp⟩
  | cons c cs ih =>
    simp only [List.length_cons] at h
    have hi : i < bufSize := by omega
    obtain ⟨b', h1, h2⟩ := ih (fun j => if j = i then some c else b j) (i + 1) (by omega)
    refine ⟨b', by simp only [Buf.copyIn, Buf.put, if_pos hi]; exact h1, fun j => ?_⟩
    rw [h2 j]
    simp only [List.length_cons]
    by_cases e : j = i
    · subst e
      have n1 : ¬ (j + 1 ≤ j ∧ j < j + 1 + cs.length) := by omega
      have n2 : (j ≤ j ∧ j < j + (cs.length + 1)) := by omega
      simp [n1]
    · by_cases l : i + 1 ≤ j ∧ j < i + 1 + cs.length
      · have l2 : i ≤ j ∧ j < i + (cs.length + 1) := by omega
        have : j - i = (j - (i + 1)) + 1 := by omega
        rw [if_pos l, if_pos l2, this]; simp
      · have l2 : ¬ (i ≤ j ∧ j < i + (cs.length + 1)) := by omega
        rw [if_neg l, if_neg l2, if_neg e]

theorem copyIn_overflow (s : Str) (b : Buf) (i : Nat) (hi : i ≤ bufSize) (h : bufSize < i + s.length) :
    b.copyIn i s = .error (.ub .overflowWrite) := by
  induction s generalizing b i with
  | nil => simp at h; omega
  | cons c cs ih =>
    simp only [List.length_cons] at h
    by_cases e : i < bufSize
    · simp only [Buf.copyIn, Buf.put, if_pos e]
      exact ih _ _ (by omega) (by omega)
    · simp only [Buf.copyIn, Buf.put, if_neg e]

theorem fill_ok (s : Str) (h : s.length < 1000) :
    ∃ b, fill s = .ok b ∧ (∀ j, j < s.length → b j = s[j]?) ∧ b s.length = some '\x00' := by
  obtain ⟨b, h1, h2⟩ := copyIn_ok s Buf.fresh 0 (by simp [bufSize]; omega)
  refine ⟨fun j => if j = s.length then some '\x00' else b j, ?_, ?_, by simp⟩
  · have : s.length < bufSize := h
    simp only [fill, h1, Buf.put, if_pos this]
  · intro j hj
    have e : j ≠ s.length := by omega
    have e2 : 0 ≤ j ∧ j < 0 + s.length := by omega
    simp only [if_neg e, h2, if_pos e2]
    rfl

theorem fill_overflow (s : Str) (h : 1000 ≤ s.length) : fill s = .error (.ub .overflowWrite) := by
  by_cases e : s.length = 1000
  · obtain ⟨b, h1, h2⟩ := copyIn_ok s Buf.fresh 0 (by simp [bufSize]; omega)
    have : ¬ s.length < bufSize := by simp [bufSize]; omega
    simp only [fill, h1, Buf.put, if_neg this]
  · have := copyIn_overflow s Buf.fresh 0 (by simp) (by simp [bufSize]; omega)
    simp only [fill, this]

theorem readZ_eq (s : Str) (b : Buf) (left i : Nat) (hl : s.length < left) (h : ∀ j, j < s.length → b (i + j) = s[j]?) (hz : b (i + s.length) = some '\x00') :
    b.readZ left i = .ok (s.takeWhile (· ≠ '\x00')) := by
  induction s generalizing left i with
  | nil =>
    cases left with
    | zero => simp at hl
    | succ n => simp at hz; simp [Buf.readZ, hz]
  | cons c cs ih =>
    cases left with
    | zero => simp at hl
    | succ n =>
      have h0 := h 0 (by simp)
      simp at h0
      have ih' := ih n (i + 1) (by simp at hl; exact hl) (fun j hj => by
        have := h (j + 1) (by simp; exact hj)
        simp at this
        rw [← this]; congr 1; omega) (by
        rw [← hz]; congr 1; simp; omega)
      simp only [Buf.readZ, h0, ih']
      by_cases e : c = '\x00'
      · simp [e]
      · simp [e]

theorem takeWhile_self_iff (p : Char → Bool) (s : Str) : s.takeWhile p = s ↔ ∀ c ∈ s, p c = true := by
  induction s with
  | nil => simp
  | cons c cs ih => cases h : p c <;> simp [List.takeWhile_cons, h, ih]

theorem takeWhile_holdable (s : Str) (h : '\x00' ∉ s) : s.takeWhile (· ≠ '\x00') = s := by
  apply (takeWhile_self_iff _ _).2
  intro c hc
  simp
  rintro rfl
  exact h hc

/-! ### C79 -/

/-- The program `Code c(s, l); c.toString();`. -/
def roundTrip (s : Str) (l : Int) : Option (Res St) := run {} [.new 0 s l, .use 0]

/-- C79 does not hold: a source text of 1000 characters or more is written past the buffer. -/
theorem C79_long_refuted (s : Str) (l : Int) (h : 1000 ≤ s.length) : run {} [.new 0 s l] = some (.error (.ub .overflowWrite)) := by
  simp [run, exec, fill_overflow s h]

/-- C79 does not hold: everything from the first NUL on is lost. -/
theorem C79_nul_refuted : (roundTrip ['a', '\x00', 'b'] 1).map (fun r => r.toOption.map St.out) = some (some [['a']]) := by
  decide

/-- C79 (exact): in any program state, in any new variable: a text below 1000 characters is kept up to
its first NUL. -/
theorem C79_text_partial (st : St) (x : Nat) (s : Str) (l : Int) (hx : st.var x = none) (h : s.length < 1000) :
    ∃ st', run st [.new x s l, .use x] = some (.ok st') ∧ st'.out = st.out ++ [s.takeWhile (· ≠ '\x00')] := by
  obtain ⟨b, h1, h2, h3⟩ := fill_ok s h
  have := readZ_eq s b bufSize 0 h (by simpa using h2) (by simpa using h3)
  refine ⟨{ (setVar { st with buf := fun a => if a = st.next then some b else st.buf a, next := st.next + 1 } x (some ⟨s, l, some st.next⟩)) with out := st.out ++ [s.takeWhile (· ≠ '\x00')] }, ?_, rfl⟩
  simp only [run, exec, hx, h1, setVar, toString, if_true, this]

/-- C79 (characterisation): the text comes back iff it is shorter than 1000 characters and has no NUL. -/
theorem C79_iff_partial (s : Str) (l : Int) : (∃ st, roundTrip s l = some (.ok st) ∧ st.out = [s]) ↔ s.length < 1000 ∧ '\x00' ∉ s := by
  constructor
  · rintro ⟨st, h, ho⟩
    by_cases hs : s.length < 1000
    · refine ⟨hs, fun hz => ?_⟩
      obtain ⟨st', h', ho'⟩ := C79_text_partial {} 0 s l rfl hs
      unfold roundTrip at h
      rw [h'] at h; cases h
      rw [ho'] at ho
      simp at ho
      have := (takeWhile_self_iff _ _).1 ho _ hz
      simp at this
    · have := C79_long_refuted s l (by omega)
      simp only [roundTrip, run] at h
      simp only [run] at this
      split at this <;> simp_all
  · rintro ⟨hs, hz⟩
    obtain ⟨st', h', ho'⟩ := C79_text_partial {} 0 s l rfl hs
    exact ⟨st', h', by rw [ho', takeWhile_holdable s hz]; rfl⟩

example : Holdable ['h', 'i'] := by constructor <;> decide
example : 1000 ≤ (List.replicate 1000 'x').length := by rw [List.length_replicate]; exact Nat.le_refl _

/-! ### C80 -/

/-- What relates the program state to the value semantics: variable by variable the same text, every
live buffer owned by exactly one variable. -/
structure Rel (s : St) (a : Ideal) : Prop where
  none' : ∀ x, a.val x = none ↔ s.var x = none
  moved : ∀ x c, s.var x = some c → (a.val x = some none ↔ c.data = none)
  text  : ∀ x t, a.val x = some (some t) → Holdable t ∧ ∃ c p b, s.var x = some c ∧ c.data = some p ∧ s.buf p = some b ∧ b.readZ bufSize 0 = .ok t
  dist  : ∀ x y c d p, s.var x = some c → s.var y = some d → c.data = some p → d.data = some p → x = y
  live  : ∀ p, s.buf p ≠ none → ∃ x c, s.var x = some c ∧ c.data = some p
  fresh : ∀ p, s.buf p ≠ none → p < s.next
  out   : s.out = a.out

theorem Rel.init : Rel {} {} := by
  refine ⟨?_, ?_, ?_, ?_, ?_, ?_, rfl⟩
  · intro x; simp
  · intro x c h; cases h
  · intro x t h; cases h
  · intro x y c d p h; cases h
  · intro p h; exact absurd rfl h
  · intro p h; exact absurd rfl h

/-- Case split on what a variable holds. -/
theorem Rel.case {s : St} {a : Ideal} (g : Rel s a) (x : Nat) (c : Code) (hx : s.var x = some c) :
    (a.val x = some none ∧ c.data = none) ∨
    ∃ t p b, a.val x = some (some t) ∧ c.data = some p ∧ s.buf p = some b ∧ b.readZ bufSize 0 = .ok t := by
  cases h : a.val x with
  | none => rw [(g.none' x).1 h] at hx; cases hx
  | some v =>
    cases v with
    | none => exact .inl ⟨rfl, (g.moved x c hx).1 h⟩
    | some t =>
      obtain ⟨_, c', p, b, h1, h2, h3, h4⟩ := g.text x t h
      rw [hx] at h1; cases h1
      exact .inr ⟨t, p, b, rfl, h2, h3, h4⟩

theorem Rel.owned {s : St} {a : Ideal} (g : Rel s a) (x : Nat) (c : Code) (p : Nat) (hx : s.var x = some c) (hp : c.data = some p) : s.buf p ≠ none := by
  rcases g.case x c hx with ⟨_, h⟩ | ⟨t, q, b, _, h2, h3, _⟩
  · rw [hp] at h; cases h
  · rw [hp] at h2; cases h2; rw [h3]; simp

theorem Rel.some' {s : St} {a : Ideal} (g : Rel s a) {x : Nat} {v : Option Str} (h : a.val x = some v) : ∃ c, s.var x = some c := by
  cases hv : s.var x with
  | some c => exact ⟨c, rfl⟩
  | none => rw [(g.none' x).2 hv] at h; cases h

theorem Rel.step {s : St} {a b : Ideal} {o : Op} (g : Rel s a) (h : Ideal.Step a o b) : ∃ s', exec s o = some (.ok s') ∧ Rel s' b := by
  cases h with
  | @new x t l hx ht =>
    obtain ⟨bf, h1, h2, h3⟩ := fill_ok t ht.1
    have hr := readZ_eq t bf bufSize 0 ht.1 (by simpa using h2) (by simpa using h3)
    rw [takeWhile_holdable t ht.2] at hr
    have hv := (g.none' x).1 hx
    refine ⟨(setVar { s with buf := fun a => if a = s.next then some bf else s.buf a, next := s.next + 1 } x (some ⟨t, l, some s.next⟩)), by simp only [exec, hv, h1], ?_, ?_, ?_, ?_, ?_, ?_, g.out⟩
    · intro y
      by_cases e : y = x <;> simp [setVar, e]
      exact g.none' y
    · intro y c hc
      by_cases e : y = x
      · simp [setVar, e] at hc; subst hc; simp [e]
      · simp [setVar, e] at hc; simp [e]; exact g.moved y c hc
    · intro y u hu
      by_cases e : y = x
      · simp [e] at hu; subst hu
        exact ⟨ht, ⟨t, l, some s.next⟩, s.next, bf, by simp [setVar, e], rfl, by simp [setVar], hr⟩
      · simp [e] at hu
        obtain ⟨q, c, p, bb, k1, k2, k3, k4⟩ := g.text y u hu
        have : p ≠ s.next := by have := g.fresh p (by rw [k3]; simp); omega
        exact ⟨q, c, p, bb, by simp [setVar, e]; exact k1, k2, by simp [setVar, this]; exact k3, k4⟩
    · have old : ∀ y d, s.var y = some d → d.data ≠ some s.next := fun y d hy hd => by
        have := g.fresh _ (g.owned y d _ hy hd); omega
      intro y z c d p hy hz hc hd
      by_cases e : y = x <;> by_cases e2 : z = x
      · rw [e, e2]
      · simp [setVar, e] at hy; simp [setVar, e2] at hz
        subst hy; simp at hc; subst hc; exact absurd hd (old z d hz)
      · simp [setVar, e] at hy; simp [setVar, e2] at hz
        subst hz; simp at hd; subst hd; exact absurd hc (old y c hy)
      · simp [setVar, e] at hy; simp [setVar, e2] at hz
        exact g.dist y z c d p hy hz hc hd
    · intro p hp
      by_cases e : p = s.next
      · exact ⟨x, ⟨t, l, some s.next⟩, by simp [setVar], by rw [e]⟩
      · simp [setVar, e] at hp
        obtain ⟨y, c, k1, k2⟩ := g.live p hp
        have : y ≠ x := by rintro rfl; rw [hv] at k1; cases k1
        exact ⟨y, c, by simp [setVar, this]; exact k1, k2⟩
    · intro p hp
      by_cases e : p = s.next
      · simp [setVar, e]
      · simp [setVar, e] at hp
        have := g.fresh p hp
        simp [setVar]; omega
  | @move x y v hx hy =>
    have hv := (g.none' x).1 hx
    obtain ⟨c, hc⟩ := g.some' hy
    have hxy : y ≠ x := by rintro rfl; rw [hx] at hy; cases hy
    refine ⟨setVar (setVar s y (some { c with source := [], data := none })) x (some c), by simp only [exec, hv, hc], ?_, ?_, ?_, ?_, ?_, g.fresh, g.out⟩
    · intro z
      by_cases e : z = x
      · simp [setVar, e]
      · by_cases e2 : z = y
        · simp [setVar, e2, hxy]
        · simp [setVar, e, e2]; exact g.none' z
    · intro z d hd
      by_cases e : z = x
      · simp [setVar, e] at hd; subst hd
        have := g.moved y c hc
        rw [hy] at this
        simpa [e] using this
      · by_cases e2 : z = y
        · simp [setVar, e2, hxy] at hd; subst hd; simp [e2, hxy]
        · simp [setVar, e, e2] at hd; simp [e, e2]; exact g.moved z d hd
    · intro z u hu
      by_cases e : z = x
      · simp [e] at hu
        rw [hu] at hy
        obtain ⟨q, c', p, b, k1, k2, k3, k4⟩ := g.text y u hy
        rw [hc] at k1; cases k1
        exact ⟨q, c, p, b, by simp [setVar, e], k2, k3, k4⟩
      · by_cases e2 : z = y
        · simp [e2, hxy] at hu
        · simp [e, e2] at hu
          obtain ⟨q, c', p, b, k1, k2, k3, k4⟩ := g.text z u hu
          exact ⟨q, c', p, b, by simp [setVar, e, e2]; exact k1, k2, k3, k4⟩
    · intro z w d f p hz hw hd hf
      have hwho : ∀ z d, (setVar (setVar s y (some { c with source := [], data := none })) x (some c)).var z = some d → d.data = some p →
          (z = x ∧ c.data = some p) ∨ (z ≠ x ∧ z ≠ y ∧ s.var z = some d) := by
        intro z d hz hd
        by_cases e : z = x
        · simp [setVar, e] at hz; subst hz; exact .inl ⟨e, hd⟩
        · by_cases e2 : z = y
          · simp [setVar, e2, hxy] at hz; subst hz; simp at hd
          · simp [setVar, e, e2] at hz; exact .inr ⟨e, e2, hz⟩
      rcases hwho z d hz hd with ⟨e1, q1⟩ | ⟨n1, m1, q1⟩ <;> rcases hwho w f hw hf with ⟨e2, q2⟩ | ⟨n2, m2, q2⟩
      · rw [e1, e2]
      · exact absurd (g.dist w y f c p q2 hc hf q1) m2
      · exact absurd (g.dist z y d c p q1 hc hd q2) m1
      · exact g.dist z w d f p q1 q2 hd hf
    · intro p hp
      obtain ⟨z, d, k1, k2⟩ := g.live p hp
      by_cases e : z = y
      · rw [e, hc] at k1; cases k1
        exact ⟨x, c, by simp [setVar], k2⟩
      · have : z ≠ x := by rintro rfl; rw [hv] at k1; cases k1
        exact ⟨z, d, by simp [setVar, this, e]; exact k1, k2⟩
  | @copyMoved x y hx hy =>
    have hv := (g.none' x).1 hx
    obtain ⟨c, hc⟩ := g.some' hy
    have hn := (g.moved y c hc).1 hy
    refine ⟨setVar s x (some c), by simp only [exec, hv, hc], ?_, ?_, ?_, ?_, ?_, g.fresh, g.out⟩
    · intro z
      by_cases e : z = x <;> simp [setVar, e]
      exact g.none' z
    · intro z d hd
      by_cases e : z = x
      · simp [setVar, e] at hd; subst hd; simp [e, hn]
      · simp [setVar, e] at hd; simp [e]; exact g.moved z d hd
    · intro z u hu
      by_cases e : z = x
      · simp [e] at hu
      · simp [e] at hu
        obtain ⟨q, c', p, b, k1, k2, k3, k4⟩ := g.text z u hu
        exact ⟨q, c', p, b, by simp [setVar, e]; exact k1, k2, k3, k4⟩
    · intro z w d f p hz hw hd hf
      by_cases e : z = x
      · simp [setVar, e] at hz; subst hz; rw [hn] at hd; cases hd
      · by_cases e2 : w = x
        · simp [setVar, e2] at hw; subst hw; rw [hn] at hf; cases hf
        · simp [setVar, e] at hz; simp [setVar, e2] at hw
          exact g.dist z w d f p hz hw hd hf
    · intro p hp
      obtain ⟨z, d, k1, k2⟩ := g.live p hp
      have : z ≠ x := by rintro rfl; rw [hv] at k1; cases k1
      exact ⟨z, d, by simp [setVar, this]; exact k1, k2⟩
  | @assignSelf x v hx =>
    obtain ⟨c, hc⟩ := g.some' hx
    refine ⟨s, ?_, g⟩
    simp only [exec, hc, setVar]
    congr 3
    funext y
    by_cases e : y = x <;> simp [e, hc]
  | @assignMoved x y hx hy =>
    obtain ⟨c, hc⟩ := g.some' hx
    obtain ⟨d, hd⟩ := g.some' hy
    have hn := (g.moved x c hc).1 hx
    have hm := (g.moved y d hd).1 hy
    refine ⟨setVar s x (some d), by simp only [exec, hc, hd], ?_, ?_, ?_, ?_, ?_, g.fresh, g.out⟩
    · intro z
      by_cases e : z = x
      · simp [setVar, e, hx]
      · simp [setVar, e]; exact g.none' z
    · intro z f hf
      by_cases e : z = x
      · simp [setVar, e] at hf; subst hf; simp [e, hm, hx]
      · simp [setVar, e] at hf; exact g.moved z f hf
    · intro z u hu
      have e : z ≠ x := by rintro rfl; rw [hx] at hu; cases hu
      obtain ⟨q, c', p, b, k1, k2, k3, k4⟩ := g.text z u hu
      exact ⟨q, c', p, b, by simp [setVar, e]; exact k1, k2, k3, k4⟩
    · intro z w f k p hz hw hf hk
      by_cases e : z = x
      · simp [setVar, e] at hz; subst hz; rw [hm] at hf; cases hf
      · by_cases e2 : w = x
        · simp [setVar, e2] at hw; subst hw; rw [hm] at hk; cases hk
        · simp [setVar, e] at hz; simp [setVar, e2] at hw
          exact g.dist z w f k p hz hw hf hk
    · intro p hp
      obtain ⟨z, f, k1, k2⟩ := g.live p hp
      have : z ≠ x := by rintro rfl; rw [hc] at k1; cases k1; rw [hn] at k2; cases k2
      exact ⟨z, f, by simp [setVar, this]; exact k1, k2⟩
  | @del x v hx =>
    obtain ⟨c, hc⟩ := g.some' hx
    rcases g.case x c hc with ⟨_, hn⟩ | ⟨t, p, b, k1, k2, k3, k4⟩
    · refine ⟨setVar s x none, by simp only [exec, hc, hn, freeBuf], ?_, ?_, ?_, ?_, ?_, g.fresh, g.out⟩
      · intro z
        by_cases e : z = x <;> simp [setVar, e]
        exact g.none' z
      · intro z f hf
        by_cases e : z = x
        · simp [setVar, e] at hf
        · simp [setVar, e] at hf; simp [e]; exact g.moved z f hf
      · intro z u hu
        by_cases e : z = x
        · simp [e] at hu
        · simp [e] at hu
          obtain ⟨q, c', p, b, k1, k2, k3, k4⟩ := g.text z u hu
          exact ⟨q, c', p, b, by simp [setVar, e]; exact k1, k2, k3, k4⟩
      · intro z w f k p hz hw hf hk
        by_cases e : z = x
        · simp [setVar, e] at hz
        · by_cases e2 : w = x
          · simp [setVar, e2] at hw
          · simp [setVar, e] at hz; simp [setVar, e2] at hw
            exact g.dist z w f k p hz hw hf hk
      · intro p hp
        obtain ⟨z, f, k1, k2⟩ := g.live p hp
        have : z ≠ x := by rintro rfl; rw [hc] at k1; cases k1; rw [hn] at k2; cases k2
        exact ⟨z, f, by simp [setVar, this]; exact k1, k2⟩
    · refine ⟨setVar { s with buf := fun b => if b = p then none else s.buf b } x none, by simp only [exec, hc, k2, freeBuf, k3], ?_, ?_, ?_, ?_, ?_, ?_, g.out⟩
      · intro z
        by_cases e : z = x <;> simp [setVar, e]
        exact g.none' z
      · intro z f hf
        by_cases e : z = x
        · simp [setVar, e] at hf
        · simp [setVar, e] at hf; simp [e]; exact g.moved z f hf
      · intro z u hu
        by_cases e : z = x
        · simp [e] at hu
        · simp [e] at hu
          obtain ⟨q, c', p', b', m1, m2, m3, m4⟩ := g.text z u hu
          have : p' ≠ p := by rintro rfl; exact e (g.dist z x c' c p' m1 hc m2 k2)
          exact ⟨q, c', p', b', by simp [setVar, e]; exact m1, m2, by simp [setVar, this]; exact m3, m4⟩
      · intro z w f k q hz hw hf hk
        by_cases e : z = x
        · simp [setVar, e] at hz
        · by_cases e2 : w = x
          · simp [setVar, e2] at hw
          · simp [setVar, e] at hz; simp [setVar, e2] at hw
            exact g.dist z w f k q hz hw hf hk
      · intro q hq
        by_cases e : q = p
        · simp [setVar, e] at hq
        · simp [setVar, e] at hq
          obtain ⟨z, f, m1, m2⟩ := g.live q hq
          have : z ≠ x := by rintro rfl; rw [hc] at m1; cases m1; rw [k2] at m2; cases m2; exact e rfl
          exact ⟨z, f, by simp [setVar, this]; exact m1, m2⟩
      · intro q hq
        by_cases e : q = p
        · simp [setVar, e] at hq
        · simp [setVar, e] at hq; exact g.fresh q hq
  | @use x t hx =>
    obtain ⟨_, c, p, b, k1, k2, k3, k4⟩ := g.text x t hx
    refine ⟨{ s with out := s.out ++ [t] }, by simp only [exec, k1, toString, k2, k3, k4], g.none', g.moved, g.text, g.dist, g.live, g.fresh, ?_⟩
    show s.out ++ [t] = a.out ++ [t]
    rw [g.out]

theorem Rel.run {s : St} {a b : Ideal} {os : List Op} (g : Rel s a) (h : Ideal.Run a os b) : ∃ s', run s os = some (.ok s') ∧ Rel s' b := by
  induction h generalizing s with
  | nil => exact ⟨s, rfl, g⟩
  | cons h _ ih =>
    obtain ⟨s1, e1, g1⟩ := g.step h
    obtain ⟨s2, e2, g2⟩ := ih g1
    exact ⟨s2, by simp only [Falcon.Code.run, e1]; exact e2, g2⟩

/-- C80 does not hold: copying a Code and destroying both deletes the buffer twice. -/
theorem C80_copy_refuted : run {} [.new 0 ['a'] 1, .copy 1 0, .del 1, .del 0] = some (.error (.ub .doubleFree)) := by rfl

/-- C80 does not hold: `c = compiler.compile(in)` (assignment from a temporary) leaves c with a deleted
buffer, and leaks the one c had. -/
theorem C80_assign_refuted :
    run {} [.new 0 ['a'] 1, .new 1 ['b'] 1, .assign 0 1, .del 1, .use 0] = some (.error (.ub .useAfterFree)) ∧
    ((run {} [.new 0 ['a'] 1, .new 1 ['b'] 1, .assign 0 1, .del 1]).map fun r => r.toOption.map fun s => (s.buf 0).isSome) = some (some true) ∧
    run {} [.new 0 ['a'] 1, .new 1 ['b'] 1, .assign 0 1, .del 1, .del 0] = some (.error (.ub .doubleFree)) := by
  refine ⟨by rfl, by rfl, by rfl⟩

/-- C80 does not hold: toString on a Code that was moved from. -/
theorem C80_moved_from_refuted : run {} [.new 0 ['a'] 1, .move 1 0, .use 0] = some (.error (.ub .nullDeref)) := by rfl

/-- C80 (what holds): every history of constructions (of texts that fit), moves, destructions and
toString calls on objects that hold a text behaves as with plain values: nothing is undefined, toString
returns the text, and each buffer that exists is owned by exactly one variable in scope, so all are
freed exactly once. Copies and assignments are only covered when no buffer is involved. -/
theorem C80_lifetime_partial (os : List Op) (b : Ideal) (h : Ideal.Run {} os b) :
    ∃ s, run {} os = some (.ok s) ∧ s.out = b.out ∧ (∀ x, s.var x = none ↔ b.val x = none) ∧
      (∀ p, s.buf p ≠ none ↔ ∃ x c, s.var x = some c ∧ c.data = some p) ∧
      (∀ x y c d p, s.var x = some c → s.var y = some d → c.data = some p → d.data = some p → x = y) := by
  obtain ⟨s, e, g⟩ := Rel.init.run h
  refine ⟨s, e, g.out, fun x => (g.none' x).symm, fun p => ⟨g.live p, ?_⟩, g.dist⟩
  rintro ⟨x, c, h1, h2⟩
  exact g.owned x c p h1 h2

/-- When all variables of such a history are gone, no buffer is left. -/
theorem C80_no_leak_partial (os : List Op) (b : Ideal) (h : Ideal.Run {} os b) (hb : ∀ x, b.val x = none) :
    ∃ s, run {} os = some (.ok s) ∧ ∀ p, s.buf p = none := by
  obtain ⟨s, e, _, hv, hp, _⟩ := C80_lifetime_partial os b h
  refine ⟨s, e, fun p => ?_⟩
  by_cases hn : s.buf p = none
  · exact hn
  · obtain ⟨x, c, h1, _⟩ := (hp p).1 hn
    rw [(hv x).2 (hb x)] at h1; cases h1

/-- The failures are unavoidable: in every state reached that way, copying a Code that holds a text and
destroying both is a double delete, in either order; assigning one that holds a text to another variable and destroying
both is as well. -/
theorem C80_copy_always_double_frees_partial (os : List Op) (b : Ideal) (h : Ideal.Run {} os b) (s : St) (hr : run {} os = some (.ok s))
    (x : Nat) (t : Str) (hx : b.val x = some (some t)) :
    (∀ y, b.val y = none → run s [.copy y x, .del x, .del y] = some (.error (.ub .doubleFree)) ∧ run s [.copy y x, .del y, .del x] = some (.error (.ub .doubleFree))) ∧
    (∀ y v, y ≠ x → b.val y = some v → run s [.assign y x, .del x, .del y] = some (.error (.ub .doubleFree)) ∧ run s [.assign y x, .del x, .use y] = some (.error (.ub .useAfterFree))) := by
  obtain ⟨s0, e, g⟩ := Rel.init.run h
  rw [e] at hr; cases hr
  obtain ⟨_, c, p, bf, k1, k2, k3, k4⟩ := g.text x t hx
  constructor
  · intro y hy
    have hv := (g.none' y).1 hy
    have hne : x ≠ y := by rintro rfl; rw [hx] at hy; cases hy
    constructor <;> simp [Falcon.Code.run, exec, hv, k1, setVar, hne, hne.symm, freeBuf, k2, k3]
  · intro y v hne hy
    obtain ⟨d, hd⟩ := g.some' hy
    constructor <;> simp [Falcon.Code.run, exec, hd, k1, setVar, hne, hne.symm, freeBuf, k2, k3, toString]

/-- Non-vacuity: make, move, read, destroy all. -/
example : Ideal.Run {} [.new 0 ['a'] 1, .move 1 0, .use 1, .del 0, .del 1] ⟨fun _ => none, [['a']]⟩ := by
  refine .cons (.new rfl (by constructor <;> decide)) (.cons (.move rfl rfl) (.cons (.use rfl) (.cons (.del (v := none) rfl) ?_)))
  have : Ideal.Step _ (.del 1) _ := .del (a := ⟨fun y => if y = 0 then none else if y = 1 then some (some ['a']) else if y = 0 then some none else if y = 0 then some (some ['a']) else none, [['a']]⟩) (x := 1) (v := some ['a']) rfl
  refine .cons this ?_
  have e : (⟨fun y => if y = 1 then none else if y = 0 then none else if y = 1 then some (some ['a']) else if y = 0 then some none else if y = 0 then some (some ['a']) else none, [['a']]⟩ : Ideal) = ⟨fun _ => none, [['a']]⟩ := by
    congr 1; funext y; by_cases h1 : y = 1 <;> by_cases h0 : y = 0 <;> simp [h1, h0]
  rw [e]
  exact .nil

/-! ### C81 -/

theorem isSpace_blank : isSpace = isBlank := by
  funext c
  rw [Bool.eq_iff_iff]; simp [isSpace, isBlank, or_assoc]

theorem dropWhile_all (sp r : Str) (h : ∀ c ∈ sp, isSpace c = true) : (sp ++ r).dropWhile isSpace = r.dropWhile isSpace := by
  induction sp with
  | nil => rfl
  | cons c cs ih =>
    have hc := h c (by simp)
    simp [List.dropWhile_cons, hc]
    exact ih (fun d hd => h d (by simp [hd]))

theorem takeWord_word (w rest : Str) (hw : ∀ c ∈ w, isSpace c = false) (hr : ∀ c r, rest = c :: r → isSpace c = true) :
    takeWord none (w ++ rest) = (w, rest, rest.isEmpty) := by
  induction w with
  | nil =>
    cases rest with
    | nil => rfl
    | cons c r => simp [takeWord, hr c r rfl]
  | cons c cs ih =>
    have hc := hw c (by simp)
    have ih' := ih (fun d hd => hw d (by simp [hd]))
    simp [takeWord, hc, ih']

/-- A stream in its default format that is still readable or at its end. -/
structure Plain (i : IStream) : Prop where
  skip : i.skipws = true
  width : i.width = 0
  exc : i.excEof = false ∧ i.excFail = false

theorem setState_plain {i : IStream} (h : Plain i) (e f : Bool) : i.setState e f = .ok { i with eof := i.eof || e, fail := i.fail || f } := by
  simp [IStream.setState, h.exc]

/-- What is still to come: the words of the rest, or none when the stream is at its end. -/
def Upcoming (i : IStream) (ws : List Str) : Prop :=
  Plain i ∧ ((i.eof = false ∧ i.fail = false ∧ WordsP isSpace i.rest ws) ∨ ((i.eof = true ∨ i.fail = true) ∧ ws = []))

theorem extract_cons {i : IStream} {w : Str} {ws : List Str} (h : Upcoming i (w :: ws)) : ∃ j, i.extract = .ok (w, j) ∧ Upcoming j ws := by
  obtain ⟨p, (⟨h1, h2, h3⟩ | ⟨_, h⟩)⟩ := h
  rotate_left
  · cases h
  generalize ht : i.rest = t at h3
  cases h3 with
  | @cons sp w rest ws q1 q2 q3 q4 q5 =>
    have hd : i.rest.dropWhile isSpace = w ++ rest := by
      rw [ht, List.append_assoc, dropWhile_all sp _ q1]
      cases w with
      | nil => exact absurd rfl q2
      | cons c cs => simp [List.dropWhile_cons, q3 c (by simp)]
    have hne : w ++ rest ≠ [] := by simp [q2]
    have hwe : w.isEmpty = false := by cases w with
      | nil => exact absurd rfl q2
      | cons c cs => rfl
    refine ⟨{ i with rest := rest, width := 0, eof := rest.isEmpty, fail := false }, ?_, ?_, ?_⟩
    · simp [IStream.extract, h1, h2, p.skip, p.width, hd, hne, takeWord_word w rest q3 q4, IStream.setState, p.exc, hwe]
    · exact ⟨p.skip, rfl, p.exc⟩
    · cases rest with
      | nil =>
        refine .inr ⟨.inl rfl, ?_⟩
        generalize hz : ([] : Str) = z at q5
        cases q5 with
        | nil => rfl
        | cons a b => simp at hz; exact absurd hz.2.1 b
      | cons c r => exact .inl ⟨rfl, rfl, q5⟩

theorem extract_nil {i : IStream} (h : Upcoming i []) : ∃ j, i.extract = .ok ([], j) ∧ Upcoming j [] := by
  obtain ⟨p, h⟩ := h
  by_cases hb : (i.eof || i.fail) = true
  · refine ⟨{ i with fail := true }, by simp only [IStream.extract, hb, if_true, setState_plain p]; simp, ⟨p.skip, p.width, p.exc⟩, .inr ⟨.inr rfl, rfl⟩⟩
  · rcases h with ⟨h1, h2, h3⟩ | ⟨h, _⟩
    rotate_left
    · simp at hb; rcases h with h | h <;> simp_all
    have hd : i.rest.dropWhile isSpace = [] := by
      generalize ht : i.rest = t at h3
      cases h3 with
      | nil hs => have := dropWhile_all t [] hs; simpa using this
    refine ⟨{ i with rest := [], eof := true, fail := true }, ?_, ⟨p.skip, p.width, p.exc⟩, .inr ⟨.inr rfl, rfl⟩⟩
    simp [IStream.extract, h1, h2, p.skip, hd, IStream.setState, p.exc]

/-- The n words the next n calls produce, empty ones when there are no more. -/
def upTo : List Str → Nat → List Str
  | _, 0 => []
  | [], n + 1 => [] :: upTo [] n
  | w :: ws, n + 1 => w :: upTo ws n

theorem loop_ok (n : Nat) (s : St) (a : Ideal) (g : Rel s a) (h0 : a.val 0 = none) (i : IStream) (ws : List Str) (hi : Upcoming i ws) (hw : ∀ w ∈ ws, Holdable w) :
    ∃ s' j a', compileLoop s i n = some (.ok (s', j)) ∧ s'.out = s.out ++ upTo ws n ∧ Upcoming j (ws.drop n) ∧ Rel s' a' ∧ (∀ x, a'.val x = a.val x) := by
  induction n generalizing s a i ws with
  | zero => exact ⟨s, i, a, rfl, by simp [upTo], by simpa using hi, g, fun _ => rfl⟩
  | succ n ih =>
    have key : ∀ (w : Str) (j : IStream) (ws' : List Str), Holdable w → i.extract = .ok (w, j) → Upcoming j ws' → (∀ v ∈ ws', Holdable v) → ws' = ws.drop 1 → upTo ws (n+1) = w :: upTo ws' n →
        ∃ s' j a', compileLoop s i (n+1) = some (.ok (s', j)) ∧ s'.out = s.out ++ upTo ws (n+1) ∧ Upcoming j (ws.drop (n+1)) ∧ Rel s' a' ∧ (∀ x, a'.val x = a.val x) := by
      intro w j ws' hh he hj hws' hdr hup
      obtain ⟨s1, e1, g1⟩ := g.step (.new (l := 1) h0 hh)
      obtain ⟨s2, e2, g2⟩ := g1.run (.cons (.use (x := 0) (t := w) (by simp)) (.cons (.del (x := 0) (v := some w) (by simp)) .nil))
      obtain ⟨s', j', a', k1, k2, k3, k4, k5⟩ := ih s2 _ g2 (by simp) j ws' hj hws'
      refine ⟨s', j', a', ?_, ?_, ?_, k4, ?_⟩
      · simp only [compileLoop, compile, he, e1, e2]; exact k1
      · rw [k2, g2.out]
        have := g.out
        simp [this, hup]
      · rw [hdr] at k3
        simpa [List.drop_drop, Nat.add_comm] using k3
      · intro x
        rw [k5 x]
        by_cases e : x = 0 <;> simp [e, h0]
    cases ws with
    | nil =>
      obtain ⟨j, he, hj⟩ := extract_nil hi
      exact key [] j [] (by constructor <;> simp) he hj (by simp) rfl rfl
    | cons w ws =>
      obtain ⟨j, he, hj⟩ := extract_cons hi
      exact key w j ws (hw w (by simp)) he hj (fun v hv => hw v (by simp [hv])) rfl rfl

theorem upTo_get (ws : List Str) (n k : Nat) (hk : k < n) : (upTo ws n)[k]? = some (ws[k]?.getD []) := by
  induction n generalizing ws k with
  | zero => omega
  | succ n ih =>
    cases ws with
    | nil =>
      cases k with
      | zero => simp [upTo]
      | succ k => simp [upTo]; have := ih [] k (by omega); simpa using this
    | cons w ws =>
      cases k with
      | zero => simp [upTo]
      | succ k => simp [upTo]; exact ih ws k (by omega)

theorem upTo_length (ws : List Str) (n : Nat) : (upTo ws n).length = n := by
  induction n generalizing ws with
  | zero => cases ws <;> rfl
  | succ n ih => cases ws <;> simp [upTo, ih]

/-- C81 does not hold: a word of 1000 characters overruns the buffer of its Code. -/
theorem C81_long_word_refuted (w : Str) (hw : ∀ c ∈ w, isBlank c = false) (hl : 1000 ≤ w.length) :
    compileLoop {} { rest := w } 1 = some (.error (.ub .overflowWrite)) := by
  rw [← isSpace_blank] at hw
  have hne : w ≠ [] := by rintro rfl; simp at hl
  have hU : Upcoming { rest := w } [w] := by
    refine ⟨⟨rfl, rfl, rfl, rfl⟩, .inl ⟨rfl, rfl, ?_⟩⟩
    have := WordsP.cons (sep := isSpace) (sp := []) (w := w) (rest := []) (ws := []) (by simp) hne hw (by simp) (.nil (by simp))
    simpa using this
  obtain ⟨j, he, _⟩ := extract_cons hU
  simp [compileLoop, compile, he, exec, fill_overflow w hl]

/-- C81 does not hold: on a stream with exceptions enabled the end of the input terminates the program,
the function being noexcept. -/
theorem C81_exceptions_refuted : compileLoop {} { rest := [], excFail := true } 1 = some (.error .terminate) := by rfl

/-- C81 (what holds): on a stream in its default state, if all words of the text fit a Code, n calls of
compile give the first n words in order, and empty code once the words are used up, for every n. -/
theorem C81_words_partial (t : Str) (ws : List Str) (h : Words t ws) (hw : ∀ w ∈ ws, w.length < 1000 ∧ '\x00' ∉ w) (n : Nat) :
    ∃ s j, compileLoop {} { rest := t } n = some (.ok (s, j)) ∧ s.out.length = n ∧
      (∀ k, k < n → s.out[k]? = some (ws[k]?.getD [])) ∧ ∀ p, s.buf p = none := by
  rw [Words, ← isSpace_blank] at h
  obtain ⟨s, j, a, h1, h2, h3, h4, h5⟩ := loop_ok n {} {} Rel.init rfl { rest := t } ws ⟨⟨rfl, rfl, rfl, rfl⟩, .inl ⟨rfl, rfl, h⟩⟩ hw
  refine ⟨s, j, h1, ?_, ?_, ?_⟩
  · rw [h2]; simp [upTo_length]
  · intro k hk
    rw [h2]; simpa using upTo_get ws n k hk
  · intro p
    by_cases hn : s.buf p = none
    · exact hn
    · obtain ⟨x, c, k1, _⟩ := h4.live p hn
      have := (h4.none' x).1 (by rw [h5 x])
      rw [this] at k1; cases k1

/-- Every text has words, and only one list of words. -/
theorem C81_words_exist (t : Str) : ∃ ws, Words t ws := by
  rw [Words, ← isSpace_blank]
  induction hn : t.length using Nat.strongRecOn generalizing t with
  | _ n ih =>
    have split := List.takeWhile_append_dropWhile (p := isSpace) (l := t)
    cases hd : t.dropWhile isSpace with
    | nil =>
      refine ⟨[], .nil fun c hc => ?_⟩
      rw [hd, List.append_nil] at split
      exact (takeWhile_self_iff _ _).1 split c hc
    | cons c r =>
      have hc : isSpace c = false := by
        have := List.head?_dropWhile_not isSpace t
        rw [hd] at this; simpa using this
      have split2 := List.takeWhile_append_dropWhile (p := fun c => !isSpace c) (l := c :: r)
      have hlen : ((c :: r).dropWhile (fun c => !isSpace c)).length < n := by
        have h1 : ((c :: r).dropWhile (fun c => !isSpace c)).length ≤ r.length := by
          simp [hc]
          exact (List.dropWhile_sublist _).length_le
        have h2 : (c :: r).length ≤ t.length := by rw [← hd]; exact (List.dropWhile_sublist _).length_le
        simp at h2; omega
      obtain ⟨ws, hws⟩ := ih _ hlen _ rfl
      refine ⟨(c :: r).takeWhile (fun c => !isSpace c) :: ws, ?_⟩
      have := WordsP.cons (sep := isSpace) (sp := t.takeWhile isSpace) (w := (c :: r).takeWhile (fun c => !isSpace c)) (rest := (c :: r).dropWhile (fun c => !isSpace c)) (ws := ws)
        (fun d hd => by simpa using (List.all_eq_true.1 (List.all_takeWhile (l := t) (p := isSpace)) d hd))
        (by simp [hc]) (fun d hd => by simpa using (List.all_eq_true.1 (List.all_takeWhile (l := c :: r) (p := fun c => !isSpace c)) d hd))
        (fun d q hq => by
          have := List.head?_dropWhile_not (fun c => !isSpace c) (c :: r)
          rw [hq] at this; simpa using this) hws
      rw [List.append_assoc, split2] at this
      have e2 : t.takeWhile isSpace ++ c :: r = t := by rw [← hd]; exact split
      rw [e2] at this
      exact this

theorem C81_words_unique (t : Str) (ws ws' : List Str) (h : Words t ws) (h' : Words t ws') : ws = ws' := by
  rw [Words, ← isSpace_blank] at h h'
  induction h generalizing ws' with
  | @nil t hs =>
    generalize e : t = u at h'
    cases h' with
    | nil => rfl
    | @cons sp w rest ws q1 q2 q3 q4 q5 =>
      cases w with
      | nil => exact absurd rfl q2
      | cons c cs =>
        have := hs c (by rw [e]; simp)
        rw [q3 c (by simp)] at this; cases this
  | @cons sp w rest ws q1 q2 q3 q4 q5 ih =>
    have hx1 : Upcoming { rest := sp ++ w ++ rest } (w :: ws) := ⟨⟨rfl, rfl, rfl, rfl⟩, .inl ⟨rfl, rfl, .cons q1 q2 q3 q4 q5⟩⟩
    have hx2 : Upcoming { rest := sp ++ w ++ rest } ws' := ⟨⟨rfl, rfl, rfl, rfl⟩, .inl ⟨rfl, rfl, h'⟩⟩
    have key : ∀ w rest sp, w ≠ [] → (∀ c ∈ sp, isSpace c = true) → (∀ c ∈ w, isSpace c = false) → (∀ c r, rest = c :: r → isSpace c = true) →
        takeWord none ((sp ++ w ++ rest).dropWhile isSpace) = (w, rest, rest.isEmpty) := by
      intro w rest sp q2 q1 q3 q4
      rw [List.append_assoc, dropWhile_all sp _ q1]
      cases w with
      | nil => exact absurd rfl q2
      | cons c cs =>
        have := takeWord_word (c :: cs) rest q3 q4
        simpa [List.dropWhile_cons, q3 c (by simp)] using this
    have k1 := key w rest sp q2 q1 q3 q4
    generalize e : sp ++ w ++ rest = u at h' k1
    cases h' with
    | nil hs =>
      cases w with
      | nil => exact absurd rfl q2
      | cons c cs =>
        have := hs c (by rw [← e]; simp)
        rw [q3 c (by simp)] at this; cases this
    | @cons sp' w' rest' ws' p1 p2 p3 p4 p5 =>
      have k2 := key w' rest' sp' p2 p1 p3 p4
      rw [k2] at k1
      simp at k1
      obtain ⟨rfl, rfl, _⟩ := k1
      rw [ih ws' p5]

example : Words [' ', 'a', 'b', '\n', 'c'] [['a', 'b'], ['c']] := by
  have h2 := WordsP.cons (sep := isBlank) (sp := ['\n']) (w := ['c']) (rest := []) (ws := []) (by decide) (by simp) (by decide) (by simp) (.nil (by simp))
  exact WordsP.cons (sp := [' ']) (w := ['a', 'b']) (rest := ['\n', 'c']) (by decide) (by simp) (by decide) (by intro c r h; cases h; rfl) h2

/-! ### C81: streams in any state -/

theorem takeWord_spec (n : Option Nat) (t : Str) : ∀ w r e, takeWord n t = (w, r, e) →
    t = w ++ r ∧ (∀ c ∈ w, isSpace c = false) ∧ (∀ k, n = some k → w.length ≤ k) ∧
    (r = [] ∨ (∃ c, r.head? = some c ∧ isSpace c = true) ∨ n = some w.length) ∧ (e = true ↔ r = [] ∧ n ≠ some w.length) := by
  induction t generalizing n with
  | nil =>
    intro w r e h
    cases n with
    | none => simp only [takeWord, Prod.mk.injEq] at h; obtain ⟨rfl, rfl, rfl⟩ := h; simp
    | some k =>
      cases k with
      | zero => simp only [takeWord, Prod.mk.injEq] at h; obtain ⟨rfl, rfl, rfl⟩ := h; simp
      | succ k => simp only [takeWord, Prod.mk.injEq] at h; obtain ⟨rfl, rfl, rfl⟩ := h; simp
  | cons c t ih =>
    intro w r e h
    have key : ∀ m, (if isSpace c = true then (([] : Str), c :: t, false) else let (w, r, e) := takeWord m t; (c :: w, r, e)) = (w, r, e) →
        (w = [] ∧ r = c :: t ∧ e = false ∧ isSpace c = true) ∨ (isSpace c = false ∧ ∃ w', w = c :: w' ∧ takeWord m t = (w', r, e)) := by
      intro m h
      split at h
      · rename_i hc
        simp only [Prod.mk.injEq] at h
        exact .inl ⟨h.1.symm, h.2.1.symm, h.2.2.symm, hc⟩
      · rename_i hc
        cases ht : takeWord m t with
        | mk w' q =>
          obtain ⟨r', e'⟩ := q
          rw [ht] at h
          simp only [Prod.mk.injEq] at h
          exact .inr ⟨by simpa using hc, w', h.1.symm, by rw [h.2.1, h.2.2]⟩
    cases n with
    | none =>
      have h' := key none (by rw [← h]; rfl)
      rcases h' with ⟨rfl, rfl, rfl, hc⟩ | ⟨hc, w', rfl, h'⟩
      · simp [hc]
      · obtain ⟨a, b, _, d, f⟩ := ih none w' r e h'
        refine ⟨by rw [a]; rfl, ?_, by simp, ?_, by simpa using f⟩
        · intro x hx
          rcases List.mem_cons.1 hx with rfl | hx
          · exact hc
          · exact b x hx
        · simpa using d
    | some k =>
      cases k with
      | zero => simp only [takeWord, Prod.mk.injEq] at h; obtain ⟨rfl, rfl, rfl⟩ := h; simp
      | succ k =>
        have h' := key (some k) (by rw [← h]; rfl)
        rcases h' with ⟨rfl, rfl, rfl, hc⟩ | ⟨hc, w', rfl, h'⟩
        · simp [hc]
        · obtain ⟨a, b, c', d, f⟩ := ih (some k) w' r e h'
          refine ⟨by rw [a]; rfl, ?_, ?_, ?_, ?_⟩
          · intro x hx
            rcases List.mem_cons.1 hx with rfl | hx
            · exact hc
            · exact b x hx
          · intro k' hk; cases hk
            have := c' k rfl
            simp only [List.length_cons]; omega
          · rcases d with d | d | d
            · exact .inl d
            · exact .inr (.inl d)
            · simp only [Option.some.injEq] at d
              exact .inr (.inr (by simp [d]))
          · rw [f]; simp

/-- C81, for a stream in any state: compile reads one word as formatted input does and makes a Code of it; if the stream is set to throw, the program is terminated. -/
theorem C81_any_stream (s : St) (x : Nat) (i : IStream) :
    ∃ w j, OneWord i w j ∧ (j.throws → compile s x i = some (.error .terminate)) ∧
      (¬ j.throws → compile s x i = (exec s (.new x w 1)).map (fun r => r.map (fun s' => (s', j)))) := by
  have fin : ∀ (w : Str) (i0 : IStream) (e f : Bool), OneWord i w { i0 with eof := i0.eof || e, fail := i0.fail || f } →
      i.extract = (match i0.setState e f with | .ok j => .ok (w, j) | .error e => .error e) →
      ∃ w j, OneWord i w j ∧ (j.throws → compile s x i = some (.error .terminate)) ∧
        (¬ j.throws → compile s x i = (exec s (.new x w 1)).map (fun r => r.map (fun s' => (s', j)))) := by
    intro w i0 e f ho he
    refine ⟨w, _, ho, fun ht => ?_, fun ht => ?_⟩
    · have : i0.setState e f = .error (.exn .user) := by
        unfold IStream.setState
        dsimp only
        rw [if_pos]
        unfold IStream.throws at ht
        simpa using ht
      unfold compile
      rw [he, this]
    · have : i0.setState e f = .ok { i0 with eof := i0.eof || e, fail := i0.fail || f } := by
        unfold IStream.setState
        dsimp only
        rw [if_neg]
        intro h
        apply ht
        unfold IStream.throws
        simpa using h
      unfold compile
      rw [he, this]
      dsimp only
      cases exec s (.new x w 1) with
      | none => rfl
      | some r => cases r <;> rfl
  by_cases hb : i.eof = true ∨ i.fail = true
  · refine fin [] i false true ⟨rfl, rfl, rfl, ?_⟩ ?_
    · rw [if_pos hb]; simp
    · unfold IStream.extract
      rw [if_pos (by simpa using hb)]
      rfl
  · have hb' : ¬ (i.eof || i.fail) = true := by simpa using hb
    have he : i.eof = false := by cases h : i.eof <;> simp_all
    have hf : i.fail = false := by cases h : i.fail <;> simp_all
    have hsplit : ∃ sp, i.rest = sp ++ (if i.skipws then i.rest.dropWhile isSpace else i.rest) ∧ (∀ c ∈ sp, isBlank c = true) ∧ (i.skipws = false → sp = []) ∧
        (i.skipws = true → ∀ c, ((if i.skipws then i.rest.dropWhile isSpace else i.rest) : Str).head? = some c → isBlank c = false) := by
      cases hsk : i.skipws with
      | false => exact ⟨[], by simp, by simp, by simp, by simp⟩
      | true =>
        refine ⟨i.rest.takeWhile isSpace, by simp [List.takeWhile_append_dropWhile], fun c hc => ?_, by simp, fun _ c hc => ?_⟩
        · rw [← isSpace_blank]
          exact List.all_eq_true.1 List.all_takeWhile c hc
        · have := List.head?_dropWhile_not isSpace i.rest
          rw [if_pos rfl] at hc
          rw [hc] at this
          rw [← isSpace_blank]; simpa using this
    obtain ⟨sp, h1, h2, h3, h4⟩ := hsplit
    generalize hr : (if i.skipws then i.rest.dropWhile isSpace else i.rest : Str) = r at h1 h4
    by_cases hn : i.skipws = true ∧ r = []
    · refine fin [] { i with rest := r } true true ⟨rfl, rfl, rfl, ?_⟩ ?_
      · rw [if_neg hb]
        obtain ⟨hsk, rfl⟩ := hn
        refine ⟨sp, by simpa using h1, h2, h3, by simp, by simp, by simp, .inl rfl, ?_, by simp, by simp [hsk]⟩
        simp only [Bool.or_true, true_iff, true_and, List.length_nil, ne_eq]
        rintro ⟨a, b⟩; exact a b.symm
      · unfold IStream.extract
        rw [if_neg hb']
        dsimp only
        rw [hr, if_pos hn]
        rfl
    · cases ht : takeWord (if i.width = 0 then none else some i.width) r with
      | mk w q =>
        obtain ⟨r', e⟩ := q
        obtain ⟨t1, t2, t3, t4, t5⟩ := takeWord_spec _ _ _ _ _ ht
        have full : (if i.width = 0 then none else some i.width) = some w.length ↔ i.width ≠ 0 ∧ w.length = i.width := by
          by_cases h0 : i.width = 0
          · simp [h0]
          · simp [h0, eq_comm]
        refine fin w { i with rest := r', width := 0 } e w.isEmpty ⟨rfl, rfl, rfl, ?_⟩ ?_
        · rw [if_neg hb]
          refine ⟨sp, by rw [h1, t1]; simp, h2, h3, fun hsk c hc => h4 hsk c (by rw [t1]; exact hc), fun c hc => by rw [← isSpace_blank]; exact t2 c hc, ?_, ?_, ?_, ?_, ?_⟩
          · intro h0; exact t3 i.width (by rw [if_neg h0])
          · rw [full, isSpace_blank] at t4; exact t4
          · show (i.eof || e) = true ↔ _
            rw [he, Bool.false_or, t5, ne_eq, full]
          · show (i.fail || w.isEmpty) = true ↔ _
            rw [hf]; simp
          · rw [if_neg]
            rintro ⟨hsk, rfl⟩
            have hr0 : r ≠ [] := fun e => hn ⟨hsk, e⟩
            simp only [List.nil_append] at t1
            subst t1
            rcases t4 with t4 | ⟨c, hc, hc'⟩ | t4
            · exact hr0 t4
            · have := h4 hsk c hc
              rw [← isSpace_blank] at this
              rw [hc'] at this; cases this
            · rw [full] at t4
              exact t4.1 t4.2.symm
        · unfold IStream.extract
          rw [if_neg hb']
          dsimp only
          rw [hr, if_neg hn, ht]
          rfl

/-- A stream with a width, one that does not skip blanks, one that is at its end. -/
example : OneWord { rest := " abcd e".toList, width := 3 } "abc".toList { rest := "d e".toList } ∧ OneWord { rest := " a".toList, skipws := false } [] { rest := " a".toList, skipws := false, fail := true } ∧
    OneWord { rest := [], eof := true } [] { rest := [], eof := true, fail := true } := by
  refine ⟨⟨rfl, rfl, rfl, ?_⟩, ⟨rfl, rfl, rfl, ?_⟩, ⟨rfl, rfl, rfl, ?_⟩⟩
  · rw [if_neg (by simp)]
    exact ⟨[' '], rfl, by decide, by simp, by simp; decide, by decide, by simp, by simp, by simp, by simp, by simp⟩
  · rw [if_neg (by simp)]
    exact ⟨[], rfl, by simp, by simp, by simp, by simp, by simp, by simp; decide, by simp, by simp, by simp⟩
  · simp

end Falcon.Code
