import Verif.Proofs.PagedStack2
/-
Refinement of the ideal stack (Spec/Stack.lean) by the PagedStack model, call by call.
-/
namespace Falcon.PagedStack
variable {α : Type}

/-- Simulation relation. -/
def R (ps al : Nat) (s : PS α) (t : StackSpec.St α) : Prop :=
  ∃ pre cp k, s = mkS ps al pre cp (List.replicate k []) t.iters t.pending ∧ Good ps pre cp ∧
    t.items = (cont pre cp).reverse ∧ t.blocks = pre.length + 1 + k

theorem push_clean {ps al : Nat} {sc : Int} {sr : Bool} (h0 : 0 < ps) (ha : 0 < al)
    {pre : List (List α)} {cp : List α} (k : Nat) (x : α) (g : Good ps pre cp) :
    ∃ pre' cp' k', push (mkS ps al pre cp (List.replicate k []) sc sr) x
        = .ok (mkS ps al pre' cp' (List.replicate k' []) sc sr) ∧ Good ps pre' cp' ∧
      cont pre' cp' = cont pre cp ++ [x] ∧
      pre'.length + 1 + k' = if (cont pre cp).length = (pre.length + 1 + k) * ps
        then pre.length + 1 + k + al else pre.length + 1 + k := by
  have hf := g.full_iff h0 k
  rw [← g.len] at hf
  by_cases h : cp.length = ps
  · rcases k with _ | k
    · refine ⟨pre ++ [cp], [x], al - 1, push_grow x h ha, g.snoc_next x h h0, by simp [cont], ?_⟩
      rw [if_pos (hf.2 ⟨h, rfl⟩)]; simp; omega
    · refine ⟨pre ++ [cp], [x], k, push_next x [] h, g.snoc_next x h h0, by simp [cont], ?_⟩
      rw [if_neg (fun e => by have := (hf.1 e).2; omega)]; simp; omega
  · refine ⟨pre, cp ++ [x], k, push_room x h, g.snoc_room x h, by simp [cont], ?_⟩
    rw [if_neg (fun e => h (hf.1 e).1)]

theorem R_push {ps al : Nat} (h0 : 0 < ps) (ha : 0 < al) {s : PS α} {t : StackSpec.St α}
    (h : R ps al s t) (x : α) : ∃ s', push s x = .ok s' ∧ R ps al s' (StackSpec.push ps al t x) := by
  obtain ⟨pre, cp, k, rfl, g, hi, hb⟩ := h
  obtain ⟨pre', cp', k', e, g', c', l'⟩ := push_clean (sc := t.iters) (sr := t.pending) h0 ha k x g
  refine ⟨_, e, pre', cp', k', rfl, g', ?_, ?_⟩
  · simp [StackSpec.push, hi, c']
  · simp only [StackSpec.push, hi, List.length_reverse, hb, l']

theorem pushMany_eq (s : PS α) (x : α) (xs : List α) :
    pushMany s x xs = (x :: xs).foldlM push s := by
  induction xs generalizing s x with
  | nil =>
    simp only [pushMany, List.foldlM]
    cases push s x <;> rfl
  | cons y ys ih =>
    simp only [pushMany, List.foldlM]
    simp only [push, List.foldlM] at ih ⊢
    cases advance s with
    | error e => rfl
    | ok s1 =>
      simp only [bind_ok]
      cases pushBack s1 x with
      | error e => rfl
      | ok s2 => simp only [bind_ok]; exact ih s2 y

theorem R_pushes {ps al : Nat} (h0 : 0 < ps) (ha : 0 < al) (xs : List α) {s : PS α}
    {t : StackSpec.St α} (h : R ps al s t) :
    ∃ s', xs.foldlM push s = .ok s' ∧ R ps al s' (xs.foldl (StackSpec.push ps al) t) := by
  induction xs generalizing s t with
  | nil => exact ⟨s, rfl, h⟩
  | cons x xs ih =>
    obtain ⟨s1, e1, r1⟩ := R_push h0 ha h x
    obtain ⟨s2, e2, r2⟩ := ih r1
    exact ⟨s2, by simp only [List.foldlM, e1, bind_ok, e2], r2⟩

theorem take_len_reverse (c : List α) (n : Nat) : (c.take (c.length - n)).reverse = c.reverse.drop n := by
  rw [List.reverse_take]
  by_cases h : n ≤ c.length
  · congr 1; omega
  · rw [List.drop_eq_nil_of_le (by simp; omega), List.drop_eq_nil_of_le (by simp; omega)]

theorem drop_len_eq (c : List α) (d : Nat) : c.drop (c.length - d) = (c.reverse.take d).reverse := by
  rw [List.reverse_take, List.reverse_reverse, List.length_reverse]

theorem shrink_clean {ps al : Nat} {sc : Int} {sr : Bool} {pre : List (List α)} {cp : List α}
    {rest : List (List α)} :
    internalShrink (mkS ps al pre cp rest sc sr) = mkS ps al pre cp [] sc sr := by
  simp [internalShrink, mkS, List.take_append, List.take_of_length_le]

theorem peekDepth_zero (h0 : 0 < ps) {al : Nat} {sc : Int} {sr : Bool} {pre : List (List α)} {cp : List α}
    {rest : List (List α)} (g : Good ps pre cp) (d : Nat) (hd : d ≤ (cont pre cp).length) :
    peekDepth (mkS ps al pre cp rest sc sr) d 0 = .ok [] := by
  by_cases h : d = 0
  · subst h; simp only [peekDepth, fromTop_zero, bind_ok, distribute]
  · simp only [peekDepth, fromTop_spec h0 g d (by omega) hd, bind_ok, distribute]

theorem peekDepth_ok (h0 : 0 < ps) {al : Nat} {sc : Int} {sr : Bool} {pre : List (List α)} {cp : List α}
    {rest : List (List α)} (g : Good ps pre cp) (d n : Nat) (hn : n ≤ d) (hd : d ≤ (cont pre cp).length) :
    peekDepth (mkS ps al pre cp rest sc sr) d n
      = .ok (((cont pre cp).drop ((cont pre cp).length - d)).take n) := by
  rcases Nat.eq_zero_or_pos n with rfl | h
  · rw [peekDepth_zero h0 g d hd]; simp
  · exact (peekDepth_spec h0 g d n h).1 ⟨hn, hd⟩

theorem peekDepth_bad (h0 : 0 < ps) {al : Nat} {sc : Int} {sr : Bool} {pre : List (List α)} {cp : List α}
    {rest : List (List α)} (g : Good ps pre cp) (d n : Nat) (h : ¬ (n ≤ d ∧ d ≤ (cont pre cp).length)) :
    ∃ u, peekDepth (mkS ps al pre cp rest sc sr) d n = .error (.ub u) := by
  rcases Nat.eq_zero_or_pos n with rfl | hn
  · exact ⟨_, by simp only [peekDepth, fromTop_over h0 g d (by omega), bind_err]; rfl⟩
  · exact (peekDepth_spec h0 g d n hn).2 h

theorem R_step {ps al : Nat} (h0 : 0 < ps) (ha : 0 < al) {s : PS α} {t t' : StackSpec.St α}
    {o : Out α} (h : R ps al s t) (op : Op α) (hs : StackSpec.step ps al t op = some (t', o)) :
    ∃ s', step s op = .ok (s', o) ∧ R ps al s' t' := by
  cases op with
  | push x =>
    simp only [StackSpec.step, Option.some.injEq, Prod.mk.injEq] at hs
    obtain ⟨rfl, rfl⟩ := hs
    obtain ⟨s', e, r⟩ := R_push h0 ha h x
    exact ⟨s', by simp only [step, e, bind_ok], r⟩
  | pushEmplace x =>
    simp only [StackSpec.step, Option.some.injEq, Prod.mk.injEq] at hs
    obtain ⟨rfl, rfl⟩ := hs
    obtain ⟨s', e, r⟩ := R_push h0 ha h x
    exact ⟨s', by simp only [step, show pushEmplace s x = push s x from rfl, e, bind_ok], r⟩
  | pushMany x xs =>
    simp only [StackSpec.step, Option.some.injEq, Prod.mk.injEq] at hs
    obtain ⟨rfl, rfl⟩ := hs
    obtain ⟨s', e, r⟩ := R_pushes h0 ha (x :: xs) h
    exact ⟨s', by simp only [step, pushMany_eq, e, bind_ok], r⟩
  | pop =>
    obtain ⟨pre, cp, k, rfl, g, hi, hb⟩ := h
    rcases nil_or_snoc (cont pre cp) with e | ⟨c, x, e⟩
    · simp [StackSpec.step, hi, e] at hs
    · simp only [StackSpec.step, hi, e, List.reverse_append, List.reverse_cons, List.reverse_nil,
        List.nil_append, List.cons_append, Option.some.injEq, Prod.mk.injEq] at hs
      obtain ⟨rfl, rfl⟩ := hs
      obtain ⟨pre', cp', j, e', g', c', l'⟩ := pop_spec (al := al) (sc := t.iters) (sr := t.pending)
        h0 (List.replicate k []) g e
      refine ⟨_, by simp only [step, e', bind_ok]; rfl, pre', cp', j + k, ?_, g', ?_, ?_⟩
      · simp [← List.replicate_append_replicate]
      · simp [c']
      · simp [hb]; omega
  | popMany n =>
    obtain ⟨pre, cp, k, rfl, g, hi, hb⟩ := h
    simp only [StackSpec.step] at hs
    split at hs
    · rename_i hn
      simp only [Option.some.injEq, Prod.mk.injEq] at hs
      obtain ⟨rfl, rfl⟩ := hs
      rw [hi, List.length_reverse] at hn
      obtain ⟨pre', cp', j, e', g', c', l'⟩ := popMany_spec (al := al) (sc := t.iters) (sr := t.pending)
        h0 n pre cp (List.replicate k []) g hn
      refine ⟨_, by simp only [step, e', bind_ok, hi]; rfl, pre', cp', j + k, ?_, g', ?_, ?_⟩
      · simp [← List.replicate_append_replicate]
      · rw [c', take_len_reverse, hi]
      · simp [hb]; omega
    · simp at hs
  | top =>
    obtain ⟨pre, cp, k, rfl, g, hi, hb⟩ := h
    rcases nil_or_snoc (cont pre cp) with e | ⟨c, x, e⟩
    · simp [StackSpec.step, hi, e] at hs
    · simp only [StackSpec.step, hi, e, List.reverse_append, List.reverse_cons, List.reverse_nil,
        List.nil_append, List.cons_append, Option.some.injEq, Prod.mk.injEq] at hs
      obtain ⟨rfl, rfl⟩ := hs
      exact ⟨_, by simp only [step, top_spec g e, bind_ok], pre, cp, k, rfl, g, hi, hb⟩
  | setTop y =>
    obtain ⟨pre, cp, k, rfl, g, hi, hb⟩ := h
    rcases nil_or_snoc (cont pre cp) with e | ⟨c, x, e⟩
    · simp [StackSpec.step, hi, e] at hs
    · obtain ⟨cp', rfl, hc⟩ := g.cont_concat e
      simp only [StackSpec.step, hi, e, List.reverse_append, List.reverse_cons, List.reverse_nil,
        List.nil_append, List.cons_append, Option.some.injEq, Prod.mk.injEq] at hs
      obtain ⟨rfl, rfl⟩ := hs
      refine ⟨_, by simp only [step, setTop_mk, bind_ok], pre, cp' ++ [y], k, rfl, ⟨g.full, ?_, by simp⟩, ?_, hb⟩
      · have := g.le; simp at this ⊢; omega
      · simp [← hc, cont]
  | discard n =>
    obtain ⟨pre, cp, k, rfl, g, hi, hb⟩ := h
    simp only [StackSpec.step] at hs
    split at hs
    · simp only [Option.some.injEq, Prod.mk.injEq] at hs
      obtain ⟨rfl, rfl⟩ := hs
      obtain ⟨pre', cp', j, e', g', c', l'⟩ := discard_spec (al := al) (sc := t.iters) (sr := t.pending)
        h0 (List.replicate k []) n g
      refine ⟨_, by simp only [step, e', bind_ok]; rfl, pre', cp', j + k, ?_, g', ?_, ?_⟩
      · simp [← List.replicate_append_replicate]
      · rw [c', take_len_reverse, hi]
      · simp [hb]; omega
    · simp at hs
  | peek n =>
    obtain ⟨pre, cp, k, rfl, g, hi, hb⟩ := h
    simp only [StackSpec.step] at hs
    split at hs
    · rename_i hn
      simp only [Option.some.injEq, Prod.mk.injEq] at hs
      obtain ⟨rfl, rfl⟩ := hs
      rw [hi, List.length_reverse] at hn
      exact ⟨_, by simp only [step, peek_spec h0 g, if_pos hn, bind_ok, hi], pre, cp, k, rfl, g, hi, hb⟩
    · simp at hs
  | peekReverse n =>
    obtain ⟨pre, cp, k, rfl, g, hi, hb⟩ := h
    simp only [StackSpec.step] at hs
    split at hs
    · rename_i hn
      simp only [Option.some.injEq, Prod.mk.injEq] at hs
      obtain ⟨rfl, rfl⟩ := hs
      rw [hi, List.length_reverse] at hn
      refine ⟨_, ?_, pre, cp, k, rfl, g, hi, hb⟩
      simp only [step, peekReverse_eq, peekDepth_ok h0 g n n (Nat.le_refl n) hn, bind_ok, hi, drop_len_eq]
      congr 3
      rw [List.take_of_length_le]; simp; omega
    · simp at hs
  | peekDepth d n =>
    obtain ⟨pre, cp, k, rfl, g, hi, hb⟩ := h
    simp only [StackSpec.step] at hs
    split at hs
    · rename_i hn
      simp only [Option.some.injEq, Prod.mk.injEq] at hs
      obtain ⟨rfl, rfl⟩ := hs
      rw [hi, List.length_reverse] at hn
      refine ⟨_, ?_, pre, cp, k, rfl, g, hi, hb⟩
      simp only [step, peekDepth_ok h0 g d n hn.1 hn.2, bind_ok, hi, drop_len_eq]
    · simp at hs
  | empty =>
    obtain ⟨pre, cp, k, rfl, g, hi, hb⟩ := h
    simp only [StackSpec.step, Option.some.injEq, Prod.mk.injEq] at hs
    obtain ⟨rfl, rfl⟩ := hs
    refine ⟨_, ?_, pre, cp, k, rfl, g, hi, hb⟩
    simp only [step, isEmpty_spec g, bind_ok, hi, List.length_reverse]
  | size =>
    obtain ⟨pre, cp, k, rfl, g, hi, hb⟩ := h
    simp only [StackSpec.step, Option.some.injEq, Prod.mk.injEq] at hs
    obtain ⟨rfl, rfl⟩ := hs
    refine ⟨_, ?_, pre, cp, k, rfl, g, hi, hb⟩
    simp only [step, size_spec, bind_ok, hi, List.length_reverse]
  | stats =>
    obtain ⟨pre, cp, k, rfl, g, hi, hb⟩ := h
    simp only [StackSpec.step, Option.some.injEq, Prod.mk.injEq] at hs
    obtain ⟨rfl, rfl⟩ := hs
    refine ⟨_, ?_, pre, cp, k, rfl, g, hi, hb⟩
    simp only [step, getStats, mkS_cur, mkS_page, bind_ok, hi, List.length_reverse, g.len, g.pages h0,
      g.topPage h0, mkS_ps, mkS_base, hb]
    simp; omega
  | shrink =>
    obtain ⟨pre, cp, k, rfl, g, hi, hb⟩ := h
    simp only [StackSpec.step] at hs
    split at hs
    · rename_i hn
      simp only [Option.some.injEq, Prod.mk.injEq] at hs
      obtain ⟨rfl, rfl⟩ := hs
      refine ⟨_, rfl, pre, cp, k, ?_, g, hi, hb⟩
      unfold shrinkToFit
      rw [if_pos (by simp [mkS]; omega)]; rfl
    · rename_i hn
      simp only [Option.some.injEq, Prod.mk.injEq] at hs
      obtain ⟨rfl, rfl⟩ := hs
      refine ⟨_, rfl, pre, cp, 0, ?_, g, hi, ?_⟩
      · unfold shrinkToFit
        rw [if_neg (by simp [mkS]; omega), shrink_clean]; simp
      · simp [hi, g.len, g.pages h0]
  | syncNew =>
    obtain ⟨pre, cp, k, rfl, g, hi, hb⟩ := h
    simp only [StackSpec.step, Option.some.injEq, Prod.mk.injEq] at hs
    obtain ⟨rfl, rfl⟩ := hs
    exact ⟨_, rfl, pre, cp, k, by simp [syncNew, mkS], g, hi, hb⟩
  | syncDrop =>
    obtain ⟨pre, cp, k, rfl, g, hi, hb⟩ := h
    simp only [StackSpec.step] at hs
    split at hs
    · simp at hs
    · rename_i hn
      split at hs
      · rename_i hp
        simp only [Option.some.injEq, Prod.mk.injEq] at hs
        obtain ⟨rfl, rfl⟩ := hs
        refine ⟨_, rfl, pre, cp, 0, ?_, g, hi, ?_⟩
        · unfold syncDrop
          simp only []
          rw [if_pos ⟨by simp [mkS, hp.1], by simp [mkS, hp.2]⟩]
          have := shrink_clean (ps := ps) (al := al) (sc := t.iters - 1) (sr := false) (pre := pre) (cp := cp)
            (rest := List.replicate k [])
          simp only [hp.1] at this
          simpa [mkS, hp.1] using this
        · simp [hi, g.len, g.pages h0]
      · rename_i hp
        simp only [Option.some.injEq, Prod.mk.injEq] at hs
        obtain ⟨rfl, rfl⟩ := hs
        refine ⟨_, rfl, pre, cp, k, ?_, g, hi, hb⟩
        unfold syncDrop
        simp only []
        rw [if_neg]
        · simp [mkS]; omega
        · rintro ⟨h1, h2⟩; exact hp ⟨by simp [mkS] at h1; omega, by simpa [mkS] using h2⟩

theorem R_init {ps al : Nat} (ha : 0 < al) : R ps al (init ps al : PS α) (StackSpec.init al) := by
  obtain ⟨a, rfl⟩ : ∃ a, al = a + 1 := ⟨al - 1, by omega⟩
  exact ⟨[], [], a, by simp [init, growBase, mkS, StackSpec.init, List.replicate_succ], Good.nil,
    by simp [StackSpec.init, cont], by simp [StackSpec.init]; omega⟩

theorem R_run {ps al : Nat} (h0 : 0 < ps) (ha : 0 < al) (ops : List (Op α)) {s : PS α}
    {t t' : StackSpec.St α} {os : List (Out α)} (h : R ps al s t)
    (hs : StackSpec.run ps al t ops = some (t', os)) :
    ∃ s', run s ops = .ok (s', os) ∧ R ps al s' t' := by
  induction ops generalizing s t os with
  | nil =>
    simp only [StackSpec.run, Option.some.injEq, Prod.mk.injEq] at hs
    obtain ⟨rfl, rfl⟩ := hs
    exact ⟨s, rfl, h⟩
  | cons op ops ih =>
    simp only [StackSpec.run, Option.bind_eq_bind, Option.bind_eq_some_iff] at hs
    obtain ⟨⟨t1, o⟩, e1, ⟨t2, os'⟩, e2, e3⟩ := hs
    simp only [Option.some.injEq, Prod.mk.injEq] at e3
    obtain ⟨rfl, rfl⟩ := e3
    obtain ⟨s1, r1, r2⟩ := R_step h0 ha h op e1
    obtain ⟨s2, r3, r4⟩ := ih r2 e2
    exact ⟨s2, by simp only [run, r1, bind_ok, r3], r4⟩

end Falcon.PagedStack
