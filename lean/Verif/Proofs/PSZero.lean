import Verif.Proofs.PSMore
/-
Helper lemmas: a PagedStack constructed with page size 0.  The bottom page stays empty for ever and
all elements live on the second page.
-/
namespace Falcon.PagedStack
variable {α : Type} {al : Nat}

/-- the two shapes of a stack with page size 0 holding `c`, bottom first -/
def mkZ (al : Nat) (c : List α) (k : Nat) (sc : Int) (sr : Bool) : PS α :=
  if c = [] then mkS 0 al [] [] (List.replicate k []) sc sr
  else mkS 0 al [[]] c (List.replicate k []) sc sr

/-- simulation relation at page size 0 (the number of pages plays no role) -/
def RZ (al : Nat) (s : PS α) (t : StackSpec.St α) : Prop :=
  ∃ k, s = mkZ al t.items.reverse k t.iters t.pending

variable {sc : Int} {sr : Bool}

theorem mkZ_nil (k : Nat) : mkZ al ([] : List α) k sc sr = mkS 0 al [] [] (List.replicate k []) sc sr := rfl

theorem mkZ_ne {c : List α} (h : c ≠ []) (k : Nat) :
    mkZ al c k sc sr = mkS 0 al [[]] c (List.replicate k []) sc sr := if_neg h

theorem pushZ (ha : 0 < al) (c : List α) (k : Nat) (x : α) :
    ∃ k', push (mkZ al c k sc sr) x = .ok (mkZ al (c ++ [x]) k' sc sr) := by
  by_cases h : c = []
  · subst h
    rw [mkZ_nil]
    rcases k with _ | k
    · exact ⟨al - 1, by rw [List.nil_append, mkZ_ne (by simp)]; exact push_grow x rfl ha⟩
    · refine ⟨k, ?_⟩
      rw [List.replicate_succ, mkZ_ne (by simp)]
      exact push_next (ps := 0) (pre := []) (cp := []) x [] rfl
  · refine ⟨k, ?_⟩
    rw [mkZ_ne h, push_room x (by simpa using h), mkZ_ne (by simp)]

theorem pushesZ (ha : 0 < al) : ∀ (xs c : List α) (k : Nat),
    ∃ k', xs.foldlM push (mkZ al c k sc sr) = .ok (mkZ al (c ++ xs) k' sc sr)
  | [], c, k => ⟨k, by simp; rfl⟩
  | x :: xs, c, k => by
    obtain ⟨k1, e1⟩ := pushZ (sc := sc) (sr := sr) ha c k x
    obtain ⟨k2, e2⟩ := pushesZ ha xs (c ++ [x]) k1
    exact ⟨k2, by simp only [List.foldlM_cons, e1, bind_ok, e2]; simp⟩

theorem popZ (c : List α) (x : α) (k : Nat) :
    ∃ k', popOne (mkZ al (c ++ [x]) k sc sr) = .ok (mkZ al c k' sc sr) := by
  rw [mkZ_ne (by simp)]
  by_cases h : c = []
  · subst h
    exact ⟨k + 1, by rw [List.nil_append]; exact popOne_cross (pre := []) [] x⟩
  · exact ⟨k, by rw [popOne_stay x (Or.inl h), mkZ_ne h]⟩

theorem topZ (c : List α) (x : α) (k : Nat) : top (mkZ al (c ++ [x]) k sc sr) = .ok x := by
  rw [mkZ_ne (by simp)]; simp [top_mk]

theorem setTopZ (c : List α) (x y : α) (k : Nat) :
    setTop (mkZ al (c ++ [x]) k sc sr) y = .ok (mkZ al (c ++ [y]) k sc sr) := by
  rw [mkZ_ne (by simp), mkZ_ne (by simp), setTop_mk]

theorem popManyZ : ∀ (n : Nat) (c : List α) (k : Nat), n ≤ c.length →
    ∃ k', popMany (mkZ al c k sc sr) n
      = .ok (mkZ al (c.take (c.length - n)) k' sc sr, c.reverse.take n)
  | 0, c, k, _ => ⟨k, by simp [popMany]⟩
  | n + 1, c, k, h => by
    rcases nil_or_snoc c with rfl | ⟨c, x, rfl⟩
    · simp at h
    · obtain ⟨k1, e1⟩ := popZ (al := al) (sc := sc) (sr := sr) c x k
      obtain ⟨k2, e2⟩ := popManyZ n c k1 (by simpa using h)
      refine ⟨k2, ?_⟩
      simp only [popMany, topZ, bind_ok, e1, e2, List.length_append, List.length_cons, List.length_nil]
      rw [List.take_append_of_le_length (by omega), show c.length + (0 + 1) - (n + 1) = c.length - n by omega]
      simp

theorem discardZ (n : Nat) (c : List α) (k : Nat) :
    ∃ k', discard (mkZ al c k sc sr) n = .ok (mkZ al (c.take (c.length - n)) k' sc sr) := by
  by_cases h : c = []
  · subst h; exact ⟨k, by simp [mkZ_nil, discard, discardLoop, mkS]⟩
  · by_cases hn : n ≥ c.length
    · refine ⟨k + 1, ?_⟩
      rw [mkZ_ne h, show c.length - n = 0 by omega, List.take_zero, mkZ_nil]
      simp [discard, discardLoop, mkS, hn, List.replicate_succ]
    · refine ⟨k, ?_⟩
      rw [mkZ_ne h, mkZ_ne (by intro e; have := congrArg List.length e; simp at this; omega)]
      simp [discard, discardLoop, mkS, hn]

theorem sizeZ (c : List α) (k : Nat) : size (mkZ al c k sc sr) = .ok c.length := by
  by_cases h : c = []
  · subst h; rfl
  · rw [mkZ_ne h, size_spec]; simp [cont]

theorem isEmptyZ (c : List α) (k : Nat) : isEmpty (mkZ al c k sc sr) = .ok (c.length == 0) := by
  by_cases h : c = []
  · subst h; rfl
  · rw [mkZ_ne h]; simp [isEmpty, h]

theorem contentsZ (c : List α) (k : Nat) : contents (mkZ al c k sc sr) = c.reverse := by
  by_cases h : c = []
  · subst h; rfl
  · rw [mkZ_ne h, contents_mk]; simp [cont]

/-! reading: position `i` of a non-empty stack is offset `i` of the second page -/

section reads
variable {c : List α} {rest : List (List α)}

theorem page1Z : (mkS 0 al [[]] c rest sc sr).page 1 = .ok c := rfl
theorem page0Z : (mkS 0 al [[]] c rest sc sr).page 0 = .ok [] := rfl

theorem derefZ (i b : Nat) (hi : i < c.length) :
    Iter.deref (mkS 0 al [[]] c rest sc sr) ⟨1, i, b⟩ = .ok c[i] := by
  rw [deref_mk, page1Z, bind_ok, if_neg (by omega), Int.toNat_natCast, List.getElem?_eq_getElem hi]

theorem fwdIncZ (i : Nat) : fwdInc (mkS 0 al [[]] c rest sc sr) ⟨1, (i + 1 : Nat), 0⟩ = .ok ⟨1, i, 0⟩ := by
  rw [fwdInc_mk, page1Z, bind_ok, if_neg (by omega), ptrDec, if_neg (by omega), bind_ok]
  congr 2; omega

theorem revIncZ (i : Nat) (hi : i < c.length) :
    revInc (mkS 0 al [[]] c rest sc sr) ⟨1, i, 1⟩ = .ok ⟨1, (i + 1 : Nat), 1⟩ := by
  rw [revInc_mk, page1Z, bind_ok, ptrInc, if_pos (by omega), bind_ok, if_neg (by omega)]
  congr 2

theorem distFwdZ : ∀ (n i : Nat), i < c.length → n ≤ i + 1 →
    distribute (mkS 0 al [[]] c rest sc sr) (fwdInc (mkS 0 al [[]] c rest sc sr)) n ⟨1, i, 0⟩
      = .ok ((c.take (i + 1)).reverse.take n)
  | 0, i, hi, _ => by simp [distribute]
  | 1, i, hi, _ => by
    simp only [distribute, derefZ i 0 hi, bind_ok]
    rw [take_succ_rev _ _ hi]; rfl
  | n + 2, 0, hi, h => by omega
  | n + 2, i + 1, hi, h => by
    simp only [distribute, derefZ (i + 1) 0 hi, bind_ok, fwdIncZ,
      distFwdZ (n + 1) i (by omega) (by omega)]
    rw [take_succ_rev _ _ hi]; rfl

theorem distRevZ : ∀ (n i : Nat), i + n ≤ c.length →
    distribute (mkS 0 al [[]] c rest sc sr) (revInc (mkS 0 al [[]] c rest sc sr)) n ⟨1, i, 1⟩
      = .ok ((c.drop i).take n)
  | 0, i, hi => by simp [distribute]
  | 1, i, hi => by
    have hi' : i < c.length := by omega
    simp only [distribute, derefZ i 1 hi', bind_ok]
    rw [List.drop_eq_getElem_cons hi']; rfl
  | n + 2, i, hi => by
    have hi' : i < c.length := by omega
    simp only [distribute, derefZ i 1 hi', bind_ok, revIncZ i hi',
      distRevZ (n + 1) (i + 1) (by omega)]
    rw [List.drop_eq_getElem_cons hi']; rfl

end reads

theorem peekZ (n : Nat) (c : List α) (k : Nat) (h : n ≤ c.length) :
    peek (mkZ al c k sc sr) n = .ok (c.reverse.take n) := by
  by_cases hc : c = []
  · subst hc
    have : n = 0 := by simpa using h
    subst this; rfl
  · have hl : 0 < c.length := List.length_pos_iff.2 hc
    rw [mkZ_ne hc]
    have hb : begin_ (mkS 0 al [[]] c (List.replicate k []) sc sr) = .ok ⟨1, (c.length - 1 : Nat), 0⟩ := by
      simp only [begin_, mkS_cur, mkS_page, bind_ok]
      congr 2; omega
    simp only [peek, hb, bind_ok]
    rw [distFwdZ n _ (by omega) (by omega), show c.length - 1 + 1 = c.length by omega, List.take_length]

theorem peekDepthZ (d n : Nat) (c : List α) (k : Nat) (h1 : n ≤ d) (h2 : d ≤ c.length) :
    peekDepth (mkZ al c k sc sr) d n = .ok ((c.reverse.take d).reverse.take n) := by
  by_cases hc : c = []
  · subst hc
    have : d = 0 := by simpa using h2
    subst this
    have : n = 0 := by omega
    subst this; rfl
  · rw [mkZ_ne hc]
    have hf : fromTop (mkS 0 al [[]] c (List.replicate k []) sc sr) d = .ok ⟨1, (c.length - d : Nat), 1⟩ := by
      simp only [fromTop, mkS, List.length_cons, List.length_nil, fromTopLoop, List.cons_append,
        List.nil_append, List.getElem?_cons_succ, List.getElem?_cons_zero]
      rw [if_neg (by omega)]; rfl
    simp only [peekDepth, hf, bind_ok]
    rw [distRevZ n _ (by omega)]
    congr 2
    rw [List.reverse_take, List.reverse_reverse, List.length_reverse]

theorem shrinkZ (c : List α) (k : Nat) : ∃ k', internalShrink (mkZ al c k sc sr) = mkZ al c k' sc sr := by
  by_cases h : c = []
  · subst h; exact ⟨0, by simp [mkZ_nil, internalShrink, mkS]⟩
  · exact ⟨0, by simp [mkZ_ne h, internalShrink, mkS]⟩

theorem shrinkFreeZ (c : List α) (k : Nat) (h : ¬ sc > 0) :
    ∃ k', shrinkToFit (mkZ al c k sc sr) = mkZ al c k' sc sr := by
  obtain ⟨k', e⟩ := shrinkZ (al := al) (sc := sc) (sr := sr) c k
  refine ⟨k', ?_⟩
  rw [← e]
  by_cases hc : c = []
  · subst hc; simp [shrinkToFit, mkZ_nil, mkS, h]
  · simp [shrinkToFit, mkZ_ne hc, mkS, h]

theorem shrinkHeldZ (c : List α) (k : Nat) (h : sc > 0) :
    shrinkToFit (mkZ al c k sc sr) = mkZ al c k sc true := by
  by_cases hc : c = []
  · subst hc; simp [shrinkToFit, mkZ_nil, mkS, h]
  · simp [shrinkToFit, mkZ_ne hc, mkS, h]

theorem syncNewZ (c : List α) (k : Nat) : syncNew (mkZ al c k sc sr) = mkZ al c k (sc + 1) sr := by
  by_cases hc : c = []
  · subst hc; simp [syncNew, mkZ_nil, mkS]
  · simp [syncNew, mkZ_ne hc, mkS]

theorem syncLastZ (c : List α) (k : Nat) (h : sc - 1 = 0) (hr : sr = true) :
    ∃ k', syncDrop (mkZ al c k sc sr) = mkZ al c k' (sc - 1) false := by
  obtain ⟨k', e⟩ := shrinkZ (al := al) (sc := sc - 1) (sr := false) c k
  refine ⟨k', ?_⟩
  rw [← e]
  by_cases hc : c = []
  · subst hc; simp [syncDrop, mkZ_nil, mkS, h, hr]
  · simp [syncDrop, mkZ_ne hc, mkS, h, hr]

theorem syncDropZ (c : List α) (k : Nat) (h : ¬ (sc - 1 = 0 ∧ sr = true)) :
    syncDrop (mkZ al c k sc sr) = mkZ al c k (sc - 1) sr := by
  by_cases hc : c = []
  · subst hc; simp only [syncDrop, mkZ_nil, mkS, h, if_false]
  · simp only [syncDrop, mkZ_ne hc, mkS, h, if_false]

theorem RZ_init (k : Nat) : RZ (k + 1) (init 0 (k + 1) : PS α) (StackSpec.init (k + 1)) :=
  ⟨k, by simp [init, growBase, StackSpec.init, mkZ, mkS, List.replicate_succ]⟩

theorem contents_of_RZ {s : PS α} {t : StackSpec.St α} (h : RZ al s t) : contents s = t.items := by
  obtain ⟨k, rfl⟩ := h
  rw [contentsZ, List.reverse_reverse]

/-- one call: same output as the ideal stack (whose page size plays no role, statistics apart) -/
theorem RZ_step (ha : 0 < al) (ps : Nat) {s : PS α} {t t' : StackSpec.St α} {o : Out α}
    (h : RZ al s t) (op : Op α) (hn : op ≠ .stats)
    (hs : StackSpec.step ps al t op = some (t', o)) :
    ∃ s', step s op = .ok (s', o) ∧ RZ al s' t' := by
  obtain ⟨k, rfl⟩ := h
  have push1 : ∀ x, ∃ s', push (mkZ al t.items.reverse k t.iters t.pending) x = .ok s' ∧
      RZ al s' (StackSpec.push ps al t x) := by
    intro x
    obtain ⟨k', e⟩ := pushZ (sc := t.iters) (sr := t.pending) ha t.items.reverse k x
    exact ⟨_, e, k', by simp [StackSpec.push]⟩
  cases op with
  | push x =>
    simp only [StackSpec.step, Option.some.injEq, Prod.mk.injEq] at hs
    obtain ⟨rfl, rfl⟩ := hs
    obtain ⟨s', e, r⟩ := push1 x
    exact ⟨s', by simp only [step, e, bind_ok], r⟩
  | pushEmplace x =>
    simp only [StackSpec.step, Option.some.injEq, Prod.mk.injEq] at hs
    obtain ⟨rfl, rfl⟩ := hs
    obtain ⟨s', e, r⟩ := push1 x
    exact ⟨s', by simp only [step, show pushEmplace _ x = push _ x from rfl, e, bind_ok], r⟩
  | pushMany x xs =>
    simp only [StackSpec.step, Option.some.injEq, Prod.mk.injEq] at hs
    obtain ⟨rfl, rfl⟩ := hs
    obtain ⟨k', e⟩ := pushesZ (sc := t.iters) (sr := t.pending) ha (x :: xs) t.items.reverse k
    refine ⟨_, by simp only [step, pushMany_eq, e, bind_ok] <;> rfl, k', ?_⟩
    have hp : ∀ (ys : List α) (u : StackSpec.St α),
        (ys.foldl (StackSpec.push ps al) u).items = ys.reverse ++ u.items ∧
        (ys.foldl (StackSpec.push ps al) u).iters = u.iters ∧
        (ys.foldl (StackSpec.push ps al) u).pending = u.pending := by
      intro ys
      induction ys with
      | nil => intro u; exact ⟨rfl, rfl, rfl⟩
      | cons y ys ih => intro u; rw [List.foldl_cons]; simp [ih, StackSpec.push]
    obtain ⟨h1, h2, h3⟩ := hp (x :: xs) t
    rw [h1, h2, h3]; simp
  | pop =>
    simp only [StackSpec.step] at hs
    cases ht : t.items with
    | nil => rw [ht] at hs; cases hs
    | cons a as =>
      rw [ht] at hs
      cases hs
      obtain ⟨k', e⟩ := popZ (al := al) (sc := t.iters) (sr := t.pending) as.reverse a k
      exact ⟨_, by simp only [step, List.reverse_cons, e, bind_ok] <;> rfl, k', rfl⟩
  | popMany n =>
    simp only [StackSpec.step] at hs
    split at hs
    · cases hs
      obtain ⟨k', e⟩ := popManyZ (al := al) (sc := t.iters) (sr := t.pending) n t.items.reverse k (by simpa)
      refine ⟨_, by simp only [step, e, bind_ok, List.reverse_reverse] <;> rfl, k', ?_⟩
      rw [List.length_reverse, ← List.reverse_drop]
    · cases hs
  | top =>
    simp only [StackSpec.step] at hs
    cases ht : t.items with
    | nil => rw [ht] at hs; cases hs
    | cons a as =>
      rw [ht] at hs
      cases hs
      refine ⟨_, by simp only [step, List.reverse_cons, topZ, bind_ok] <;> rfl, k, by rw [ht, List.reverse_cons]⟩
  | setTop y =>
    simp only [StackSpec.step] at hs
    cases ht : t.items with
    | nil => rw [ht] at hs; cases hs
    | cons a as =>
      rw [ht] at hs
      cases hs
      exact ⟨_, by simp only [step, List.reverse_cons, setTopZ, bind_ok] <;> rfl, k, by simp⟩
  | discard n =>
    simp only [StackSpec.step] at hs
    split at hs
    · cases hs
      obtain ⟨k', e⟩ := discardZ (al := al) (sc := t.iters) (sr := t.pending) n t.items.reverse k
      refine ⟨_, by simp only [step, e, bind_ok] <;> rfl, k', ?_⟩
      rw [List.length_reverse, ← List.reverse_drop]
    · cases hs
  | peek n =>
    simp only [StackSpec.step] at hs
    split at hs
    · cases hs
      refine ⟨_, ?_, k, rfl⟩
      simp only [step, peekZ n _ k (show n ≤ t.items.reverse.length by simpa), bind_ok, List.reverse_reverse] <;> rfl
    · cases hs
  | peekReverse n =>
    simp only [StackSpec.step] at hs
    split at hs
    · cases hs
      refine ⟨_, ?_, k, rfl⟩
      simp only [step, peekReverse_eq,
        peekDepthZ n n _ k (Nat.le_refl n) (show n ≤ t.items.reverse.length by simpa), bind_ok,
        List.reverse_reverse]
      rw [List.take_of_length_le (by simp; omega)]
    · cases hs
  | peekDepth d n =>
    simp only [StackSpec.step] at hs
    split at hs
    · rename_i hc
      cases hs
      refine ⟨_, ?_, k, rfl⟩
      simp only [step, peekDepthZ d n _ k hc.1 (show d ≤ t.items.reverse.length by simpa using hc.2), bind_ok,
        List.reverse_reverse]
    · cases hs
  | empty =>
    simp only [StackSpec.step] at hs
    cases hs
    exact ⟨_, by simp only [step, isEmptyZ, bind_ok, List.length_reverse] <;> rfl, k, rfl⟩
  | size =>
    simp only [StackSpec.step] at hs
    cases hs
    exact ⟨_, by simp only [step, sizeZ, bind_ok, List.length_reverse] <;> rfl, k, rfl⟩
  | stats => exact absurd rfl hn
  | shrink =>
    simp only [StackSpec.step] at hs
    split at hs
    · cases hs
      exact ⟨_, rfl, k, shrinkHeldZ _ k (by omega)⟩
    · cases hs
      obtain ⟨k', e⟩ := shrinkFreeZ (al := al) (sc := t.iters) (sr := t.pending) t.items.reverse k (by omega)
      exact ⟨_, rfl, k', e⟩
  | syncNew =>
    simp only [StackSpec.step] at hs
    cases hs
    exact ⟨_, rfl, k, syncNewZ _ k⟩
  | syncDrop =>
    simp only [StackSpec.step] at hs
    split at hs
    · cases hs
    · split at hs
      · rename_i hi hc
        cases hs
        obtain ⟨k', e⟩ := syncLastZ (al := al) (sc := t.iters) (sr := t.pending) t.items.reverse k
          (by omega) hc.2
        refine ⟨_, rfl, k', ?_⟩
        rw [e]; simp [hc.1]
      · rename_i hi hc
        cases hs
        refine ⟨_, rfl, k, ?_⟩
        rw [syncDropZ _ k (fun hh => hc ⟨by omega, hh.2⟩)]
        congr 1
        simp only; omega

theorem RZ_run (ha : 0 < al) (ps : Nat) (ops : List (Op α)) : ∀ {s : PS α} {t t' : StackSpec.St α}
    {os : List (Out α)}, RZ al s t → Op.stats ∉ ops → StackSpec.run ps al t ops = some (t', os) →
    ∃ s', run s ops = .ok (s', os) ∧ RZ al s' t' := by
  induction ops with
  | nil =>
    intro s t t' os h _ hs
    simp only [StackSpec.run, Option.some.injEq, Prod.mk.injEq] at hs
    obtain ⟨rfl, rfl⟩ := hs
    exact ⟨s, rfl, h⟩
  | cons op ops ih =>
    intro s t t' os h hn hs
    simp only [StackSpec.run] at hs
    cases h1 : StackSpec.step ps al t op with
    | none => rw [h1] at hs; cases hs
    | some r =>
      obtain ⟨t1, o⟩ := r
      rw [h1] at hs
      cases h2 : StackSpec.run ps al t1 ops with
      | none => simp [h2] at hs
      | some r =>
        obtain ⟨t2, os2⟩ := r
        simp [h2] at hs
        obtain ⟨rfl, rfl⟩ := hs
        obtain ⟨s1, e1, r1⟩ := RZ_step ha ps h op (fun e => hn (by simp [e])) h1
        obtain ⟨s2, e2, r2⟩ := ih r1 (fun e => hn (by simp [e])) h2
        exact ⟨s2, by simp only [run, e1, bind_ok, e2], r2⟩

end Falcon.PagedStack
