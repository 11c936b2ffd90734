import Verif.Proofs.PSIter
/-
C01-C15, C20-C23: sequential properties of PagedStack.
Vocabulary: Model/PagedStack (calls), Spec/Stack (ideal stack), Spec/StackObs (contents,
reachable stacks, BehavesLike).
-/
namespace Falcon.PagedStack
variable {α : Type}

/-- Justification of the word `contents`: popping everything returns exactly that list. -/
theorem contents_observable {ps al : Nat} (h0 : 0 < ps) (ha : 0 < al) {s : PS α}
    (h : Reach ps al s) :
    size s = .ok (contents s).length ∧
    ∃ s', popMany s (contents s).length = .ok (s', contents s) ∧ contents s' = [] := by
  obtain ⟨pre, cp, k, n, sr, rfl, g⟩ := h.inv h0 ha
  obtain ⟨pre', cp', j, e, g', c', l'⟩ := popMany_spec (al := al) (sc := n) (sr := sr) h0
    (cont pre cp).length pre cp (List.replicate k []) g (Nat.le_refl _)
  refine ⟨by rw [size_spec, contents_mk]; simp, mkS ps al pre' cp' (List.replicate j [] ++ List.replicate k []) n sr, ?_, ?_⟩
  · rw [contents_mk, List.length_reverse, e, ← List.length_reverse, List.take_length]
  · rw [contents_mk, c']; simp

/-! ### C01 -/

/-- C01: for every page size and preallocation >= 1 and every finite history of calls whose
preconditions hold on the ideal stack, PagedStack returns exactly the ideal values. -/
theorem C01_lifo_refinement (ps al : Nat) (h0 : 0 < ps) (ha : 0 < al) (ops : List (Op α))
    (t : StackSpec.St α) (os : List (Out α))
    (h : StackSpec.run ps al (StackSpec.init al) ops = some (t, os)) :
    ∃ s, run (init ps al) ops = .ok (s, os) ∧ contents s = t.items := by
  obtain ⟨s, e, r⟩ := R_run h0 ha ops (R_init ha) h
  exact ⟨s, e, contents_of_R r⟩

/-- The same from every reachable stack: it behaves like an ideal stack holding its contents. -/
theorem C01_reachable_behaves (ps al : Nat) (h0 : 0 < ps) (ha : 0 < al) (s : PS α)
    (h : Reach ps al s) : BehavesLike ps al s (contents s) :=
  behaves_of_Inv h0 ha (h.inv h0 ha)

/-- non-vacuity: a history crossing page boundaries in both directions -/
example : StackSpec.run 2 1 (StackSpec.init 1)
    [.pushMany 1 [2, 3, 4, 5], .popMany 3, .push 6, .top, .size, .discard 2, .peek 1, .shrink, .stats]
    = some (⟨[1], 1, 0, false⟩, [.unit, .vals [5, 4, 3], .unit, .val (6 : Nat), .nat 3, .unit, .vals [1], .unit,
        .stats ⟨1, 2, 1, 1⟩]) := by decide

/-! ### C02 -/

/-- The documented preconditions, in terms of the number `n` of elements. -/
def violates (n : Nat) : Op α → Prop
  | .pop           => n = 0
  | .top           => n = 0
  | .setTop _      => n = 0
  | .popMany m     => n < m
  | .peek m        => n < m
  | .peekReverse m => n < m
  | .peekDepth d m => ¬ (m ≤ d ∧ d ≤ n)
  | _              => False

/-- C02: on every reachable stack a call has undefined behaviour exactly when its precondition
is violated; otherwise it returns normally. -/
theorem C02_fault_boundary (ps al : Nat) (h0 : 0 < ps) (ha : 0 < al) (s : PS α)
    (h : Reach ps al s) (op : Op α) :
    (violates (contents s).length op → ∃ u, step s op = .error (.ub u)) ∧
    (¬ violates (contents s).length op → ∃ s' o, step s op = .ok (s', o)) := by
  have hR := R_of_Inv (h.inv h0 ha)
  obtain ⟨pre, cp, k, n, sr, rfl, g⟩ := h.inv h0 ha
  have hok : ∀ t' o', StackSpec.step ps al
      ⟨contents (mkS ps al pre cp (List.replicate k []) n sr),
       (mkS ps al pre cp (List.replicate k []) n sr).base.length,
       (mkS ps al pre cp (List.replicate k []) n sr).syncCount.toNat,
       (mkS ps al pre cp (List.replicate k []) n sr).shrinkReq⟩ op = some (t', o') →
      ∃ s' o, step (mkS ps al pre cp (List.replicate k []) n sr) op = .ok (s', o) := by
    intro t' o' hs
    obtain ⟨s', e, -⟩ := R_step h0 ha hR op hs
    exact ⟨s', o', e⟩
  rw [contents_mk] at *
  rw [List.length_reverse]
  have hnil : (cont pre cp).length = 0 → pre = [] ∧ cp = [] := fun e =>
    g.cont_nil (List.length_eq_zero_iff.1 e)
  cases op with
  | pop =>
    constructor
    · intro e; obtain ⟨rfl, rfl⟩ := hnil e
      exact ⟨.emptyPopBack, rfl⟩
    · intro e
      rcases nil_or_snoc (cont pre cp) with e' | ⟨c, x, e'⟩
      · rw [e'] at e; simp [violates] at e
      · exact hok _ _ (by simp [StackSpec.step, e']; exact ⟨rfl, rfl⟩)
  | top =>
    constructor
    · intro e; obtain ⟨rfl, rfl⟩ := hnil e
      exact ⟨.emptyBack, rfl⟩
    · intro e
      rcases nil_or_snoc (cont pre cp) with e' | ⟨c, x, e'⟩
      · rw [e'] at e; simp [violates] at e
      · exact hok _ _ (by simp [StackSpec.step, e']; exact ⟨rfl, rfl⟩)
  | setTop y =>
    constructor
    · intro e; obtain ⟨rfl, rfl⟩ := hnil e
      exact ⟨.emptyBack, rfl⟩
    · intro e
      rcases nil_or_snoc (cont pre cp) with e' | ⟨c, x, e'⟩
      · rw [e'] at e; simp [violates] at e
      · exact hok _ _ (by simp [StackSpec.step, e']; exact ⟨rfl, rfl⟩)
  | popMany m =>
    constructor
    · intro e
      exact ⟨.emptyBack, by rw [step, popMany_over m pre cp _ h0 g e]; rfl⟩
    · intro e
      simp only [violates, Nat.not_lt] at e
      exact hok _ _ (by simp only [StackSpec.step, List.length_reverse]; exact if_pos e)
  | peek m =>
    constructor
    · intro e
      simp only [violates] at e
      exact ⟨.derefData, by rw [step, peek_spec h0 g, if_neg (by omega)]; rfl⟩
    · intro e
      simp only [violates, Nat.not_lt] at e
      exact hok _ _ (by simp only [StackSpec.step, List.length_reverse]; exact if_pos e)
  | peekReverse m =>
    constructor
    · intro e
      simp only [violates] at e
      obtain ⟨u, hu⟩ := peekDepth_bad (al := al) (sc := n) (sr := sr) (rest := List.replicate k []) h0 g m m (by omega)
      exact ⟨u, by rw [step, peekReverse_eq, hu]; rfl⟩
    · intro e
      simp only [violates, Nat.not_lt] at e
      exact hok _ _ (by simp only [StackSpec.step, List.length_reverse]; exact if_pos e)
  | peekDepth d m =>
    constructor
    · intro e
      simp only [violates] at e
      obtain ⟨u, hu⟩ := peekDepth_bad (al := al) (sc := n) (sr := sr) (rest := List.replicate k []) h0 g d m e
      exact ⟨u, by rw [step, hu]; rfl⟩
    · intro e
      simp only [violates, Classical.not_not] at e
      exact hok _ _ (by simp only [StackSpec.step, List.length_reverse]; exact if_pos e)
  | discard m =>
    refine ⟨False.elim, fun _ => ?_⟩
    obtain ⟨pre', cp', j, e', -⟩ := discard_spec (al := al) (sc := n) (sr := sr) h0 (List.replicate k []) m g
    exact ⟨_, _, by rw [step, e']; rfl⟩
  | shrink => exact ⟨False.elim, fun _ => ⟨_, _, rfl⟩⟩
  | syncNew => exact ⟨False.elim, fun _ => ⟨_, _, rfl⟩⟩
  | syncDrop => exact ⟨False.elim, fun _ => ⟨_, _, rfl⟩⟩
  | push x => exact ⟨False.elim, fun _ => hok _ _ rfl⟩
  | pushMany x xs => exact ⟨False.elim, fun _ => hok _ _ rfl⟩
  | pushEmplace x => exact ⟨False.elim, fun _ => hok _ _ rfl⟩
  | empty => exact ⟨False.elim, fun _ => hok _ _ rfl⟩
  | size => exact ⟨False.elim, fun _ => hok _ _ rfl⟩
  | stats => exact ⟨False.elim, fun _ => hok _ _ rfl⟩

/-- a non-trivial reachable stack for the hypotheses of this file: `7,8` pushed over two pages,
with a spare page -/
theorem reach_example : Reach 1 3 (mkS 1 3 [[7]] [8] [[]] 0 false : PS Nat) :=
  Reach.call (o := .unit) (.pushMany 7 [8]) .init (by simp) rfl

example : violates (contents (mkS 1 3 [[7]] [8] [[]] 0 false : PS Nat)).length (.popMany 3 : Op Nat) ∧
    ¬ violates (contents (mkS 1 3 [[7]] [8] [[]] 0 false : PS Nat)).length (.popMany 2 : Op Nat) := by
  simp [violates, contents, mkS]

/-! ### C03, C04, C05 -/

/-- C03: push(x1,...,xn) is the sequence of single pushes, for every stack (reachable or not),
with identical resulting state or fault; and push_emplace is push. -/
theorem C03_push_many_is_pushes (s : PS α) (x : α) (xs : List α) :
    pushMany s x xs = (x :: xs).foldlM push s ∧ pushEmplace s x = push s x :=
  ⟨pushMany_eq s x xs, rfl⟩

/-- C03: the last argument is the new top, the others lie below it in order. -/
theorem C03_push_many_contents (ps al : Nat) (h0 : 0 < ps) (ha : 0 < al) (s : PS α)
    (h : Reach ps al s) (x : α) (xs : List α) :
    ∃ s', pushMany s x xs = .ok s' ∧ contents s' = (x :: xs).reverse ++ contents s := by
  obtain ⟨s', e, r⟩ := R_pushes h0 ha (x :: xs) (R_of_Inv (h.inv h0 ha))
  refine ⟨s', by rw [pushMany_eq, e], ?_⟩
  rw [contents_of_R r]
  have : ∀ (ys : List α) (t : StackSpec.St α),
      (ys.foldl (StackSpec.push ps al) t).items = ys.reverse ++ t.items := by
    intro ys
    induction ys with
    | nil => simp
    | cons y ys ih => intro t; rw [List.foldl_cons, ih]; simp [StackSpec.push]
  rw [this]

/-- C04: pop(v1..vn) after push(x1..xn) stores xn..x1 and restores the contents. -/
theorem C04_pop_undoes_push (ps al : Nat) (h0 : 0 < ps) (ha : 0 < al) (s : PS α)
    (h : Reach ps al s) (x : α) (xs : List α) :
    ∃ s' s'', pushMany s x xs = .ok s' ∧
      popMany s' (x :: xs).length = .ok (s'', (x :: xs).reverse) ∧ contents s'' = contents s := by
  obtain ⟨s', e, hc⟩ := C03_push_many_contents ps al h0 ha s h x xs
  have hr : Reach ps al s' := Reach.call (o := .unit) (.pushMany x xs) h (by simp) (by simp only [step, e, bind_ok])
  obtain ⟨pre, cp, k, n, sr, rfl, g⟩ := hr.inv h0 ha
  rw [contents_mk] at hc
  have hlen := congrArg List.length hc
  simp only [List.length_reverse, List.length_append] at hlen
  obtain ⟨pre', cp', j, e', g', c', l'⟩ := popMany_spec (al := al) (sc := n) (sr := sr) h0 (x :: xs).length
    pre cp (List.replicate k []) g (by omega)
  refine ⟨_, mkS ps al pre' cp' (List.replicate j [] ++ List.replicate k []) n sr, e, ?_, ?_⟩
  · rw [e', hc, List.take_left' (by simp)]
  · rw [contents_mk, c', take_len_reverse, hc, List.drop_left' (by simp)]

/-- `n` calls of pop() -/
def pops : Nat → PS α → Res (PS α)
  | 0,     s => .ok s
  | n + 1, s => do pops n (← popOne s)

/-- C05: discard(n), n <= size, leaves exactly the state that n calls of pop() leave;
the contents lose the n topmost elements. -/
theorem C05_discard_is_pops (ps al : Nat) (h0 : 0 < ps) (ha : 0 < al) (s : PS α)
    (h : Reach ps al s) (n : Nat) (hn : n ≤ (contents s).length) :
    ∃ s', discard s n = .ok s' ∧ pops n s = .ok s' ∧ contents s' = (contents s).drop n := by
  obtain ⟨pre, cp, k, m, sr, rfl, g⟩ := h.inv h0 ha
  rw [contents_mk, List.length_reverse] at hn
  have key : ∀ (n : Nat) (pre : List (List α)) (cp : List α) (rest : List (List α)), Good ps pre cp →
      n ≤ (cont pre cp).length → ∃ pre' cp' j, pops n (mkS ps al pre cp rest m sr)
        = .ok (mkS ps al pre' cp' (List.replicate j [] ++ rest) m sr)
      ∧ Good ps pre' cp' ∧ cont pre' cp' = (cont pre cp).take ((cont pre cp).length - n)
      ∧ pre'.length + j = pre.length := by
    intro n
    induction n with
    | zero =>
      intro pre cp rest g _
      exact ⟨pre, cp, 0, by simp [pops], g, by rw [Nat.sub_zero, List.take_length], by simp⟩
    | succ n ih =>
      intro pre cp rest g hn
      rcases nil_or_snoc (cont pre cp) with e | ⟨c, x, e⟩
      · rw [e] at hn; simp at hn
      · obtain ⟨pre1, cp1, j1, e1, g1, c1, l1⟩ := pop_spec (al := al) (sc := m) (sr := sr) h0 rest g e
        obtain ⟨pre2, cp2, j2, e2, g2, c2, l2⟩ := ih pre1 cp1 (List.replicate j1 [] ++ rest) g1
          (by rw [c1]; rw [e] at hn; simpa using hn)
        refine ⟨pre2, cp2, j2 + j1, ?_, g2, ?_, by omega⟩
        · rw [pops, e1, bind_ok, e2]; simp [← List.replicate_append_replicate]
        · rw [c2, c1, e]
          simp only [List.length_append, List.length_cons, List.length_nil]
          rw [List.take_append_of_le_length (by omega)]
          congr 1; omega
  obtain ⟨pre1, cp1, j1, e1, g1, c1, l1⟩ := key n pre cp (List.replicate k []) g hn
  obtain ⟨pre2, cp2, j2, e2, g2, c2, l2⟩ := discard_spec (al := al) (sc := m) (sr := sr) h0 (List.replicate k []) n g
  obtain ⟨rfl, rfl⟩ := Good.unique h0 g1 g2 (by rw [c1, c2])
  have : j1 = j2 := by omega
  subst this
  exact ⟨_, e2, e1, by rw [contents_mk, contents_mk, c2, take_len_reverse]⟩

/-- C05: discard(0) changes nothing at all. -/
theorem C05_discard_zero (ps al : Nat) (h0 : 0 < ps) (ha : 0 < al) (s : PS α)
    (h : Reach ps al s) : discard s 0 = .ok s := by
  obtain ⟨s', e1, e2, -⟩ := C05_discard_is_pops ps al h0 ha s h 0 (Nat.zero_le _)
  rw [e1]; exact e2.symm

/-! ### C06 -/

/-- C06 does not hold: clear() keeps the elements of the first page. -/
theorem C06_clear_refuted : ∃ s s' : PS Nat, Reach 4 1 s ∧ clear s = .ok s' ∧
    contents s' ≠ [] ∧ isEmpty s' = .ok false :=
  ⟨mkS 4 1 [] [5] [] 0 false, mkS 4 1 [] [5] [] 0 false,
    Reach.call (o := .unit) (.push 5) .init (by simp) rfl, rfl, by decide, rfl⟩

/-- C06 (what holds): clear() keeps exactly the bottom `pageSize` elements and the result
behaves like an ideal stack holding them; hence it empties the stack iff it was empty. -/
theorem C06_clear_partial (ps al : Nat) (h0 : 0 < ps) (ha : 0 < al) (s : PS α) (h : Reach ps al s) :
    ∃ s', clear s = .ok s' ∧ contents s' = (contents s).drop ((contents s).length - ps) ∧
      BehavesLike ps al s' (contents s') ∧ (contents s' = [] ↔ contents s = []) := by
  obtain ⟨pre, cp, k, n, sr, rfl, g⟩ := h.inv h0 ha
  have hr := Reach.clear h clear_spec
  refine ⟨_, clear_spec, ?_, behaves_of_Inv h0 ha (hr.inv h0 ha), ?_⟩
  · rw [contents_mk, contents_mk, (head_good g).2, List.reverse_take, List.length_reverse]
  · rw [contents_mk, contents_mk, (head_good g).2]
    simp; omega

/-! ### C07, C08 -/

/-- C07 does not hold: after pop_reverse leaving a multiple of the page size, a removed
element comes back. -/
theorem C07_pop_reverse_refuted : ∃ s s' : PS Nat, ∃ vs, Reach 2 2 s ∧
    popReverse s 1 = .ok (s', vs) ∧ contents s = [3, 2, 1] ∧
    (do let s ← push s' 9; popMany s 3).map Prod.snd = .ok [9, 3, 2] :=
  ⟨mkS 2 2 [[1, 2]] [3] [] 0 false, _, _,
    Reach.call (o := .unit) (.pushMany 1 [2, 3]) .init (by simp) rfl, rfl, by decide, rfl⟩

/-- C07 (exact): pop_reverse(v1..vn) always stores the n topmost elements deepest first and the
contents lose them; the stack then behaves like an ideal stack holding the rest under every
later history if and only if the number of elements left is 0 or not a multiple of the page size. -/
theorem C07_pop_reverse_partial (ps al : Nat) (h0 : 0 < ps) (ha : 0 < al) (s : PS α)
    (h : Reach ps al s) (n : Nat) (hn : 1 ≤ n) (hle : n ≤ (contents s).length) :
    ∃ s', popReverse s n = .ok (s', ((contents s).take n).reverse) ∧
      contents s' = (contents s).drop n ∧
      (BehavesLike ps al s' ((contents s).drop n) ↔ cleanRemainder ps ((contents s).length - n)) := by
  have hrr : ∀ s', popReverse s n = .ok (s', ((contents s).take n).reverse) →
      cleanRemainder ps ((contents s).length - n) → Reach ps al s' :=
    fun s' e hc => Reach.popReverse n h hn hle hc e
  obtain ⟨pre, cp, k, m, sr, rfl, g⟩ := h.inv h0 ha
  rw [contents_mk, List.length_reverse] at *
  obtain ⟨pre', cp', rest', e, g', c', l', cl, nc⟩ := popReverse_spec (al := al) (sc := m) (sr := sr) h0
    (List.replicate k []) g n hn hle
  rw [drop_len_eq] at e
  have hcont : contents (mkS ps al pre' cp' rest' m sr) = (cont pre cp).reverse.drop n := by
    rw [contents_mk, c', take_len_reverse]
  refine ⟨_, e, hcont, ?_, ?_⟩
  · intro hb
    refine Classical.byContradiction fun hcl => ?_
    obtain ⟨hf, q, qs, rfl, hq⟩ := nc hcl
    rw [← take_len_reverse, ← c'] at hb
    obtain ⟨x, -⟩ := List.exists_mem_of_length_pos (l := cont pre cp) (by omega)
    exact stale_not_behaves hf hq x hb
  · intro hcl
    have := behaves_of_Inv h0 ha ((hrr _ e hcl).inv h0 ha)
    rwa [hcont] at this

example : ∃ s : PS Nat, Reach 2 2 s ∧ 1 ≤ 2 ∧ 2 ≤ (contents s).length ∧
    cleanRemainder 2 ((contents s).length - 2) :=
  ⟨mkS 2 2 [[1, 2]] [3] [] 0 false,
    Reach.call (o := .unit) (.pushMany 1 [2, 3]) .init (by simp) rfl, by decide, by decide,
    Or.inr (by decide)⟩

/-- `n`-th forward position: begin() followed by `n` increments -/
def nthForward (s : PS α) (n : Nat) : Res Iter := do stepN (fwdInc s) n (← begin_ s)

/-- reverse position: from_top(d) followed by `n` increments -/
def nthReverse (s : PS α) (d n : Nat) : Res Iter := do stepN (revInc s) n (← fromTop s d)

/-- C08 does not hold: the discarded element comes back. -/
theorem C08_discard_iter_refuted : ∃ s s' : PS Nat, ∃ it, Reach 2 2 s ∧ nthForward s 0 = .ok it ∧
    discardIter s it = .ok s' ∧ contents s = [3, 2, 1] ∧
    (do let s ← push s' 9; popMany s 3).map Prod.snd = .ok [9, 3, 2] :=
  ⟨mkS 2 2 [[1, 2]] [3] [] 0 false, _, _,
    Reach.call (o := .unit) (.pushMany 1 [2, 3]) .init (by simp) rfl, rfl, rfl, by decide, rfl⟩

/-- common part of the two C08 theorems -/
theorem discardIter_exact {ps al : Nat} (h0 : 0 < ps) (ha : 0 < al) {pre : List (List α)} {cp : List α}
    {k m : Nat} {sr : Bool} (g : Good ps pre cp) (i b : Nat) (hi : i < (cont pre cp).length) :
    ∃ s', discardIter (mkS ps al pre cp (List.replicate k []) m sr) (pos ps i b) = .ok s' ∧
      contents s' = ((cont pre cp).take i).reverse ∧
      (BehavesLike ps al s' ((cont pre cp).take i).reverse ↔ cleanRemainder ps i) := by
  obtain ⟨pre', cp', rest', e, g', c', l', cl, nc⟩ := internalDiscard_spec (al := al) (sc := m) (sr := sr) h0
    (List.replicate k []) g i hi
  refine ⟨_, e, by rw [contents_mk, c'], ?_, ?_⟩
  · intro hb
    refine Classical.byContradiction fun hcl => ?_
    obtain ⟨hf, q, qs, rfl, hq⟩ := nc hcl
    rw [← c'] at hb
    obtain ⟨x, -⟩ := List.exists_mem_of_length_pos (l := cont pre cp) (by omega)
    exact stale_not_behaves hf hq x hb
  · intro hcl
    obtain ⟨j, rfl⟩ := cl hcl
    have := behaves_of_Inv h0 ha (s := mkS ps al pre' cp' (List.replicate j [] ++ List.replicate k []) m sr)
      ⟨pre', cp', j + k, m, sr, by simp [← List.replicate_append_replicate], g'⟩
    rwa [contents_mk, c'] at this

/-- C08 (exact, forward iterators): discard(it) for the iterator `n` steps after begin()
removes that element and everything above it, always; under every later history the stack
behaves like the rest iff the number of elements left is 0 or not a multiple of the page size. -/
theorem C08_discard_forward_partial (ps al : Nat) (h0 : 0 < ps) (ha : 0 < al) (s : PS α)
    (h : Reach ps al s) (n : Nat) (hn : n < (contents s).length) :
    ∃ it s', nthForward s n = .ok it ∧ discardIter s it = .ok s' ∧
      contents s' = (contents s).drop (n + 1) ∧
      (BehavesLike ps al s' ((contents s).drop (n + 1)) ↔
        cleanRemainder ps ((contents s).length - (n + 1))) := by
  obtain ⟨pre, cp, k, m, sr, rfl, g⟩ := h.inv h0 ha
  rw [contents_mk, List.length_reverse] at *
  have hit : nthForward (mkS ps al pre cp (List.replicate k []) m sr) n
      = .ok (pos ps ((cont pre cp).length - 1 - n) 0) := by
    rw [nthForward, begin_fwdAt h0 g, bind_ok, stepN_fwdInc h0 g n 0 (by omega), fwdAt, if_pos (by omega)]
    congr 2; omega
  obtain ⟨s', e, hc, hb⟩ := discardIter_exact (al := al) (k := k) (m := m) (sr := sr) h0 ha g
    ((cont pre cp).length - 1 - n) 0 (by omega)
  rw [← take_len_reverse, show (cont pre cp).length - (n + 1) = (cont pre cp).length - 1 - n by omega]
  exact ⟨_, s', hit, e, hc, hb⟩

/-- C08 (exact, reverse iterators): the same for the iterator `n` steps after from_top(d). -/
theorem C08_discard_reverse_partial (ps al : Nat) (h0 : 0 < ps) (ha : 0 < al) (s : PS α)
    (h : Reach ps al s) (d n : Nat) (hn : n < d) (hd : d ≤ (contents s).length) :
    ∃ it s', nthReverse s d n = .ok it ∧ discardIter s it = .ok s' ∧
      contents s' = (contents s).drop (d - n) ∧
      (BehavesLike ps al s' ((contents s).drop (d - n)) ↔
        cleanRemainder ps ((contents s).length - (d - n))) := by
  obtain ⟨pre, cp, k, m, sr, rfl, g⟩ := h.inv h0 ha
  rw [contents_mk, List.length_reverse] at *
  have hit : nthReverse (mkS ps al pre cp (List.replicate k []) m sr) d n
      = .ok (pos ps ((cont pre cp).length - (d - n)) pre.length) := by
    rw [nthReverse, fromTop_revAt h0 g d hd, bind_ok, stepN_revInc h0 g n _ (by omega), revAt,
      if_pos (by omega)]
    congr 2; omega
  obtain ⟨s', e, hc, hb⟩ := discardIter_exact (al := al) (k := k) (m := m) (sr := sr) h0 ha g
    ((cont pre cp).length - (d - n)) pre.length (by omega)
  rw [← take_len_reverse]
  exact ⟨_, s', hit, e, hc, hb⟩

example : ∃ s : PS Nat, Reach 2 2 s ∧ 1 < (contents s).length ∧
    cleanRemainder 2 ((contents s).length - 2) ∧ ¬ cleanRemainder 2 ((contents s).length - 1) :=
  ⟨mkS 2 2 [[1, 2]] [3] [] 0 false,
    Reach.call (o := .unit) (.pushMany 1 [2, 3]) .init (by simp) rfl, by decide,
    Or.inr (by decide), by rintro (h | h) <;> revert h <;> decide⟩

/-! ### C09 -/

/-- C09: peek, peek_reverse and peek_depth return the right elements (they are const: the
model functions do not return a new state). -/
theorem C09_peeks (ps al : Nat) (h0 : 0 < ps) (ha : 0 < al) (s : PS α) (h : Reach ps al s)
    (n d : Nat) :
    (n ≤ (contents s).length → peek s n = .ok ((contents s).take n)) ∧
    (n ≤ (contents s).length → peekReverse s n = .ok ((contents s).take n).reverse) ∧
    (n ≤ d → d ≤ (contents s).length →
      peekDepth s d n = .ok (((contents s).take d).reverse.take n)) := by
  obtain ⟨pre, cp, k, m, sr, rfl, g⟩ := h.inv h0 ha
  rw [contents_mk, List.length_reverse]
  refine ⟨?_, ?_, ?_⟩
  · intro hn; rw [peek_spec h0 g, if_pos hn]
  · intro hn
    rw [peekReverse_eq, peekDepth_ok h0 g n n (Nat.le_refl n) hn, drop_len_eq,
      List.take_of_length_le (by simp; omega)]
  · intro hn hd
    rw [peekDepth_ok h0 g d n hn hd, drop_len_eq]

/-! ### C10 - C13 -/

/-- C10: the forward loop ends after size+1 tests and visits the elements top to bottom. -/
theorem C10_forward_iteration (ps al : Nat) (h0 : 0 < ps) (ha : 0 < al) (s : PS α)
    (h : Reach ps al s) (fuel : Nat) (hf : (contents s).length + 1 ≤ fuel) :
    forEach s fuel = .ok (some (contents s)) := by
  obtain ⟨pre, cp, k, m, sr, rfl, g⟩ := h.inv h0 ha
  rw [contents_mk] at *
  exact forEach_spec h0 g fuel (by simpa using hf)

/-- C11 (forward): from any position, `n` increments and `n` decrements are inverse in both
orders; positions are counted from begin(), position `size` is end(). -/
theorem C11_forward_inverse (ps al : Nat) (h0 : 0 < ps) (ha : 0 < al) (s : PS α)
    (h : Reach ps al s) (k n : Nat) (hk : k + n ≤ (contents s).length) :
    ∃ it it', nthForward s k = .ok it ∧ nthForward s (k + n) = .ok it' ∧
      stepN (fwdInc s) n it = .ok it' ∧ stepN (fwdDec s) n it' = .ok it := by
  obtain ⟨pre, cp, j, m, sr, rfl, g⟩ := h.inv h0 ha
  rw [contents_mk, List.length_reverse] at hk
  refine ⟨fwdAt ps (cont pre cp).length k, fwdAt ps (cont pre cp).length (k + n), ?_, ?_,
    stepN_fwdInc h0 g n k hk, stepN_fwdDec h0 g n k hk⟩
  · rw [nthForward, begin_fwdAt h0 g, bind_ok, stepN_fwdInc h0 g k 0 (by omega), Nat.zero_add]
  · rw [nthForward, begin_fwdAt h0 g, bind_ok, stepN_fwdInc h0 g (k + n) 0 (by omega), Nat.zero_add]

/-- C11 (reverse): the same for iterators obtained from from_top(d). -/
theorem C11_reverse_inverse (ps al : Nat) (h0 : 0 < ps) (ha : 0 < al) (s : PS α)
    (h : Reach ps al s) (d k n : Nat) (hk : k + n ≤ d) (hd : d ≤ (contents s).length) :
    ∃ it it', nthReverse s d k = .ok it ∧ nthReverse s d (k + n) = .ok it' ∧
      stepN (revInc s) n it = .ok it' ∧ stepN (revDec s) n it' = .ok it := by
  obtain ⟨pre, cp, j, m, sr, rfl, g⟩ := h.inv h0 ha
  rw [contents_mk, List.length_reverse] at hd
  refine ⟨revAt ps (cont pre cp).length ((cont pre cp).length - d + k) pre.length cp.length,
    revAt ps (cont pre cp).length ((cont pre cp).length - d + k + n) pre.length cp.length, ?_, ?_,
    stepN_revInc h0 g n _ (by omega), stepN_revDec h0 g n _ (by omega)⟩
  · rw [nthReverse, fromTop_revAt h0 g d hd, bind_ok, stepN_revInc h0 g k _ (by omega)]
  · rw [nthReverse, fromTop_revAt h0 g d hd, bind_ok, stepN_revInc h0 g (k + n) _ (by omega)]
    congr 2; omega

/-- C11: distinct positions are distinct iterators (so `!=` tells them apart), and position `k`
designates the k-th element from the top. -/
theorem C11_forward_positions (ps al : Nat) (h0 : 0 < ps) (ha : 0 < al) (s : PS α)
    (h : Reach ps al s) (k : Nat) (hk : k < (contents s).length) :
    ∃ it, nthForward s k = .ok it ∧ it.deref s = .ok (contents s)[k] ∧
      (∀ e, end_ s = .ok e → it.eqv e = false) := by
  obtain ⟨pre, cp, j, m, sr, rfl, g⟩ := h.inv h0 ha
  have hk' : k < (cont pre cp).length := by rw [contents_mk, List.length_reverse] at hk; exact hk
  refine ⟨pos ps ((cont pre cp).length - 1 - k) 0, ?_, ?_, ?_⟩
  · rw [nthForward, begin_fwdAt h0 g, bind_ok, stepN_fwdInc h0 g k 0 (by omega), Nat.zero_add, fwdAt,
      if_pos hk']
  · apply deref_pos g h0
    rw [List.getElem?_eq_getElem (by omega)]
    simp only [contents_mk, List.getElem_reverse]
  · intro e he
    rw [end_spec] at he; injection he with he; subst he
    simp only [pos, Iter.eqv, Bool.and_eq_false_imp]; intro
    rw [beq_eq_false_iff_ne]; omega

/-- C12 does not hold: with a spare page the reverse loop leaves the stack. -/
theorem C12_reverse_refuted : ∃ s : PS Nat, Reach 4 2 s ∧ contents s = [7] ∧
    ∀ fuel, 2 ≤ fuel → forEachReverse s fuel = .error (.ub .derefData) := by
  refine ⟨mkS 4 2 [] [7] [[]] 0 false, Reach.call (o := .unit) (.push 7) .init (by simp) rfl, rfl, ?_⟩
  intro fuel hf
  exact forEachReverse_spare (by decide) ⟨by simp, by simp, by simp⟩ [] fuel (by simp [cont])
    (by simpa [cont] using hf)

/-- C12 (exact): rbegin()..rend() visits the elements bottom to top iff the stack is empty or
has no spare page; otherwise the loop has undefined behaviour. -/
theorem C12_reverse_partial (ps al : Nat) (h0 : 0 < ps) (ha : 0 < al) (s : PS α)
    (h : Reach ps al s) (fuel : Nat) (hf : (contents s).length + 1 ≤ fuel) :
    (contents s = [] ∨ s.base.length = StackSpec.pagesFor ps (contents s).length →
      forEachReverse s fuel = .ok (some (contents s).reverse)) ∧
    (¬ (contents s = [] ∨ s.base.length = StackSpec.pagesFor ps (contents s).length) →
      forEachReverse s fuel = .error (.ub .derefData)) := by
  obtain ⟨pre, cp, k, m, sr, rfl, g⟩ := h.inv h0 ha
  have hp : StackSpec.pagesFor ps (contents (mkS ps al pre cp (List.replicate k []) m sr)).length
      = pre.length + 1 := by
    rw [contents_mk, List.length_reverse, g.len, g.pages h0]
  rw [hp]
  rw [contents_mk, List.length_reverse] at *
  simp only [mkS_base, List.length_append, List.length_cons, List.length_replicate,
    List.reverse_eq_nil_iff, List.reverse_reverse]
  constructor
  · rintro (e | e)
    · obtain ⟨rfl, rfl⟩ := g.cont_nil e
      exact forEachReverse_empty fuel (by omega)
    · have : k = 0 := by omega
      subst this
      exact forEachReverse_tight h0 g fuel hf
  · intro e
    obtain ⟨j, rfl⟩ : ∃ j, k = j + 1 := ⟨k - 1, by
      have : ¬ (pre.length + (k + 1) = pre.length + 1) := fun e' => e (Or.inr e')
      omega⟩
    exact forEachReverse_spare h0 g (List.replicate j []) fuel (fun e' => e (Or.inl e')) hf

/-- C13: from_top(d)..rend() visits the d topmost elements, deepest first. -/
theorem C13_from_top_iteration (ps al : Nat) (h0 : 0 < ps) (ha : 0 < al) (s : PS α)
    (h : Reach ps al s) (d fuel : Nat) (hd : d ≤ (contents s).length) (hf : d + 1 ≤ fuel) :
    forEachFrom s d fuel = .ok (some ((contents s).take d).reverse) := by
  obtain ⟨pre, cp, k, m, sr, rfl, g⟩ := h.inv h0 ha
  rw [contents_mk, List.length_reverse] at *
  rw [forEachFrom_spec h0 g d fuel hd hf, drop_len_eq]

/-! ### C14, C15 -/

/-- C14: size, empty and getStats. -/
theorem C14_size_empty_stats (ps al : Nat) (h0 : 0 < ps) (ha : 0 < al) (s : PS α)
    (h : Reach ps al s) :
    size s = .ok (contents s).length ∧
    (isEmpty s = .ok true ↔ contents s = []) ∧ (isEmpty s = .ok false ↔ contents s ≠ []) ∧
    ∃ st, getStats s = .ok st ∧ st.depth = ps ∧
      st.curBlock = StackSpec.pagesFor ps (contents s).length ∧
      st.curData + (st.curBlock - 1) * ps = (contents s).length ∧ st.curData ≤ ps ∧
      st.curBlock ≤ st.blocks := by
  obtain ⟨pre, cp, k, m, sr, rfl, g⟩ := h.inv h0 ha
  rw [contents_mk, List.length_reverse]
  refine ⟨size_spec, ?_, ?_, ⟨pre.length + 1 + k, ps, pre.length + 1, cp.length⟩, ?_, rfl, ?_, ?_, g.le, ?_⟩
  · rw [isEmpty_spec g]; simp
  · rw [isEmpty_spec g]; simp
  · simp only [getStats, mkS_cur, mkS_page, bind_ok]
    simp [mkS]; omega
  · simp only [g.len, g.pages h0]
  · simp only [g.len, Nat.add_sub_cancel]; omega
  · simp

/-- C15: shrink_to_fit without live sync iterators keeps the contents and leaves exactly
max(1, ceil(size/pageSize)) pages. -/
theorem C15_shrink (ps al : Nat) (h0 : 0 < ps) (ha : 0 < al) (s : PS α) (h : Reach ps al s)
    (hs : s.syncCount = 0) :
    contents (shrinkToFit s) = contents s ∧
    (shrinkToFit s).base.length = StackSpec.pagesFor ps (contents s).length ∧
    (∃ st, getStats (shrinkToFit s) = .ok st ∧ st.blocks = StackSpec.pagesFor ps (contents s).length) := by
  obtain ⟨pre, cp, k, m, sr, rfl, g⟩ := h.inv h0 ha
  have e : shrinkToFit (mkS ps al pre cp (List.replicate k []) m sr) = mkS ps al pre cp [] m sr := by
    rw [shrinkToFit, if_neg (by omega), shrink_clean]
  rw [e]
  have hp : StackSpec.pagesFor ps (contents (mkS ps al pre cp (List.replicate k []) m sr)).length
      = pre.length + 1 := by
    rw [contents_mk, List.length_reverse, g.len, g.pages h0]
  rw [hp]
  refine ⟨by rw [contents_mk, contents_mk], by simp, ⟨pre.length + 1, ps, pre.length + 1, cp.length⟩, ?_, rfl⟩
  simp only [getStats, mkS_cur, mkS_page, bind_ok]
  simp [mkS]; omega

example : ∃ s : PS Nat, Reach 1 3 s ∧ s.syncCount = 0 ∧ s.base.length = 3 ∧
    StackSpec.pagesFor 1 (contents s).length = 2 := ⟨_, reach_example, rfl, rfl, by decide⟩

/-! ### C20, C21 -/

/-- the element at a page and offset -/
def cell (s : PS α) (i j : Nat) : Option α := (s.base[i]?).bind (·[j]?)

/-- C20: push leaves every stored element at its place, and no page ever exceeds the reserved
page size (so `std::vector` never reallocates). -/
theorem C20_push_stable (ps al : Nat) (h0 : 0 < ps) (ha : 0 < al) (s s' : PS α) (h : Reach ps al s)
    (x : α) (he : push s x = .ok s') :
    (∀ i j y, cell s i j = some y → cell s' i j = some y) ∧
    (∀ p ∈ s'.base, p.length ≤ ps) := by
  obtain ⟨pre, cp, k, m, sr, rfl, g⟩ := h.inv h0 ha
  have hfull : ∀ p ∈ (mkS ps al pre cp (List.replicate k []) m sr).base, p.length ≤ ps := by
    intro p hp
    simp only [mkS_base, List.mem_append, List.mem_cons, List.mem_replicate] at hp
    rcases hp with hp | rfl | ⟨-, rfl⟩
    · exact Nat.le_of_eq (g.full p hp)
    · exact g.le
    · simp
  have hbase : ∀ (b1 b2 : List (List α)), (∀ (i : Nat) (p : List α), b1[i]? = some p → ∃ p', b2[i]? = some p' ∧ p <+: p') →
      ∀ (i j : Nat) (y : α), (b1[i]?).bind (·[j]?) = some y → (b2[i]?).bind (·[j]?) = some y := by
    intro b1 b2 hb i j y hy
    rw [Option.bind_eq_some_iff] at hy
    obtain ⟨p, hp, hy⟩ := hy
    obtain ⟨p', hp', t, rfl⟩ := hb i p hp
    rw [Option.bind_eq_some_iff]
    refine ⟨_, hp', ?_⟩
    rw [List.getElem?_append_left (List.getElem?_eq_some_iff.1 hy).1]; exact hy
  have hset : ∀ (b tl : List (List α)) (c : Nat) (q : List α), b[c]? = some q →
      ∀ (i : Nat) (p : List α), b[i]? = some p → ∃ p', ((b ++ tl).set c (q ++ [x]))[i]? = some p' ∧ p <+: p' := by
    intro b tl c q hq i p hp
    have hi := (List.getElem?_eq_some_iff.1 hp).1
    by_cases hc : c = i
    · subst hc
      rw [hp] at hq; injection hq with hq; subst hq
      exact ⟨p ++ [x], List.getElem?_set_self (by rw [List.length_append]; omega), List.prefix_append _ _⟩
    · exact ⟨p, by rw [List.getElem?_set_ne hc, List.getElem?_append_left hi]; exact hp, List.prefix_refl _⟩
  by_cases hc : cp.length = ps
  · cases k with
    | zero =>
      rw [show List.replicate 0 ([] : List α) = [] from rfl] at *
      rw [push_grow x hc ha] at he
      injection he with he; subst he
      refine ⟨hbase _ _ ?_, ?_⟩
      · intro i p hp
        refine ⟨p, ?_, List.prefix_refl _⟩
        have hi := (List.getElem?_eq_some_iff.1 hp).1
        simp only [mkS_base] at hp hi ⊢
        rw [List.getElem?_append_left (by simpa using hi)]; simpa using hp
      · intro p hp
        simp only [mkS_base, List.mem_append, List.mem_cons, List.mem_replicate] at hp
        rcases hp with (hp | rfl | hp) | rfl | ⟨-, rfl⟩
        · exact Nat.le_of_eq (g.full p hp)
        · exact g.le
        · simp at hp
        · simp; omega
        · simp
    | succ k =>
      rw [List.replicate_succ, push_next x [] hc] at he
      injection he with he; subst he
      refine ⟨hbase _ _ ?_, ?_⟩
      · intro i p hp
        simp only [mkS_base, List.nil_append] at hp ⊢
        have := hset (pre ++ cp :: List.replicate (k + 1) []) [] (pre.length + 1) [] (by
          simp [List.replicate_succ]) i p hp
        simpa [List.set_append_right, List.replicate_succ] using this
      · intro p hp
        simp only [mkS_base, List.mem_append, List.mem_cons, List.mem_replicate] at hp
        rcases hp with (hp | rfl | hp) | rfl | ⟨-, rfl⟩
        · exact Nat.le_of_eq (g.full p hp)
        · exact g.le
        · simp at hp
        · simp; omega
        · simp
  · rw [push_room x hc] at he
    injection he with he; subst he
    refine ⟨hbase _ _ ?_, ?_⟩
    · intro i p hp
      simp only [mkS_base] at hp ⊢
      have := hset (pre ++ cp :: List.replicate k []) [] pre.length cp (by simp) i p hp
      simpa [List.set_append_right] using this
    · intro p hp
      simp only [mkS_base, List.mem_append, List.mem_cons, List.mem_replicate] at hp
      rcases hp with hp | rfl | ⟨-, rfl⟩
      · exact Nat.le_of_eq (g.full p hp)
      · have := g.le; simp; omega
      · simp

/-- C21: push allocates iff all pages are full, and then exactly `prealloc` pages. -/
theorem C21_push_allocation (ps al : Nat) (h0 : 0 < ps) (ha : 0 < al) (s s' : PS α)
    (h : Reach ps al s) (x : α) (he : push s x = .ok s') :
    s'.base.length = if (contents s).length = s.base.length * ps then s.base.length + al
                     else s.base.length := by
  obtain ⟨pre, cp, k, m, sr, rfl, g⟩ := h.inv h0 ha
  obtain ⟨pre', cp', k', e, g', c', l'⟩ := push_clean (sc := m) (sr := sr) h0 ha k x g
  rw [he] at e; injection e with e; subst e
  rw [contents_mk, List.length_reverse]
  simp only [mkS_base, List.length_append, List.length_cons, List.length_replicate]
  rw [show pre.length + (k + 1) = pre.length + 1 + k by omega,
    show pre'.length + (k' + 1) = pre'.length + 1 + k' by omega]
  exact l'

/-- C21: filling up to the capacity already there allocates nothing. -/
theorem C21_refill_no_allocation (ps al : Nat) (h0 : 0 < ps) (ha : 0 < al) (xs : List α) :
    ∀ (s : PS α), Reach ps al s → (contents s).length + xs.length ≤ s.base.length * ps →
    ∃ s', xs.foldlM push s = .ok s' ∧ s'.base.length = s.base.length := by
  induction xs with
  | nil => intro s _ _; exact ⟨s, rfl, rfl⟩
  | cons x xs ih =>
    intro s h hl
    obtain ⟨s1, e1, c1⟩ := C03_push_many_contents ps al h0 ha s h x []
    simp only [pushMany] at e1
    have hr : Reach ps al s1 := Reach.call (o := .unit) (.push x) h (by simp) (by simp only [step, e1, bind_ok])
    have ha1 := C21_push_allocation ps al h0 ha s s1 h x e1
    rw [if_neg (by simp at hl; omega)] at ha1
    obtain ⟨s2, e2, l2⟩ := ih s1 hr (by rw [ha1, c1]; simp at hl ⊢; omega)
    exact ⟨s2, by simp only [List.foldlM, e1, bind_ok, e2], by rw [l2, ha1]⟩

example : ∃ s : PS Nat, Reach 1 3 s ∧ (contents s).length + [9].length ≤ s.base.length * 1 :=
  ⟨_, reach_example, by decide⟩

/-! ### C22, C23 -/

/-- C22 does not hold: after a failed push on a full page, top() of a non-empty stack is
undefined. -/
theorem C22_push_throw_refuted : ∃ s s' : PS Nat, Reach 1 2 s ∧ top s = .ok 7 ∧
    pushThrowing s = .ok (s', .elementCopy) ∧ top s' = .error (.ub .emptyBack) :=
  ⟨mkS 1 2 [] [7] [[]] 0 false, mkS 1 2 [[7]] [] [] 0 false,
    Reach.call (o := .unit) (.push 7) .init (by simp) rfl, rfl, rfl, rfl⟩

/-- helper for C22: the statement for every well-formed stack -/
theorem pushThrowing_exact {ps al : Nat} (h0 : 0 < ps) (ha : 0 < al) {s : PS α} (h : Inv ps al s) :
    ∃ s', pushThrowing s = .ok (s', .elementCopy) ∧ contents s' = contents s ∧
      (BehavesLike ps al s' (contents s) ↔ cleanRemainder ps (contents s).length) := by
  obtain ⟨pre, cp, k, m, sr, rfl, g⟩ := h
  have hmod : (cont pre cp).length % ps = cp.length % ps := by
    rw [g.len, Nat.mul_comm, Nat.mul_add_mod]
  by_cases hc : cp.length = ps
  · -- the page is full: advance() moves to an empty page
    have hnc : ¬ cleanRemainder ps (cont pre cp).length := by
      rintro (e | e)
      · rw [g.len, hc] at e; omega
      · rw [hmod, hc] at e; simp at e
    have key : ∃ rest, pushThrowing (mkS ps al pre cp (List.replicate k []) m sr)
        = .ok (mkS ps al (pre ++ [cp]) [] rest m sr, .elementCopy) := by
      cases k with
      | zero =>
        obtain ⟨a, rfl⟩ : ∃ a, al = a + 1 := ⟨al - 1, by omega⟩
        refine ⟨List.replicate a [], ?_⟩
        have e1 : advance (mkS ps (a + 1) pre cp [] m sr)
            = .ok (mkS ps (a + 1) (pre ++ [cp]) [] (List.replicate a []) m sr) := by
          simp only [advance, mkS_cur, mkS_page, bind_ok, mkS_ps, hc, if_true]
          simp [growBase, mkS, List.replicate_succ]
        rw [show List.replicate 0 ([] : List α) = [] from rfl]
        simp only [pushThrowing, e1, bind_ok, mkS_cur, mkS_page]
      | succ k =>
        refine ⟨List.replicate k [], ?_⟩
        have e1 : advance (mkS ps al pre cp ([] :: List.replicate k []) m sr)
            = .ok (mkS ps al (pre ++ [cp]) [] (List.replicate k []) m sr) := by
          have e : ({ mkS ps al pre cp ([] :: List.replicate k []) m sr with cur := pre.length + 1 } : PS α)
            = mkS ps al (pre ++ [cp]) [] (List.replicate k []) m sr := (mkS_step cp).symm
          simp [advance, hc, ← e]
        simp only [List.replicate_succ, pushThrowing, e1, bind_ok, mkS_cur, mkS_page]
    obtain ⟨rest, e⟩ := key
    refine ⟨_, e, by rw [contents_mk, contents_mk]; simp [cont], ?_⟩
    rw [contents_mk, List.length_reverse]
    refine ⟨fun hb => ?_, fun hc => absurd hc hnc⟩
    exfalso
    rcases nil_or_snoc (cont pre cp) with e' | ⟨c, x, e'⟩
    · exact hnc (Or.inl (by rw [e']; rfl))
    · obtain ⟨s'', h1, -⟩ := hb [.top] (t := _) (os := [.val x]) (by
        simp [StackSpec.run, StackSpec.step, e']; rfl)
      simp [run, step, top_mk] at h1
  · have e : pushThrowing (mkS ps al pre cp (List.replicate k []) m sr)
        = .ok (mkS ps al pre cp (List.replicate k []) m sr, .elementCopy) := by
      simp [pushThrowing, advance, hc]
    refine ⟨_, e, rfl, fun _ => ?_, fun _ => behaves_of_Inv h0 ha (⟨pre, cp, k, m, sr, rfl, g⟩)⟩
    rw [contents_mk, List.length_reverse]
    have := g.le
    by_cases hcp : cp = []
    · left; obtain rfl := g.ne hcp; subst hcp; rfl
    · right; rw [hmod, Nat.mod_eq_of_lt (by omega)]
      have := List.length_pos_iff.2 hcp
      omega

/-- C22 (exact): after a push whose element copy throws, the stack behaves as before under
every later history iff its size is 0 or not a multiple of the page size. -/
theorem C22_push_throw_partial (ps al : Nat) (h0 : 0 < ps) (ha : 0 < al) (s : PS α)
    (h : Reach ps al s) :
    ∃ s', pushThrowing s = .ok (s', .elementCopy) ∧ contents s' = contents s ∧
      (BehavesLike ps al s' (contents s) ↔ cleanRemainder ps (contents s).length) :=
  pushThrowing_exact h0 ha (h.inv h0 ha)

/-- C23 does not hold at prealloc = 0: the first push is undefined. -/
theorem C23_prealloc_zero_refuted (ps : Nat) (x : α) :
    push (init ps 0 : PS α) x = .error (.ub .derefListEnd) ∧
    size (init ps 0 : PS α) = .error (.ub .derefListEnd) := ⟨rfl, rfl⟩

/-- C23 does not hold at pageSize = 0: reverse iteration is undefined although no page is spare. -/
theorem C23_page_size_zero_refuted : ∃ s : PS Nat,
    (∃ o, run (init 0 1) [.push 7, .size] = .ok (s, o)) ∧ forEachReverse s 5 = .error (.ub .derefData) :=
  ⟨mkS 0 1 [[]] [7] [] 0 false, ⟨[.unit, .nat 1], rfl⟩, rfl⟩

/-- C23 (what holds): for all arguments >= 1 the constructed stack is an ideal empty stack. -/
theorem C23_constructor_partial (ps al : Nat) (h0 : 0 < ps) (ha : 0 < al) :
    contents (init ps al : PS α) = [] ∧ BehavesLike ps al (init ps al : PS α) [] := by
  have := behaves_of_Inv h0 ha (Reach.inv h0 ha (Reach.init (α := α)))
  have hc : contents (init ps al : PS α) = [] := contents_of_R (R_init ha)
  rw [hc] at this
  exact ⟨hc, this⟩

end Falcon.PagedStack
