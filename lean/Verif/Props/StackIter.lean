import Verif.Proofs.PSKeep
import Verif.Props.PagedStack
/-
Iterators that are kept while the stack changes above the element they designate, and writing
through an iterator.

Pages are identified by their index, so the reverse theorems are restricted to histories that keep
at least the pages that existed up to the iterator's bound (a bound page that was destroyed by
shrink_to_fit leaves a dangling list iterator in the iterator; the model says nothing about it).
-/
namespace Falcon.PagedStack
open StackSpec (pagesFor Undisturbed)
variable {α : Type}

theorem nthForward_pos {ps al : Nat} (h0 : 0 < ps) {pre : List (List α)} {cp : List α}
    {rest : List (List α)} {sc : Int} {sr : Bool} (g : Good ps pre cp) (k : Nat)
    (hk : k < (cont pre cp).length) :
    nthForward (mkS ps al pre cp rest sc sr) k = .ok (pos ps ((cont pre cp).length - 1 - k) 0) := by
  rw [nthForward, begin_fwdAt h0 g, bind_ok, stepN_fwdInc h0 g k 0 (by omega), fwdAt, if_pos (by omega)]
  congr 2; omega

theorem nthReverse_pos {ps al : Nat} (h0 : 0 < ps) {pre : List (List α)} {cp : List α}
    {rest : List (List α)} {sc : Int} {sr : Bool} (g : Good ps pre cp) (d n : Nat)
    (hn : n < d) (hd : d ≤ (cont pre cp).length) :
    nthReverse (mkS ps al pre cp rest sc sr) d n
      = .ok (pos ps ((cont pre cp).length - d + n) pre.length) := by
  rw [nthReverse, fromTop_revAt h0 g d hd, bind_ok, stepN_revInc h0 g n _ (by omega), revAt,
    if_pos (by omega)]

theorem reverse_set (l : List α) (i : Nat) (v : α) (h : i < l.length) :
    (l.set i v).reverse = l.reverse.set (l.length - 1 - i) v := by
  apply List.ext_getElem?
  intro j
  by_cases hj : j < l.length
  · rw [List.getElem?_reverse (by simpa using hj), List.getElem?_set, List.getElem?_set,
      List.getElem?_reverse hj]
    simp only [List.length_set, List.length_reverse]
    by_cases he : i = l.length - 1 - j
    · rw [if_pos he, if_pos (by omega), if_pos (by omega), if_pos (by omega)]
    · rw [if_neg he, if_neg (by omega)]
  · rw [List.getElem?_eq_none (by simp; omega), List.getElem?_eq_none (by simp; omega)]

/-- rbegin() followed by `n` increments -/
def nthFromBottom (s : PS α) (n : Nat) : Res Iter := do stepN (revInc s) n (← rbegin s)

theorem nthFromBottom_pos {ps al : Nat} (h0 : 0 < ps) {pre : List (List α)} {cp : List α}
    {rest : List (List α)} {sc : Int} {sr : Bool} (g : Good ps pre cp) (n : Nat)
    (hn : n < (cont pre cp).length) :
    nthFromBottom (mkS ps al pre cp rest sc sr) n
      = .ok (pos ps n ((pre ++ cp :: rest).length - 1)) := by
  have hp : ∃ p, (mkS ps al pre cp rest sc sr).page 0 = .ok p := by cases pre <;> simp [PS.page]
  obtain ⟨p, hp⟩ := hp
  have key : ∀ m i, i + m < (cont pre cp).length →
      stepN (revInc (mkS ps al pre cp rest sc sr)) m (pos ps i ((pre ++ cp :: rest).length - 1))
        = .ok (pos ps (i + m) ((pre ++ cp :: rest).length - 1)) := by
    intro m
    induction m with
    | zero => intro i _; rfl
    | succ m ih =>
      intro i hi
      rw [stepN, revInc_pos g h0 i _ (by simp) (by omega), bind_ok, ih (i + 1) (by omega)]
      congr 2; omega
  have hb : rbegin (mkS ps al pre cp rest sc sr) = .ok (pos ps 0 ((pre ++ cp :: rest).length - 1)) := by
    simp only [rbegin, hp, bind_ok, pos, mkS_base]; simp
  rw [nthFromBottom, hb, bind_ok, key n 0 (by omega), Nat.zero_add]

/-- C145 (forward iterators): take the iterator to the element `k` places below the top, then let
any history of calls happen that neither removes nor overwrites that element.  The iterator is
then exactly the one a fresh walk to that element would give, it still reads the element, the end
iterator is the same, and walking on from it visits the element and everything below it. -/
theorem C145_forward (ps al : Nat) (h0 : 0 < ps) (ha : 0 < al) (s : PS α) (h : Reach ps al s)
    (k : Nat) (hk : k < (contents s).length) (ops : List (Op α))
    (hu : Undisturbed ps al ((contents s).length - 1 - k) 0 (ideal s) ops) :
    ∃ it e s' os, nthForward s k = .ok it ∧ end_ s = .ok e ∧ run s ops = .ok (s', os) ∧
      nthForward s' ((contents s').length - ((contents s).length - k)) = .ok it ∧
      end_ s' = .ok e ∧ it.deref s' = .ok (contents s)[k] ∧
      ∀ fuel, (contents s).length + 1 ≤ fuel →
        loop s' (fwdInc s') e fuel it = .ok (some ((contents s).drop k)) := by
  obtain ⟨s', os, e, hi', hl, -, hc⟩ := keep_run h0 ha (h.inv h0 ha) hu (by omega) (Nat.zero_le _)
  obtain ⟨pre, cp, j, m, sr, rfl, g⟩ := h.inv h0 ha
  obtain ⟨pre', cp', j', m', sr', rfl, g'⟩ := hi'
  rw [contents_mk, contents_mk, List.reverse_reverse, List.reverse_reverse, List.length_reverse] at hc
  have hk' : k < (cont pre cp).length := by rw [contents_mk, List.length_reverse] at hk; exact hk
  rw [contents_mk, contents_mk, List.length_reverse, List.length_reverse] at hl
  have hd : (cont pre' cp')[(cont pre cp).length - 1 - k]? = (cont pre cp)[(cont pre cp).length - 1 - k]? := by
    have := congrArg (·[(cont pre cp).length - 1 - k]?) hc
    simpa [List.getElem?_take, show (cont pre cp).length - 1 - k < (cont pre cp).length - 1 - k + 1 by omega]
      using this
  refine ⟨pos ps ((cont pre cp).length - 1 - k) 0, ⟨0, -1, 0⟩, _, os,
    nthForward_pos h0 g k hk', end_spec, e, ?_, end_spec, ?_, ?_⟩
  · simp only [contents_mk, List.length_reverse]
    rw [nthForward_pos h0 g' _ (by omega)]
    congr 2; omega
  · apply deref_pos g' h0
    rw [hd]
    simp only [contents_mk, List.getElem_reverse]
    rw [List.getElem?_eq_getElem (by omega)]
  · intro fuel hf
    simp only [contents_mk, List.length_reverse] at hf ⊢
    rw [loop_fwd h0 g' _ fuel hl (by omega), hc, List.reverse_take]
    congr 3
    omega

/-- the reverse part, for any bound -/
theorem reverse_kept {ps al : Nat} (h0 : 0 < ps) {pre : List (List α)} {cp : List α} {k : Nat}
    {sc : Int} {sr : Bool} (g : Good ps pre cp) (i b fuel : Nat) (hi : i < (cont pre cp).length)
    (hib : i / ps ≤ b) (hb : b < pre.length + 1 + k) (hf : (cont pre cp).length + 1 ≤ fuel) :
    loop (mkS ps al pre cp (List.replicate k []) sc sr)
        (revInc (mkS ps al pre cp (List.replicate k []) sc sr))
        ⟨pre.length, cp.length, pre.length⟩ fuel (pos ps i b)
      = if pagesFor ps (cont pre cp).length = b + 1 then .ok (some ((cont pre cp).drop i))
        else .error (.ub .derefData) := by
  have hp : pagesFor ps (cont pre cp).length = pre.length + 1 := by rw [g.len, g.pages h0]
  rw [hp]
  rcases Nat.lt_trichotomy b pre.length with hlt | heq | hgt
  · rw [if_neg (by omega)]
    have h1 : i < (b + 1) * ps := by
      have := (Nat.div_lt_iff_lt_mul h0).1 (show i / ps < b + 1 by omega); omega
    have h2 : (b + 1) * ps ≤ pre.length * ps := Nat.mul_le_mul_right _ hlt
    have h3 := g.len
    exact loop_rev_low h0 g b hlt ((b + 1) * ps - i - 1) i fuel (by omega) (by omega)
  · subst heq
    rw [if_pos rfl]
    exact loop_rev h0 g ((cont pre cp).length - i - 1) i fuel (by omega) (by omega)
  · rw [if_neg (by omega)]
    obtain ⟨k, rfl⟩ : ∃ k', k = k' + 1 := ⟨k - 1, by omega⟩
    rw [List.replicate_succ]
    exact loop_rev_high h0 g b hgt ((cont pre cp).length - i - 1) i fuel (by omega) (by omega)

/-- C145 does not hold for reverse iterators: one push after from_top(1), and the loop up to rend()
leaves the page it started on by running off its end. -/
theorem C145_reverse_refuted : ∃ (s : PS Nat) (ops : List (Op Nat)) (it e : Iter) (s' : PS Nat)
    (os : List (Out Nat)), Reach 1 2 s ∧ contents s = [7] ∧
    Undisturbed 1 2 0 1 (ideal s) ops ∧ fromTop s 1 = .ok it ∧ run s ops = .ok (s', os) ∧
    contents s' = [8, 7] ∧ rend s' = .ok e ∧ it.deref s' = .ok 7 ∧
    ∀ fuel, 3 ≤ fuel → loop s' (revInc s') e fuel it = .error (.ub .derefData) := by
  refine ⟨mkS 1 2 [] [7] [[]] 0 false, [.push 8], pos 1 0 0, ⟨1, 1, 1⟩,
    mkS 1 2 [[7]] [8] [] 0 false, [.unit],
    Reach.call (o := .unit) (.push 7) .init (by simp) rfl, rfl, ?_, rfl, rfl, rfl, rfl, rfl, ?_⟩
  · refine ⟨_, _, rfl, by decide, by simp, by decide, trivial⟩
  · intro fuel hf
    have := reverse_kept (al := 2) (ps := 1) (pre := [[7]]) (cp := [8]) (k := 0) (sc := 0) (sr := false)
      (by decide) ⟨by simp, by simp, by simp⟩ 0 0 fuel (by decide) (by decide) (by decide) hf
    rw [if_neg (by decide)] at this
    exact this

/-- C145 (exact, reverse iterators obtained from from_top): while the designated element is left
alone and the pages in use when the iterator was made stay allocated, the iterator reads its element;
the loop from it up to rend() visits that element and everything above it exactly when the stack
then needs as many pages as when the iterator was made, and is undefined otherwise. -/
theorem C145_reverse_partial (ps al : Nat) (h0 : 0 < ps) (ha : 0 < al) (s : PS α) (h : Reach ps al s)
    (d n : Nat) (hn : n < d) (hd : d ≤ (contents s).length) (ops : List (Op α))
    (hu : Undisturbed ps al ((contents s).length - d + n) (pagesFor ps (contents s).length) (ideal s) ops) :
    ∃ it s' os e, nthReverse s d n = .ok it ∧ run s ops = .ok (s', os) ∧ rend s' = .ok e ∧
      it.deref s' = .ok ((contents s)[d - 1 - n]'(by omega)) ∧
      ∀ fuel, (contents s').length + 1 ≤ fuel →
        loop s' (revInc s') e fuel it
          = if pagesFor ps (contents s').length = pagesFor ps (contents s).length
            then .ok (some ((contents s').take ((contents s').length - ((contents s).length - d + n))).reverse)
            else .error (.ub .derefData) := by
  have hb0 : pagesFor ps (contents s).length ≤ s.base.length := by
    obtain ⟨pre, cp, j, m, sr, rfl, g⟩ := h.inv h0 ha
    rw [contents_mk, List.length_reverse, g.len, g.pages h0]; simp
  obtain ⟨s', os, e, hi', hl, hb, hc⟩ := keep_run h0 ha (h.inv h0 ha) hu (by omega) hb0
  obtain ⟨pre, cp, j, m, sr, rfl, g⟩ := h.inv h0 ha
  obtain ⟨pre', cp', j', m', sr', rfl, g'⟩ := hi'
  have hp : pagesFor ps (cont pre cp).length = pre.length + 1 := by rw [g.len, g.pages h0]
  rw [contents_mk, contents_mk, List.reverse_reverse, List.reverse_reverse, List.length_reverse] at hc
  have hd' : d ≤ (cont pre cp).length := by rw [contents_mk, List.length_reverse] at hd; exact hd
  rw [contents_mk, contents_mk, List.length_reverse, List.length_reverse] at hl
  rw [contents_mk, List.length_reverse, hp] at hb
  have hd2 : (cont pre' cp')[(cont pre cp).length - d + n]? = (cont pre cp)[(cont pre cp).length - d + n]? := by
    have := congrArg (·[(cont pre cp).length - d + n]?) hc
    simpa [List.getElem?_take, show (cont pre cp).length - d + n < (cont pre cp).length - d + n + 1 by omega]
      using this
  refine ⟨pos ps ((cont pre cp).length - d + n) pre.length, _, os, _,
    nthReverse_pos h0 g d n hn hd', e, rend_mk, ?_, ?_⟩
  · apply deref_pos g' h0
    rw [hd2]
    simp only [contents_mk, List.getElem_reverse]
    rw [List.getElem?_eq_getElem (by omega)]
    congr 2; omega
  · intro fuel hf
    simp only [contents_mk, List.length_reverse] at hf ⊢
    have hib : ((cont pre cp).length - d + n) / ps ≤ pre.length := by
      obtain ⟨_, _, _, h3, _⟩ := page_pos (al := al) (rest := []) (sc := 0) (sr := false) g h0
        ((cont pre cp).length - d + n) (by omega)
      exact h3
    rw [reverse_kept h0 g' _ _ fuel hl hib (by simp at hb; omega) hf, hp, List.reverse_take]
    congr 2
    simp; omega

/-- C145 (exact, reverse iterators obtained from rbegin()): the same, the deciding number of pages
being the number of pages that were *allocated* when the iterator was made. -/
theorem C145_rbegin_partial (ps al : Nat) (h0 : 0 < ps) (ha : 0 < al) (s : PS α) (h : Reach ps al s)
    (n : Nat) (hn : n < (contents s).length) (ops : List (Op α))
    (hu : Undisturbed ps al n s.base.length (ideal s) ops) :
    ∃ it s' os e, nthFromBottom s n = .ok it ∧ run s ops = .ok (s', os) ∧ rend s' = .ok e ∧
      it.deref s' = .ok ((contents s)[(contents s).length - 1 - n]'(by omega)) ∧
      ∀ fuel, (contents s').length + 1 ≤ fuel →
        loop s' (revInc s') e fuel it
          = if pagesFor ps (contents s').length = s.base.length
            then .ok (some ((contents s').reverse.drop n))
            else .error (.ub .derefData) := by
  obtain ⟨s', os, e, hi', hl, hb, hc⟩ := keep_run h0 ha (h.inv h0 ha) hu hn (Nat.le_refl _)
  obtain ⟨pre, cp, j, m, sr, rfl, g⟩ := h.inv h0 ha
  obtain ⟨pre', cp', j', m', sr', rfl, g'⟩ := hi'
  rw [contents_mk, contents_mk, List.reverse_reverse, List.reverse_reverse] at hc
  have hn' : n < (cont pre cp).length := by rw [contents_mk, List.length_reverse] at hn; exact hn
  rw [contents_mk, List.length_reverse] at hl
  have hd2 : (cont pre' cp')[n]? = (cont pre cp)[n]? := by
    have := congrArg (·[n]?) hc
    simpa [List.getElem?_take] using this
  have hbl : (pre ++ cp :: List.replicate j ([] : List α)).length = pre.length + 1 + j := by simp; omega
  refine ⟨pos ps n ((pre ++ cp :: List.replicate j []).length - 1), _, os, _,
    nthFromBottom_pos h0 g n hn', e, rend_mk, ?_, ?_⟩
  · apply deref_pos g' h0
    rw [hd2]
    simp only [contents_mk, List.getElem_reverse, List.length_reverse]
    rw [List.getElem?_eq_getElem (by omega)]
    congr 2; omega
  · intro fuel hf
    simp only [contents_mk, List.length_reverse] at hf ⊢
    have hib : n / ps ≤ pre.length := by
      obtain ⟨_, _, _, h3, _⟩ := page_pos (al := al) (rest := []) (sc := 0) (sr := false) g h0 n hn'
      exact h3
    have hb' : pre.length + 1 + j ≤ pre'.length + 1 + j' := by
      simp at hb; omega
    rw [reverse_kept h0 g' _ _ fuel hl (by omega) (by omega) hf, mkS_base, hbl,
      List.reverse_reverse, show pre.length + 1 + j - 1 + 1 = pre.length + 1 + j by omega]

/-- C145 (writing): assigning through the iterator to the element `k` places below the top changes
exactly that element; everything else, and the behaviour of the stack under every later history,
is that of a stack holding the changed elements.  The iterator reads the new value. -/
theorem C145_assign_forward (ps al : Nat) (h0 : 0 < ps) (ha : 0 < al) (s : PS α) (h : Reach ps al s)
    (k : Nat) (hk : k < (contents s).length) (v : α) :
    ∃ it s', nthForward s k = .ok it ∧ it.assign s v = .ok s' ∧ it.deref s' = .ok v ∧
      contents s' = (contents s).set k v ∧ s'.base.length = s.base.length ∧
      BehavesLike ps al s' ((contents s).set k v) := by
  obtain ⟨pre, cp, j, m, sr, rfl, g⟩ := h.inv h0 ha
  have hk' : k < (cont pre cp).length := by rw [contents_mk, List.length_reverse] at hk; exact hk
  obtain ⟨pre', cp', e, g', hc, hl⟩ := assign_pos (al := al) (rest := List.replicate j []) (sc := m) (sr := sr)
    h0 g ((cont pre cp).length - 1 - k) 0 v (by omega)
  have hcs : contents (mkS ps al pre' cp' (List.replicate j []) m sr)
      = (contents (mkS ps al pre cp (List.replicate j []) m sr)).set k v := by
    rw [contents_mk, contents_mk, hc, reverse_set _ _ _ (by omega)]
    congr 1; omega
  refine ⟨_, _, nthForward_pos h0 g k hk', e, ?_, hcs, by simp [hl], ?_⟩
  · apply deref_pos g' h0
    rw [hc, List.getElem?_set_self (by omega)]
  · rw [← hcs]
    exact behaves_of_Inv h0 ha ⟨pre', cp', j, m, sr, rfl, g'⟩

/-- C145 (writing through a reverse iterator, `n` steps after from_top(d)) -/
theorem C145_assign_reverse (ps al : Nat) (h0 : 0 < ps) (ha : 0 < al) (s : PS α) (h : Reach ps al s)
    (d n : Nat) (hn : n < d) (hd : d ≤ (contents s).length) (v : α) :
    ∃ it s', nthReverse s d n = .ok it ∧ it.assign s v = .ok s' ∧ it.deref s' = .ok v ∧
      contents s' = (contents s).set (d - 1 - n) v ∧ s'.base.length = s.base.length ∧
      BehavesLike ps al s' ((contents s).set (d - 1 - n) v) := by
  obtain ⟨pre, cp, j, m, sr, rfl, g⟩ := h.inv h0 ha
  have hd' : d ≤ (cont pre cp).length := by rw [contents_mk, List.length_reverse] at hd; exact hd
  obtain ⟨pre', cp', e, g', hc, hl⟩ := assign_pos (al := al) (rest := List.replicate j []) (sc := m) (sr := sr)
    h0 g ((cont pre cp).length - d + n) pre.length v (by omega)
  have hcs : contents (mkS ps al pre' cp' (List.replicate j []) m sr)
      = (contents (mkS ps al pre cp (List.replicate j []) m sr)).set (d - 1 - n) v := by
    rw [contents_mk, contents_mk, hc, reverse_set _ _ _ (by omega)]
    congr 1; omega
  refine ⟨_, _, nthReverse_pos h0 g d n hn hd', e, ?_, hcs, by simp [hl], ?_⟩
  · apply deref_pos g' h0
    rw [hc, List.getElem?_set_self (by omega)]
  · rw [← hcs]
    exact behaves_of_Inv h0 ha ⟨pre', cp', j, m, sr, rfl, g'⟩

/-- the hypotheses are met by a stack of two pages, changed across the page boundary -/
example : ∃ s : PS Nat, Reach 2 1 s ∧ contents s = [3, 2, 1] ∧
    Undisturbed 2 1 1 2 (ideal s) [.pushMany 4 [5, 6], .pop, .popMany 3, .push 9, .setTop 8, .shrink] :=
  ⟨mkS 2 1 [[1, 2]] [3] [] 0 false,
    Reach.call (o := .unit) (.pushMany 1 [2, 3]) .init (by simp) rfl, rfl,
    ⟨_, _, rfl, by decide, by simp, by decide, _, _, rfl, by decide, by simp, by decide,
     _, _, rfl, by decide, by simp, by decide, _, _, rfl, by decide, by simp, by decide,
     _, _, rfl, by decide, (fun _ _ => by decide), by decide, _, _, rfl, by decide, by simp, by decide, trivial⟩⟩

end Falcon.PagedStack
