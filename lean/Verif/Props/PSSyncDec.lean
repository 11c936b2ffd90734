import Verif.Proofs.PSSync3
import Verif.Spec.StackSyncPos
/-
C141: decrement of sync iterators.
-/
namespace Falcon.PagedStack
variable {α : Type}

/-- C141 does not hold: on a stack of two elements, 2 above 1, an iterator that has gone from the
top past the bottom with two increments goes back with one decrement to the top, not to the
bottom: the element 1 is skipped. -/
theorem C141_from_end_refuted : ∃ y y' : Sys Nat, SReach 2 2 y ∧ contents y.st = [2, 1] ∧
    srun y [.get 0, .inc 0, .get 0, .inc 0, .dec 0, .get 0]
      = .ok (y', [.val 2, .unit, .val 1, .unit, .unit, .val 2]) :=
  ⟨⟨mkS 2 2 [] [1, 2] [[]] 1 false, [⟨0, 0, 1, 0, false⟩]⟩, _,
   .step (o := .unit) .newBegin (.step (o := .call .unit) (.call (.pushMany 1 [2])) .init
    ⟨by simp, by simp⟩ rfl) trivial rfl, rfl, rfl⟩

theorem use_ok {y : Sys α} {i : Nat} {it it' : SIter} {o : SOut α}
    {f : PS α → SIter → Res (SIter × SOut α)} (hi : y.its[i]? = some it) (hf : f y.st it = .ok (it', o)) :
    useIter y i f = .ok ({ y with its := y.its.set i it' }, o) := by
  unfold useIter; rw [hi]; dsimp only; rw [hf, bind_ok]

theorem use_stands {ps : Nat} {y : Sys α} {i k : Nat} {it it' : SIter} {s : PS α}
    (hi : y.its[i]? = some it) (ht : it'.threw = false) (he : ¬ it'.atEnd) (hk : it'.fromBottom ps = k) :
    Stands ps (⟨s, y.its.set i it'⟩ : Sys α) i k :=
  ⟨it', List.getElem?_set_self (List.getElem?_eq_some_iff.1 hi).1, ht, he, hk⟩

section
variable {ps al : Nat} (h0 : 0 < ps) (ha : 0 < al) (y : Sys α) (h : SReach ps al y) (i : Nat)
include h0 ha h

/-- C141 (exact, from an element): let n be the number of elements now and k the height the
iterator designates.  On an empty stack decrement throws.  If k + 1 < n it moves up by one.
If k is no longer in use it moves to the top.  At the top (k + 1 = n) it moves to an unused
height if the stack owns a spare page, and is undefined otherwise.  The stack is not changed. -/
theorem C141_dec_partial (k : Nat) (hs : Stands ps y i k) :
    (contents y.st = [] → ∃ y', sstep y (.dec i) = .ok (y', .threw) ∧ y'.st = y.st) ∧
    (k + 1 < (contents y.st).length →
      ∃ y', sstep y (.dec i) = .ok (y', .unit) ∧ y'.st = y.st ∧ Stands ps y' i (k + 1)) ∧
    (0 < (contents y.st).length → (contents y.st).length ≤ k →
      ∃ y', sstep y (.dec i) = .ok (y', .unit) ∧ y'.st = y.st ∧
        Stands ps y' i ((contents y.st).length - 1)) ∧
    (k + 1 = (contents y.st).length →
      (StackSpec.pagesFor ps (contents y.st).length = y.st.base.length →
        ∃ u, sstep y (.dec i) = .error (.ub u)) ∧
      (StackSpec.pagesFor ps (contents y.st).length < y.st.base.length →
        ∃ y' k', sstep y (.dec i) = .ok (y', .unit) ∧ y'.st = y.st ∧ Stands ps y' i k' ∧
          (contents y.st).length ≤ k')) := by
  obtain ⟨it, hi, ht, he, rfl⟩ := hs
  have hinv := h.inv h0 ha
  have hok := hinv.its it (List.mem_of_getElem? hi) ht
  obtain ⟨st, its⟩ := y
  obtain ⟨pre, cp, m, n, sr, e, g⟩ := hinv.inv
  simp only at e; subst e
  simp only [contents_mk, List.length_reverse, List.reverse_eq_nil_iff]
  simp only at hi hok
  refine ⟨fun hc => ?_, fun hk => ?_, fun hn hk => ?_, fun hk => ⟨fun hsp => ?_, fun hsp => ?_⟩⟩
  · obtain ⟨it', e⟩ := syncDec_empty g hok hc
    exact ⟨_, use_ok hi e, rfl⟩
  · have e := syncDec_up h0 g hok he hk
    obtain ⟨-, a, b⟩ := ofIter_pos_ok (al := al) (rest := List.replicate m []) (sc := n) (sr := sr) h0 g
      (it.fromBottom ps + 1) hk it.threw
    exact ⟨_, use_ok hi e, rfl, use_stands hi ht b a⟩
  · have hne : cont pre cp ≠ [] := List.length_pos_iff.1 hn
    have e := syncDec_stale h0 g hok he hk hne
    obtain ⟨-, a, b⟩ := ofIter_pos_ok (al := al) (rest := List.replicate m []) (sc := n) (sr := sr) h0 g
      ((cont pre cp).length - 1) (by omega) it.threw
    exact ⟨_, use_ok hi e, rfl, use_stands hi ht b a⟩
  · have e := syncDec_top h0 g hok he hk
    rw [g.len, g.pages h0] at hsp
    have hm : m = 0 := by simp at hsp; omega
    subst hm
    rw [if_pos (show List.replicate 0 ([] : List α) = [] from rfl)] at e
    refine ⟨.derefListEnd, ?_⟩
    show useIter _ i syncDec = _
    unfold useIter
    simp only [hi]
    rw [e]; rfl
  · have e := syncDec_top h0 g hok he hk
    rw [g.len, g.pages h0] at hsp
    have hm : m ≠ 0 := by intro hm; subst hm; simp at hsp
    rw [if_neg (by simp [hm])] at e
    refine ⟨_, (pre.length + 1) * ps, use_ok hi e, rfl, use_stands hi ht ?_ ?_, ?_⟩
    · rintro ⟨-, e⟩; have e : (0 : Int) = -1 := e; omega
    · show (pre.length + 1) * ps + (0 : Int).toNat = _; simp
    · rw [g.len, Nat.add_mul]; have := g.le; omega

/-- C141 (exact, from the end): on an empty stack decrement throws; from sync_end() it goes to the
bottom element if the elements take more than one page, and to the top one otherwise. -/
theorem C141_dec_end_partial (hs : StandsAtEnd y i) :
    (contents y.st = [] → ∃ y', sstep y (.dec i) = .ok (y', .threw) ∧ y'.st = y.st) ∧
    (0 < (contents y.st).length → ∃ y', sstep y (.dec i) = .ok (y', .unit) ∧ y'.st = y.st ∧
      Stands ps y' i (if (contents y.st).length ≤ ps then (contents y.st).length - 1 else 0)) := by
  obtain ⟨it, hi, ht, he⟩ := hs
  have hinv := h.inv h0 ha
  have hok := hinv.its it (List.mem_of_getElem? hi) ht
  obtain ⟨st, its⟩ := y
  obtain ⟨pre, cp, m, n, sr, e, g⟩ := hinv.inv
  simp only at e; subst e
  simp only [contents_mk, List.length_reverse, List.reverse_eq_nil_iff]
  simp only at hi hok
  refine ⟨fun hc => ?_, fun hn => ?_⟩
  · obtain ⟨it', e⟩ := syncDec_empty g hok hc
    exact ⟨_, use_ok hi e, rfl⟩
  · have e := syncDec_end h0 g hok he (List.length_pos_iff.1 hn)
    obtain ⟨-, a, b⟩ := ofIter_pos_ok (al := al) (rest := List.replicate m []) (sc := n) (sr := sr) h0 g
      (if (cont pre cp).length ≤ ps then (cont pre cp).length - 1 else 0) (by split <;> omega) it.threw
    exact ⟨_, use_ok hi e, rfl, use_stands hi ht b a⟩

/-- Increment, in the same terms (C17). -/
theorem inc_stands (k : Nat) (hs : Stands ps y i k) (hk : k < (contents y.st).length) :
    ∃ y', sstep y (.inc i) = .ok (y', .unit) ∧ y'.st = y.st ∧
      (k = 0 → StandsAtEnd y' i) ∧ (∀ m, k = m + 1 → Stands ps y' i m) := by
  obtain ⟨it, hi, ht, he, rfl⟩ := hs
  have hinv := h.inv h0 ha
  have hok := hinv.its it (List.mem_of_getElem? hi) ht
  obtain ⟨st, its⟩ := y
  obtain ⟨pre, cp, m, n, sr, e, g⟩ := hinv.inv
  simp only at e; subst e
  simp only [contents_mk, List.length_reverse] at hk
  simp only at hi hok
  have hne : cont pre cp ≠ [] := List.length_pos_iff.1 (by omega)
  have e := syncInc_ne h0 g hok he hne
  rw [if_pos hk] at e
  refine ⟨_, use_ok hi e, rfl, fun hz => ?_, fun q hq => ?_⟩
  · exact ⟨_, List.getElem?_set_self (List.getElem?_eq_some_iff.1 hi).1, ht, by
      unfold prevPos; rw [if_pos hz]; exact ⟨rfl, rfl⟩⟩
  · obtain ⟨-, a, b⟩ := ofIter_pos_ok (al := al) (rest := List.replicate m []) (sc := n) (sr := sr) h0 g
      q (by omega) it.threw
    have hp : prevPos ps (it.fromBottom ps) = pos ps q 0 := by
      unfold prevPos; rw [if_neg (by omega), hq, Nat.add_sub_cancel]
    exact use_stands hi ht (by rw [hp]; exact b) (by rw [hp]; exact a)

/-- C141 (decrement and increment): on an unchanged stack, decrement followed by increment comes
back to the same height from every element but the top, increment followed by decrement from
every element but the bottom; from the bottom element too exactly if it is the only element
or the elements take more than one page. -/
theorem C141_undo_partial (k : Nat) (hs : Stands ps y i k) :
    (k + 1 < (contents y.st).length →
      ∃ y', srun y [.dec i, .inc i] = .ok (y', [.unit, .unit]) ∧ y'.st = y.st ∧ Stands ps y' i k) ∧
    (k < (contents y.st).length →
      ∃ y', srun y [.inc i, .dec i] = .ok (y', [.unit, .unit]) ∧ y'.st = y.st ∧
        (Stands ps y' i k ↔ k ≠ 0 ∨ (contents y.st).length = 1 ∨ ps < (contents y.st).length)) := by
  have two : ∀ {y1 y2 : Sys α} {p q : SOp α}, sstep y p = .ok (y1, .unit) → sstep y1 q = .ok (y2, .unit) →
      srun y [p, q] = .ok (y2, [.unit, .unit]) := by
    intro y1 y2 p q e1 e2
    simp only [srun, e1, bind_ok, e2]
  constructor
  · intro hk
    obtain ⟨y1, e1, s1, t1⟩ := (C141_dec_partial h0 ha y h i k hs).2.1 hk
    have h1 : SReach ps al y1 := .step (.dec i) h trivial e1
    obtain ⟨y2, e2, s2, -, t2⟩ := inc_stands h0 ha y1 h1 i (k + 1) t1 (by rw [s1]; exact hk)
    exact ⟨y2, two e1 e2, s2.trans s1, t2 k rfl⟩
  · intro hk
    obtain ⟨y1, e1, s1, t0, t1⟩ := inc_stands h0 ha y h i k hs hk
    have h1 : SReach ps al y1 := .step (.inc i) h trivial e1
    have uniq : ∀ {y : Sys α} {a b}, Stands ps y i a → Stands ps y i b → a = b := by
      rintro y a b ⟨x, x1, -, -, x2⟩ ⟨z, z1, -, -, z2⟩
      rw [x1] at z1; cases z1; exact x2.symm.trans z2
    cases k with
    | zero =>
      obtain ⟨y2, e2, s2, t2⟩ := (C141_dec_end_partial h0 ha y1 h1 i (t0 rfl)).2 (by rw [s1]; omega)
      refine ⟨y2, two e1 e2, s2.trans s1, ?_⟩
      rw [s1] at t2
      constructor
      · intro hz
        have := uniq hz t2
        split at this <;> omega
      · intro hz
        have : (if (contents y.st).length ≤ ps then (contents y.st).length - 1 else 0) = 0 := by
          split <;> omega
        rw [this] at t2; exact t2
    | succ m =>
      obtain ⟨y2, e2, s2, t2⟩ := (C141_dec_partial h0 ha y1 h1 i m (t1 m rfl)).2.1 (by rw [s1]; exact hk)
      refine ⟨y2, two e1 e2, s2.trans s1, ⟨fun _ => .inl (by omega), fun _ => t2⟩⟩

end

/-! ### Bottom to top -/

theorem get_stands {ps al : Nat} (h0 : 0 < ps) (ha : 0 < al) (y : Sys α) (h : SReach ps al y) (i k : Nat)
    (hs : Stands ps y i k) (x : α) (hx : (contents y.st).reverse[k]? = some x) :
    ∃ y', sstep y (.get i) = .ok (y', .val x) ∧ y'.st = y.st ∧ Stands ps y' i k := by
  obtain ⟨it, hi, ht, he, rfl⟩ := hs
  have hinv := h.inv h0 ha
  have hok := hinv.its it (List.mem_of_getElem? hi) ht
  obtain ⟨st, its⟩ := y
  obtain ⟨pre, cp, m, n, sr, e, g⟩ := hinv.inv
  simp only at e; subst e
  simp only [contents_mk, List.reverse_reverse] at hx
  simp only at hi hok
  have hk := (List.getElem?_eq_some_iff.1 hx).1
  have hne : cont pre cp ≠ [] := List.length_pos_iff.1 (by omega)
  obtain ⟨it', z, e1, e2, e3⟩ := syncGet_ne h0 g hok he hne
  rw [Nat.min_eq_left (by omega)] at e2 e3
  rw [hx] at e2; obtain rfl := Option.some.inj e2
  obtain ⟨-, a, b⟩ := ofIter_pos_ok (al := al) (rest := List.replicate m []) (sc := n) (sr := sr) h0 g
    (it.fromBottom ps) hk it.threw
  rw [e3] at e1
  exact ⟨_, use_ok hi e1, rfl, use_stands hi ht b a⟩

/-- `m` times: decrement, get. -/
def upward (i : Nat) : Nat → List (SOp α)
  | 0 => []
  | m + 1 => .dec i :: .get i :: upward i m

/-- What that reports if it reads these values. -/
def upwardOut : List α → List (SOut α)
  | [] => []
  | x :: xs => .unit :: .val x :: upwardOut xs

/-- C141 (upwards): on an unchanged stack whose elements take more than one page, going up from
sync_end() with decrement reads all elements, bottom to top. -/
theorem C141_upward_partial (ps al : Nat) (h0 : 0 < ps) (ha : 0 < al) (y : Sys α) (h : SReach ps al y) (i : Nat)
    (hs : StandsAtEnd y i) (hn : ps < (contents y.st).length) :
    ∃ y', srun y (upward i (contents y.st).length) = .ok (y', upwardOut (contents y.st).reverse) ∧
      y'.st = y.st := by
  have go : ∀ (xs : List α) (y : Sys α) (k : Nat), SReach ps al y → Stands ps y i k →
      (contents y.st).reverse.drop (k + 1) = xs →
      ∃ y', srun y (upward i xs.length) = .ok (y', upwardOut xs) ∧ y'.st = y.st := by
    intro xs
    induction xs with
    | nil => intro y k _ _ _; exact ⟨y, rfl, rfl⟩
    | cons x xs ih =>
      intro y k hr hst hd
      have hlen : k + 1 < (contents y.st).length := by
        have := congrArg List.length hd
        simp only [List.length_drop, List.length_reverse, List.length_cons] at this; omega
      have hx : (contents y.st).reverse[k + 1]? = some x := by
        have := congrArg (fun l => l[0]?) hd
        simpa using this
      obtain ⟨y1, e1, s1, t1⟩ := (C141_dec_partial h0 ha y hr i k hst).2.1 hlen
      have h1 : SReach ps al y1 := .step (.dec i) hr trivial e1
      obtain ⟨y2, e2, s2, t2⟩ := get_stands h0 ha y1 h1 i (k + 1) t1 x (by rw [s1]; exact hx)
      have h2 : SReach ps al y2 := .step (.get i) h1 trivial e2
      obtain ⟨y3, e3, s3⟩ := ih y2 (k + 1) h2 t2 (by
        rw [s2, s1, ← List.drop_drop (i := 1), hd]; rfl)
      refine ⟨y3, ?_, s3.trans (s2.trans s1)⟩
      simp only [upward, List.length_cons, srun, upwardOut, e1, bind_ok, e2, e3]
  obtain ⟨y1, e1, s1, t1⟩ := (C141_dec_end_partial h0 ha y h i hs).2 (by omega)
  rw [if_neg (by omega)] at t1
  have h1 : SReach ps al y1 := .step (.dec i) h trivial e1
  obtain ⟨x, xs, hxs⟩ : ∃ x xs, (contents y.st).reverse = x :: xs := by
    cases hc : (contents y.st).reverse with
    | nil => have := congrArg List.length hc; simp at this; rw [this] at hn; simp at hn
    | cons x xs => exact ⟨x, xs, rfl⟩
  obtain ⟨y2, e2, s2, t2⟩ := get_stands h0 ha y1 h1 i 0 t1 x (by rw [s1, hxs]; rfl)
  have h2 : SReach ps al y2 := .step (.get i) h1 trivial e2
  obtain ⟨y3, e3, s3⟩ := go xs y2 0 h2 t2 (by rw [s2, s1, hxs]; rfl)
  have hl : (contents y.st).length = xs.length + 1 := by
    have := congrArg List.length hxs; simpa using this
  refine ⟨y3, ?_, s3.trans (s2.trans s1)⟩
  rw [hl, hxs]
  simp only [upward, srun, upwardOut, e1, bind_ok, e2, e3]

/-- Three elements, two on the first page. -/
example : SReach 2 2 (⟨mkS 2 2 [[1, 2]] [3] [] 1 false, [⟨0, 0, -1, 0, false⟩]⟩ : Sys Nat) ∧
    StandsAtEnd (⟨mkS 2 2 [[1, 2]] [3] [] 1 false, [⟨0, 0, -1, 0, false⟩]⟩ : Sys Nat) 0 ∧
    (2 : Nat) < (contents (mkS 2 2 [[1, 2]] [3] [] 1 false)).length ∧
    upwardOut (contents (mkS 2 2 [[1, 2]] [3] [] 1 false)).reverse
      = [.unit, .val 1, .unit, .val 2, .unit, .val 3] :=
  ⟨.step (o := .unit) .newEnd (.step (o := .call .unit) (.call (.pushMany 1 [2, 3])) .init
    ⟨by simp, by simp⟩ rfl) trivial rfl, ⟨_, rfl, rfl, rfl, rfl⟩, by decide, rfl⟩

end Falcon.PagedStack
