import Verif.Proofs.PSRemove
/-
C171: removing several elements at once is like popping them one by one: the elements that leave the stack
are destroyed from the top down, and each destructor finds the stack without its element.
-/
namespace Falcon.PSRemove
open Falcon.PagedStack

variable {V : Type}

theorem pair_of_mem {R : Nat → Nat → Prop} {l : List Nat} (h : l.Pairwise R) {a b : Nat} (ha : a ∈ l) (hb : b ∈ l) (hne : a ≠ b) : R a b ∨ R b a := by
  induction h with
  | nil => simp at ha
  | cons hx _ ih =>
    rcases List.mem_cons.1 ha with rfl | ha' <;> rcases List.mem_cons.1 hb with rfl | hb'
    · exact absurd rfl hne
    · exact .inl (hx b hb')
    · exact .inr (hx a ha')
    · exact ih ha' hb'

/-- From the top down, if and only if no two of the elements share a page. -/
theorem top_down_iff {ps : Nat} {is : List Nat} (ho : is.Pairwise (Before ps)) :
    is.Pairwise (· > ·) ↔ ∀ i ∈ is, ∀ j ∈ is, i / ps = j / ps → i = j := by
  constructor
  · intro h i hi j hj e
    by_cases hne : i = j
    · exact hne
    · exfalso
      have h2 := pair_of_mem (ho.and h) hi hj hne
      rcases h2 with ⟨a, b⟩ | ⟨a, b⟩ <;> rcases a with a | a <;> omega
  · intro h
    refine ho.imp_of_mem ?_
    intro a b ha hb hab
    rcases hab with hab | ⟨e, hab⟩
    · rcases Nat.lt_or_ge b a with h | h
      · exact h
      · exact absurd (Nat.div_le_div_right (c := ps) h) (by omega)
    · exact absurd (h a ha b hb e.symm) (by omega)

theorem same_page_iff {ps len low : Nat} (h0 : 0 < ps) {is : List Nat} (hw : ∀ i, i ∈ is ↔ low ≤ i ∧ i < len) :
    (∀ i ∈ is, ∀ j ∈ is, i / ps = j / ps → i = j) ↔ len ≤ low + 1 ∨ ps = 1 ∨ (len = low + 2 ∧ (len - 1) % ps = 0) := by
  have step : ∀ i, (i + 1) % ps ≠ 0 → i / ps = (i + 1) / ps := by
    intro i hi
    rw [Nat.succ_div, if_neg (fun hd => hi (Nat.mod_eq_zero_of_dvd hd)), Nat.add_zero]
  constructor
  · intro h
    by_cases h1 : len ≤ low + 1
    · exact .inl h1
    · right
      have a1 : (len - 1) % ps = 0 := by
        by_cases hm : (len - 1) % ps = 0
        · exact hm
        · exfalso
          have := step (len - 2) (by rw [show len - 2 + 1 = len - 1 by omega]; exact hm)
          have := h (len - 2) ((hw _).2 (by omega)) (len - 2 + 1) ((hw _).2 (by omega)) this
          omega
      by_cases h2 : len = low + 2
      · exact .inr ⟨h2, a1⟩
      · left
        have a2 : (len - 2) % ps = 0 := by
          by_cases hm : (len - 2) % ps = 0
          · exact hm
          · exfalso
            have := step (len - 3) (by rw [show len - 3 + 1 = len - 2 by omega]; exact hm)
            have := h (len - 3) ((hw _).2 (by omega)) (len - 3 + 1) ((hw _).2 (by omega)) this
            omega
        have d1 := Nat.dvd_of_mod_eq_zero a1
        have d2 := Nat.dvd_of_mod_eq_zero a2
        have := (Nat.dvd_add_right d2).1 (show ps ∣ (len - 2) + 1 by rw [show len - 2 + 1 = len - 1 by omega]; exact d1)
        exact Nat.dvd_one.1 this
  · rintro (h | h | ⟨h, hm⟩) i hi j hj e
    · have := (hw i).1 hi; have := (hw j).1 hj; omega
    · subst h; simpa using e
    · have h1 := (hw i).1 hi
      have h2 := (hw j).1 hj
      have key : low / ps ≠ (low + 1) / ps := by
        rw [Nat.succ_div, if_pos (Nat.dvd_of_mod_eq_zero (by rw [show low + 1 = len - 1 by omega]; exact hm))]; omega
      by_cases hne : i = j
      · exact hne
      · exfalso
        rcases Nat.lt_or_ge i j with hlt | hge
        · have : i = low := by omega
          have : j = low + 1 := by omega
          subst_vars; exact key e
        · have : j = low := by omega
          have : i = low + 1 := by omega
          subst_vars; exact key e.symm

/-- The destructor finds its own element still counted. -/
theorem not_rest {ps : Nat} (h0 : 0 < ps) {b : List V} {i : Nat} {g : Glimpse V} (hi : i < b.length) (h : FindsPage ps b i g) : ¬ FindsRest b i g := by
  rintro ⟨-, hs, -⟩
  have h2 := h.2.1
  rw [hs] at h2
  injection h2 with h2
  unfold pageEnd at h2
  have : i < (i / ps + 1) * ps := by rw [Nat.mul_comm]; exact Nat.lt_mul_div_succ i h0
  omega

theorem ran_rest_iff {ps : Nat} (h0 : 0 < ps) {b : List V} {low : Nat} {is : List Nat} {gs : List (Glimpse V)} (h : Removed ps b low is gs) :
    Ran (FindsRest b) is gs ↔ b.length ≤ low := by
  constructor
  · intro hr
    rcases Nat.lt_or_ge low b.length with hl | hl
    · exfalso
      have hm := (h.which low).2 ⟨Nat.le_refl _, hl⟩
      have hw := fun i hi => ((h.which i).1 hi).2
      have h1 := h.ran
      clear h hl
      induction hr with
      | nil => simp at hm
      | cons hp hr ih =>
        cases h1 with
        | cons hq h1 => exact not_rest h0 (hw _ (by simp)) hq hp
    · exact hl
  · intro hl
    have : is = [] := by
      cases is with
      | nil => rfl
      | cons i is => have := (h.which i).1 (by simp); omega
    subst this
    have := h.ran
    cases this
    exact .nil

/-- C171 is false: `discard(2)` on a stack of 1, 2, 3 destroys 2 before 3, and both destructors find three elements. -/
theorem C171_order_refuted : ((do
      let s ← push (init 4 1) 1
      let s ← push s 2
      let s ← push s 3
      discard s 2) : Res (PS Nat × List (Glimpse Nat))).toOption.map (fun r => r.2.map (fun g => (g.elem, g.size.toOption, g.top.toOption)))
    = some [(2, some 3, some 3), (3, some 3, some 3)] := by decide

/-- C171 (exactly, `discard(n)`): on every stack a program can have, exactly the topmost n elements are destroyed, each once, pages from
the top down and each page from its bottom up; every destructor finds the stack as it was when the destruction of its page began, with
the elements of the page destroyed already still counted. The order is from the top down if and only if n ≤ 1, or pages hold one
element, or n = 2 and the top element is the first of its page; the destructors never find the stack without their elements. -/
theorem C171_discard_exact_partial (ps al : Nat) (h0 : 0 < ps) (ha : 0 < al) (s : PS V) (h : Reach ps al s) (n : Nat) (hn : n ≤ (contents s).length) :
    ∃ s' gs is, discard s n = .ok (s', gs) ∧ PagedStack.discard s n = .ok s' ∧ Ran (FindsPage ps (contents s).reverse) is gs ∧
      (∀ i, i ∈ is ↔ (contents s).length - n ≤ i ∧ i < (contents s).length) ∧ is.Pairwise (Before ps) ∧
      (is.Pairwise (· > ·) ↔ n ≤ 1 ∨ ps = 1 ∨ (n = 2 ∧ ((contents s).length - 1) % ps = 0)) ∧
      (Ran (FindsRest (contents s).reverse) is gs ↔ n = 0) := by
  obtain ⟨pre, cp, k, m, sr, rfl, g⟩ := h.inv h0 ha
  rw [contents_mk, List.length_reverse] at hn ⊢
  rw [List.reverse_reverse]
  obtain ⟨s', gs, is, h1, h2⟩ := discardAt_removed (al := al) (sc := m) (sr := sr) h0 pre cp (List.replicate k []) n g hn
  refine ⟨s', gs, is, h1, ?_, h2.ran, h2.which, h2.order, ?_, ?_⟩
  · have hf := discardAt_fst pre.length (mkS ps al pre cp (List.replicate k []) m sr) n rfl
    rw [h1] at hf
    unfold PagedStack.discard
    rw [mkS_cur]
    cases hd : discardLoop (mkS ps al pre cp (List.replicate k []) m sr).base pre.length n with
    | error e => rw [hd] at hf; cases hf
    | ok r => rw [hd] at hf; exact hf.symm
  · rw [top_down_iff h2.order, same_page_iff h0 h2.which]
    omega
  · rw [ran_rest_iff h0 h2]
    omega

/-- C171 (exactly, `clear()`): the same with the elements `clear()` removes, those above the first page. -/
theorem C171_clear_exact_partial (ps al : Nat) (h0 : 0 < ps) (ha : 0 < al) (s : PS V) (h : Reach ps al s) :
    ∃ s' gs is, clear s = .ok (s', gs) ∧ PagedStack.clear s = .ok s' ∧ Ran (FindsPage ps (contents s).reverse) is gs ∧
      (∀ i, i ∈ is ↔ ps ≤ i ∧ i < (contents s).length) ∧ is.Pairwise (Before ps) ∧
      (is.Pairwise (· > ·) ↔ (contents s).length ≤ ps + 1 ∨ ps = 1) ∧
      (Ran (FindsRest (contents s).reverse) is gs ↔ (contents s).length ≤ ps) := by
  obtain ⟨pre, cp, k, m, sr, rfl, g⟩ := h.inv h0 ha
  rw [contents_mk, List.length_reverse]
  rw [List.reverse_reverse]
  obtain ⟨s', gs, is, h1, h2⟩ := clearAt_removed (al := al) (sc := m) (sr := sr) h0 pre cp (List.replicate k []) g
  refine ⟨s', gs, is, h1, ?_, h2.ran, h2.which, h2.order, ?_, ?_⟩
  · have hf := clearAt_fst pre.length (mkS ps al pre cp (List.replicate k []) m sr) rfl (by simp [mkS])
    rw [h1] at hf
    unfold PagedStack.clear
    rw [mkS_cur, mkS_page, bind_ok]
    exact hf.symm
  · rw [top_down_iff h2.order, same_page_iff h0 h2.which]
    constructor
    · rintro (h | h | ⟨h, hm⟩)
      · exact .inl h
      · exact .inr h
      · right
        rw [h, show ps + 2 - 1 = 1 + ps by omega, Nat.add_mod_right] at hm
        exact Nat.dvd_one.1 (Nat.dvd_of_mod_eq_zero hm)
    · rintro (h | h)
      · exact .inl h
      · exact .inr (.inl h)
  · exact ran_rest_iff h0 h2

/-- C171 (exactly, `pop()`): the destructor finds the stack without the element, except that `top()` is undefined if the element was
the first of a page that is not the first. -/
theorem C171_pop_exact_partial (ps al : Nat) (h0 : 0 < ps) (ha : 0 < al) (s : PS V) (h : Reach ps al s) (hne : contents s ≠ []) :
    ∃ s' g, pop s = .ok (s', g) ∧ PagedStack.popOne s = .ok s' ∧ (contents s).head? = some g.elem ∧ g.size = .ok ((contents s).length - 1) ∧
      g.empty = .ok (decide ((contents s).length = 1)) ∧
      (FindsRest (contents s).reverse ((contents s).length - 1) g ↔ (contents s).length = 1 ∨ ((contents s).length - 1) % ps ≠ 0) := by
  obtain ⟨pre, cp, k, m, sr, rfl, g⟩ := h.inv h0 ha
  rw [contents_mk] at hne ⊢
  rw [List.length_reverse, List.reverse_reverse]
  have hcp : cp ≠ [] := by
    intro e
    have := g.ne e
    subst e; subst this
    exact hne rfl
  rcases nil_or_snoc cp with e | ⟨cq, x, e⟩
  · exact absurd e hcp
  subst e
  have hc : cont pre (cq ++ [x]) = cont pre cq ++ [x] := by simp [cont]
  have hpop : ∃ s', popOne (mkS ps al pre (cq ++ [x]) (List.replicate k []) m sr) = .ok s' := by
    by_cases hs : cq ≠ [] ∨ pre = []
    · exact ⟨_, popOne_stay x hs⟩
    · have h1 : cq = [] := by
        by_cases hx : cq = []
        · exact hx
        · exact absurd (.inl hx) hs
      have h2 : pre ≠ [] := fun hx => hs (.inr hx)
      rcases nil_or_snoc pre with e | ⟨pre', q, e⟩
      · exact absurd e h2
      · subst h1; subst e
        exact ⟨_, popOne_cross q x⟩
  obtain ⟨s', hs'⟩ := hpop
  have hlen : (cont pre cq).length = pre.length * ps + cq.length := by
    have := g.len; rw [hc] at this; simp at this; omega
  have hsz : PagedStack.size (mkS ps al pre cq (List.replicate k []) m sr) = .ok (pre.length * ps + cq.length) := by
    simp only [PagedStack.size, mkS_cur, mkS_page, bind_ok, mkS_base]
    rw [List.take_left' rfl, ← List.length_flatten, g.len_pre]
  have hem : isEmpty (mkS ps al pre cq (List.replicate k []) m sr) = .ok (decide (pre.length * ps + cq.length = 0)) := by
    unfold isEmpty
    split
    · rename_i h
      have h' : pre.length = 0 := h
      rw [mkS_cur, mkS_page, bind_ok, h']
      cases cq <;> simp
    · rename_i h
      have h' : pre.length ≠ 0 := h
      have : pre.length * ps ≠ 0 := Nat.mul_ne_zero h' (by omega)
      congr 1
      symm
      apply decide_eq_false
      omega
  refine ⟨s', look (mkS ps al pre cq (List.replicate k []) m sr) x, ?_, hs', ?_, ?_, ?_, ?_⟩
  · unfold pop
    simp [hs']
  · rw [hc]; simp [look]
  · rw [hc, List.length_append, List.length_singleton, Nat.add_sub_cancel, hlen]; exact hsz
  · rw [hc, List.length_append, List.length_singleton, hlen]
    show isEmpty _ = _
    rw [hem]
    congr 1
    rw [decide_eq_decide]; omega
  · rw [hc, List.length_append, List.length_singleton, Nat.add_sub_cancel]
    have hcl : cq.length < ps := by have := g.le; simp at this; omega
    have hmod : (cont pre cq).length % ps = cq.length := by
      rw [hlen, Nat.mul_comm, Nat.mul_add_mod, Nat.mod_eq_of_lt hcl]
    rw [hmod]
    constructor
    · rintro ⟨-, -, -, h4⟩
      by_cases hz : cq.length = 0
      · left
        have hcq : cq = [] := List.eq_nil_of_length_eq_zero hz
        subst hcq
        by_cases hp : pre.length = 0
        · rw [hlen, hp]; simp
        · exfalso
          have hpos : 0 < pre.length * ps := Nat.mul_pos (by omega) h0
          obtain ⟨t, -, ht⟩ := h4 ((cont pre []).length - 1) (by rw [hlen]; omega)
          have : PagedStack.top (mkS ps al pre [] (List.replicate k []) m sr) = .ok t := ht
          rw [top_mk] at this
          cases this
      · exact .inr hz
    · intro hor
      refine ⟨by simp [look], by rw [hlen]; exact hsz, by rw [hlen]; exact hem, ?_⟩
      intro j hj
      have hcq : cq ≠ [] := by
        intro hx
        subst hx
        rcases hor with h | h
        · omega
        · exact h rfl
      refine ⟨cq.getLast hcq, ?_, ?_⟩
      · have hl : 0 < cq.length := List.length_pos_iff.2 hcq
        rw [List.getElem?_append_left (by omega)]
        unfold cont
        rw [List.getElem?_append_right (by rw [g.len_pre]; omega), g.len_pre, ← List.getLast?_eq_some_getLast hcq, List.getLast?_eq_getElem?]
        congr 1; omega
      · show PagedStack.top _ = _
        rw [top_mk, List.getLast?_eq_some_getLast hcq]

/-- Non-vacuity: seven elements on pages of three; discarding five destroys 7, then 4, 5, 6, then 3. -/
example : ((List.range 7).foldlM (fun s i => push s (i + 1)) (init 3 1) >>= fun s => discard s 5 : Res (PS Nat × List (Glimpse Nat))).toOption.map
      (fun r => r.2.map (fun g => (g.elem, g.size.toOption, g.top.toOption)))
    = some [(7, some 7, some 7), (4, some 6, some 6), (5, some 6, some 6), (6, some 6, some 6), (3, some 3, some 3)] := by decide

end Falcon.PSRemove
