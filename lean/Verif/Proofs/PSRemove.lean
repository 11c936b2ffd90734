import Verif.Spec.PSRemove
import Verif.Proofs.PSMore
import Mathlib.Data.List.Induction
/- Helper lemmas for C171. -/
namespace Falcon.PSRemove
open Falcon.PagedStack

variable {V : Type} {ps al : Nat} {pre : List (List V)} {cp : List V} {rest : List (List V)} {sc : Int} {sr : Bool}

theorem ran_of_get {P : Nat → Glimpse V → Prop} : ∀ (is : List Nat) (gs : List (Glimpse V)), is.length = gs.length →
    (∀ (k i : Nat) (g : Glimpse V), is[k]? = some i → gs[k]? = some g → P i g) → Ran P is gs
  | [], [], _, _ => .nil
  | [], _ :: _, h, _ => by simp at h
  | _ :: _, [], h, _ => by simp at h
  | i :: is, g :: gs, h, hp => .cons (hp 0 i g rfl rfl)
      (ran_of_get is gs (by simpa using h) (fun k i g hi hg => hp (k + 1) i g (by simpa using hi) (by simpa using hg)))

theorem Ran.append {P : Nat → Glimpse V → Prop} {is js : List Nat} {gs hs : List (Glimpse V)} (h : Ran P is gs) (h' : Ran P js hs) :
    Ran P (is ++ js) (gs ++ hs) := by
  induction h with
  | nil => exact h'
  | cons hp _ ih => exact .cons hp ih

theorem Ran.imp {P Q : Nat → Glimpse V → Prop} {is : List Nat} {gs : List (Glimpse V)} (h : Ran P is gs)
    (hq : ∀ i g, i ∈ is → P i g → Q i g) : Ran Q is gs := by
  induction h with
  | nil => exact .nil
  | cons hp _ ih => exact .cons (hq _ _ (by simp) hp) (ih (fun i g hi => hq i g (by simp [hi])))

theorem Ran.length {P : Nat → Glimpse V → Prop} {is : List Nat} {gs : List (Glimpse V)} (h : Ran P is gs) : is.length = gs.length := by
  induction h with
  | nil => rfl
  | cons _ _ ih => simp [ih]

theorem eraseFrom_mk (k : Nat) : eraseFrom (mkS ps al pre cp rest sc sr) k =
    .ok (mkS ps al pre (cp.take k) rest sc sr, (cp.drop k).map (look (mkS ps al pre cp rest sc sr))) := by
  simp [eraseFrom]

theorem size_mk (g : Good ps pre cp) : PagedStack.size (mkS ps al pre cp rest sc sr) = .ok (pre.length * ps + cp.length) := by
  simp only [PagedStack.size, mkS_cur, mkS_page, bind_ok, mkS_base]
  rw [List.take_left' rfl, ← List.length_flatten, g.len_pre]

theorem empty_mk (hne : cp ≠ []) : isEmpty (mkS ps al pre cp rest sc sr) = .ok false := by
  unfold isEmpty
  split
  · rename_i h
    have h' : pre.length = 0 := h
    rw [mkS_cur, mkS_page, bind_ok]
    cases cp with
    | nil => exact absurd rfl hne
    | cons _ _ => rfl
  · rfl

theorem pageEnd_top (g : Good ps pre cp) (h0 : 0 < ps) {k : Nat} (hk : k < cp.length) :
    pageEnd ps (cont pre cp) (pre.length * ps + k) = pre.length * ps + cp.length := by
  unfold pageEnd
  have hd : (pre.length * ps + k) / ps = pre.length := by
    rw [Nat.mul_comm, Nat.mul_add_div h0, Nat.div_eq_of_lt (by have := g.le; omega)]; simp
  rw [g.len, hd, Nat.add_mul, Nat.one_mul]
  have := g.le
  omega

theorem ran_page (g : Good ps pre cp) (h0 : 0 < ps) (k : Nat) :
    Ran (FindsPage ps (cont pre cp)) (List.range' (pre.length * ps + k) (cp.length - k)) ((cp.drop k).map (look (mkS ps al pre cp rest sc sr))) := by
  apply ran_of_get
  · simp
  · intro m i gl hi hg
    rw [List.getElem?_map, List.getElem?_drop] at hg
    cases hv : cp[k + m]? with
    | none => rw [hv] at hg; cases hg
    | some v =>
      rw [hv] at hg
      injection hg with hg
      have hlt : k + m < cp.length := by
        rcases Nat.lt_or_ge (k + m) cp.length with h | h
        · exact h
        · rw [List.getElem?_eq_none h] at hv; cases hv
      have hi' : i = pre.length * ps + (k + m) := by
        rw [List.getElem?_range' (by omega)] at hi
        injection hi with hi
        omega
      subst hi' hg
      have hne : cp ≠ [] := by intro h; rw [h] at hlt; simp at hlt
      refine ⟨?_, ?_, empty_mk hne, ?_⟩
      · show (cont pre cp)[pre.length * ps + (k + m)]? = some v
        unfold cont
        rw [List.getElem?_append_right (by rw [g.len_pre]; omega), g.len_pre, ← hv]
        congr 1; omega
      · rw [pageEnd_top g h0 hlt]; exact size_mk g
      · rw [pageEnd_top g h0 hlt]
        refine ⟨cp.getLast hne, ?_, ?_⟩
        · unfold cont
          rw [List.getElem?_append_right (by rw [g.len_pre]; omega), g.len_pre, ← List.getLast?_eq_some_getLast hne, List.getLast?_eq_getElem?]
          congr 1; omega
        · show PagedStack.top _ = _
          rw [top_mk, List.getLast?_eq_some_getLast hne]

theorem finds_prefix {q : List V} (g : Good ps (pre ++ [q]) cp) (h0 : 0 < ps) {i : Nat} {gl : Glimpse V} (hi : i < (cont pre q).length)
    (h : FindsPage ps (cont pre q) i gl) : FindsPage ps (cont (pre ++ [q]) cp) i gl := by
  have g' := g.pop_cross h0
  have e : cont (pre ++ [q]) cp = cont pre q ++ cp := by simp [cont]
  have hq : q.length = ps := g.full q (by simp)
  have hl : (cont pre q).length = (pre.length + 1) * ps := by rw [g'.len, hq, Nat.add_mul]; omega
  have hd : i / ps + 1 ≤ pre.length + 1 := by
    rw [hl] at hi
    have := (Nat.div_lt_iff_lt_mul h0).2 hi
    omega
  have hp : (i / ps + 1) * ps ≤ (cont pre q).length := by rw [hl]; exact Nat.mul_le_mul_right _ hd
  have hpe : pageEnd ps (cont (pre ++ [q]) cp) i = pageEnd ps (cont pre q) i := by
    unfold pageEnd; rw [e, List.length_append]; omega
  obtain ⟨h1, h2, h3, t, h4, h5⟩ := h
  refine ⟨?_, by rw [hpe]; exact h2, h3, t, ?_, h5⟩
  · rw [e, List.getElem?_append_left hi]; exact h1
  · have hlt : pageEnd ps (cont pre q) i - 1 < (cont pre q).length := by
      have h1 : pageEnd ps (cont pre q) i ≤ (cont pre q).length := Nat.min_le_left _ _
      have h2 : 0 < (cont pre q).length := Nat.lt_of_le_of_lt (Nat.zero_le _) hi
      clear hd hp
      omega
    rw [hpe, e, List.getElem?_append_left hlt]; exact h4

theorem page_order (g : Good ps pre cp) (h0 : 0 < ps) (k : Nat) : (List.range' (pre.length * ps + k) (cp.length - k)).Pairwise (Before ps) := by
  have hdiv : ∀ i ∈ List.range' (pre.length * ps + k) (cp.length - k), i / ps = pre.length := by
    intro i hi
    rw [List.mem_range'_1] at hi
    have := g.le
    rw [Nat.div_eq_iff h0]
    constructor
    · omega
    · have : (pre.length + 1) * ps = pre.length * ps + ps := by rw [Nat.add_mul]; omega
      omega
  refine (List.pairwise_lt_range' (s := pre.length * ps + k) (n := cp.length - k)).imp_of_mem ?_
  intro a b ha hb hab
  exact .inr ⟨by rw [hdiv a ha, hdiv b hb], hab⟩

/-- The heights of the elements removed, the order and what the destructors find. -/
structure Removed (ps : Nat) (b : List V) (low : Nat) (is : List Nat) (gs : List (Glimpse V)) : Prop where
  ran   : Ran (FindsPage ps b) is gs
  which : ∀ i, i ∈ is ↔ low ≤ i ∧ i < b.length
  order : is.Pairwise (Before ps)

theorem removed_page (g : Good ps pre cp) (h0 : 0 < ps) (k : Nat) :
    Removed ps (cont pre cp) (pre.length * ps + k) (List.range' (pre.length * ps + k) (cp.length - k)) ((cp.drop k).map (look (mkS ps al pre cp rest sc sr))) := by
  refine ⟨ran_page g h0 k, ?_, page_order g h0 k⟩
  intro i
  rw [List.mem_range'_1, g.len]
  omega

theorem removed_more {q : List V} (g : Good ps (pre ++ [q]) cp) (h0 : 0 < ps) {low : Nat} {is : List Nat} {gs gs' : List (Glimpse V)}
    {rest' : List (List V)} (hgs : gs = cp.map (look (mkS ps al (pre ++ [q]) cp rest' sc sr)))
    (hlow : low ≤ (cont pre q).length) (h : Removed ps (cont pre q) low is gs') :
    Removed ps (cont (pre ++ [q]) cp) low (List.range' ((pre ++ [q]).length * ps) cp.length ++ is) (gs ++ gs') := by
  have g' := g.pop_cross h0
  have hp := removed_page (al := al) (rest := rest') (sc := sc) (sr := sr) g h0 0
  rw [Nat.add_zero, Nat.sub_zero, List.drop_zero] at hp
  have hq : q.length = ps := g.full q (by simp)
  have hl : (cont pre q).length = (pre ++ [q]).length * ps := by rw [g'.len, hq, List.length_append, List.length_singleton, Nat.add_mul]; omega
  have e : (cont (pre ++ [q]) cp).length = (cont pre q).length + cp.length := by simp [cont]; omega
  subst hgs
  refine ⟨hp.ran.append (h.ran.imp (fun i gl hi hf => finds_prefix g h0 ((h.which i).1 hi).2 hf)), ?_, ?_⟩
  · intro i
    rw [List.mem_append, h.which i, hp.which i]
    omega
  · rw [List.pairwise_append]
    refine ⟨hp.order, h.order, ?_⟩
    intro a ha b hb
    left
    have h1 := (hp.which a).1 ha
    have h2 := (h.which b).1 hb
    rw [hl] at h2
    have : b / ps < (pre ++ [q]).length := (Nat.div_lt_iff_lt_mul h0).2 h2.2
    have : (pre ++ [q]).length ≤ a / ps := (Nat.le_div_iff_mul_le h0).2 h1.1
    omega

/-- The state left behind is that of the plain model. -/
theorem discardAt_fst : ∀ (c : Nat) (s : PS V) (count : Nat), s.cur = c →
    (discardAt c s count).map Prod.fst = (discardLoop s.base c count).map (fun r => { s with base := r.1, cur := r.2 })
  | 0, s, count, hc => by
    unfold discardAt discardLoop eraseFrom PS.page
    rw [hc]
    cases hb : s.base[0]? with
    | none => rfl
    | some p =>
      simp only [bind_ok]
      split
      · simp [Except.map, PS.setPage, hc]
      · simp [Except.map, PS.setPage, hc]
  | c + 1, s, count, hc => by
    unfold discardAt discardLoop eraseFrom PS.page
    rw [hc]
    cases hb : s.base[c + 1]? with
    | none => rfl
    | some p =>
      simp only [bind_ok]
      split
      · have ih := discardAt_fst c { s.setPage (c + 1) (p.take 0) with cur := c } (count - p.length) rfl
        simp only [List.take_zero] at ih ⊢
        simp only [PS.setPage] at ih ⊢
        cases hd : discardAt c { s with base := s.base.set (c + 1) [], cur := c } (count - p.length) with
        | error f => rw [hd] at ih; simp only [bind_err]; rw [← ih]; try rfl
        | ok r => rw [hd] at ih; simp only [bind_ok]; rw [← ih]; try rfl
      · simp [Except.map, PS.setPage, hc]

theorem clearAt_fst : ∀ (c : Nat) (s : PS V), s.cur = c → c < s.base.length →
    (clearAt c s).map Prod.fst = .ok { s with base := clearLoop s.base c, cur := 0 }
  | 0, s, hc, hl => by
    unfold clearAt clearLoop PS.page
    rw [hc, List.getElem?_eq_getElem hl]
    cases s; simp_all [Except.map]
  | c + 1, s, hc, hl => by
    unfold clearAt clearLoop eraseFrom PS.page
    rw [hc, List.getElem?_eq_getElem hl]
    simp only [bind_ok]
    have ih := clearAt_fst c { s.setPage (c + 1) (s.base[c + 1].take 0) with cur := c } rfl (by simp [PS.setPage]; omega)
    simp only [List.take_zero, PS.setPage] at ih ⊢
    cases hd : clearAt c { s with base := s.base.set (c + 1) [], cur := c } with
    | error f => rw [hd] at ih; cases ih
    | ok r => rw [hd] at ih; simp only [bind_ok]; rw [← ih]; rfl

theorem discardAt_removed (h0 : 0 < ps) : ∀ (pre : List (List V)) (cp : List V) (rest : List (List V)) (n : Nat), Good ps pre cp →
    n ≤ (cont pre cp).length → ∃ s' gs is, discardAt pre.length (mkS ps al pre cp rest sc sr) n = .ok (s', gs) ∧
      Removed ps (cont pre cp) ((cont pre cp).length - n) is gs := by
  intro pre
  induction pre using List.reverseRecOn with
  | nil =>
    intro cp rest n g hn
    have e : (cont ([] : List (List V)) cp) = cp := by simp [cont]
    rw [e] at hn
    have hr := removed_page (al := al) (rest := rest) (sc := sc) (sr := sr) g h0 (cp.length - n)
    rw [List.length_nil, Nat.zero_mul, Nat.zero_add] at hr
    rw [List.length_nil, discardAt]
    rw [show (mkS ps al ([] : List (List V)) cp rest sc sr).page (mkS ps al ([] : List (List V)) cp rest sc sr).cur = .ok cp from mkS_page, bind_ok]
    split
    · have : n = cp.length := by omega
      subst this
      rw [Nat.sub_self] at hr
      have h00 : (cont ([] : List (List V)) cp).length - cp.length = 0 := by simp [cont]
      rw [h00]
      exact ⟨_, _, _, eraseFrom_mk 0, hr⟩
    · rw [show (cont ([] : List (List V)) cp).length - n = cp.length - n by rw [e]]
      exact ⟨_, _, _, eraseFrom_mk _, hr⟩
  | append_singleton pre q ih =>
    intro cp rest n g hn
    have g' := g.pop_cross h0
    have hlen : (cont (pre ++ [q]) cp).length = (cont pre q).length + cp.length := by simp [cont]; omega
    rw [show (pre ++ [q]).length = pre.length + 1 by simp]
    rw [discardAt]
    rw [mkS_cur, mkS_page, bind_ok]
    split
    · rename_i hge
      rw [eraseFrom_mk, bind_ok]
      have est : ({ mkS ps al (pre ++ [q]) (cp.take 0) rest sc sr with cur := pre.length } : PS V) = mkS ps al pre q ([] :: rest) sc sr := by
        simp [mkS]
      dsimp only
      rw [est]
      obtain ⟨s', gs, is, h1, h2⟩ := ih q ([] :: rest) (n - cp.length) g' (by omega)
      rw [h1, bind_ok]
      rw [hlen, show (cont pre q).length + cp.length - n = (cont pre q).length - (n - cp.length) by omega]
      exact ⟨_, _, _, rfl, removed_more (al := al) (rest' := rest) (sc := sc) (sr := sr) g h0 (by simp) (by omega) h2⟩
    · rename_i hlt
      have hr := removed_page (al := al) (rest := rest) (sc := sc) (sr := sr) g h0 (cp.length - n)
      have : (cont (pre ++ [q]) cp).length - n = (pre ++ [q]).length * ps + (cp.length - n) := by rw [g.len]; omega
      rw [this]
      exact ⟨_, _, _, eraseFrom_mk _, hr⟩

theorem clearAt_removed (h0 : 0 < ps) : ∀ (pre : List (List V)) (cp : List V) (rest : List (List V)), Good ps pre cp →
    ∃ s' gs is, clearAt pre.length (mkS ps al pre cp rest sc sr) = .ok (s', gs) ∧ Removed ps (cont pre cp) ps is gs := by
  intro pre
  induction pre using List.reverseRecOn with
  | nil =>
    intro cp rest g
    rw [List.length_nil, clearAt]
    rw [show (mkS ps al ([] : List (List V)) cp rest sc sr).page (mkS ps al ([] : List (List V)) cp rest sc sr).cur = .ok cp from mkS_page, bind_ok]
    refine ⟨_, _, [], rfl, .nil, ?_, .nil⟩
    intro i
    have := g.le
    simp [cont]; omega
  | append_singleton pre q ih =>
    intro cp rest g
    have g' := g.pop_cross h0
    rw [show (pre ++ [q]).length = pre.length + 1 by simp]
    rw [clearAt]
    rw [eraseFrom_mk, bind_ok]
    have est : ({ mkS ps al (pre ++ [q]) (cp.take 0) rest sc sr with cur := pre.length } : PS V) = mkS ps al pre q ([] :: rest) sc sr := by
      simp [mkS]
    dsimp only
    rw [est]
    obtain ⟨s', gs, is, h1, h2⟩ := ih q ([] :: rest) g'
    rw [h1, bind_ok]
    have hq : q.length = ps := g.full q (by simp)
    exact ⟨_, _, _, rfl, removed_more (al := al) (rest' := rest) (sc := sc) (sr := sr) g h0 (by simp) (by rw [g'.len]; omega) h2⟩

end Falcon.PSRemove
