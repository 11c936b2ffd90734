import Verif.Props.PSAlloc
/-
C124: when memory is there again, the stack can be pushed to again.
-/
namespace Falcon.PSAlloc
open Falcon.PagedStack (PS R contents BehavesLike mkS cont Good)
variable {α : Type}

theorem alloc_true {o : List Bool} (h : ∀ b ∈ o, b = true) : ∃ o', alloc o = (true, o') ∧ ∀ b ∈ o', b = true := by
  cases o with
  | nil => exact ⟨[], rfl, h⟩
  | cons b o =>
    have := h b List.mem_cons_self
    subst this
    exact ⟨o, rfl, fun b hb => h b (List.mem_cons_of_mem _ hb)⟩

theorem growBase_true (s : PSA α) (n : Nat) {o : List Bool} (h : ∀ b ∈ o, b = true) :
    ∃ s' o', growBase s o n = (s', o', true) ∧ ∀ b ∈ o', b = true := by
  induction n generalizing s o with
  | zero => exact ⟨s, o, rfl, h⟩
  | succ n ih =>
    unfold growBase
    obtain ⟨o1, e1, h1⟩ := alloc_true h
    rw [e1]
    dsimp only
    rw [if_neg (by simp)]
    by_cases hz : s.pageSize = 0
    · simp only [hz, if_true]
      exact ih _ h1
    · obtain ⟨o2, e2, h2⟩ := alloc_true h1
      simp only [hz, if_false, e2]
      exact ih _ h2

theorem push_true {s s' : PSA α} {x : α} {o o' : List Bool} (h : ∀ b ∈ o, b = true) : push s x o ≠ .ok (s', o', .badAlloc) := by
  have hb : ∀ (s : PSA α) (o : List Bool), (∀ b ∈ o, b = true) → pushBack s x o ≠ .ok (s', o', .badAlloc) := by
    intro s o h
    unfold pushBack
    split
    · exact nofun
    · split
      · intro e; simp at e
      · obtain ⟨o1, e1, -⟩ := alloc_true h
        rw [e1]
        intro e; simp at e
  unfold push advance
  cases s.page s.cur with
  | error e => exact nofun
  | ok p =>
    dsimp only
    by_cases h1 : p.items.length = s.pageSize
    · rw [if_pos h1]
      by_cases h2 : s.cur + 1 = s.base.length
      · rw [if_pos h2]
        obtain ⟨s1, o1, e1, g1⟩ := growBase_true s s.allocSize h
        rw [e1]
        exact hb _ _ g1
      · rw [if_neg h2]; exact hb _ _ h
    · rw [if_neg h1]; exact hb _ _ h

/-- Stacks a program can have after any history at all of pushes, whether they returned or threw `std::bad_alloc`, and pops that
were defined. -/
inductive Any (ps al : Nat) : PSA α → Prop where
  | init {o s o'} : init ps al o = some (s, o') → Any ps al s
  | push {s x o s' o' r} : Any ps al s → push s x o = .ok (s', o', r) → Any ps al s'
  | pop {s s'} : Any ps al s → popOne s = .ok s' → Any ps al s'

/-- the state a failed push can leave behind: the current page is empty, the pages below it are full -/
def Broken (ps al : Nat) (s : PSA α) : Prop :=
  ∃ pre k, toPS s = mkS ps al pre [] (List.replicate k []) 0 false ∧ pre ≠ [] ∧ ∀ p ∈ pre, p.length = ps

theorem broken_of {ps al : Nat} (h0 : 0 < ps) {s s' : PSA α} {t : StackSpec.St α} (r : R ps al (toPS s) t)
    (hne : t.items.length ≠ t.blocks * ps) (hp : PagedStack.pushThrowing (toPS s) = .ok (toPS s', .elementCopy)) :
    (∃ t, R ps al (toPS s') t) ∨ Broken ps al s' := by
  obtain ⟨pre, cp, k, e, g, hi, hb⟩ := id r
  have hit : (t.iters : Int) = 0 := by have := congrArg PS.syncCount e; exact this.symm
  have hpe : t.pending = false := by have := congrArg PS.shrinkReq e; exact this.symm
  rw [hit, hpe] at e
  rw [e] at hp
  by_cases hc : cp.length = ps
  · have hk : k ≠ 0 := by
      intro hk
      apply hne
      rw [hi, List.length_reverse, g.len, hb, hk]
      exact (g.full_iff h0 0).2 ⟨hc, rfl⟩
    obtain ⟨k, rfl⟩ : ∃ j, k = j + 1 := ⟨k - 1, by omega⟩
    have e1 : ({ mkS ps al pre cp ([] :: List.replicate k []) 0 false with cur := pre.length + 1 } : PS α)
        = mkS ps al (pre ++ [cp]) [] (List.replicate k []) 0 false := (PagedStack.mkS_step cp).symm
    have hadv : PagedStack.advance (mkS ps al pre cp ([] :: List.replicate k []) 0 false) =
        .ok (mkS ps al (pre ++ [cp]) [] (List.replicate k []) 0 false) := by
      rw [← e1]
      simp [PagedStack.advance, hc]
    simp only [List.replicate_succ, PagedStack.pushThrowing, hadv, PagedStack.bind_ok, PagedStack.mkS_cur, PagedStack.mkS_page] at hp
    simp only [Except.ok.injEq, Prod.mk.injEq, and_true] at hp
    refine .inr ⟨pre ++ [cp], k, hp.symm, by simp, ?_⟩
    intro p hm
    rcases List.mem_append.1 hm with h | h
    · exact g.full p h
    · rw [List.mem_singleton.1 h]; exact hc
  · have : PagedStack.pushThrowing (mkS ps al pre cp (List.replicate k []) 0 false) =
        .ok (mkS ps al pre cp (List.replicate k []) 0 false, .elementCopy) := by
      simp [PagedStack.pushThrowing, PagedStack.advance, hc]
    rw [this] at hp
    simp only [Except.ok.injEq, Prod.mk.injEq, and_true] at hp
    exact .inl ⟨t, by rw [← hp, ← e]; exact r⟩

theorem broken_push {ps al : Nat} (h0 : 0 < ps) {s : PSA α} (h : Broken ps al s) (x : α) (o : List Bool) :
    (∃ s' o' m t, push s x o = .ok (s', o', .done m) ∧ R ps al (toPS s') t ∧ t.items = x :: contents (toPS s)) ∨
    (∃ o', push s x o = .ok (s, o', .badAlloc)) := by
  obtain ⟨pre, k, e, hne, hf⟩ := h
  have hb := congrArg PS.base e
  have hc : s.cur = pre.length := congrArg PS.cur e
  have hps : s.pageSize = ps := congrArg PS.pageSize e
  simp only [toPS, mkS] at hb
  have hlt : s.cur < s.base.length := by
    have := congrArg List.length hb
    simp at this
    omega
  have hpg : s.page s.cur = .ok s.base[s.cur] := by unfold PSA.page; rw [List.getElem?_eq_getElem hlt]
  have hit : (s.base[s.cur]).items = [] := by
    have h1 := toPS_page s _ hpg
    generalize s.base[s.cur] = pg at h1 ⊢
    rw [e, hc] at h1
    have h2 := PagedStack.mkS_page (ps := ps) (al := al) (pre := pre) (cp := ([] : List α)) (rest := List.replicate k []) (sc := 0) (sr := false)
    rw [h2] at h1
    exact (Except.ok.inj h1).symm
  have hset : ∀ c, toPS { s with base := s.base.set s.cur ⟨(s.base[s.cur]).items ++ [x], c⟩ } =
      mkS ps al pre [x] (List.replicate k []) 0 false := by
    intro c
    have : toPS { s with base := s.base.set s.cur ⟨(s.base[s.cur]).items ++ [x], c⟩ } = (toPS s).setPage s.cur [x] := by
      rw [hit]; simp [toPS, PagedStack.PS.setPage, List.map_set]
    rw [this, e, hc]
    simp [PagedStack.PS.setPage, mkS]
  have g : Good ps pre [x] := ⟨hf, by show 1 ≤ ps; omega, by simp⟩
  have hR : ∀ c, ∃ t : StackSpec.St α, R ps al (toPS { s with base := s.base.set s.cur ⟨(s.base[s.cur]).items ++ [x], c⟩ }) t ∧
      t.items = x :: contents (toPS s) := by
    intro c
    refine ⟨⟨(cont pre [x]).reverse, pre.length + 1 + k, 0, false⟩, ⟨pre, [x], k, hset c, g, rfl, rfl⟩, ?_⟩
    rw [e, PagedStack.contents_mk]
    simp [cont]
  unfold push advance
  rw [hpg]
  dsimp only
  rw [if_neg (by rw [hit, hps]; simp; omega)]
  dsimp only
  unfold pushBack
  rw [hpg]
  dsimp only
  split
  · obtain ⟨t, ht, hx⟩ := hR (s.base[s.cur]).cap
    exact .inl ⟨_, _, _, t, rfl, ht, hx⟩
  · generalize alloc o = ra
    obtain ⟨b, o2⟩ := ra
    cases b with
    | true =>
      dsimp only
      obtain ⟨t, ht, hx⟩ := hR (if (s.base[s.cur]).cap = 0 then 1 else 2 * (s.base[s.cur]).cap)
      exact .inl ⟨_, _, _, t, rfl, ht, hx⟩
    | false => exact .inr ⟨_, rfl⟩

theorem Any.inv {ps al : Nat} (h0 : 0 < ps) (ha : 0 < al) {s : PSA α} (h : Any ps al s) :
    (∃ t, R ps al (toPS s) t) ∨ Broken ps al s := by
  induction h with
  | init h => exact .inl ⟨_, (init_R ha h).1⟩
  | @push s x o s' o' res _ hp ih =>
    rcases ih with ⟨t, r⟩ | hb
    · rcases push_cases h0 ha r x o with ⟨s2, o2, m2, e, r2, -⟩ | ⟨s2, o2, k, e, -, r2⟩ | ⟨s2, o2, e, hne, ht, -⟩ <;>
        rw [hp] at e <;> simp only [Except.ok.injEq, Prod.mk.injEq] at e <;> obtain ⟨rfl, -, -⟩ := e
      · exact .inl ⟨_, r2⟩
      · exact .inl ⟨_, r2⟩
      · exact broken_of h0 r hne ht
    · rcases broken_push h0 hb x o with ⟨s2, o2, m, t, e, r2, -⟩ | ⟨o2, e⟩ <;>
        rw [hp] at e <;> simp only [Except.ok.injEq, Prod.mk.injEq] at e <;> obtain ⟨rfl, -, -⟩ := e
      · exact .inl ⟨_, r2⟩
      · exact .inr hb
  | @pop s s' _ hp ih =>
    rcases ih with ⟨t, r⟩ | ⟨pre, k, e, -, -⟩
    · exact .inl (pop_R h0 ha r hp)
    · have := (popOne_sim hp).1
      rw [e] at this
      simp [PagedStack.popOne] at this

/-- C124 (later pushes): after any history at all of pushes, returning or throwing, and pops, a push that returns normally has
put its value on top of what was there, and leaves a stack that behaves like that. -/
theorem C124_success_always (ps al : Nat) (h0 : 0 < ps) (ha : 0 < al) (s : PSA α) (h : Any ps al s) (x : α)
    (o o' : List Bool) (s' : PSA α) (m : Bool) (hp : push s x o = .ok (s', o', .done m)) :
    contents (toPS s') = x :: contents (toPS s) ∧ BehavesLike ps al (toPS s') (x :: contents (toPS s)) := by
  have fin : ∀ t, R ps al (toPS s') t → t.items = x :: contents (toPS s) →
      contents (toPS s') = x :: contents (toPS s) ∧ BehavesLike ps al (toPS s') (x :: contents (toPS s)) := by
    intro t r hx
    have hc : contents (toPS s') = x :: contents (toPS s) := by rw [PagedStack.contents_of_R r, hx]
    exact ⟨hc, by rw [← hc]; exact PagedStack.behaves_of_Inv h0 ha (PagedStack.Inv_of_R r)⟩
  rcases h.inv h0 ha with ⟨t, r⟩ | hb
  · rcases push_cases h0 ha r x o with ⟨s2, o2, m2, e, r2, -⟩ | ⟨s2, o2, k, e, -, r2⟩ | ⟨s2, o2, e, hne, ht, -⟩ <;>
      rw [hp] at e <;> simp only [Except.ok.injEq, Prod.mk.injEq, reduceCtorEq, and_false] at e
    obtain ⟨rfl, -, -⟩ := e
    exact fin _ r2 (by rw [PagedStack.contents_of_R r]; rfl)
  · rcases broken_push h0 hb x o with ⟨s2, o2, m, t, e, r2, hx⟩ | ⟨o2, e⟩ <;>
      rw [hp] at e <;> simp only [Except.ok.injEq, Prod.mk.injEq, reduceCtorEq, and_false] at e
    obtain ⟨rfl, -, -⟩ := e
    exact fin t r2 hx

/-- C124 (later pushes): whatever the history, no push loses an element or does anything undefined, and as soon as the allocations
succeed again a push returns normally. -/
theorem C124_memory_back (ps al : Nat) (h0 : 0 < ps) (ha : 0 < al) (s : PSA α) (h : Any ps al s) (x : α) (o : List Bool) :
    ∃ s' o' r, push s x o = .ok (s', o', r) ∧ (r = .badAlloc → contents (toPS s') = contents (toPS s)) ∧
      ((∀ b ∈ o, b = true) → ∃ m, r = .done m) := by
  have key : ∃ s' o' r, push s x o = .ok (s', o', r) ∧ (r = .badAlloc → contents (toPS s') = contents (toPS s)) := by
    rcases h.inv h0 ha with ⟨t, r⟩ | hb
    · rcases push_cases h0 ha r x o with ⟨s2, o2, m2, e, r2, -⟩ | ⟨s2, o2, k, e, -, r2⟩ | ⟨s2, o2, e, hne, ht, -⟩
      · exact ⟨_, _, _, e, nofun⟩
      · exact ⟨_, _, _, e, fun _ => by rw [PagedStack.contents_of_R r, PagedStack.contents_of_R r2]⟩
      · obtain ⟨s3, e3, c3, -⟩ := PagedStack.pushThrowing_exact h0 ha (PagedStack.Inv_of_R r)
        rw [ht] at e3
        simp only [Except.ok.injEq, Prod.mk.injEq, and_true] at e3
        exact ⟨_, _, _, e, fun _ => by rw [e3]; exact c3⟩
    · rcases broken_push h0 hb x o with ⟨s2, o2, m, t, e, r2, hx⟩ | ⟨o2, e⟩
      · exact ⟨_, _, _, e, nofun⟩
      · exact ⟨_, _, _, e, fun _ => rfl⟩
  obtain ⟨s', o', r, e, hc⟩ := key
  refine ⟨s', o', r, e, hc, fun ho => ?_⟩
  cases r with
  | done m => exact ⟨m, rfl⟩
  | badAlloc => exact absurd e (push_true ho)

theorem not_behaves_empty_page {ps al : Nat} (h0 : 0 < ps) {pre : List (List α)} {rest : List (List α)} {sc : Int} {sr : Bool}
    (hne : pre ≠ []) (hf : ∀ p ∈ pre, p.length = ps) :
    ¬ BehavesLike ps al (mkS ps al pre [] rest sc sr) (contents (mkS ps al pre [] rest sc sr)) := by
  intro hb
  rw [PagedStack.contents_mk] at hb
  rcases PagedStack.nil_or_snoc (cont pre []) with e' | ⟨c, x, e'⟩
  · obtain ⟨p, hp⟩ := List.exists_mem_of_ne_nil _ hne
    have h1 : p = [] := by
      have : pre.flatten = [] := by simpa [cont] using e'
      exact List.flatten_eq_nil_iff.1 this p hp
    have := hf p hp
    rw [h1] at this
    simp at this
    omega
  · obtain ⟨s'', h1, -⟩ := hb [.top] (t := _) (os := [.val x]) (by
      simp [StackSpec.run, StackSpec.step, e']; rfl)
    simp [PagedStack.run, PagedStack.step, PagedStack.top_mk] at h1

/-- C124, exact for every history: take a stack after any history of pushes and pops that still behaves as holding what it
holds. A failed push leaves the elements as they were, and the stack still behaves as holding them exactly when it is
empty, or its topmost page is not full, or every page it has is full. -/
theorem C124_exact_always_partial (ps al : Nat) (h0 : 0 < ps) (ha : 0 < al) (s : PSA α)
    (h : Any ps al s) (hb : BehavesLike ps al (toPS s) (contents (toPS s))) (x : α) (o o' : List Bool) (s' : PSA α)
    (hp : push s x o = .ok (s', o', .badAlloc)) :
    contents (toPS s') = contents (toPS s) ∧
    (BehavesLike ps al (toPS s') (contents (toPS s)) ↔
      (contents (toPS s)).length = 0 ∨ (contents (toPS s)).length % ps ≠ 0 ∨
      (contents (toPS s)).length = s.base.length * ps) := by
  obtain ⟨t, r⟩ : ∃ t, R ps al (toPS s) t := by
    rcases h.inv h0 ha with h | ⟨pre, k, e, hne, hf⟩
    · exact h
    · rw [e] at hb
      exact absurd hb (not_behaves_empty_page h0 hne hf)
  have hbl := base_len r
  rcases push_cases h0 ha r x o with ⟨s2, o2, m2, e, -⟩ | ⟨s2, o2, k, e, hf, r2⟩ | ⟨s2, o2, e, hnf, ht, -⟩
  · rw [hp] at e; simp at e
  · rw [hp] at e
    simp only [Except.ok.injEq, Prod.mk.injEq] at e
    obtain ⟨rfl, -, -⟩ := e
    have hc : contents (toPS s') = contents (toPS s) := by
      rw [PagedStack.contents_of_R r2, PagedStack.contents_of_R r]
    refine ⟨hc, fun _ => Or.inr (Or.inr ?_), fun _ => ?_⟩
    · rw [PagedStack.contents_of_R r, hf, hbl]
    · rw [← hc]; exact PagedStack.behaves_of_Inv h0 ha (PagedStack.Inv_of_R r2)
  · rw [hp] at e
    simp only [Except.ok.injEq, Prod.mk.injEq] at e
    obtain ⟨rfl, -, -⟩ := e
    obtain ⟨s3, e3, c3, b3⟩ := PagedStack.pushThrowing_exact h0 ha (PagedStack.Inv_of_R r)
    rw [ht] at e3
    simp only [Except.ok.injEq, Prod.mk.injEq, and_true] at e3
    subst e3
    refine ⟨c3, b3.trans ?_⟩
    unfold PagedStack.cleanRemainder
    have : (contents (toPS s)).length ≠ s.base.length * ps := by
      rw [PagedStack.contents_of_R r, ← hbl]; exact hnf
    constructor
    · rintro (h | h)
      · exact Or.inl h
      · exact Or.inr (Or.inl h)
    · rintro (h | h | h)
      · exact Or.inl h
      · exact Or.inr h
      · exact absurd h this

/-- non-vacuity: the history of C124_out_of_memory_refuted, after which top() is undefined; the next push that finds memory
makes everything right again -/
example : ∃ s : PSA Nat, Any 1 1 s ∧ contents (toPS s) = [7] ∧ PagedStack.top (toPS s) = .error (.ub .emptyBack) ∧
    ∃ s' o' m, push s 9 [true] = .ok (s', o', .done m) ∧ contents (toPS s') = [9, 7] ∧ PagedStack.top (toPS s') = .ok 9 :=
  ⟨_, .push (x := 8) (o := [false]) (.push (x := 8) (o := [true, false]) (.push (x := 7) (o := []) (.init (o := []) rfl) rfl) rfl) rfl,
    rfl, rfl, _, _, _, rfl, rfl, rfl⟩
end Falcon.PSAlloc

namespace Falcon.PagedStack
variable {α : Type}

/-- `n` pushes in a row whose element copy throws -/
def throwing : Nat → PS α → Res (PS α)
  | 0,     s => .ok s
  | n + 1, s => match pushThrowing s with
    | .error e => .error e
    | .ok (s, _) => throwing n s

theorem throwing_still {s : PS α} (h : pushThrowing s = .ok (s, .elementCopy)) (n : Nat) : throwing n s = .ok s := by
  induction n with
  | zero => rfl
  | succ n ih => rw [throwing, h]; exact ih

/-- C22 (afterwards): however many pushes in a row threw because the element could not be copied, the next one whose copy
succeeds puts its value on top of what was there and leaves a stack that behaves like that. -/
theorem C22_next_push (ps al : Nat) (h0 : 0 < ps) (ha : 0 < al) (s : PS α) (h : Reach ps al s) (n : Nat) (x : α) :
    ∃ s1 s2, throwing n s = .ok s1 ∧ contents s1 = contents s ∧ push s1 x = .ok s2 ∧
      contents s2 = x :: contents s ∧ BehavesLike ps al s2 (x :: contents s) := by
  have hi := h.inv h0 ha
  have fin : ∀ s2, Inv ps al s2 → contents s2 = x :: contents s →
      contents s2 = x :: contents s ∧ BehavesLike ps al s2 (x :: contents s) :=
    fun s2 h2 hc => ⟨hc, by rw [← hc]; exact behaves_of_Inv h0 ha h2⟩
  have plain : ∃ s2, push s x = .ok s2 ∧ contents s2 = x :: contents s ∧ BehavesLike ps al s2 (x :: contents s) := by
    obtain ⟨s2, e2, r2⟩ := R_push h0 ha (R_of_Inv hi) x
    exact ⟨s2, e2, fin s2 (Inv_of_R r2) (by rw [contents_of_R r2]; rfl)⟩
  cases n with
  | zero =>
    obtain ⟨s2, e2, h2⟩ := plain
    exact ⟨s, s2, rfl, rfl, e2, h2⟩
  | succ n =>
    obtain ⟨pre, cp, k, m, sr, rfl, g⟩ := id hi
    by_cases hc : cp.length = ps
    · have key : ∃ j, pushThrowing (mkS ps al pre cp (List.replicate k []) m sr)
          = .ok (mkS ps al (pre ++ [cp]) [] (List.replicate j []) m sr, .elementCopy) := by
        cases k with
        | zero =>
          obtain ⟨a, rfl⟩ : ∃ a, al = a + 1 := ⟨al - 1, by omega⟩
          refine ⟨a, ?_⟩
          have e1 : advance (mkS ps (a + 1) pre cp [] m sr)
              = .ok (mkS ps (a + 1) (pre ++ [cp]) [] (List.replicate a []) m sr) := by
            simp only [advance, mkS_cur, mkS_page, bind_ok, mkS_ps, hc, if_true]
            simp [growBase, mkS, List.replicate_succ]
          rw [show List.replicate 0 ([] : List α) = [] from rfl]
          simp only [pushThrowing, e1, bind_ok, mkS_cur, mkS_page]
        | succ k =>
          refine ⟨k, ?_⟩
          have e1 : advance (mkS ps al pre cp ([] :: List.replicate k []) m sr)
              = .ok (mkS ps al (pre ++ [cp]) [] (List.replicate k []) m sr) := by
            have e : ({ mkS ps al pre cp ([] :: List.replicate k []) m sr with cur := pre.length + 1 } : PS α)
              = mkS ps al (pre ++ [cp]) [] (List.replicate k []) m sr := (mkS_step cp).symm
            simp [advance, hc, ← e]
          simp only [List.replicate_succ, pushThrowing, e1, bind_ok, mkS_cur, mkS_page]
      obtain ⟨j, e⟩ := key
      have still : pushThrowing (mkS ps al (pre ++ [cp]) [] (List.replicate j []) m sr)
          = .ok (mkS ps al (pre ++ [cp]) [] (List.replicate j []) m sr, .elementCopy) := by
        generalize pre ++ [cp] = q
        have : ¬ (0 = ps) := by omega
        simp [pushThrowing, advance, this]
      have hfull : ∀ p ∈ pre ++ [cp], p.length = ps := by
        intro p hm
        rcases List.mem_append.1 hm with h | h
        · exact g.full p h
        · rw [List.mem_singleton.1 h]; exact hc
      refine ⟨_, mkS ps al (pre ++ [cp]) ([] ++ [x]) (List.replicate j []) m sr, by
        rw [throwing, e]; exact throwing_still still n, ?_, push_room x (by simp; omega), ?_⟩
      · rw [contents_mk, contents_mk]; simp [cont]
      · refine fin _ ⟨pre ++ [cp], [x], j, m, sr, rfl, hfull, by show 1 ≤ ps; omega, by simp⟩ ?_
        rw [contents_mk, contents_mk]; simp [cont]
    · have e : pushThrowing (mkS ps al pre cp (List.replicate k []) m sr)
          = .ok (mkS ps al pre cp (List.replicate k []) m sr, .elementCopy) := by
        simp [pushThrowing, advance, hc]
      obtain ⟨s2, e2, h2⟩ := plain
      exact ⟨_, s2, throwing_still e (n + 1), rfl, e2, h2⟩

/-- non-vacuity: two throwing pushes on a stack with one full page of two; then a push -/
example : ∃ s : PS Nat, Reach 2 1 s ∧ contents s = [6, 5] ∧ ∃ s1 s2, throwing 2 s = .ok s1 ∧ top s1 = .error (.ub .emptyBack) ∧
    push s1 7 = .ok s2 ∧ contents s2 = [7, 6, 5] ∧ top s2 = .ok 7 :=
  ⟨mkS 2 1 [] [5, 6] [] 0 false, .call (o := .unit) (.push 6) (.call (o := .unit) (.push 5) .init (by simp) rfl) (by simp) rfl, rfl,
    mkS 2 1 [[5, 6]] [] [] 0 false, mkS 2 1 [[5, 6]] [7] [] 0 false, rfl, rfl, rfl, rfl, rfl⟩

end Falcon.PagedStack
