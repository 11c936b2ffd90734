import Verif.Model.PSAlloc
import Verif.Props.PagedStack
/-
C124, C125: PagedStack when memory runs out.
-/
namespace Falcon.PSAlloc
open Falcon.PagedStack (PS R Reach contents BehavesLike mkS cont Good)
variable {α : Type}

/-- Stacks a program can have as long as no call threw: any allocation outcomes, pushes that
returned normally, pops. -/
inductive Clean (ps al : Nat) : PSA α → Prop where
  | init {o s o'} : init ps al o = some (s, o') → Clean ps al s
  | push {s x o s' o' m} : Clean ps al s → push s x o = .ok (s', o', .done m) → Clean ps al s'
  | pop {s s'} : Clean ps al s → popOne s = .ok s' → Clean ps al s'

/-- Stacks a program can have when calls may have thrown `std::bad_alloc` any number of times, as
long as every failed push found no room at all (C124 shows what happens otherwise). -/
inductive Tried (ps al : Nat) : PSA α → Prop where
  | init {o s o'} : init ps al o = some (s, o') → Tried ps al s
  | push {s x o s' o' m} : Tried ps al s → push s x o = .ok (s', o', .done m) → Tried ps al s'
  | failed {s x o s' o'} : Tried ps al s → push s x o = .ok (s', o', .badAlloc) →
      (contents (toPS s)).length = s.base.length * ps → Tried ps al s'
  | pop {s s'} : Tried ps al s → popOne s = .ok s' → Tried ps al s'

/-! helper lemmas -/

/-- every page has its full capacity -/
def Full (s : PSA α) : Prop := ∀ p ∈ s.base, p.cap = s.pageSize

theorem growBase_spec (s : PSA α) (n : Nat) (o : List Bool) :
    (∃ o' m, growBase s o n = ({ s with base := s.base ++ List.replicate m ⟨[], s.pageSize⟩ }, o', false) ∧ m < n) ∨
    (∃ o' m, growBase s o n = ({ s with base := s.base ++ List.replicate m ⟨[], s.pageSize⟩ ++ [⟨[], 0⟩] }, o', false) ∧ m < n) ∨
    (∃ o', growBase s o n = ({ s with base := s.base ++ List.replicate n ⟨[], s.pageSize⟩ }, o', true)) := by
  induction n generalizing s o with
  | zero => right; right; exact ⟨o, by simp [growBase]⟩
  | succ n ih =>
    unfold growBase
    generalize ha : alloc o = r1
    obtain ⟨b1, o1⟩ := r1
    dsimp only
    cases b1 with
    | false => left; exact ⟨o1, 0, by simp, by omega⟩
    | true =>
      rw [if_neg (by simp)]
      generalize hb : (if s.pageSize = 0 then (true, o1) else alloc o1) = r2
      obtain ⟨b2, o2⟩ := r2
      dsimp only
      cases b2 with
      | false => right; left; exact ⟨o2, 0, by simp, by omega⟩
      | true =>
        rw [if_neg (by simp)]
        rcases ih { s with base := s.base ++ [⟨[], s.pageSize⟩] } o2 with ⟨o', m, e, hm⟩ | ⟨o', m, e, hm⟩ | ⟨o', e⟩
        · left; exact ⟨o', m + 1, by rw [e]; simp [List.replicate_succ], by omega⟩
        · right; left; exact ⟨o', m + 1, by rw [e]; simp [List.replicate_succ], by omega⟩
        · right; right; exact ⟨o', by rw [e]; simp [List.replicate_succ]⟩

theorem toPS_page (s : PSA α) (p : Page α) (h : s.page s.cur = .ok p) : (toPS s).page s.cur = .ok p.items := by
  unfold PSA.page at h
  unfold PagedStack.PS.page toPS
  simp only [List.getElem?_map]
  cases hb : s.base[s.cur]? with
  | none => rw [hb] at h; exact nomatch h
  | some q => rw [hb] at h; obtain rfl := Except.ok.inj h; rfl

theorem page_ok {s : PSA α} {ps al : Nat} {t : StackSpec.St α} (r : R ps al (toPS s) t) :
    ∃ p, s.page s.cur = .ok p ∧ s.base[s.cur]? = some p := by
  obtain ⟨pre, cp, k, e, -, -, -⟩ := r
  have hb := congrArg PS.base e
  have hc := congrArg PS.cur e
  simp only [toPS, mkS] at hb hc
  have hlt : s.cur < s.base.length := by
    have := congrArg List.length hb
    simp at this
    omega
  exact ⟨s.base[s.cur], by unfold PSA.page; rw [List.getElem?_eq_getElem hlt], List.getElem?_eq_getElem hlt⟩

/-- the three ways a push can go, seen through the ideal stack -/
theorem push_cases {ps al : Nat} (h0 : 0 < ps) (ha : 0 < al) {s : PSA α} {t : StackSpec.St α}
    (r : R ps al (toPS s) t) (x : α) (o : List Bool) :
    (∃ s' o' m, push s x o = .ok (s', o', .done m) ∧ R ps al (toPS s') (StackSpec.push ps al t x) ∧
      (Full s → m = false ∧ Full s')) ∨
    (∃ s' o' k, push s x o = .ok (s', o', .badAlloc) ∧ t.items.length = t.blocks * ps ∧
      R ps al (toPS s') { t with blocks := t.blocks + k }) ∨
    (∃ s' o', push s x o = .ok (s', o', .badAlloc) ∧ t.items.length ≠ t.blocks * ps ∧
      PagedStack.pushThrowing (toPS s) = .ok (toPS s', .elementCopy) ∧
      ∃ q ∈ s.base, q.cap ≠ s.pageSize) := by
  obtain ⟨p, hp, hpb⟩ := page_ok r
  obtain ⟨ps', er, r'⟩ := PagedStack.R_push h0 ha r x
  have hps : s.pageSize = ps := by obtain ⟨_, _, _, e, -⟩ := r; exact congrArg PS.pageSize e
  have hal : s.allocSize = al := by obtain ⟨_, _, _, e, -⟩ := r; exact congrArg PS.allocSize e
  have hpage : (toPS s).page (toPS s).cur = .ok p.items := toPS_page s p hp
  have hblocks : t.blocks = s.base.length := by
    obtain ⟨pre, cp, k, e, -, -, hb⟩ := r
    have := congrArg (fun q => q.base.length) e
    simp [toPS, mkS] at this
    omega
  -- full iff the last page is full
  have hfull : (p.items.length = ps ∧ s.cur + 1 = s.base.length) ↔ t.items.length = t.blocks * ps := by
    obtain ⟨pre, cp, k, e, g, hi, hb⟩ := r
    have hc := congrArg PS.cur e
    have hbb := congrArg (fun q => q.base.length) e
    rw [e] at hpage
    simp only [PagedStack.mkS_cur, PagedStack.mkS_page] at hpage
    have hcp := Except.ok.inj hpage
    simp only [toPS, mkS] at hc hbb
    simp at hbb
    rw [hi, List.length_reverse, g.len, hb, ← hcp, g.full_iff h0 k]
    constructor
    · rintro ⟨a, b⟩; exact ⟨a, by omega⟩
    · rintro ⟨a, b⟩; exact ⟨a, by omega⟩
  -- the state in which `push_back` runs
  have hback : ∀ (s1 : PSA α) (o1 : List Bool), PagedStack.advance (toPS s) = .ok (toPS s1) →
      (∀ q ∈ s1.base, q ∈ s.base ∨ q.cap = s.pageSize) → s1.pageSize = s.pageSize →
      (∃ q, s1.page s1.cur = .ok q ∧ q.items.length < ps) →
      t.items.length ≠ t.blocks * ps ∨ (∃ q, s1.page s1.cur = .ok q ∧ q.cap = ps) →
      (∃ s' o' m, pushBack s1 x o1 = .ok (s', o', .done m) ∧ R ps al (toPS s') (StackSpec.push ps al t x) ∧
        (Full s → m = false ∧ Full s')) ∨
      (∃ s' o', pushBack s1 x o1 = .ok (s', o', .badAlloc) ∧ t.items.length ≠ t.blocks * ps ∧
        PagedStack.pushThrowing (toPS s) = .ok (toPS s', .elementCopy) ∧ ∃ q ∈ s.base, q.cap ≠ s.pageSize) := by
    intro s1 o1 hadv hsub hps1 ⟨q, hq, hqlt⟩ hor
    have hq' : (toPS s1).page (toPS s1).cur = .ok q.items := toPS_page s1 q hq
    have hpush : ps' = (toPS s1).setPage (toPS s1).cur (q.items ++ [x]) := by
      simp only [PagedStack.push, PagedStack.pushBack, hadv, PagedStack.bind_ok, hq'] at er
      exact (Except.ok.inj er).symm
    have hset : ∀ c, toPS { s1 with base := s1.base.set s1.cur ⟨q.items ++ [x], c⟩ } = ps' := by
      intro c; rw [hpush]; simp [toPS, PagedStack.PS.setPage, List.map_set]
    have hmem : q ∈ s1.base := by
      unfold PSA.page at hq
      cases hb : s1.base[s1.cur]? with
      | none => rw [hb] at hq; exact nomatch hq
      | some q2 =>
        rw [hb] at hq; obtain rfl := Except.ok.inj hq
        exact List.mem_of_getElem? hb
    unfold pushBack
    rw [hq]
    dsimp only
    by_cases hcap : q.items.length < q.cap
    · rw [if_pos hcap]
      left
      refine ⟨_, _, _, rfl, by rw [hset]; exact r', fun hf => ⟨rfl, ?_⟩⟩
      intro q2 hq2
      rcases List.mem_or_eq_of_mem_set hq2 with h | h
      · show q2.cap = s1.pageSize
        rcases hsub q2 h with h | h
        · rw [hf q2 h, hps1]
        · rw [h, hps1]
      · rw [h]
        show q.cap = s1.pageSize
        rcases hsub q hmem with h | h
        · rw [hf q h, hps1]
        · rw [h, hps1]
    · rw [if_neg hcap]
      generalize hal2 : alloc o1 = ra
      obtain ⟨b, o2⟩ := ra
      cases b with
      | true =>
        left
        refine ⟨_, _, _, rfl, by rw [hset]; exact r', fun hf => ?_⟩
        exfalso
        apply hcap
        rcases hsub q hmem with h | h
        · rw [hf q h, hps]; exact hqlt
        · rw [h, hps]; exact hqlt
      | false =>
        right
        have hqcap : q.cap ≠ ps := by omega
        have hne : t.items.length ≠ t.blocks * ps := by
          rcases hor with h | ⟨q2, h1, h2⟩
          · exact h
          · rw [hq] at h1; obtain rfl := Except.ok.inj h1; exact absurd h2 hqcap
        refine ⟨_, _, rfl, hne, ?_, ?_⟩
        · simp only [PagedStack.pushThrowing, hadv, PagedStack.bind_ok, hq']
        · rcases hsub q hmem with h | h
          · exact ⟨q, h, by rw [hps]; exact hqcap⟩
          · exact absurd (h.trans hps) hqcap
  unfold push advance
  rw [hp]
  dsimp only
  by_cases hlen : p.items.length = s.pageSize
  · rw [if_pos hlen]
    by_cases hlast : s.cur + 1 = s.base.length
    · rw [if_pos hlast]
      have hfu : t.items.length = t.blocks * ps := hfull.1 ⟨by rw [← hps]; exact hlen, hlast⟩
      have hgr : ∀ l : List (Page α), (∀ q ∈ l, q.items = []) →
          R ps al (toPS { s with base := s.base ++ l }) { t with blocks := t.blocks + l.length } := by
        intro l hl
        obtain ⟨pre, cp, k, e, g, hi, hb⟩ := r
        refine ⟨pre, cp, k + l.length, ?_, g, hi, by show t.blocks + l.length = _; omega⟩
        have hl' : l.map Page.items = List.replicate l.length [] := by
          clear hb e
          induction l with
          | nil => rfl
          | cons a l ih =>
            rw [List.map_cons, hl a List.mem_cons_self, ih (fun q hq => hl q (List.mem_cons_of_mem _ hq))]; rfl
        have hb1 := congrArg PS.base e
        have : toPS { s with base := s.base ++ l } = { toPS s with base := (toPS s).base ++ l.map Page.items } := by
          simp [toPS]
        rw [this, e, hl']
        simp only [mkS, PS.mk.injEq, true_and, and_true, List.append_assoc, List.cons_append]
        rw [← List.replicate_append_replicate]
      rcases growBase_spec s s.allocSize o with ⟨o', m, e, hm⟩ | ⟨o', m, e, hm⟩ | ⟨o', e⟩
      · right; left
        rw [e]
        refine ⟨_, _, m, rfl, hfu, ?_⟩
        have := hgr (List.replicate m ⟨[], s.pageSize⟩) (by intro q hq; rw [(List.mem_replicate.1 hq).2])
        rwa [List.length_replicate] at this
      · right; left
        rw [e]
        refine ⟨_, _, m + 1, rfl, hfu, ?_⟩
        have := hgr (List.replicate m ⟨[], s.pageSize⟩ ++ [⟨[], 0⟩]) (by
          intro q hq
          rcases List.mem_append.1 hq with hq | hq
          · rw [(List.mem_replicate.1 hq).2]
          · rw [List.mem_singleton.1 hq])
        simp only [List.length_append, List.length_replicate, List.length_singleton] at this
        rw [← List.append_assoc] at this
        exact this
      · rw [e]
        dsimp only
        have hnext : (s.base ++ List.replicate s.allocSize ⟨[], s.pageSize⟩)[s.cur + 1]? = some (⟨[], s.pageSize⟩ : Page α) := by
          rw [List.getElem?_append_right (by omega), hlast, Nat.sub_self, hal]
          obtain ⟨a, rfl⟩ : ∃ a, al = a + 1 := ⟨al - 1, by omega⟩
          rfl
        have hpg : ({ s with base := s.base ++ List.replicate s.allocSize ⟨[], s.pageSize⟩, cur := s.cur + 1 } : PSA α).page (s.cur + 1)
            = .ok ⟨[], s.pageSize⟩ := by unfold PSA.page; rw [hnext]
        have hadv : PagedStack.advance (toPS s) = .ok (toPS { s with
            base := s.base ++ List.replicate s.allocSize ⟨[], s.pageSize⟩, cur := s.cur + 1 }) := by
          have hlen' : p.items.length = (toPS s).pageSize := hlen
          have hlast' : (toPS s).cur + 1 = (toPS s).base.length := by simp [toPS]; exact hlast
          simp only [PagedStack.advance, hpage, PagedStack.bind_ok, hlen', hlast', if_true]
          simp [toPS, PagedStack.growBase, List.map_replicate]
        have hsub : ∀ q ∈ s.base ++ List.replicate s.allocSize (⟨[], s.pageSize⟩ : Page α),
            q ∈ s.base ∨ q.cap = s.pageSize := by
          intro q hq
          rcases List.mem_append.1 hq with hq | hq
          · exact Or.inl hq
          · right; rw [(List.mem_replicate.1 hq).2]
        rcases hback { s with base := s.base ++ List.replicate s.allocSize ⟨[], s.pageSize⟩, cur := s.cur + 1 } o' hadv
          hsub rfl ⟨_, hpg, by simpa using h0⟩ (Or.inr ⟨_, hpg, hps⟩) with h | ⟨_, _, _, hne, _⟩
        · left; exact h
        · exact absurd hfu hne
    · rw [if_neg hlast]
      have hnf : t.items.length ≠ t.blocks * ps := fun h => hlast (hfull.2 h).2
      have hlt : s.cur + 1 < s.base.length := by
        have := List.getElem?_eq_some_iff.1 hpb
        obtain ⟨h1, -⟩ := this
        omega
      have hpg : ({ s with cur := s.cur + 1 } : PSA α).page (s.cur + 1) = .ok s.base[s.cur + 1] := by
        unfold PSA.page; rw [List.getElem?_eq_getElem hlt]
      have hemp : (s.base[s.cur + 1]).items = [] := by
        obtain ⟨pre, cp, k, e, -, -, -⟩ := r
        have hb := congrArg PS.base e
        have hc := congrArg PS.cur e
        simp only [toPS, mkS] at hb hc
        have h1 : (s.base.map Page.items)[s.cur + 1]? = some (s.base[s.cur + 1]).items := by
          rw [List.getElem?_map, List.getElem?_eq_getElem hlt]; rfl
        generalize (s.base[s.cur + 1]).items = its at h1 ⊢
        rw [hb, hc, List.getElem?_append_right (by omega)] at h1
        rw [show pre.length + 1 - pre.length = 0 + 1 by omega, List.getElem?_cons_succ] at h1
        have := List.mem_of_getElem? h1
        exact (List.mem_replicate.1 this).2
      dsimp only
      have hadv : PagedStack.advance (toPS s) = .ok (toPS { s with cur := s.cur + 1 }) := by
        have hlen' : p.items.length = (toPS s).pageSize := hlen
        have hlast' : ¬ (toPS s).cur + 1 = (toPS s).base.length := by simp [toPS]; exact hlast
        simp only [PagedStack.advance, hpage, PagedStack.bind_ok]
        rw [if_pos hlen', if_neg hlast']
        rfl
      rcases hback { s with cur := s.cur + 1 } o hadv (fun q hq => Or.inl hq) rfl ⟨_, hpg, by rw [hemp]; exact h0⟩ (Or.inl hnf) with h | h
      · left; exact h
      · right; right; exact h
  · rw [if_neg hlen]
    dsimp only
    have hnf : t.items.length ≠ t.blocks * ps := fun h => hlen (by rw [hps]; exact (hfull.2 h).1)
    have hltp : p.items.length < ps := by
      obtain ⟨pre, cp, k, e, g, -, -⟩ := r
      rw [e] at hpage
      simp only [PagedStack.mkS_cur, PagedStack.mkS_page] at hpage
      have h9 := Except.ok.inj hpage
      have := g.le
      rw [h9] at this
      rw [hps] at hlen
      omega
    have hadv : PagedStack.advance (toPS s) = .ok (toPS s) := by
      have hlen' : ¬ p.items.length = (toPS s).pageSize := hlen
      simp only [PagedStack.advance, hpage, PagedStack.bind_ok]
      rw [if_neg hlen']
    rcases hback s o hadv (fun q hq => Or.inl hq) rfl ⟨p, hp, hltp⟩ (Or.inl hnf) with h | h
    · left; exact h
    · right; right; exact h


theorem popOne_sim {s s' : PSA α} (h : popOne s = .ok s') : PagedStack.popOne (toPS s) = .ok (toPS s') ∧
    (Full s → Full s') := by
  unfold popOne at h
  cases hp : s.page s.cur with
  | error e => rw [hp] at h; exact nomatch h
  | ok p =>
    rw [hp] at h
    dsimp only at h
    have hpage : (toPS s).page (toPS s).cur = .ok p.items := toPS_page s p hp
    have hmem : p ∈ s.base := by
      unfold PSA.page at hp
      cases hb : s.base[s.cur]? with
      | none => rw [hb] at hp; exact nomatch hp
      | some q2 =>
        rw [hb] at hp; obtain rfl := Except.ok.inj hp
        exact List.mem_of_getElem? hb
    have hfull : Full s → ∀ q ∈ s.base.set s.cur ⟨p.items.dropLast, p.cap⟩, q.cap = s.pageSize := by
      intro hf q hq
      rcases List.mem_or_eq_of_mem_set hq with h | h
      · exact hf q h
      · rw [h]; exact hf p hmem
    simp only [PagedStack.popOne, hpage, PagedStack.bind_ok]
    by_cases he : p.items = []
    · rw [if_pos he] at h; exact nomatch h
    · rw [if_neg he] at h ⊢
      by_cases hd : p.items.dropLast = [] ∧ s.cur ≠ 0
      · rw [if_pos hd] at h
        rw [if_pos (show p.items.dropLast = [] ∧ (toPS s).cur ≠ 0 from hd)]
        obtain rfl := Except.ok.inj h
        exact ⟨by simp [toPS, PagedStack.PS.setPage, List.map_set], hfull⟩
      · rw [if_neg hd] at h
        rw [if_neg (show ¬ (p.items.dropLast = [] ∧ (toPS s).cur ≠ 0) from hd)]
        obtain rfl := Except.ok.inj h
        exact ⟨by simp [toPS, PagedStack.PS.setPage, List.map_set], hfull⟩

theorem pop_R {ps al : Nat} (h0 : 0 < ps) (ha : 0 < al) {s s' : PSA α} {t : StackSpec.St α}
    (r : R ps al (toPS s) t) (h : popOne s = .ok s') : ∃ t', R ps al (toPS s') t' := by
  have hs := (popOne_sim h).1
  cases hi : t.items with
  | nil =>
    obtain ⟨pre, cp, k, e, g, hit, -⟩ := r
    have : cont pre cp = [] := by
      have := congrArg List.reverse (hit.symm.trans hi); simpa using this
    obtain ⟨rfl, rfl⟩ := g.cont_nil this
    rw [e] at hs
    exact nomatch hs
  | cons x xs =>
    obtain ⟨s2, e2, r2⟩ := PagedStack.R_step h0 ha r .pop (t' := { t with items := xs }) (o := .unit)
      (by simp [StackSpec.step, hi])
    simp only [PagedStack.step, hs, PagedStack.bind_ok, Except.ok.injEq, Prod.mk.injEq] at e2
    exact ⟨_, by rw [e2.1]; exact r2⟩

theorem init_R {ps al : Nat} (ha : 0 < al) {o o' : List Bool} {s : PSA α} (h : init ps al o = some (s, o')) :
    R ps al (toPS s) (StackSpec.init al) ∧ Full s := by
  unfold init at h
  rcases growBase_spec { pageSize := ps, allocSize := al, base := ([] : List (Page α)), cur := 0 } al o with
    ⟨o1, m, e, -⟩ | ⟨o1, m, e, -⟩ | ⟨o1, e⟩
  · rw [e] at h; exact nomatch h
  · rw [e] at h; exact nomatch h
  · rw [e] at h
    simp only [List.nil_append, Option.some.injEq, Prod.mk.injEq] at h
    obtain ⟨rfl, -⟩ := h
    constructor
    · have : toPS ({ pageSize := ps, allocSize := al, base := List.replicate al ⟨[], ps⟩, cur := 0 } : PSA α)
          = PagedStack.init ps al := by
        simp [toPS, PagedStack.init, PagedStack.growBase]
      rw [this]; exact PagedStack.R_init ha
    · intro q hq; rw [(List.mem_replicate.1 hq).2]

theorem Clean.inv {ps al : Nat} (h0 : 0 < ps) (ha : 0 < al) {s : PSA α} (h : Clean ps al s) :
    (∃ t, R ps al (toPS s) t) ∧ Full s := by
  induction h with
  | init h => exact ⟨⟨_, (init_R ha h).1⟩, (init_R ha h).2⟩
  | @push s x o s' o' m _ hp ih =>
    obtain ⟨⟨t, r⟩, f⟩ := ih
    rcases push_cases h0 ha r x o with ⟨s2, o2, m2, e, r2, hf⟩ | ⟨s2, o2, k, e, -⟩ | ⟨s2, o2, e, -⟩
    · rw [hp] at e
      simp only [Except.ok.injEq, Prod.mk.injEq] at e
      obtain ⟨rfl, -, -⟩ := e
      exact ⟨⟨_, r2⟩, (hf f).2⟩
    · rw [hp] at e; simp at e
    · rw [hp] at e; simp at e
  | pop _ hp ih =>
    obtain ⟨⟨t, r⟩, f⟩ := ih
    exact ⟨pop_R h0 ha r hp, (popOne_sim hp).2 f⟩

theorem base_len {ps al : Nat} {s : PSA α} {t : StackSpec.St α} (r : R ps al (toPS s) t) :
    t.blocks = s.base.length := by
  obtain ⟨pre, cp, k, e, -, -, hb⟩ := r
  have := congrArg (fun q => q.base.length) e
  simp [toPS, mkS] at this
  omega

theorem Tried.inv {ps al : Nat} (h0 : 0 < ps) (ha : 0 < al) {s : PSA α} (h : Tried ps al s) :
    ∃ t, R ps al (toPS s) t := by
  induction h with
  | init h => exact ⟨_, (init_R ha h).1⟩
  | @push s x o s' o' m _ hp ih =>
    obtain ⟨t, r⟩ := ih
    rcases push_cases h0 ha r x o with ⟨s2, o2, m2, e, r2, hf⟩ | ⟨s2, o2, k, e, -⟩ | ⟨s2, o2, e, -⟩
    · rw [hp] at e
      simp only [Except.ok.injEq, Prod.mk.injEq] at e
      obtain ⟨rfl, -, -⟩ := e
      exact ⟨_, r2⟩
    · rw [hp] at e; simp at e
    · rw [hp] at e; simp at e
  | @failed s x o s' o' _ hp hfull ih =>
    obtain ⟨t, r⟩ := ih
    rw [PagedStack.contents_of_R r, ← base_len r] at hfull
    rcases push_cases h0 ha r x o with ⟨s2, o2, m2, e, -⟩ | ⟨s2, o2, k, e, -, r2⟩ | ⟨s2, o2, e, hne, -⟩
    · rw [hp] at e; simp at e
    · rw [hp] at e
      simp only [Except.ok.injEq, Prod.mk.injEq] at e
      obtain ⟨rfl, -, -⟩ := e
      exact ⟨_, r2⟩
    · exact absurd hfull hne
  | pop _ hp ih =>
    obtain ⟨t, r⟩ := ih
    exact pop_R h0 ha r hp

/-! ### C124 -/

/-- C124 is false: pages of one element; the page that the first failed push was about to reserve
stays without memory, the next failed push moves to it, and `top()` of a stack holding one
element is undefined. -/
theorem C124_out_of_memory_refuted :
    ∃ s0 s1 s2 s3 : PSA Nat, ∃ o1 o2 o3,
      init 1 1 [] = some (s0, []) ∧ push s0 7 [] = .ok (s1, o1, .done false) ∧
      push s1 8 [true, false] = .ok (s2, o2, .badAlloc) ∧ push s2 8 [false] = .ok (s3, o3, .badAlloc) ∧
      contents (toPS s3) = [7] ∧ PagedStack.top (toPS s2) = .ok 7 ∧
      PagedStack.top (toPS s3) = .error (.ub .emptyBack) :=
  ⟨_, _, _, _, _, _, _, rfl, rfl, rfl, rfl, rfl, rfl, rfl⟩

/-- C124, the first failure is harmless: when no earlier call ran out of memory, a push that
throws `std::bad_alloc`, wherever the allocation fails, leaves a stack that holds and behaves as
holding exactly what it held. -/
theorem C124_first_failure_partial (ps al : Nat) (h0 : 0 < ps) (ha : 0 < al) (s : PSA α)
    (h : Clean ps al s) (x : α) (o o' : List Bool) (s' : PSA α)
    (hp : push s x o = .ok (s', o', .badAlloc)) :
    contents (toPS s') = contents (toPS s) ∧ BehavesLike ps al (toPS s') (contents (toPS s)) := by
  obtain ⟨⟨t, r⟩, f⟩ := h.inv h0 ha
  rcases push_cases h0 ha r x o with ⟨s2, o2, m2, e, -⟩ | ⟨s2, o2, k, e, -, r2⟩ | ⟨s2, o2, e, -, -, q, hq, hne⟩
  · rw [hp] at e; simp at e
  · rw [hp] at e
    simp only [Except.ok.injEq, Prod.mk.injEq] at e
    obtain ⟨rfl, -, -⟩ := e
    have hc : contents (toPS s') = contents (toPS s) := by
      rw [PagedStack.contents_of_R r2, PagedStack.contents_of_R r]
    exact ⟨hc, by rw [← hc]; exact PagedStack.behaves_of_Inv h0 ha (PagedStack.Inv_of_R r2)⟩
  · exact absurd (f q hq) hne

/-- C124, exact: after any number of failed pushes that found no room at all, one more failed push
leaves the elements as they were, and the stack behaves as holding them exactly when it is empty,
or its topmost page is not full, or every page it has is full. -/
theorem C124_exact_partial (ps al : Nat) (h0 : 0 < ps) (ha : 0 < al) (s : PSA α)
    (h : Tried ps al s) (x : α) (o o' : List Bool) (s' : PSA α)
    (hp : push s x o = .ok (s', o', .badAlloc)) :
    contents (toPS s') = contents (toPS s) ∧
    (BehavesLike ps al (toPS s') (contents (toPS s)) ↔
      (contents (toPS s)).length = 0 ∨ (contents (toPS s)).length % ps ≠ 0 ∨
      (contents (toPS s)).length = s.base.length * ps) := by
  obtain ⟨t, r⟩ := h.inv h0 ha
  have hb := base_len r
  rcases push_cases h0 ha r x o with ⟨s2, o2, m2, e, -⟩ | ⟨s2, o2, k, e, hf, r2⟩ | ⟨s2, o2, e, hnf, ht, -⟩
  · rw [hp] at e; simp at e
  · rw [hp] at e
    simp only [Except.ok.injEq, Prod.mk.injEq] at e
    obtain ⟨rfl, -, -⟩ := e
    have hc : contents (toPS s') = contents (toPS s) := by
      rw [PagedStack.contents_of_R r2, PagedStack.contents_of_R r]
    refine ⟨hc, fun _ => Or.inr (Or.inr ?_), fun _ => ?_⟩
    · rw [PagedStack.contents_of_R r, hf, hb]
    · rw [← hc]; exact PagedStack.behaves_of_Inv h0 ha (PagedStack.Inv_of_R r2)
  · rw [hp] at e
    simp only [Except.ok.injEq, Prod.mk.injEq] at e
    obtain ⟨rfl, -, -⟩ := e
    obtain ⟨s3, e3, c3, b3⟩ := PagedStack.pushThrowing_exact h0 ha (PagedStack.Inv_of_R r)
    rw [ht] at e3
    simp only [Except.ok.injEq, Prod.mk.injEq, and_true] at e3
    subst e3
    refine ⟨c3, b3.trans ?_⟩
    unfold PagedStack.cleanRemainder
    have : (contents (toPS s)).length ≠ s.base.length * ps := by
      rw [PagedStack.contents_of_R r, ← hb]; exact hnf
    constructor
    · rintro (h | h)
      · exact Or.inl h
      · exact Or.inr (Or.inl h)
    · rintro (h | h | h)
      · exact Or.inl h
      · exact Or.inr h
      · exact absurd h this

/-- C124: a push that returns normally has pushed, however often memory ran out before. -/
theorem C124_success (ps al : Nat) (h0 : 0 < ps) (ha : 0 < al) (s : PSA α)
    (h : Tried ps al s) (x : α) (o o' : List Bool) (s' : PSA α) (m : Bool)
    (hp : push s x o = .ok (s', o', .done m)) :
    contents (toPS s') = x :: contents (toPS s) ∧ BehavesLike ps al (toPS s') (x :: contents (toPS s)) := by
  obtain ⟨t, r⟩ := h.inv h0 ha
  rcases push_cases h0 ha r x o with ⟨s2, o2, m2, e, r2, -⟩ | ⟨s2, o2, k, e, -⟩ | ⟨s2, o2, e, -⟩
  · rw [hp] at e
    simp only [Except.ok.injEq, Prod.mk.injEq] at e
    obtain ⟨rfl, -, -⟩ := e
    have hc : contents (toPS s') = x :: contents (toPS s) := by
      rw [PagedStack.contents_of_R r2, PagedStack.contents_of_R r]; rfl
    exact ⟨hc, by rw [← hc]; exact PagedStack.behaves_of_Inv h0 ha (PagedStack.Inv_of_R r2)⟩
  · rw [hp] at e; simp at e
  · rw [hp] at e; simp at e

/-- non-vacuity of C124_first_failure_partial: three elements on one page of three, the second
page of the next group cannot be reserved -/
example : ∃ s : PSA Nat, Clean 3 1 s ∧ contents (toPS s) = [3, 2, 1] ∧
    (push s 4 [true, false]).map (fun r => (contents (toPS r.1), r.2.2)) = .ok ([3, 2, 1], .badAlloc) :=
  ⟨_, .push (x := 3) (o := []) (.push (x := 2) (o := []) (.push (x := 1) (o := [])
    (.init (o := []) rfl) rfl) rfl) rfl, rfl, rfl⟩

/-! ### C125 -/

/-- C125 is false once a page could not be reserved: pages of three, the fourth push runs out of
memory, is repeated, and then the fifth element's arrival moves the fourth in memory. -/
theorem C125_moves_refuted : ∃ s : PSA Nat, Tried 3 1 s ∧ ∃ s' o',
    push s 5 [] = .ok (s', o', .done true) :=
  ⟨_, .push (x := 4) (o := []) (.failed (x := 4) (o := [true, false]) (.push (x := 3) (o := []) (.push (x := 2) (o := []) (.push (x := 1) (o := [])
    (.init (o := []) rfl) rfl) rfl) rfl) rfl rfl) rfl, _, _, rfl⟩

/-- C125, the part that holds: as long as no call ran out of memory, no push moves an element that
is on the stack. -/
theorem C125_moves_partial (ps al : Nat) (h0 : 0 < ps) (ha : 0 < al) (s : PSA α)
    (h : Clean ps al s) (x : α) (o o' : List Bool) (s' : PSA α) (m : Bool)
    (hp : push s x o = .ok (s', o', .done m)) : m = false := by
  obtain ⟨⟨t, r⟩, f⟩ := h.inv h0 ha
  rcases push_cases h0 ha r x o with ⟨s2, o2, m2, e, -, hf⟩ | ⟨s2, o2, k, e, -⟩ | ⟨s2, o2, e, -⟩
  · rw [hp] at e
    simp only [Except.ok.injEq, Prod.mk.injEq, POut.done.injEq] at e
    rw [e.2.2]; exact (hf f).1
  · rw [hp] at e; simp at e
  · rw [hp] at e; simp at e

/-- What a `push_back` on the current page moves. -/
theorem pushBack_moves {s s' : PSA α} {x : α} {o o' : List Bool} {m : Bool} (h : pushBack s x o = .ok (s', o', .done m)) {p : Page α}
    (hp : s.base[s.cur]? = some p) : m = true ↔ p.items ≠ [] ∧ p.cap ≤ p.items.length := by
  simp only [pushBack, PSA.page, hp] at h
  split at h
  · rename_i hlt
    cases h
    exact ⟨fun h => (by cases h), fun h => by have := h.2; omega⟩
  · rename_i hlt
    split at h
    · cases h
    · cases h
      cases hi : p.items with
      | nil => simp
      | cons y ys => rw [hi] at hlt; simp at hlt ⊢; omega

/-- C125, exactly: a push moves elements if and only if the page it goes to is neither empty nor full and has used up the memory it has; such a page is
one that could not be reserved. -/
theorem C125_exact_partial (ps al : Nat) (h0 : 0 < ps) (ha : 0 < al) (s : PSA α)
    (h : Tried ps al s) (x : α) (o o' : List Bool) (s' : PSA α) (m : Bool)
    (hp : push s x o = .ok (s', o', .done m)) :
    m = true ↔ ∃ p, s.base[s.cur]? = some p ∧ p.items ≠ [] ∧ p.items.length < ps ∧ p.cap ≤ p.items.length := by
  obtain ⟨t, r⟩ := h.inv h0 ha
  obtain ⟨p, hpg, hpb⟩ := page_ok r
  have hps : s.pageSize = ps := by obtain ⟨_, _, _, e, -⟩ := r; exact congrArg PS.pageSize e
  have hle : p.items.length ≤ ps ∧ ∀ q, s.base[s.cur + 1]? = some q → q.items = [] := by
    obtain ⟨pre, cp, k, e, g, -, -⟩ := r
    have hc := congrArg PS.cur e
    have hb := congrArg PS.base e
    simp only [toPS, mkS] at hc hb
    have e1 : (s.base.map Page.items)[s.cur]? = some p.items := by rw [List.getElem?_map, hpb]; rfl
    rw [hb, hc] at e1
    simp at e1
    refine ⟨e1 ▸ g.le, fun q hq => ?_⟩
    have e2 : (s.base.map Page.items)[s.cur + 1]? = some q.items := by rw [List.getElem?_map, hq]; rfl
    rw [hb, hc, List.getElem?_append_right (by omega), show pre.length + 1 - pre.length = 0 + 1 by omega, List.getElem?_cons_succ] at e2
    have := List.mem_of_getElem? e2
    exact (List.mem_replicate.1 this).2
  have noRight : p.items.length = ps → ¬ ∃ p, s.base[s.cur]? = some p ∧ p.items ≠ [] ∧ p.items.length < ps ∧ p.cap ≤ p.items.length := by
    rintro hl ⟨q, hq, -, h3, -⟩
    rw [hpb] at hq; cases hq; omega
  simp only [push, advance, hpg] at hp
  by_cases hl : p.items.length = s.pageSize
  · have hno := noRight (hl.trans hps)
    refine ⟨fun hm => ?_, fun h => absurd h hno⟩
    exfalso
    rw [if_pos hl] at hp
    by_cases hc : s.cur + 1 = s.base.length
    · rw [if_pos hc] at hp
      rcases growBase_spec s s.allocSize o with ⟨o2, k, e, -⟩ | ⟨o2, k, e, -⟩ | ⟨o2, e⟩
      · rw [e] at hp; cases hp
      · rw [e] at hp; cases hp
      · rw [e] at hp
        dsimp only at hp
        have hal : s.allocSize = al := by obtain ⟨_, _, _, e, -⟩ := r; exact congrArg PS.allocSize e
        have hq : (s.base ++ List.replicate s.allocSize (⟨[], s.pageSize⟩ : Page α))[s.cur + 1]? = some ⟨[], s.pageSize⟩ := by
          rw [List.getElem?_append_right (by omega), hc, Nat.sub_self, hal, List.getElem?_replicate, if_pos ha]
        exact ((pushBack_moves hp hq).1 hm).1 rfl
    · rw [if_neg hc] at hp
      dsimp only at hp
      have hlt : s.cur + 1 < s.base.length := by
        have := (List.getElem?_eq_some_iff.1 hpb).1; omega
      have hq : s.base[s.cur + 1]? = some s.base[s.cur + 1] := List.getElem?_eq_getElem hlt
      exact ((pushBack_moves hp hq).1 hm).1 (hle.2 _ hq)
  · rw [if_neg hl] at hp
    dsimp only at hp
    rw [pushBack_moves hp hpb]
    constructor
    · rintro ⟨h1, h2⟩
      exact ⟨p, hpb, h1, by have := hle.1; omega, h2⟩
    · rintro ⟨q, hq, h1, -, h3⟩
      rw [hpb] at hq; cases hq
      exact ⟨h1, h3⟩

end Falcon.PSAlloc
