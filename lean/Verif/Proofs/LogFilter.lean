import Verif.Props.Logger
import Verif.Spec.LogFilter
/- Helpers for C153: the listeners of a Logger against the filter in force. -/
namespace Falcon.LogFilter
open Falcon.Logger (FOp Fs FInv finit fstep frun categoryFilter clearFilter detachIf)
open Falcon.Log (Rx Msg Str Lst LId setLst checkCategory)

/-- At most two members of a list without repetitions satisfy `f`. -/
theorem countP_two (f : Nat → Bool) (a b : Nat) (hab : a ≠ b) (l : List Nat) (hn : l.Nodup)
    (h : ∀ k ∈ l, k ≠ a → k ≠ b → f k = false) :
    l.countP f = (if a ∈ l ∧ f a = true then 1 else 0) + (if b ∈ l ∧ f b = true then 1 else 0) := by
  induction l with
  | nil => simp
  | cons x l ih =>
    rw [List.nodup_cons] at hn
    have ih := ih hn.2 (fun k hk => h k (by simp [hk]))
    rw [List.countP_cons, ih]
    by_cases hxa : x = a
    · subst hxa
      have hb : (b ∈ x :: l) = (b ∈ l) := by simp [Ne.symm hab]
      simp only [hb, hn.1, false_and, if_false, List.mem_cons, true_or, true_and]
      omega
    · by_cases hxb : x = b
      · subst hxb
        have ha : (a ∈ x :: l) = (a ∈ l) := by simp [hab]
        simp only [ha, hn.1, false_and, if_false, List.mem_cons, true_or, true_and]
        omega
      · have ha : (a ∈ x :: l) = (a ∈ l) := by simp [Ne.symm hxa]
        have hb : (b ∈ x :: l) = (b ∈ l) := by simp [Ne.symm hxb]
        simp [ha, hb, h x (by simp) hxa hxb]

/-- The Logger `s` is in the situation `t`. -/
structure Same (s : Fs) (t : St) : Prop where
  inv    : FInv s
  level  : s.level = t.level
  dflt   : (s.lst 0).level = t.dflt
  back   : s.proxy = none ↔ t.back = none
  base   : ∀ b, t.back = some b → s.base = b
  off    : t.filter = none → ∀ k ∈ s.regs, k ≠ 0 → (s.lst k).detached = true
  on     : ∀ re l, t.filter = some (re, l) → ∃ p ∈ s.regs, s.proxy = some p ∧
             s.lst p = { regex := some re, category := re, level := l }

theorem same_init : Same finit init := by
  refine ⟨Logger.finv_init, rfl, rfl, by simp [finit, init], by simp [init], ?_, by simp [init]⟩
  intro _ k hk h0
  simp [finit] at hk
  exact absurd hk h0

theorem detach_zero {s : Fs} (h : FInv s) : (detachIf s s.proxy).lst 0 = s.lst 0 := by
  cases hp : s.proxy with
  | none => rfl
  | some q =>
    have : (0 : LId) ≠ q := fun e => (h.proxy q hp).2 e.symm
    simp only [detachIf]; exact Logger.setLst_ne _ _ this

theorem detach_all {s : Fs} (h : FInv s) (k : LId) (hk : k ∈ s.regs) (h0 : k ≠ 0) :
    ((detachIf s s.proxy).lst k).detached = true := by
  rw [(Logger.detach_lst s k).1]
  by_cases hp : s.proxy = some k
  · simp [hp]
  · simp [h.others k hk h0 hp]

theorem Same.after {rx : Rx} {s : Fs} {t t' : St} (h : Same s t) (o : FOp) (ht : call rx t o = some t') :
    ∃ s', fstep rx s o = .ok s' ∧ Same s' t' := by
  cases o with
  | level n =>
    simp only [LogFilter.call, Option.some.injEq] at ht; subst ht
    exact ⟨_, rfl, h.inv.step (rx := rx) (o := .level n) rfl, rfl, h.dflt, h.back, h.base, h.off, h.on⟩
  | dflt n =>
    simp only [LogFilter.call, Option.some.injEq] at ht; subst ht
    refine ⟨_, rfl, h.inv.step (rx := rx) (o := .dflt n) rfl, h.level, ?_, h.back, h.base, ?_, ?_⟩
    · simp [Logger.setLst_self]
    · intro hf k hk h0
      show (setLst _ _ _ k).detached = true
      rw [Logger.setLst_ne _ _ h0]; exact h.off hf k hk h0
    · intro re l hf
      obtain ⟨p, hp, hx, hl⟩ := h.on re l hf
      refine ⟨p, hp, hx, ?_⟩
      show setLst _ _ _ p = _
      rw [Logger.setLst_ne _ _ (h.inv.proxy p hx).2]; exact hl
  | clear =>
    simp only [LogFilter.call] at ht
    cases hb : t.back with
    | none => rw [hb] at ht; exact nomatch ht
    | some b =>
      rw [hb] at ht
      simp only [Option.some.injEq] at ht; subst ht
      cases hp : s.proxy with
      | none => rw [h.back.1 hp] at hb; exact nomatch hb
      | some p =>
        have e : fstep rx s .clear = .ok { detachIf s s.proxy with level := s.base } := by
          simp only [fstep, clearFilter, hp]
        obtain ⟨f1, f2, -, f4, -⟩ := Logger.detachIf_fields s
        refine ⟨_, e, h.inv.step e, h.base b hb, ?_, ?_, ?_, ?_, ?_⟩
        · show ((detachIf s s.proxy).lst 0).level = _
          rw [detach_zero h.inv]; exact h.dflt
        · show (detachIf s s.proxy).proxy = none ↔ _
          rw [f2, hp]; simp
        · intro b' hb'
          show (detachIf s s.proxy).base = _
          rw [f4]; exact h.base b' (hb.trans hb')
        · intro _ k hk h0
          exact detach_all h.inv k (by rw [← f1]; exact hk) h0
        · intro re l hf; exact nomatch hf
  | filter re l =>
    simp only [LogFilter.call, Option.some.injEq] at ht; subst ht
    have hnot : s.next ∉ s.regs := fun hm => Nat.lt_irrefl _ (h.inv.next _ hm)
    have h0 : (0 : LId) ≠ s.next := Ne.symm (Nat.pos_iff_ne_zero.1 h.inv.pos)
    have hinv := h.inv.filter (rx := rx) re l
    refine ⟨(categoryFilter rx s re l).1, rfl, ?_⟩
    have hmax : (if l > s.level then l else s.level) = max t.level l := by rw [← h.level]; omega
    rw [Logger.categoryFilter_eq] at hinv ⊢
    cases hv : rx.valid re with
    | true =>
      simp only [hv, if_true] at hinv ⊢
      refine ⟨hinv, hmax, ?_, by simp, ?_, ?_, ?_⟩
      · show (setLst _ _ _ 0).level = _
        rw [Logger.setLst_ne _ _ h0, Logger.setLst_ne _ _ h0, detach_zero h.inv]; exact h.dflt
      · intro b hb
        simp only [Option.some.injEq] at hb
        rw [← hb]; exact h.level
      · intro hf; exact nomatch hf
      · intro re' l' hf
        simp only [Option.some.injEq, Prod.mk.injEq] at hf
        obtain ⟨rfl, rfl⟩ := hf
        exact ⟨s.next, by simp, rfl, Logger.setLst_self _ _ _⟩
    | false =>
      simp only [hv, Bool.false_eq_true, if_false] at hinv ⊢
      refine ⟨hinv, hmax, ?_, by simp, ?_, ?_, ?_⟩
      · show (setLst _ _ _ 0).level = _
        rw [Logger.setLst_ne _ _ h0, detach_zero h.inv]; exact h.dflt
      · intro b hb
        simp only [Option.some.injEq] at hb
        rw [← hb]; exact h.level
      · intro _ k hk hk0
        show (setLst _ _ _ k).detached = true
        have hne : k ≠ s.next := fun e => hnot (e ▸ hk)
        rw [Logger.setLst_ne _ _ hne]
        exact detach_all h.inv k hk hk0
      · intro re' l' hf; exact nomatch hf

theorem Same.stuck {rx : Rx} {s : Fs} {t : St} (h : Same s t) (o : FOp) (ht : LogFilter.call rx t o = none) :
    o = .clear ∧ t.back = none ∧ fstep rx s o = .error (.ub .nullDeref) := by
  cases o with
  | level n => exact nomatch ht
  | dflt n => exact nomatch ht
  | filter re l => exact nomatch ht
  | clear =>
    simp only [LogFilter.call] at ht
    cases hb : t.back with
    | some b => rw [hb] at ht; exact nomatch ht
    | none =>
      refine ⟨rfl, rfl, ?_⟩
      simp only [fstep, clearFilter, h.back.2 hb]

theorem Same.run {rx : Rx} {s : Fs} {t : St} (h : Same s t) (os : List FOp) :
    (∀ t', calls rx t os = some t' → ∃ s', frun rx s os = .ok s' ∧ Same s' t') ∧
    (calls rx t os = none → frun rx s os = .error (.ub .nullDeref)) := by
  induction os generalizing s t with
  | nil =>
    refine ⟨fun t' ht => ?_, fun ht => nomatch ht⟩
    simp only [calls, Option.some.injEq] at ht; subst ht
    exact ⟨s, rfl, h⟩
  | cons o os ih =>
    cases hc : LogFilter.call rx t o with
    | none =>
      obtain ⟨-, -, e⟩ := h.stuck o hc
      simp only [calls, hc, frun, e]
      exact ⟨fun t' ht => (nomatch ht), fun _ => rfl⟩
    | some t1 =>
      obtain ⟨s1, e, h1⟩ := h.after o hc
      simp only [calls, hc, frun, e]
      exact ih h1

theorem Same.lines {rx : Rx} {s : Fs} {t : St} (h : Same s t) (m : Msg) : Logger.lines rx s m = lines rx t m := by
  unfold Logger.lines LogFilter.lines
  rw [h.level]
  by_cases hm : m.level > t.level
  · rw [if_pos hm, if_pos (by omega)]
  · rw [if_neg hm, if_neg (by omega)]
    obtain ⟨g1, g2, g3⟩ := h.inv.dflt
    have hz : (0 : LId) ∈ s.regs := List.count_pos_iff.1 (by rw [h.inv.zero]; decide)
    have hcc : checkCategory rx (s.lst 0) m.cat = true := by unfold checkCategory; rw [g3]; simp
    rw [← List.countP_eq_length_filter]
    cases hf : t.filter with
    | none =>
      rw [countP_two _ 0 1 (by decide) s.regs h.inv.nodup ?_]
      · congr 1
        · simp [hz, g1, g2, hcc, h.dflt]
        · rw [if_neg]
          rintro ⟨h1, h2⟩
          rw [h.off hf 1 h1 (by decide)] at h2
          simp at h2
      · intro k hk h0 _
        simp [h.off hf k hk h0]
    | some f =>
      obtain ⟨re, l⟩ := f
      obtain ⟨p, hp, hx, hl⟩ := h.on re l hf
      have hp0 := (h.inv.proxy p hx).2
      rw [countP_two _ 0 p (Ne.symm hp0) s.regs h.inv.nodup ?_]
      · congr 1
        · simp [hz, g1, g2, hcc, h.dflt]
        · simp only [hp, true_and, hl]
          have hnew := Logger.checkCategory_new (rx := rx) re l m.cat
          simp only [Bool.not_false, Bool.true_and, Bool.and_eq_true, decide_eq_true_eq, hnew]
      · intro k hk h0 h1
        have hx' : s.proxy ≠ some k := by rw [hx]; intro e; exact h1 (Option.some.inj e).symm
        simp [h.inv.others k hk h0 hx']

end Falcon.LogFilter
