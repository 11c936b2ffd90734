import Verif.Props.Logger
/-
C65: which category filter is the active one.
-/
namespace Falcon.Logger
open Falcon.Log (Str Msg LId Lst setLst Rx)

/-- calls that are neither categoryFilter() nor clearFilter() -/
def FOp.other : FOp → Bool
  | .filter _ _ => false
  | .clear      => false
  | _           => true

theorem frun_two {rx : Rx} (a b : List FOp) : ∀ s, frun rx s (a ++ b) = frun rx s a >>= fun s' => frun rx s' b := by
  induction a with
  | nil => intro s; rfl
  | cons o a ih =>
    intro s
    simp only [List.cons_append, frun]
    cases fstep rx s o with
    | error e => rfl
    | ok s1 => exact ih s1

theorem detached_stays {rx : Rx} {o : FOp} {s s' : Fs} (hs : fstep rx s o = .ok s') (hp : 0 < s.next) (k : LId) (hk : k < s.next)
    (hd : (s.lst k).detached = true) : (s'.lst k).detached = true := by
  cases o with
  | filter re l =>
    simp only [fstep] at hs; cases hs
    rw [categoryFilter_eq]
    have hne : k ≠ s.next := Nat.ne_of_lt hk
    simp only
    split
    · show (setLst _ _ _ k).detached = true
      rw [setLst_ne _ _ hne, setLst_ne _ _ hne, (detach_lst s k).1, hd]; rfl
    · show (setLst _ _ _ k).detached = true
      rw [setLst_ne _ _ hne, (detach_lst s k).1, hd]; rfl
  | clear =>
    obtain ⟨p, -, rfl⟩ := clear_eq hs
    show ((detachIf s s.proxy).lst k).detached = true
    rw [(detach_lst s k).1, hd]; rfl
  | level n => simp only [fstep] at hs; cases hs; exact hd
  | dflt n =>
    simp only [fstep] at hs; cases hs
    show (setLst _ _ _ k).detached = true
    by_cases e : k = 0
    · subst e; rw [setLst_self]; exact hd
    · rw [setLst_ne _ _ e]; exact hd

theorem next_mono {rx : Rx} {o : FOp} {s s' : Fs} (hs : fstep rx s o = .ok s') : s.next ≤ s'.next := by
  cases o with
  | filter re l =>
    simp only [fstep] at hs; cases hs
    rw [categoryFilter_eq]; simp only; split <;> exact Nat.le_succ _
  | clear => obtain ⟨p, -, rfl⟩ := clear_eq hs; exact Nat.le_of_eq (detachIf_fields s).2.2.1.symm
  | level n => simp only [fstep] at hs; cases hs; exact Nat.le_refl _
  | dflt n => simp only [fstep] at hs; cases hs; exact Nat.le_refl _

/-- C65: a categoryFilter() with a valid expression adds one listener, new and active, that stays active as long as neither
function is called again; every filter listener there was before is detached then, and stays detached whatever is called. -/
theorem C65_last_active (rx : Rx) (os rest : List FOp) (s s' : Fs) (hr : frun rx finit os = .ok s) (re : Str) (l : Int) (hv : rx.valid re = true)
    (hr' : frun rx finit (os ++ .filter re l :: rest) = .ok s') :
    (∀ a ∈ s.regs, a ≠ 0 → a ∈ s'.regs ∧ (s'.lst a).detached = true) ∧
    ∃ n, n ≠ 0 ∧ n ∉ s.regs ∧ n ∈ s'.regs ∧ (rest.all FOp.other = true → s'.regs = s.regs ++ [n] ∧ (s'.lst n).detached = false ∧
      (s'.lst n).level = l ∧ (s'.lst n).category = re) := by
  have h := finv_run os finv_init hr
  rw [frun_two, hr] at hr'
  replace hr' : frun rx s (.filter re l :: rest) = .ok s' := hr'
  simp only [frun, fstep] at hr'
  have hinv : FInv (categoryFilter rx s re l).1 := h.filter re l
  replace hr' : frun rx (categoryFilter rx s re l).1 rest = .ok s' := hr'
  have hsub : ∀ (rest : List FOp) (t t' : Fs), FInv t → frun rx t rest = .ok t' →
      (∀ a ∈ t.regs, a ∈ t'.regs) ∧ (∀ a ∈ t.regs, (t.lst a).detached = true → (t'.lst a).detached = true) ∧
      (rest.all FOp.other = true → t'.regs = t.regs ∧ ∀ k, k ≠ 0 → t'.lst k = t.lst k) := by
    intro rest
    induction rest with
    | nil => intro t t' _ hr; simp only [frun] at hr; cases hr; exact ⟨fun _ h => h, fun _ _ h => h, fun _ => ⟨rfl, fun _ _ => rfl⟩⟩
    | cons o rest ih =>
      intro t t' hi hr
      simp only [frun] at hr
      cases ho : fstep rx t o with
      | error e => rw [ho] at hr; cases hr
      | ok t1 =>
        rw [ho] at hr
        obtain ⟨i1, i2, i3⟩ := ih t1 t' (hi.step ho) hr
        have hreg : ∀ a ∈ t.regs, a ∈ t1.regs := by
          intro a ha
          cases o with
          | filter re l =>
            simp only [fstep] at ho; cases ho
            rw [categoryFilter_eq]; simp only; split
            · exact List.mem_append_left _ ha
            · exact ha
          | clear => obtain ⟨p, -, rfl⟩ := clear_eq ho; rw [← (detachIf_fields t).1] at ha; exact ha
          | level n => simp only [fstep] at ho; cases ho; exact ha
          | dflt n => simp only [fstep] at ho; cases ho; exact ha
        refine ⟨fun a ha => i1 a (hreg a ha), fun a ha hd => i2 a (hreg a ha) (detached_stays ho hi.pos a (hi.next a ha) hd), ?_⟩
        intro hall
        simp only [List.all_cons, Bool.and_eq_true] at hall
        obtain ⟨j1, j2⟩ := i3 hall.2
        cases o with
        | filter re l => cases hall.1
        | clear => cases hall.1
        | level n => simp only [fstep] at ho; cases ho; exact ⟨j1, j2⟩
        | dflt n =>
          simp only [fstep] at ho; cases ho
          exact ⟨j1, fun k hk => (j2 k hk).trans (setLst_ne _ _ hk)⟩
  obtain ⟨k1, k2, k3⟩ := hsub rest _ s' hinv hr'
  have hregs : (categoryFilter rx s re l).1.regs = s.regs ++ [s.next] := by rw [categoryFilter_eq]; simp [hv]
  have hprox : (categoryFilter rx s re l).1.proxy = some s.next := by rw [categoryFilter_eq]; simp [hv]
  have hl : (categoryFilter rx s re l).1.lst s.next = { regex := some re, category := re, level := l } := by
    rw [categoryFilter_eq]; simp only [hv, if_true]; exact setLst_self _ _ _
  have hnot : s.next ∉ s.regs := fun hm => Nat.lt_irrefl _ (h.next _ hm)
  have hn0 : s.next ≠ 0 := Nat.pos_iff_ne_zero.1 h.pos
  refine ⟨?_, s.next, hn0, hnot, k1 _ (by rw [hregs]; simp), ?_⟩
  · intro a ha ha0
    have ham : a ∈ (categoryFilter rx s re l).1.regs := by rw [hregs]; simp [ha]
    refine ⟨k1 a ham, k2 a ham (hinv.others a ham ha0 ?_)⟩
    rw [hprox]; intro e; cases e; exact hnot ha
  · intro hall
    obtain ⟨j1, j2⟩ := k3 hall
    rw [j1, j2 _ hn0, hl, hregs]
    exact ⟨rfl, rfl, rfl, rfl⟩

/-- two filters, and a level set in between -/
example : (frun ⟨fun r => r != ['('], fun _ _ => true⟩ finit [.filter ['a'] 2, .level 3, .filter ['b'] 1, .dflt 0]).toOption.map
    (fun s => (s.regs, (s.lst 1).detached, (s.lst 2).detached)) = some ([0, 1, 2], true, false) := by decide +kernel

end Falcon.Logger
