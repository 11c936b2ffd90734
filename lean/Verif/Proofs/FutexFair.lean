import Verif.Spec.FutexFair
import Verif.Props.Futex
/-
Endless executions of threads using a Futex.
-/
namespace Falcon.Futex
variable {σ τ ω : Type} {c : Client σ τ ω} {spin : BitVec 32}

/-- What the step of thread `i` was. -/
inductive Kind (c : Client σ τ ω) (i : Nat) (sp : Bool) (s s' : St σ τ ω) : Prop where
  | enter (sc : BitVec 32) (h0 : (s.th i).pc = .out) (h1 : (s.th i).todo ≠ []) (h2 : s'.owned = s.owned)
      (h3 : (s'.th i).pc = .trying sc) (h4 : (s'.th i).todo = (s.th i).todo)
  | fail (sc sc' : BitVec 32) (h0 : (s.th i).pc = .trying sc) (h1 : s.owned = true ∨ sp = true) (h2 : s'.owned = s.owned)
      (h3 : (s'.th i).pc = .trying sc') (h4 : (s'.th i).todo = (s.th i).todo)
  | acquire (sc : BitVec 32) (op : ω) (h0 : (s.th i).pc = .trying sc) (h1 : s.owned = false) (h2 : sp = false) (h3 : s'.owned = true)
      (h4 : (s'.th i).pc = .inside (c.micro op) (c.start op)) (h5 : (s'.th i).todo = (s.th i).todo) (h6 : (s.th i).todo.head? = some op)
  | micro (m : σ × τ → σ × τ) (ms : List (σ × τ → σ × τ)) (l l' : τ) (h0 : (s.th i).pc = .inside (m :: ms) l) (h2 : s'.owned = s.owned)
      (h3 : (s'.th i).pc = .inside ms l') (h4 : (s'.th i).todo = (s.th i).todo)
  | release (l : τ) (h0 : (s.th i).pc = .inside [] l) (h2 : s'.owned = false)
      (h3 : (s'.th i).pc = .out) (h4 : (s'.th i).todo = (s.th i).todo.tail)

theorem step_kind {s s' : St σ τ ω} {i : Nat} {sp : Bool} (h : step c spin s i sp = some s') :
    Kind c i sp s s' ∧ ∀ j, j ≠ i → s'.th j = s.th j := by
  cases hpc : (s.th i).pc with
  | out =>
    cases ht : (s.th i).todo with
    | nil => simp [step, hpc, ht] at h
    | cons op tl =>
      simp only [step, hpc, ht] at h
      injection h with h; subst h
      exact ⟨.enter spin hpc (by rw [ht]; simp) rfl (by simp) (by simp [ht]), fun j hj => upd_ne _ _ hj⟩
  | trying sc =>
    cases ht : (s.th i).todo with
    | nil => simp [step, hpc, ht] at h
    | cons op tl =>
      by_cases hf : s.owned = false ∧ sp = false
      · obtain ⟨ho, rfl⟩ := hf
        have hcas : casWeak s.owned false = (true, true, false) := by simp [casWeak, ho]
        simp only [step, hpc, ht, hcas, retry, Bool.not_true, Bool.or_self, Bool.false_eq_true, if_false] at h
        injection h with h; subst h
        exact ⟨.acquire sc op hpc ho rfl rfl (by simp) (by simp [ht]) (by rw [ht]; rfl), fun j hj => upd_ne _ _ hj⟩
      · have hb : s.owned = true ∨ sp = true := by cases ho : s.owned <;> cases hs : sp <;> simp_all
        have hcas : casWeak s.owned sp = (s.owned, false, s.owned) := by
          unfold casWeak
          rcases hb with e | e <;> simp [e]
        simp only [step, hpc, ht, hcas, retry, Bool.not_false, Bool.true_or, if_true] at h
        injection h with h; subst h
        refine ⟨.fail sc (failBody spin sc).1 hpc hb rfl ?_ ?_, fun j hj => upd_ne _ _ hj⟩
        · simp
        · simp [ht]
  | inside rest l =>
    cases rest with
    | nil =>
      simp only [step, hpc] at h
      injection h with h; subst h
      exact ⟨.release l hpc rfl (by simp) (by simp), fun j hj => upd_ne _ _ hj⟩
    | cons m ms =>
      simp only [step, hpc] at h
      injection h with h; subst h
      exact ⟨.micro m ms l _ hpc rfl (by simp; rfl) (by simp), fun j hj => upd_ne _ _ hj⟩

theorem step_none {s : St σ τ ω} {i : Nat} {sp : Bool} (h : step c spin s i sp = none) : (s.th i).todo = [] ∧ ¬Holds s i := by
  cases hpc : (s.th i).pc with
  | out =>
    cases ht : (s.th i).todo with
    | nil => exact ⟨rfl, by rintro ⟨a, b, e⟩; rw [hpc] at e; cases e⟩
    | cons op tl => simp [step, hpc, ht] at h
  | trying sc =>
    cases ht : (s.th i).todo with
    | nil => exact ⟨rfl, by rintro ⟨a, b, e⟩; rw [hpc] at e; cases e⟩
    | cons op tl =>
      simp only [step, hpc, ht] at h
      split at h <;> cases h
  | inside rest l =>
    cases rest with
    | nil => simp only [step, hpc] at h; cases h
    | cons m ms => simp only [step, hpc] at h; cases h

/-- What is needed of a state: the flag says whether somebody is inside, at most one is, and only threads with work try. -/
structure Lite (s : St σ τ ω) : Prop where
  work : ∀ i, Waits s i → (s.th i).todo ≠ []
  excl : (s.owned = false ∧ ∀ i, ¬Holds s i) ∨ (s.owned = true ∧ ∃ i, Holds s i ∧ ∀ j, Holds s j → j = i)

theorem Lite.init (g : σ) (prog : Nat → List ω) : Lite (initial g prog : St σ τ ω) where
  work := by rintro i ⟨sc, h⟩; cases h
  excl := .inl ⟨rfl, by rintro i ⟨a, b, h⟩; cases h⟩

theorem Lite.of_reach {g : σ} {prog : Nat → List ω} {s : St σ τ ω} (h : Reach c spin g prog s) : Lite s where
  work := fun i ⟨sc, e⟩ => h.inv.work i sc e
  excl := by
    rcases h.inv.excl with f | ⟨k, op, hh, fin, rest, l, b⟩
    · exact .inl ⟨f.owned, f.none⟩
    · exact .inr ⟨b.owned, k, ⟨_, _, b.pc⟩, fun j hj => Classical.byContradiction fun e => b.none j e hj⟩

theorem Lite.step {s s' : St σ τ ω} {i : Nat} {sp : Bool} (hl : Lite s) (h : step c spin s i sp = some s') : Lite s' := by
  obtain ⟨hk, ho⟩ := step_kind h
  have other : ∀ j, j ≠ i → (Waits s' j ↔ Waits s j) ∧ (Holds s' j ↔ Holds s j) := by
    intro j hj; unfold Waits Holds; rw [ho j hj]; exact ⟨Iff.rfl, Iff.rfl⟩
  have nh : ∀ {s : St σ τ ω} {sc}, (s.th i).pc = .trying sc → ¬Holds s i := by
    rintro s sc e ⟨a, b, e'⟩; rw [e] at e'; cases e'
  have nh' : ∀ {s : St σ τ ω}, (s.th i).pc = .out → ¬Holds s i := by
    rintro s e ⟨a, b, e'⟩; rw [e] at e'; cases e'
  have nw : ∀ {s : St σ τ ω}, (s.th i).pc = .out → ¬Waits s i := by
    rintro s e ⟨a, e'⟩; rw [e] at e'; cases e'
  have nw' : ∀ {s : St σ τ ω} {r l}, (s.th i).pc = .inside r l → ¬Waits s i := by
    rintro s r l e ⟨a, e'⟩; rw [e] at e'; cases e'
  have same : ∀ (_ : Holds s' i ↔ Holds s i) (_ : s'.owned = s.owned),
      (s'.owned = false ∧ ∀ i, ¬Holds s' i) ∨ (s'.owned = true ∧ ∃ i, Holds s' i ∧ ∀ j, Holds s' j → j = i) := by
    intro e1 e2
    have all : ∀ j, Holds s' j ↔ Holds s j := by
      intro j; by_cases hj : j = i
      · subst hj; exact e1
      · exact (other j hj).2
    simp only [all, e2]; exact hl.excl
  have wk : (Waits s' i → (s'.th i).todo ≠ []) → ∀ j, Waits s' j → (s'.th j).todo ≠ [] := by
    intro e j hw
    by_cases hj : j = i
    · subst hj; exact e hw
    · rw [ho j hj]; exact hl.work j ((other j hj).1.1 hw)
  cases hk with
  | enter sc h0 h1 h2 h3 h4 =>
    exact ⟨wk (fun _ => by rw [h4]; exact h1), same ⟨fun x => absurd x (nh h3), fun x => absurd x (nh' h0)⟩ h2⟩
  | fail sc sc' h0 h1 h2 h3 h4 =>
    exact ⟨wk (fun _ => by rw [h4]; exact hl.work i ⟨_, h0⟩), same ⟨fun x => absurd x (nh h3), fun x => absurd x (nh h0)⟩ h2⟩
  | acquire sc op h0 h1 h2 h3 h4 h5 h6 =>
    refine ⟨wk (fun x => absurd x (nw' h4)), .inr ⟨h3, i, ⟨_, _, h4⟩, ?_⟩⟩
    intro j hj
    apply Classical.byContradiction
    intro hne
    rcases hl.excl with ⟨_, b⟩ | ⟨a, _⟩
    · exact b j ((other j hne).2.1 hj)
    · rw [a] at h1; cases h1
  | micro m ms l l' h0 h2 h3 h4 =>
    exact ⟨wk (fun x => absurd x (nw' h3)), same ⟨fun _ => ⟨_, _, h0⟩, fun _ => ⟨_, _, h3⟩⟩ h2⟩
  | release l h0 h2 h3 h4 =>
    refine ⟨wk (fun x => absurd x (nw h3)), .inl ⟨h2, ?_⟩⟩
    intro j hj
    by_cases hji : j = i
    · subst hji; exact nh' h3 hj
    · have := (other j hji).2.1 hj
      rcases hl.excl with ⟨_, b⟩ | ⟨a, k, _, u⟩
      · exact b j this
      · exact hji ((u j this).trans (u i ⟨_, _, h0⟩).symm)

theorem refill_pc (again : Nat → List ω) (i j : Nat) (s : St σ τ ω) : ((refill again i s).th j).pc = (s.th j).pc := by
  unfold refill; split
  · by_cases h : j = i
    · subst h; simp
    · simp [upd_ne _ _ h]
  · rfl
theorem refill_owned (again : Nat → List ω) (i : Nat) (s : St σ τ ω) : (refill again i s).owned = s.owned := by
  unfold refill; split <;> rfl
theorem refill_todo (again : Nat → List ω) (i j : Nat) (s : St σ τ ω) :
    ((refill again i s).th j).todo = if j = i ∧ (s.th j).todo = [] then again j else (s.th j).todo := by
  unfold refill; split
  · rename_i he
    by_cases h : j = i
    · subst h; simp [he]
    · simp [upd_ne _ _ h, h]
  · rename_i he
    rw [if_neg]; rintro ⟨rfl, e⟩; exact he e

theorem refill_holds (again : Nat → List ω) (i j : Nat) (s : St σ τ ω) : Holds (refill again i s) j ↔ Holds s j := by
  unfold Holds; rw [refill_pc]
theorem refill_waits (again : Nat → List ω) (i j : Nat) (s : St σ τ ω) : Waits (refill again i s) j ↔ Waits s j := by
  unfold Waits; rw [refill_pc]

theorem Lite.refill {again : Nat → List ω} {i : Nat} {s : St σ τ ω} (h : Lite s) : Lite (refill again i s) where
  work j hj := by
    have h1 := h.work j ((refill_waits ..).1 hj)
    rw [refill_todo, if_neg (fun e => h1 e.2)]; exact h1
  excl := by simp only [refill_holds, refill_owned]; exact h.excl

section
variable {again : Nat → List ω} {s0 : St σ τ ω} {f : Nat → Nat × Bool}

theorem endless_succ (k : Nat) : endless c spin again s0 f (k + 1) =
    match Futex.step c spin (endless c spin again s0 f k) (f k).1 (f k).2 with
    | none => endless c spin again s0 f k
    | some s' => refill again (f k).1 s' := rfl

theorem endless_lite (h0 : Lite s0) : ∀ k, Lite (endless c spin again s0 f k)
  | 0 => h0
  | k + 1 => by
    have ih := endless_lite h0 k
    rw [endless_succ]
    split
    · exact ih
    · rename_i s' h; exact (ih.step h).refill

/-- Nothing relevant happened between the two states: only failed attempts. -/
structure Still (s s' : St σ τ ω) : Prop where
  owned : s'.owned = s.owned
  todo  : ∀ i, (s'.th i).todo = (s.th i).todo
  pc    : ∀ i, (s'.th i).pc = (s.th i).pc ∨ Waits s i ∧ Waits s' i

theorem Still.refl (s : St σ τ ω) : Still s s := ⟨rfl, fun _ => rfl, fun _ => .inl rfl⟩
theorem Still.waits {s s' : St σ τ ω} (h : Still s s') (i : Nat) : Waits s' i ↔ Waits s i := by
  rcases h.pc i with e | ⟨a, b⟩
  · unfold Waits; rw [e]
  · exact ⟨fun _ => a, fun _ => b⟩
theorem Still.trans {a b d : St σ τ ω} (h1 : Still a b) (h2 : Still b d) : Still a d :=
  ⟨h2.owned.trans h1.owned, fun i => (h2.todo i).trans (h1.todo i), fun i => by
    rcases h2.pc i with e | ⟨x, y⟩
    · rcases h1.pc i with e' | ⟨x', y'⟩
      · exact .inl (e.trans e')
      · exact .inr ⟨x', by unfold Waits; rw [e]; exact y'⟩
    · exact .inr ⟨(h1.waits i).1 x, y⟩⟩

/-- The step at time `k` is one of `enter`, `acquire`, `micro`, `release`. -/
def Moves (c : Client σ τ ω) (spin : BitVec 32) (again : Nat → List ω) (s0 : St σ τ ω) (f : Nat → Nat × Bool) (k : Nat) : Prop :=
  ∃ s', Futex.step c spin (endless c spin again s0 f k) (f k).1 (f k).2 = some s' ∧
    ¬(Waits (endless c spin again s0 f k) (f k).1 ∧ Waits s' (f k).1)

theorem still_of_not_moves (h0 : Lite s0) (k : Nat) (h : ¬Moves c spin again s0 f k) :
    Still (endless c spin again s0 f k) (endless c spin again s0 f (k + 1)) := by
  rw [endless_succ]
  cases e : Futex.step c spin (endless c spin again s0 f k) (f k).1 (f k).2 with
  | none => exact Still.refl _
  | some s' =>
    have hl : Lite (endless c spin again s0 f k) := endless_lite h0 k
    obtain ⟨hk, ho⟩ := step_kind e
    have hw : Waits (endless c spin again s0 f k) (f k).1 ∧ Waits s' (f k).1 :=
      Classical.byContradiction fun x => h ⟨s', e, x⟩
    have hne := hl.work _ hw.1
    clear h
    generalize endless c spin again s0 f k = s at *
    generalize (f k).1 = i at *
    generalize (f k).2 = sp at *
    dsimp only
    cases hk with
    | enter sc h0 h1 h2 h3 h4 => obtain ⟨_, x⟩ := hw.1; rw [h0] at x; cases x
    | fail sc sc' h0 h1 h2 h3 h4 =>
      refine ⟨by rw [refill_owned, h2], fun j => ?_, fun j => ?_⟩
      · rw [refill_todo]
        by_cases hj : j = i
        · subst hj; rw [h4, if_neg (fun x => hne x.2)]
        · rw [if_neg (fun x => hj x.1), ho j hj]
      · by_cases hj : j = i
        · subst hj; exact .inr ⟨⟨_, h0⟩, (refill_waits ..).2 ⟨_, h3⟩⟩
        · exact .inl (by rw [refill_pc, ho j hj])
    | acquire sc op h0 h1 h2 h3 h4 h5 h6 => obtain ⟨_, x⟩ := hw.2; rw [h4] at x; cases x
    | micro m ms l l' h0 h2 h3 h4 => obtain ⟨_, x⟩ := hw.1; rw [h0] at x; cases x
    | release l h0 h2 h3 h4 => obtain ⟨_, x⟩ := hw.1; rw [h0] at x; cases x

theorem still_until (h0 : Lite s0) (k : Nat) : ∀ d, (∃ e, e < d ∧ Moves c spin again s0 f (k + e) ∧
      Still (endless c spin again s0 f k) (endless c spin again s0 f (k + e))) ∨
    Still (endless c spin again s0 f k) (endless c spin again s0 f (k + d))
  | 0 => .inr (Still.refl _)
  | d + 1 => by
    rcases still_until h0 k d with ⟨e, h1, h2⟩ | h
    · exact .inl ⟨e, by omega, h2⟩
    · by_cases hm : Moves c spin again s0 f (k + d)
      · exact .inl ⟨d, by omega, hm, h⟩
      · exact .inr (h.trans (still_of_not_moves h0 _ hm))

theorem not_waits_inside {s : St σ τ ω} {i : Nat} (h : Holds s i) : ¬Waits s i := by
  rintro ⟨_, x⟩; obtain ⟨a, b, e⟩ := h; rw [e] at x; cases x

/-- While somebody has work, something happens. -/
theorem next_move {n : Nat} (h0 : Lite s0) (hf : Fair n f) (k : Nat)
    (hh : ∀ i, Holds (endless c spin again s0 f k) i → i < n)
    (i : Nat) (hi : i < n) (hnd : ¬Done (endless c spin again s0 f k) i) :
    ∃ k', k ≤ k' ∧ Moves c spin again s0 f k' ∧
      Still (endless c spin again s0 f k) (endless c spin again s0 f k') := by
  have hl : Lite (endless c spin again s0 f k) := endless_lite h0 k
  obtain ⟨j, hj, hgo⟩ : ∃ j, j < n ∧ ∀ s', Still (endless c spin again s0 f k) s' →
      ∃ s'', Futex.step c spin s' j false = some s'' ∧ ¬(Waits s' j ∧ Waits s'' j) := by
    have run : ∀ s' : St σ τ ω, (Holds s' i ∨ (s'.th i).todo ≠ []) → ∃ s'', Futex.step c spin s' i false = some s'' := by
      intro s' h
      cases e : Futex.step c spin s' i false with
      | some s'' => exact ⟨_, rfl⟩
      | none => obtain ⟨a, b⟩ := step_none e; rcases h with h | h <;> contradiction
    rcases hl.excl with ⟨ho, hno⟩ | ⟨ho, j, hj, _⟩
    · refine ⟨i, hi, fun s' hs => ?_⟩
      have hne : (s'.th i).todo ≠ [] := by
        rw [hs.todo i]
        intro e
        cases hpc : ((endless c spin again s0 f k).th i).pc with
        | out => exact hnd ⟨hpc, e⟩
        | trying sc => exact hl.work i ⟨sc, hpc⟩ e
        | inside a b => exact hno i ⟨_, _, hpc⟩
      obtain ⟨s'', e⟩ := run s' (.inr hne)
      refine ⟨s'', e, ?_⟩
      rintro ⟨a, b⟩
      cases (step_kind e).1 with
      | enter sc h0 h1 h2 h3 h4 => obtain ⟨_, x⟩ := a; rw [h0] at x; cases x
      | fail sc sc' h0 h1 h2 h3 h4 =>
        rw [hs.owned, ho] at h1
        rcases h1 with h1 | h1 <;> cases h1
      | acquire sc op h0 h1 h2 h3 h4 h5 h6 => obtain ⟨_, x⟩ := b; rw [h4] at x; cases x
      | micro m ms l l' h0 h2 h3 h4 => obtain ⟨_, x⟩ := a; rw [h0] at x; cases x
      | release l h0 h2 h3 h4 => obtain ⟨_, x⟩ := a; rw [h0] at x; cases x
    · refine ⟨j, hh j hj, fun s' hs => ?_⟩
      have hj' : Holds s' j := by
        rcases hs.pc j with e | ⟨a, _⟩
        · unfold Holds; rw [e]; exact hj
        · exact absurd a (not_waits_inside hj)
      cases e : Futex.step c spin s' j false with
      | some s'' => exact ⟨_, rfl, fun x => not_waits_inside hj' x.1⟩
      | none => exact absurd hj' (step_none e).2
  obtain ⟨k1, hk1, hfk⟩ := hf j hj k
  obtain ⟨d, rfl⟩ := Nat.exists_eq_add_of_le hk1
  rcases still_until (c := c) (spin := spin) (again := again) (f := f) h0 k d with ⟨e, h1, h2, h3⟩ | h
  · exact ⟨k + e, by omega, h2, h3⟩
  · refine ⟨k + d, hk1, ?_, h⟩
    obtain ⟨s'', e1, e2⟩ := hgo _ h
    exact ⟨s'', by rw [hfk]; exact e1, by rw [hfk]; exact e2⟩

end
end Falcon.Futex
