import Verif.Model.PSGuard
import Verif.Proofs.PSMore
import Verif.Props.PagedStack
/-
C122, C123: a pop guarded by empty(), and multi-element calls interrupted by an exception.
-/
namespace Falcon.PSGuard
open Falcon.PagedStack
variable {α : Type}

/-! ### C122 -/

/-- C122 is false: with two consumers the stack may be emptied between the check and the pop. -/
theorem C122_guarded_pop_refuted :
    grun (start 4 1) [.push (1 : Nat), .check 0, .check 1, .pop 0, .pop 1] = some (.error (.ub .emptyBack)) := rfl

/-- state kept by every schedule that has not failed -/
structure GInv (ps al : Nat) (g : G α) : Prop where
  stack : ∃ t, R ps al g.s t ∧ (g.got ++ t.items).Perm g.pushed

theorem contents_R {ps al : Nat} {g : G α} (h : GInv ps al g) : (g.got ++ contents g.s).Perm g.pushed := by
  obtain ⟨t, r, p⟩ := h.stack
  rw [contents_of_R r]; exact p

theorem start_inv {ps al : Nat} (ha : 0 < al) : GInv ps al (start ps al : G α) :=
  ⟨_, R_init ha, List.Perm.refl _⟩

theorem popMany_one (s : PS α) {ps al : Nat} (h0 : 0 < ps) (ha : 0 < al) {t : StackSpec.St α}
    (r : R ps al s t) : (t.items = [] → ∃ e, popMany s 1 = .error e) ∧
      ∀ x xs, t.items = x :: xs → ∃ s', popMany s 1 = .ok (s', [x]) ∧ R ps al s' { t with items := xs } := by
  constructor
  · intro e
    obtain ⟨pre, cp, k, rfl, g, hi, -⟩ := r
    have : cont pre cp = [] := by
      have := congrArg List.reverse (hi.symm.trans e); simpa using this
    obtain ⟨rfl, rfl⟩ := g.cont_nil this
    exact ⟨_, rfl⟩
  · intro x xs e
    have hs : StackSpec.step ps al t (.popMany 1) = some ({ t with items := xs }, .vals [x]) := by
      simp [StackSpec.step, e]
    obtain ⟨s', es, r'⟩ := R_step h0 ha r (.popMany 1) hs
    refine ⟨s', ?_, r'⟩
    simp only [step] at es
    cases hp : popMany s 1 with
    | error f => rw [hp] at es; exact nomatch es
    | ok q =>
      obtain ⟨s2, vs⟩ := q
      rw [hp] at es
      simp only [bind_ok, Except.ok.injEq, Prod.mk.injEq, Out.vals.injEq] at es
      rw [es.1, es.2]

theorem isEmpty_R {s : PS α} {ps al : Nat} (h0 : 0 < ps) (ha : 0 < al) {t : StackSpec.St α}
    (r : R ps al s t) : isEmpty s = .ok (t.items.length == 0) := by
  obtain ⟨s', es, -⟩ := R_step h0 ha r .empty (t' := t) (o := .bool (t.items.length == 0)) rfl
  simp only [step] at es
  cases hp : isEmpty s with
  | error f => rw [hp] at es; exact nomatch es
  | ok q =>
    rw [hp] at es
    simp only [bind_ok, Except.ok.injEq, Prod.mk.injEq, Out.bool.injEq] at es
    rw [es.2]

theorem gstep_inv {ps al : Nat} (h0 : 0 < ps) (ha : 0 < al) {g g' : G α} {ev : Ev α} (h : GInv ps al g)
    (hs : gstep g ev = some (.ok g')) : GInv ps al g' := by
  obtain ⟨t, r, p⟩ := h.stack
  cases ev with
  | push x =>
    obtain ⟨s', e, r'⟩ := R_push h0 ha r x
    simp only [gstep, e, Option.some.injEq, Except.ok.injEq] at hs
    subst hs
    refine ⟨_, r', ?_⟩
    show (g.got ++ x :: t.items).Perm (x :: g.pushed)
    exact (List.perm_middle).trans (List.Perm.cons x p)
  | check i =>
    simp only [gstep] at hs
    split at hs
    · exact nomatch hs
    · rw [isEmpty_R h0 ha r] at hs
      simp only [Option.some.injEq, Except.ok.injEq] at hs
      subst hs
      exact ⟨t, r, p⟩
  | pop i =>
    simp only [gstep] at hs
    split at hs
    · cases hi : t.items with
      | nil =>
        obtain ⟨f, hf⟩ := (popMany_one g.s h0 ha r).1 hi
        rw [hf] at hs; simp at hs
      | cons x xs =>
        obtain ⟨s', e, r'⟩ := (popMany_one g.s h0 ha r).2 x xs hi
        rw [e] at hs
        simp only [Option.some.injEq, Except.ok.injEq] at hs
        subst hs
        refine ⟨_, r', ?_⟩
        show ([x] ++ g.got ++ xs).Perm g.pushed
        rw [hi] at p
        exact (List.perm_middle.symm).trans p
    · exact nomatch hs

/-- C122, whatever the number of consumers: as long as no step failed, every element that was
pushed has been popped once or is still on the stack, and nothing else has been popped. -/
theorem C122_conservation (ps al : Nat) (h0 : 0 < ps) (ha : 0 < al) (es : List (Ev α)) (g : G α)
    (h : grun (start ps al) es = some (.ok g)) :
    (g.got ++ contents g.s).Perm g.pushed := by
  have key : ∀ (es : List (Ev α)) (g0 : G α), GInv ps al g0 → grun g0 es = some (.ok g) → GInv ps al g := by
    intro es
    induction es with
    | nil => intro g0 h0' hr; simp only [grun, Option.some.injEq, Except.ok.injEq] at hr; exact hr ▸ h0'
    | cons e es ih =>
      intro g0 hg hr
      simp only [grun] at hr
      split at hr
      · exact nomatch hr
      · simp at hr
      · rename_i g1 hs
        exact ih g1 (gstep_inv h0 ha hg hs) hr
  exact contents_R (key es _ (start_inv ha) h)

/-- `e` is a step of a producer or of the consumer `c`. -/
def OnlyConsumer (c : Nat) : Ev α → Prop
  | .push _  => True
  | .check i => i = c
  | .pop i   => i = c

/-- C122, the part that holds: with one consumer and any number of producers, no schedule of any
length makes any call fail. -/
theorem C122_guarded_pop_partial (ps al : Nat) (h0 : 0 < ps) (ha : 0 < al) (c : Nat) (es : List (Ev α))
    (hc : ∀ e ∈ es, OnlyConsumer c e) (f : Fault) : grun (start ps al : G α) es ≠ some (.error f) := by
  have key : ∀ (es : List (Ev α)) (g : G α) (t : StackSpec.St α), R ps al g.s t →
      (g.saw c = true → t.items ≠ []) → (∀ e ∈ es, OnlyConsumer c e) → grun g es ≠ some (.error f) := by
    intro es
    induction es with
    | nil => intro g t _ _ _ hr; simp [grun] at hr
    | cons e es ih =>
      intro g t r hsaw hc hr
      have hc' : ∀ e ∈ es, OnlyConsumer c e := fun e he => hc e (List.mem_cons_of_mem _ he)
      have hce : OnlyConsumer c e := hc e List.mem_cons_self
      simp only [grun] at hr
      cases e with
      | push x =>
        obtain ⟨s', e1, r'⟩ := R_push h0 ha r x
        simp only [gstep, e1] at hr
        exact ih _ _ r' (fun _ => by simp [StackSpec.push]) hc' hr
      | check i =>
        obtain rfl : i = c := hce
        by_cases hs : g.saw i = true
        · simp [gstep, hs] at hr
        · simp only [gstep, hs, if_false, Bool.false_eq_true, isEmpty_R h0 ha r] at hr
          refine ih { g with saw := fun k => if k = i then !t.items.length == 0 else g.saw k } t r ?_ hc' hr
          intro hx e1
          simp [e1] at hx
      | pop i =>
        obtain rfl : i = c := hce
        by_cases hs : g.saw i = true
        · cases hi : t.items with
          | nil => exact hsaw hs hi
          | cons x xs =>
            obtain ⟨s', e1, r'⟩ := (popMany_one g.s h0 ha r).2 x xs hi
            simp only [gstep, hs, if_true, e1] at hr
            exact ih _ _ r' (fun hx => by simp at hx) hc' hr
        · simp [gstep, hs] at hr
  exact key es _ _ (R_init ha) (fun hx => by simp [start] at hx) hc

/-- non-vacuity: one consumer, pushes between the check and the pop; the element popped is not
the one that was there at the check -/
example : ∃ g, grun (start 2 1) [.push 1, .check 0, .push 2, .push 3, .pop 0, .check 0, .pop 0, .check 0]
      = some (.ok g) ∧ g.got = [2, (3 : Nat)] ∧ g.saw 0 = true ∧
    ∀ e ∈ [Ev.push 1, .check 0, .push 2, .push (3 : Nat), .pop 0, .check 0, .pop 0, .check 0], OnlyConsumer 0 e :=
  ⟨_, rfl, rfl, rfl, by simp [OnlyConsumer]⟩

/-! ### C123 -/

/-- C123 for `pop(v1..vn)`: when the assignment to the `k`-th variable throws, the variables
before it hold the `k` topmost elements, and the stack holds, and from then on behaves as holding,
exactly the others: nothing is lost. -/
theorem C123_pop_throws (ps al : Nat) (h0 : 0 < ps) (ha : 0 < al) (s : PS α) (h : Reach ps al s)
    (k : Nat) (hk : k < (contents s).length) (later : List Bool) :
    ∃ s', popThrow s (List.replicate k false ++ true :: later) = .ok (s', (contents s).take k, true) ∧
      contents s' = (contents s).drop k ∧ BehavesLike ps al s' ((contents s).drop k) := by
  have hinv := h.inv h0 ha
  clear h
  induction k generalizing s with
  | zero =>
    have hR := R_of_Inv hinv
    cases hc : contents s with
    | nil => rw [hc] at hk; exact absurd hk (Nat.lt_irrefl _)
    | cons x xs =>
      have hst := (R_step h0 ha hR .top (t' := ⟨contents s, s.base.length, s.syncCount.toNat, s.shrinkReq⟩)
        (o := .val x) (by simp [StackSpec.step, hc])).imp (fun _ h => h.1)
      obtain ⟨s1, e1⟩ := hst
      simp only [step] at e1
      cases ht : top s with
      | error f => rw [ht] at e1; exact nomatch e1
      | ok v =>
        refine ⟨s, ?_, by simp [hc], by simpa [hc] using behaves_of_Inv h0 ha hinv⟩
        simp only [List.replicate_zero, List.nil_append, popThrow, ht, bind_ok, if_true, List.take_zero]
  | succ k ih =>
    have hR := R_of_Inv hinv
    cases hc : contents s with
    | nil => rw [hc] at hk; exact absurd hk (Nat.not_lt_zero _)
    | cons x xs =>
      obtain ⟨s1, e1, -⟩ := R_step h0 ha hR .top (t' := ⟨contents s, s.base.length, s.syncCount.toNat, s.shrinkReq⟩)
        (o := .val x) (by simp [StackSpec.step, hc])
      obtain ⟨s2, e2, r2⟩ := R_step h0 ha hR .pop (t' := ⟨xs, s.base.length, s.syncCount.toNat, s.shrinkReq⟩)
        (o := .unit) (by simp [StackSpec.step, hc])
      simp only [step] at e1 e2
      cases ht : top s with
      | error f => rw [ht] at e1; exact nomatch e1
      | ok v =>
        rw [ht] at e1
        simp only [bind_ok, Except.ok.injEq, Prod.mk.injEq, Out.val.injEq] at e1
        cases hp : popOne s with
        | error f => rw [hp] at e2; exact nomatch e2
        | ok s3 =>
          rw [hp] at e2
          simp only [bind_ok, Except.ok.injEq, Prod.mk.injEq] at e2
          rw [← e2.1] at r2
          have hc3 : contents s3 = xs := contents_of_R r2
          obtain ⟨s', e', c', b'⟩ := ih s3 (by rw [hc3]; rw [hc] at hk; simpa using hk) (Inv_of_R r2)
          refine ⟨s', ?_, by rw [c', hc3, List.drop_succ_cons], by rw [List.drop_succ_cons, ← hc3]; exact b'⟩
          simp only [List.replicate_succ, List.cons_append, popThrow, ht, bind_ok, Bool.false_eq_true, if_false,
            hp, e', hc3, e1.2, List.take_succ_cons]

/-- non-vacuity: the third assignment of four throws, across pages -/
example : ∃ s : PS Nat, Reach 2 1 s ∧ contents s = [5, 4, 3, 2, 1] ∧
    (popThrow s [false, false, true, false]).map (fun r => (r.2.1, r.2.2)) = .ok ([5, 4], true) :=
  ⟨_, Reach.call (o := .unit) (.pushMany 1 [2, 3, 4, 5]) .init (by simp) rfl, rfl, rfl⟩

/-- C123 for `push(x1..xn)`: when copying an element throws after `xs` were pushed, the stack
holds the old elements and `xs`; it behaves as holding them exactly when that number of elements
is 0 or no multiple of the page size (the C22 defect); if nothing throws all are pushed. -/
theorem C123_push_throws_partial (ps al : Nat) (h0 : 0 < ps) (ha : 0 < al) (s : PS α) (h : Reach ps al s)
    (xs : List α) (later : List (Option α)) :
    ∃ s', pushThrow s (xs.map some ++ none :: later) = .ok (s', true) ∧
      contents s' = xs.reverse ++ contents s ∧
      (BehavesLike ps al s' (xs.reverse ++ contents s) ↔
        ((xs.length + (contents s).length) = 0 ∨ (xs.length + (contents s).length) % ps ≠ 0)) := by
  induction xs generalizing s with
  | nil =>
    obtain ⟨s', e, c, b⟩ := C22_push_throw_partial ps al h0 ha s h
    refine ⟨s', by simp only [List.map_nil, List.nil_append, pushThrow, e, bind_ok], by simpa using c, ?_⟩
    simpa [cleanRemainder] using b
  | cons x xs ih =>
    obtain ⟨s1, e1, r1⟩ := R_push h0 ha (R_of_Inv (h.inv h0 ha)) x
    have hr : Reach ps al s1 := Reach.call (o := .unit) (.push x) h (by simp) (by simp only [step, e1, bind_ok])
    have hc1 : contents s1 = x :: contents s := by
      rw [contents_of_R r1]; simp [StackSpec.push]
    obtain ⟨s', e', c', b'⟩ := ih s1 hr
    rw [hc1] at c' b'
    refine ⟨s', by simp only [List.map_cons, List.cons_append, pushThrow, e1, bind_ok, e'], by rw [c']; simp, ?_⟩
    rw [show (x :: xs).reverse ++ contents s = xs.reverse ++ x :: contents s by simp]
    rw [b']
    simp only [List.length_cons]
    rw [show xs.length + ((contents s).length + 1) = xs.length + 1 + (contents s).length by omega]

/-- C123 is false for `push(x1..xn)`: pages of two, the third copy throws, then `top()` of the
stack that holds two elements is undefined. -/
theorem C123_push_throws_refuted : ∃ s' : PS Nat, pushThrow (init 2 1) [some 1, some 2, none] = .ok (s', true) ∧
    contents s' = [2, 1] ∧ top s' = .error (.ub .emptyBack) := ⟨_, rfl, rfl, rfl⟩

end Falcon.PSGuard
