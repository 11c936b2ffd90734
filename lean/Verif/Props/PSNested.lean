import Verif.Proofs.PSNested
/-
C159: the copy constructor and the destructor of an element use the stack that the element is being put
on or taken from.
-/
namespace Falcon.PSNested
open Falcon.PagedStack

variable {V : Type}

/-- A stack that a program can have at hand, for the examples: numbers `1..n` pushed, pages of `ps`. -/
def filled (ps n : Nat) : Except Bad (PS Nat × List (Out Nat)) :=
  calls false [] (init ps 1) ((List.range n).map fun i => .push (i + 1) [])

/-- **C159** is false: a copy constructor that pushes something, which an ideal stack permits, constructs
two elements in the same place. This holds on every stack, whatever else the copy constructor does. -/
theorem C159_push_in_copy_refuted {ps al : Nat} (h0 : 0 < ps) (ha : 0 < al) {s : PS V} (hr : Reach ps al s)
    (v w : V) (d rest : List (Call V)) :
    (expects (contents s) [.push v [.push w []]]).isSome = true ∧
    call false [] s (.push v (.push w d :: rest)) = .error .overlap := by
  refine ⟨rfl, ?_⟩
  have r : Rel ps al none [] s (contents s) := Rel_none.2 ⟨hr.inv h0 ha, rfl⟩
  obtain ⟨pre, cp, k, n, sr, m⟩ := r
  obtain ⟨s1, pre1, cp1, k1, e1, m1, l1, l2⟩ := m.advance h0 ha (by simp)
  obtain ⟨e2, e3⟩ := m1.advance_busy h0 rfl
  have hcur : s1.cur = pre1.length := by rw [m1.st]; simp
  have hp : s1.page pre1.length = .ok cp1 := by rw [m1.st]; simp
  rw [l1, l2] at e3
  rw [call]
  simp only [enter_off, bok, e1, plain_ok, hcur, hp]
  rw [if_neg (by simp), calls, call]
  simp only [enter_off, bok, e2, plain_ok, hcur, hp]
  rw [if_pos (by simp)]
  rfl

/-- ... and a destructor that looks at the element now on top reads a page that has become empty, when the
element it belongs to was the first of its page. -/
theorem C159_top_in_destructor_refuted :
    ((filled 2 3).toOption.map fun r => (contents r.1, (expects (contents r.1) [.pop [.top]]).isSome,
        (call false [] r.1 (.pop [.top])).toOption.isSome))
      = some ([3, 2, 1], true, false) := by decide +kernel

/-- ... and a copy constructor that takes an element off leaves a destroyed element on the stack. -/
theorem C159_pop_in_copy_refuted :
    ((filled 4 2).toOption.map fun r => ((expects (contents r.1) [.push 9 [.pop []]]).map (·.1),
        match call false [] r.1 (.push 9 [.pop []]) with | .ok _ => false | .error e => e == .hole))
      = some (some [9, 1], true) := by decide +kernel

/-- **C159** (exact). On every stack that a program can have, with the default mutex, any tree of calls
works - everything returned is as on an ideal stack, and so is everything later - exactly when it is
permitted by the rules of `permits`: a copy constructor or destructor does not push on a stack as high as
it found it, a copy constructor leaves the stack as high as it found it, and neither reads or pops the top
as long as the stack is as high as it found it and that height is a multiple of the page size. -/
theorem C159_exact_partial {ps al : Nat} (h0 : 0 < ps) (ha : 0 < al) {s : PS V} (hr : Reach ps al s)
    (cs : List (Call V)) (l : List V) (os : List (Out V)) :
    (∃ s', calls false [] s cs = .ok (s', os) ∧ contents s' = l ∧ BehavesLike ps al s' l) ↔
      permits ps none (contents s) cs = some (l, os) := by
  have r : Rel ps al none [] s (contents s) := Rel_none.2 ⟨hr.inv h0 ha, rfl⟩
  have h := calls_matches h0 ha cs none [] s (contents s) r
  constructor
  · rintro ⟨s', e, hc, -⟩
    rw [e] at h
    cases hq : permits ps none (contents s) cs with
    | none => rw [hq] at h; obtain ⟨_, h⟩ := h; cases h
    | some res =>
      obtain ⟨l2, o2⟩ := res
      rw [hq] at h
      obtain ⟨s2, e2, r2⟩ := h
      cases e2
      rw [← hc, (Rel_none.1 r2).2]
  · intro e
    rw [e] at h
    obtain ⟨s', e', r'⟩ := h
    obtain ⟨i', hc⟩ := Rel_none.1 r'
    refine ⟨s', e', hc, ?_⟩
    rw [← hc]
    exact behaves_of_Inv h0 ha i'

/-- What is not permitted goes wrong in the call itself: undefined behaviour, two elements in one place, or
a destroyed element on the stack. -/
theorem C159_otherwise_partial {ps al : Nat} (h0 : 0 < ps) (ha : 0 < al) {s : PS V} (hr : Reach ps al s)
    (cs : List (Call V)) (h : permits ps none (contents s) cs = none) : ∃ e, calls false [] s cs = .error e := by
  have r : Rel ps al none [] s (contents s) := Rel_none.2 ⟨hr.inv h0 ha, rfl⟩
  have hm := calls_matches h0 ha cs none [] s (contents s) r
  rw [h] at hm
  exact hm

mutual
theorem permitted_expect (ps : Nat) (at? : Option Nat) (l : List V) (c : Call V) (r : List V × List (Out V))
    (h : permitted ps at? l c = some r) : expect l c = some r := by
  match c with
  | .push v during =>
    rw [permitted] at h
    rw [expect]
    split at h
    · cases h
    · cases hq : permits ps (some l.length) l during with
      | none => rw [hq] at h; cases h
      | some res =>
        have := permits_expects ps _ l during res hq
        rw [hq] at h
        simp only at h
        split at h
        · cases h; rw [this]; rfl
        · cases h
  | .pop during =>
    rw [permitted_pop] at h
    split at h
    · cases h
    · cases l with
      | nil => cases h
      | cons x l => rw [expect]; exact permits_expects ps _ l during r h
  | .top =>
    rw [permitted_top] at h
    split at h
    · cases h
    · cases l with
      | nil => cases h
      | cons x l => rw [expect]; exact h
  | .empty => rw [permitted] at h; rw [expect]; exact h
  | .size => rw [permitted] at h; rw [expect]; exact h

theorem permits_expects (ps : Nat) (at? : Option Nat) (l : List V) (cs : List (Call V)) (r : List V × List (Out V))
    (h : permits ps at? l cs = some r) : expects l cs = some r := by
  match cs with
  | [] => rw [permits] at h; rw [expects]; exact h
  | c :: cs =>
    rw [permits] at h
    rw [expects]
    cases hq : permitted ps at? l c with
    | none => rw [hq] at h; cases h
    | some res =>
      have h1 := permitted_expect ps at? l c res hq
      rw [hq] at h
      simp only at h
      cases hq2 : permits ps at? res.1 cs with
      | none => rw [hq2] at h; cases h
      | some res2 =>
        have h2 := permits_expects ps at? res.1 cs res2 hq2
        rw [hq2] at h
        cases h
        rw [h1]
        show (expects res.1 cs >>= _) = _
        rw [h2]; rfl
end

/-- What is permitted has the result one expects. -/
theorem C159_as_expected (ps : Nat) (l : List V) (cs : List (Call V)) (r : List V × List (Out V))
    (h : permits ps none l cs = some r) : expects l cs = some r := permits_expects ps none l cs r h

theorem asks_permits (ps : Nat) (at? : Option Nat) (l : List V) (d : List (Call V)) (h : ∀ c ∈ d, Asks c) :
    ∃ os, permits ps at? l d = some (l, os) := by
  induction d with
  | nil => exact ⟨[], by rw [permits]⟩
  | cons c d ih =>
    obtain ⟨os, e⟩ := ih (fun c hc => h c (by simp [hc]))
    have hc := h c (by simp)
    cases c with
    | push v d => exact hc.elim
    | pop d => exact hc.elim
    | top => exact hc.elim
    | empty => exact ⟨_, by rw [permits, permitted]; simp only [e]; rfl⟩
    | size => exact ⟨_, by rw [permits, permitted]; simp only [e]; rfl⟩

/-- Element operations that only ask `empty()` and `size()` are always fine: a program whose calls are
all right on an ideal stack gets from the stack exactly what it expects. -/
theorem C159_queries {ps al : Nat} (h0 : 0 < ps) (ha : 0 < al) {s : PS V} (hr : Reach ps al s)
    (cs : List (Call V)) (hq : ∀ c ∈ cs, (∀ v d, c = .push v d → ∀ q ∈ d, Asks q) ∧ (∀ d, c = .pop d → ∀ q ∈ d, Asks q))
    (l : List V) (os : List (Out V)) (he : expects (contents s) cs = some (l, os)) :
    ∃ s', calls false [] s cs = .ok (s', os) ∧ contents s' = l ∧ BehavesLike ps al s' l := by
  refine (C159_exact_partial h0 ha hr cs l os).2 ?_
  generalize contents s = l0 at he
  clear hr
  have one : ∀ (l : List V) (c : Call V), ((∀ v d, c = .push v d → ∀ q ∈ d, Asks q) ∧ (∀ d, c = .pop d → ∀ q ∈ d, Asks q)) →
      ∀ r, expect l c = some r → permitted ps none l c = some r := by
    intro l c hc r hr
    cases c with
    | push v d =>
      obtain ⟨os, e⟩ := asks_permits ps (some l.length) l d (hc.1 v d rfl)
      have e' := permits_expects ps _ l d _ e
      rw [expect, e'] at hr
      cases hr
      rw [permitted, if_neg (by simp), e]
      simp
    | pop d =>
      rw [permitted_pop, if_neg (by simp)]
      cases l with
      | nil => rw [expect] at hr; cases hr
      | cons x l =>
        obtain ⟨os, e⟩ := asks_permits ps (some l.length) l d (hc.2 d rfl)
        have e' := permits_expects ps _ l d _ e
        rw [expect, e'] at hr
        simp only
        rw [e]; exact hr
    | top =>
      rw [permitted_top, if_neg (by simp)]
      cases l with
      | nil => rw [expect] at hr; cases hr
      | cons x l => rw [expect] at hr; exact hr
    | empty => rw [expect] at hr; rw [permitted]; exact hr
    | size => rw [expect] at hr; rw [permitted]; exact hr
  induction cs generalizing l0 l os with
  | nil => rw [expects] at he; rw [permits]; exact he
  | cons c cs ih =>
    rw [expects] at he
    cases h1 : expect l0 c with
    | none => rw [h1] at he; cases he
    | some r1 =>
      rw [h1] at he
      cases h2 : expects r1.1 cs with
      | none =>
        have he' : (expects r1.1 cs >>= fun x => some (x.1, r1.2 ++ x.2)) = some (l, os) := he
        rw [h2] at he'; cases he'
      | some r2 =>
        have he' : (expects r1.1 cs >>= fun x => some (x.1, r1.2 ++ x.2)) = some (l, os) := he
        rw [h2] at he'
        cases he'
        rw [permits, one l0 c (hq c (by simp)) r1 h1]
        simp only
        rw [ih (fun c hc => hq c (by simp [hc])) r2.1 r2.2 r1.1 h2]

/-- A destructor may take further elements off the stack (a chain of clean-ups), as long as the element it
belongs to was not the first of a page: then it finds the stack without that element, whatever it calls is
as on an ideal stack, and what it leaves is what there is afterwards. -/
theorem C159_cleanup {ps al : Nat} (h0 : 0 < ps) (ha : 0 < al) {s : PS V} (hr : Reach ps al s)
    (x y : V) (l : List V) (hc : contents s = x :: y :: l) (hm : (l.length + 1) % ps ≠ 0) :
    ∃ s', call false [] s (.pop [.top, .pop []]) = .ok (s', [.top y]) ∧ contents s' = l ∧ BehavesLike ps al s' l := by
  obtain ⟨s', e, h1, h2⟩ := (C159_exact_partial h0 ha hr [.pop [.top, .pop []]] l [.top y]).2 (by
    rw [hc, permits, permitted_pop, if_neg (by simp)]
    simp [permits, permitted_top, permitted_pop, hm])
  refine ⟨s', ?_, h1, h2⟩
  rw [calls] at e
  cases hq : call false [] s (.pop [.top, .pop []]) with
  | error b => rw [hq] at e; cases e
  | ok r =>
    rw [hq] at e
    simp only [bok, calls, List.append_nil] at e
    exact e

/-- With a mutex that the thread cannot take twice, an element operation that makes any call at all on the
stack never returns. -/
theorem C159_locked_refuted {ps al : Nat} (h0 : 0 < ps) (ha : 0 < al) {s : PS V} (hr : Reach ps al s)
    (c : Call V) (hc : ¬ Silent c) (hv : expect (contents s) c ≠ none) : call true [] s c = .error .hang := by
  have r : Rel ps al none [] s (contents s) := Rel_none.2 ⟨hr.inv h0 ha, rfl⟩
  obtain ⟨pre, cp, k, n, sr, m⟩ := r
  have stuck : ∀ (sl : Slot) (s : PS V) (d : List (Call V)), d ≠ [] → calls true [sl] s d = .error .hang := by
    intro sl s d hd
    cases d with
    | nil => exact absurd rfl hd
    | cons c d => rw [calls]; cases c <;> rw [call] <;> simp [enter]
  cases c with
  | push v d =>
    obtain ⟨s1, pre1, cp1, k1, e1, m1, l1, l2⟩ := m.advance h0 ha (by simp)
    have hcur : s1.cur = pre1.length := by rw [m1.st]; simp
    have hp : s1.page pre1.length = .ok cp1 := by rw [m1.st]; simp
    rw [call]
    simp only [enter, ne_eq, not_true, and_false, if_false, bok, e1, plain_ok, hcur, hp]
    rw [if_neg (by simp), stuck _ _ d hc]
    rfl
  | pop d =>
    cases hl : contents s with
    | nil => rw [hl, expect] at hv; exact absurd rfl hv
    | cons x l =>
      rw [hl] at m
      obtain ⟨cp', rfl, hc'⟩ := m.cp_ne (by simp)
      have hcur : s.cur = pre.length := by rw [m.st]; simp
      have hp : s.page pre.length = .ok (cp' ++ [x]) := by rw [m.st]; simp
      rw [call]
      simp only [enter, ne_eq, not_true, and_false, if_false, bok, plain_ok, hcur, hp]
      rw [if_neg (by simp), stuck _ _ d hc]
      rfl
  | top => exact absurd trivial hc
  | empty => exact absurd trivial hc
  | size => exact absurd trivial hc

/-- ... and calls whose element operations leave the stack alone do not notice the mutex. -/
theorem C159_silent (s : PS V) (cs : List (Call V)) (h : ∀ c ∈ cs, Silent c) : calls true [] s cs = calls false [] s cs := by
  induction cs generalizing s with
  | nil => rw [calls, calls]
  | cons c cs ih =>
    have e : call true [] s c = call false [] s c := by
      have hc := h c (by simp)
      cases c with
      | push v d => cases hc; rw [call, call]; simp only [enter_off]; rw [show enter true [] = .ok () by simp [enter]]; simp [calls]
      | pop d => cases hc; rw [call, call]; simp only [enter_off]; rw [show enter true [] = .ok () by simp [enter]]; simp [calls]
      | top => rw [call, call]; simp [enter]
      | empty => rw [call, call]; simp [enter]
      | size => rw [call, call]; simp [enter]
    rw [calls, calls, e]
    have : (fun x : PS V × List (Out V) => calls true [] x.1 cs) = fun x => calls false [] x.1 cs :=
      funext fun x => ih x.1 (fun c hc => h c (by simp [hc]))
    cases call false [] s c with
    | error b => rfl
    | ok r => exact congrArg (· >>= fun x : PS V × List (Out V) => Except.ok (x.1, r.2 ++ x.2)) (congrFun this r)

/-- The hypotheses are met: a stack of seven numbers on pages of four; popping runs a destructor that looks
at the top, takes off another element and puts one on. Putting on two would be one too many. -/
example : ((filled 4 7).toOption.map fun r =>
    (contents r.1,
     (calls false [] r.1 [.pop [.top, .pop [], .push 20 [], .push 21 []]]).toOption.isSome))
   = some ([7, 6, 5, 4, 3, 2, 1], false) := by
  decide +kernel

example : ((filled 4 7).toOption.bind fun r =>
    (calls false [] r.1 [.pop [.top, .pop [], .push 20 [.size], .size]]).toOption.map fun x => (contents x.1, x.2))
   = some ([20, 5, 4, 3, 2, 1], [.top 6, .size 5, .size 6]) := by
  decide +kernel

/-- `C159_cleanup`, `C159_queries`: concrete cases. -/
example : permits 4 none [7, 6, 5, 4, 3, 2, 1] [.pop [.top, .pop []], .push 8 [.empty, .size], .pop [.size]]
    = some ([5, 4, 3, 2, 1], [Out.top 6, .empty false, .size 5, .size 5]) := by decide +kernel

end Falcon.PSNested
