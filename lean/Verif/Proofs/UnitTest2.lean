import Verif.Proofs.UnitTest
import Verif.Props.TestCase
/- Grouping by component; the effect of a performance on statuses and streams. -/
namespace Falcon.Fut

/-! ### The order of names -/

theorem char_eq_of_toNat {a b : Char} (h : a.toNat = b.toNat) : a = b := by
  apply Char.ext
  exact UInt32.toNat_inj.1 h

theorem strLt_irrefl (a : Str) : strLt a a = false := by
  induction a with
  | nil => rfl
  | cons x xs ih => simp [strLt, ih]

theorem strLt_trans {a b c : Str} (h : strLt a b = true) (h' : strLt b c = true) : strLt a c = true := by
  induction b generalizing a c with
  | nil => cases a <;> simp [strLt] at h
  | cons y ys ih =>
    cases c with
    | nil => simp [strLt] at h'
    | cons z zs =>
      cases a with
      | nil => rfl
      | cons x xs =>
        simp only [strLt] at h h' ⊢
        by_cases h1 : x.toNat < y.toNat
        · by_cases h2 : y.toNat < z.toNat
          · rw [if_pos (by omega)]
          · rw [if_neg h2] at h'
            by_cases h3 : z.toNat < y.toNat
            · simp [h3] at h'
            · rw [if_pos (by omega)]
        · rw [if_neg h1] at h
          by_cases h2 : y.toNat < x.toNat
          · simp [h2] at h
          · rw [if_neg h2] at h
            by_cases h3 : y.toNat < z.toNat
            · rw [if_pos (by omega)]
            · rw [if_neg h3] at h'
              by_cases h4 : z.toNat < y.toNat
              · simp [h4] at h'
              · rw [if_neg h4] at h'
                rw [if_neg (by omega), if_neg (by omega)]
                exact ih h h'

theorem strLt_total {a b : Str} (h : strLt a b = false) (hne : a ≠ b) : strLt b a = true := by
  induction b generalizing a with
  | nil =>
    cases a with
    | nil => exact absurd rfl hne
    | cons => rfl
  | cons y ys ih =>
    cases a with
    | nil => simp [strLt] at h
    | cons x xs =>
      simp only [strLt] at h ⊢
      by_cases h1 : x.toNat < y.toNat
      · simp [h1] at h
      · rw [if_neg h1] at h
        by_cases h2 : y.toNat < x.toNat
        · rw [if_pos h2]
        · rw [if_neg h2] at h
          rw [if_neg h2, if_neg h1]
          have : x = y := char_eq_of_toNat (by omega)
          subst this
          exact ih h (fun e => hne (by rw [e]))

/-- It is the order of std::string: by the first differing character code, a prefix comes first. -/
theorem strLt_iff (a b : Str) : strLt a b = true ↔ ∃ p x y, (a = p ∧ b = p ++ y :: x) ∨ ∃ z u, a = p ++ z :: x ∧ b = p ++ y :: u ∧ z.toNat < y.toNat := by
  constructor
  · intro h
    induction b generalizing a with
    | nil => cases a <;> simp [strLt] at h
    | cons y ys ih =>
      cases a with
      | nil => exact ⟨[], ys, y, .inl ⟨rfl, rfl⟩⟩
      | cons x xs =>
        simp only [strLt] at h
        by_cases h1 : x.toNat < y.toNat
        · exact ⟨[], xs, y, .inr ⟨x, ys, rfl, rfl, h1⟩⟩
        · rw [if_neg h1] at h
          by_cases h2 : y.toNat < x.toNat
          · simp [h2] at h
          · rw [if_neg h2] at h
            have : x = y := char_eq_of_toNat (by omega)
            subst this
            obtain ⟨p, r, c, h | ⟨z, u, h3, h4, h5⟩⟩ := ih xs h
            · exact ⟨x :: p, r, c, .inl ⟨by rw [h.1], by rw [h.2]; rfl⟩⟩
            · exact ⟨x :: p, r, c, .inr ⟨z, u, by rw [h3]; rfl, by rw [h4]; rfl, h5⟩⟩
  · rintro ⟨p, x, y, ⟨rfl, rfl⟩ | ⟨z, u, rfl, rfl, h⟩⟩
    · induction a with
      | nil => rfl
      | cons c cs ih => simp [strLt, ih]
    · induction p with
      | nil => simp [strLt, h]
      | cons c cs ih => simp [strLt, ih]

/-- The order of the map is the order of strings. -/
theorem strLt_lt (a b : Str) : strLt a b = true ↔ a < b := by
  induction b generalizing a with
  | nil => cases a <;> simp [strLt]
  | cons y ys ih =>
    cases a with
    | nil => simp [strLt]
    | cons x xs =>
      have hxy : (x < y) ↔ x.toNat < y.toNat := Iff.rfl
      have he : x = y ↔ x.toNat = y.toNat := ⟨fun e => e ▸ rfl, fun e => Char.ext (UInt32.toNat_inj.1 e)⟩
      rw [List.cons_lt_cons_iff, ← ih xs, hxy, he, strLt]
      split
      · simp [*]
      · split
        · constructor
          · intro h; cases h
          · rintro (h | h) <;> omega
        · constructor
          · intro h; exact .inr ⟨by omega, h⟩
          · rintro (h | h)
            · omega
            · exact h.2

/-! ### The component map -/

def SortedNames (ns : List Str) : Prop := ns.Pairwise (fun a b => strLt a b = true)

def testsOf (n : Str) (cs : List Comp) : List Nat := (cs.filter (fun c => c.name = n)).flatMap Comp.tests

theorem intoComp_mem (c : Str) (t : Nat) (cs : List Comp) (n : Str) : n ∈ (intoComp c t cs).map Comp.name ↔ n = c ∨ n ∈ cs.map Comp.name := by
  induction cs with
  | nil => simp [intoComp]
  | cons x xs ih =>
    unfold intoComp
    split
    · rename_i h; simp [h]
    · split
      · simp
      · simp only [List.map_cons, List.mem_cons, ih]
        constructor
        · rintro (h | h | h)
          · exact .inr (.inl h)
          · exact .inl h
          · exact .inr (.inr h)
        · rintro (h | h | h)
          · exact .inr (.inl h)
          · exact .inl h
          · exact .inr (.inr h)

theorem intoComp_sorted (c : Str) (t : Nat) (cs : List Comp) (h : SortedNames (cs.map Comp.name)) : SortedNames ((intoComp c t cs).map Comp.name) := by
  induction cs with
  | nil => simp [intoComp, SortedNames]
  | cons x xs ih =>
    obtain ⟨h1, h2⟩ := List.pairwise_cons.1 h
    unfold intoComp
    split
    · exact h
    · rename_i hne
      split
      · rename_i hlt
        refine List.pairwise_cons.2 ⟨?_, h⟩
        intro n hn
        simp at hn
        rcases hn with rfl | ⟨y, hy, rfl⟩
        · exact hlt
        · exact strLt_trans hlt (h1 y.name (by simp; exact ⟨y, hy, rfl⟩))
      · rename_i hlt
        refine List.pairwise_cons.2 ⟨?_, ih h2⟩
        intro n hn
        rw [intoComp_mem] at hn
        rcases hn with rfl | hn
        · exact strLt_total (by simpa using hlt) (fun e => hne e.symm)
        · exact h1 n hn

theorem testsOf_nil_of (n : Str) (cs : List Comp) (h : n ∉ cs.map Comp.name) : testsOf n cs = [] := by
  unfold testsOf
  have : cs.filter (fun c => c.name = n) = [] := by
    apply List.filter_eq_nil_iff.2
    intro c hc; simp; intro e; exact h (by simp; exact ⟨c, hc, e⟩)
  rw [this]; rfl

theorem testsOf_cons (n : Str) (c : Comp) (cs : List Comp) : testsOf n (c :: cs) = (if c.name = n then c.tests else []) ++ testsOf n cs := by
  unfold testsOf
  by_cases h : c.name = n <;> simp [h]

theorem intoComp_testsOf (c : Str) (t : Nat) (cs : List Comp) (hs : SortedNames (cs.map Comp.name)) (n : Str) :
    testsOf n (intoComp c t cs) = testsOf n cs ++ (if c = n then [t] else []) := by
  induction cs with
  | nil => rw [intoComp, testsOf_cons]; simp [testsOf]
  | cons x xs ih =>
    obtain ⟨h1, h2⟩ := List.pairwise_cons.1 hs
    unfold intoComp
    split
    · rename_i he
      subst he
      rw [testsOf_cons, testsOf_cons]
      by_cases h : x.name = n
      · have : testsOf n xs = [] := testsOf_nil_of _ _ (fun hm => by
          have := h1 n hm
          rw [h, strLt_irrefl] at this; cases this)
        simp [h, this]
      · simp [h]
    · rename_i hne
      split
      · rename_i hlt
        rw [testsOf_cons]
        by_cases h : c = n
        · subst h
          have : testsOf c (x :: xs) = [] := testsOf_nil_of _ _ (fun hm => by
            simp at hm
            rcases hm with h | ⟨y, hy, h⟩
            · exact hne h.symm
            · have := strLt_trans hlt (h1 y.name (by simp; exact ⟨y, hy, rfl⟩))
              rw [h, strLt_irrefl] at this; cases this)
          rw [this]; simp
        · simp [h]
      · rw [testsOf_cons, ih h2, testsOf_cons, List.append_assoc]

theorem groupTests_cons (defs : Nat → TestDef) (cs : List Comp) (t : Nat) (ts : List Nat) :
    groupTests defs cs (t :: ts) = groupTests defs (intoComp (defs t).component t cs) ts := rfl

theorem groupTests_sorted (defs : Nat → TestDef) (cs : List Comp) (ts : List Nat) (h : SortedNames (cs.map Comp.name)) :
    SortedNames ((groupTests defs cs ts).map Comp.name) := by
  induction ts generalizing cs with
  | nil => exact h
  | cons t ts ih => rw [groupTests_cons]; exact ih _ (intoComp_sorted _ _ _ h)

theorem groupTests_mem (defs : Nat → TestDef) (cs : List Comp) (ts : List Nat) (n : Str) :
    n ∈ (groupTests defs cs ts).map Comp.name ↔ n ∈ cs.map Comp.name ∨ ∃ t ∈ ts, (defs t).component = n := by
  induction ts generalizing cs with
  | nil => simp [groupTests]
  | cons t ts ih =>
    rw [groupTests_cons, ih, intoComp_mem]
    simp only [List.mem_cons, exists_eq_or_imp]
    constructor
    · rintro ((h | h) | h)
      · exact .inr (.inl h.symm)
      · exact .inl h
      · exact .inr (.inr h)
    · rintro (h | h | h)
      · exact .inl (.inr h)
      · exact .inl (.inl h.symm)
      · exact .inr h

theorem groupTests_testsOf (defs : Nat → TestDef) (cs : List Comp) (ts : List Nat) (hs : SortedNames (cs.map Comp.name)) (n : Str) :
    testsOf n (groupTests defs cs ts) = testsOf n cs ++ ts.filter (fun t => (defs t).component = n) := by
  induction ts generalizing cs with
  | nil => simp [groupTests]
  | cons t ts ih =>
    rw [groupTests_cons, ih _ (intoComp_sorted _ _ _ hs), intoComp_testsOf _ _ _ hs]
    by_cases h : (defs t).component = n <;> simp [h]

/-- The tests in the order of the map. -/
theorem flatMap_testsOf (cs : List Comp) (hs : SortedNames (cs.map Comp.name)) : cs.flatMap Comp.tests = (cs.map Comp.name).flatMap (fun n => testsOf n cs) := by
  have key : ∀ pre : List Comp, SortedNames ((pre ++ cs).map Comp.name) → cs.flatMap Comp.tests = (cs.map Comp.name).flatMap (fun n => testsOf n (pre ++ cs)) := by
    clear hs
    induction cs with
    | nil => intro _ _; rfl
    | cons x xs ih =>
      intro pre h
      simp only [List.flatMap_cons, List.map_cons]
      have hx : testsOf x.name (pre ++ x :: xs) = x.tests := by
        rw [List.map_append, SortedNames, List.pairwise_append] at h
        obtain ⟨_, h2, h3⟩ := h
        have e1 : pre.filter (fun c => c.name = x.name) = [] := by
          apply List.filter_eq_nil_iff.2
          intro c hc; simp; intro e
          have := h3 c.name (by simp; exact ⟨c, hc, rfl⟩) x.name (by simp)
          rw [e, strLt_irrefl] at this; cases this
        have e2 : xs.filter (fun c => c.name = x.name) = [] := by
          apply List.filter_eq_nil_iff.2
          intro c hc; simp; intro e
          have := (List.pairwise_cons.1 h2).1 c.name (by simp; exact ⟨c, hc, rfl⟩)
          rw [e, strLt_irrefl] at this; cases this
        unfold testsOf
        rw [List.filter_append, e1, List.filter_cons]
        simp [e2]
      rw [hx]
      have := ih (pre ++ [x]) (by simpa using h)
      rw [this]; simp
  exact key [] (by simpa using hs)

def failuresOf (cs : List Comp) : Nat := (cs.map Comp.failures).sum

theorem intoComp_failures (c : Str) (t : Nat) (cs : List Comp) : failuresOf (intoComp c t cs) = failuresOf cs := by
  unfold failuresOf
  induction cs with
  | nil => simp [intoComp]
  | cons x xs ih =>
    unfold intoComp
    split
    · simp
    · split
      · simp
      · simp [ih]

theorem groupTests_failures (defs : Nat → TestDef) (cs : List Comp) (ts : List Nat) : failuresOf (groupTests defs cs ts) = failuresOf cs := by
  induction ts generalizing cs with
  | nil => rfl
  | cons t ts ih => rw [groupTests_cons, ih, intoComp_failures]

def countOf (cs : List Comp) : Nat := (cs.map (fun c => c.tests.length)).sum

theorem intoComp_count (c : Str) (t : Nat) (cs : List Comp) : countOf (intoComp c t cs) = countOf cs + 1 := by
  unfold countOf
  induction cs with
  | nil => simp [intoComp]
  | cons x xs ih =>
    unfold intoComp
    split
    · simp; omega
    · split
      · simp; omega
      · simp [ih]; omega

theorem groupTests_count (defs : Nat → TestDef) (cs : List Comp) (ts : List Nat) : countOf (groupTests defs cs ts) = countOf cs + ts.length := by
  induction ts generalizing cs with
  | nil => rfl
  | cons t ts ih => rw [groupTests_cons, ih, intoComp_count]; simp; omega

/-! ### What a performance does -/

theorem begin_other (c : Bool) (t u : Nat) (w : World) (h : u ≠ t) : (beginTest c t w).tc u = w.tc u := by
  cases c <;> simp [beginTest, setStatus, World.setTc, h]
theorem begin_tr (c : Bool) (t : Nat) (w : World) : (beginTest c t w).tr = w.tr := by
  cases c <;> simp [beginTest, setStatus, World.setTc]

theorem endTest_frame (c : Bool) (t : Nat) (w w' : World) (h : endTest c t w = .ok w') :
    (∀ u, u ≠ t → w'.tc u = w.tc u) ∧ (w'.tc t).status = (w.tc t).status ∧ w'.tr = w.tr ∧ w'.content = w.content ∧ (w'.tc t).runs = (w.tc t).runs ∧
      (w'.tc t).failLine = (w.tc t).failLine := by
  cases c with
  | false => cases h; exact ⟨fun _ _ => rfl, rfl, rfl, rfl, rfl, rfl⟩
  | true =>
    unfold endTest at h
    rw [if_pos rfl] at h
    split at h
    · cases h
      refine ⟨fun u hu => by simp [World.setTc, hu], by simp [World.setTc], rfl, rfl, by simp [World.setTc], by simp [World.setTc]⟩
    · cases h

theorem lastVerdict_cons (u t : Nat) (s : Status) (vs : List (Nat × Status)) :
    lastVerdict u ((t, s) :: vs) = (lastVerdict u vs).or (if t = u then some s else none) := by
  unfold lastVerdict
  by_cases h : t = u
  · simp only [h, List.filter_cons, decide_true, if_true, List.map_cons, List.getLast?_cons]
    cases (List.map Prod.snd (List.filter (fun v => decide (v.1 = u)) vs)).getLast? <;> rfl
  · simp [h]

theorem Performed.status {env : Env} {defs : Nat → TestDef} {c l : Bool} {w w' : World} {vs : List (Nat × Status)} (p : Performed env defs c l w vs w') (u : Nat) :
    (w'.tc u).status = (lastVerdict u vs).getD (w.tc u).status := by
  induction p with
  | done h => rw [h.tc]; rfl
  | test h he _ ih =>
    rename_i w w1 w2 w3 t rest _
    obtain ⟨f1, f2, _⟩ := endTest_frame _ _ _ _ he
    rw [ih, lastVerdict_cons]
    by_cases e : t = u
    · subst e; cases lastVerdict t rest <;> simp
    · have e' : u ≠ t := fun x => e x.symm
      have : w2.tc u = w.tc u := by rw [f1 u e', run_other _ _ _ _ _ e', begin_other _ _ _ _ e', h.tc]
      rw [this, if_neg e]; cases lastVerdict u rest <;> simp

theorem entered_append (a b : List Ev) : entered (a ++ b) = entered a ++ entered b := by simp [entered]
theorem entered_stepsOf (t : Nat) (as : List Act) : entered (stepsOf t as) = [] := by
  unfold entered
  apply List.filterMap_eq_nil_iff.2
  intro e he
  simp only [stepsOf, List.mem_filterMap] at he
  obtain ⟨a, _, ha⟩ := he
  cases a <;> simp at ha
  subst ha; rfl

theorem run_entered (env : Env) (d : TestDef) (t : Nat) (w : World) : ∃ new, (run env d t w).tr = w.tr ++ new ∧ entered new = [t] := by
  refine ⟨_, run_tr env d t w, ?_⟩
  have h1 : entered [.setUp t] = [t] := rfl
  have h2 : entered [.body t] = [] := rfl
  have h3 : entered [.tearDown t] = [] := rfl
  simp only [entered_append, entered_stepsOf, h1]
  split
  · rfl
  · simp only [entered_append, entered_stepsOf, h2]
    split
    · rfl
    · simp only [entered_append, entered_stepsOf, h3]; rfl

theorem Performed.entered {env : Env} {defs : Nat → TestDef} {c l : Bool} {w w' : World} {vs : List (Nat × Status)} (p : Performed env defs c l w vs w') :
    ∃ new, w'.tr = w.tr ++ new ∧ Fut.entered new = vs.map Prod.fst := by
  induction p with
  | done h => exact ⟨[], by rw [h.tr]; simp, rfl⟩
  | test h he _ ih =>
    rename_i w w1 w2 w3 t rest _
    obtain ⟨_, _, f3, _⟩ := endTest_frame _ _ _ _ he
    obtain ⟨n2, e2, m2⟩ := ih
    obtain ⟨n1, e1, m1⟩ := run_entered env (defs t) t (beginTest c t w1)
    refine ⟨n1 ++ n2, ?_, ?_⟩
    · rw [e2, f3, e1, begin_tr, h.tr, List.append_assoc]
    · rw [entered_append, m1, m2]; rfl

/-- With capture on, what a quiet performance of tests that keep the streams writes goes to their own buffers
only. -/
theorem Performed.quiet {env : Env} {defs : Nat → TestDef} {w w' : World} {vs : List (Nat × Status)} (p : Performed env defs true false w vs w')
    (hk : ∀ v ∈ vs, ∀ k, ((defs v.1).script k).KeepsStreams) (b : Buf) (hb : ∀ t, b ≠ .capOut t ∧ b ≠ .capErr t) :
    w'.content b = w.content b := by
  induction p with
  | done h =>
    obtain ⟨s, hs, ht⟩ := h.text
    rw [ht, hs rfl]; simp
  | test h he _ ih =>
    rename_i w w1 w2 w3 t rest _
    rw [ih (fun v hv => hk v (by simp [hv]))]
    obtain ⟨w2', g1, _, _, _, _, g2⟩ := C91_captured_partial env (defs t) t w1 (hk (t, (w2.tc t).status) (by simp) _)
    rw [he] at g1; cases g1
    rw [g2 b (hb t).1 (hb t).2]
    obtain ⟨s, hs, ht⟩ := h.text
    rw [ht, hs rfl]; simp

/-- With capture on, both streams are in place after every performance, whatever the tests do. -/
theorem Performed.streams {env : Env} {defs : Nat → TestDef} {l : Bool} {w w' : World} {vs : List (Nat × Status)} (p : Performed env defs true l w vs w') :
    w'.cout = w.cout ∧ w'.cerr = w.cerr := by
  induction p with
  | done h => exact ⟨h.cout, h.cerr⟩
  | test h he _ ih =>
    rename_i w w1 w2 w3 t rest _
    obtain ⟨w2', g1, g2, g3⟩ := C91_restored_partial env (defs t) t w1
    rw [he] at g1; cases g1
    exact ⟨by rw [ih.1, g2, h.cout], by rw [ih.2, g3, h.cerr]⟩

end Falcon.Fut
