import Verif.Props.Logger
/-
C57: under which category a message with a temporary category is emitted. C62: when clearFilter() can be called,
and what it restores after several categoryFilter() calls.
-/
namespace Falcon.Logger
open Falcon.Log (Str Msg Rx Lst LId setLst setCategory checkCategory)

/-- C57 (exactly): for every temporary category and every category of the thread, the message is emitted under the
temporary one if that is not empty and under the thread's if it is; so it is emitted under the temporary category
exactly if that is not empty or the thread has none either. -/
theorem C57_exact_partial (min : Int) (w : W) (i : Nat) (f : Str) (l lvl : Int) (c : Str) (ps : List Piece) (rest : List Op)
    (hps : ps.all Piece.isPlain = true) (h1 : lvl ≤ min ∧ lvl ≤ w.level) (hready : Ready (w.th i).tls)
    (htodo : (w.th i).todo = (Stm.log f l lvl (some c) ps).toOp :: rest) :
    ∃ w' cat, Runs min i w w' ∧ (w'.th i).todo = rest ∧ Ready (w'.th i).tls ∧
      w'.out = w.out ++ [(i, { file := f, line := l, level := lvl, cat := cat, text := plainText ps })] ∧
      (c ≠ [] → cat = c) ∧ (c = [] → cat = (w.th i).tls.category) ∧ (cat = c ↔ c ≠ [] ∨ (w.th i).tls.category = []) := by
  obtain ⟨w', e1, e2, e3, e4, -⟩ := C56_statements min w i [.log f l lvl (some c) ps] rest (by
    intro s hs
    rw [List.mem_singleton.1 hs]; exact hps) (by simpa using htodo) hready
  have q : emitsAll min w.level (w.th i).tls.category [.log f l lvl (some c) ps] =
      [Msg.mk f l lvl (if c = [] then (w.th i).tls.category else c) (plainText ps)] := by
    simp only [emitsAll, Stm.emits, msgCat, List.append_nil]; rw [if_pos h1]
  refine ⟨w', if c = [] then (w.th i).tls.category else c, e1, e3, e4, by rw [e2, q]; rfl, fun h => if_neg h, fun h => if_pos h, ?_⟩
  by_cases hc : c = []
  · subst hc; simp
  · simp [hc]

/-- The hypotheses are met: a fresh thread, which is ready, whose next statement has an empty temporary category. -/
example : ∃ w' cat, Runs 5 0 { level := 5, th := fun _ => { todo := [(Stm.log ['f'] 1 3 (some []) [.text ['x'], .num 7]).toOp] } } w' ∧
    (w'.th 0).todo = [] ∧ Ready (w'.th 0).tls ∧ w'.out = [(0, { file := ['f'], line := 1, level := 3, cat := cat, text := ['x', '7'] })] ∧
    cat = [] := by
  obtain ⟨w', cat, h1, h2, h3, h4, -, h5, -⟩ := C57_exact_partial 5
    { level := 5, th := fun _ => { todo := [(Stm.log ['f'] 1 3 (some []) [.text ['x'], .num 7]).toOp] } } 0 ['f'] 1 3 []
    [.text ['x'], .num 7] [] rfl ⟨by decide, by decide⟩ ⟨rfl, rfl, rfl, rfl⟩ rfl
  exact ⟨w', cat, h1, h2, h3, h4, h5 rfl⟩

theorem catFilter_fields (rx : Rx) (s : Fs) (re : Str) (l : Int) :
    (categoryFilter rx s re l).1.base = s.level ∧ (categoryFilter rx s re l).1.proxy = some s.next ∧
      (categoryFilter rx s re l).1.level = max s.level l := by
  rw [categoryFilter_eq]
  simp only
  split <;> (refine ⟨rfl, rfl, ?_⟩; simp only; split <;> omega)

/-- C62 (exactly when it may be called): after any history, clearFilter() works if categoryFilter() has been
called before, and dereferences a null pointer otherwise. -/
theorem C62_callable_exact_partial (rx : Rx) (os : List FOp) (s : Fs) (hr : frun rx finit os = .ok s) :
    ((∃ s', clearFilter s = .ok s') ↔ ∃ re l, FOp.filter re l ∈ os) ∧
    (clearFilter s = .error (.ub .nullDeref) ↔ ∀ re l, FOp.filter re l ∉ os) := by
  have key : ∀ (os : List FOp) (a b : Fs), frun rx a os = .ok b →
      (b.proxy ≠ none ↔ a.proxy ≠ none ∨ ∃ re l, FOp.filter re l ∈ os) := by
    intro os
    induction os with
    | nil => intro a b h; simp only [frun] at h; cases h; simp
    | cons o os ih =>
      intro a b h
      simp only [frun] at h
      cases hs : fstep rx a o with
      | error e => rw [hs] at h; cases h
      | ok s1 =>
        rw [hs] at h
        rw [ih s1 b h]
        cases o with
        | filter re l =>
          simp only [fstep] at hs; cases hs
          exact ⟨fun _ => .inr ⟨re, l, by simp⟩, fun _ => .inl (by rw [(catFilter_fields rx a re l).2.1]; simp)⟩
        | clear =>
          simp only [fstep] at hs
          obtain ⟨p, hp', rfl⟩ := clear_eq hs
          obtain ⟨-, f2, -, -, -⟩ := detachIf_fields a
          simp only [f2, List.mem_cons, reduceCtorEq, false_or]
        | level n => simp only [fstep] at hs; cases hs; simp
        | dflt n => simp only [fstep] at hs; cases hs; simp
  have h := key os finit s hr
  have h0 : finit.proxy = none := rfl
  rw [h0] at h
  simp only [ne_eq, not_true_eq_false, false_or] at h
  constructor
  · rw [← h]
    cases hp : s.proxy with
    | none => simp [clearFilter, hp]
    | some p => simp [clearFilter, hp]
  · have : (∀ re l, FOp.filter re l ∉ os) ↔ s.proxy = none := by
      constructor
      · intro hn
        by_cases hp : s.proxy = none
        · exact hp
        · obtain ⟨re, l, hm⟩ := h.1 hp; exact absurd hm (hn re l)
      · intro hp re l hm
        exact h.2 ⟨re, l, hm⟩ hp
    rw [this]
    cases hp : s.proxy with
    | none => simp [clearFilter, hp]
    | some p => simp [clearFilter, hp]

theorem filters_run (rx : Rx) : ∀ (fs : List (Str × Int)) (f : Str × Int) (s : Fs),
    ∃ s', frun rx s ((fs ++ [f]).map (fun f => .filter f.1 f.2) ++ [.clear]) = .ok s' ∧
      s'.level = fs.foldl (fun x f => max x f.2) s.level := by
  intro fs
  induction fs with
  | nil =>
    intro f s
    obtain ⟨h1, h2, -⟩ := catFilter_fields rx s f.1 f.2
    refine ⟨{ detachIf (categoryFilter rx s f.1 f.2).1 (some s.next) with level := s.level }, ?_, rfl⟩
    simp only [List.nil_append, List.map_cons, List.map_nil, List.cons_append, frun, fstep]
    show (clearFilter (categoryFilter rx s f.1 f.2).1 >>= fun s' => frun rx s' []) = _
    simp only [clearFilter, h2, h1]
    rfl
  | cons g fs ih =>
    intro f s
    obtain ⟨s', hs', hl⟩ := ih f (categoryFilter rx s g.1 g.2).1
    refine ⟨s', ?_, ?_⟩
    · simp only [List.cons_append, List.map_cons, frun, fstep]
      exact hs'
    · rw [hl, (catFilter_fields rx s g.1 g.2).2.2]; rfl

theorem foldl_max_eq : ∀ (fs : List (Str × Int)) (x : Int),
    (fs.foldl (fun x f => max x f.2) x = x ↔ ∀ f ∈ fs, f.2 ≤ x) ∧ x ≤ fs.foldl (fun x f => max x f.2) x := by
  intro fs
  induction fs with
  | nil => intro x; simp
  | cons g fs ih =>
    intro x
    obtain ⟨h1, h2⟩ := ih (max x g.2)
    simp only [List.foldl_cons, List.mem_cons, forall_eq_or_imp]
    refine ⟨⟨fun h => ?_, fun ⟨a, b⟩ => ?_⟩, by omega⟩
    · have : g.2 ≤ x := by omega
      have e : max x g.2 = x := by omega
      rw [e] at h1 h
      exact ⟨this, h1.1 h⟩
    · have e : max x g.2 = x := by omega
      rw [e] at h1 ⊢
      exact h1.2 b

/-- C62 (exactly): after one or more categoryFilter() calls in a row, clearFilter() leaves the largest of the
level in force before and the levels given in all calls but the last; so the level in force before filtering
comes back exactly if none of these is above it. In particular one call is always undone. -/
theorem C62_exact_partial (rx : Rx) (s : Fs) (fs : List (Str × Int)) (f : Str × Int) :
    ∃ s', frun rx s ((fs ++ [f]).map (fun f => .filter f.1 f.2) ++ [.clear]) = .ok s' ∧
      s'.level = fs.foldl (fun x f => max x f.2) s.level ∧ (s'.level = s.level ↔ ∀ f ∈ fs, f.2 ≤ s.level) := by
  obtain ⟨s', h1, h2⟩ := filters_run rx fs f s
  exact ⟨s', h1, h2, by rw [h2]; exact (foldl_max_eq fs s.level).1⟩

/-- Three calls, the second of them with the highest level: 7 stays in force, not 3. -/
example : ((frun anyRx finit ([.level 3] ++ ([(['a'], 4), (['b'], 7), (['c'], 6)] : List (Str × Int)).map (fun f => .filter f.1 f.2) ++ [.clear])).toOption.map
    (·.level)) = some 7 := by decide

/-- A history in which it may be called, and one in which not. -/
example : (∃ s, frun anyRx finit [.level 3, .filter ['a'] 4, .dflt 2] = .ok s ∧ ∃ s', clearFilter s = .ok s') ∧
    ∃ s, frun anyRx finit [.level 3, .dflt 2] = .ok s ∧ clearFilter s = .error (.ub .nullDeref) :=
  ⟨⟨_, rfl, ((C62_callable_exact_partial anyRx [.level 3, .filter ['a'] 4, .dflt 2] _ rfl).1).2 ⟨['a'], 4, by simp⟩⟩,
   ⟨_, rfl, ((C62_callable_exact_partial anyRx [.level 3, .dflt 2] _ rfl).2).2 (by simp)⟩⟩

end Falcon.Logger
