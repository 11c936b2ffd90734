import Verif.Spec.Mutex
/-
Invariant of the Futex system.
-/
namespace Falcon.Futex
variable {σ τ ω : Type}

theorem sequential_snoc (c : Client σ τ ω) (g : σ) (h : List (Nat × ω)) (i : Nat) (op : ω) :
    sequential c g (h ++ [(i, op)]) =
      ((alone c (sequential c g h).1 op).1,
       (sequential c g h).2 ++ [(i, (alone c (sequential c g h).1 op).2)]) := by
  induction h generalizing g with
  | nil => simp [sequential]
  | cons p h ih => simp [sequential, ih]

theorem ofThread_append {β : Type} (i : Nat) (a b : List (Nat × β)) :
    ofThread i (a ++ b) = ofThread i a ++ ofThread i b := by simp [ofThread]

theorem ofThread_self {β : Type} (i : Nat) (x : β) : ofThread i [(i, x)] = [x] := by simp [ofThread]
theorem ofThread_ne {β : Type} {i j : Nat} (h : j ≠ i) (x : β) : ofThread j [(i, x)] = [] := by
  simp [ofThread, Ne.symm h]

/-- Nobody is inside. -/
structure Free (c : Client σ τ ω) (g : σ) (prog : Nat → List ω) (s : St σ τ ω) : Prop where
  owned : s.owned = false
  none  : ∀ i, ¬ Holds s i
  shared : s.shared = (sequential c g s.hist).1
  res : ∀ i, (s.th i).results = ofThread i (sequential c g s.hist).2
  prg : ∀ i, ofThread i s.hist ++ (s.th i).todo = prog i

/-- Exactly thread `i` is inside, executing `op`. -/
structure Busy (c : Client σ τ ω) (g : σ) (prog : Nat → List ω) (s : St σ τ ω) (i : Nat) (op : ω)
    (h : List (Nat × ω)) (fin rest : List (σ × τ → σ × τ)) (l : τ) : Prop where
  owned : s.owned = true
  hist : s.hist = h ++ [(i, op)]
  pc : (s.th i).pc = .inside rest l
  body : c.micro op = fin ++ rest
  cur : (s.shared, l) = fin.foldl (fun p m => m p) ((sequential c g h).1, c.start op)
  none : ∀ j, j ≠ i → ¬ Holds s j
  res : ∀ j, (s.th j).results = ofThread j (sequential c g h).2
  prg : ∀ j, ofThread j h ++ (s.th j).todo = prog j
  head : ∃ tl, (s.th i).todo = op :: tl

structure FInv (c : Client σ τ ω) (g : σ) (prog : Nat → List ω) (s : St σ τ ω) : Prop where
  excl : Free c g prog s ∨ ∃ i op h fin rest l, Busy c g prog s i op h fin rest l
  work : ∀ i sc, (s.th i).pc = .trying sc → (s.th i).todo ≠ []

theorem FInv_init (c : Client σ τ ω) (g : σ) (prog : Nat → List ω) : FInv c g prog (initial g prog) :=
  ⟨.inl ⟨rfl, fun i h => by obtain ⟨r, l, h⟩ := h; simp [initial] at h, rfl, fun _ => rfl, fun _ => rfl⟩,
   fun i sc h => by simp [initial] at h⟩

@[simp] theorem upd_self (f : Nat → Th σ τ ω) (i : Nat) (t : Th σ τ ω) : upd f i t i = t := by simp [upd]
theorem upd_ne (f : Nat → Th σ τ ω) {i j : Nat} (t : Th σ τ ω) (h : j ≠ i) : upd f i t j = f j := by
  simp [upd, h]

/-- A thread that is not inside changes its pc to another "not inside" one. -/
theorem FInv_pc {c : Client σ τ ω} {g : σ} {prog : Nat → List ω} {s : St σ τ ω} (h : FInv c g prog s)
    (i : Nat) (t : Th σ τ ω) (hpc : ∀ r l, (s.th i).pc ≠ .inside r l) (hpc' : ∀ r l, t.pc ≠ .inside r l)
    (htodo : t.todo = (s.th i).todo) (hres : t.results = (s.th i).results)
    (hw : ∀ sc, t.pc = .trying sc → t.todo ≠ []) :
    FInv c g prog { s with th := upd s.th i t } := by
  have hholds : ∀ j, Holds ({ s with th := upd s.th i t } : St σ τ ω) j → Holds s j := by
    rintro j ⟨r, l, hj⟩
    by_cases e : j = i
    · subst e; simp only [upd_self] at hj; exact absurd hj (hpc' r l)
    · simp only [upd_ne _ _ e] at hj; exact ⟨r, l, hj⟩
  have hr : ∀ j, (upd s.th i t j).results = (s.th j).results := by
    intro j; by_cases e : j = i
    · subst e; rw [upd_self, hres]
    · rw [upd_ne _ _ e]
  have ht : ∀ j, (upd s.th i t j).todo = (s.th j).todo := by
    intro j; by_cases e : j = i
    · subst e; rw [upd_self, htodo]
    · rw [upd_ne _ _ e]
  refine ⟨?_, ?_⟩
  · rcases h.excl with f | ⟨k, op, hh, fin, rest, l, b⟩
    · left
      exact ⟨f.owned, fun j hj => f.none j (hholds j hj), f.shared, fun j => (hr j).trans (f.res j),
        fun j => by show _ ++ (upd s.th i t j).todo = _; rw [ht j]; exact f.prg j⟩
    · right
      have hk : k ≠ i := by rintro rfl; exact hpc _ _ b.pc
      exact ⟨k, op, hh, fin, rest, l, b.owned, b.hist, by simp only [upd_ne _ _ hk]; exact b.pc, b.body, b.cur,
        fun j hj hh => b.none j hj (hholds j hh), fun j => (hr j).trans (b.res j),
        fun j => by show _ ++ (upd s.th i t j).todo = _; rw [ht j]; exact b.prg j,
        by obtain ⟨tl, e⟩ := b.head; exact ⟨tl, by show (upd s.th i t k).todo = _; rw [ht k]; exact e⟩⟩
  · intro j sc hj
    show (upd s.th i t j).todo ≠ []
    by_cases e : j = i
    · subst e; simp only [upd_self] at hj ⊢; exact hw sc hj
    · simp only [upd_ne _ _ e] at hj ⊢; exact h.work j sc hj

theorem FInv_step {c : Client σ τ ω} {spin : BitVec 32} {g : σ} {prog : Nat → List ω} {s s' : St σ τ ω}
    (h : FInv c g prog s) (i : Nat) (sp : Bool) (hs : step c spin s i sp = some s') : FInv c g prog s' := by
  unfold step at hs
  simp only [] at hs
  split at hs
  · -- out
    rename_i hpc
    split at hs
    · cases hs
    · rename_i op tl htd
      injection hs with hs; subst hs
      exact FInv_pc h i _ (by simp [hpc]) (by simp) rfl rfl (by intro sc _; simp [htd])
  · -- trying
    rename_i sc hpc
    split at hs
    · cases hs
    · rename_i op tl htd
      by_cases hf : s.owned = false ∧ sp = false
      · -- acquires
        have hcas : casWeak s.owned sp = (true, true, false) := by simp [casWeak, hf.1, hf.2]
        rw [hcas] at hs
        simp only [retry, Bool.not_true, Bool.or_self, Bool.false_eq_true, if_false] at hs
        injection hs with hs; subst hs
        rcases h.excl with f | ⟨k, op', hh, fin, rest, l, b⟩
        · refine ⟨.inr ⟨i, op, s.hist, [], c.micro op, c.start op, rfl, rfl, by simp, rfl, ?_, ?_, ?_, ?_, ?_⟩, ?_⟩
          · simp [f.shared]
          · rintro j hj ⟨r, l, e⟩
            simp only [upd_ne _ _ hj] at e
            exact f.none j ⟨r, l, e⟩
          · intro j
            show (upd s.th i _ j).results = _
            by_cases e : j = i
            · subst e; rw [upd_self]; exact f.res j
            · rw [upd_ne _ _ e]; exact f.res j
          · intro j
            show _ ++ (upd s.th i _ j).todo = _
            by_cases e : j = i
            · subst e; rw [upd_self]; exact f.prg j
            · rw [upd_ne _ _ e]; exact f.prg j
          · exact ⟨tl, by simp [htd]⟩
          · intro j sc' hj
            show (upd s.th i _ j).todo ≠ []
            by_cases e : j = i
            · subst e; simp at hj
            · simp only [upd_ne _ _ e] at hj ⊢; exact h.work j sc' hj
        · rw [b.owned] at hf; exact absurd hf.1 (by simp)
      · -- fails
        have hcas : casWeak s.owned sp = (s.owned, false, s.owned) := by
          unfold casWeak
          by_cases ho : s.owned = false
          · have : sp = true := by cases sp <;> simp_all
            simp [ho, this]
          · simp [ho]
        rw [hcas] at hs
        simp only [retry, Bool.not_false, Bool.true_or, if_true] at hs
        injection hs with hs; subst hs
        exact FInv_pc h i _ (by simp [hpc]) (by simp) rfl rfl (by intro sc' _; simp [htd])
  · -- micro step
    rename_i m ms l hpc
    injection hs with hs; subst hs
    rcases h.excl with f | ⟨k, op, hh, fin, rest, l', b⟩
    · exact absurd ⟨_, _, hpc⟩ (f.none i)
    · have hk : i = k := by
        refine Classical.byContradiction fun e => b.none i e ⟨_, _, hpc⟩
      subst hk
      have hpc' := b.pc
      rw [hpc] at hpc'
      injection hpc' with e1 e2
      subst e1; subst e2
      have hoth : ∀ j, (upd s.th i { s.th i with pc := .inside ms (m (s.shared, l)).2 } j).results = (s.th j).results
          ∧ (upd s.th i { s.th i with pc := .inside ms (m (s.shared, l)).2 } j).todo = (s.th j).todo := by
        intro j; by_cases e : j = i
        · subst e; rw [upd_self]; exact ⟨rfl, rfl⟩
        · rw [upd_ne _ _ e]; exact ⟨rfl, rfl⟩
      refine ⟨.inr ⟨i, op, hh, fin ++ [m], ms, (m (s.shared, l)).2, b.owned, b.hist, by simp, by simp [b.body], ?_, ?_,
        fun j => (hoth j).1.trans (b.res j), ?_, ?_⟩, ?_⟩
      · rw [List.foldl_append, ← b.cur]; rfl
      · rintro j hj ⟨r, l2, e⟩
        simp only [upd_ne _ _ hj] at e
        exact b.none j hj ⟨r, l2, e⟩
      · intro j; have := (hoth j).2
        show _ ++ (upd s.th i _ j).todo = _
        rw [this]; exact b.prg j
      · obtain ⟨tl, e⟩ := b.head; exact ⟨tl, by simp [e]⟩
      · intro j sc hj
        show (upd s.th i _ j).todo ≠ []
        by_cases e : j = i
        · subst e; simp at hj
        · simp only [upd_ne _ _ e] at hj ⊢; exact h.work j sc hj
  · -- unlock
    rename_i l hpc
    injection hs with hs; subst hs
    rcases h.excl with f | ⟨k, op, hh, fin, rest, l', b⟩
    · exact absurd ⟨_, _, hpc⟩ (f.none i)
    · have hk : i = k := by
        refine Classical.byContradiction fun e => b.none i e ⟨_, _, hpc⟩
      subst hk
      have hpc' := b.pc
      rw [hpc] at hpc'
      injection hpc' with e1 e2
      subst e1; subst e2
      have hbody : c.micro op = fin := by rw [b.body, List.append_nil]
      have hal : alone c (sequential c g hh).1 op = (s.shared, l) := by
        rw [alone, hbody]; exact b.cur.symm
      obtain ⟨tl, htl⟩ := b.head
      refine ⟨.inl ⟨rfl, ?_, ?_, ?_, ?_⟩, ?_⟩
      · rintro j ⟨r, l2, e⟩
        by_cases ej : j = i
        · subst ej; simp at e
        · simp only [upd_ne _ _ ej] at e; exact b.none j ej ⟨r, l2, e⟩
      · show s.shared = (sequential c g s.hist).1
        rw [b.hist, sequential_snoc, hal]
      · intro j
        show (upd s.th i _ j).results = ofThread j (sequential c g s.hist).2
        rw [b.hist, sequential_snoc, hal, ofThread_append]
        by_cases ej : j = i
        · subst ej; rw [upd_self, ofThread_self, ← b.res j]
        · rw [upd_ne _ _ ej, ofThread_ne ej, List.append_nil]; exact b.res j
      · intro j
        show ofThread j s.hist ++ (upd s.th i _ j).todo = prog j
        rw [b.hist, ofThread_append, ← b.prg j]
        by_cases ej : j = i
        · subst ej; rw [upd_self, ofThread_self, htl]; simp
        · rw [upd_ne _ _ ej, ofThread_ne ej]; simp
      · intro j sc hj
        show (upd s.th i _ j).todo ≠ []
        by_cases e : j = i
        · subst e; simp at hj
        · simp only [upd_ne _ _ e] at hj ⊢; exact h.work j sc hj

theorem Reach.inv {c : Client σ τ ω} {spin : BitVec 32} {g : σ} {prog : Nat → List ω} {s : St σ τ ω}
    (h : Reach c spin g prog s) : FInv c g prog s := by
  induction h with
  | init => exact FInv_init c g prog
  | step i sp _ he ih => exact FInv_step ih i sp he

end Falcon.Futex
