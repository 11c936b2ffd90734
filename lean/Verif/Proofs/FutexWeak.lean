import Verif.Spec.FutexWeak
import Verif.Proofs.Futex
/-
Invariant of the Futex under weak memory, and its simulation by Model/Futex.
-/
set_option linter.unusedSimpArgs false
namespace Falcon.Futex
variable {σ τ ω : Type}

@[simp] theorem vupd_self (f : Nat → View) (i : Nat) (v : View) : vupd f i v i = v := by simp [vupd]
theorem vupd_ne (f : Nat → View) {i j : Nat} (v : View) (h : j ≠ i) : vupd f i v j = f j := by simp [vupd, h]

/-- Who is inside, and what the newest message and the views look like. -/
def Phase (w : WSt σ τ ω) (top : LMsg) : Prop :=
  (top.val = false ∧ top.data + 1 = w.vers.length ∧ ∀ i, ¬WHolds w i) ∨
  (∃ k, top.val = true ∧ WHolds w k ∧ (∀ j, WHolds w j → j = k) ∧ (w.view k).lock = top.time ∧
    (w.view k).data + 1 = w.vers.length)

structure WInv (c : Client σ τ ω) (spin : BitVec 32) (g : σ) (prog : Nat → List ω) (w : WSt σ τ ω) (top : LMsg) (s : St σ τ ω) : Prop where
  mem : top ∈ w.mem
  newest : ∀ m ∈ w.mem, m.time ≤ top.time
  attached : ∀ m ∈ w.mem, m.val = false → m = top ∨ ∃ m' ∈ w.mem, m'.start = m.time ∧ m.time < m'.time
  seen : ∀ i, (w.view i).lock ≤ top.time
  mdata : ∀ m ∈ w.mem, m.data + 1 ≤ w.vers.length
  vdata : ∀ i, (w.view i).data + 1 ≤ w.vers.length
  phase : Phase w top
  sc : Reach c spin g prog s
  th : s.th = w.th
  hist : s.hist = w.hist
  shared : w.vers.getLast? = some s.shared
  owned : s.owned = top.val

theorem WInv_init (c : Client σ τ ω) (spin : BitVec 32) (g : σ) (prog : Nat → List ω) :
    WInv c spin g prog (winitial g prog) ⟨0, 0, false, 0⟩ (initial g prog) where
  mem := by simp [winitial]
  newest := by simp [winitial]
  attached := by simp [winitial]
  seen := by simp [winitial]
  mdata := by simp [winitial]
  vdata := by simp [winitial]
  phase := .inl ⟨rfl, rfl, by rintro i ⟨r, l, h⟩; simp [winitial] at h⟩
  sc := .init
  th := rfl
  hist := rfl
  shared := rfl
  owned := rfl

theorem WInv_step {o : Orders} {c : Client σ τ ω} {spin : BitVec 32} {g : σ} {prog : Nat → List ω} {w w' : WSt σ τ ω} {top : LMsg}
    {s : St σ τ ω} (ho : o.lockAcquire = true) (hu : o.unlockRelease = true)
    (h : WInv c spin g prog w top s) (i : Nat) (ch : Choice) (hs : wstep o c spin w i ch = some w') :
    ∃ top' s', WInv c spin g prog w' top' s' := by
  have hth : ∀ j, s.th j = w.th j := fun j => by rw [h.th]
  unfold wstep at hs
  simp only [] at hs
  split at hs
  · -- out
    rename_i hpc
    split at hs
    · cases hs
    · rename_i op tl htd
      injection hs with hs; subst hs
      have e : step c spin s i false = some { s with th := upd s.th i { s.th i with pc := .trying spin } } := by
        unfold step; simp only [hth i, hpc, htd]
      refine ⟨top, _, ⟨h.mem, h.newest, h.attached, h.seen, h.mdata, h.vdata, ?_, .step i false h.sc e, ?_, h.hist, h.shared, h.owned⟩⟩
      · have hi : ∀ j, WHolds { w with th := upd w.th i { w.th i with pc := .trying spin } } j ↔ WHolds w j := by
          intro j
          unfold WHolds
          by_cases e : j = i
          · subst e; simp [hpc]
          · simp [upd_ne _ _ e]
        rcases h.phase with ⟨a, b, d⟩ | ⟨k, a, b, d, e1, e2⟩
        · exact .inl ⟨a, b, fun j hj => d j ((hi j).1 hj)⟩
        · exact .inr ⟨k, a, (hi k).2 b, fun j hj => d j ((hi j).1 hj), e1, e2⟩
      · simp [h.th]
  · -- trying
    rename_i sc hpc
    split at hs
    · rename_i op tl m htd hm
      have hmm : m ∈ w.mem := List.mem_of_getElem? hm
      split at hs
      · cases hs
      · rename_i hold
        split at hs
        · -- the attempt fails
          rename_i hr
          injection hs with hs; subst hs
          have e : step c spin s i true = some { s with th := upd s.th i { s.th i with pc := .trying (failBody spin sc).1, yields := (s.th i).yields + (failBody spin sc).2.toNat } } := by
            unfold step; simp only [hth i, hpc, htd]
            have hcas : casWeak s.owned true = (s.owned, false, s.owned) := by unfold casWeak; split <;> simp_all
            rw [hcas]
            simp [retry]
          refine ⟨top, _, ⟨h.mem, h.newest, h.attached, ?_, h.mdata, ?_, ?_, .step i true h.sc e, ?_, h.hist, h.shared, h.owned⟩⟩
          · intro j
            show (vupd w.view i _ j).lock ≤ _
            by_cases e : j = i
            · subst e; simp only [vupd_self]; exact h.newest m hmm
            · rw [vupd_ne _ _ e]; exact h.seen j
          · intro j
            show (vupd w.view i _ j).data + 1 ≤ _
            by_cases e : j = i
            · subst e; simp only [vupd_self]; exact h.vdata j
            · rw [vupd_ne _ _ e]; exact h.vdata j
          · have hi : ∀ (v : Nat → View) (t : Th σ τ ω) j, (∀ r l, t.pc ≠ .inside r l) → (WHolds { w with view := v, th := upd w.th i t } j ↔ WHolds w j) := by
              intro v t j ht
              unfold WHolds
              by_cases e : j = i
              · subst e; simp [hpc, ht]
              · simp [upd_ne _ _ e]
            have hk : ¬WHolds w i := by rintro ⟨r, l, e⟩; rw [hpc] at e; cases e
            rcases h.phase with ⟨a, b, d⟩ | ⟨k, a, b, d, e1, e2⟩
            · exact .inl ⟨a, b, fun j hj => d j ((hi _ _ j (by simp)).1 hj)⟩
            · have hki : k ≠ i := by rintro rfl; exact hk b
              refine .inr ⟨k, a, (hi _ _ k (by simp)).2 b, fun j hj => d j ((hi _ _ j (by simp)).1 hj), ?_, ?_⟩
              · show (vupd w.view i _ k).lock = _
                rw [vupd_ne _ _ hki]; exact e1
              · show (vupd w.view i _ k).data + 1 = _
                rw [vupd_ne _ _ hki]; exact e2
          · simp [h.th]
        · rename_i hr
          split at hs
          · -- lock acquired
            rename_i hfree
            injection hs with hs; subst hs
            have hval : m.val = false ∧ ch.spurious = false := by
              revert hr; unfold retry; cases m.val <;> cases ch.spurious <;> simp
            have hun := hfree.2
            unfold unused at hun
            rw [List.all_eq_true] at hun
            have hmt : m = top := by
              rcases h.attached m hmm hval.1 with e | ⟨m', h1, h2, h3⟩
              · exact e
              · have := hun m' h1
                simp only [decide_eq_true_eq] at this
                omega
            subst hmt
            obtain ⟨a, b, d⟩ : m.val = false ∧ m.data + 1 = w.vers.length ∧ ∀ i, ¬WHolds w i := by
              rcases h.phase with x | ⟨k, a, _⟩
              · exact x
              · rw [hval.1] at a; cases a
            have e : step c spin s i false = some { s with owned := true, th := upd s.th i { s.th i with pc := .inside (c.micro op) (c.start op) }, hist := s.hist ++ [(i, op)] } := by
              unfold step; simp only [hth i, hpc, htd]
              have hcas : casWeak s.owned false = (true, true, false) := by rw [h.owned, a]; rfl
              rw [hcas]
              simp [retry]
            have hvi := h.vdata i
            have hd : max (w.view i).data m.data = m.data := by omega
            refine ⟨⟨m.time, ch.time, true, max m.data (if o.lockRelease then m.data else 0)⟩, _, ⟨?_, ?_, ?_, ?_, ?_, ?_, ?_, .step i false h.sc e, ?_, ?_, h.shared, rfl⟩⟩
            · simp only [ho, if_true, hd]; exact List.mem_cons_self
            · intro x hx
              simp only [ho, if_true, hd] at hx
              rcases List.mem_cons.1 hx with rfl | hx
              · exact Nat.le_refl _
              · exact Nat.le_trans (h.newest x hx) (Nat.le_of_lt hfree.1)
            · intro x hx hxv
              simp only [ho, if_true, hd] at hx ⊢
              rcases List.mem_cons.1 hx with rfl | hx
              · cases hxv
              · right
                rcases h.attached x hx hxv with rfl | ⟨m', h1, h2⟩
                · exact ⟨_, List.mem_cons_self, rfl, hfree.1⟩
                · exact ⟨m', List.mem_cons_of_mem _ h1, h2⟩
            · intro j
              show (vupd w.view i _ j).lock ≤ ch.time
              by_cases e : j = i
              · subst e; simp
              · rw [vupd_ne _ _ e]; exact Nat.le_trans (h.seen j) (Nat.le_of_lt hfree.1)
            · intro x hx
              simp only [ho, if_true, hd] at hx
              show x.data + 1 ≤ w.vers.length
              rcases List.mem_cons.1 hx with rfl | hx
              · show max m.data _ + 1 ≤ _
                split <;> omega
              · exact h.mdata x hx
            · intro j
              show (vupd w.view i _ j).data + 1 ≤ w.vers.length
              by_cases e : j = i
              · subst e; simp only [vupd_self, ho, if_true, hd]; omega
              · rw [vupd_ne _ _ e]; exact h.vdata j
            · right
              refine ⟨i, rfl, ⟨c.micro op, c.start op, by simp⟩, ?_, ?_, ?_⟩
              · rintro j ⟨r, l, hj⟩
                apply Classical.byContradiction
                intro e
                simp only [upd_ne _ _ e] at hj
                exact d j ⟨r, l, hj⟩
              · show (vupd w.view i _ i).lock = _
                simp
              · show (vupd w.view i _ i).data + 1 = w.vers.length
                simp only [vupd_self, ho, if_true, hd]; omega
            · simp [h.th]
            · simp [h.hist]
          · cases hs
    · cases hs
  · -- a micro-step
    rename_i f fs l hpc
    split at hs
    · cases hs
    · rename_i hver
      split at hs
      · cases hs
      · rename_i gg hg
        injection hs with hs; subst hs
        have hh : WHolds w i := ⟨_, _, hpc⟩
        obtain ⟨k, a, b, d, e1, e2⟩ : ∃ k, top.val = true ∧ WHolds w k ∧ (∀ j, WHolds w j → j = k) ∧ (w.view k).lock = top.time ∧
            (w.view k).data + 1 = w.vers.length := by
          rcases h.phase with ⟨_, _, d⟩ | x
          · exact absurd hh (d i)
          · exact x
        have hik := d i hh
        subst hik
        have hlt : ch.ver < w.vers.length := by
          rw [List.getElem?_eq_some_iff] at hg; exact hg.1
        have hve : ch.ver = w.vers.length - 1 := by omega
        have hgs : gg = s.shared := by
          have := h.shared
          rw [List.getLast?_eq_getElem?, ← hve, hg] at this
          exact Option.some.inj this
        subst hgs
        have e : step c spin s i false = some { s with shared := (f (s.shared, l)).1, th := upd s.th i { s.th i with pc := .inside fs (f (s.shared, l)).2 } } := by
          unfold step; simp only [hth i, hpc]
        refine ⟨top, _, ⟨h.mem, h.newest, h.attached, ?_, ?_, ?_, ?_, .step i false h.sc e, ?_, h.hist, ?_, h.owned⟩⟩
        · intro j
          show (vupd w.view i _ j).lock ≤ _
          by_cases e : j = i
          · subst e; simp only [vupd_self]; exact h.seen j
          · rw [vupd_ne _ _ e]; exact h.seen j
        · intro x hx
          have := h.mdata x hx
          simp; omega
        · intro j
          show (vupd w.view i _ j).data + 1 ≤ _
          by_cases e : j = i
          · subst e; simp
          · rw [vupd_ne _ _ e]; have := h.vdata j; simp; omega
        · right
          refine ⟨i, a, ⟨fs, _, by simp only [upd_self]; rfl⟩, ?_, ?_, ?_⟩
          · rintro j ⟨r, l, hj⟩
            apply Classical.byContradiction
            intro e
            simp only [upd_ne _ _ e] at hj
            exact e (d j ⟨r, l, hj⟩)
          · show (vupd w.view i _ i).lock = _
            simp [e1]
          · show (vupd w.view i _ i).data + 1 = _
            simp
        · simp [h.th]
        · simp
  · -- unlock
    rename_i l hpc
    split at hs
    · rename_i hfree
      injection hs with hs; subst hs
      have hh : WHolds w i := ⟨_, _, hpc⟩
      obtain ⟨k, a, b, d, e1, e2⟩ : ∃ k, top.val = true ∧ WHolds w k ∧ (∀ j, WHolds w j → j = k) ∧ (w.view k).lock = top.time ∧
          (w.view k).data + 1 = w.vers.length := by
        rcases h.phase with ⟨_, _, d⟩ | x
        · exact absurd hh (d i)
        · exact x
      have hik := d i hh
      subst hik
      have e : step c spin s i false = some { s with owned := false, th := upd s.th i { s.th i with pc := .out, todo := (s.th i).todo.tail, results := (s.th i).results ++ [l] } } := by
        unfold step; simp only [hth i, hpc]
      have hnew : top.time < ch.time := by have := hfree.2.1; omega
      refine ⟨⟨ch.start, ch.time, false, (w.view i).data⟩, _, ⟨?_, ?_, ?_, ?_, ?_, ?_, ?_, .step i false h.sc e, ?_, h.hist, h.shared, rfl⟩⟩
      · simp only [hu, if_true]; exact List.mem_cons_self
      · intro x hx
        rcases List.mem_cons.1 hx with rfl | hx
        · exact Nat.le_refl _
        · exact Nat.le_trans (h.newest x hx) (Nat.le_of_lt hnew)
      · intro x hx hxv
        simp only [hu, if_true] at hx ⊢
        rcases List.mem_cons.1 hx with rfl | hx
        · exact .inl rfl
        · right
          rcases h.attached x hx hxv with rfl | ⟨m', h1, h2⟩
          · rw [hxv] at a; cases a
          · exact ⟨m', List.mem_cons_of_mem _ h1, h2⟩
      · intro j
        show (vupd w.view i _ j).lock ≤ ch.time
        by_cases e : j = i
        · subst e; simp
        · rw [vupd_ne _ _ e]; exact Nat.le_trans (h.seen j) (Nat.le_of_lt hnew)
      · intro x hx
        simp only [hu, if_true] at hx
        show x.data + 1 ≤ w.vers.length
        rcases List.mem_cons.1 hx with rfl | hx
        · exact h.vdata i
        · exact h.mdata x hx
      · intro j
        show (vupd w.view i _ j).data + 1 ≤ w.vers.length
        by_cases e : j = i
        · subst e; simp only [vupd_self]; exact h.vdata j
        · rw [vupd_ne _ _ e]; exact h.vdata j
      · left
        refine ⟨rfl, e2, ?_⟩
        rintro j ⟨r, l', hj⟩
        by_cases e : j = i
        · subst e; simp at hj
        · simp only [upd_ne _ _ e] at hj
          exact e (d j ⟨r, l', hj⟩)
      · simp [h.th]
    · cases hs

theorem WReach.inv {o : Orders} {c : Client σ τ ω} {spin : BitVec 32} {g : σ} {prog : Nat → List ω} {w : WSt σ τ ω}
    (h : WReach o c spin g prog w) (ho : o.lockAcquire = true) (hu : o.unlockRelease = true) :
    ∃ top s, WInv c spin g prog w top s := by
  induction h with
  | init => exact ⟨_, _, WInv_init c spin g prog⟩
  | step i ch _ e ih =>
    obtain ⟨top, s, hi⟩ := ih
    exact WInv_step ho hu hi i ch e

end Falcon.Futex
