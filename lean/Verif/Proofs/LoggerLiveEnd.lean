import Verif.Proofs.LoggerLive
/-
Helper lemmas for endless joint executions: threads finish, all messages are served.
-/
namespace Falcon.LoggerJoint
open Falcon.Log (St Ev Act Rx Msg Str LId Exec CPc forever Often served finished accepted StartCalled StopCalled)
open Falcon.Logger (W Th Stm emitsAll outOf runS)

variable {rx : Rx} {min lv : Int} {s0 : St} {g : Nat → JAct} {n : Nat} {t b : Bool} {es0 : List Ev} {prog : Nat → List Stm}

/-- nobody is inside a call when nobody has called -/
theorem all_idle {s : St} {es : List Ev} (h : Exec rx (Falcon.Log.init n t b) s es) (hs : ∀ i op, .call i op ∉ es) :
    ∀ (i : Nat) (pc : CPc), s.cl[i]? = some pc → pc = .idle := by
  revert hs
  refine Falcon.Log.exec_inv (fun s es => (∀ i op, .call i op ∉ es) → ∀ (i : Nat) (pc : CPc), s.cl[i]? = some pc → pc = .idle) ?_ ?_ h
  · intro _ i pc hi
    simp only [Falcon.Log.init, List.getElem?_replicate] at hi
    split at hi
    · exact (Option.some.inj hi).symm
    · cases hi
  · intro s es e s' ih hs hn
    have hn' : ∀ i op, .call i op ∉ es := fun i op hm => hn i op (List.mem_append_left _ hm)
    have ih := ih hn'
    cases hs <;> first
      | exact ih
      | (rename_i hi; exact absurd (List.mem_append_right _ (List.mem_singleton.2 rfl)) (hn _ _))
      | (rename_i hi _; exact absurd (ih _ _ hi) (by simp))
      | (rename_i hi; exact absurd (ih _ _ hi) (by simp))
      | (rename_i hi _ _; exact absurd (ih _ _ hi) (by simp))

/-- What holds at every moment of an endless execution. -/
theorem live_inv (h0 : Exec rx (Falcon.Log.init n t b) s0 es0) (hsetup : ∀ i op, .call i op ∉ es0) (hp : ∀ i, Program (prog i))
    (hu : ∀ k i, g k ≠ .system (.call i .stop)) (k : Nat) :
    (∀ j, Steady ((jforever rx min (start lv prog) s0 g k).1.th j)) ∧
    Exec rx (Falcon.Log.init n t b) (jforever rx min (start lv prog) s0 g k).2.1 (es0 ++ (jforever rx min (start lv prog) s0 g k).2.2) ∧
    Simple (jforever rx min (start lv prog) s0 g k).2.1 := by
  have first : ∀ k, (∀ j, Steady ((jforever rx min (start lv prog) s0 g k).1.th j)) ∧
      Exec rx (Falcon.Log.init n t b) (jforever rx min (start lv prog) s0 g k).2.1 (es0 ++ (jforever rx min (start lv prog) s0 g k).2.2) := by
    intro k
    obtain ⟨as, ha⟩ := jforever_run (rx := rx) (min := min) (w0 := start lv prog) (s0 := s0) (g := g) k
    obtain ⟨sched, hw, hx, -⟩ := jrun_parts as (start_steady lv prog hp) ha
    refine ⟨?_, Falcon.Log.Exec.append h0 hx⟩
    rw [hw]
    exact (run_steady min sched _ (start_steady lv prog hp)).1
  refine ⟨(first k).1, (first k).2, ?_⟩
  induction k with
  | zero =>
    intro i pc hi
    rw [all_idle h0 hsetup i pc hi]
    decide
  | succ k ih =>
    rcases jforever_succ (rx := rx) (min := min) (w0 := start lv prog) (s0 := s0) (g := g) k with ⟨-, h⟩ | ⟨w', s', e, h1, h2⟩
    · rw [h]; exact ih
    · rw [h2]
      exact simple_step ih (Falcon.Log.exec_mem (first k).2) (hu k) h1

/-- thread `i` either stands still or comes closer to its end -/
theorem live_step (h0 : Exec rx (Falcon.Log.init n t b) s0 es0) (hsetup : ∀ i op, .call i op ∉ es0) (hp : ∀ i, Program (prog i))
    (hu : ∀ k i, g k ≠ .system (.call i .stop)) (i k : Nat) :
    ((jforever rx min (start lv prog) s0 g (k + 1)).1.th i = (jforever rx min (start lv prog) s0 g k).1.th i ∧
      (jforever rx min (start lv prog) s0 g (k + 1)).2.1.cl[i]? = (jforever rx min (start lv prog) s0 g k).2.1.cl[i]?) ∨
    todoOf i (jforever rx min (start lv prog) s0 g (k + 1)).1 (jforever rx min (start lv prog) s0 g (k + 1)).2.1
      < todoOf i (jforever rx min (start lv prog) s0 g k).1 (jforever rx min (start lv prog) s0 g k).2.1 := by
  obtain ⟨i1, i2, i3⟩ := live_inv (min := min) (lv := lv) h0 hsetup hp hu k
  rcases jforever_succ (rx := rx) (min := min) (w0 := start lv prog) (s0 := s0) (g := g) k with ⟨-, h⟩ | ⟨w', s', e, h1, h2⟩
  · rw [h]; exact .inl ⟨rfl, rfl⟩
  · rw [h2]
    exact thread_step i i3 (Falcon.Log.exec_mem i2) i1 (hu k) h1

theorem todoOf_congr {i : Nat} {w w' : W} {s s' : St} (h1 : w'.th i = w.th i) (h2 : s'.cl[i]? = s.cl[i]?) : todoOf i w' s' = todoOf i w s := by
  simp only [todoOf, h1, h2]

/-- over a longer time -/
theorem live_steps (h0 : Exec rx (Falcon.Log.init n t b) s0 es0) (hsetup : ∀ i op, .call i op ∉ es0) (hp : ∀ i, Program (prog i))
    (hu : ∀ k i, g k ≠ .system (.call i .stop)) (i k d : Nat) :
    ((jforever rx min (start lv prog) s0 g (k + d)).1.th i = (jforever rx min (start lv prog) s0 g k).1.th i ∧
      (jforever rx min (start lv prog) s0 g (k + d)).2.1.cl[i]? = (jforever rx min (start lv prog) s0 g k).2.1.cl[i]?) ∨
    todoOf i (jforever rx min (start lv prog) s0 g (k + d)).1 (jforever rx min (start lv prog) s0 g (k + d)).2.1
      < todoOf i (jforever rx min (start lv prog) s0 g k).1 (jforever rx min (start lv prog) s0 g k).2.1 := by
  induction d with
  | zero => exact .inl ⟨rfl, rfl⟩
  | succ d ih =>
    rcases live_step (min := min) (lv := lv) h0 hsetup hp hu i (k + d) with ⟨a1, a2⟩ | a
    · rcases ih with ⟨b1, b2⟩ | b
      · exact .inl ⟨a1.trans b1, a2.trans b2⟩
      · right
        have := todoOf_congr a1 a2
        rw [← Nat.add_assoc, this]; exact b
    · right
      rcases ih with ⟨b1, b2⟩ | b
      · rw [← todoOf_congr b1 b2]; exact a
      · exact Nat.lt_trans a b

/-- a thread that has something before it gets on -/
theorem live_progress (h0 : Exec rx (Falcon.Log.init n t b) s0 es0) (hsetup : ∀ i op, .call i op ∉ es0) (hp : ∀ i, Program (prog i))
    (hu : ∀ k i, g k ≠ .system (.call i .stop)) (hf : Fair n g) (i : Nat) (hi : i < n) (k : Nat)
    (hpos : 0 < todoOf i (jforever rx min (start lv prog) s0 g k).1 (jforever rx min (start lv prog) s0 g k).2.1) :
    ∃ k', k ≤ k' ∧ todoOf i (jforever rx min (start lv prog) s0 g k').1 (jforever rx min (start lv prog) s0 g k').2.1
      < todoOf i (jforever rx min (start lv prog) s0 g k).1 (jforever rx min (start lv prog) s0 g k).2.1 := by
  have hlen := Falcon.Log.exec_length (live_inv (min := min) (lv := lv) h0 hsetup hp hu k).2.1
  obtain ⟨pc, hpc⟩ : ∃ pc, (jforever rx min (start lv prog) s0 g k).2.1.cl[i]? = some pc := ⟨_, List.getElem?_eq_getElem (by omega)⟩
  by_cases hidle : pc = .idle
  · subst hidle
    obtain ⟨k', hk, hg⟩ := ((hf k).2 i hi).1
    obtain ⟨d, rfl⟩ : ∃ d, k' = k + d := ⟨k' - k, by omega⟩
    rcases live_steps (min := min) (lv := lv) h0 hsetup hp hu i k d with ⟨a1, a2⟩ | a
    · refine ⟨k + d + 1, by omega, ?_⟩
      have hne : ((jforever rx min (start lv prog) s0 g (k + d)).1.th i).todo ≠ [] := by
        intro hn
        rw [a1] at hn
        simp only [todoOf, hn, hpc] at hpos
        simp [workOf, left] at hpos
      rw [← todoOf_congr a1 a2]
      rcases jforever_succ (rx := rx) (min := min) (w0 := start lv prog) (s0 := s0) (g := g) (k + d) with ⟨h, -⟩ | ⟨w', s', e, h1, h2⟩
      · exfalso
        rw [hg] at h
        simp only [jstep, a2, hpc] at h
        split at h
        · cases h
        · simp only [Falcon.Log.step, a2, hpc, Falcon.Log.beginCall] at h
          cases h
      · have hw := work_step (min := min) _ i ((live_inv (min := min) (lv := lv) h0 hsetup hp hu (k + d)).1 i) hne
        rcases live_step (min := min) (lv := lv) h0 hsetup hp hu i (k + d) with ⟨c1, -⟩ | c
        · exfalso
          rw [h2] at c1
          rw [hg] at h1
          simp only [jstep, a2, hpc] at h1
          have : w' = Logger.step min (jforever rx min (start lv prog) s0 g (k + d)).1 i := by
            split at h1
            · cases h1; rfl
            · split at h1
              · cases h1
              · cases h1; rfl
          rw [← this] at hw
          simp only at c1
          rw [c1] at hw
          exact absurd hw (Nat.lt_irrefl _)
        · exact c
    · exact ⟨k + d, by omega, a⟩
  · obtain ⟨k', hk, hg⟩ := ((hf k).2 i hi).2
    obtain ⟨d, rfl⟩ : ∃ d, k' = k + d := ⟨k' - k, by omega⟩
    rcases live_steps (min := min) (lv := lv) h0 hsetup hp hu i k d with ⟨a1, a2⟩ | a
    · refine ⟨k + d + 1, by omega, ?_⟩
      obtain ⟨i1, i2, i3⟩ := live_inv (min := min) (lv := lv) h0 hsetup hp hu (k + d)
      obtain ⟨s2, e2, pc2, m1, m2, m3⟩ := client_moves (rx := rx) (Falcon.Log.exec_mem i2) i3 (a2.trans hpc) hidle
      have hj : jstep rx min (jforever rx min (start lv prog) s0 g (k + d)).1 (jforever rx min (start lv prog) s0 g (k + d)).2.1 (g (k + d))
          = some ((jforever rx min (start lv prog) s0 g (k + d)).1, s2, [e2]) := by
        rw [hg]
        simp only [jstep, callsLog, Bool.false_eq_true, if_false, m1]
      rcases jforever_succ (rx := rx) (min := min) (w0 := start lv prog) (s0 := s0) (g := g) (k + d) with ⟨h, -⟩ | ⟨w', s', e, h1, h2⟩
      · rw [hj] at h; cases h
      · rw [hj] at h1
        cases h1
        rw [h2, ← todoOf_congr a1 a2]
        have hlt := (List.getElem?_eq_some_iff.1 (a2.trans hpc)).1
        simp only [todoOf, m2, List.getElem?_set_self hlt, a2, hpc, Option.map_some, Option.getD_some]
        omega
    · exact ⟨k + d, by omega, a⟩

theorem live_thread (h0 : Exec rx (Falcon.Log.init n t b) s0 es0) (hsetup : ∀ i op, .call i op ∉ es0) (hp : ∀ i, Program (prog i))
    (hu : ∀ k i, g k ≠ .system (.call i .stop)) (hf : Fair n g) (i : Nat) (hi : i < n) (m : Nat) : ∀ k,
    todoOf i (jforever rx min (start lv prog) s0 g k).1 (jforever rx min (start lv prog) s0 g k).2.1 ≤ m →
    ∃ k', k ≤ k' ∧ todoOf i (jforever rx min (start lv prog) s0 g k').1 (jforever rx min (start lv prog) s0 g k').2.1 = 0 := by
  induction m with
  | zero => intro k h; exact ⟨k, Nat.le_refl _, by omega⟩
  | succ m ih =>
    intro k h
    by_cases hz : todoOf i (jforever rx min (start lv prog) s0 g k).1 (jforever rx min (start lv prog) s0 g k).2.1 = 0
    · exact ⟨k, Nat.le_refl _, hz⟩
    · obtain ⟨k1, hk1, hlt⟩ := live_progress (min := min) (lv := lv) h0 hsetup hp hu hf i hi k (by omega)
      obtain ⟨k2, hk2, h2⟩ := ih k1 (by omega)
      exact ⟨k2, by omega, h2⟩

/-- All threads come to their end, and stay there. -/
theorem live_all (h0 : Exec rx (Falcon.Log.init n t b) s0 es0) (hsetup : ∀ i op, .call i op ∉ es0) (hp : ∀ i, Program (prog i))
    (hu : ∀ k i, g k ≠ .system (.call i .stop)) (hf : Fair n g) :
    ∃ K, ∀ k, K ≤ k → ∀ i, i < n → ((jforever rx min (start lv prog) s0 g k).1.th i).todo = [] ∧
      (jforever rx min (start lv prog) s0 g k).2.1.cl[i]? = some .idle := by
  have key : ∀ c, c ≤ n → ∃ K, ∀ k, K ≤ k → ∀ i, i < c →
      todoOf i (jforever rx min (start lv prog) s0 g k).1 (jforever rx min (start lv prog) s0 g k).2.1 = 0 := by
    intro c
    induction c with
    | zero => intro _; exact ⟨0, fun k _ i hi => by omega⟩
    | succ c ih =>
      intro hc
      obtain ⟨K, hK⟩ := ih (by omega)
      obtain ⟨k', hk', hz⟩ := live_thread (min := min) (lv := lv) h0 hsetup hp hu hf c (by omega) _ K (Nat.le_refl _)
      refine ⟨k', fun k hk i hi => ?_⟩
      by_cases hic : i = c
      · subst hic
        obtain ⟨d, rfl⟩ : ∃ d, k = k' + d := ⟨k - k', by omega⟩
        rcases live_steps (min := min) (lv := lv) h0 hsetup hp hu i k' d with ⟨a1, a2⟩ | a
        · rw [todoOf_congr a1 a2]; exact hz
        · omega
      · exact hK k (by omega) i (by omega)
  obtain ⟨K, hK⟩ := key n (Nat.le_refl _)
  refine ⟨K, fun k hk i hi => ?_⟩
  have hz := hK k hk i hi
  have hlen := Falcon.Log.exec_length (live_inv (min := min) (lv := lv) h0 hsetup hp hu k).2.1
  obtain ⟨pc, hpc⟩ : ∃ pc, (jforever rx min (start lv prog) s0 g k).2.1.cl[i]? = some pc := ⟨_, List.getElem?_eq_getElem (by omega)⟩
  simp only [todoOf, hpc, Option.map_some, Option.getD_some] at hz
  refine ⟨?_, ?_⟩
  · cases hl : ((jforever rx min (start lv prog) s0 g k).1.th i).todo with
    | nil => rfl
    | cons o os =>
      have := workOf_pos (os := ((jforever rx min (start lv prog) s0 g k).1.th i).todo) (by rw [hl]; simp)
      omega
  · rw [hpc]
    cases pc <;> first | rfl | (simp [left] at hz)

theorem served_finished (es : List Ev) : served es = (finished es).length := by
  induction es with
  | nil => rfl
  | cons e es ih =>
    unfold served finished at ih ⊢
    cases e <;> simp_all

/-- Every message in the queue is served. -/
theorem live_served (h0 : Exec rx (Falcon.Log.init n false b) s0 es0) (hsetup : ∀ i op, .call i op ∉ es0)
    (hb : b = true ∨ StartCalled es0) (hu : ∀ k i, g k ≠ .system (.call i .stop)) (hf : Fair n g) (k : Nat) :
    ∃ K, k ≤ K ∧ (accepted (es0 ++ (jforever rx min (start lv prog) s0 g k).2.2)).length
      ≤ served (es0 ++ (jforever rx min (start lv prog) s0 g K).2.2) := by
  obtain ⟨p, f0, hf0⟩ := acts_of_exec h0
  let f : Nat → Act := fun j => if j < p then f0 j else systemOf rx min (start lv prog) s0 g (j - p)
  have hpre : forever rx (Falcon.Log.init n false b) f p = (s0, es0) := hf0 f (fun j hj => by simp only [f, if_pos hj])
  have hsh : ∀ k, forever rx (Falcon.Log.init n false b) f (p + k) =
      ((jforever rx min (start lv prog) s0 g k).2.1, es0 ++ (jforever rx min (start lv prog) s0 g k).2.2) := by
    intro k
    rw [forever_shift hpre k]
    have : (fun j => f (p + j)) = systemOf rx min (start lv prog) s0 g := by
      funext j
      have h1 : ¬ p + j < p := by omega
      have h2 : p + j - p = j := by omega
      simp only [f, if_neg h1, h2]
    rw [this, jforever_system]
  have hoften : Often f .log := by
    intro k
    obtain ⟨k', hk', hg⟩ := (hf k).1
    refine ⟨p + k', by omega, ?_⟩
    have h1 : ¬ p + k' < p := by omega
    have h2 : p + k' - p = k' := by omega
    simp only [f, if_neg h1, h2, systemOf, hg, asSystem, callsLog, Bool.false_eq_true, if_false]
  have hnostop : ∀ k, ¬ StopCalled (es0 ++ (jforever rx min (start lv prog) s0 g k).2.2) := by
    rintro k ⟨i, hi⟩
    rcases List.mem_append.1 hi with h | h
    · exact hsetup _ _ h
    · obtain ⟨k', hk'⟩ := jforever_did k i .stop (.inr ⟨rfl, h⟩)
      exact hu k' i hk'
  have hnever : ∀ k, ¬ StopCalled (forever rx (Falcon.Log.init n false b) f k).2 := by
    rintro k ⟨i, hi⟩
    have h1 := (Falcon.Log.forever_prefix (rx := rx) (s0 := Falcon.Log.init n false b) (f := f) (k := k) (k' := p + k) (by omega)).mem hi
    rw [hsh] at h1
    exact hnostop k ⟨i, h1⟩
  cases hA : (accepted (es0 ++ (jforever rx min (start lv prog) s0 g k).2.2)).length with
  | zero => exact ⟨k, Nat.le_refl _, by omega⟩
  | succ A =>
    obtain ⟨m, hm⟩ : ∃ m, (accepted (es0 ++ (jforever rx min (start lv prog) s0 g k).2.2))[A]? = some m :=
      ⟨_, List.getElem?_eq_getElem (by omega)⟩
    have hex := Falcon.Log.forever_exec (rx := rx) (s0 := Falcon.Log.init n false b) (f := f) (p + k)
    have hlt := (Falcon.Log.exec_calm hex (hnever _)).2 (by
      rcases hb with hb | ⟨i, hi⟩
      · exact .inl hb
      · right
        rw [hsh]
        exact ⟨i, List.mem_append_left _ hi⟩)
    obtain ⟨k', hk', hfin⟩ := Falcon.Log.serves hoften hnever (p + k) A m hlt (by rw [hsh]; exact hm)
    refine ⟨k' - p, by omega, ?_⟩
    have e : p + (k' - p) = k' := by omega
    have h2 := hsh (k' - p)
    rw [e] at h2
    rw [h2] at hfin
    rw [served_finished]
    exact (List.getElem?_eq_some_iff.1 hfin).1

end Falcon.LoggerJoint
