import Verif.Spec.UTSingleton
/- C158: UnitTest::singleton() called by several threads. -/
namespace Falcon.UTS

theorem run_append (s : St) (a b : List Nat) :
    run s (a ++ b) = ((run (run s a).1 b).1, (run s a).2 ++ (run (run s a).1 b).2) := by
  induction a generalizing s with
  | nil => rfl
  | cons i a ih => simp only [List.cons_append, run, ih, List.append_assoc]

/-- how the pointer and the threads stand -/
structure Inv (s : St) (tr : List Ev) : Prop where
  made  : makes tr = List.range s.next
  ptr   : ∀ u, s.ptr = some u → u < s.next
  store : ∀ i u, s.pc i = .store u → u < s.next
  read  : ∀ i, s.pc i = .read → s.ptr ≠ none
  res   : ∀ r ∈ results tr, ∃ u, r = some u ∧ u < s.next
  ret   : Returned tr → s.ptr ≠ none

theorem Inv.init : Inv {} [] :=
  ⟨rfl, by simp, by simp, by simp, by simp [results], by simp [Returned]⟩

theorem makes_append (a b : List Ev) : makes (a ++ b) = makes a ++ makes b := by simp [makes, List.filterMap_append]
theorem results_append (a b : List Ev) : results (a ++ b) = results a ++ results b := by simp [results, List.filterMap_append]
theorem returned_append (a b : List Ev) : Returned (a ++ b) ↔ Returned a ∨ Returned b := by
  simp only [Returned, List.mem_append, exists_or]

theorem Inv.step {s : St} {tr : List Ev} (h : Inv s tr) (i : Nat) : Inv (step s i).1 (tr ++ (step s i).2) := by
  have hq : ∀ p : Pc, ∀ j q, (setPc s i p).pc j = q → (j = i ∧ p = q) ∨ (j ≠ i ∧ s.pc j = q) := by
    intro p j q e
    by_cases hj : j = i
    · left; simp only [setPc, hj, if_true] at e; exact ⟨hj, e⟩
    · right; simp only [setPc, if_neg hj] at e; exact ⟨hj, e⟩
  unfold UTS.step
  cases hp : s.pc i with
  | out =>
    refine ⟨?_, h.ptr, fun j u e => ?_, fun j e => ?_, fun r hr => ?_, fun hr => h.ret ?_⟩
    · rw [makes_append, h.made]; exact List.append_nil _
    · rcases hq _ _ _ e with ⟨-, e⟩ | ⟨-, e⟩
      · cases e
      · exact h.store j u e
    · rcases hq _ _ _ e with ⟨-, e⟩ | ⟨-, e⟩
      · cases e
      · exact h.read j e
    · rw [results_append] at hr
      exact h.res r (by simpa [results] using hr)
    · simpa [returned_append, Returned] using hr
  | test =>
    dsimp only
    split
    · refine ⟨?_, h.ptr, fun j u e => ?_, fun j e => ?_, fun r hr => ?_, fun hr => h.ret ?_⟩
      · rw [List.append_nil]; exact h.made
      · rcases hq _ _ _ e with ⟨-, e⟩ | ⟨-, e⟩
        · cases e
        · exact h.store j u e
      · rcases hq _ _ _ e with ⟨-, e⟩ | ⟨-, e⟩
        · cases e
        · exact h.read j e
      · rw [List.append_nil] at hr; exact h.res r hr
      · rw [List.append_nil] at hr; exact hr
    · rename_i hn
      refine ⟨?_, h.ptr, fun j u e => ?_, fun j e => hn, fun r hr => ?_, fun hr => h.ret ?_⟩
      · rw [List.append_nil]; exact h.made
      · rcases hq _ _ _ e with ⟨-, e⟩ | ⟨-, e⟩
        · cases e
        · exact h.store j u e
      · rw [List.append_nil] at hr; exact h.res r hr
      · rw [List.append_nil] at hr; exact hr
  | make =>
    refine ⟨?_, fun u e => ?_, fun j u e => ?_, fun j e => ?_, fun r hr => ?_, fun hr => h.ret ?_⟩
    · rw [makes_append, h.made]
      show _ ++ [s.next] = List.range (s.next + 1)
      rw [List.range_succ]
    · have := h.ptr u e
      show u < s.next + 1
      omega
    · show u < s.next + 1
      by_cases hj : j = i
      · simp only [setPc, hj, if_true, Pc.store.injEq] at e; omega
      · simp only [setPc, if_neg hj] at e
        have := h.store j u e; omega
    · by_cases hj : j = i
      · simp [setPc, hj] at e
      · simp only [setPc, if_neg hj] at e
        exact h.read j e
    · rw [results_append] at hr
      obtain ⟨u, e, hu⟩ := h.res r (by simpa [results] using hr)
      refine ⟨u, e, ?_⟩
      show u < s.next + 1
      omega
    · simpa [returned_append, Returned] using hr
  | store v =>
    have hv := h.store i v hp
    refine ⟨?_, fun u e => ?_, fun j u e => ?_, fun j e => by simp [setPc], fun r hr => ?_, fun hr => by simp [setPc]⟩
    · rw [List.append_nil]; exact h.made
    · simp only [setPc, Option.some.injEq] at e; subst e; exact hv
    · by_cases hj : j = i
      · simp [setPc, hj] at e
      · simp only [setPc, if_neg hj] at e
        exact h.store j u e
    · rw [List.append_nil] at hr; exact h.res r hr
  | read =>
    have hn := h.read i hp
    refine ⟨?_, h.ptr, fun j u e => ?_, fun j e => hn, fun r hr => ?_, fun _ => hn⟩
    · rw [makes_append, h.made]; exact List.append_nil _
    · rcases hq _ _ _ e with ⟨-, e⟩ | ⟨-, e⟩
      · cases e
      · exact h.store j u e
    · rw [results_append, List.mem_append] at hr
      rcases hr with hr | hr
      · exact h.res r hr
      · simp only [results, List.filterMap_cons, List.filterMap_nil, List.mem_singleton] at hr
        cases hs : s.ptr with
        | none => exact absurd hs hn
        | some u => exact ⟨u, by rw [hr, hs], h.ptr u hs⟩

theorem Inv.run {s : St} {tr : List Ev} (h : Inv s tr) (is : List Nat) : Inv (run s is).1 (tr ++ (run s is).2) := by
  induction is generalizing s tr with
  | nil => simpa [UTS.run] using h
  | cons i is ih =>
    have := ih (h.step i)
    rwa [List.append_assoc] at this

theorem inv_run (is : List Nat) : Inv (run {} is).1 (run {} is).2 := by simpa using Inv.init.run is

/-- C158 (what holds): every call returns a runner, never null, one that was made by one of the calls, and the runners made are all different. -/
theorem C158_never_null_partial (is : List Nat) :
    (∀ r ∈ results (run {} is).2, ∃ u ∈ makes (run {} is).2, r = some u) ∧ (makes (run {} is).2).Nodup := by
  have h := inv_run is
  refine ⟨fun r hr => ?_, by rw [h.made]; exact List.nodup_range⟩
  obtain ⟨u, e, hu⟩ := h.res r hr
  exact ⟨u, by rw [h.made]; exact List.mem_range.2 hu, e⟩

/-- once the pointer is set: it stays set, and only threads that had found it null make runners -/
theorem run_set (s : St) (hs : s.ptr ≠ none) (is : List Nat) :
    (run s is).1.ptr ≠ none ∧ ∀ i u, .made i u ∈ (run s is).2 → s.pc i = .make := by
  induction is generalizing s with
  | nil => exact ⟨hs, by simp [run]⟩
  | cons k is ih =>
    have key : (step s k).1.ptr ≠ none ∧ (∀ i, (step s k).1.pc i = .make → s.pc i = .make) ∧ ∀ i u, .made i u ∈ (step s k).2 → s.pc i = .make := by
      unfold step
      cases hp : s.pc k with
      | out =>
        refine ⟨hs, fun i e => ?_, by simp⟩
        by_cases hi : i = k
        · simp [setPc, hi] at e
        · simpa [setPc, hi] using e
      | test =>
        dsimp only
        rw [if_neg hs]
        refine ⟨hs, fun i e => ?_, by simp⟩
        by_cases hi : i = k
        · simp [setPc, hi] at e
        · simpa [setPc, hi] using e
      | make =>
        refine ⟨hs, fun i e => ?_, fun i u e => ?_⟩
        · by_cases hi : i = k
          · simp [setPc, hi] at e
          · simpa [setPc, hi] using e
        · simp at e; rw [e.1]; exact hp
      | store v =>
        refine ⟨by simp [setPc], fun i e => ?_, by simp⟩
        by_cases hi : i = k
        · simp [setPc, hi] at e
        · simpa [setPc, hi] using e
      | read =>
        refine ⟨hs, fun i e => ?_, by simp⟩
        by_cases hi : i = k
        · simp [setPc, hi] at e
        · simpa [setPc, hi] using e
    obtain ⟨k1, k2, k3⟩ := key
    obtain ⟨i1, i2⟩ := ih _ k1
    refine ⟨i1, fun i u h => ?_⟩
    simp only [run, List.mem_append] at h
    rcases h with h | h
    · exact k3 i u h
    · exact k2 i (i2 i u h)

/-- C158 (what holds): once some call has returned, a call that begins later makes no runner: a runner made later is made by a thread that was inside its
call already. -/
theorem C158_no_more_partial (is js : List Nat) (hr : Returned (run {} is).2) (i u : Nat) (hm : .made i u ∈ (run (run {} is).1 js).2) :
    (run {} is).1.pc i ≠ .out := by
  have := (run_set _ ((inv_run is).ret hr) js).2 i u hm
  rw [this]; simp

/-- a thread that has made its runner finds the pointer set from then on -/
theorem maker {s : St} {i : Nat} (js : List Nat) (h : s.ptr ≠ none ∧ s.pc i ≠ .make ∨ ∃ u, s.pc i = .store u) (u : Nat) : .made i u ∉ (run s js).2 := by
  induction js generalizing s with
  | nil => simp [run]
  | cons k js ih =>
    have hother : k ≠ i → ∀ u, .made i u ∉ (step s k).2 := by
      intro hk u e
      unfold step at e
      cases hp : s.pc k <;> simp only [hp] at e
      · simp at e
      · split at e <;> simp at e
      · simp at e; exact hk e.1.symm
      · simp at e
      · simp at e
    simp only [run, List.mem_append, not_or]
    rcases h with ⟨h1, h2⟩ | ⟨v, hv⟩
    · refine ⟨fun e => h2 ?_, fun e => h2 ?_⟩
      · have := (run_set s h1 [k]).2 i u (by simpa [run] using e)
        exact this
      · exact (run_set s h1 (k :: js)).2 i u (by simp [run, e])
    · by_cases hk : k = i
      · subst hk
        have e : step s k = (setPc { s with ptr := some v } k .read, []) := by simp only [step, hv]
        rw [e]
        exact ⟨by simp, ih (.inl ⟨by simp [setPc], by simp [setPc]⟩)⟩
      · refine ⟨hother hk u, ih (.inr ⟨v, ?_⟩)⟩
        unfold step
        have hset : ∀ (s' : St) p, (∀ j, s'.pc j = s.pc j) → (setPc s' k p).pc i = .store v := by
          intro s' p h'
          simp only [setPc, if_neg (Ne.symm hk), h', hv]
        cases hp : s.pc k <;> dsimp only
        · exact hset _ _ (fun _ => rfl)
        · split <;> exact hset _ _ (fun _ => rfl)
        · exact hset _ _ (fun _ => rfl)
        · exact hset _ _ (fun _ => rfl)
        · exact hset _ _ (fun _ => rfl)

/-- C158 (what holds): no thread makes more than one runner, so at most as many are made as there are threads calling. -/
theorem C158_one_each_partial (is js : List Nat) (i u v : Nat) (h : .made i u ∈ (run {} is).2) : .made i v ∉ (run (run {} is).1 js).2 := by
  suffices H : ∀ (is : List Nat) (s : St) (j : List Nat), .made i u ∈ (run s is).2 →
      (run s is).1.ptr ≠ none ∧ (run s is).1.pc i ≠ .make ∨ ∃ w, (run s is).1.pc i = .store w by
    exact maker js (H is {} js h) v
  have keep : ∀ (s : St) (k : Nat), (s.ptr ≠ none ∧ s.pc i ≠ .make ∨ ∃ w, s.pc i = .store w) →
      ((step s k).1.ptr ≠ none ∧ (step s k).1.pc i ≠ .make ∨ ∃ w, (step s k).1.pc i = .store w) := by
    intro s k h
    unfold step
    by_cases hk : k = i
    · subst hk
      rcases h with ⟨h1, h2⟩ | ⟨w, hw⟩
      · cases hp : s.pc k <;> dsimp only
        · exact .inl ⟨h1, by simp [setPc]⟩
        · rw [if_neg h1]; exact .inl ⟨h1, by simp [setPc]⟩
        · exact absurd hp h2
        · exact .inl ⟨by simp [setPc], by simp [setPc]⟩
        · exact .inl ⟨h1, by simp [setPc]⟩
      · rw [hw]; exact .inl ⟨by simp [setPc], by simp [setPc]⟩
    · have hset : ∀ (s' : St) p, (setPc s' k p).pc i = s'.pc i := by
        intro s' p
        simp only [setPc, if_neg (Ne.symm hk)]
      rcases h with ⟨h1, h2⟩ | ⟨w, hw⟩
      · left
        cases hp : s.pc k <;> dsimp only
        · exact ⟨h1, by rw [hset]; exact h2⟩
        · rw [if_neg h1]; exact ⟨h1, by rw [hset]; exact h2⟩
        · exact ⟨h1, by rw [hset]; exact h2⟩
        · exact ⟨by simp [setPc], by rw [hset]; exact h2⟩
        · exact ⟨h1, by rw [hset]; exact h2⟩
      · right; refine ⟨w, ?_⟩
        cases hp : s.pc k <;> dsimp only
        · rw [hset]; exact hw
        · split <;> (rw [hset]; exact hw)
        · rw [hset]; exact hw
        · rw [hset]; exact hw
        · rw [hset]; exact hw
  have keepRun : ∀ (js : List Nat) (s : St), (s.ptr ≠ none ∧ s.pc i ≠ .make ∨ ∃ w, s.pc i = .store w) →
      ((run s js).1.ptr ≠ none ∧ (run s js).1.pc i ≠ .make ∨ ∃ w, (run s js).1.pc i = .store w) := by
    intro js
    induction js with
    | nil => intro s h; exact h
    | cons k js ih => intro s h; exact ih _ (keep s k h)
  intro is
  induction is with
  | nil => intro s j h; simp [run] at h
  | cons k is ih =>
    intro s j h
    simp only [run, List.mem_append] at h
    rcases h with h | h
    · refine keepRun is _ ?_
      cases hp : s.pc k <;> simp only [step, hp] at h ⊢
      · simp at h
      · split at h <;> simp at h
      · simp at h
        right; exact ⟨s.next, by simp [setPc, h.1]⟩
      · simp at h
      · simp at h
    · exact ih _ j h

/-- where no thread is about to make or store a runner and the pointer is set -/
theorem run_settled (s : St) (u : Nat) (hp : s.ptr = some u) (hq : ∀ i, s.pc i ≠ .make ∧ ∀ v, s.pc i ≠ .store v) (is : List Nat) :
    (run s is).1.ptr = some u ∧ (∀ i, (run s is).1.pc i ≠ .make ∧ ∀ v, (run s is).1.pc i ≠ .store v) ∧ makes (run s is).2 = [] ∧ ∀ r ∈ results (run s is).2, r = some u := by
  induction is generalizing s with
  | nil => exact ⟨hp, hq, rfl, by simp [run, results]⟩
  | cons k is ih =>
    have key : (step s k).1.ptr = some u ∧ (∀ i, (step s k).1.pc i ≠ .make ∧ ∀ v, (step s k).1.pc i ≠ .store v) ∧ makes (step s k).2 = [] ∧
        ∀ r ∈ results (step s k).2, r = some u := by
      have hset : ∀ p : Pc, p ≠ .make → (∀ v, p ≠ .store v) → ∀ i, (setPc s k p).pc i ≠ .make ∧ ∀ v, (setPc s k p).pc i ≠ .store v := by
        intro p h1 h2 i
        by_cases hi : i = k
        · simp only [setPc, hi, if_true]; exact ⟨h1, h2⟩
        · simp only [setPc, if_neg hi]; exact hq i
      unfold step
      cases hk : s.pc k with
      | out => exact ⟨hp, hset _ (by simp) (by simp), rfl, by simp [results]⟩
      | test =>
        dsimp only
        rw [if_neg (by rw [hp]; simp)]
        exact ⟨hp, hset _ (by simp) (by simp), rfl, by simp [results]⟩
      | make => exact absurd hk (hq k).1
      | store v => exact absurd hk ((hq k).2 v)
      | read => exact ⟨hp, hset _ (by simp) (by simp), rfl, by simp [results, hp]⟩
    obtain ⟨k1, k2, k3, k4⟩ := key
    obtain ⟨i1, i2, i3, i4⟩ := ih _ k1 k2
    refine ⟨i1, i2, ?_, ?_⟩
    · simp only [run, makes_append, k3, i3, List.append_nil]
    · intro r hr
      simp only [run, results_append, List.mem_append] at hr
      rcases hr with hr | hr
      · exact k4 r hr
      · exact i4 r hr

/-- C158 (what holds): once there was a moment at which some call had returned and none was under way, all later calls, by whatever threads, return one
runner and make none, and no two accesses race. -/
theorem C158_stable_partial (is : List Nat) (hr : Returned (run {} is).2) (hq : Quiet (run {} is).1) :
    ∃ u ∈ makes (run {} is).2, ∀ js, makes (run (run {} is).1 js).2 = [] ∧ (∀ r ∈ results (run (run {} is).1 js).2, r = some u) ∧
      ∀ i j, ¬ Clashes (run (run {} is).1 js).1 i j := by
  have h := inv_run is
  cases hp : (run {} is).1.ptr with
  | none => exact absurd hp (h.ret hr)
  | some u =>
    refine ⟨u, by rw [h.made]; exact List.mem_range.2 (h.ptr u hp), fun js => ?_⟩
    obtain ⟨-, b, c, d⟩ := run_settled _ u hp (fun i => by rw [hq i]; simp) js
    refine ⟨c, d, ?_⟩
    rintro i j ⟨-, x, hx, y, hy, -, hw, -⟩
    have hacc : ∀ i x, x ∈ access (run (run {} is).1 js).1 i → x.write = false := by
      intro i x hx
      unfold access at hx
      split at hx
      · simp at hx; rw [hx]
      · simp at hx; rw [hx]
      · rename_i v hv; exact absurd hv ((b i).2 v)
      · simp at hx
    rw [hacc i x hx, hacc j y hy] at hw
    simp at hw

/-- C158 (what holds): if the first call is made while no other thread is in singleton() (for instance by a static object, before threads are started), then one
runner is made, and every call of every thread returns it. -/
theorem C158_first_alone_partial (i : Nat) (js : List Nat) :
    results (run {} (List.replicate 5 i ++ js)).2 ≠ [] ∧ (∀ r ∈ results (run {} (List.replicate 5 i ++ js)).2, r = some 0) ∧
    makes (run {} (List.replicate 5 i ++ js)).2 = [0] := by
  have e : ∃ s, run {} (List.replicate 5 i) = (s, [.called i, .made i 0, .returned i (some 0)]) ∧ s.ptr = some 0 ∧ ∀ j, s.pc j = .out := by
    refine ⟨(run {} (List.replicate 5 i)).1, ?_, ?_, ?_⟩
    · simp [List.replicate, run, step, setPc]
    · simp [List.replicate, run, step, setPc]
    · intro j
      by_cases hj : j = i <;> simp [List.replicate, run, step, setPc, hj]
  obtain ⟨s, e, hp, hq⟩ := e
  rw [run_append, e]
  obtain ⟨-, -, c, d⟩ := run_settled s 0 hp (fun j => by rw [hq j]; simp) js
  refine ⟨by simp [results], ?_, ?_⟩
  · intro r hr
    rw [results_append, List.mem_append] at hr
    rcases hr with hr | hr
    · simpa [results] using hr
    · exact d r hr
  · rw [makes_append, c]; rfl

/-- C158 (exact, data races): two threads race in singleton() exactly if one is about to store a runner and the other about to read or store the
pointer. -/
theorem C158_race_exact_partial (s : St) (i j : Nat) :
    Clashes s i j ↔ i ≠ j ∧ ((Stores s i ∧ (Stores s j ∨ Reads s j)) ∨ (Stores s j ∧ (Stores s i ∨ Reads s i))) := by
  unfold Clashes
  refine and_congr Iff.rfl ?_
  unfold access Stores Reads
  cases hi : s.pc i <;> cases hj : s.pc j <;> simp [Race.Clash]

/-- C158 does not hold: two threads that call singleton() at the same time can get different runners; and the one made first is lost. -/
theorem C158_refuted : (run {} [0, 1, 0, 1, 0, 1, 0, 0, 1, 1, 0, 0, 0]).2 =
    [.called 0, .called 1, .made 0 0, .made 1 1, .returned 0 (some 0), .returned 1 (some 1), .called 0, .returned 0 (some 1)] := by
  decide

theorem begin_all (n : Nat) : ∃ s es, run {} ((List.range n).flatMap fun i => [i, i, i]) = (s, es) ∧ results es = [] ∧ s.ptr = none ∧ s.next = n ∧
    ∀ j, s.pc j = if j < n then .store j else .out := by
  induction n with
  | zero => exact ⟨{}, [], rfl, rfl, rfl, rfl, fun j => by simp⟩
  | succ n ih =>
    obtain ⟨s, es, e, h1, h2, h3, h4⟩ := ih
    have hp : s.pc n = .out := by rw [h4, if_neg (Nat.lt_irrefl n)]
    have hr : run s [n, n, n] = (setPc { s with next := n + 1 } n (.store n), [.called n, .made n n]) := by
      have f : ∀ (p q r : Pc), setPc (setPc (setPc s n p) n q) n r = setPc s n r := by
        intro p q r; unfold setPc; congr 1; funext j; by_cases hj : j = n <;> simp [hj]
      simp only [run, step, hp, setPc, if_true, h2, h3, List.append_nil, List.cons_append, List.nil_append]
      congr 1
      congr 1
      funext j
      by_cases hj : j = n <;> simp [hj]
    refine ⟨setPc { s with next := n + 1 } n (.store n), es ++ [.called n, .made n n], ?_, ?_, h2, rfl, fun j => ?_⟩
    · rw [List.range_succ, List.flatMap_append, run_append, e]
      simp only [List.flatMap_cons, List.flatMap_nil, List.append_nil, hr]
    · rw [results_append, h1]; rfl
    · by_cases hj : j = n
      · simp [setPc, hj]
      · simp only [setPc, if_neg hj, h4]
        by_cases hlt : j < n
        · rw [if_pos hlt, if_pos (by omega)]
        · rw [if_neg hlt, if_neg (by omega)]

theorem finish_all (is : List Nat) (hn : is.Nodup) (s : St) (h : ∀ j ∈ is, s.pc j = .store j) :
    results (run s (is.flatMap fun i => [i, i])).2 = is.map some := by
  induction is generalizing s with
  | nil => rfl
  | cons i is ih =>
    have hr : run s [i, i] = (setPc { s with ptr := some i } i .out, [.returned i (some i)]) := by
      simp only [run, step, h i (by simp), setPc, if_true, List.append_nil, List.nil_append]
      congr 1
      congr 1
      funext j
      by_cases hj : j = i <;> simp [hj]
    rw [List.nodup_cons] at hn
    rw [List.flatMap_cons, run_append, hr, results_append]
    have := ih hn.2 (setPc { s with ptr := some i } i .out) (fun j hj => by
      have hji : j ≠ i := fun e => hn.1 (e ▸ hj)
      simp only [setPc, if_neg hji]
      exact h j (by simp [hj]))
    rw [this]
    rfl

/-- ... and so can any number of threads, all different ones. -/
theorem C158_all_different_refuted (n : Nat) : ∃ is, results (run {} is).2 = (List.range n).map some := by
  obtain ⟨s, es, e, h1, -, -, h4⟩ := begin_all n
  refine ⟨((List.range n).flatMap fun i => [i, i, i]) ++ ((List.range n).flatMap fun i => [i, i]), ?_⟩
  rw [run_append, e, results_append, h1, List.nil_append]
  exact finish_all _ List.nodup_range s (fun j hj => by rw [h4, if_pos (List.mem_range.1 hj)])

/-- ... and race on the pointer. -/
theorem C158_race_refuted : Clashes (run {} [0, 1, 0, 1, 0, 1]).1 0 1 :=
  (C158_race_exact_partial _ 0 1).2 ⟨by decide, .inl ⟨⟨0, by decide⟩, .inl ⟨1, by decide⟩⟩⟩

/-! non-vacuity -/

/-- the hypotheses of C158_stable_partial after the race above -/
example : Returned (run {} [0, 1, 0, 1, 0, 1, 0, 0, 1, 1]).2 ∧ Quiet (run {} [0, 1, 0, 1, 0, 1, 0, 0, 1, 1]).1 := by
  refine ⟨⟨0, some 0, by decide⟩, fun i => ?_⟩
  match i with
  | 0 => rfl
  | 1 => rfl
  | i + 2 => rfl

/-- the hypotheses of C158_no_more_partial: a runner made after a call has returned -/
example : Returned (run {} [0, 1, 0, 1, 0, 0, 0]).2 ∧ Ev.made 1 1 ∈ (run (run {} [0, 1, 0, 1, 0, 0, 0]).1 [1]).2 :=
  ⟨⟨0, some 0, by decide⟩, by decide⟩

/-- The accesses are exact: a step can change the pointer if and only if it is listed as writing it, and what a step does depends on the pointer if and only if it is listed
as reading it. -/
theorem C158_accesses_exact (s : St) (i : Nat) :
    ((∃ a ∈ access s i, a.write = true) ↔ ∃ p, (step { s with ptr := p } i).1.ptr ≠ p) ∧
    ((∃ a ∈ access s i, a.write = false) ↔ ∃ p q, (step { s with ptr := p } i).2 ≠ (step { s with ptr := q } i).2 ∨ (step { s with ptr := p } i).1.pc i ≠ (step { s with ptr := q } i).1.pc i) := by
  cases h : s.pc i with
  | out => simp [access, step, setPc, h]
  | make => simp [access, step, setPc, h]
  | store u =>
    simp [access, step, setPc, h]
    exact ⟨none, by simp⟩
  | test =>
    simp only [access, step, setPc, h]
    refine ⟨?_, ?_⟩
    · simp
      intro p
      split <;> rfl
    · simp
      exact ⟨none, some 0, by simp⟩
  | read =>
    simp [access, step, setPc, h]
    exact ⟨none, some 0, by simp⟩

end Falcon.UTS
