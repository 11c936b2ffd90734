import Verif.Proofs.FutThreads
/-
Schedules of tests with threads: they end, and any state that the properties speak of is met by one.
-/
namespace Falcon.FutThreads
open Falcon.Fut (Str Status Exc)

theorem run_append (as bs : List (Option Nat)) : ∀ {s s1 : St}, run s as = some s1 → run s (as ++ bs) = run s1 bs := by
  induction as with
  | nil => intro s s1 h; cases h; rfl
  | cons a as ih =>
    intro s s1 h
    simp only [run, List.cons_append] at h ⊢
    split at h
    · cases h
    · exact ih h

theorem run_one {s s1 : St} {a : Option Nat} (h : step s a = some s1) : run s [a] = some s1 := by simp [run, h]

/-! ### the end -/

def opSize : MOp → Nat
  | .spawn b => 1 + 5 * b.length
  | _        => 5

def thSize (t : Th) : Nat := t.writes.length + 5 * t.todo.length

def phSize : Phase → Nat
  | .test    => 2
  | .leave _ => 1
  | .done    => 0

/-- steps that can still be made -/
def size (s : St) : Nat :=
  phSize s.phase + s.writes.length + (s.todo.map opSize).sum + (s.ths.map thSize).sum + (if s.dead = true then 0 else 1)

theorem sum_set {l : List Th} {k : Nat} {t t' : Th} (h : l[k]? = some t) (hlt : thSize t' < thSize t) :
    ((l.set k t').map thSize).sum < (l.map thSize).sum := by
  induction l generalizing k with
  | nil => simp at h
  | cons x l ih =>
    cases k with
    | zero => simp at h; subst h; simpa using hlt
    | succ k =>
      simp only [List.getElem?_cons_succ] at h
      have := ih h
      simp only [List.set_cons_succ, List.map_cons, List.sum_cons]
      omega

theorem leave_size {s : St} {e : Option Exc} (hp : s.phase = .test) (hd : s.dead = false) : size (leave s e) < size s := by
  unfold leave
  split
  · simp [size, hp, phSize]; omega
  · simp [size, hd]

theorem step_size {s s' : St} {a : Option Nat} (h : step s a = some s') : size s' < size s := by
  unfold step at h
  split at h
  · cases h
  rename_i hd
  have hd : s.dead = false := by simpa using hd
  cases a with
  | some k =>
    simp only [stepTh] at h
    split at h
    · cases h
    rename_i t hk
    obtain ⟨ws, td⟩ := t
    cases ws with
    | cons w ws =>
      simp only at h; cases h
      have := sum_set (t' := ⟨ws, td⟩) hk (by simp [thSize])
      simp only [size]; omega
    | nil =>
      cases td with
      | nil => cases h
      | cons o td =>
        cases o with
        | throws => simp only at h; cases h; simp [size, hd]
        | check c =>
          simp only at h
          split at h
          · cases h
            have := sum_set (t' := ⟨[], td⟩) hk (by simp [thSize])
            simp only [size]; omega
          · cases h
            have := sum_set (t' := ⟨c.writes, if c.stops = true then [] else td⟩) hk (by
              split <;> simp [thSize, Chk.writes] <;> omega)
            simp only [size]; omega
  | none =>
    simp only [stepMain] at h
    split at h
    · cases h
    · rename_i e hp
      cases h
      simp [size, hp, phSize]
    · rename_i hp
      split at h
      · rename_i w ws hw; cases h; simp [size, hw]
      · rename_i hw
        split at h
        · cases h; exact leave_size hp hd
        · cases h; exact leave_size hp hd
        · rename_i c r ht
          split at h
          · cases h; simp [size, ht, opSize]
          · cases h
            split <;> simp [size, ht, hw, opSize, Chk.writes] <;> omega
        · rename_i b r ht
          cases h
          simp [size, ht, hw, opSize, thSize]; omega
        · rename_i k r ht
          split at h
          · cases h; exact leave_size hp hd
          · split at h
            · cases h; exact leave_size hp hd
            · split at h
              · cases h; simp [size, ht, opSize]
              · cases h

theorem run_size {as : List (Option Nat)} : ∀ {s s' : St}, run s as = some s' → as.length + size s' ≤ size s := by
  induction as with
  | nil => intro s s' h; cases h; simp
  | cons a as ih =>
    intro s s' h
    simp only [run] at h
    split at h
    · cases h
    · rename_i s1 h1
      have := step_size h1
      have := ih h
      simp only [List.length_cons]; omega

/-- somebody can go on, as long as the run is not over -/
theorem goes_on {s : St} (hd : s.dead = false) (hp : s.phase ≠ .done) : ∃ a s', step s a = some s' := by
  by_cases hm : ∃ s', stepMain s = some s'
  · obtain ⟨s', h⟩ := hm
    exact ⟨none, s', by simp [step, hd, h]⟩
  · have hn : stepMain s = none := by
      cases h : stepMain s with
      | none => rfl
      | some s' => exact absurd ⟨s', h⟩ hm
    unfold stepMain at hn
    split at hn
    · rename_i h; exact absurd h hp
    · cases hn
    · split at hn
      · cases hn
      · split at hn
        · cases hn
        · cases hn
        · split at hn <;> cases hn
        · cases hn
        · rename_i k r ht
          split at hn
          · cases hn
          · split at hn
            · cases hn
            · rename_i t hk
              split at hn
              · cases hn
              · rename_i hne
                have : ∃ s', stepTh s k = some s' := by
                  unfold stepTh
                  rw [hk]
                  simp only
                  split
                  · exact ⟨_, rfl⟩
                  · rename_i hw
                    split
                    · rename_i htd; exact absurd ⟨hw, htd⟩ hne
                    · exact ⟨_, rfl⟩
                    · split <;> exact ⟨_, rfl⟩
                obtain ⟨s', h⟩ := this
                exact ⟨some k, s', by simp [step, hd, h]⟩

/-- some schedule that goes on to the end -/
theorem to_end (s : St) : ∃ as s', run s as = some s' ∧ (s'.dead = true ∨ s'.phase = .done) := by
  generalize hn : size s = n
  induction n using Nat.strongRecOn generalizing s with
  | ind n ih =>
    by_cases hd : s.dead = true
    · exact ⟨[], s, rfl, .inl hd⟩
    by_cases hp : s.phase = .done
    · exact ⟨[], s, rfl, .inr hp⟩
    obtain ⟨a, s1, h1⟩ := goes_on (by simpa using hd) hp
    obtain ⟨as, s2, h2, h3⟩ := ih (size s1) (hn ▸ step_size h1) s1 rfl
    exact ⟨a :: as, s2, by simp [run, h1, h2], h3⟩

/-! ### schedules that meet a given state -/

/-- a thread runs to its end -/
theorem thread_ends {k : Nat} (n : Nat) : ∀ {s : St} {t : Th}, thSize t = n → s.dead = false → s.ths[k]? = some t → escapes t.todo = false →
    ∃ as r, run s as = some { s with ths := s.ths.set k ⟨[], []⟩, r := r } := by
  induction n using Nat.strongRecOn with
  | ind n ih =>
    intro s t hn hd hk he
    have hlt := (List.getElem?_eq_some_iff.1 hk).1
    obtain ⟨ws, td⟩ := t
    have next : ∀ (t' : Th) (r : Rec), step s (some k) = some { s with ths := s.ths.set k t', r := r } → thSize t' < n → escapes t'.todo = false →
        ∃ as r, run s as = some { s with ths := s.ths.set k ⟨[], []⟩, r := r } := by
      intro t' r hst hsz he'
      obtain ⟨as, r', h⟩ := ih (thSize t') hsz (s := { s with ths := s.ths.set k t', r := r }) (t := t') rfl hd
        (by simp [hlt]) he'
      refine ⟨some k :: as, r', ?_⟩
      simp only [run, hst, h, List.set_set]
    cases ws with
    | cons w ws =>
      exact next ⟨ws, td⟩ (s.r.put w) (by simp [step, hd, stepTh, hk]) (by rw [← hn]; simp [thSize]) he
    | nil =>
      cases td with
      | nil =>
        refine ⟨[], s.r, ?_⟩
        have : s.ths.set k ⟨[], []⟩ = s.ths := by
          apply List.ext_getElem?
          intro j
          rw [List.getElem?_set]
          split
          · rename_i e; subst e; exact hk.symm
          · rfl
        rw [this]; rfl
      | cons o td =>
        cases o with
        | throws => simp [escapes] at he
        | check c =>
          simp only [escapes] at he
          by_cases hok : c.ok = true
          · rw [if_neg (by rw [hok]; simp)] at he
            exact next ⟨[], td⟩ s.r (by simp [step, hd, stepTh, hk, hok]) (by rw [← hn]; simp [thSize]) he
          · have hok : c.ok = false := by simpa using hok
            refine next ⟨c.writes, if c.stops = true then [] else td⟩ s.r (by simp [step, hd, stepTh, hk, hok]) ?_ ?_
            · rw [← hn]; cases c.stops <;> simp [thSize, Chk.writes] <;> omega
            · cases hst : c.stops
              · simp [hst] at he; simpa using he
              · rfl

/-- a thread runs up to its first report -/
theorem thread_reports {k : Nat} (b : List TOp) : ∀ {s : St}, s.dead = false → s.ths[k]? = some ⟨[], b⟩ → fails b ≠ [] →
    ∃ as c t, run s as = some { s with ths := s.ths.set k ⟨Chk.writes c, t⟩ } := by
  induction b with
  | nil => intro s _ _ h; exact absurd rfl h
  | cons o b ih =>
    intro s hd hk hf
    have hlt := (List.getElem?_eq_some_iff.1 hk).1
    cases o with
    | throws => exact absurd rfl hf
    | check c =>
      by_cases hok : c.ok = true
      · simp only [fails, if_pos hok] at hf
        obtain ⟨as, c', t', h⟩ := ih (s := { s with ths := s.ths.set k ⟨[], b⟩ }) hd (by simp [hlt]) hf
        refine ⟨some k :: as, c', t', ?_⟩
        have : step s (some k) = some { s with ths := s.ths.set k ⟨[], b⟩ } := by simp [step, hd, stepTh, hk, hok]
        simp only [run, this, h, List.set_set]
      · have hok : c.ok = false := by simpa using hok
        exact ⟨[some k], c, _, by simp only [run, step, hd, stepTh, hk, hok]; rfl⟩

/-- a thread runs until an exception leaves its function -/
theorem thread_escapes {k : Nat} (n : Nat) : ∀ {s : St} {t : Th}, thSize t = n → s.dead = false → s.ths[k]? = some t → escapes t.todo = true →
    ∃ as s', run s as = some s' ∧ s'.dead = true := by
  induction n using Nat.strongRecOn with
  | ind n ih =>
    intro s t hn hd hk he
    have hlt := (List.getElem?_eq_some_iff.1 hk).1
    obtain ⟨ws, td⟩ := t
    have next : ∀ (t' : Th) (r : Rec), step s (some k) = some { s with ths := s.ths.set k t', r := r } → thSize t' < n → escapes t'.todo = true →
        ∃ as s', run s as = some s' ∧ s'.dead = true := by
      intro t' r hst hsz he'
      obtain ⟨as, s', h, h2⟩ := ih (thSize t') hsz (s := { s with ths := s.ths.set k t', r := r }) (t := t') rfl hd
        (by simp [hlt]) he'
      exact ⟨some k :: as, s', by simp only [run, hst, h], h2⟩
    cases ws with
    | cons w ws =>
      exact next ⟨ws, td⟩ (s.r.put w) (by simp [step, hd, stepTh, hk]) (by rw [← hn]; simp [thSize]) he
    | nil =>
      cases td with
      | nil => simp [escapes] at he
      | cons o td =>
        cases o with
        | throws => exact ⟨[some k], { s with dead := true }, by simp [run, step, hd, stepTh, hk], rfl⟩
        | check c =>
          simp only [escapes] at he
          by_cases hok : c.ok = true
          · rw [if_neg (by rw [hok]; simp)] at he
            exact next ⟨[], td⟩ s.r (by simp [step, hd, stepTh, hk, hok]) (by rw [← hn]; simp [thSize]) he
          · have hok : c.ok = false := by simpa using hok
            cases hst : c.stops
            · simp [hst] at he
              exact next ⟨c.writes, td⟩ s.r (by simp [step, hd, stepTh, hk, hok, hst]) (by rw [← hn]; simp [thSize, Chk.writes]; omega) he
            · simp [hst, hok] at he

/-- The test's own thread is at the statements `rest`, every thread other than `held` has ended. -/
structure At (s : St) (held : Option Nat) (rest : List MOp) : Prop where
  phase  : s.phase = .test
  alive  : s.dead = false
  writes : s.writes = []
  ops    : (path s.ths.length s.joined s.todo).1 = rest
  ths    : ∀ (j : Nat) (t : Th), s.ths[j]? = some t → held = some j ∨ t = ⟨[], []⟩

theorem path_cons {n : Nat} {J : List Nat} {todo : List MOp} {x : MOp} {rest : List MOp} (h : (path n J todo).1 = x :: rest) :
    ∃ r, todo = x :: r := by
  cases todo with
  | nil => simp [path] at h
  | cons y r =>
    cases y with
    | throws e => simp [path] at h
    | check c =>
      simp only [path] at h
      split at h <;> · simp only [List.cons.injEq] at h; exact ⟨r, by rw [h.1]⟩
    | spawn b => simp only [path, List.cons.injEq] at h; exact ⟨r, by rw [h.1]⟩
    | join k =>
      simp only [path] at h
      split at h
      · simp only [List.cons.injEq] at h; exact ⟨r, by rw [h.1]⟩
      · simp at h

theorem spawn_step {s : St} {held : Option Nat} {b : List TOp} {rest : List MOp} (h : At s held (.spawn b :: rest)) :
    ∃ s1, step s none = some s1 ∧ s1.phase = .test ∧ s1.dead = false ∧ s1.writes = [] ∧ (path s1.ths.length s1.joined s1.todo).1 = rest ∧
      s1.ths = s.ths ++ [⟨[], b⟩] := by
  obtain ⟨r, hr⟩ := path_cons h.ops
  refine ⟨{ s with todo := r, ths := s.ths ++ [⟨[], b⟩] }, ?_, h.phase, h.alive, h.writes, ?_, rfl⟩
  · simp [step, h.alive, stepMain, h.phase, h.writes, hr]
  · have := h.ops
    rw [hr] at this
    simp only [path, List.cons.injEq, true_and] at this
    simpa using this

/-- a statement of test(), with all other threads running to their ends -/
theorem At.next {s : St} {held : Option Nat} {x : MOp} {rest : List MOp} (h : At s held (x :: rest))
    (he : ∀ b, x = .spawn b → escapes b = false) (hj : ∀ k, held = some k → x ≠ .join k) (hin : ∀ k, held = some k → k < s.ths.length) :
    ∃ as s', run s as = some s' ∧ At s' held rest ∧ s'.ths.length = s.ths.length + spawned [x] ∧
      ∀ k, held = some k → s'.ths[k]? = s.ths[k]? := by
  obtain ⟨r, hr⟩ := path_cons h.ops
  have hops := h.ops
  rw [hr] at hops
  cases x with
  | throws e => simp [path] at hops
  | check c =>
    by_cases hok : c.ok = true
    · have hn : ¬ (c.ok = false ∧ c.stops = true) := by rw [hok]; simp
      simp only [path, if_neg hn, List.cons.injEq, true_and] at hops
      refine ⟨[none], { s with todo := r }, ?_, ⟨h.phase, h.alive, h.writes, hops, h.ths⟩, by simp [spawned], fun _ _ => rfl⟩
      simp [run, step, h.alive, stepMain, h.phase, h.writes, hr, hok]
    · have hok : c.ok = false := by simpa using hok
      refine ⟨[none, none, none, none, none], { s with todo := if c.stops = true then [] else r, r := putAll s.r c.writes }, ?_,
        ⟨h.phase, h.alive, h.writes, ?_, h.ths⟩, by simp [spawned], fun _ _ => rfl⟩
      · simp [run, step, h.alive, stepMain, h.phase, h.writes, hr, hok, Chk.writes, putAll]
      · cases hst : c.stops
        · simp [path, hok, hst] at hops; simpa using hops
        · simp [path, hok, hst] at hops; rw [hops]; rfl
  | spawn b =>
    obtain ⟨s1, h1, p1, d1, w1, o1, t1⟩ := spawn_step h
    have hk : s1.ths[s.ths.length]? = some ⟨[], b⟩ := by rw [t1]; simp
    obtain ⟨as, rr, h2⟩ := thread_ends _ rfl d1 hk (he b rfl)
    refine ⟨none :: as, { s1 with ths := s1.ths.set s.ths.length ⟨[], []⟩, r := rr }, by simp only [run, h1]; exact h2, ⟨p1, d1, w1, by simpa using o1, ?_⟩, by simp [t1, spawned], ?_⟩
    · intro j t ht
      rcases set_get ht with ⟨-, e⟩ | ⟨hne, ht⟩
      · exact .inr e
      · rw [t1] at ht
        have hlt : j < s.ths.length := by
          have := (List.getElem?_eq_some_iff.1 ht).1
          simp at this; omega
        rw [List.getElem?_append_left hlt] at ht
        exact h.ths j t ht
    · intro k hk'
      have hlt := hin k hk'
      show (s1.ths.set s.ths.length ⟨[], []⟩)[k]? = _
      rw [List.getElem?_set_ne (by omega), t1, List.getElem?_append_left hlt]
  | join k =>
    simp only [path] at hops
    split at hops
    · rename_i hc
      simp only [List.cons.injEq, true_and] at hops
      obtain ⟨t, ht⟩ : ∃ t, s.ths[k]? = some t := ⟨_, List.getElem?_eq_getElem hc.1⟩
      rcases h.ths k t ht with e | e
      · exact absurd rfl (hj k e)
      subst e
      refine ⟨[none], { s with todo := r, joined := k :: s.joined }, ?_, ⟨h.phase, h.alive, h.writes, hops, h.ths⟩, by simp [spawned], fun _ _ => rfl⟩
      simp [run, step, h.alive, stepMain, h.phase, h.writes, hr, hc.2, ht]
    · cases hops

theorem At.go {held : Option Nat} {rest : List MOp} (mid : List MOp) : ∀ {s : St}, At s held (mid ++ rest) →
    NoEscape mid → (∀ k, held = some k → .join k ∉ mid) → (∀ k, held = some k → k < s.ths.length) →
    ∃ as s', run s as = some s' ∧ At s' held rest ∧ s'.ths.length = s.ths.length + spawned mid ∧ ∀ k, held = some k → s'.ths[k]? = s.ths[k]? := by
  induction mid with
  | nil => intro s h _ _ _; exact ⟨[], s, rfl, h, rfl, fun _ _ => rfl⟩
  | cons x mid ih =>
    intro s h he hj hin
    obtain ⟨as, s1, h1, a1, l1, k1⟩ := At.next (rest := mid ++ rest) h (fun b e => he b (by simp [e]))
      (fun k e hx => hj k e (by simp [hx])) hin
    obtain ⟨bs, s2, h2, a2, l2, k2⟩ := ih a1 (fun b hb => he b (List.mem_cons_of_mem _ hb))
      (fun k e hx => hj k e (List.mem_cons_of_mem _ hx)) (fun k e => by have := hin k e; omega)
    refine ⟨as ++ bs, s2, by rw [run_append _ _ h1, h2], a2, ?_, fun k e => (k2 k e).trans (k1 k e)⟩
    have := spawned_append [x] mid
    simp only [List.singleton_append] at this
    omega

theorem at_init (prog : List MOp) (r0 : Rec) : At (init r0 prog) none (executed prog) where
  phase := rfl
  alive := rfl
  writes := rfl
  ops := rfl
  ths := by intro j t h; simp [init] at h

theorem desc_racy {s : St} {a b : Option Nat} (hab : a ≠ b) (hd : s.dead = false) (ha : ⟨.desc, true, false, []⟩ ∈ accesses s a)
    (hb : ⟨.desc, true, false, []⟩ ∈ accesses s b) : Racy s := by
  refine ⟨hd, a, b, hab, _, ha, _, hb, ?_⟩
  simp [Race.Clash]

theorem conflict_racy {prog : List MOp} (r0 : Rec) (he : NoEscape (executed prog)) (hc : Conflict (executed prog)) :
    ∃ as s, run (init r0 prog) as = some s ∧ Racy s := by
  obtain ⟨pre, b, mid, x, post, e, hb, hj, hx⟩ := hc
  have h0 := at_init prog r0
  rw [e] at h0 he
  obtain ⟨as1, s1, r1, a1, l1, -⟩ := At.go pre h0 (fun b hb => he b (by simp [hb])) (by simp) (by simp)
  obtain ⟨s2, st2, p2, d2, w2, o2, t2⟩ := spawn_step a1
  have l1' : s1.ths.length = spawned pre := by rw [l1]; simp [init]
  have hk2 : s2.ths[spawned pre]? = some ⟨[], b⟩ := by rw [t2, ← l1']; simp
  obtain ⟨as3, c, t, r3⟩ := thread_reports b d2 hk2 hb
  have lt2 : spawned pre < s2.ths.length := by rw [t2]; simp; omega
  have a3 : At { s2 with ths := s2.ths.set (spawned pre) ⟨c.writes, t⟩ } (some (spawned pre)) (mid ++ x :: post) := by
    refine ⟨p2, d2, w2, by simpa using o2, ?_⟩
    intro j u hu
    rcases set_get hu with ⟨e1, -⟩ | ⟨hne, hu⟩
    · exact .inl (by rw [e1])
    · rw [t2] at hu
      have hlt : j < s1.ths.length := by
        have := (List.getElem?_eq_some_iff.1 hu).1
        simp at this; omega
      rw [List.getElem?_append_left hlt] at hu
      rcases a1.ths j u hu with h | h
      · cases h
      · exact .inr h
  obtain ⟨as4, s4, r4, a4, l4, k4⟩ := At.go mid a3 (fun b hb => he b (by simp [hb])) (fun k e => by cases e; exact hj)
    (fun k e => by cases e; simpa using lt2)
  have hk4 : s4.ths[spawned pre]? = some ⟨c.writes, t⟩ := by
    rw [k4 _ rfl]; simp [lt2]
  have lt4 := (List.getElem?_eq_some_iff.1 hk4).1
  have all4 : run (init r0 prog) (as1 ++ none :: (as3 ++ as4)) = some s4 := by
    rw [run_append _ _ r1]
    simp only [run, st2]
    rw [run_append _ _ r3, r4]
  rcases hx with ⟨b', hx, hb'⟩ | ⟨c', hx, hok⟩
  · subst hx
    obtain ⟨s5, st5, p5, d5, w5, o5, t5⟩ := spawn_step a4
    have hk5 : s5.ths[s4.ths.length]? = some ⟨[], b'⟩ := by rw [t5]; simp
    obtain ⟨as6, c6, t6, r6⟩ := thread_reports b' d5 hk5 hb'
    refine ⟨_, _, (by rw [run_append _ (none :: as6) all4]; simp only [run, st5]; exact r6), ?_⟩
    refine desc_racy (a := some (spawned pre)) (b := some s4.ths.length) (by simp; omega) d5 ?_ ?_
    · have : (s5.ths.set s4.ths.length ⟨Chk.writes c6, t6⟩)[spawned pre]? = some ⟨c.writes, t⟩ := by
        rw [List.getElem?_set_ne (by omega), t5, List.getElem?_append_left lt4]
        exact hk4
      simp only [accesses, this]
      simp [Chk.writes, Wr.field]
    · have : (s5.ths.set s4.ths.length ⟨Chk.writes c6, t6⟩)[s4.ths.length]? = some ⟨Chk.writes c6, t6⟩ := by
        rw [List.getElem?_set_self (by rw [t5]; simp)]
      simp only [accesses, this]
      simp [Chk.writes, Wr.field]
  · subst hx
    obtain ⟨r, hr⟩ := path_cons a4.ops
    have st5 : step s4 none = some { s4 with writes := c'.writes, todo := if c'.stops = true then [] else r } := by
      simp [step, a4.alive, stepMain, a4.phase, a4.writes, hr, hok]
    refine ⟨_, _, (by rw [run_append _ [none] all4]; exact run_one st5), ?_⟩
    refine desc_racy (a := some (spawned pre)) (b := none) (by simp) a4.alive ?_ ?_
    · simp only [accesses, hk4]; simp [Chk.writes, Wr.field]
    · simp [accesses, a4.phase, Chk.writes, Wr.field]

theorem escape_dead {prog : List MOp} (r0 : Rec) (he : ¬ NoEscape (executed prog)) :
    ∃ as s, run (init r0 prog) as = some s ∧ s.dead = true := by
  have first : ∀ l : List MOp, ¬ NoEscape l → ∃ pre b post, l = pre ++ .spawn b :: post ∧ NoEscape pre ∧ escapes b = true := by
    intro l
    induction l with
    | nil => intro h; exact absurd (fun b hb => by cases hb) h
    | cons x l ih =>
      intro h
      by_cases hx : ∃ b, x = .spawn b ∧ escapes b = true
      · obtain ⟨b, rfl, hb⟩ := hx
        exact ⟨[], b, l, rfl, (fun b hb => by cases hb), hb⟩
      · have : ¬ NoEscape l := by
          intro hl
          apply h
          intro b hb
          rcases List.mem_cons.1 hb with e | hb
          · cases hb' : escapes b
            · rfl
            · exact absurd ⟨b, e.symm, hb'⟩ hx
          · exact hl b hb
        obtain ⟨pre, b, post, e, hp, hb⟩ := ih this
        refine ⟨x :: pre, b, post, by rw [e]; rfl, ?_, hb⟩
        intro b' hb'
        rcases List.mem_cons.1 hb' with e | hb'
        · cases hb'' : escapes b'
          · rfl
          · exact absurd ⟨b', e.symm, hb''⟩ hx
        · exact hp b' hb'
  obtain ⟨pre, b, post, e, hp, hb⟩ := first _ he
  have h0 := at_init prog r0
  rw [e] at h0
  obtain ⟨as1, s1, r1, a1, l1, -⟩ := At.go pre h0 hp (by simp) (by simp)
  obtain ⟨s2, st2, p2, d2, w2, o2, t2⟩ := spawn_step a1
  have hk2 : s2.ths[s1.ths.length]? = some ⟨[], b⟩ := by rw [t2]; simp
  obtain ⟨as3, s3, r3, h3⟩ := thread_escapes _ rfl d2 hk2 hb
  refine ⟨_, s3, (by rw [run_append _ (none :: as3) r1]; simp only [run, st2]; exact r3), h3⟩

end Falcon.FutThreads
