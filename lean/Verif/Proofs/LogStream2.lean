import Verif.Proofs.LogStream
/- Proofs about the stream in use: many threads, any schedule. -/
namespace Falcon.LogStream
open Falcon.Log (Str Msg)

def inLock : Pc → Bool
  | .idle | .wait _ | .ret _ => false
  | _ => true

/-- The stream a thread carries as unique_ptr. -/
def carries : Pc → Option Nat
  | .wait (.own n) => n
  | .own1 n => n
  | _ => none

/-- The stream a thread carries as shared_ptr argument. -/
def arg : Pc → Option Nat
  | .wait (.share n) => n
  | .share1 n => n
  | .share2 n => n
  | .unlock (.share n) => n
  | .ret n => some n
  | _ => none

def nnLC : LC → Prop
  | .own n => n ≠ none
  | .share n => n ≠ none
  | .writeOn n => n ≠ none
  | .msg _ => True

/-- No null is on its way. -/
def nn : Pc → Prop
  | .wait c => nnLC c
  | .own1 n => n ≠ none
  | .own2 n => n ≠ none
  | .share1 n => n ≠ none
  | .share2 n => n ≠ none
  | .wr1 n => n ≠ none
  | .unlock c => nnLC c
  | _ => True

structure TI (ls : LS) (i : Nat) (t : T) : Prop where
  nn    : nn t.pc
  todo  : ∀ c ∈ t.todo, c.NonNull
  carry : ∀ k, carries t.pc = some k → ls.dead (.owned k) = false ∧ ls.uptr ≠ some k ∧ k < ls.made
  own2  : ∀ n, t.pc = .own2 n → ls.uptr = n
  arg   : ∀ n, arg t.pc = some n → some i ∈ ls.refs n
  sh2   : ∀ n, t.pc = .share2 n → ls.sptr = n

structure GI (s : CS) : Prop where
  th    : ∀ i, TI s.ls i (s.th i)
  dist  : ∀ i j k, carries (s.th i).pc = some k → carries (s.th j).pc = some k → i = j
  lock  : ∀ i, inLock (s.th i).pc = true ↔ s.mtx = some i
  pout  : s.ls.pout ≠ none
  pown  : ∀ k, s.ls.pout = some (.owned k) → s.ls.uptr = some k ∨ ∃ i n, (s.th i).pc = .own2 n
  psh   : ∀ k, s.ls.pout = some (.shared k) → s.ls.sptr = some k ∨ ∃ i n, (s.th i).pc = .share2 n
  uptr  : ∀ k, s.ls.uptr = some k → s.ls.dead (.owned k) = false ∧ k < s.ls.made
  sptr  : ∀ k, s.ls.sptr = some k → s.ls.dead (.shared k) = false
  refs  : ∀ n, s.ls.refs n ≠ [] → s.ls.dead (.shared n) = false
  raw   : ∀ n, s.ls.dead (.raw n) = false
  dummy : s.ls.dead .dummy = false
  made  : ∀ k, s.ls.dead (.owned k) = true → k < s.ls.made

theorem TI.congr {ls ls' : LS} {j : Nat} {t : T} (h : TI ls j t)
    (h1 : ∀ k, carries t.pc = some k → ls'.dead (.owned k) = false ∧ ls'.uptr ≠ some k ∧ k < ls'.made)
    (h2 : ∀ n, t.pc = .own2 n → ls'.uptr = n)
    (h3 : ∀ n, some j ∈ ls.refs n → some j ∈ ls'.refs n)
    (h4 : ∀ n, t.pc = .share2 n → ls'.sptr = n) : TI ls' j t :=
  ⟨h.nn, h.todo, h1, h2, fun n hn => h3 n (h.arg n hn), h4⟩

/-- Changes of the members that no thread relies on. -/
theorem TI.same {ls ls' : LS} {j : Nat} {t : T} (h : TI ls j t)
    (h1 : ∀ k, ls'.dead (.owned k) = ls.dead (.owned k)) (h2 : ls'.uptr = ls.uptr) (h3 : ls.made ≤ ls'.made) (h4 : ls'.sptr = ls.sptr)
    (h5 : ∀ n, some j ∈ ls.refs n → some j ∈ ls'.refs n) : TI ls' j t :=
  h.congr (fun k hk => by rw [h1, h2]; obtain ⟨a, b, c⟩ := h.carry k hk; exact ⟨a, b, by omega⟩) (fun n hn => by rw [h2]; exact h.own2 n hn) h5
    (fun n hn => by rw [h4]; exact h.sh2 n hn)

theorem killIfLast_owned (s : LS) (k : Nat) (r) (u) (m : Nat) : killIfLast s k r u (.owned m) = s.dead (.owned m) := by
  unfold killIfLast kill; split <;> simp
theorem killIfLast_raw (s : LS) (k : Nat) (r) (u) (m : Nat) : killIfLast s k r u (.raw m) = s.dead (.raw m) := by
  unfold killIfLast kill; split <;> simp
theorem killIfLast_dummy (s : LS) (k : Nat) (r) (u) : killIfLast s k r u .dummy = s.dead .dummy := by
  unfold killIfLast kill; split <;> simp
theorem killIfLast_shared (s : LS) (k : Nat) (r) (u) (m : Nat) :
    killIfLast s k r u (.shared m) = if m = k ∧ r = [] ∧ u ≠ some k then true else s.dead (.shared m) := by
  unfold killIfLast kill
  by_cases h1 : r = [] ∧ u ≠ some k
  · by_cases h2 : m = k <;> simp [h1, h2]
  · rw [if_neg h1, if_neg (fun h => h1 h.2)]

/-- Steps that only change thread `i`'s pc between points that mean nothing to others. -/
theorem setT_self (s : CS) (i : Nat) (t : T) : (setT s i t).th i = t := by simp [setT]
theorem setT_ne (s : CS) {i j : Nat} (t : T) (h : j ≠ i) : (setT s i t).th j = s.th j := by simp [setT, h]

/-- A frame rule: thread i moves from pc to pc', the members change from s.ls to ls', the lock to
mtx'. -/
theorem GI.frame {s : CS} (g : GI s) (i : Nat) (t' : T) (ls' : LS) (mtx' : Option Nat) (hist' : List (Nat × LC))
    (hi : TI ls' i t')
    (ho : ∀ j, j ≠ i → TI ls' j (s.th j))
    (hd : ∀ k, carries t'.pc = some k → carries (s.th i).pc = some k ∨ ∀ j, j ≠ i → carries (s.th j).pc ≠ some k)
    (hl : (inLock t'.pc = true ↔ mtx' = some i) ∧ ∀ j, j ≠ i → (s.mtx = some j ↔ mtx' = some j))
    (hp : ls'.pout ≠ none)
    (hpo : ∀ k, ls'.pout = some (.owned k) → ls'.uptr = some k ∨ (∃ n, t'.pc = .own2 n) ∨ (∃ j n, j ≠ i ∧ (s.th j).pc = .own2 n))
    (hps : ∀ k, ls'.pout = some (.shared k) → ls'.sptr = some k ∨ (∃ n, t'.pc = .share2 n) ∨ (∃ j n, j ≠ i ∧ (s.th j).pc = .share2 n))
    (hu : ∀ k, ls'.uptr = some k → ls'.dead (.owned k) = false ∧ k < ls'.made)
    (hs : ∀ k, ls'.sptr = some k → ls'.dead (.shared k) = false)
    (hr : ∀ n, ls'.refs n ≠ [] → ls'.dead (.shared n) = false)
    (hraw : ∀ n, ls'.dead (.raw n) = false) (hdum : ls'.dead .dummy = false)
    (hm : ∀ k, ls'.dead (.owned k) = true → k < ls'.made) :
    GI { setT { s with ls := ls' } i t' with mtx := mtx', hist := hist' } := by
  refine ⟨?_, ?_, ?_, hp, ?_, ?_, hu, hs, hr, hraw, hdum, hm⟩
  · intro j
    by_cases hj : j = i
    · subst hj; simpa [setT] using hi
    · simpa [setT, hj] using ho j hj
  · intro a b k ha hb
    by_cases h1 : a = i <;> by_cases h2 : b = i
    · rw [h1, h2]
    · subst h1; simp [setT] at ha; simp [setT, h2] at hb
      rcases hd k ha with h | h
      · exact g.dist _ _ _ h hb
      · exact absurd hb (h b h2)
    · subst h2; simp [setT] at hb; simp [setT, h1] at ha
      rcases hd k hb with h | h
      · exact g.dist _ _ _ ha h
      · exact absurd ha (h a h1)
    · simp [setT, h1] at ha; simp [setT, h2] at hb; exact g.dist _ _ _ ha hb
  · intro j
    by_cases hj : j = i
    · subst hj; simpa [setT] using hl.1
    · simp only [setT, hj, if_false]; rw [g.lock j]; exact hl.2 j hj
  · intro k hk
    rcases hpo k hk with h | ⟨n, h⟩ | ⟨j, n, hj, h⟩
    · exact .inl h
    · exact .inr ⟨i, n, by simpa [setT] using h⟩
    · exact .inr ⟨j, n, by simpa [setT, hj] using h⟩
  · intro k hk
    rcases hps k hk with h | ⟨n, h⟩ | ⟨j, n, hj, h⟩
    · exact .inl h
    · exact .inr ⟨i, n, by simpa [setT] using h⟩
    · exact .inr ⟨j, n, by simpa [setT, hj] using h⟩

/-- If thread i holds the lock, nobody else is in the middle of own or share. -/
theorem GI.alone {s : CS} (g : GI s) {i j : Nat} (hi : inLock (s.th i).pc = true) (hj : inLock (s.th j).pc = true) : j = i := by
  have a := (g.lock i).1 hi; have b := (g.lock j).1 hj
  rw [a] at b; exact (Option.some.inj b).symm

/-- Thread i steps without touching the members, between points outside own2/share2. -/
theorem GI.frame0 {s : CS} (g : GI s) (i : Nat) (t' : T) (mtx' : Option Nat) (hist' : List (Nat × LC))
    (hi : TI s.ls i t')
    (hd : ∀ k, carries t'.pc = some k → carries (s.th i).pc = some k ∨ ∀ j, j ≠ i → carries (s.th j).pc ≠ some k)
    (hl : (inLock t'.pc = true ↔ mtx' = some i) ∧ ∀ j, j ≠ i → (s.mtx = some j ↔ mtx' = some j))
    (h2 : ∀ n, (s.th i).pc ≠ .own2 n) (h3 : ∀ n, (s.th i).pc ≠ .share2 n) :
    GI { setT s i t' with mtx := mtx', hist := hist' } := by
  refine g.frame i t' s.ls mtx' hist' hi (fun j _ => g.th j) hd hl g.pout ?_ ?_ g.uptr g.sptr g.refs g.raw g.dummy g.made
  · intro k hk
    rcases g.pown k hk with h | ⟨j, n, h⟩
    · exact .inl h
    · exact .inr (.inr ⟨j, n, fun e => h2 n (e ▸ h), h⟩)
  · intro k hk
    rcases g.psh k hk with h | ⟨j, n, h⟩
    · exact .inl h
    · exact .inr (.inr ⟨j, n, fun e => h3 n (e ▸ h), h⟩)

theorem GI.alive {s : CS} (g : GI s) (h2 : ∀ i n, (s.th i).pc ≠ .own2 n) (h3 : ∀ i n, (s.th i).pc ≠ .share2 n) :
    ∃ p, s.ls.pout = some p ∧ s.ls.dead p = false := by
  cases hp : s.ls.pout with
  | none => exact absurd hp g.pout
  | some p =>
    refine ⟨p, rfl, ?_⟩
    cases p with
    | dummy => exact g.dummy
    | raw n => exact g.raw n
    | owned k =>
      rcases g.pown k hp with h | ⟨i, n, h⟩
      · exact (g.uptr k h).1
      · exact absurd h (h2 i n)
    | shared k =>
      rcases g.psh k hp with h | ⟨i, n, h⟩
      · exact g.sptr k h
      · exact absurd h (h3 i n)

/-- Destroying one outside reference. -/
theorem GI.unref {s : CS} (g : GI s) (i : Nat) (t' : T) (n : Nat) (who : Option Nat) (hw : who = none ∨ who = some i)
    (hpc : (s.th i).pc = .idle ∨ (s.th i).pc = .ret n)
    (ht' : t'.pc = .idle) (htodo : ∀ c ∈ t'.todo, c.NonNull) :
    GI (setT { s with ls := Falcon.LogStream.unref s.ls n who } i t') := by
  have hlock : inLock (s.th i).pc = false := by rcases hpc with h | h <;> rw [h] <;> rfl
  refine g.frame i t' (Falcon.LogStream.unref s.ls n who) s.mtx s.hist ?_ ?_ ?_ ?_ g.pout ?_ ?_ ?_ ?_ ?_ ?_ ?_ ?_
  · refine ⟨by rw [ht']; trivial, htodo, ?_, ?_, ?_, ?_⟩ <;> rw [ht'] <;> intro k h <;> cases h
  · intro j hj
    refine (g.th j).same (fun k => killIfLast_owned ..) rfl (Nat.le_refl _) rfl ?_
    intro m hm
    simp only [Falcon.LogStream.unref]
    by_cases e : m = n
    · subst e; rw [if_pos rfl]
      refine (List.mem_erase_of_ne ?_).2 hm
      rcases hw with h | h <;> rw [h]
      · simp
      · intro e; exact hj (Option.some.inj e)
    · rw [if_neg e]; exact hm
  · intro k hk; rw [ht'] at hk; cases hk
  · refine ⟨?_, fun j _ => Iff.rfl⟩
    rw [← g.lock i, ht', hlock]; simp [inLock]
  · intro k hk
    rcases g.pown k hk with h | ⟨j, m, h⟩
    · exact .inl h
    · refine .inr (.inr ⟨j, m, ?_, h⟩)
      rintro rfl; rcases hpc with h' | h' <;> rw [h'] at h <;> cases h
  · intro k hk
    rcases g.psh k hk with h | ⟨j, m, h⟩
    · exact .inl h
    · refine .inr (.inr ⟨j, m, ?_, h⟩)
      rintro rfl; rcases hpc with h' | h' <;> rw [h'] at h <;> cases h
  · intro k hk; simp only [Falcon.LogStream.unref, killIfLast_owned]; exact g.uptr k hk
  · intro k hk
    have hk' : s.ls.sptr = some k := hk
    simp only [Falcon.LogStream.unref, killIfLast_shared]
    rw [if_neg (by rintro ⟨rfl, -, h⟩; exact h hk')]; exact g.sptr k hk'
  · intro m hm
    simp only [Falcon.LogStream.unref] at hm ⊢
    rw [killIfLast_shared]
    by_cases e : m = n
    · subst e; rw [if_pos rfl] at hm
      rw [if_neg (fun h => hm h.2.1)]
      exact g.refs m (fun h => hm (by rw [h]; rfl))
    · rw [if_neg e] at hm; rw [if_neg (fun h => e h.1)]; exact g.refs m hm
  · intro m; simp only [Falcon.LogStream.unref, killIfLast_raw]; exact g.raw m
  · simp only [Falcon.LogStream.unref, killIfLast_dummy]; exact g.dummy
  · intro k hk; simp only [Falcon.LogStream.unref, killIfLast_owned] at hk; exact g.made k hk

theorem setT_eta (s : CS) (i : Nat) (t : T) : setT s i t = { setT s i t with mtx := s.mtx, hist := s.hist } := rfl

theorem actOn_ok {s : LS} {p : Sid} (hp : s.pout = some p) (hd : s.dead p = false) (a : Act) :
    actOn s a = .ok { s with os := fun x => if x = p then (s.os p).act a else s.os x } := by
  unfold actOn; rw [hp]; simp [hd]

/-- Every step from a good state is defined and leads to a good state. -/
theorem GI.step {s : CS} (g : GI s) (i : Nat) : ∃ s', cstep s i = .ok s' ∧ GI s' := by
  have ti := g.th i
  cases hpc : (s.th i).pc with
  | idle =>
    have hlk : s.mtx ≠ some i := fun h => by have := (g.lock i).2 h; rw [hpc] at this; cases this
    have own2 : ∀ n, (s.th i).pc ≠ .own2 n := fun n h => by rw [hpc] at h; cases h
    have sh2 : ∀ n, (s.th i).pc ≠ .share2 n := fun n h => by rw [hpc] at h; cases h
    cases htd : (s.th i).todo with
    | nil => exact ⟨s, by simp [cstep, hpc, htd], g⟩
    | cons c r =>
      have hr : ∀ c ∈ r, c.NonNull := fun c hc => ti.todo c (by rw [htd]; exact List.mem_cons_of_mem _ hc)
      have hc := ti.todo c (by rw [htd]; exact List.mem_cons_self)
      cases c with
      | own b =>
        have hb : b = true := hc
        subst hb
        refine ⟨_, by simp only [cstep, hpc, htd]; rfl, ?_⟩
        refine g.frame i ⟨.wait (.own (some s.ls.made)), r⟩ { s.ls with made := s.ls.made + 1 } s.mtx s.hist
          ?_ ?_ ?_ ?_ g.pout ?_ ?_ ?_ g.sptr g.refs g.raw g.dummy ?_
        · refine ⟨by simp [nn, nnLC], hr, ?_, (fun n h => by cases h), (fun n h => by cases h), (fun n h => by cases h)⟩
          intro k hk
          have hk : s.ls.made = k := Option.some.inj hk
          subst hk
          refine ⟨?_, fun h => ?_, Nat.lt_succ_self _⟩
          · cases hd : s.ls.dead (.owned s.ls.made) with
            | false => rfl
            | true => exact absurd (g.made _ hd) (Nat.lt_irrefl _)
          · exact absurd (g.uptr _ h).2 (Nat.lt_irrefl _)
        · intro j hj; exact (g.th j).same (fun _ => rfl) rfl (Nat.le_succ _) rfl (fun _ h => h)
        · intro k hk
          have hk : s.ls.made = k := Option.some.inj hk
          subst hk
          right; intro j hj hcar
          exact absurd ((g.th j).carry _ hcar).2.2 (Nat.lt_irrefl _)
        · exact ⟨by simp [inLock, hlk], fun _ _ => Iff.rfl⟩
        · intro k hk
          rcases g.pown k hk with h | ⟨j, n, h⟩
          · exact .inl h
          · exact .inr (.inr ⟨j, n, fun e => own2 n (e ▸ h), h⟩)
        · intro k hk
          rcases g.psh k hk with h | ⟨j, n, h⟩
          · exact .inl h
          · exact .inr (.inr ⟨j, n, fun e => sh2 n (e ▸ h), h⟩)
        · intro k hk; exact ⟨(g.uptr k hk).1, Nat.lt_succ_of_lt (g.uptr k hk).2⟩
        · intro k hk; exact Nat.lt_succ_of_lt (g.made k hk)
      | share o =>
        cases o with
        | none => exact absurd rfl hc
        | some n =>
          by_cases hrf : s.ls.refs n = []
          · refine ⟨_, by simp only [cstep, hpc, htd]; rw [if_pos hrf], ?_⟩
            refine g.frame0 i ⟨.idle, r⟩ s.mtx s.hist ?_ (fun k h => by cases h) ⟨by simp [inLock, hlk], fun _ _ => Iff.rfl⟩ own2 sh2
            exact ⟨trivial, hr, (fun k h => by cases h), (fun k h => by cases h), (fun k h => by cases h), (fun k h => by cases h)⟩
          · refine ⟨_, by simp only [cstep, hpc, htd]; rw [if_neg hrf], ?_⟩
            refine g.frame i ⟨.wait (.share (some n)), r⟩ { s.ls with refs := fun x => if x = n then some i :: s.ls.refs n else s.ls.refs x } s.mtx s.hist
              ?_ ?_ (fun k h => by cases h) ⟨by simp [inLock, hlk], fun _ _ => Iff.rfl⟩ g.pout ?_ ?_ g.uptr g.sptr ?_ g.raw g.dummy g.made
            · refine ⟨by simp [nn, nnLC], hr, (fun k h => by cases h), (fun n h => by cases h), ?_, (fun n h => by cases h)⟩
              intro m hm
              have hm : n = m := Option.some.inj hm
              subst hm; simp
            · intro j hj
              refine (g.th j).same (fun _ => rfl) rfl (Nat.le_refl _) rfl (fun m h => ?_)
              show some j ∈ (if m = n then some i :: s.ls.refs n else s.ls.refs m)
              by_cases e : m = n
              · subst e; rw [if_pos rfl]; exact List.mem_cons_of_mem _ h
              · rw [if_neg e]; exact h
            · intro k hk
              rcases g.pown k hk with h | ⟨j, n, h⟩
              · exact .inl h
              · exact .inr (.inr ⟨j, n, fun e => own2 n (e ▸ h), h⟩)
            · intro k hk
              rcases g.psh k hk with h | ⟨j, n, h⟩
              · exact .inl h
              · exact .inr (.inr ⟨j, n, fun e => sh2 n (e ▸ h), h⟩)
            · intro m hm
              by_cases e : m = n
              · subst e; exact g.refs m hrf
              · simp only [if_neg e] at hm; exact g.refs m hm
      | writeOn o =>
        refine ⟨_, by simp only [cstep, hpc, htd]; rfl, ?_⟩
        refine g.frame0 i ⟨.wait (.writeOn o), r⟩ s.mtx s.hist ?_ (fun k h => by cases h) ⟨by simp [inLock, hlk], fun _ _ => Iff.rfl⟩ own2 sh2
        exact ⟨hc, hr, (fun k h => by cases h), (fun k h => by cases h), (fun k h => by cases h), (fun k h => by cases h)⟩
      | msg as =>
        refine ⟨_, by simp only [cstep, hpc, htd]; rfl, ?_⟩
        refine g.frame0 i ⟨.wait (.msg as), r⟩ s.mtx s.hist ?_ (fun k h => by cases h) ⟨by simp [inLock, hlk], fun _ _ => Iff.rfl⟩ own2 sh2
        exact ⟨trivial, hr, (fun k h => by cases h), (fun k h => by cases h), (fun k h => by cases h), (fun k h => by cases h)⟩
      | drop n =>
        by_cases hm : none ∈ s.ls.refs n
        · exact ⟨_, by simp only [cstep, hpc, htd]; rw [if_pos hm], g.unref i ⟨.idle, r⟩ n none (.inl rfl) (.inl hpc) rfl hr⟩
        · refine ⟨_, by simp only [cstep, hpc, htd]; rw [if_neg hm], ?_⟩
          refine g.frame0 i ⟨.idle, r⟩ s.mtx s.hist ?_ (fun k h => by cases h) ⟨by simp [inLock, hlk], fun _ _ => Iff.rfl⟩ own2 sh2
          exact ⟨trivial, hr, (fun k h => by cases h), (fun k h => by cases h), (fun k h => by cases h), (fun k h => by cases h)⟩
  | wait c =>
    by_cases hm : s.mtx = none
    · refine ⟨_, by simp only [cstep, hpc]; rw [if_pos hm], ?_⟩
      have hnn := ti.nn; rw [hpc] at hnn
      refine g.frame0 i ⟨enter c, (s.th i).todo⟩ (some i) s.hist ?_ ?_ ⟨?_, ?_⟩ (fun n h => by rw [hpc] at h; cases h) (fun n h => by rw [hpc] at h; cases h)
      · refine ⟨?_, ti.todo, ?_, ?_, ?_, ?_⟩
        · cases c <;> exact hnn
        · intro k hk
          exact ti.carry k (by rw [hpc]; cases c <;> exact hk)
        · intro n h; cases c <;> cases h
        · intro n h; exact ti.arg n (by rw [hpc]; cases c <;> exact h)
        · intro n h; cases c <;> cases h
      · intro k hk; left; rw [hpc]; cases c <;> exact hk
      · cases c <;> simp [inLock, enter]
      · intro j hj; rw [hm]; constructor
        · intro h; cases h
        · intro h; exact absurd (Option.some.inj h).symm hj
    · exact ⟨s, by simp only [cstep, hpc]; rw [if_neg hm], g⟩
  | own1 n =>
    have hil : inLock (s.th i).pc = true := by rw [hpc]; rfl
    have hmx := (g.lock i).1 hil
    have nodd : ∀ j, j ≠ i → inLock (s.th j).pc = false := fun j hj => by
      cases h : inLock (s.th j).pc with
      | false => rfl
      | true => exact absurd (g.alone hil h) hj
    have hnn : n ≠ none := by have := ti.nn; rw [hpc] at this; exact this
    refine ⟨_, by simp only [cstep, hpc]; rfl, ?_⟩
    have hdead : ∀ k, (moveIn s.ls n).dead (.owned k) = if s.ls.uptr = some k then true else s.ls.dead (.owned k) := by
      intro k; simp only [moveIn]
      cases hu : s.ls.uptr with
      | none => simp
      | some q => simp only [kill, Sid.owned.injEq, Option.some.injEq]; by_cases e : k = q <;> simp [e]; intro h; exact absurd h.symm e
    have hshared : ∀ x, (∀ k, x ≠ .owned k) → (moveIn s.ls n).dead x = s.ls.dead x := by
      intro x hx; simp only [moveIn]
      cases hu : s.ls.uptr with
      | none => rfl
      | some q => simp [kill, hx q]
    have hcar : ∀ k, n = some k → carries (s.th i).pc = some k := fun k h => by rw [hpc, h]; rfl
    refine g.frame i ⟨.own2 n, (s.th i).todo⟩ (moveIn s.ls n) s.mtx s.hist ?_ ?_ (fun k h => by cases h) ⟨by simp [inLock, hmx], fun _ _ => Iff.rfl⟩ g.pout
      (fun k _ => .inr (.inl ⟨n, rfl⟩)) ?_ ?_ ?_ ?_ ?_ ?_ ?_
    · refine ⟨hnn, ti.todo, (fun k h => by cases h), ?_, (fun k h => by cases h), (fun k h => by cases h)⟩
      intro m hm; cases hm; rfl
    · intro j hj
      refine (g.th j).congr ?_ ?_ (fun _ h => h) ?_
      · intro k hk
        obtain ⟨a, b, c⟩ := (g.th j).carry k hk
        refine ⟨by rw [hdead, if_neg b]; exact a, ?_, c⟩
        intro h
        exact hj (g.dist j i k hk (hcar k h))
      · intro m hm; have := nodd j hj; rw [hm] at this; cases this
      · intro m hm; have := nodd j hj; rw [hm] at this; cases this
    · intro k hk
      rcases g.psh k hk with h | ⟨j, m, h⟩
      · exact .inl h
      · have : j = i := g.alone hil (by rw [h]; rfl)
        subst this; rw [hpc] at h; cases h
    · intro k hk
      obtain ⟨a, b, c⟩ := ti.carry k (hcar k hk)
      exact ⟨by rw [hdead, if_neg b]; exact a, c⟩
    · intro k hk; rw [hshared _ (fun _ => by simp)]; exact g.sptr k hk
    · intro k hk; rw [hshared _ (fun _ => by simp)]; exact g.refs k hk
    · intro k; rw [hshared _ (fun _ => by simp)]; exact g.raw k
    · rw [hshared _ (fun _ => by simp)]; exact g.dummy
    · intro k hk
      rw [hdead] at hk
      split at hk
      · rename_i h; exact (g.uptr k h).2
      · exact g.made k hk
  | own2 n =>
    have hil : inLock (s.th i).pc = true := by rw [hpc]; rfl
    have hmx := (g.lock i).1 hil
    have hnn : n ≠ none := by have := ti.nn; rw [hpc] at this; exact this
    have hu := ti.own2 n hpc
    refine ⟨_, by simp only [cstep, hpc]; rfl, ?_⟩
    refine g.frame i ⟨.unlock (.own n), (s.th i).todo⟩ { s.ls with pout := s.ls.uptr.map Sid.owned } s.mtx s.hist
      ?_ (fun j hj => (g.th j).same (fun _ => rfl) rfl (Nat.le_refl _) rfl (fun _ h => h)) (fun k h => by cases h) ⟨by simp [inLock, hmx], fun _ _ => Iff.rfl⟩ ?_ ?_ ?_ g.uptr g.sptr g.refs g.raw g.dummy g.made
    · exact ⟨hnn, ti.todo, (fun k h => by cases h), (fun k h => by cases h), (fun k h => by cases h), (fun k h => by cases h)⟩
    · simp [hu, hnn]
    · intro k hk
      left
      cases hq : s.ls.uptr with
      | none => rw [hq] at hk; cases hk
      | some q => rw [hq] at hk; cases hk; rfl
    · intro k hk
      cases hq : s.ls.uptr with
      | none => rw [hq] at hk; cases hk
      | some q => rw [hq] at hk; cases hk
  | share1 n =>
    have hil : inLock (s.th i).pc = true := by rw [hpc]; rfl
    have hmx := (g.lock i).1 hil
    have nodd : ∀ j, j ≠ i → inLock (s.th j).pc = false := fun j hj => by
      cases h : inLock (s.th j).pc with
      | false => rfl
      | true => exact absurd (g.alone hil h) hj
    have hnn : n ≠ none := by have := ti.nn; rw [hpc] at this; exact this
    refine ⟨_, by simp only [cstep, hpc]; rfl, ?_⟩
    have hdead : ∀ k, (shareIn s.ls n).dead (.shared k) = if s.ls.sptr = some k ∧ s.ls.refs k = [] ∧ n ≠ some k then true else s.ls.dead (.shared k) := by
      intro k; simp only [shareIn]
      cases hu : s.ls.sptr with
      | none => simp
      | some q =>
        simp only [killIfLast_shared, Option.some.injEq]
        by_cases e : k = q
        · subst e; rfl
        · rw [if_neg (fun h => e h.1), if_neg (fun h => e h.1.symm)]
    have hother : ∀ x, (∀ k, x ≠ .shared k) → (shareIn s.ls n).dead x = s.ls.dead x := by
      intro x hx; simp only [shareIn]
      cases hu : s.ls.sptr with
      | none => rfl
      | some q =>
        cases x with
        | dummy => exact killIfLast_dummy ..
        | raw m => exact killIfLast_raw ..
        | owned m => exact killIfLast_owned ..
        | shared m => exact absurd rfl (hx m)
    have harg : ∀ k, n = some k → some i ∈ s.ls.refs k := fun k h => ti.arg k (by rw [hpc, h]; rfl)
    refine g.frame i ⟨.share2 n, (s.th i).todo⟩ (shareIn s.ls n) s.mtx s.hist ?_ ?_ (fun k h => by cases h) ⟨by simp [inLock, hmx], fun _ _ => Iff.rfl⟩ g.pout
      ?_ (fun k _ => .inr (.inl ⟨n, rfl⟩)) ?_ ?_ ?_ ?_ ?_ ?_
    · refine ⟨hnn, ti.todo, (fun k h => by cases h), (fun k h => by cases h), ?_, ?_⟩
      · intro m hm; exact harg m hm
      · intro m hm; cases hm; rfl
    · intro j hj
      refine (g.th j).congr ?_ ?_ (fun _ h => h) ?_
      · intro k hk
        obtain ⟨a, b, c⟩ := (g.th j).carry k hk
        exact ⟨by rw [hother _ (fun _ => by simp)]; exact a, b, c⟩
      · intro m hm; have := nodd j hj; rw [hm] at this; cases this
      · intro m hm; have := nodd j hj; rw [hm] at this; cases this
    · intro k hk
      rcases g.pown k hk with h | ⟨j, m, h⟩
      · exact .inl h
      · have : j = i := g.alone hil (by rw [h]; rfl)
        subst this; rw [hpc] at h; cases h
    · intro k hk; rw [hother _ (fun _ => by simp)]; exact g.uptr k hk
    · intro k hk
      have hk : n = some k := hk
      rw [hdead, if_neg (fun h => h.2.2 hk)]
      exact g.refs k (fun h => by have := harg k hk; rw [h] at this; cases this)
    · intro k hk
      have hk : s.ls.refs k ≠ [] := hk
      rw [hdead, if_neg (fun h => hk h.2.1)]; exact g.refs k hk
    · intro k; rw [hother _ (fun _ => by simp)]; exact g.raw k
    · rw [hother _ (fun _ => by simp)]; exact g.dummy
    · intro k hk; rw [hother _ (fun _ => by simp)] at hk; exact g.made k hk
  | share2 n =>
    have hil : inLock (s.th i).pc = true := by rw [hpc]; rfl
    have hmx := (g.lock i).1 hil
    have hnn : n ≠ none := by have := ti.nn; rw [hpc] at this; exact this
    have hu := ti.sh2 n hpc
    refine ⟨_, by simp only [cstep, hpc]; rfl, ?_⟩
    refine g.frame i ⟨.unlock (.share n), (s.th i).todo⟩ { s.ls with pout := n.map Sid.shared } s.mtx s.hist
      ?_ (fun j hj => (g.th j).same (fun _ => rfl) rfl (Nat.le_refl _) rfl (fun _ h => h)) (fun k h => by cases h) ⟨by simp [inLock, hmx], fun _ _ => Iff.rfl⟩ ?_ ?_ ?_ g.uptr g.sptr g.refs g.raw g.dummy g.made
    · exact ⟨hnn, ti.todo, (fun k h => by cases h), (fun k h => by cases h), (fun k h => ti.arg k (by rw [hpc]; exact h)), (fun k h => by cases h)⟩
    · simp [hnn]
    · intro k hk
      cases n with
      | none => cases hk
      | some q => cases hk
    · intro k hk
      left
      cases n with
      | none => cases hk
      | some q => cases hk; exact hu
  | wr1 n =>
    have hil : inLock (s.th i).pc = true := by rw [hpc]; rfl
    have hmx := (g.lock i).1 hil
    have hnn : n ≠ none := by have := ti.nn; rw [hpc] at this; exact this
    refine ⟨_, by simp only [cstep, hpc]; rfl, ?_⟩
    refine g.frame i ⟨.unlock (.writeOn n), (s.th i).todo⟩ { s.ls with pout := n.map Sid.raw } s.mtx s.hist
      ?_ (fun j hj => (g.th j).same (fun _ => rfl) rfl (Nat.le_refl _) rfl (fun _ h => h)) (fun k h => by cases h) ⟨by simp [inLock, hmx], fun _ _ => Iff.rfl⟩ ?_ ?_ ?_ g.uptr g.sptr g.refs g.raw g.dummy g.made
    · exact ⟨hnn, ti.todo, (fun k h => by cases h), (fun k h => by cases h), (fun k h => by cases h), (fun k h => by cases h)⟩
    · simp [hnn]
    · intro k hk; cases n <;> cases hk
    · intro k hk; cases n <;> cases hk
  | out as rest =>
    have hil : inLock (s.th i).pc = true := by rw [hpc]; rfl
    have hmx := (g.lock i).1 hil
    have own2 : ∀ n, (s.th i).pc ≠ .own2 n := fun n h => by rw [hpc] at h; cases h
    have sh2 : ∀ n, (s.th i).pc ≠ .share2 n := fun n h => by rw [hpc] at h; cases h
    cases rest with
    | nil =>
      refine ⟨_, by simp only [cstep, hpc]; rfl, ?_⟩
      refine g.frame0 i ⟨.unlock (.msg as), (s.th i).todo⟩ s.mtx s.hist ?_ (fun k h => by cases h) ⟨by simp [inLock, hmx], fun _ _ => Iff.rfl⟩ own2 sh2
      exact ⟨trivial, ti.todo, (fun k h => by cases h), (fun k h => by cases h), (fun k h => by cases h), (fun k h => by cases h)⟩
    | cons a r =>
      obtain ⟨p, hp, hd⟩ := g.alive
        (fun j n h => by have : j = i := g.alone hil (by rw [h]; rfl); subst this; exact own2 n h)
        (fun j n h => by have : j = i := g.alone hil (by rw [h]; rfl); subst this; exact sh2 n h)
      refine ⟨_, by simp only [cstep, hpc]; rw [actOn_ok hp hd a], ?_⟩
      refine g.frame i ⟨.out as r, (s.th i).todo⟩ { s.ls with os := fun x => if x = p then (s.ls.os p).act a else s.ls.os x } s.mtx s.hist
        ?_ (fun j hj => (g.th j).same (fun _ => rfl) rfl (Nat.le_refl _) rfl (fun _ h => h)) (fun k h => by cases h) ⟨by simp [inLock, hmx], fun _ _ => Iff.rfl⟩
        g.pout ?_ ?_ g.uptr g.sptr g.refs g.raw g.dummy g.made
      · exact ⟨trivial, ti.todo, (fun k h => by cases h), (fun k h => by cases h), (fun k h => by cases h), (fun k h => by cases h)⟩
      · intro k hk
        rcases g.pown k hk with h | ⟨j, n, h⟩
        · exact .inl h
        · exact .inr (.inr ⟨j, n, fun e => own2 n (e ▸ h), h⟩)
      · intro k hk
        rcases g.psh k hk with h | ⟨j, n, h⟩
        · exact .inl h
        · exact .inr (.inr ⟨j, n, fun e => sh2 n (e ▸ h), h⟩)
  | unlock c =>
    have hil : inLock (s.th i).pc = true := by rw [hpc]; rfl
    have hmx := (g.lock i).1 hil
    refine ⟨_, by simp only [cstep, hpc]; rfl, ?_⟩
    have own2 : ∀ n, (s.th i).pc ≠ .own2 n := fun n h => by rw [hpc] at h; cases h
    have sh2 : ∀ n, (s.th i).pc ≠ .share2 n := fun n h => by rw [hpc] at h; cases h
    have hl : ∀ j, j ≠ i → (s.mtx = some j ↔ none = some j) := fun j hj => by
      rw [hmx]; simp; exact fun e => hj e.symm
    cases c with
    | share o =>
      cases o with
      | none => have := ti.nn; rw [hpc] at this; exact absurd rfl this
      | some n =>
        refine g.frame0 i ⟨.ret n, (s.th i).todo⟩ none (s.hist ++ [(i, .share (some n))]) ?_ (fun k h => by cases h) ⟨by simp [inLock], hl⟩ own2 sh2
        refine ⟨trivial, ti.todo, (fun k h => by cases h), (fun k h => by cases h), ?_, (fun k h => by cases h)⟩
        intro m hm; exact ti.arg m (by rw [hpc]; exact hm)
    | own o =>
      refine g.frame0 i ⟨.idle, (s.th i).todo⟩ none (s.hist ++ [(i, .own o)]) ?_ (fun k h => by cases h) ⟨by simp [inLock], hl⟩ own2 sh2
      exact ⟨trivial, ti.todo, (fun k h => by cases h), (fun k h => by cases h), (fun k h => by cases h), (fun k h => by cases h)⟩
    | writeOn o =>
      refine g.frame0 i ⟨.idle, (s.th i).todo⟩ none (s.hist ++ [(i, .writeOn o)]) ?_ (fun k h => by cases h) ⟨by simp [inLock], hl⟩ own2 sh2
      exact ⟨trivial, ti.todo, (fun k h => by cases h), (fun k h => by cases h), (fun k h => by cases h), (fun k h => by cases h)⟩
    | msg as =>
      refine g.frame0 i ⟨.idle, (s.th i).todo⟩ none (s.hist ++ [(i, .msg as)]) ?_ (fun k h => by cases h) ⟨by simp [inLock], hl⟩ own2 sh2
      exact ⟨trivial, ti.todo, (fun k h => by cases h), (fun k h => by cases h), (fun k h => by cases h), (fun k h => by cases h)⟩
  | ret n =>
    exact ⟨_, by simp only [cstep, hpc], g.unref i ⟨.idle, (s.th i).todo⟩ n (some i) (.inr rfl) (.inr hpc) rfl ti.todo⟩

theorem GI.init {s : CS} (h : s.Fresh) (hn : ∀ i, ∀ c ∈ (s.th i).todo, c.NonNull) : GI s := by
  obtain ⟨h1, h2, h3, h4, h5, h6, h7, h8, h9⟩ := h
  refine ⟨?_, ?_, ?_, ?_, ?_, ?_, ?_, ?_, ?_, ?_, ?_, ?_⟩
  · intro i
    refine ⟨by rw [h8 i]; trivial, hn i, ?_, ?_, ?_, ?_⟩ <;> rw [h8 i] <;> intro k h <;> cases h
  · intro i j k h; rw [h8 i] at h; cases h
  · intro i; rw [h8 i, h6]; simp [inLock]
  · rw [h1]; simp
  · rw [h1]; intro k h; cases h
  · rw [h1]; intro k h; cases h
  · rw [h2]; intro k h; cases h
  · rw [h3]; intro k h; cases h
  · intro n _; rw [h4]
  · intro n; rw [h4]
  · rw [h4]
  · intro k h; rw [h4] at h; cases h

theorem GI.run {s : CS} (g : GI s) (sched : List Nat) : ∃ s', crun s sched = .ok s' ∧ GI s' := by
  induction sched generalizing s with
  | nil => exact ⟨s, rfl, g⟩
  | cons i is ih =>
    obtain ⟨s1, e1, g1⟩ := g.step i
    obtain ⟨s2, e2, g2⟩ := ih g1
    exact ⟨s2, by simp only [crun, e1]; exact e2, g2⟩

/-! Contents -/

/-- The calls, without who made them. -/
def CS.calls (s : CS) : List LC := s.hist.map Prod.snd


theorem target_append (t : Option Sid) (cs ds : List LC) : target t (cs ++ ds) = target (target t cs) ds := by
  induction cs generalizing t with
  | nil => rfl
  | cons c cs ih => cases c <;> simp [target, ih]

theorem messagesTo_append (x : Sid) (t : Option Sid) (cs ds : List LC) :
    messagesTo x t (cs ++ ds) = messagesTo x t cs ++ messagesTo x (target t cs) ds := by
  induction cs generalizing t with
  | nil => rfl
  | cons c cs ih =>
    cases c <;> simp only [List.cons_append, messagesTo, target, ih]
    split <;> simp

/-- What stream `x` contains after the calls `h`, plus `extra`. -/
def content (o : OS) (x : Sid) (h : List LC) (extra : List Act) : OS := o.acts ((messagesTo x (some .dummy) h).flatten ++ extra)

/-- What is written, depending on where the lock owner is. -/
def CI (os0 : Sid → OS) (s : CS) : Pc → Prop
  | .unlock c => s.ls.pout = target (some .dummy) (s.calls ++ [c]) ∧ ∀ x, s.ls.os x = content (os0 x) x (s.calls ++ [c]) []
  | .out as rest => s.ls.pout = target (some .dummy) s.calls ∧
      ∃ d, as = d ++ rest ∧ ∀ x, s.ls.os x = content (os0 x) x s.calls (if s.ls.pout = some x then d else [])
  | _ => s.ls.pout = target (some .dummy) s.calls ∧ ∀ x, s.ls.os x = content (os0 x) x s.calls []

def holder (s : CS) : Pc := match s.mtx with | none => .idle | some i => (s.th i).pc

theorem content_snoc (o : OS) (x : Sid) (h : List LC) (c : LC) (hc : ∀ as, c ≠ .msg as) :
    content o x (h ++ [c]) [] = content o x h [] := by
  unfold content; rw [messagesTo_append]
  cases c with
  | msg as => exact absurd rfl (hc as)
  | _ => simp [messagesTo]

theorem CI.step {os0 : Sid → OS} {s s' : CS} (g : GI s) (h : CI os0 s (holder s)) {i : Nat} (hs : cstep s i = .ok s') :
    CI os0 s' (holder s') := by
  -- thread i outside the lock: members used here do not change
  have quiet : ∀ (ls' : LS) (t' : T), inLock (s.th i).pc = false → inLock t'.pc = false → ls'.pout = s.ls.pout → ls'.os = s.ls.os →
      CI os0 (setT { s with ls := ls' } i t') (holder (setT { s with ls := ls' } i t')) := by
    intro ls' t' h1 h2 h3 h4
    have hne : s.mtx ≠ some i := fun e => by rw [(g.lock i).2 e] at h1; cases h1
    have hh : holder (setT { s with ls := ls' } i t') = holder s := by
      unfold holder setT
      cases hm : s.mtx with
      | none => rfl
      | some j =>
        have : j ≠ i := fun e => hne (by rw [hm, e])
        simp [this]
    rw [hh]
    have hc : (setT { s with ls := ls' } i t').calls = s.calls := rfl
    cases hp : holder s <;> rw [hp] at h <;> simp only [CI, hc] at h ⊢ <;> simpa [setT, h3, h4] using h
  cases hpc : (s.th i).pc with
  | idle =>
    have hl : inLock (s.th i).pc = false := by rw [hpc]; rfl
    cases htd : (s.th i).todo with
    | nil => simp only [cstep, hpc, htd] at hs; cases hs; exact h
    | cons c r =>
      cases c with
      | own b =>
        cases b <;> simp only [cstep, hpc, htd] at hs <;> cases hs
        · exact quiet s.ls _ hl rfl rfl rfl
        · exact quiet _ _ hl rfl rfl rfl
      | share o =>
        cases o with
        | none => simp only [cstep, hpc, htd] at hs; cases hs; exact quiet s.ls _ hl rfl rfl rfl
        | some n =>
          simp only [cstep, hpc, htd] at hs
          split at hs <;> cases hs
          · exact quiet s.ls _ hl rfl rfl rfl
          · exact quiet _ _ hl rfl rfl rfl
      | writeOn o => simp only [cstep, hpc, htd] at hs; cases hs; exact quiet s.ls _ hl rfl rfl rfl
      | msg as => simp only [cstep, hpc, htd] at hs; cases hs; exact quiet s.ls _ hl rfl rfl rfl
      | drop n =>
        simp only [cstep, hpc, htd] at hs
        split at hs <;> cases hs
        · exact quiet _ _ hl rfl rfl rfl
        · exact quiet s.ls _ hl rfl rfl rfl
  | ret n =>
    have hl : inLock (s.th i).pc = false := by rw [hpc]; rfl
    simp only [cstep, hpc] at hs; cases hs; exact quiet _ _ hl rfl rfl rfl
  | wait c =>
    simp only [cstep, hpc] at hs
    split at hs
    · rename_i hm
      cases hs
      have e : holder s = .idle := by simp [holder, hm]
      rw [e] at h
      have e2 : holder { setT s i ⟨enter c, (s.th i).todo⟩ with mtx := some i } = enter c := by simp [holder, setT]
      rw [e2]
      obtain ⟨h1, h2⟩ := h
      cases c with
      | msg as => exact ⟨h1, [], by simp, fun x => by simp; exact h2 x⟩
      | _ => exact ⟨h1, h2⟩
    · cases hs; exact h
  | own1 n =>
    have hmx := (g.lock i).1 (by rw [hpc]; rfl)
    have e : holder s = (s.th i).pc := by simp [holder, hmx]
    rw [e, hpc] at h
    simp only [cstep, hpc] at hs; cases hs
    have e2 : ∀ ls' t', holder (setT { s with ls := ls' } i t') = t'.pc := by intro ls' t'; simp [holder, setT, hmx]
    rw [e2]; exact h
  | own2 n =>
    have hmx := (g.lock i).1 (by rw [hpc]; rfl)
    have e : holder s = (s.th i).pc := by simp [holder, hmx]
    rw [e, hpc] at h
    simp only [cstep, hpc] at hs; cases hs
    have e2 : ∀ ls' t', holder (setT { s with ls := ls' } i t') = t'.pc := by intro ls' t'; simp [holder, setT, hmx]
    rw [e2]
    have hu := (g.th i).own2 n hpc
    refine ⟨?_, fun x => ?_⟩
    · show s.ls.uptr.map Sid.owned = target _ (s.calls ++ [.own n])
      rw [target_append, hu]; rfl
    · show s.ls.os x = content (os0 x) x (s.calls ++ [.own n]) []
      rw [content_snoc _ _ _ _ (fun _ => by simp)]; exact h.2 x
  | share1 n =>
    have hmx := (g.lock i).1 (by rw [hpc]; rfl)
    have e : holder s = (s.th i).pc := by simp [holder, hmx]
    rw [e, hpc] at h
    simp only [cstep, hpc] at hs; cases hs
    have e2 : ∀ ls' t', holder (setT { s with ls := ls' } i t') = t'.pc := by intro ls' t'; simp [holder, setT, hmx]
    rw [e2]; exact h
  | share2 n =>
    have hmx := (g.lock i).1 (by rw [hpc]; rfl)
    have e : holder s = (s.th i).pc := by simp [holder, hmx]
    rw [e, hpc] at h
    simp only [cstep, hpc] at hs; cases hs
    have e2 : ∀ ls' t', holder (setT { s with ls := ls' } i t') = t'.pc := by intro ls' t'; simp [holder, setT, hmx]
    rw [e2]
    refine ⟨?_, fun x => ?_⟩
    · show n.map Sid.shared = target _ (s.calls ++ [.share n])
      rw [target_append]; rfl
    · show s.ls.os x = content (os0 x) x (s.calls ++ [.share n]) []
      rw [content_snoc _ _ _ _ (fun _ => by simp)]; exact h.2 x
  | wr1 n =>
    have hmx := (g.lock i).1 (by rw [hpc]; rfl)
    have e : holder s = (s.th i).pc := by simp [holder, hmx]
    rw [e, hpc] at h
    simp only [cstep, hpc] at hs; cases hs
    have e2 : ∀ ls' t', holder (setT { s with ls := ls' } i t') = t'.pc := by intro ls' t'; simp [holder, setT, hmx]
    rw [e2]
    refine ⟨?_, fun x => ?_⟩
    · show n.map Sid.raw = target _ (s.calls ++ [.writeOn n])
      rw [target_append]; rfl
    · show s.ls.os x = content (os0 x) x (s.calls ++ [.writeOn n]) []
      rw [content_snoc _ _ _ _ (fun _ => by simp)]; exact h.2 x
  | out as rest =>
    have hmx := (g.lock i).1 (by rw [hpc]; rfl)
    have e : holder s = (s.th i).pc := by simp [holder, hmx]
    rw [e, hpc] at h
    have e2 : ∀ ls' t', holder (setT { s with ls := ls' } i t') = t'.pc := by intro ls' t'; simp [holder, setT, hmx]
    obtain ⟨h1, d, h2, h3⟩ := h
    cases rest with
    | nil =>
      simp only [cstep, hpc] at hs; cases hs
      have e2' := e2 s.ls ⟨.unlock (.msg as), (s.th i).todo⟩
      rw [e2']
      simp only [List.append_nil] at h2; subst h2
      refine ⟨?_, fun x => ?_⟩
      · show s.ls.pout = target _ (s.calls ++ [.msg as])
        rw [target_append]; exact h1
      · show s.ls.os x = content (os0 x) x (s.calls ++ [.msg as]) []
        rw [h3 x]; unfold content; rw [messagesTo_append, ← h1]
        simp only [messagesTo]
        split <;> simp
    | cons a r =>
      simp only [cstep, hpc] at hs
      cases hp : s.ls.pout with
      | none => exact absurd hp g.pout
      | some p =>
        cases ha : actOn s.ls a with
        | error f => rw [ha] at hs; cases hs
        | ok l =>
          rw [ha] at hs; cases hs
          rw [e2]
          have hl : l = { s.ls with os := fun x => if x = p then (s.ls.os p).act a else s.ls.os x } := by
            unfold actOn at ha; rw [hp] at ha; simp only at ha
            split at ha <;> cases ha; simp [hp]
          subst hl
          refine ⟨h1, d ++ [a], by simp [h2], fun x => ?_⟩
          show (if x = p then (s.ls.os p).act a else s.ls.os x) = content (os0 x) x s.calls (if s.ls.pout = some x then d ++ [a] else [])
          rw [hp]
          by_cases hx : x = p
          · subst hx
            rw [if_pos rfl, if_pos rfl, h3 x, hp, if_pos rfl]
            simp only [content, ← List.append_assoc]
            rw [acts_append (b := [a])]; rfl
          · rw [if_neg hx, if_neg (fun e => hx (Option.some.inj e).symm), h3 x, hp, if_neg (fun e => hx (Option.some.inj e).symm)]
  | unlock c =>
    have hmx := (g.lock i).1 (by rw [hpc]; rfl)
    have e : holder s = (s.th i).pc := by simp [holder, hmx]
    rw [e, hpc] at h
    simp only [cstep, hpc] at hs; cases hs
    have e3 : ∀ pc, CS.calls { setT s i ⟨pc, (s.th i).todo⟩ with mtx := none, hist := s.hist ++ [(i, c)] } = s.calls ++ [c] := by
      intro pc; simp [CS.calls]
    simp only [holder, CI, e3]
    exact h

theorem CI.run {os0 : Sid → OS} {s : CS} (sched : List Nat) {s' : CS} (g : GI s) (h : CI os0 s (holder s)) (hr : crun s sched = .ok s') :
    CI os0 s' (holder s') := by
  induction sched generalizing s with
  | nil => cases hr; exact h
  | cons i is ih =>
    obtain ⟨s1, e1, g1⟩ := g.step i
    simp only [crun, e1] at hr
    exact ih g1 (CI.step g h e1) hr

/-! Whose messages -/

def msgOfPc : Pc → List (List Act)
  | .wait (.msg as) => [as]
  | .out as _ => [as]
  | .unlock (.msg as) => [as]
  | _ => []

/-- Thread i's messages: done, in progress, to do. -/
def mine (s : CS) (i : Nat) : List (List Act) :=
  (s.hist.filter fun p => p.1 = i).filterMap (fun p => p.2.msg?) ++ msgOfPc (s.th i).pc ++ (s.th i).todo.filterMap Call.msg?

theorem mine_set (s : CS) (ls' : LS) (i : Nat) (t' : T) (mtx' : Option Nat) (h : msgOfPc t'.pc ++ t'.todo.filterMap Call.msg? = msgOfPc (s.th i).pc ++ (s.th i).todo.filterMap Call.msg?) (j : Nat) :
    mine { setT { s with ls := ls' } i t' with mtx := mtx' } j = mine s j := by
  unfold mine setT
  by_cases hj : j = i
  · subst hj; simp [List.append_assoc, h]
  · simp [hj]

theorem mine_step {s s' : CS} {i : Nat} (hs : cstep s i = .ok s') (j : Nat) : mine s' j = mine s j := by
  cases hpc : (s.th i).pc with
  | idle =>
    cases htd : (s.th i).todo with
    | nil => simp only [cstep, hpc, htd] at hs; cases hs; rfl
    | cons c r =>
      cases c with
      | own b => cases b <;> simp only [cstep, hpc, htd] at hs <;> cases hs
                 · exact mine_set s s.ls i _ s.mtx (by simp [hpc, htd, msgOfPc, Call.msg?, List.filterMap_cons]) j
                 · exact mine_set s _ i _ s.mtx (by simp [hpc, htd, msgOfPc, Call.msg?, List.filterMap_cons]) j
      | share o =>
        cases o with
        | none => simp only [cstep, hpc, htd] at hs; cases hs; exact mine_set s s.ls i _ s.mtx (by simp [hpc, htd, msgOfPc, Call.msg?, List.filterMap_cons]) j
        | some n =>
          simp only [cstep, hpc, htd] at hs
          split at hs <;> cases hs
          · exact mine_set s s.ls i _ s.mtx (by simp [hpc, htd, msgOfPc, Call.msg?, List.filterMap_cons]) j
          · exact mine_set s _ i _ s.mtx (by simp [hpc, htd, msgOfPc, Call.msg?, List.filterMap_cons]) j
      | writeOn o => simp only [cstep, hpc, htd] at hs; cases hs; exact mine_set s s.ls i _ s.mtx (by simp [hpc, htd, msgOfPc, Call.msg?, List.filterMap_cons]) j
      | msg as => simp only [cstep, hpc, htd] at hs; cases hs; exact mine_set s s.ls i _ s.mtx (by simp [hpc, htd, msgOfPc, Call.msg?, List.filterMap_cons]) j
      | drop n =>
        simp only [cstep, hpc, htd] at hs
        split at hs <;> cases hs
        · exact mine_set s _ i _ s.mtx (by simp [hpc, htd, msgOfPc, Call.msg?, List.filterMap_cons]) j
        · exact mine_set s s.ls i _ s.mtx (by simp [hpc, htd, msgOfPc, Call.msg?, List.filterMap_cons]) j
  | wait c =>
    simp only [cstep, hpc] at hs
    split at hs <;> cases hs
    · refine mine_set s s.ls i _ (some i) ?_ j
      cases c <;> simp [hpc, msgOfPc, enter]
    · rfl
  | own1 n => simp only [cstep, hpc] at hs; cases hs; exact mine_set s _ i _ s.mtx (by simp [hpc, msgOfPc]) j
  | own2 n => simp only [cstep, hpc] at hs; cases hs; exact mine_set s _ i _ s.mtx (by simp [hpc, msgOfPc]) j
  | share1 n => simp only [cstep, hpc] at hs; cases hs; exact mine_set s _ i _ s.mtx (by simp [hpc, msgOfPc]) j
  | share2 n => simp only [cstep, hpc] at hs; cases hs; exact mine_set s _ i _ s.mtx (by simp [hpc, msgOfPc]) j
  | wr1 n => simp only [cstep, hpc] at hs; cases hs; exact mine_set s _ i _ s.mtx (by simp [hpc, msgOfPc]) j
  | ret n => simp only [cstep, hpc] at hs; cases hs; exact mine_set s _ i _ s.mtx (by simp [hpc, msgOfPc]) j
  | out as rest =>
    cases rest with
    | nil => simp only [cstep, hpc] at hs; cases hs; exact mine_set s s.ls i _ s.mtx (by simp [hpc, msgOfPc]) j
    | cons a r =>
      simp only [cstep, hpc] at hs
      cases ha : actOn s.ls a with
      | error f => rw [ha] at hs; cases hs
      | ok l => rw [ha] at hs; cases hs; exact mine_set s _ i _ s.mtx (by simp [hpc, msgOfPc]) j
  | unlock c =>
    simp only [cstep, hpc] at hs; cases hs
    unfold mine setT
    by_cases hj : j = i
    · subst hj
      cases c with
      | share o => cases o <;> simp [hpc, msgOfPc, LC.msg?]
      | _ => simp [hpc, msgOfPc, LC.msg?]
    · simp [hj, Ne.symm hj]

theorem mine_run {s s' : CS} (sched : List Nat) (hr : crun s sched = .ok s') (j : Nat) : mine s' j = mine s j := by
  induction sched generalizing s with
  | nil => cases hr; rfl
  | cons i is ih =>
    simp only [crun] at hr
    cases hs : cstep s i with
    | error f => rw [hs] at hr; cases hr
    | ok s1 => rw [hs] at hr; rw [ih hr, mine_step hs]

/-- Only threads that exist appear in the history. -/
theorem mem_hist {s : CS} {i : Nat} {as : List Act} (h : (i, LC.msg as) ∈ s.hist) : as ∈ mine s i := by
  unfold mine
  refine List.mem_append_left _ (List.mem_append_left _ (List.mem_filterMap.2 ⟨(i, .msg as), ?_, rfl⟩))
  exact List.mem_filter.2 ⟨h, by simp⟩

end Falcon.LogStream
