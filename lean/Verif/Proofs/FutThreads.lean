import Verif.Spec.FutThreads
/-
Helper lemmas for tests with threads.
-/
namespace Falcon.FutThreads
open Falcon.Fut (Str Status Exc)

def putAll (r : Rec) (ws : List Wr) : Rec := ws.foldl Rec.put r

theorem putAll_append (r : Rec) (a b : List Wr) : putAll r (a ++ b) = putAll (putAll r a) b := List.foldl_append

theorem put_report (r : Rec) (c : Chk) : putAll r c.writes = c.report r := rfl

/-- assignments thread code will still make -/
def pendingOf (t : Th) : List Wr := t.writes ++ (fails t.todo).flatMap Chk.writes

theorem putAll_fails (r : Rec) (cs : List Chk) : putAll r (cs.flatMap Chk.writes) = cs.foldl (fun r c => c.report r) r := by
  induction cs generalizing r with
  | nil => rfl
  | cons c cs ih => rw [List.flatMap_cons, putAll_append, put_report, ih, List.foldl_cons]

theorem flat_ne {cs : List Chk} (h : cs.flatMap Chk.writes ≠ []) : cs ≠ [] := by
  intro e; subst e; exact h rfl

theorem pending_fails {b : List TOp} (h : pendingOf ⟨[], b⟩ ≠ []) : fails b ≠ [] := flat_ne h

/-! ### one step of a thread -/

theorem spawned_append (a b : List MOp) : spawned (a ++ b) = spawned a + spawned b := by
  induction a with
  | nil => simp [spawned]
  | cons x a ih => cases x <;> simp [spawned, ih]; omega

/-- the k-th thread: started in `dn`, with what it has still to do -/
structure Started (dn : List MOp) (J : List Nat) (k : Nat) (t : Th) : Prop where
  calm : escapes t.todo = false
  from_ : ∃ pre b post, dn = pre ++ .spawn b :: post ∧ spawned pre = k ∧ (pendingOf t ≠ [] → fails b ≠ []) ∧
    (k ∉ J → .join k ∉ post)
  over : k ∈ J → t = ⟨[], []⟩

/-- What holds in every state of the run while test() is executed; `dn` are the statements of test() begun so far. -/
structure Inv (prog : List MOp) (r0 : Rec) (s : St) (dn : List MOp) : Prop where
  phase  : s.phase = .test
  alive  : s.dead = false
  ops    : executed prog = dn ++ (path s.ths.length s.joined s.todo).1
  fin    : thrown prog = (path s.ths.length s.joined s.todo).2
  count  : s.ths.length = spawned dn
  joins  : ∀ k, k ∈ s.joined ↔ .join k ∈ dn
  lt     : ∀ k, k ∈ s.joined → k < s.ths.length
  th     : ∀ (k : Nat) (t : Th), s.ths[k]? = some t → Started dn s.joined k t
  one    : ∀ (k j : Nat) (t u : Th), s.ths[k]? = some t → s.ths[j]? = some u → pendingOf t ≠ [] → pendingOf u ≠ [] → k = j
  main   : ∀ (k : Nat) (t : Th), s.ths[k]? = some t → pendingOf t ≠ [] → s.writes = []
  val    : ∀ (k : Nat) (t : Th), s.ths[k]? = some t → pendingOf t ≠ [] → putAll s.r (pendingOf t) = inOrder { r0 with status := .none } dn
  idle   : (∀ (k : Nat) (t : Th), s.ths[k]? = some t → pendingOf t = []) → putAll s.r s.writes = inOrder { r0 with status := .none } dn

theorem inOrder_append (r : Rec) (a b : List MOp) : inOrder r (a ++ b) = inOrder (inOrder r a) b := by
  induction a generalizing r with
  | nil => rfl
  | cons x a ih => cases x <;> simp only [List.cons_append, inOrder, ih]

theorem inv_init (prog : List MOp) (r0 : Rec) : Inv prog r0 (init r0 prog) [] where
  phase := rfl
  alive := rfl
  ops := rfl
  fin := rfl
  count := rfl
  joins := by intro k; simp [init]
  lt := by intro k h; cases h
  th := by intro k t h; simp [init] at h
  one := by intro k j t u h; simp [init] at h
  main := by intro k t h; simp [init] at h
  val := by intro k t h; simp [init] at h
  idle := fun _ => rfl

theorem set_get {α : Type} {l : List α} {i j : Nat} {x y : α} (h : (l.set i x)[j]? = some y) : (j = i ∧ y = x) ∨ (j ≠ i ∧ l[j]? = some y) := by
  rw [List.getElem?_set] at h
  split at h
  · rename_i e; subst e
    split at h
    · left; exact ⟨rfl, (Option.some.inj h).symm⟩
    · cases h
  · rename_i e; right; exact ⟨fun e' => e e'.symm, h⟩

/-- replacing thread `k` by one that has done some of its work -/
theorem Inv.setTh {prog : List MOp} {r0 : Rec} {s : St} {dn : List MOp} (h : Inv prog r0 s dn) {k : Nat} {t t' : Th} {r : Rec}
    (hk : s.ths[k]? = some t) (hj : k ∉ s.joined) (hesc : escapes t'.todo = false)
    (hw : (pendingOf t' = pendingOf t ∧ r = s.r) ∨ ∃ w, pendingOf t = w :: pendingOf t' ∧ r = s.r.put w) :
    Inv prog r0 { s with ths := s.ths.set k t', r := r } dn := by
  have hne : pendingOf t' ≠ [] → pendingOf t ≠ [] := by
    rcases hw with ⟨e, -⟩ | ⟨w, e, -⟩
    · rw [e]; exact id
    · rw [e]; exact fun _ => by simp
  have hlt := (List.getElem?_eq_some_iff.1 hk).1
  have hput : pendingOf t ≠ [] → putAll r (pendingOf t') = putAll s.r (pendingOf t) := by
    intro _
    rcases hw with ⟨e, e'⟩ | ⟨w, e, e'⟩
    · rw [e, e']
    · rw [e, e']; rfl
  have hr : pendingOf t = [] → r = s.r ∧ pendingOf t' = [] := by
    intro e
    rcases hw with ⟨e1, e2⟩ | ⟨w, e1, -⟩
    · exact ⟨e2, e1.trans e⟩
    · rw [e] at e1; cases e1
  refine { phase := h.phase, alive := h.alive, ops := by simpa using h.ops, fin := by simpa using h.fin, count := by simpa using h.count,
           joins := h.joins, lt := by simpa using h.lt, th := ?_, one := ?_, main := ?_, val := ?_, idle := ?_ }
  · intro j u hu
    rcases set_get hu with ⟨rfl, rfl⟩ | ⟨-, hu⟩
    · obtain ⟨pre, b, post, e1, e2, e3, e4⟩ := (h.th j t hk).from_
      exact ⟨hesc, ⟨pre, b, post, e1, e2, fun hp => e3 (hne hp), e4⟩, fun hjn => absurd hjn hj⟩
    · exact h.th j u hu
  · intro i j u v hu hv pu pv
    rcases set_get hu with ⟨e1, e2⟩ | ⟨-, hu'⟩ <;> rcases set_get hv with ⟨e3, e4⟩ | ⟨-, hv'⟩
    · rw [e1, e3]
    · rw [e1]; exact h.one _ _ _ _ hk hv' (hne (e2 ▸ pu)) pv
    · rw [e3]; exact h.one _ _ _ _ hu' hk pu (hne (e4 ▸ pv))
    · exact h.one _ _ _ _ hu' hv' pu pv
  · intro j u hu pu
    rcases set_get hu with ⟨rfl, rfl⟩ | ⟨-, hu⟩
    · exact h.main _ _ hk (hne pu)
    · exact h.main _ _ hu pu
  · intro j u hu pu
    rcases set_get hu with ⟨rfl, rfl⟩ | ⟨hjk, hu⟩
    · exact (hput (hne pu)).trans (h.val _ _ hk (hne pu))
    · have : pendingOf t = [] := by
        by_cases e : pendingOf t = []
        · exact e
        · exact absurd (h.one _ _ _ _ hu hk pu e) hjk
      show putAll r _ = _
      rw [(hr this).1]
      exact h.val _ _ hu pu
  · intro hall
    show putAll r s.writes = _
    by_cases e : pendingOf t = []
    · rw [(hr e).1]
      refine h.idle (fun j u hu => ?_)
      by_cases hjk : j = k
      · subst hjk; rw [hk] at hu; cases hu; exact e
      · exact hall j u (by rw [List.getElem?_set_ne (Ne.symm hjk)]; exact hu)
    · have h2 := hall k t' (by rw [List.getElem?_set_self hlt])
      rw [h.main _ _ hk e, ← h.val _ _ hk e, ← hput e, h2]

theorem Inv.stepTh {prog : List MOp} {r0 : Rec} {s s' : St} {dn : List MOp} (h : Inv prog r0 s dn) {k : Nat}
    (hs : stepTh s k = some s') : Inv prog r0 s' dn := by
  unfold FutThreads.stepTh at hs
  split at hs
  · cases hs
  · rename_i t hk
    have hst := h.th k t hk
    have hj : t ≠ ⟨[], []⟩ → k ∉ s.joined := fun hne hj => hne (hst.over hj)
    obtain ⟨ws, todo⟩ := t
    cases ws with
    | cons w ws =>
      simp only at hs
      cases hs
      exact h.setTh hk (hj (by simp)) hst.calm (.inr ⟨w, rfl, rfl⟩)
    | nil =>
      cases todo with
      | nil => cases hs
      | cons o todo =>
        cases o with
        | throws => have := hst.calm; simp [escapes] at this
        | check c =>
          have hc := hst.calm
          simp only [escapes] at hc
          simp only at hs
          split at hs
          · rename_i hok
            cases hs
            have : ¬ (c.ok = false ∧ c.stops = true) := by rw [hok]; simp
            rw [if_neg this] at hc
            exact h.setTh hk (hj (by simp)) hc (.inl ⟨by simp [pendingOf, fails, hok], rfl⟩)
          · rename_i hok
            have hok : c.ok = false := by simpa using hok
            cases hs
            have key := h.setTh (t' := ⟨c.writes, if c.stops = true then [] else todo⟩) (r := s.r) hk (hj (by simp)) (by
              cases hst : c.stops
              · simp [hok, hst] at hc; simpa using hc
              · simp [escapes]) (.inl ⟨by cases hst : c.stops <;> simp [pendingOf, fails, hok, hst], rfl⟩)
            exact key

/-- Statements of test() that change neither record nor threads. -/
theorem Inv.pop {prog : List MOp} {r0 : Rec} {s : St} {dn : List MOp} (h : Inv prog r0 s dn) {x : MOp} {r : List MOp} {J : List Nat}
    (ho : (path s.ths.length s.joined s.todo).1 = x :: (path s.ths.length J r).1)
    (hf : (path s.ths.length s.joined s.todo).2 = (path s.ths.length J r).2)
    (hx : (∃ c, x = .check c ∧ c.ok = true ∧ J = s.joined) ∨
      ∃ k, x = .join k ∧ J = k :: s.joined ∧ s.ths[k]? = some ⟨[], []⟩) :
    Inv prog r0 { s with todo := r, joined := J } (dn ++ [x]) := by
  have hin : ∀ rr, inOrder rr (dn ++ [x]) = inOrder rr dn := by
    intro rr
    rw [inOrder_append]
    rcases hx with ⟨c, rfl, hc, -⟩ | ⟨k, rfl, -⟩
    · simp [inOrder, hc]
    · rfl
  have hsp : spawned (dn ++ [x]) = spawned dn := by
    rw [spawned_append]
    rcases hx with ⟨c, rfl, hc, -⟩ | ⟨k, rfl, -⟩ <;> rfl
  refine { phase := h.phase, alive := h.alive, ops := ?_, fin := ?_, count := ?_, joins := ?_, lt := ?_, th := ?_, one := h.one,
           main := h.main, val := ?_, idle := ?_ }
  · rw [List.append_assoc]
    show _ = dn ++ x :: (path s.ths.length J r).1
    rw [← ho]; exact h.ops
  · exact h.fin.trans hf
  · rw [hsp]; exact h.count
  · intro k
    rcases hx with ⟨c, rfl, hc, rfl⟩ | ⟨j, rfl, rfl, hj⟩
    · simp [h.joins k]
    · simp [h.joins k, or_comm]
  · intro k hk
    rcases hx with ⟨c, rfl, hc, rfl⟩ | ⟨j, rfl, rfl, hj⟩
    · exact h.lt k hk
    · rcases List.mem_cons.1 hk with rfl | hk
      · exact (List.getElem?_eq_some_iff.1 hj).1
      · exact h.lt k hk
  · intro k t ht
    have hst := h.th k t ht
    obtain ⟨pre, b, post, e1, e2, e3, e4⟩ := hst.from_
    refine ⟨hst.calm, ⟨pre, b, post ++ [x], by rw [e1]; simp, e2, e3, ?_⟩, ?_⟩
    · rcases hx with ⟨c, rfl, hc, rfl⟩ | ⟨j, rfl, rfl, hj⟩
      · intro hk; simpa using e4 hk
      · intro hk
        simp only [List.mem_cons, not_or] at hk
        simp only [List.mem_append, List.mem_singleton, MOp.join.injEq, not_or]
        exact ⟨e4 hk.2, hk.1⟩
    · rcases hx with ⟨c, rfl, hc, rfl⟩ | ⟨j, rfl, rfl, hj⟩
      · exact hst.over
      · intro hk
        rcases List.mem_cons.1 hk with rfl | hk
        · rw [hj] at ht; exact (Option.some.inj ht).symm
        · exact hst.over hk
  · intro k t ht pt; rw [hin]; exact h.val k t ht pt
  · intro ha; rw [hin]; exact h.idle ha

/-- a thread that has something to report -/
theorem Inv.conflict {prog : List MOp} {r0 : Rec} {s : St} {dn : List MOp} (h : Inv prog r0 s dn) {x : MOp} {rest : List MOp}
    (ho : (path s.ths.length s.joined s.todo).1 = x :: rest)
    (hx : (∃ b', x = .spawn b' ∧ fails b' ≠ []) ∨ ∃ c, x = .check c ∧ c.ok = false)
    {k : Nat} {t : Th} (hk : s.ths[k]? = some t) (hp : pendingOf t ≠ []) : Conflict (executed prog) := by
  have hst := h.th k t hk
  have hj : k ∉ s.joined := fun hj => hp (by rw [hst.over hj]; rfl)
  obtain ⟨pre, b, post, e1, e2, e3, e4⟩ := hst.from_
  refine ⟨pre, b, post, x, rest, ?_, e3 hp, ?_, hx⟩
  · rw [h.ops, ho, e1]; simp
  · rw [e2]; exact e4 hj

/-- a failing check in the test's own thread -/
theorem Inv.report {prog : List MOp} {r0 : Rec} {s : St} {dn : List MOp} (h : Inv prog r0 s dn) {c : Chk} {r : List MOp}
    (ho : (path s.ths.length s.joined s.todo).1 = .check c :: (path s.ths.length s.joined r).1)
    (hf : (path s.ths.length s.joined s.todo).2 = (path s.ths.length s.joined r).2) (hc : c.ok = false)
    (hw : s.writes = []) (hall : ∀ (k : Nat) (t : Th), s.ths[k]? = some t → pendingOf t = []) :
    Inv prog r0 { s with writes := c.writes, todo := r } (dn ++ [.check c]) := by
  refine { phase := h.phase, alive := h.alive, ops := ?_, fin := h.fin.trans hf, count := ?_, joins := ?_, lt := h.lt, th := ?_, one := h.one,
           main := fun k t hk hp => absurd (hall k t hk) hp, val := fun k t hk hp => absurd (hall k t hk) hp, idle := ?_ }
  · rw [List.append_assoc]
    show _ = dn ++ .check c :: (path s.ths.length s.joined r).1
    rw [← ho]; exact h.ops
  · rw [spawned_append]; exact h.count
  · intro k; simp [h.joins k]
  · intro k t ht
    have hst := h.th k t ht
    obtain ⟨pre, b, post, e1, e2, e3, e4⟩ := hst.from_
    exact ⟨hst.calm, ⟨pre, b, post ++ [.check c], by rw [e1]; simp, e2, e3, fun hk => by simpa using e4 hk⟩, hst.over⟩
  · intro _
    have := h.idle hall
    rw [hw] at this
    rw [inOrder_append, ← this]
    simp [inOrder, hc, putAll]
    rfl

/-- a thread is started -/
theorem Inv.spawn {prog : List MOp} {r0 : Rec} {s : St} {dn : List MOp} (h : Inv prog r0 s dn) {b : List TOp} {r : List MOp}
    (ho : (path s.ths.length s.joined s.todo).1 = .spawn b :: (path (s.ths.length + 1) s.joined r).1)
    (hf : (path s.ths.length s.joined s.todo).2 = (path (s.ths.length + 1) s.joined r).2) (hesc : escapes b = false)
    (hw : s.writes = []) (hall : fails b ≠ [] → ∀ (k : Nat) (t : Th), s.ths[k]? = some t → pendingOf t = []) :
    Inv prog r0 { s with todo := r, ths := s.ths ++ [⟨[], b⟩] } (dn ++ [.spawn b]) := by
  have hnew : ∀ {k : Nat} {t : Th}, (s.ths ++ [⟨[], b⟩])[k]? = some t → s.ths[k]? = some t ∨ (k = s.ths.length ∧ t = ⟨[], b⟩) := by
    intro k t ht
    by_cases hk : k < s.ths.length
    · rw [List.getElem?_append_left hk] at ht; exact .inl ht
    · rw [List.getElem?_append_right (by omega)] at ht
      have : k - s.ths.length = 0 := by
        have := (List.getElem?_eq_some_iff.1 ht).1
        simp at this; omega
      rw [this] at ht
      exact .inr ⟨by omega, by simpa using ht.symm⟩
  have hseq : inOrder { r0 with status := .none } (dn ++ [.spawn b]) = putAll (inOrder { r0 with status := .none } dn) (pendingOf ⟨[], b⟩) := by
    rw [inOrder_append]
    simp only [inOrder, pendingOf, List.nil_append, putAll_fails]
  have hnone : fails b = [] → pendingOf ⟨[], b⟩ = [] := fun e => by simp [pendingOf, e]
  refine { phase := h.phase, alive := h.alive, ops := ?_, fin := ?_, count := ?_, joins := ?_, lt := ?_, th := ?_, one := ?_,
           main := fun _ _ _ _ => hw, val := ?_, idle := ?_ }
  · rw [List.append_assoc, List.length_append]
    show _ = dn ++ .spawn b :: (path (s.ths.length + 1) s.joined r).1
    rw [← ho]; exact h.ops
  · rw [List.length_append]; exact h.fin.trans hf
  · rw [spawned_append, List.length_append, h.count]; rfl
  · intro k; simp [h.joins k]
  · intro k hk
    have := h.lt k hk
    simp only [List.length_append, List.length_singleton]
    omega
  · intro k t ht
    rcases hnew ht with ht | ⟨rfl, rfl⟩
    · have hst := h.th k t ht
      obtain ⟨pre, b', post, e1, e2, e3, e4⟩ := hst.from_
      exact ⟨hst.calm, ⟨pre, b', post ++ [.spawn b], by rw [e1]; simp, e2, e3, fun hk => by simpa using e4 hk⟩, hst.over⟩
    · exact ⟨hesc, ⟨dn, b, [], rfl, h.count.symm, pending_fails, fun _ => by simp⟩, fun hj => absurd (h.lt _ hj) (Nat.lt_irrefl _)⟩
  · intro k j t u ht hu pt pu
    rcases hnew ht with ht' | ⟨rfl, rfl⟩ <;> rcases hnew hu with hu' | ⟨rfl, rfl⟩
    · exact h.one _ _ _ _ ht' hu' pt pu
    · exact absurd (hall (pending_fails pu) k t ht') pt
    · exact absurd (hall (pending_fails pt) j u hu') pu
    · rfl
  · intro k t ht pt
    rcases hnew ht with ht' | ⟨rfl, rfl⟩
    · have : fails b = [] := by
        by_cases e : fails b = []
        · exact e
        · exact absurd (hall e k t ht') pt
      rw [hseq, hnone this]
      exact h.val k t ht' pt
    · rw [hseq]
      have := h.idle (hall (pending_fails pt))
      rw [hw] at this
      rw [← this]; rfl
  · intro hh
    have hb : pendingOf ⟨[], b⟩ = [] := hh s.ths.length _ (by rw [List.getElem?_append_right (Nat.le_refl _)]; simp)
    rw [hseq, hb]
    refine h.idle (fun k t ht => hh k t ?_)
    rw [List.getElem?_append_left (List.getElem?_eq_some_iff.1 ht).1]
    exact ht

/-- The end of test(). -/
structure Left (prog : List MOp) (r0 : Rec) (s : St) : Prop where
  joined : AllJoined (executed prog)
  ths    : ∀ (k : Nat) (t : Th), s.ths[k]? = some t → t = ⟨[], []⟩
  alive  : s.dead = false
  here   : (s.phase = .leave (thrown prog) ∧ s.r = inOrder { r0 with status := .none } (executed prog)) ∨
           (s.phase = .done ∧ s.r = conclude (inOrder { r0 with status := .none } (executed prog)) (thrown prog))

theorem Inv.leave {prog : List MOp} {r0 : Rec} {s : St} {dn : List MOp} (h : Inv prog r0 s dn) {e : Option Exc}
    (hp : path s.ths.length s.joined s.todo = ([], e)) (hw : s.writes = []) :
    (AllJoined (executed prog) ∧ Left prog r0 (FutThreads.leave s e)) ∨ (¬ AllJoined (executed prog) ∧ (FutThreads.leave s e).dead = true ∧ (FutThreads.leave s e).phase = .test) := by
  have hops := h.ops
  rw [hp, List.append_nil] at hops
  have hfin := h.fin
  rw [hp] at hfin
  have key : AllJoined (executed prog) ↔ (List.range s.ths.length).all (fun k => s.joined.contains k) = true := by
    rw [List.all_eq_true, hops]
    simp only [AllJoined, ← h.count, List.mem_range, List.contains_iff_mem, h.joins]
  by_cases hj : AllJoined (executed prog)
  · left
    refine ⟨hj, ?_⟩
    have hth : ∀ (k : Nat) (t : Th), s.ths[k]? = some t → t = ⟨[], []⟩ := by
      intro k t ht
      have hlt := (List.getElem?_eq_some_iff.1 ht).1
      refine (h.th k t ht).over ((h.joins k).2 ?_)
      rw [← hops]
      exact hj k (by rw [hops, ← h.count]; exact hlt)
    have hr : s.r = inOrder { r0 with status := .none } (executed prog) := by
      have := h.idle (fun k t ht => by rw [hth k t ht]; rfl)
      rw [hw] at this
      rw [hops, ← this]; rfl
    unfold FutThreads.leave
    rw [if_pos (key.1 hj)]
    exact ⟨hj, hth, h.alive, .inl ⟨by rw [hfin], hr⟩⟩
  · right
    refine ⟨hj, ?_⟩
    unfold FutThreads.leave
    rw [if_neg (fun hh => hj (key.2 hh))]
    exact ⟨rfl, h.phase⟩

/-- What is true of every state, when no two reports can meet. -/
def Good (prog : List MOp) (r0 : Rec) (s : St) : Prop :=
  (∃ dn, Inv prog r0 s dn) ∨ Left prog r0 s ∨ (¬ AllJoined (executed prog) ∧ s.dead = true ∧ s.phase = .test)

theorem good_step {prog : List MOp} {r0 : Rec} {s s' : St} {a : Option Nat} (hc : ¬ Conflict (executed prog)) (he : NoEscape (executed prog))
    (h : Good prog r0 s) (hs : step s a = some s') : Good prog r0 s' := by
  unfold step at hs
  split at hs
  · cases hs
  · rename_i hd
    rcases h with ⟨dn, h⟩ | h | ⟨-, h, -⟩
    · cases a with
      | some k => exact .inl ⟨dn, h.stepTh hs⟩
      | none =>
        simp only at hs
        unfold stepMain at hs
        split at hs
        · rename_i hph; rw [h.phase] at hph; cases hph
        · rename_i hph; rw [h.phase] at hph; cases hph
        split at hs
        · rename_i w ws hw
          cases hs
          left
          refine ⟨dn, { phase := h.phase, alive := h.alive, ops := h.ops, fin := h.fin, count := h.count, joins := h.joins, lt := h.lt, th := h.th
                        one := h.one, main := fun k t hk hp => ?_, val := fun k t hk hp => ?_, idle := fun hh => ?_ }⟩
          · have := h.main k t hk hp; rw [hw] at this; cases this
          · have := h.main k t hk hp; rw [hw] at this; cases this
          · have := h.idle hh; rw [hw] at this; exact this
        · rename_i hw
          cases htodo : s.todo with
          | nil =>
            rw [htodo] at hs
            simp only at hs
            cases hs
            rcases h.leave (e := none) (by rw [htodo]; rfl) hw with ⟨-, h2⟩ | h2
            · exact .inr (.inl h2)
            · exact .inr (.inr h2)
          | cons x r =>
            rw [htodo] at hs
            cases x with
            | throws e =>
              simp only at hs
              cases hs
              rcases h.leave (e := some e) (by rw [htodo]; rfl) hw with ⟨-, h2⟩ | h2
              · exact .inr (.inl h2)
              · exact .inr (.inr h2)
            | check c =>
              simp only at hs
              split at hs
              · rename_i hok
                cases hs
                have hn : ¬ (c.ok = false ∧ c.stops = true) := by rw [hok]; simp
                exact .inl ⟨_, h.pop (J := s.joined) (r := r) (x := .check c) (by rw [htodo]; simp only [path, if_neg hn])
                  (by rw [htodo]; simp only [path, if_neg hn]) (.inl ⟨c, rfl, hok, rfl⟩)⟩
              · rename_i hok
                have hok : c.ok = false := by simpa using hok
                cases hs
                have hall : ∀ (k : Nat) (t : Th), s.ths[k]? = some t → pendingOf t = [] := by
                  intro k t hk
                  by_cases hp : pendingOf t = []
                  · exact hp
                  · have hh : ∃ rest, (path s.ths.length s.joined s.todo).1 = .check c :: rest := by
                      rw [htodo]; simp only [path]; split <;> exact ⟨_, rfl⟩
                    obtain ⟨rest, hh⟩ := hh
                    exact absurd (h.conflict hh (.inr ⟨c, rfl, hok⟩) hk hp) hc
                left
                refine ⟨_, h.report (c := c) ?_ ?_ hok hw hall⟩
                · rw [htodo]; cases hst : c.stops <;> simp [path, hok, hst]
                · rw [htodo]; cases hst : c.stops <;> simp [path, hok, hst]
            | spawn b =>
              simp only at hs
              cases hs
              have hmem : MOp.spawn b ∈ executed prog := by
                rw [h.ops, htodo]; simp [path]
              left
              refine ⟨_, h.spawn (b := b) (by rw [htodo]; rfl) (by rw [htodo]; rfl) (he b hmem) hw (fun hf k t hk => ?_)⟩
              by_cases hp : pendingOf t = []
              · exact hp
              · exact absurd (h.conflict (x := .spawn b) (by rw [htodo]; rfl) (.inl ⟨b, rfl, hf⟩) hk hp) hc
            | join k =>
              simp only at hs
              split at hs
              · rename_i hj
                cases hs
                have hj' : k ∈ s.joined := by simpa using hj
                rcases h.leave (e := some sysError) (by rw [htodo]; simp [path, hj']) hw with ⟨-, h2⟩ | h2
                · exact .inr (.inl h2)
                · exact .inr (.inr h2)
              · rename_i hj
                have hj' : k ∉ s.joined := by simpa using hj
                split at hs
                · rename_i hk
                  cases hs
                  have hk' : s.ths.length ≤ k := by simpa using hk
                  rcases h.leave (e := some sysError) (by rw [htodo]; simp only [path]; rw [if_neg (by omega)]) hw with ⟨-, h2⟩ | h2
                  · exact .inr (.inl h2)
                  · exact .inr (.inr h2)
                · rename_i t hk
                  split at hs
                  · rename_i hfin
                    cases hs
                    have hlt := (List.getElem?_eq_some_iff.1 hk).1
                    have ht : t = ⟨[], []⟩ := by cases t; simp_all
                    exact .inl ⟨_, h.pop (J := k :: s.joined) (r := r) (x := .join k)
                      (by rw [htodo]; simp only [path, if_pos (And.intro hlt hj')])
                      (by rw [htodo]; simp only [path, if_pos (And.intro hlt hj')]) (.inr ⟨k, rfl, rfl, by rw [hk, ht]⟩)⟩
                  · cases hs
    · right; left
      cases a with
      | some k =>
        simp only at hs
        unfold stepTh at hs
        split at hs
        · cases hs
        · rename_i t hk
          rw [h.ths k t hk] at hs
          cases hs
      | none =>
        simp only at hs
        unfold stepMain at hs
        rcases h.here with ⟨hp, hr⟩ | ⟨hp, hr⟩
        · rw [hp] at hs
          cases hs
          exact ⟨h.joined, h.ths, h.alive, .inr ⟨rfl, by rw [hr]⟩⟩
        · rw [hp] at hs; cases hs
    · exact absurd h hd

theorem good_run {prog : List MOp} {r0 : Rec} (hc : ¬ Conflict (executed prog)) (he : NoEscape (executed prog)) (as : List (Option Nat)) :
    ∀ {s s' : St}, Good prog r0 s → run s as = some s' → Good prog r0 s' := by
  induction as with
  | nil => intro s s' h hs; cases hs; exact h
  | cons a as ih =>
    intro s s' h hs
    simp only [run] at hs
    split at hs
    · cases hs
    · rename_i s1 h1
      exact ih (good_step hc he h h1) hs

theorem good_init (prog : List MOp) (r0 : Rec) : Good prog r0 (init r0 prog) := .inl ⟨[], inv_init prog r0⟩

theorem good_not_racy {prog : List MOp} {r0 : Rec} {s : St} (h : Good prog r0 s) : ¬ Racy s := by
  rintro ⟨hd, a, b, hab, x, hx, y, hy, -⟩
  have pend : ∀ {k : Nat}, accesses s (some k) ≠ [] → ∃ t, s.ths[k]? = some t ∧ pendingOf t ≠ [] := by
    intro k hk
    simp only [accesses] at hk
    split at hk
    · exact absurd rfl hk
    · rename_i t ht
      refine ⟨t, ht, ?_⟩
      intro e
      have : t.writes = [] := (List.append_eq_nil_iff.1 e).1
      rw [this] at hk
      exact hk rfl
  have hx' := List.ne_nil_of_mem hx
  have hy' := List.ne_nil_of_mem hy
  rcases h with ⟨dn, h⟩ | h | ⟨-, h, -⟩
  · have mainw : accesses s none ≠ [] → s.writes ≠ [] := by
      intro hh e
      simp [accesses, h.phase, e] at hh
    cases a with
    | none =>
      cases b with
      | none => exact hab rfl
      | some k =>
        obtain ⟨t, ht, pt⟩ := pend hy'
        exact mainw hx' (h.main k t ht pt)
    | some k =>
      obtain ⟨t, ht, pt⟩ := pend hx'
      cases b with
      | none => exact mainw hy' (h.main k t ht pt)
      | some j =>
        obtain ⟨u, hu, pu⟩ := pend hy'
        exact hab (by rw [h.one k j t u ht hu pt pu])
  · have none_ : ∀ {k : Nat}, accesses s (some k) = [] := by
      intro k
      by_cases e : accesses s (some k) = []
      · exact e
      · obtain ⟨t, ht, pt⟩ := pend e
        rw [h.ths k t ht] at pt
        exact absurd rfl pt
    cases a with
    | some k => exact hx' none_
    | none =>
      cases b with
      | none => exact hab rfl
      | some k => exact hy' none_
  · rw [h] at hd; cases hd

end Falcon.FutThreads
