import Verif.Proofs.PSCopy
/-
C119-C121: copying, moving and swapping PagedStack objects.
Vocabulary: Model/PSCopy (programs using several stacks), Spec/StackValue (variables with value
semantics: `run true` copies are stacks of their own, `run false` copies are not usable).
-/
namespace Falcon.PSCopy
open Falcon.PagedStack (Op Out Stats PS R mkS cont)
open Falcon.StackValue
variable {α : Type}

/-! ### C119 -/

/-- C119 is false: a copy of a stack is not a stack of its own.  The program
`a.push(1); PagedStack b(a); b.push(2); a.top()` returns 2. -/
theorem C119_copy_refuted :
    ¬ ∀ (as : List (Act Nat)) (e : Env Nat) (os : List (Out Nat)),
      StackValue.run true none' as = some (e, os) → ∃ w, run empty as = .ok (w, os) := by
  intro h
  obtain ⟨w, hw⟩ := h [.new 0 4 1, .call 0 (.push 1), .copyNew 1 0, .call 1 (.push 2), .call 0 .top]
    _ [.unit, .unit, .unit, .unit, .val 1] rfl
  have h2 : (run empty [.new 0 4 1, .call 0 (.push 1), .copyNew 1 0, .call 1 (.push 2),
      .call 0 .top]).map Prod.snd = .ok [Out.unit, .unit, .unit, .unit, .val (2 : Nat)] := rfl
  rw [hw] at h2
  simp [Except.map] at h2

theorem run_append (w w' : World α) (as bs : List (Act α)) (os : List (Out α))
    (h : run w as = .ok (w', os)) :
    run w (as ++ bs) = (run w' bs).map (fun r => (r.1, os ++ r.2)) := by
  induction as generalizing w os with
  | nil =>
    simp only [run, Except.ok.injEq, Prod.mk.injEq] at h
    obtain ⟨rfl, rfl⟩ := h
    cases hb : run w bs with
    | error e => simp [hb, Except.map]
    | ok r => simp [hb, Except.map]
  | cons a as ih =>
    simp only [run] at h
    simp only [List.cons_append, run]
    split at h
    · exact nomatch h
    · rename_i w1 o ha
      split at h
      · exact nomatch h
      · rename_i w2 os' hr
        simp only [Except.ok.injEq, Prod.mk.injEq] at h
        obtain ⟨rfl, rfl⟩ := h
        rw [ih w1 os' hr]
        cases hb : run w2 bs with
        | error e => simp [Except.map]
        | ok r => simp [Except.map]

/-- state of the copy right after it was made -/
theorem copy_state {w : World α} {e : Env α} (h : Rel w e) {i j ps al : Nat} {t : StackSpec.St α}
    (hi : e i = none) (hj : e j = some (.live ps al t)) :
    ∃ (o o' : Obj) (s : PS α) (c : Nat), w.objs j = some o ∧ load w o = some s ∧ R ps al s t ∧ o.cur = some c ∧ c ∈ o.nodes ∧
      act w (.copyNew i j) = .ok (copyConstruct w i o, .unit) ∧
      (copyConstruct w i o).objs i = some o' ∧ (copyConstruct w i o).objs j = some o ∧ o'.cur = some c ∧
      o'.pageSize = ps ∧ load (copyConstruct w i o) o' = none ∧
      load (copyConstruct w i o) o = some s ∧ Rel (copyConstruct w i o) (e.set i (some .spent)) := by
  obtain ⟨h0, ha, o, s, ho, hl, r⟩ := h.live j ps al t hj
  obtain ⟨l1, l2, l3, l4, l5, c, hc, hm⟩ := load_fields hl
  have hij : j ≠ i := fun x => by rw [x, hi] at hj; exact nomatch hj
  have hr := h.copyNew (i := i) ho
  refine ⟨o, _, s, c, ho, hl, r, hc, hm, by simp only [act, ho], if_pos rfl, ?_, hc, ?_, ?_, ?_, hr⟩
  · show (if j = i then _ else _) = _
    rw [if_neg hij]; exact ho
  · show o.pageSize = ps
    rw [← l1]; exact (R_fields r).2.1
  · unfold load
    simp only [hc]
    rw [if_neg]
    intro hmem
    have := (List.mem_range'_1.1 hmem).1
    have := h.lt j o ho c hm
    omega
  · rw [← hl]
    refine load_congr (fun n hn => ?_)
    show (if n ∈ _ then _ else _) = _
    rw [if_neg]
    intro hmem
    have := (List.mem_range'_1.1 hmem).1
    have := h.lt j o ho n hn
    omega

/-- C119, how every copy fails: whatever happened before, `size()`, `empty()` and `getStats()` of
a fresh copy compare list iterators of two different lists. -/
theorem C119_copy_observers (as : List (Act α)) (e : Env α) (os : List (Out α))
    (h : StackValue.run false none' as = some (e, os)) (i j ps al : Nat) (t : StackSpec.St α)
    (hi : e i = none) (hj : e j = some (.live ps al t)) (op : Op α)
    (hop : op = .size ∨ op = .empty ∨ op = .stats) :
    run empty (as ++ [.copyNew i j, .call i op]) = .error (.ub .foreignIter) := by
  obtain ⟨w, er, r⟩ := Rel.empty.run h
  rw [run_append _ _ _ _ _ er]
  obtain ⟨o, o', s, c, ho, hl, hR, hc, hm, hact, ho', hj', hc', -, hno, -, -⟩ := copy_state r hi hj
  obtain ⟨p, hp⟩ := r.alive j o ho c hm
  have hp' : (copyConstruct w i o).heap c = some p := by
    show (if c ∈ _ then _ else _) = _
    rw [if_neg]
    · exact hp
    · intro hmem
      have := (List.mem_range'_1.1 hmem).1
      have := r.lt j o ho c hm
      omega
  have hcall : act (copyConstruct w i o) (.call i op) = .error (.ub .foreignIter) := by
    rcases hop with rfl | rfl | rfl <;> simp only [act, call, ho', hno, hc', hp', callForeign]
  simp only [run]
  rw [hact]; dsimp only
  rw [hcall]; rfl

/-- C119, where a push on a copy goes: as long as the topmost page of the source has room, the
element pushed on a fresh copy becomes the top of the *source*, which from then on behaves as if
it had been pushed there. -/
theorem C119_copy_push (as bs : List (Act α)) (e e' : Env α) (os os' : List (Out α))
    (h : StackValue.run false none' as = some (e, os)) (i j ps al : Nat) (t : StackSpec.St α) (x : α)
    (hi : e i = none) (hj : e j = some (.live ps al t))
    (hroom : StackSpec.onTopPage ps t.items.length ≠ ps)
    (hb : StackValue.run false ((e.set i (some .spent)).set j
      (some (.live ps al (StackSpec.push ps al t x)))) bs = some (e', os')) :
    ∃ w, run empty (as ++ ([.copyNew i j, .call i (.push x)] ++ bs)) = .ok (w, os ++ ([.unit, .unit] ++ os')) := by
  obtain ⟨w, er, r⟩ := Rel.empty.run h
  rw [run_append _ _ _ _ _ er]
  obtain ⟨o, o', s, c, ho, hl, hR, hc, hm, hact, ho', hj', hc', hps, hno, hlo, hrel⟩ := copy_state r hi hj
  have hij : j ≠ i := fun x => by rw [x, hi] at hj; exact nomatch hj
  obtain ⟨h0, ha, -⟩ := r.live j ps al t hj
  generalize copyConstruct w i o = w1 at *
  obtain ⟨p, hp⟩ := hrel.alive j o hj' c hm
  -- the page designated by both iterators
  have hs : s.base = o.nodes.map (fun n => (w1.heap n).getD []) ∧ s.cur = o.nodes.idxOf c := by
    have h1 := hlo
    unfold load at h1
    rw [hc] at h1
    dsimp only at h1
    rw [if_pos hm] at h1
    obtain rfl := Option.some.inj h1
    exact ⟨rfl, rfl⟩
  have hlt := List.idxOf_lt_length_of_mem hm
  have hpage : s.base[s.cur]? = some p := by
    rw [hs.1, hs.2, List.getElem?_map, List.getElem?_eq_getElem hlt, List.getElem_idxOf hlt]
    simp [hp]
  obtain ⟨pre, cp, k, hmk, g, hit, hbk⟩ := hR
  have hpcp : p = cp := by
    rw [hmk] at hpage
    have h2 := hpage
    simp only [PagedStack.mkS_base, PagedStack.mkS_cur, List.getElem?_append_right (Nat.le_refl _), Nat.sub_self, List.getElem?_cons_zero] at h2
    exact (Option.some.inj h2).symm
  have hcp : cp.length ≠ ps := by
    have h3 : StackSpec.onTopPage ps t.items.length = cp.length := by
      rw [hit, List.length_reverse, g.len]; exact g.topPage h0
    omega
  -- the new state
  let w2 : World α := { w1 with heap := fun n => if n = c then some (p ++ [x]) else w1.heap n }
  have hcall : call w1 i (.push x) = .ok (w2, .unit) := by
    simp only [call, ho', hno, hc', hp, callForeign]
    rw [if_neg (by rw [hps, hpcp]; exact hcp)]
  obtain ⟨s', epush, hR'⟩ := PagedStack.R_push h0 ha ⟨pre, cp, k, hmk, g, hit, hbk⟩ x
  have hs' : s' = { s with base := s.base.set s.cur (p ++ [x]) } := by
    rw [hmk, PagedStack.push_room x hcp] at epush
    rw [← Except.ok.inj epush, hmk, hpcp]
    simp [mkS]
  have hset : o.nodes.map (fun n => (w2.heap n).getD []) = s.base.set s.cur (p ++ [x]) := by
    rw [hs.1, hs.2]
    apply List.ext_getElem
    · simp
    · intro m h1 h2
      simp only [List.length_map] at h1
      rw [List.getElem_map, List.getElem_set, List.getElem_map]
      have nd := hrel.nodup j o hj'
      show (if o.nodes[m] = c then _ else _ : Option (List α)).getD [] = _
      by_cases hmc : o.nodes[m] = c
      · have : o.nodes.idxOf c = m := by rw [← hmc]; exact idxOf_getElem nd m h1
        rw [if_pos hmc, if_pos this]; rfl
      · rw [if_neg hmc, if_neg]
        intro e1
        apply hmc
        subst e1
        exact List.getElem_idxOf hlt
  have hl2 : load w2 o = some s' := by
    have h1 := hlo
    unfold load at h1 ⊢
    rw [hc] at h1 ⊢
    dsimp only at h1 ⊢
    rw [if_pos hm] at h1 ⊢
    rw [hset, hs']
    rw [← Option.some.inj h1]
  have hr2 : Rel w2 ((e.set i (some .spent)).set j (some (.live ps al (StackSpec.push ps al t x)))) := by
    refine hrel.update j _ (fun _ _ => rfl) (Nat.le_refl _) ?_ ?_ ?_ ?_ ?_
    · intro o2 ho2
      rw [show w2.objs j = some o from hj'] at ho2
      obtain rfl := Option.some.inj ho2
      exact ⟨hrel.nodup j _ hj', fun n hn => ⟨hrel.lt j _ hj' n hn, Or.inr ⟨_, hj', hn⟩⟩⟩
    · intro n hn hno
      show (if n = c then _ else _) = _
      rw [if_neg]
      intro e1
      exact hno o hj' (e1 ▸ hm)
    · intro o2 ho2 n hn
      rw [show w2.objs j = some o from hj'] at ho2
      obtain rfl := Option.some.inj ho2
      show ∃ q, (if n = c then _ else _) = some q
      split
      · exact ⟨_, rfl⟩
      · exact hrel.alive j _ hj' n hn
    · rw [show w2.objs j = some o from hj']; simp
    · intro _ _ _ hv
      simp only [Option.some.injEq, Val.live.injEq] at hv
      obtain ⟨rfl, rfl, rfl⟩ := hv
      exact ⟨h0, ha, o, s', hj', hl2, hR'⟩
  obtain ⟨w3, er3, -⟩ := hr2.run hb
  refine ⟨w3, ?_⟩
  simp only [List.cons_append, List.nil_append, run]
  rw [hact]; dsimp only
  rw [show act w1 (.call i (.push x)) = .ok (w2, .unit) from hcall]; dsimp only
  rw [er3]; rfl

/-- C119, the part that holds: in every program in which a copy is only destroyed, assigned to or
copied over, every call on the other stacks, the sources of the copies included, returns what
stacks of their own return. -/
theorem C119_source_partial (as : List (Act α)) (e : Env α) (os : List (Out α))
    (h : StackValue.run false none' as = some (e, os)) : ∃ w, run empty as = .ok (w, os) := by
  obtain ⟨w, er, -⟩ := Rel.empty.run h
  exact ⟨w, er⟩

/-- non-vacuity: the source of a copy that is dropped again, pushed to before and after -/
example : ∃ e, StackValue.run false none'
    [.new 0 2 1, .call 0 (.pushMany 1 [2, 3]), .copyNew 1 0, .call 0 (.push 4), .destroy 1, .call 0 (.popMany 4)]
    = some (e, [.unit, .unit, .unit, .unit, .unit, .vals [4, 3, 2, (1 : Nat)]]) := ⟨_, rfl⟩

/-- non-vacuity of C119_copy_push: one element on a page of four -/
example : ∃ e t, StackValue.run false none' [.new 0 4 1, .call 0 (.push (1 : Nat))] = some (e, [.unit, .unit]) ∧
    e 1 = none ∧ e 0 = some (.live 4 1 t) ∧ StackSpec.onTopPage 4 t.items.length ≠ 4 :=
  ⟨_, _, rfl, rfl, rfl, by decide⟩

/-! ### C120 -/

/-- C120: in every program that declares, moves, swaps and destroys stacks in any order and calls
only stacks that were not moved from since they last received a value, every call returns what it
would return on a stack variable with a value of its own: a moved stack keeps its elements, and
no stack is affected by what happens to another one. -/
theorem C120_move_swap (as : List (Act α)) (e : Env α) (os : List (Out α))
    (h : StackValue.run false none' as = some (e, os)) :
    ∃ w, run empty as = .ok (w, os) ∧
      ∀ (bs : List (Act α)) e' os', StackValue.run false e bs = some (e', os') →
        ∃ w', run w bs = .ok (w', os') := by
  obtain ⟨w, er, r⟩ := Rel.empty.run h
  refine ⟨w, er, fun bs e' os' hb => ?_⟩
  obtain ⟨w', er', -⟩ := r.run hb
  exact ⟨w', er'⟩

/-- non-vacuity: stacks of different page sizes are swapped, moved, assigned and used on -/
example : ∃ e, StackValue.run false none'
    [.new 0 2 1, .new 1 3 2, .call 0 (.pushMany 1 [2, 3]), .call 1 (.push 9), .swap 0 1,
     .call 0 .top, .call 1 (.push 4), .moveNew 2 1, .moveTo 1 2, .call 1 (.popMany 4), .swap 1 1,
     .call 1 .size, .moveTo 0 1, .call 0 .empty]
    = some (e, [.unit, .unit, .unit, .unit, .unit, .val 9, .unit, .unit, .unit,
        .vals [4, 3, 2, (1 : Nat)], .unit, .nat 0, .unit, .bool true]) := ⟨_, rfl⟩

/-- C120, moved-from stacks: whatever the history, any call but `shrink_to_fit` on a stack that
was just moved from does not work on a page of its own. -/
theorem C120_moved_from (as : List (Act α)) (e : Env α) (os : List (Out α))
    (h : StackValue.run false none' as = some (e, os)) (i j ps al : Nat) (t : StackSpec.St α)
    (hi : e i = none) (hj : e j = some (.live ps al t)) (op : Op α)
    (hop : op = .size ∨ op = .empty ∨ op = .stats) :
    run empty (as ++ [.moveNew i j, .call j op]) = .error (.ub .foreignIter) := by
  obtain ⟨w, er, r⟩ := Rel.empty.run h
  rw [run_append _ _ _ _ _ er]
  obtain ⟨h0, ha, o, s, ho, hl, hR⟩ := r.live j ps al t hj
  obtain ⟨-, -, -, -, -, c, hc, hm⟩ := load_fields hl
  obtain ⟨p, hp⟩ := r.alive j o ho c hm
  have h1 : ((w.put i (some o)).put j (some o.gone)).objs j = some o.gone := by simp [World.put]
  have h2 : load ((w.put i (some o)).put j (some o.gone)) o.gone = none := by
    unfold load; simp [Obj.gone, hc]
  have h3 : o.gone.cur = some c := hc
  have h4 : ((w.put i (some o)).put j (some o.gone)).heap c = some p := hp
  have hact : act w (.moveNew i j) = .ok ((w.put i (some o)).put j (some o.gone), .unit) := by
    simp only [act, ho]
  generalize (w.put i (some o)).put j (some o.gone) = w1 at *
  have hcall : act w1 (.call j op) = .error (.ub .foreignIter) := by
    rcases hop with rfl | rfl | rfl <;> simp only [act, call, h1, h2, h3, h4, callForeign]
  simp only [run]
  rw [hact]; dsimp only
  rw [hcall]; rfl

/-- The iterators of a moved-from stack end their lives one after the other. -/
theorem drops_moved_from (w : World α) (j c n : Nat) (o : Obj) (ho : w.objs j = some o) (hc : o.cur = some c) (hn : o.nodes = [])
    (hs : o.syncCount = n) (hq : o.shrinkReq = false) (bs : List (Act α)) (e : Fault)
    (hbs : ∀ w' o', w'.objs j = some o' → o'.cur = some c → o'.nodes = [] → o'.syncCount = 0 → o'.shrinkReq = false → run w' bs = .error e) :
    run w (List.replicate n (.call j .syncDrop) ++ bs) = .error e := by
  induction n generalizing w o with
  | zero => exact hbs w o ho hc hn (by simpa using hs) hq
  | succ n ih =>
    have hl : load w o = none := by unfold load; rw [hc]; simp [hn]
    have hact : act w (.call j .syncDrop) = .ok (w.put j (some { o with syncCount := o.syncCount - 1 }), .unit) := by
      simp only [act, call, ho, hl, hc, hq]
      rw [if_neg (by simp)]
    rw [List.replicate_succ, List.cons_append]
    simp only [run]
    rw [hact]; dsimp only
    rw [ih _ { o with syncCount := o.syncCount - 1 } (by simp [World.put]) hc hn (by simp only [hs]; omega) hq]

/-- C120, moved-from stacks and `shrink_to_fit`: once the sync iterators that were alive on the
stack when it was moved are gone, `shrink_to_fit` on the moved-from stack is undefined as well. -/
theorem C120_moved_from_shrink (as : List (Act α)) (e : Env α) (os : List (Out α))
    (h : StackValue.run false none' as = some (e, os)) (i j ps al : Nat) (t : StackSpec.St α)
    (hi : e i = none) (hj : e j = some (.live ps al t)) (hq : t.pending = false) :
    run empty (as ++ .moveNew i j :: (List.replicate t.iters (.call j .syncDrop) ++ [.call j .shrink])) = .error (.ub .foreignIter) := by
  obtain ⟨w, er, r⟩ := Rel.empty.run h
  rw [run_append _ _ _ _ _ er]
  obtain ⟨h0, ha, o, s, ho, hl, hR⟩ := r.live j ps al t hj
  obtain ⟨-, -, -, l4, l5, c, hc, hm⟩ := load_fields hl
  have h1 : ((w.put i (some o)).put j (some o.gone)).objs j = some o.gone := by simp [World.put]
  have hact : act w (.moveNew i j) = .ok ((w.put i (some o)).put j (some o.gone), .unit) := by
    simp only [act, ho]
  obtain ⟨pre, cp, k, rfl, -, -, -⟩ := hR
  have hsc : o.gone.syncCount = t.iters := by rw [← show o.syncCount = o.gone.syncCount from rfl, ← l4]; rfl
  have hsr : o.gone.shrinkReq = false := by rw [← show o.shrinkReq = o.gone.shrinkReq from rfl, ← l5, ← hq]; rfl
  have key := drops_moved_from _ j c t.iters o.gone h1 hc rfl hsc hsr [.call j .shrink] (.ub .foreignIter) (by
    intro w' o' a b cc d ee
    have hl : load w' o' = none := by unfold load; rw [b]; simp [cc]
    simp only [run, act, call, a, hl, b, d]
    rfl)
  simp only [run]
  rw [hact]; dsimp only
  rw [key]; rfl

/-- non-vacuity: two sync iterators are alive when the stack is moved -/
example : ∃ e t, StackValue.run false none' [.new 0 2 1, .call 0 (.push (1 : Nat)), .call 0 .syncNew, .call 0 .syncNew]
    = some (e, [.unit, .unit, .unit, .unit]) ∧ e 1 = none ∧ e 0 = some (.live 2 1 t) ∧ t.iters = 2 ∧ t.pending = false :=
  ⟨_, _, rfl, rfl, rfl, rfl, rfl⟩

/-! ### C121 -/

/-- C121 is false: the number of live sync iterators is copied by a move, the iterators are not.
After `it = a.sync_begin(); b = std::move(a);` and the destruction of `it`, `b.shrink_to_fit()`
frees nothing although no sync iterator is alive: four pages stay for an empty stack. -/
theorem C121_shrink_after_move_refuted :
    (run empty [.new 0 2 4, .call 0 .syncNew, .moveNew 1 0, .call 0 .syncDrop, .call 1 .shrink,
      .call 1 .stats]).map Prod.snd
    = (.ok [.unit, .unit, .unit, .unit, .unit, .stats ⟨4, 2, 1, 0⟩] : Res (List (Out Nat))) := rfl

/-- C121, the part that holds: when no sync iterator was alive on the stack that was moved (nor on
any stack it came from), `shrink_to_fit` leaves exactly the pages in use. -/
theorem C121_shrink_after_move_partial (as : List (Act α)) (e : Env α) (os : List (Out α))
    (h : StackValue.run false none' as = some (e, os)) (i j ps al : Nat) (t : StackSpec.St α)
    (hi : e i = none) (hj : e j = some (.live ps al t)) (hit : t.iters = 0) :
    ∃ w, run empty (as ++ [.moveNew i j, .call i .shrink, .call i .stats])
      = .ok (w, os ++ [.unit, .unit, .stats {
          blocks := max 1 ((t.items.length + ps - 1) / ps)
          depth := ps
          curBlock := max 1 ((t.items.length + ps - 1) / ps)
          curData := t.items.length - (max 1 ((t.items.length + ps - 1) / ps) - 1) * ps }]) := by
  obtain ⟨w, er, r⟩ := Rel.empty.run h
  rw [run_append _ _ _ _ _ er]
  have hij : i ≠ j := fun x => by rw [x, hj] at hi; exact nomatch hi
  have hrun : ∃ e', StackValue.run false e [.moveNew i j, .call i .shrink, .call i .stats]
      = some (e', [.unit, .unit, .stats {
          blocks := max 1 ((t.items.length + ps - 1) / ps)
          depth := ps
          curBlock := max 1 ((t.items.length + ps - 1) / ps)
          curData := t.items.length - (max 1 ((t.items.length + ps - 1) / ps) - 1) * ps }]) := by
    simp only [StackValue.run, StackValue.act, hi, hj, Env.set, if_true, if_neg hij, StackSpec.step, hit,
      Nat.lt_irrefl, if_false]
    exact ⟨_, rfl⟩
  obtain ⟨e', he'⟩ := hrun
  obtain ⟨w', er', -⟩ := r.run he'
  exact ⟨w', by rw [er']; rfl⟩

/-- The iterators of a moved-from stack end; every other stack stays as it is. -/
theorem drops_keep (j c : Nat) (n : Nat) (w : World α) (e : Env α) (r : Rel w e) (hsp : e j = some .spent) (o : Obj) (ho : w.objs j = some o)
    (hc : o.cur = some c) (hn : o.nodes = []) (hs : o.syncCount = n) (hq : o.shrinkReq = false) :
    ∃ w', run w (List.replicate n (.call j .syncDrop)) = .ok (w', List.replicate n .unit) ∧ Rel w' e := by
  induction n generalizing w o with
  | zero => exact ⟨w, rfl, r⟩
  | succ n ih =>
    have hl : load w o = none := by unfold load; rw [hc]; simp [hn]
    have hact : act w (.call j .syncDrop) = .ok (w.put j (some { o with syncCount := o.syncCount - 1 }), .unit) := by
      simp only [act, call, ho, hl, hc, hq]
      rw [if_neg (by simp)]
    have r' : Rel (w.put j (some { o with syncCount := o.syncCount - 1 })) e := by
      have := r.drop ho (some { o with syncCount := o.syncCount - 1 }) (fun x hx => by cases hx; exact hn)
      have h1 : w.free o.nodes = w := by rw [hn]; simp [World.free]
      have h2 : e.set j (Option.map (fun _ => Val.spent) (some { o with syncCount := o.syncCount - 1 })) = e := by
        funext k; simp only [Env.set]; split
        · rename_i hk; rw [hk, hsp]; rfl
        · rfl
      rw [h1, h2] at this
      exact this
    obtain ⟨w', e1, r1⟩ := ih _ r' { o with syncCount := o.syncCount - 1 } (by simp [World.put]) hc hn (by simp only [hs]; omega) hq
    refine ⟨w', ?_, r1⟩
    rw [List.replicate_succ]
    simp only [run]
    rw [hact]; dsimp only
    rw [e1]; rfl

/-- With a request to shrink pending, the end of the last iterator is undefined. -/
theorem drops_pending (j c : Nat) (n : Nat) (w : World α) (o : Obj) (ho : w.objs j = some o) (hc : o.cur = some c) (hn : o.nodes = [])
    (hs : o.syncCount = n + 1) (hq : o.shrinkReq = true) (bs : List (Act α)) :
    run w (List.replicate (n + 1) (.call j .syncDrop) ++ bs) = .error (.ub .foreignIter) := by
  induction n generalizing w o with
  | zero =>
    have hl : load w o = none := by unfold load; rw [hc]; simp [hn]
    have hact : act w (.call j .syncDrop) = .error (.ub .foreignIter) := by
      simp only [act, call, ho, hl, hc, hq]
      rw [if_pos ⟨by rw [hs]; rfl, trivial⟩]
    simp [run, hact]
  | succ n ih =>
    have hl : load w o = none := by unfold load; rw [hc]; simp [hn]
    have hact : act w (.call j .syncDrop) = .ok (w.put j (some { o with syncCount := o.syncCount - 1 }), .unit) := by
      simp only [act, call, ho, hl, hc, hq]
      rw [if_neg (by intro h; have := h.1; omega)]
    rw [List.replicate_succ, List.cons_append]
    simp only [run]
    rw [hact]; dsimp only
    rw [ih _ { o with syncCount := o.syncCount - 1 } (by simp [World.put]) hc hn (by simp only [hs]; omega) hq]

/-- C121, exactly: a stack is moved, the sync iterators that were alive on it end, `shrink_to_fit` is called on the new stack and its pages are
counted. If there were iterators and the stack had been asked to shrink before, the end of the last one is undefined; if there were iterators, all
pages the stack had are still there; otherwise exactly those in use. -/
theorem C121_exact_partial (as : List (Act α)) (e : Env α) (os : List (Out α))
    (h : StackValue.run false none' as = some (e, os)) (i j ps al : Nat) (t : StackSpec.St α)
    (hi : e i = none) (hj : e j = some (.live ps al t)) :
    (run empty (as ++ .moveNew i j :: (List.replicate t.iters (.call j .syncDrop) ++ [.call i .shrink, .call i .stats]))).map Prod.snd =
      if 0 < t.iters ∧ t.pending = true then .error (.ub .foreignIter)
      else .ok (os ++ .unit :: (List.replicate t.iters .unit ++ [.unit, .stats {
          blocks := if 0 < t.iters then t.blocks else max 1 ((t.items.length + ps - 1) / ps)
          depth := ps
          curBlock := max 1 ((t.items.length + ps - 1) / ps)
          curData := t.items.length - (max 1 ((t.items.length + ps - 1) / ps) - 1) * ps }])) := by
  obtain ⟨w, er, r⟩ := Rel.empty.run h
  rw [run_append _ _ _ _ _ er]
  have hij : i ≠ j := fun x => by rw [x, hj] at hi; exact nomatch hi
  obtain ⟨h0, ha, o, s, ho, hl, hR⟩ := r.live j ps al t hj
  obtain ⟨-, -, -, l4, l5, c, hc, hm⟩ := load_fields hl
  have h1 : ((w.put i (some o)).put j (some o.gone)).objs j = some o.gone := by simp [World.put]
  have hact : act w (.moveNew i j) = .ok ((w.put i (some o)).put j (some o.gone), .unit) := by
    simp only [act, ho]
  have hspec : StackValue.act false e (.moveNew i j) = some ((e.set i (some (.live ps al t))).set j (some .spent), .unit) := by
    simp only [StackValue.act, hi, hj]
  obtain ⟨w1, a1, r1⟩ := r.act hspec
  rw [hact] at a1
  cases a1
  obtain ⟨pre, cp, k, rfl, -, -, -⟩ := hR
  have hsc : o.gone.syncCount = t.iters := by rw [← show o.syncCount = o.gone.syncCount from rfl, ← l4]; rfl
  have hsr : o.gone.shrinkReq = t.pending := by rw [← show o.shrinkReq = o.gone.shrinkReq from rfl, ← l5]; rfl
  simp only [run]
  rw [hact]; dsimp only
  by_cases hp : 0 < t.iters ∧ t.pending = true
  · rw [if_pos hp]
    obtain ⟨n, hn⟩ : ∃ n, t.iters = n + 1 := ⟨t.iters - 1, by omega⟩
    rw [hn, drops_pending j c n _ o.gone h1 hc rfl (by rw [hsc, hn]; rfl) (hsr.trans hp.2)]
    rfl
  · rw [if_neg hp]
    have hrest : ∀ w1 : World α, Rel w1 ((e.set i (some (.live ps al t))).set j (some .spent)) →
        ∃ w2, run w1 [.call i .shrink, .call i .stats] = .ok (w2, [.unit, .stats {
          blocks := if 0 < t.iters then t.blocks else max 1 ((t.items.length + ps - 1) / ps)
          depth := ps
          curBlock := max 1 ((t.items.length + ps - 1) / ps)
          curData := t.items.length - (max 1 ((t.items.length + ps - 1) / ps) - 1) * ps }]) := by
      intro w1 r1
      have hrun : ∃ e', StackValue.run false ((e.set i (some (.live ps al t))).set j (some .spent)) [.call i .shrink, .call i .stats]
          = some (e', [.unit, .stats {
            blocks := if 0 < t.iters then t.blocks else max 1 ((t.items.length + ps - 1) / ps)
            depth := ps
            curBlock := max 1 ((t.items.length + ps - 1) / ps)
            curData := t.items.length - (max 1 ((t.items.length + ps - 1) / ps) - 1) * ps }]) := by
        by_cases hit : 0 < t.iters
        · simp only [StackValue.run, StackValue.act, Env.set, if_true, if_neg hij, StackSpec.step, hit]
          exact ⟨_, rfl⟩
        · simp only [StackValue.run, StackValue.act, Env.set, if_true, if_neg hij, StackSpec.step, hit, if_false]
          exact ⟨_, rfl⟩
      obtain ⟨e', he'⟩ := hrun
      obtain ⟨w2, er2, -⟩ := r1.run he'
      exact ⟨w2, er2⟩
    by_cases hit : 0 < t.iters
    · have hpf : t.pending = false := by
        cases hb : t.pending with
        | false => rfl
        | true => exact absurd ⟨hit, hb⟩ hp
      obtain ⟨w2, e2, r2⟩ := drops_keep j c t.iters _ _ r1 (by simp [Env.set]) o.gone h1 hc rfl hsc (hsr.trans hpf)
      obtain ⟨w3, e3⟩ := hrest w2 r2
      rw [run_append _ _ _ _ _ e2, e3]
      rfl
    · have h00 : t.iters = 0 := by omega
      obtain ⟨w3, e3⟩ := hrest _ r1
      rw [h00] at e3 ⊢
      rw [List.replicate_zero, List.nil_append, e3]
      rfl

/-- non-vacuity of C121_exact_partial: two iterators alive, asked to shrink and not asked -/
example : (∃ e t, StackValue.run false none' [.new 0 2 4, .call 0 (.push (1 : Nat)), .call 0 .syncNew, .call 0 .syncNew]
      = some (e, [.unit, .unit, .unit, .unit]) ∧ e 1 = none ∧ e 0 = some (.live 2 4 t) ∧ t.iters = 2 ∧ t.pending = false ∧ t.blocks = 4) ∧
    ∃ e t, StackValue.run false none' [.new 0 2 4, .call 0 (.push (1 : Nat)), .call 0 .syncNew, .call 0 .shrink]
      = some (e, [.unit, .unit, .unit, .unit]) ∧ e 1 = none ∧ e 0 = some (.live 2 4 t) ∧ t.iters = 1 ∧ t.pending = true :=
  ⟨⟨_, _, rfl, rfl, rfl, rfl, rfl, rfl⟩, ⟨_, _, rfl, rfl, rfl, rfl, rfl⟩⟩

/-- non-vacuity: five elements on pages of two, eight pages preallocated -/
example : ∃ e t, StackValue.run false none' [.new 0 2 8, .call 0 (.pushMany 1 [2, 3, 4, (5 : Nat)])]
    = some (e, [.unit, .unit]) ∧ e 1 = none ∧ e 0 = some (.live 2 8 t) ∧ t.iters = 0 ∧ t.items.length = 5 :=
  ⟨_, _, rfl, rfl, rfl, rfl, rfl⟩

end Falcon.PSCopy
