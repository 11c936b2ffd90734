import Verif.Props.PSCopy
/-
C119, C120 continued: what each call on a copy does as long as it stays on the topmost page of the
source, and `shrink_to_fit` on a moved-from stack while sync iterators are alive.
-/
namespace Falcon.PSCopy
open Falcon.PagedStack (Op Out Stats PS R mkS cont Good)
open Falcon.StackValue
variable {α : Type}

/-- The call leaves the topmost page of a stack of `n` elements in use and does not need another
one: a push finds room, a pop leaves an element on the page. -/
def OnPage (ps n : Nat) : Op α → Prop
  | .push _ | .pushEmplace _ => StackSpec.onTopPage ps n ≠ ps
  | .pop                     => 1 < StackSpec.onTopPage ps n
  | .top | .setTop _         => True
  | _                        => False

/-- The page a local call leaves, seen from the source and from the copy. -/
theorem local_page {ps al : Nat} {pre : List (List α)} {cp : List α} {k : Nat} {t t' : StackSpec.St α} {op : Op α} {out : Out α}
    (h0 : 0 < ps) (g : Good ps pre cp) (hit : t.items = (cont pre cp).reverse) (hop : OnPage ps t.items.length op)
    (hs : StackSpec.step ps al t op = some (t', out)) :
    ∃ p', PagedStack.step (mkS ps al pre cp (List.replicate k []) t.iters t.pending) op
        = .ok (mkS ps al pre p' (List.replicate k []) t.iters t.pending, out) ∧
      ∀ (w : World α) (o : Obj) (c : Nat), o.pageSize = ps → w.heap c = some cp →
        callForeign w o c cp op = .ok ({ w with heap := fun n => if n = c then some p' else w.heap n }, out) := by
  have hlen : StackSpec.onTopPage ps t.items.length = cp.length := by
    rw [hit, List.length_reverse, g.len]; exact g.topPage h0
  have hne : t.items ≠ [] → cp ≠ [] := by
    intro h1 h2
    subst h2
    apply h1
    rw [hit]
    cases pre with
    | nil => simp [cont]
    | cons q qs => exact absurd (g.ne rfl) (by simp)
  cases op with
  | push x =>
    have hc : cp.length ≠ ps := by rw [← hlen]; exact hop
    simp only [StackSpec.step, Option.some.injEq, Prod.mk.injEq] at hs
    obtain ⟨-, rfl⟩ := hs
    refine ⟨cp ++ [x], ?_, fun w o c ho hw => ?_⟩
    · simp only [PagedStack.step]
      rw [PagedStack.push_room x hc]; rfl
    · simp only [callForeign]
      rw [if_neg (by rw [ho]; exact hc)]
  | pushEmplace x =>
    have hc : cp.length ≠ ps := by rw [← hlen]; exact hop
    simp only [StackSpec.step, Option.some.injEq, Prod.mk.injEq] at hs
    obtain ⟨-, rfl⟩ := hs
    refine ⟨cp ++ [x], ?_, fun w o c ho hw => ?_⟩
    · simp only [PagedStack.step]
      rw [show PagedStack.pushEmplace (mkS ps al pre cp (List.replicate k []) t.iters t.pending) x = _ from PagedStack.push_room x hc]; rfl
    · simp only [callForeign]
      rw [if_neg (by rw [ho]; exact hc)]
  | pop =>
    have hc : 1 < cp.length := by rw [← hlen]; exact hop
    have hout : out = .unit := by
      simp only [StackSpec.step] at hs
      split at hs
      · exact nomatch hs
      · simp only [Option.some.injEq, Prod.mk.injEq] at hs; exact hs.2.symm
    subst hout
    have hcne : cp ≠ [] := by rintro rfl; simp at hc
    have hd : cp.dropLast ≠ [] := by
      intro h
      have := congrArg List.length h
      simp only [List.length_dropLast, List.length_nil] at this
      omega
    refine ⟨cp.dropLast, ?_, fun w o c ho hw => ?_⟩
    · have e := PagedStack.popOne_stay (ps := ps) (al := al) (pre := pre) (cp := cp.dropLast) (rest := List.replicate k [])
        (sc := t.iters) (sr := t.pending) (cp.getLast hcne) (Or.inl hd)
      rw [List.dropLast_concat_getLast hcne] at e
      simp only [PagedStack.step]
      rw [e]; rfl
    · simp only [callForeign]
      rw [if_neg hcne, if_neg hd]
  | top =>
    have hi : t.items ≠ [] := by
      intro h; simp [StackSpec.step, h] at hs
    have hcne := hne hi
    have hx : out = .val (cp.getLast hcne) := by
      have : t.items = cp.getLast hcne :: (cont pre cp.dropLast).reverse := by
        rw [hit]
        conv => lhs; rw [← List.dropLast_concat_getLast hcne]
        simp [cont]
      simp only [StackSpec.step, this, Option.some.injEq, Prod.mk.injEq] at hs
      exact hs.2.symm
    subst hx
    refine ⟨cp, ?_, fun w o c ho hw => ?_⟩
    · simp only [PagedStack.step, PagedStack.top, PagedStack.mkS_cur, PagedStack.mkS_page, PagedStack.bind_ok,
        List.getLast?_eq_some_getLast hcne]
    · simp only [callForeign, List.getLast?_eq_some_getLast hcne]
      congr 2
      cases w with
      | mk heap next objs =>
        congr 1
        funext n
        split
        · rename_i h; rw [h]; exact hw
        · rfl
  | setTop x =>
    have hi : t.items ≠ [] := by
      intro h; simp [StackSpec.step, h] at hs
    have hcne := hne hi
    have hout : out = .unit := by
      simp only [StackSpec.step] at hs
      split at hs
      · exact nomatch hs
      · simp only [Option.some.injEq, Prod.mk.injEq] at hs; exact hs.2.symm
    subst hout
    refine ⟨cp.dropLast ++ [x], ?_, fun w o c ho hw => ?_⟩
    · simp only [PagedStack.step, PagedStack.setTop, PagedStack.mkS_cur, PagedStack.mkS_page, PagedStack.bind_ok]
      rw [if_neg hcne, PagedStack.mkS_setPage]; rfl
    · simp only [callForeign]
      rw [if_neg hcne]
  | _ => exact absurd hop id

/-- C119, where the calls on a copy go: as long as the call stays on the topmost page of the
source (a push finds room on it, a pop leaves an element on it), `push`, `push_emplace`, `pop`,
`top()` and `top(value)` on a fresh copy do and return what they would do and return on the
*source*, which from then on behaves as if they had been called there. -/
theorem C119_copy_call (as bs : List (Act α)) (e e' : Env α) (os os' : List (Out α))
    (h : StackValue.run false none' as = some (e, os)) (i j ps al : Nat) (t t' : StackSpec.St α) (op : Op α) (out : Out α)
    (hi : e i = none) (hj : e j = some (.live ps al t)) (hop : OnPage ps t.items.length op)
    (hs : StackSpec.step ps al t op = some (t', out))
    (hb : StackValue.run false ((e.set i (some .spent)).set j (some (.live ps al t'))) bs = some (e', os')) :
    ∃ w, run empty (as ++ ([.copyNew i j, .call i op] ++ bs)) = .ok (w, os ++ ([.unit, out] ++ os')) := by
  obtain ⟨w, er, r⟩ := Rel.empty.run h
  rw [run_append _ _ _ _ _ er]
  obtain ⟨o, o', s, c, ho, hl, hR, hc, hm, hact, ho', hj', hc', hps, hno, hlo, hrel⟩ := copy_state r hi hj
  obtain ⟨h0, ha, -⟩ := r.live j ps al t hj
  generalize copyConstruct w i o = w1 at *
  obtain ⟨p, hp⟩ := hrel.alive j o hj' c hm
  have hsb : s.base = o.nodes.map (fun n => (w1.heap n).getD []) ∧ s.cur = o.nodes.idxOf c := by
    have h1 := hlo
    unfold load at h1
    rw [hc] at h1
    dsimp only at h1
    rw [if_pos hm] at h1
    obtain rfl := Option.some.inj h1
    exact ⟨rfl, rfl⟩
  have hlt := List.idxOf_lt_length_of_mem hm
  have hpage : s.base[s.cur]? = some p := by
    rw [hsb.1, hsb.2, List.getElem?_map, List.getElem?_eq_getElem hlt, List.getElem_idxOf hlt]
    simp [hp]
  obtain ⟨s', estep, hR'⟩ := PagedStack.R_step h0 ha hR op hs
  obtain ⟨pre, cp, k, hmk, g, hit, hbk⟩ := hR
  have hpcp : p = cp := by
    rw [hmk] at hpage
    have h2 := hpage
    simp only [PagedStack.mkS_base, PagedStack.mkS_cur, List.getElem?_append_right (Nat.le_refl _), Nat.sub_self, List.getElem?_cons_zero] at h2
    exact (Option.some.inj h2).symm
  obtain ⟨p', e1, e2⟩ := local_page (k := k) h0 g hit hop hs
  let w2 : World α := { w1 with heap := fun n => if n = c then some p' else w1.heap n }
  have hcall : call w1 i op = .ok (w2, out) := by
    have e3 := e2 w1 o' c hps (by rw [hp, hpcp])
    cases op with
    | push x => simp only [call, ho', hno, hc', hp, hpcp]; exact e3
    | pushEmplace x => simp only [call, ho', hno, hc', hp, hpcp]; exact e3
    | pop => simp only [call, ho', hno, hc', hp, hpcp]; exact e3
    | top => simp only [call, ho', hno, hc', hp, hpcp]; exact e3
    | setTop x => simp only [call, ho', hno, hc', hp, hpcp]; exact e3
    | _ => exact absurd hop id
  have hs' : s' = { s with base := s.base.set s.cur p' } := by
    rw [hmk, e1] at estep
    rw [← (Prod.mk.inj (Except.ok.inj estep)).1, hmk]
    simp [mkS]
  have hset : o.nodes.map (fun n => (w2.heap n).getD []) = s.base.set s.cur p' := by
    rw [hsb.1, hsb.2]
    apply List.ext_getElem
    · simp
    · intro m h1 h2
      simp only [List.length_map] at h1
      rw [List.getElem_map, List.getElem_set, List.getElem_map]
      have nd := hrel.nodup j o hj'
      show (if o.nodes[m] = c then _ else _ : Option (List α)).getD [] = _
      by_cases hmc : o.nodes[m] = c
      · have : o.nodes.idxOf c = m := by rw [← hmc]; exact idxOf_getElem nd m h1
        rw [if_pos hmc, if_pos this]; rfl
      · rw [if_neg hmc, if_neg]
        intro e1
        apply hmc
        subst e1
        exact List.getElem_idxOf hlt
  have hl2 : load w2 o = some s' := by
    have h1 := hlo
    unfold load at h1 ⊢
    rw [hc] at h1 ⊢
    dsimp only at h1 ⊢
    rw [if_pos hm] at h1 ⊢
    rw [hset, hs']
    rw [← Option.some.inj h1]
  have hr2 : Rel w2 ((e.set i (some .spent)).set j (some (.live ps al t'))) := by
    refine hrel.update j _ (fun _ _ => rfl) (Nat.le_refl _) ?_ ?_ ?_ ?_ ?_
    · intro o2 ho2
      rw [show w2.objs j = some o from hj'] at ho2
      obtain rfl := Option.some.inj ho2
      exact ⟨hrel.nodup j _ hj', fun n hn => ⟨hrel.lt j _ hj' n hn, Or.inr ⟨_, hj', hn⟩⟩⟩
    · intro n hn hno
      show (if n = c then _ else _) = _
      rw [if_neg]
      intro e1
      exact hno o hj' (e1 ▸ hm)
    · intro o2 ho2 n hn
      rw [show w2.objs j = some o from hj'] at ho2
      obtain rfl := Option.some.inj ho2
      show ∃ q, (if n = c then _ else _) = some q
      split
      · exact ⟨_, rfl⟩
      · exact hrel.alive j _ hj' n hn
    · rw [show w2.objs j = some o from hj']; simp
    · intro _ _ _ hv
      simp only [Option.some.injEq, Val.live.injEq] at hv
      obtain ⟨rfl, rfl, rfl⟩ := hv
      exact ⟨h0, ha, o, s', hj', hl2, hR'⟩
  obtain ⟨w3, er3, -⟩ := hr2.run hb
  refine ⟨w3, ?_⟩
  simp only [List.cons_append, List.nil_append, run]
  rw [hact]; dsimp only
  rw [show act w1 (.call i op) = .ok (w2, out) from hcall]; dsimp only
  rw [er3]; rfl

/-- C119, the other calls of this kind: a push on a copy when the topmost page of the source is
full, or the pop of the only element of that page, compares list iterators of two lists. -/
theorem C119_copy_leaves_page (as : List (Act α)) (e : Env α) (os : List (Out α))
    (h : StackValue.run false none' as = some (e, os)) (i j ps al : Nat) (t : StackSpec.St α) (op : Op α)
    (hi : e i = none) (hj : e j = some (.live ps al t)) (hne : t.items ≠ [])
    (hop : (op = .pop ∨ ∃ x, op = .push x ∨ op = .pushEmplace x) ∧ ¬ OnPage ps t.items.length op) :
    run empty (as ++ [.copyNew i j, .call i op]) = .error (.ub .foreignIter) := by
  obtain ⟨w, er, r⟩ := Rel.empty.run h
  rw [run_append _ _ _ _ _ er]
  obtain ⟨o, o', s, c, ho, hl, hR, hc, hm, hact, ho', hj', hc', hps, hno, hlo, hrel⟩ := copy_state r hi hj
  obtain ⟨h0, ha, -⟩ := r.live j ps al t hj
  generalize copyConstruct w i o = w1 at *
  obtain ⟨p, hp⟩ := hrel.alive j o hj' c hm
  have hlt := List.idxOf_lt_length_of_mem hm
  have hpage : s.base[s.cur]? = some p := by
    have h1 := hlo
    unfold load at h1
    rw [hc] at h1
    dsimp only at h1
    rw [if_pos hm] at h1
    obtain rfl := Option.some.inj h1
    dsimp only
    rw [List.getElem?_map, List.getElem?_eq_getElem hlt, List.getElem_idxOf hlt]
    simp [hp]
  obtain ⟨pre, cp, k, hmk, g, hit, hbk⟩ := hR
  have hpcp : p = cp := by
    rw [hmk] at hpage
    have h2 := hpage
    simp only [PagedStack.mkS_base, PagedStack.mkS_cur, List.getElem?_append_right (Nat.le_refl _), Nat.sub_self, List.getElem?_cons_zero] at h2
    exact (Option.some.inj h2).symm
  have hlen : StackSpec.onTopPage ps t.items.length = cp.length := by
    rw [hit, List.length_reverse, g.len]; exact g.topPage h0
  have hcne : cp ≠ [] := by
    intro h2
    subst h2
    apply hne
    rw [hit]
    cases pre with
    | nil => simp [cont]
    | cons q qs => exact absurd (g.ne rfl) (by simp)
  have hcall : act w1 (.call i op) = .error (.ub .foreignIter) := by
    obtain ⟨h1, h2⟩ := hop
    rcases h1 with rfl | ⟨x, rfl | rfl⟩
    · have h3 : cp.length ≤ 1 := by
        rw [← hlen]; simpa [OnPage] using h2
      have h4 : cp.dropLast = [] := List.length_eq_zero_iff.1 (by simp; omega)
      simp only [act, call, ho', hno, hc', hp, callForeign, hpcp]
      rw [if_neg hcne, if_pos h4]
    · have h3 : cp.length = ps := by
        rw [← hlen]; simpa [OnPage] using h2
      simp only [act, call, ho', hno, hc', hp, callForeign, hpcp]
      rw [if_pos (by rw [hps]; exact h3)]
    · have h3 : cp.length = ps := by
        rw [← hlen]; simpa [OnPage] using h2
      simp only [act, call, ho', hno, hc', hp, callForeign, hpcp]
      rw [if_pos (by rw [hps]; exact h3)]
  simp only [run]
  rw [hact]; dsimp only
  rw [hcall]; rfl

/-- non-vacuity: three elements on pages of four; the pop on the copy takes the source's element,
and `top(value)` replaces it -/
example : ∃ e t t', StackValue.run false none' [.new 0 4 1, .call 0 (.pushMany 1 [2, (3 : Nat)])] = some (e, [.unit, .unit]) ∧
    e 1 = none ∧ e 0 = some (.live 4 1 t) ∧ OnPage 4 t.items.length (.pop : Op Nat) ∧
    StackSpec.step 4 1 t .pop = some (t', .unit) ∧ OnPage 4 t.items.length (.setTop 9 : Op Nat) ∧
    ¬ OnPage 4 t.items.length (.size : Op Nat) :=
  ⟨_, _, _, rfl, rfl, rfl, show 1 < 3 by decide, rfl, trivial, id⟩

/-- non-vacuity of C119_copy_leaves_page: a full page, and a page of one element -/
example : ∃ e t, StackValue.run false none' [.new 0 2 1, .call 0 (.pushMany 1 [(2 : Nat)])] = some (e, [.unit, .unit]) ∧
    e 1 = none ∧ e 0 = some (.live 2 1 t) ∧ t.items ≠ [] ∧ ¬ OnPage 2 t.items.length (.push 3 : Op Nat) ∧
    ¬ OnPage 2 (t.items.length + 1) (.pop : Op Nat) :=
  ⟨_, _, rfl, rfl, rfl, by decide, fun h => h rfl, fun h => absurd (show 1 < 1 from h) (Nat.lt_irrefl 1)⟩

/-- The iterators of a moved-from stack end their lives while a shrink is requested. -/
theorem drops_requested (w : World α) (j c n : Nat) (o : Obj) (ho : w.objs j = some o) (hc : o.cur = some c) (hn : o.nodes = [])
    (hs : o.syncCount = (n + 1 : Nat)) (hq : o.shrinkReq = true) :
    run w (List.replicate (n + 1) (.call j .syncDrop)) = .error (.ub .foreignIter) := by
  induction n generalizing w o with
  | zero =>
    have hl : load w o = none := by unfold load; rw [hc]; simp [hn]
    have hact : act w (.call j .syncDrop) = .error (.ub .foreignIter) := by
      simp only [act, call, ho, hl, hc, hq]
      rw [if_pos (by simp [hs])]
    simp only [List.replicate, run]
    rw [hact]
  | succ n ih =>
    have hl : load w o = none := by unfold load; rw [hc]; simp [hn]
    have hact : act w (.call j .syncDrop) = .ok (w.put j (some { o with syncCount := o.syncCount - 1 }), .unit) := by
      simp only [act, call, ho, hl, hc, hq]
      rw [if_neg (by rw [hs]; simp; omega)]
    rw [List.replicate_succ]
    simp only [run]
    rw [hact]; dsimp only
    rw [ih _ { o with syncCount := o.syncCount - 1 } (by simp [World.put]) hc hn (by simp only [hs]; omega) hq]

/-- C120, moved-from stacks and `shrink_to_fit` while iterators live: asked for while sync
iterators made before the move are alive, the shrink is only noted; it then happens, on the pages
that are not there any more, when the last of them ends its life. -/
theorem C120_moved_from_shrink_later (as : List (Act α)) (e : Env α) (os : List (Out α))
    (h : StackValue.run false none' as = some (e, os)) (i j ps al : Nat) (t : StackSpec.St α)
    (_hi : e i = none) (hj : e j = some (.live ps al t)) (hit : 0 < t.iters) :
    (∃ w, run empty (as ++ [.moveNew i j, .call j .shrink]) = .ok (w, os ++ [.unit, .unit])) ∧
    run empty (as ++ .moveNew i j :: .call j .shrink :: List.replicate t.iters (.call j .syncDrop))
      = .error (.ub .foreignIter) := by
  obtain ⟨w, er, r⟩ := Rel.empty.run h
  rw [run_append _ _ _ _ _ er, run_append _ _ _ _ _ er]
  obtain ⟨h0, ha, o, s, ho, hl, hR⟩ := r.live j ps al t hj
  obtain ⟨-, -, -, l4, l5, c, hc, hm⟩ := load_fields hl
  have h1 : ((w.put i (some o)).put j (some o.gone)).objs j = some o.gone := by simp [World.put]
  have hact : act w (.moveNew i j) = .ok ((w.put i (some o)).put j (some o.gone), .unit) := by
    simp only [act, ho]
  obtain ⟨pre, cp, k, rfl, -, -, -⟩ := hR
  have hsc : o.gone.syncCount = t.iters := by rw [← show o.syncCount = o.gone.syncCount from rfl, ← l4]; rfl
  generalize (w.put i (some o)).put j (some o.gone) = w1 at *
  have hlo : load w1 o.gone = none := by unfold load; rw [show o.gone.cur = some c from hc]; simp [Obj.gone]
  have hsh : act w1 (.call j .shrink) = .ok (w1.put j (some { o.gone with shrinkReq := true }), .unit) := by
    simp only [act, call, h1, hlo, show o.gone.cur = some c from hc]
    rw [if_pos (by rw [hsc]; omega)]
  obtain ⟨n, hn⟩ : ∃ n, t.iters = n + 1 := ⟨t.iters - 1, by omega⟩
  have key := drops_requested (w1.put j (some { o.gone with shrinkReq := true })) j c n { o.gone with shrinkReq := true }
    (by simp [World.put]) hc rfl (by rw [← hn]; exact hsc) rfl
  constructor
  · refine ⟨w1.put j (some { o.gone with shrinkReq := true }), ?_⟩
    simp only [run]
    rw [hact]; dsimp only
    rw [hsh]; rfl
  · rw [hn]
    simp only [run]
    rw [hact]; dsimp only
    rw [hsh]; dsimp only
    rw [key]; rfl

/-- non-vacuity: two sync iterators are alive when the stack is moved -/
example : ∃ e t, StackValue.run false none' [.new 0 2 1, .call 0 (.push (1 : Nat)), .call 0 .syncNew, .call 0 .syncNew]
    = some (e, [.unit, .unit, .unit, .unit]) ∧ e 1 = none ∧ e 0 = some (.live 2 1 t) ∧ 0 < t.iters :=
  ⟨_, _, rfl, rfl, rfl, by decide⟩

end Falcon.PSCopy
