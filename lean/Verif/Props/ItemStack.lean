import Verif.Proofs.ItemStack
/- C147: items on a PagedStack. -/
namespace Falcon.ItemStack
open Falcon.Item (Item Heap Val make makeNil destroy Fits flat_iff)
open Falcon.PagedStack

variable {cs : Bool} {ps al : Nat}

theorem flat_of_val {v : Val} (h : FlatVal v) (cs : Bool) (hp : Heap) : (make cs hp v).1.Flat ∧ (make cs hp v).2 = hp := by
  cases v <;> first | exact absurd h id | exact ⟨by constructor <;> simp [make], rfl⟩

theorem assignAll_owns {h : Heap} : ∀ (ks : List Nat) (vs : List Item) (l vars : List Item), Owns h (l ++ vars) → (∀ v ∈ vs, v.Flat ∧ Fits h.obj v) →
    (∀ k ∈ ks, ∀ i, vars[k]? = some i → i.Flat) → Owns h (l ++ assignAll vars ks vs)
  | [], _, l, vars, g, _, _ => by simpa [assignAll] using g
  | k :: ks, [], l, vars, g, _, _ => by simpa [assignAll] using g
  | k :: ks, v :: vs, l, vars, g, hv, hk => by
    simp only [assignAll]
    refine assignAll_owns ks vs l (vars.set k v) ?_ (fun w hw => hv w (List.mem_cons_of_mem _ hw)) ?_
    · by_cases hlt : k < vars.length
      · have e : vars[k]? = some vars[k] := List.getElem?_eq_getElem hlt
        have hf := hk k List.mem_cons_self _ e
        have g1 : Owns h (vars[k] :: (l ++ vars.eraseIdx k)) :=
          g.perm (((erase_perm e).append_left l).trans List.perm_middle)
        have g2 := (g1.dropFlat hf).addFlat (hv v List.mem_cons_self).1 (hv v List.mem_cons_self).2
        exact g2.perm (List.perm_middle.symm.trans ((set_perm hlt v).symm.append_left l))
      · rw [List.set_eq_of_length_le (by omega)]; exact g
    · intro k' hk' i hi
      by_cases e : k = k'
      · subst e
        rw [List.getElem?_set] at hi
        simp at hi
        obtain ⟨-, rfl⟩ := hi
        exact (hv v List.mem_cons_self).1
      · rw [List.getElem?_set_ne e] at hi
        exact hk k' (List.mem_cons_of_mem _ hk') i hi

theorem fits_mono_flat {o o' : Nat → Option Item.Obj} {i : Item} (h : Fits o i) (hf : i.Flat) : Fits o' i := h.mono (fun h' => absurd hf h')

theorem Ok.step (h0 : 0 < ps) (ha : 0 < al) {s : St} (g : Ok ps al s) (o : IOp) (hf : FlatOnly s o) (r : Res St) (hr : exec cs s o = some r) :
    ∃ s', r = .ok s' ∧ Ok ps al s' := by
  have hfit : ∀ x, x ∈ contents s.st → Fits s.heap.obj x := fun x hx =>
    g.owns.fits x (List.mem_append_left _ ((flat_perm g.inv).mem_iff.2 hx))
  cases o with
  | new v =>
    cases hr
    refine ⟨_, rfl, g.inv, ?_⟩
    refine (g.owns.make cs v).perm ?_
    rw [← List.append_assoc]
    exact (List.perm_append_singleton _ _).symm
  | newNil =>
    cases hr
    refine ⟨_, rfl, g.inv, ?_⟩
    refine (g.owns.addFlat (i := makeNil) (by constructor <;> simp [makeNil]) (by simp [Fits, makeNil])).perm ?_
    rw [← List.append_assoc]
    exact (List.perm_append_singleton _ _).symm
  | del k =>
    simp only [exec] at hr
    split at hr
    · cases hr
    · rename_i i hi
      obtain ⟨h', e, g'⟩ := (g.owns.perm (((erase_perm hi).append_left _).trans List.perm_middle)).destroy
      rw [e] at hr; cases hr
      exact ⟨_, rfl, g.inv, g'⟩
  | use k =>
    simp only [exec] at hr
    split at hr
    · cases hr
    · rename_i i hi
      obtain ⟨t, e⟩ := fits_use (g.owns.fits i (List.mem_append_right _ (List.mem_of_getElem? hi))) (fun _ => []) (fun _ => [])
      rw [e] at hr; cases hr
      exact ⟨s, rfl, g⟩
  | push k =>
    simp only [exec] at hr
    split at hr
    · cases hr
    · rename_i i hi
      obtain ⟨s', e, hinv, -⟩ := plain_push h0 ha g.inv i
      have hfl := hf i hi
      obtain ⟨e', g'⟩ := pushL_of (m := s.heap) (law cs) e (v := .copy i) rfl
        (g.owns.addFlat hfl (g.owns.fits i (List.mem_append_right _ (List.mem_of_getElem? hi))))
      rw [e'] at hr; cases hr
      exact ⟨_, rfl, hinv, g'⟩
  | pushTemp v =>
    simp only [exec] at hr
    obtain ⟨h1, h2⟩ := flat_of_val hf cs s.heap
    obtain ⟨s', e, hinv, -⟩ := plain_push h0 ha g.inv (make cs s.heap v).1
    have gm := g.owns.make cs v
    obtain ⟨e', g'⟩ := pushL_of (m := (make cs s.heap v).2) (law cs) e (v := .copy _) rfl gm
    rw [e'] at hr
    simp only [bind_ok, destroy, isFlat_of h1, if_true] at hr
    cases hr
    exact ⟨_, rfl, hinv, g'⟩
  | emplace v =>
    simp only [exec] at hr
    obtain ⟨s', e, hinv, -⟩ := plain_push h0 ha g.inv (make cs s.heap v).1
    obtain ⟨e', g'⟩ := pushL_of (m := s.heap) (law cs) e (v := .emplace v) rfl (g.owns.make cs v)
    rw [e'] at hr; cases hr
    exact ⟨_, rfl, hinv, g'⟩
  | pop =>
    simp only [exec] at hr
    split at hr
    · rename_i he
      rw [enough_iff g.inv] at he
      cases hc : contents s.st with
      | nil => rw [hc] at he; simp at he
      | cons x xs =>
        obtain ⟨s', e, hinv, -⟩ := plain_pop h0 ha g.inv hc
        obtain ⟨m', e', g'⟩ := (law cs).popOne e g.owns
        rw [e'] at hr; cases hr
        exact ⟨_, rfl, hinv, g'⟩
    · cases hr
  | popInto ks =>
    simp only [exec] at hr
    split at hr
    · rename_i he
      rw [Bool.and_eq_true, enough_iff g.inv] at he
      obtain ⟨s', e, hinv⟩ := plain_popMany h0 ha g.inv ks.length he.1
      obtain ⟨m', e', g'⟩ := (law cs).popMany _ e g.owns
      rw [e'] at hr; cases hr
      refine ⟨_, rfl, hinv, ?_⟩
      refine assignAll_owns ks _ _ _ g' (fun v hv => ⟨hf.1 v hv, ?_⟩) hf.2
      exact fits_mono_flat (hfit v (List.mem_of_mem_take hv)) (hf.1 v hv)
    · cases hr
  | discard n =>
    simp only [exec] at hr
    split at hr
    · rename_i he
      rw [enough_iff g.inv] at he
      obtain ⟨s', e, hinv⟩ := plain_discard h0 ha g.inv n he
      obtain ⟨m', e', g'⟩ := (law cs).discard e g.owns
      rw [e'] at hr; cases hr
      exact ⟨_, rfl, hinv, g'⟩
    · cases hr
  | clear =>
    simp only [exec] at hr
    obtain ⟨s', e, hinv⟩ := plain_clear g.inv
    obtain ⟨m', e', g'⟩ := (law cs).clear e g.owns
    rw [e'] at hr; cases hr
    exact ⟨_, rfl, hinv, g'⟩
  | shrink =>
    simp only [exec] at hr
    obtain ⟨m', e', g'⟩ := (law cs).shrink g.owns
    rw [e'] at hr; cases hr
    exact ⟨_, rfl, plain_shrink h0 ha g.inv, g'⟩
  | setTop k =>
    simp only [exec] at hr
    split at hr
    · cases hr
    · rename_i i hi
      split at hr
      · rename_i he
        rw [enough_iff g.inv] at he
        cases hc : contents s.st with
        | nil => rw [hc] at he; simp at he
        | cons x xs =>
          obtain ⟨s', e, hinv, hc'⟩ := plain_setTop h0 ha g.inv hc i
          have e' : setTopL (itemElem cs) s.heap s.st (.copy i) = .ok (s.heap, s') := by
            have ht := plain_top h0 ha g.inv hc
            unfold top at ht
            obtain ⟨p, hp, ht⟩ := life_bind_ok ht
            rcases nil_or_snoc p with rfl | ⟨l, y, rfl⟩
            · cases ht
            · simp only [setTop, hp, bind_ok] at e
              rw [if_neg (by simp)] at e
              cases e
              simp only [setTopL, hp, bind_ok, itemElem, List.getLast?_concat]
          rw [e'] at hr; cases hr
          refine ⟨_, rfl, hinv, ?_⟩
          have hx : x.Flat := hf.2 x (by rw [hc]; rfl)
          have g1 : Owns s.heap (x :: (xs ++ s.vars)) := g.owns.perm (by
            have := (flat_perm g.inv).append_right s.vars
            rw [hc] at this; simpa using this)
          have g2 := (g1.dropFlat hx).addFlat (hf.1 i hi) (g.owns.fits i (List.mem_append_right _ (List.mem_of_getElem? hi)))
          exact g2.perm (by
            have := (flat_perm hinv).append_right s.vars
            rw [hc'] at this; simpa using this.symm)
      · cases hr
  | useNth n =>
    simp only [exec] at hr
    split at hr
    · rename_i he
      rw [enough_iff g.inv] at he
      have hx : (contents s.st)[n]? = some ((contents s.st)[n]) := List.getElem?_eq_getElem (by omega)
      obtain ⟨i, e1, it, e2, e3⟩ := plain_nth h0 g.inv n hx
      obtain ⟨t, e⟩ := fits_use (hfit _ (List.mem_of_getElem? hx)) (fun _ => []) (fun _ => [])
      simp only [e1, bind_ok, e2, e3, e] at hr; cases hr
      exact ⟨s, rfl, g⟩
    · cases hr
  | copyTop =>
    simp only [exec] at hr
    split at hr
    · rename_i he
      rw [enough_iff g.inv] at he
      cases hc : contents s.st with
      | nil => rw [hc] at he; simp at he
      | cons x xs =>
        rw [plain_top h0 ha g.inv hc] at hr; cases hr
        refine ⟨_, rfl, g.inv, ?_⟩
        refine (g.owns.addFlat (hf x (by rw [hc]; rfl)) (hfit x (by rw [hc]; exact List.mem_cons_self))).perm ?_
        rw [← List.append_assoc]
        exact (List.perm_append_singleton _ _).symm
    · cases hr

theorem Ok.run (h0 : 0 < ps) (ha : 0 < al) (os : List IOp) : ∀ {s : St}, Ok ps al s → FlatCopies cs s os → ∀ r, run cs s os = some r →
    ∃ s', r = .ok s' ∧ Ok ps al s' := by
  induction os with
  | nil => intro s g _ r hr; cases hr; exact ⟨s, rfl, g⟩
  | cons o os ih =>
    intro s g hc r hr
    simp only [ItemStack.run] at hr
    cases he : exec cs s o with
    | none => rw [he] at hr; cases hr
    | some q =>
      obtain ⟨s1, rfl, g1⟩ := g.step h0 ha o hc.1 q he
      rw [he] at hr
      exact ih g1 (hc.2 s1 he) r hr

theorem ok_init (ha : 0 < al) : Ok ps al { st := init ps al } :=
  ⟨Inv_of_R (R_init ha), by
    have : (init ps al : PS Item).base.flatten = [] := by simp [init, growBase]
    simp only [this]; exact Owns.nil⟩

/-! ### C147 -/

/-- C147 does not hold: the text pushed by `s.push(Item("a"))` is gone when it is read from the stack. -/
theorem C147_push_refuted : run true { st := init 4 1 } [.pushTemp (.string ['a']), .useNth 0] = some (.error (.ub .useAfterFree)) := by rfl

/-- C147 does not hold: the text received by `s.pop(x)` is gone when it is read. -/
theorem C147_pop_refuted : run true { st := init 4 1 } [.emplace (.string ['a']), .newNil, .popInto [0], .use 0] = some (.error (.ub .useAfterFree)) := by rfl

/-- C147 does not hold: a text pushed from a variable is deleted twice at the end of the scope. -/
theorem C147_scope_refuted : (run true { st := init 4 1 } [.new (.string ['a']), .push 0]).map (fun r => r >>= finish true) = some (.error (.ub .doubleFree)) := by rfl

/-- No two items of the list own the same heap object. -/
def NoSharing (l : List Item) : Prop := l.Pairwise fun i j => ¬ i.Flat → ¬ j.Flat → i.data ≠ j.data

theorem Owns.noSharing {h : Heap} {l : List Item} (g : Owns h l) : NoSharing l := by
  have := List.pairwise_filterMap.1 g.nodup
  refine List.Pairwise.imp_of_mem ?_ this
  intro i j hi hj hij h1 h2 he
  obtain ⟨a, o, h3, -⟩ := (g.fits i hi).deep h1
  exact hij a (own_deep h1 h3) a (own_deep h2 (he ▸ h3)) rfl

/-- C147 (what holds): in a program that copies only items without heap data (push_emplace, pop(),
discard(n), clear() and reading through references may be used with all items), no statement is
undefined; a heap object exists iff a variable or an element owns it, and no two own the same; at the
end of the scope everything is freed, once. -/
theorem C147_items_partial (cs : Bool) (ps al : Nat) (h0 : 0 < ps) (ha : 0 < al) (os : List IOp) (hc : FlatCopies cs { st := init ps al } os)
    (r : Res St) (hr : run cs { st := init ps al } os = some r) :
    ∃ s, r = .ok s ∧
      (∀ a, s.heap.obj a ≠ none ↔ ∃ i ∈ contents s.st ++ s.vars, ¬ i.Flat ∧ i.data = .ptr a) ∧ NoSharing (contents s.st ++ s.vars) ∧
      ∃ h, finish cs s = .ok h ∧ ∀ a, h.obj a = none := by
  obtain ⟨s, rfl, g⟩ := (ok_init ha).run h0 ha os hc r hr
  have gc : Owns s.heap (contents s.st ++ s.vars) := g.owns.perm ((flat_perm g.inv).append_right _)
  refine ⟨s, rfl, fun a => ⟨fun h => ?_, ?_⟩, gc.noSharing, ?_⟩
  · obtain ⟨i, hi, h1⟩ := List.mem_filterMap.1 (gc.live a h)
    exact ⟨i, hi, own_some h1⟩
  · rintro ⟨i, hi, h1, h2⟩
    exact gc.owned (List.mem_filterMap.2 ⟨i, hi, own_deep h1 h2⟩)
  · obtain ⟨m1, e1, g1⟩ := (law cs).all _ g.owns
    obtain ⟨m2, e2, g2⟩ := (law cs).all s.vars (l := []) (by simpa using g1)
    refine ⟨m2, by simp only [finish, destructL, e1, bind_ok, e2], fun a => ?_⟩
    exact Classical.byContradiction fun h => by simpa using g2.live a h

theorem plain_pop_push (h0 : 0 < ps) (ha : 0 < al) {s s' : PS Item} (h : Inv ps al s) {x : Item} (e : push s x = .ok s') :
    Inv ps al s' ∧ contents s' = x :: contents s := by
  obtain ⟨s2, e2, h1, h2⟩ := plain_push h0 ha h x
  rw [e] at e2; cases e2; exact ⟨h1, h2⟩

theorem popOneL_bad (h0 : 0 < ps) (ha : 0 < al) {s : PS Item} (h : Inv ps al s) {x : Item} {xs : List Item} (hc : contents s = x :: xs) {hp : Heap} {e : Fault}
    (hd : destroy hp x.handler x.data = .error e) : popOneL (itemElem cs) hp s = .error e := by
  have ht := plain_top h0 ha h hc
  unfold top at ht
  obtain ⟨p, hp', ht⟩ := life_bind_ok ht
  rcases nil_or_snoc p with rfl | ⟨l, y, rfl⟩
  · cases ht
  · simp only [List.getLast?_concat] at ht
    cases ht
    simp only [popOneL, hp', bind_ok, List.getLast?_concat, itemElem, hd, bind_err]

theorem popOneL_good (h0 : 0 < ps) (ha : 0 < al) {s : PS Item} (h : Inv ps al s) {x : Item} {xs : List Item} (hc : contents s = x :: xs) {hp hp2 : Heap}
    (hd : destroy hp x.handler x.data = .ok hp2) : ∃ s', popOneL (itemElem cs) hp s = .ok (hp2, s') ∧ popOne s = .ok s' ∧ Inv ps al s' ∧ contents s' = xs := by
  obtain ⟨s', e, h1, h2⟩ := plain_pop h0 ha h hc
  refine ⟨s', ?_, e, h1, h2⟩
  have ht := plain_top h0 ha h hc
  unfold top at ht
  obtain ⟨p, hp', ht⟩ := life_bind_ok ht
  rcases nil_or_snoc p with rfl | ⟨l, y, rfl⟩
  · cases ht
  · simp only [List.getLast?_concat] at ht
    cases ht
    simp only [popOne, hp', bind_ok] at e
    rw [if_neg (by simp)] at e
    simp only [popOneL, hp', bind_ok, List.getLast?_concat, itemElem, hd]
    split at e <;> rename_i hcc <;> cases e
    · rw [if_pos hcc]
    · rw [if_neg hcc]

theorem deep_string {i : Item} (hd : ¬ i.Flat) {a : Nat} (h1 : i.data = .ptr a) {h : Heap} (h2 : h.obj a = none) :
    destroy h i.handler i.data = .error (.ub .doubleFree) ∧ ∀ fl big, Item.toString fl big h i = .error (.ub .useAfterFree) := by
  refine ⟨by simp [destroy, isFlat_of_not hd, h1, Heap.free, h2], fun fl big => ?_⟩
  rcases (flat_iff i).1 hd with e | e
  · simp [Item.toString, e, h1, Heap.deref, h2]
  · simp [Item.toString, e, h1, Heap.deref, h2]

/-- C147 (the failure is unavoidable, push of a temporary): in any state reached that way, after
`s.push(Item(v))` of a text or BigNum, reading the element is a use after free and removing it a double
delete. -/
theorem C147_push_always_dangles_partial (cs : Bool) (ps al : Nat) (h0 : 0 < ps) (ha : 0 < al) (os : List IOp) (hc : FlatCopies cs { st := init ps al } os)
    (s : St) (hr : run cs { st := init ps al } os = some (.ok s)) (v : Val) (hv : ¬ FlatVal v) :
    run cs s [.pushTemp v, .useNth 0] = some (.error (.ub .useAfterFree)) ∧ run cs s [.pushTemp v, .pop] = some (.error (.ub .doubleFree)) := by
  obtain ⟨s0, e, g⟩ := (ok_init ha).run h0 ha os hc _ hr
  cases e
  obtain ⟨p, ep, hinv, hcont⟩ := plain_push h0 ha g.inv (make cs s.heap v).1
  have hdeep : ¬ (make cs s.heap v).1.Flat := by
    rw [flat_iff]; cases v <;> first | exact absurd trivial hv | simp [make]
  have gm := g.owns.make cs v
  obtain ⟨e', g'⟩ := pushL_of (m := (make cs s.heap v).2) (law cs) ep (v := .copy _) rfl gm
  obtain ⟨a, o, h1, h2⟩ := (gm.fits _ List.mem_cons_self).deep hdeep
  let h3 : Heap := { (make cs s.heap v).2 with obj := fun y => if y = a then none else (make cs s.heap v).2.obj y }
  have hdes : destroy (make cs s.heap v).2 (make cs s.heap v).1.handler (make cs s.heap v).1.data = .ok h3 := by
    simp [destroy, isFlat_of_not hdeep, h1, Heap.free, h2, h3]
  have hex : exec cs s (.pushTemp v) = some (.ok { s with heap := h3, st := p }) := by
    simp only [exec]
    show some (pushL (itemElem cs) (make cs s.heap v).2 s.st (.copy (make cs s.heap v).1) >>= _) = _
    rw [e', bind_ok, hdes, bind_ok]
  have hn : enough p 1 = true := (enough_iff hinv 1).2 (by rw [hcont]; simp)
  obtain ⟨hd, hu⟩ := deep_string hdeep h1 (h := h3) (by simp [h3])
  constructor
  · obtain ⟨i, e1, it, e2, e3⟩ := plain_nth h0 hinv 0 (x := (make cs s.heap v).1) (by rw [hcont]; rfl)
    simp only [run, hex]
    simp only [exec, hn, if_true, e1, bind_ok, e2, e3, hu, bind_err]
  · simp only [run, hex]
    simp only [exec, hn, if_true, popOneL_bad h0 ha hinv hcont hd, bind_err]

/-- C147 (the failure is unavoidable, pop into a variable): in any state reached that way, when a text or
BigNum is on top, `s.pop(x)` leaves in `x` a value whose use is a use after free and whose destruction is
a double delete. -/
theorem C147_pop_always_dangles_partial (cs : Bool) (ps al : Nat) (h0 : 0 < ps) (ha : 0 < al) (os : List IOp) (hc : FlatCopies cs { st := init ps al } os)
    (s : St) (hr : run cs { st := init ps al } os = some (.ok s)) (x : Item) (xs : List Item) (hx : contents s.st = x :: xs) (hd : ¬ x.Flat)
    (k : Nat) (hk : k < s.vars.length) :
    run cs s [.popInto [k], .use k] = some (.error (.ub .useAfterFree)) ∧ run cs s [.popInto [k], .del k] = some (.error (.ub .doubleFree)) := by
  obtain ⟨s0, e, g⟩ := (ok_init ha).run h0 ha os hc _ hr
  cases e
  have hfit : Fits s.heap.obj x := g.owns.fits x (List.mem_append_left _ ((flat_perm g.inv).mem_iff.2 (by rw [hx]; exact List.mem_cons_self)))
  obtain ⟨a, o, h1, h2⟩ := hfit.deep hd
  let h3 : Heap := { s.heap with obj := fun y => if y = a then none else s.heap.obj y }
  have hdes : destroy s.heap x.handler x.data = .ok h3 := by
    simp [destroy, isFlat_of_not hd, h1, Heap.free, h2, h3]
  obtain ⟨p, e1, e2, hinv, -⟩ := popOneL_good (cs := cs) h0 ha g.inv hx hdes
  have hn : enough s.st 1 = true := (enough_iff g.inv 1).2 (by rw [hx]; simp)
  have hex : exec cs s (.popInto [k]) = some (.ok { heap := h3, st := p, vars := s.vars.set k x }) := by
    simp only [exec, List.length_singleton, hn, Bool.true_and]
    rw [if_pos (by simpa using hk)]
    simp only [popManyL, plain_top h0 ha g.inv hx, bind_ok, e1, assignAll]
  obtain ⟨hd', hu⟩ := deep_string hd h1 (h := h3) (by simp [h3])
  have hget : (s.vars.set k x)[k]? = some x := by rw [List.getElem?_set]; simp [hk]
  constructor
  · simp only [run, hex]
    simp only [exec, hget, hu, bind_err]
  · simp only [run, hex]
    simp only [exec, hget, hd', bind_err]

/-- C147 (the failure is unavoidable, push of a variable): in any state reached that way, after `s.push(x)`
with a text or BigNum in `x`, destroying element and variable, in either order, is a double delete. -/
theorem C147_push_var_always_double_frees_partial (cs : Bool) (ps al : Nat) (h0 : 0 < ps) (ha : 0 < al) (os : List IOp)
    (hc : FlatCopies cs { st := init ps al } os) (s : St) (hr : run cs { st := init ps al } os = some (.ok s)) (k : Nat) (x : Item)
    (hx : s.vars[k]? = some x) (hd : ¬ x.Flat) :
    run cs s [.push k, .pop, .del k] = some (.error (.ub .doubleFree)) ∧ run cs s [.push k, .del k, .pop] = some (.error (.ub .doubleFree)) := by
  obtain ⟨s0, e, g⟩ := (ok_init ha).run h0 ha os hc _ hr
  cases e
  have hfit : Fits s.heap.obj x := g.owns.fits x (List.mem_append_right _ (List.mem_of_getElem? hx))
  obtain ⟨a, o, h1, h2⟩ := hfit.deep hd
  let h3 : Heap := { s.heap with obj := fun y => if y = a then none else s.heap.obj y }
  have hdes : destroy s.heap x.handler x.data = .ok h3 := by
    simp [destroy, isFlat_of_not hd, h1, Heap.free, h2, h3]
  obtain ⟨p, ep, hinv, hcont⟩ := plain_push h0 ha g.inv x
  have epl : pushL (itemElem cs) s.heap s.st (.copy x) = .ok (s.heap, p) := by
    unfold push at ep
    obtain ⟨s1, h1, ep⟩ := life_bind_ok ep
    unfold pushBack at ep
    obtain ⟨q, hq, ep⟩ := life_bind_ok ep
    cases ep
    simp only [pushL, h1, bind_ok, hq, itemElem]
  have hn : enough p 1 = true := (enough_iff hinv 1).2 (by rw [hcont]; simp)
  obtain ⟨hd', -⟩ := deep_string hd h1 (h := h3) (by simp [h3])
  obtain ⟨q, e1, e2, hinv2, -⟩ := popOneL_good (cs := cs) h0 ha hinv hcont hdes
  have hex : exec cs s (.push k) = some (.ok { s with st := p }) := by
    simp only [exec, hx, epl, bind_ok]
  constructor
  · simp only [run, hex]
    simp only [exec, hn, if_true, e1, bind_ok, hx, hd', bind_err]
  · simp only [run, hex]
    simp only [exec, hn, if_true, bind_ok, hx, hdes, popOneL_bad h0 ha hinv hcont hd', bind_err]

/-- Non-vacuity: texts are emplaced, read, popped and discarded over several pages, numbers copied to and
from variables; and a program of this kind ends well. -/
def sample : List IOp := [.emplace (.string ['a']), .emplace (.bignum false), .pushTemp (.int32 5), .new (.bool true), .push 0, .popInto [0],
  .useNth 2, .pop, .discard 1, .emplace (.cstring ['b']), .new (.string ['c']), .use 1, .shrink, .clear]

example : FlatCopies true { st := init 1 1 } sample ∧ (run true { st := init 1 1 } sample).isSome = true := by
  refine ⟨?_, by decide +kernel⟩
  have flatI : ∀ i : Item, i.handler.isFlat = true → i.Flat := by
    intro i h
    constructor <;> intro e <;> rw [e] at h <;> cases h
  refine ⟨trivial, ?_⟩
  intro s h; cases h
  refine ⟨trivial, ?_⟩
  intro s h; cases h
  refine ⟨trivial, ?_⟩
  intro s h; cases h
  refine ⟨trivial, ?_⟩
  intro s h; cases h
  refine ⟨(fun i hi => by cases hi; exact flatI _ rfl), ?_⟩
  intro s h; cases h
  refine ⟨⟨(fun i hi => flatI _ ?_), (fun k hk i hi => flatI _ ?_)⟩, ?_⟩
  · rcases List.mem_singleton.1 hi with rfl; rfl
  · rcases List.mem_singleton.1 hk with rfl; cases hi; rfl
  intro s h; cases h
  refine ⟨trivial, ?_⟩
  intro s h; cases h
  refine ⟨trivial, ?_⟩
  intro s h; cases h
  refine ⟨trivial, ?_⟩
  intro s h; cases h
  refine ⟨trivial, ?_⟩
  intro s h; cases h
  refine ⟨trivial, ?_⟩
  intro s h; cases h
  refine ⟨trivial, ?_⟩
  intro s h; cases h
  refine ⟨trivial, ?_⟩
  intro s h; cases h
  exact ⟨trivial, fun _ _ => trivial⟩

end Falcon.ItemStack
