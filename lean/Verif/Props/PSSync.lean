import Verif.Proofs.PSSync2
/-
C16-C19: sync iterators of PagedStack.
-/
namespace Falcon.PagedStack
variable {α : Type}

/-! ### C16 -/

/-- C16 (first part): a step after which a sync iterator is still alive frees no page, and
whenever a sync iterator is alive a call to shrink_to_fit() changes nothing but the pending
request. -/
theorem C16_no_page_freed (ps al : Nat) (h0 : 0 < ps) (ha : 0 < al) (y y' : Sys α)
    (h : SReach ps al y) (op : SOp α) (hal : Allowed ps y op) (o : SOut α)
    (he : sstep y op = .ok (y', o)) (halive : y'.its ≠ []) :
    y.st.base.length ≤ y'.st.base.length ∧
    (op = .call .shrink → contents y'.st = contents y.st ∧ y'.st.base = y.st.base) := by
  have hi := h.inv h0 ha
  obtain ⟨h1, h2, h3⟩ := SInv_step h0 ha op hi hal he
  refine ⟨h2 halive, ?_⟩
  rintro rfl
  simp only [sstep, step, bind_ok] at he
  have he := (Prod.mk.inj (ok_inj he)).1
  subst he
  have hc : y.st.syncCount > 0 := by
    rw [hi.cnt]; have := List.length_pos_iff.2 (show y.its ≠ [] from halive); omega
  simp only [shrink_keeps hc, and_self, contents]

/-- C16 (second part): from the creation of a sync iterator on a stack without live ones, through
any stretch during which one is always alive, to the destruction of the last one: the pages are
reduced to the minimum exactly at that destruction if shrink_to_fit() was called in the
stretch, and no page is freed by it otherwise.  The contents never change by it. -/
theorem C16_deferred_shrink (ps al : Nat) (h0 : 0 < ps) (ha : 0 < al) (y0 y1 y2 y3 : Sys α)
    (h : SReach ps al y0) (hnone : y0.its = []) (new : SOp α) (hnew : new = .newBegin ∨ new = .newEnd)
    (o1 : SOut α) (e1 : sstep y0 new = .ok (y1, o1))
    (asked : Bool) (hb : Busy ps y1 asked y2)
    (i : Nat) (o3 : SOut α) (e3 : sstep y2 (.drop i) = .ok (y3, o3)) (hlast : y3.its = []) :
    contents y3.st = contents y2.st ∧
    (asked = true → y3.st.base.length = StackSpec.pagesFor ps (contents y2.st).length) ∧
    (asked = false → y3.st.base.length = y2.st.base.length) := by
  have hi0 := h.inv h0 ha
  have hal1 : Allowed ps y0 new := by rcases hnew with rfl | rfl <;> trivial
  obtain ⟨hi1, -, hr1⟩ := SInv_step h0 ha new hi0 hal1 e1
  have hreq1 : y1.st.shrinkReq = false := by
    have hne : y1.its ≠ [] := by
      rcases hnew with rfl | rfl
      all_goals
        simp only [sstep] at e1
        obtain ⟨it, -, e1⟩ := bind_eq_ok.1 e1
        have := (Prod.mk.inj (ok_inj e1)).1
        subst this
        simp
    rw [hr1 hne, hi0.req hnone, hnone]; simp
  have key : SInv ps al y2 ∧ y2.st.shrinkReq = asked ∧ y2.its ≠ [] := by
    clear e3 hlast
    induction hb with
    | refl hne => exact ⟨hi1, hreq1, hne⟩
    | step op _ hal he hne ih =>
      obtain ⟨hi, hr, hne'⟩ := ih
      obtain ⟨a, -, c⟩ := SInv_step h0 ha op hi hal he
      refine ⟨a, ?_, hne⟩
      rw [c hne, hr]
      cases hl : List.isEmpty (α := SIter) _ with
      | true => exact absurd (List.isEmpty_iff.1 hl) hne'
      | false => simp
  obtain ⟨hi2, hr2, hne2⟩ := key
  simp only [sstep] at e3
  split at e3
  · rename_i hlt
    have := (Prod.mk.inj (ok_inj e3)).1
    subst this
    have hl : y2.its.length = 1 := by
      have := congrArg List.length hlast
      simp only [List.length_eraseIdx_of_lt hlt, List.length_nil] at this
      omega
    have hR := R_of_Inv hi2.inv
    have hc : y2.st.syncCount = 1 := by rw [hi2.cnt, hl]; rfl
    have hs : StackSpec.step ps al ⟨contents y2.st, y2.st.base.length, y2.st.syncCount.toNat, y2.st.shrinkReq⟩
        (.syncDrop : Op α) = some (if asked = true then
            ⟨contents y2.st, StackSpec.pagesFor ps (contents y2.st).length, 0, false⟩
          else ⟨contents y2.st, y2.st.base.length, 0, false⟩, .unit) := by
      simp only [StackSpec.step, hc, hr2]
      cases asked <;> simp
    obtain ⟨s', es, hR'⟩ := R_step h0 ha hR .syncDrop hs
    have : s' = syncDrop y2.st := (Prod.mk.inj (ok_inj es)).1.symm
    subst this
    have hcont := contents_of_R hR'
    obtain ⟨pre, cp, k, e, g, hit, hbl⟩ := hR'
    have hbase : (syncDrop y2.st).base.length = pre.length + 1 + k := by
      rw [e]; simp; omega
    refine ⟨?_, ?_, ?_⟩
    · rw [hcont]; cases asked <;> rfl
    · rintro rfl; rw [hbase, ← hbl]; rfl
    · rintro rfl; rw [hbase, ← hbl]; rfl
  · cases e3

/-- A stretch in which a shrink is requested while a sync iterator is alive. -/
def busyExample : Sys Nat := ⟨mkS 1 3 [] [7] [[], []] 1 true, [⟨0, 0, 0, 0, false⟩]⟩
def busyStart : Sys Nat := ⟨mkS 1 3 [] [7] [[], []] 1 false, [⟨0, 0, 0, 0, false⟩]⟩
example : SReach 1 3 (⟨mkS 1 3 [] [7] [[], []] 0 false, []⟩ : Sys Nat) ∧
    sstep (⟨mkS 1 3 [] [7] [[], []] 0 false, []⟩ : Sys Nat) .newBegin = .ok (busyStart, .unit) ∧
    Busy 1 busyStart true busyExample ∧
    sstep busyExample (.drop 0) = .ok (⟨mkS 1 3 [] [7] [] 0 false, []⟩, .unit) :=
  ⟨.step (o := .call .unit) (.call (.push 7)) .init ⟨by simp, by simp⟩ rfl, rfl,
   .step (o := .call .unit) (.call .shrink) (.refl busyStart (by simp [busyStart])) ⟨by simp, by simp⟩ rfl
    (by simp [busyExample]), rfl⟩

/-! ### C17 -/

/-- C17 does not hold (1): after get() has thrown because the stack was empty, a later get() on
the same iterator is undefined even though the stack holds an element again. -/
theorem C17_after_throw_refuted : ∃ y y' : Sys Nat, SReach 1 2 y ∧
    (∃ it, y.its = [it] ∧ ¬ it.atEnd) ∧ contents y.st = [] ∧
    srun y [.get 0, .call (.push 5)] = .ok (y', [.threw, .call .unit]) ∧ contents y'.st = [5] ∧
    sstep y' (.get 0) = .error (.ub .ptrRange) := by
  refine ⟨⟨mkS 1 2 [] [] [[]] 1 false, [⟨1, 1, 0, 0, false⟩]⟩, _, ?_, ⟨_, rfl, by simp [SIter.atEnd]⟩, rfl,
    rfl, rfl, rfl⟩
  refine .step (o := .call (.vals [2, 1])) (.call (.popMany 2)) ?_ ⟨by simp, by simp⟩ rfl
    (y := ⟨mkS 1 2 [[1]] [2] [] 1 false, [⟨1, 1, 0, 0, false⟩]⟩)
  refine .step (o := .unit) .newBegin ?_ trivial rfl
    (y := ⟨mkS 1 2 [[1]] [2] [] 0 false, []⟩)
  exact .step (o := .call .unit) (.call (.pushMany 1 [2])) .init ⟨by simp, by simp⟩ rfl

/-- C17 does not hold (2): after a pop_reverse that leaves a multiple of the page size, get() on a
live iterator returns the element that pop_reverse removed. -/
theorem C17_pop_reverse_refuted : ∃ y y' : Sys Nat, SReach 2 2 y ∧ contents y.st = [3, 2, 1] ∧
    srun y [.popReverse 1, .call (.push 9), .get 0]
      = .ok (y', [.call (.vals [3]), .call .unit, .val 3]) :=
  ⟨⟨mkS 2 2 [[1, 2]] [3] [] 1 false, [⟨1, 1, 0, 0, false⟩]⟩, _,
   .step (o := .unit) .newBegin (.step (o := .call .unit) (.call (.pushMany 1 [2, 3])) .init
    ⟨by simp, by simp⟩ rfl) trivial rfl, rfl, rfl⟩

/-- C17 (what holds): for a live sync iterator that is not at the end position and on which no
call has thrown, in every reachable state: if the stack is empty get() and ++ throw; otherwise
get() returns an element that is in the stack now - the one at the designated place if that
place is still in use, the top element otherwise - and ++ succeeds, moving one element down
(to the end after the bottom) in the first case and to the top in the second.  The stack is
never modified.  Missing from the full statement: the two refuted cases above. -/
theorem C17_sync_safe_partial (ps al : Nat) (h0 : 0 < ps) (ha : 0 < al) (y : Sys α)
    (h : SReach ps al y) (i : Nat) (it : SIter) (hi : y.its[i]? = some it)
    (ht : it.threw = false) (he : ¬ it.atEnd) :
    (contents y.st = [] →
      (∃ y', sstep y (.get i) = .ok (y', .threw) ∧ y'.st = y.st) ∧
      (∃ y', sstep y (.inc i) = .ok (y', .threw) ∧ y'.st = y.st)) ∧
    (contents y.st ≠ [] →
      (∃ y' x, sstep y (.get i) = .ok (y', .val x) ∧ y'.st = y.st ∧
        (contents y.st).reverse[min (it.fromBottom ps) ((contents y.st).length - 1)]? = some x) ∧
      (∃ y' it', sstep y (.inc i) = .ok (y', .unit) ∧ y'.st = y.st ∧ y'.its[i]? = some it' ∧
        it'.threw = false ∧
        ((contents y.st).length ≤ it.fromBottom ps →
          ¬ it'.atEnd ∧ it'.fromBottom ps = (contents y.st).length - 1) ∧
        (∀ k, it.fromBottom ps = k + 1 → k + 1 < (contents y.st).length →
          ¬ it'.atEnd ∧ it'.fromBottom ps = k) ∧
        (it.fromBottom ps = 0 → it'.atEnd))) := by
  have hinv := h.inv h0 ha
  have hmem := List.mem_of_getElem? hi
  have hok := hinv.its it hmem ht
  have hlt := (List.getElem?_eq_some_iff.1 hi).1
  obtain ⟨st, its⟩ := y
  obtain ⟨pre, cp, k, n, sr, e, g⟩ := hinv.inv
  simp only at e; subst e
  simp only [contents_mk, List.reverse_reverse, List.length_reverse, ne_eq, List.reverse_eq_nil_iff]
  simp only at hi hok hlt
  constructor
  · intro hc
    obtain ⟨it', e1, e2⟩ := syncGet_empty g hok he hc
    exact ⟨⟨_, by simp only [sstep, useIter, hi, e1, bind_ok]; rfl, rfl⟩,
      ⟨_, by simp only [sstep, useIter, hi, e2, bind_ok]; rfl, rfl⟩⟩
  · intro hc
    have hl := List.length_pos_iff.2 hc
    obtain ⟨it', x, e1, e2, -⟩ := syncGet_ne h0 g hok he hc
    refine ⟨⟨_, x, by simp only [sstep, useIter, hi, e1, bind_ok]; rfl, rfl, e2⟩, ?_⟩
    have e3 := syncInc_ne h0 g hok he hc
    refine ⟨_, _, by simp only [sstep, useIter, hi, e3, bind_ok]; rfl, rfl, List.getElem?_set_self hlt, ?_, ?_, ?_, ?_⟩
    · split <;> exact ht
    · intro hge
      rw [if_neg (by omega)]
      obtain ⟨-, a, b⟩ := ofIter_pos_ok (al := al) (rest := List.replicate k []) (sc := n) (sr := sr) h0 g
        ((cont pre cp).length - 1) (by omega) it.threw
      exact ⟨b, a⟩
    · intro m hm hlt
      rw [if_pos (by omega), hm]
      obtain ⟨-, a, b⟩ := ofIter_pos_ok (al := al) (rest := List.replicate k []) (sc := n) (sr := sr) h0 g
        m (by omega) it.threw
      exact ⟨b, a⟩
    · intro hz
      rw [if_pos (by omega), hz]
      exact ⟨rfl, rfl⟩

/-- The iterator stands at an element that has been popped meanwhile: it resynchronises. -/
example : SReach 1 2 (⟨mkS 1 2 [] [1] [[]] 1 false, [⟨1, 1, 0, 0, false⟩]⟩ : Sys Nat) ∧
    sstep (⟨mkS 1 2 [] [1] [[]] 1 false, [⟨1, 1, 0, 0, false⟩]⟩ : Sys Nat) (.get 0)
      = .ok (⟨mkS 1 2 [] [1] [[]] 1 false, [⟨0, 0, 0, 0, false⟩]⟩, .val 1) :=
  ⟨.step (o := .call .unit) (.call .pop) (.step (o := .unit) .newBegin
    (.step (o := .call .unit) (.call (.pushMany 1 [2])) .init ⟨by simp, by simp⟩ rfl) trivial rfl)
    ⟨by simp, by simp⟩ rfl, rfl⟩

/-! ### C18 -/

/-- C18: on a quiescent stack the loop from sync_begin() to sync_end() visits the elements top
to bottom and ends. -/
theorem C18_sync_iteration (ps al : Nat) (h0 : 0 < ps) (ha : 0 < al) (s : PS α) (h : Reach ps al s)
    (fuel : Nat) (hf : (contents s).length + 1 ≤ fuel) :
    syncForEach s fuel = .ok (some (contents s)) := by
  obtain ⟨pre, cp, k, n, sr, rfl, g⟩ := h.inv h0 ha
  rw [contents_mk, List.length_reverse] at *
  exact syncForEach_spec h0 g fuel hf

/-! ### C19 -/

/-- C19 does not hold: destroying a copy of a sync iterator frees pages while the original is
alive, and using the original is then undefined. -/
theorem C19_copy_refuted : ∃ y y' : Sys Nat, SReach 1 2 y ∧ y.its ≠ [] ∧
    srun y [.copy 0, .call .shrink, .drop 1] = .ok (y', [.unit, .call .unit, .unit]) ∧
    y'.its ≠ [] ∧ y'.st.base.length < y.st.base.length ∧
    sstep y' (.get 0) = .error (.ub .derefListEnd) :=
  ⟨⟨mkS 1 2 [] [1] [[]] 1 false, [⟨1, 1, 0, 0, false⟩]⟩, _,
   .step (o := .call .unit) (.call .pop) (.step (o := .unit) .newBegin
    (.step (o := .call .unit) (.call (.pushMany 1 [2])) .init ⟨by simp, by simp⟩ rfl) trivial rfl)
    ⟨by simp, by simp⟩ rfl, by simp, rfl, by decide, by decide, rfl⟩

/-- number of iterators created by sync_begin()/sync_end() minus number destroyed -/
def created : List (SOp α) → Int
  | [] => 0
  | .newBegin :: ops => 1 + created ops
  | .newEnd :: ops => 1 + created ops
  | .drop _ :: ops => -1 + created ops
  | _ :: ops => created ops

/-- C19 (what holds): in every history, copies included, as long as fewer iterators were
destroyed than were created by sync_begin()/sync_end() (copies not counted), no step frees a page. -/
theorem C19_copy_partial (s : PS α) (hs : s.syncCount = 0) (ops : List (SOp α)) (op : SOp α)
    (hops : ∀ q ∈ ops ++ [op], q ≠ .call .syncNew ∧ q ≠ .call .syncDrop)
    (y y' : Sys α) (os : List (SOut α)) (o : SOut α)
    (h1 : srun ⟨s, []⟩ ops = .ok (y, os)) (h2 : sstep y op = .ok (y', o))
    (hc : 0 < created (ops ++ [op])) : y.st.base.length ≤ y'.st.base.length := by
  have use_st : ∀ {y y' : Sys α} {i f o}, useIter y i f = .ok (y', o) → y'.st = y.st := by
    intro y y' i f o he
    unfold useIter at he
    split at he
    · cases he
    · obtain ⟨⟨it', o'⟩, -, he⟩ := bind_eq_ok.1 he
      cases ok_inj he; rfl
  -- one step: count and pages
  have one : ∀ (q : SOp α) (y y' : Sys α) (o : SOut α), q ≠ .call .syncNew ∧ q ≠ .call .syncDrop →
      sstep y q = .ok (y', o) → y'.st.syncCount = y.st.syncCount + created [q] ∧
      (0 < y'.st.syncCount → y.st.base.length ≤ y'.st.base.length) := by
    intro q y y' o hq he
    have same : y'.st = y.st → created [q] = 0 → y'.st.syncCount = y.st.syncCount + created [q] ∧
      (0 < y'.st.syncCount → y.st.base.length ≤ y'.st.base.length) := by
      intro e1 e2; rw [e1, e2]; exact ⟨by omega, fun _ => Nat.le_refl _⟩
    cases q with
    | call c =>
      obtain ⟨⟨s', o'⟩, h1, he⟩ := bind_eq_ok.1 he
      cases ok_inj he
      by_cases hsk : c = .shrink
      · subst hsk
        have h1 := (Prod.mk.inj (ok_inj h1)).1
        subst h1
        simp only [created]
        unfold shrinkToFit
        split
        · exact ⟨by simp, fun _ => Nat.le_refl _⟩
        · rename_i hn
          refine ⟨by simp [internalShrink], fun hp => absurd hp hn⟩
      · have hk := step_keeps c hsk (fun e => hq.1 (by rw [e])) (fun e => hq.2 (by rw [e])) h1
        exact ⟨by simp [created, hk.cnt], fun _ => hk.len⟩
    | clear =>
      obtain ⟨s', h1, he⟩ := bind_eq_ok.1 he
      cases ok_inj he
      have hk := clear_keeps h1
      exact ⟨by simp [created, hk.cnt], fun _ => hk.len⟩
    | popReverse n =>
      obtain ⟨⟨s', vs⟩, h1, he⟩ := bind_eq_ok.1 he
      cases ok_inj he
      have hk := popReverse_keeps h1
      exact ⟨by simp [created, hk.cnt], fun _ => hk.len⟩
    | newBegin =>
      obtain ⟨it, h1, he⟩ := bind_eq_ok.1 he
      cases ok_inj he
      exact ⟨by simp [created, syncNew], fun _ => Nat.le_refl _⟩
    | newEnd =>
      obtain ⟨it, h1, he⟩ := bind_eq_ok.1 he
      cases ok_inj he
      exact ⟨by simp [created, syncNew], fun _ => Nat.le_refl _⟩
    | drop i =>
      simp only [sstep] at he
      split at he
      · cases ok_inj he
        refine ⟨by simp [created, syncDrop_count]; omega, ?_⟩
        intro hp
        have hp : 0 < (syncDrop y.st).syncCount := hp
        rw [syncDrop_count] at hp
        show y.st.base.length ≤ (syncDrop y.st).base.length
        unfold syncDrop
        simp only []
        rw [if_neg (by rintro ⟨h1, -⟩; omega)]
        exact Nat.le_refl _
      · cases he
    | get i => exact same (use_st he) rfl
    | inc i => exact same (use_st he) rfl
    | dec i => exact same (use_st he) rfl
    | eq i j =>
      simp only [sstep] at he
      split at he
      · cases ok_inj he; exact same rfl rfl
      · cases he
    | copy i =>
      simp only [sstep] at he
      split at he
      · cases ok_inj he; exact same rfl rfl
      · cases he
  have app : ∀ a b : List (SOp α), created (a ++ b) = created a + created b := by
    intro a b
    induction a with
    | nil => simp [created]
    | cons q a ih => cases q <;> simp only [List.cons_append, created, ih] <;> omega
  have many : ∀ (ops : List (SOp α)) (y y' : Sys α) (os : List (SOut α)),
      (∀ q ∈ ops, q ≠ .call .syncNew ∧ q ≠ .call .syncDrop) → srun y ops = .ok (y', os) →
      y'.st.syncCount = y.st.syncCount + created ops := by
    intro ops
    induction ops with
    | nil => intro y y' os _ h; cases ok_inj h; simp [created]
    | cons q ops ih =>
      intro y y' os hq h
      obtain ⟨⟨y1, o1⟩, h1, h⟩ := bind_eq_ok.1 h
      obtain ⟨⟨y2, o2⟩, h2, h⟩ := bind_eq_ok.1 h
      cases ok_inj h
      rw [ih y1 y' o2 (fun q hm => hq q (List.mem_cons_of_mem _ hm)) h2,
        (one q y y1 o1 (hq q (List.mem_cons_self ..)) h1).1, show q :: ops = [q] ++ ops from rfl, app]
      omega
  have hm := many ops ⟨s, []⟩ y os (fun q hq => hops q (List.mem_append_left _ hq)) h1
  obtain ⟨o1, o2⟩ := one op y y' o (hops op (by simp)) h2
  apply o2
  rw [o1, hm, hs]
  rw [app] at hc; omega

example : created ([.newBegin, .copy 0, .newEnd, .drop 1, .call .shrink] : List (SOp Nat)) = 1 := rfl

end Falcon.PagedStack
