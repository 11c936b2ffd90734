import Verif.Proofs.PSLoop
/-
C140: a loop with sync iterators while other threads push, pop, discard, shrink and iterate.
-/
namespace Falcon.PagedStack
variable {α : Type}

/-- C140 does not hold for every call of the other threads: another thread's pop_reverse takes the
element 3, leaving a multiple of the page size, then a 9 is pushed, and the loop visits the
3, which pop_reverse had removed and nobody has pushed again. -/
theorem C140_pop_reverse_refuted : ∃ (y y1 : Sys Nat) (w w' w'' : Walk Nat), SReach 2 2 y ∧
    sstep y .newBegin = .ok (y1, .unit) ∧ contents y1.st = [3, 2, 1] ∧
    (do let (w, _) ← lstep (startLoop y y1) .mine
        let (w, _) ← lstep w .mine
        lstep w (.other (.popReverse 1))) = .ok (w, none) ∧
    contents w.y.st = [2, 1] ∧ w.pc = .get ∧
    lstep w (.other (.call (.push 9))) = .ok (w', none) ∧
    lstep w' .mine = .ok (w'', some 3) :=
  ⟨⟨mkS 2 2 [[1, 2]] [3] [] 0 false, []⟩, ⟨mkS 2 2 [[1, 2]] [3] [] 1 false, [⟨1, 1, 0, 0, false⟩]⟩, _, _, _,
   .step (o := .call .unit) (.call (.pushMany 1 [2, 3])) .init ⟨by simp, by simp⟩ rfl, rfl, rfl, rfl, rfl, rfl,
   rfl, rfl⟩

section
variable {ps al : Nat} (h0 : 0 < ps) (ha : 0 < al) (y y1 : Sys α) (o : SOut α) (h : SReach ps al y)
  (hb : sstep y .newBegin = .ok (y1, o)) (w : Walk α) (tr : List (LRec α))
  (hx : LExec ps (startLoop y y1) tr w)
include h0 ha h hb hx

/-- C140 (no fault): whatever the other threads did, while the loop is not over its next step is
defined, does not change the contents, and leads to a state of the loop. -/
theorem C140_no_fault_partial (hr : w.pc.running = true) :
    ∃ w' v, lstep w .mine = .ok (w', v) ∧ contents w'.y.st = contents w.y.st := by
  obtain ⟨hs, -⟩ := LInv_start h0 ha (h.inv h0 ha) hb
  obtain ⟨⟨r, hi⟩, -⟩ := hx.spec h0 ha hs (by simp [startLoop])
  obtain ⟨w', v, r', e, -, hbase, -⟩ := LInv_mine h0 ha hi hr
  exact ⟨w', v, e, hbase⟩

/-- C140 (top to bottom, no element twice): the visited values were, each at its moment, in the
stack, at heights that strictly decrease, all below the height the stack had at
sync_begin().  So nothing pushed above during the loop is visited, no place is visited
twice, and there are at most as many visits as there were elements. -/
theorem C140_top_to_bottom_partial :
    ∃ heights, SeenAt (visits tr) heights ∧ heights.Pairwise (fun a b => b < a) ∧
      ∀ p ∈ heights, p < (contents y.st).length := by
  obtain ⟨hs, -⟩ := LInv_start h0 ha (h.inv h0 ha) hb
  exact (hx.spec h0 ha hs (by simp [startLoop])).2.1

/-- C140 (every element that stays): the elements that were at the bottom of the stack all
through the loop - from sync_begin(), at each step of each thread - are visited, each exactly
once, from the highest to the lowest, after the visits to elements above them, of which
there are at most as many as there were above them at sync_begin(). -/
theorem C140_every_element_partial (base : List α) (hbase : base <+: (contents y.st).reverse)
    (hstay : Stays base tr) (hend : w.pc = .ended) :
    ∃ above, visited tr = above ++ base.reverse ∧
      above.length ≤ (contents y.st).length - base.length := by
  obtain ⟨hs, -⟩ := LInv_start h0 ha (h.inv h0 ha) hb
  obtain ⟨ab, e, hl⟩ := (hx.spec h0 ha hs (by simp [startLoop])).2.2.2.2 base hstay hend
  have := hbase.length_le
  rw [List.length_reverse] at this
  rw [List.take_of_length_le this] at e
  exact ⟨ab, e, hl⟩

/-- C140 (it ends): the looping thread takes at most 3 n + 2 steps, n being the number of elements
at sync_begin(), however many the other threads take and whatever they push. -/
theorem C140_ends_partial : (tr.filter LRec.mine).length ≤ 3 * (contents y.st).length + 2 := by
  obtain ⟨hs, -⟩ := LInv_start h0 ha (h.inv h0 ha) hb
  exact (hx.spec h0 ha hs (by simp [startLoop])).2.2.1

/-- C140 (exceptions): the loop ends with an exception only if the stack was empty at one of its
own steps; so never when some element stays all along. -/
theorem C140_throws_only_empty_partial :
    (w.pc = .threw → ∃ r ∈ tr, r.mine = true ∧ r.now = []) ∧
    (∀ base, base ≠ [] → Stays base tr → w.pc ≠ .threw) := by
  obtain ⟨hs, -⟩ := LInv_start h0 ha (h.inv h0 ha) hb
  have key := (hx.spec h0 ha hs (by simp [startLoop])).2.2.2.1
  refine ⟨key, fun base hne hst e => ?_⟩
  obtain ⟨r, hr, -, hn⟩ := key e
  have := hst r hr
  rw [hn] at this
  exact hne (List.prefix_nil.1 this)

end

/-! ### A loop beside a thread that pops and pushes -/

def loop0 : Sys Nat := ⟨mkS 2 2 [[1, 2]] [3] [] 0 false, []⟩
def loop1 : Sys Nat := ⟨mkS 2 2 [[1, 2]] [3] [] 1 false, [⟨1, 1, 0, 0, false⟩]⟩

theorem loop0_reach : SReach 2 2 loop0 :=
  .step (o := .call .unit) (.call (.pushMany 1 [2, 3])) .init ⟨by simp, by simp⟩ rfl

/-- Another thread makes an iterator of its own and destroys it, pops the top element, and pushes
two others: the loop over [3, 2, 1] visits 2 and 1 and ends. -/
example : sstep loop0 .newBegin = .ok (loop1, .unit) ∧
    ∃ tr w, LExec 2 (startLoop loop0 loop1) tr w ∧ w.pc = .ended ∧ visited tr = [2, 1] ∧
      contents w.y.st = [8, 7, 2, 1] ∧ Stays [1, 2] tr := by
  refine ⟨rfl, _, _,
    .step (.other .newBegin) ⟨trivial, trivial, fun _ he => by cases he⟩ rfl <|
    .step .mine rfl rfl <|
    .step .mine rfl rfl <|
    .step (.other (.drop 1)) ⟨trivial, (by decide : (1 : Nat) ≠ 0), fun e he => ?_⟩ rfl <|
    .step (.other (.call .pop)) ⟨⟨by simp, by simp⟩, trivial, fun _ _ => trivial⟩ rfl <|
    .step .mine rfl rfl <|
    .step (.other (.call (.push 7))) ⟨⟨by simp, by simp⟩, trivial, fun _ _ => trivial⟩ rfl <|
    .step .mine rfl rfl <|
    .step .mine rfl rfl <|
    .step (.other (.call (.push 8))) ⟨⟨by simp, by simp⟩, trivial, fun _ _ => trivial⟩ rfl <|
    .step .mine rfl rfl <|
    .step .mine rfl rfl <|
    .step .mine rfl rfl <|
    .refl _, rfl, rfl, rfl, ?_⟩
  · cases he; show (1 : Nat) ≠ 2; decide
  · intro r hr
    simp only [List.mem_cons, List.not_mem_nil, or_false] at hr
    rcases hr with rfl | rfl | rfl | rfl | rfl | rfl | rfl | rfl | rfl | rfl | rfl | rfl | rfl <;> decide

end Falcon.PagedStack
