import Verif.Spec.ValueMem
import Verif.Spec.Item
import Verif.Spec.Code
import Verif.Props.Code
/- C157: items, code objects and the compiler when memory runs out. -/
namespace Falcon.Mem
open Falcon.Item (Hd Val Obj Dbl)

theorem grab_false (n : Nat) (o : List Bool) : (grab n o).1 = false ↔ Refused n o := by
  unfold Refused
  induction n generalizing o with
  | zero => simp [grab]
  | succ n ih => match o with
    | [] => simp [grab]
    | true :: o => simp [grab, ih]
    | false :: o => simp [grab]

theorem grab_case (n : Nat) (o : List Bool) : (∃ o', grab n o = (false, o') ∧ Refused n o) ∨ ∃ o', grab n o = (true, o') ∧ ¬ Refused n o := by
  have h := grab_false n o
  rcases e : grab n o with ⟨b, o'⟩
  rw [e] at h
  cases b with
  | false => exact .inl ⟨o', rfl, h.1 rfl⟩
  | true => exact .inr ⟨o', rfl, fun hr => by cases h.2 hr⟩

/-! ### Items -/

theorem itemNeeds_eq (l : Lib) (v : Val) : itemNeeds l v = wanted l.sso v := by
  cases v <;> simp only [itemNeeds, wanted, Lib.text] <;> (try split) <;> rfl

theorem item_text_ok {l : Lib} {h : Falcon.Item.Heap} {i : Falcon.Item.Item} {t : Str} (e : Falcon.Item.toString l.fl l.big h i = .ok t) :
    ∃ t', Falcon.Item.toString (fun _ => []) (fun _ => []) h i = .ok t' := by
  unfold Falcon.Item.toString at e ⊢
  cases hh : i.handler <;> simp only [hh] at e ⊢
  · exact ⟨_, rfl⟩
  · cases hb : Falcon.Item.boolValue i.data <;> rw [hb] at e
    · cases e
    · exact ⟨_, rfl⟩
  · cases hb : Falcon.Item.int64Value i.data <;> rw [hb] at e
    · cases e
    · exact ⟨_, rfl⟩
  · cases hb : Falcon.Item.numericValue i.data <;> rw [hb] at e
    · cases e
    · exact ⟨_, rfl⟩
  · cases hb : h.deref i.data <;> rw [hb] at e
    · cases e
    · rename_i o
      cases o with
      | str s => exact ⟨_, rfl⟩
      | big z => cases e
  · cases hb : h.deref i.data <;> rw [hb] at e
    · cases e
    · exact ⟨_, rfl⟩

theorem item_text_error {l : Lib} {h : Falcon.Item.Heap} {i : Falcon.Item.Item} {e : Fault} (he : Falcon.Item.toString l.fl l.big h i = .error e) :
    Falcon.Item.toString (fun _ => []) (fun _ => []) h i = .error e ∧ ∃ u, e = .ub u := by
  have hd : ∀ (d : Falcon.Item.Data) e, h.deref d = .error e → ∃ u, e = .ub u := by
    intro d e h'
    unfold Falcon.Item.Heap.deref at h'
    split at h'
    · split at h' <;> first | (cases h'; exact ⟨_, rfl⟩) | cases h'
    · cases h'; exact ⟨_, rfl⟩
  unfold Falcon.Item.toString at he ⊢
  cases hh : i.handler <;> simp only [hh] at he ⊢
  · cases he
  · unfold Falcon.Item.boolValue at he ⊢
    split at he
    · cases he
    · cases he; exact ⟨rfl, _, rfl⟩
  · unfold Falcon.Item.int64Value at he ⊢
    split at he
    · cases he
    · cases he; exact ⟨rfl, _, rfl⟩
  · unfold Falcon.Item.numericValue at he ⊢
    split at he
    · cases he
    · cases he; exact ⟨rfl, _, rfl⟩
  · cases hb : h.deref i.data <;> rw [hb] at he
    · cases he; exact ⟨rfl, hd _ _ hb⟩
    · rename_i o
      cases o with
      | str s => cases he
      | big z => cases he; exact ⟨rfl, _, rfl⟩
  · cases hb : h.deref i.data <;> rw [hb] at he
    · cases he; exact ⟨rfl, hd _ _ hb⟩
    · cases he

/-- one statement on items -/
theorem itemStep_ok {l : Lib} {cs : Bool} {s s' : Falcon.Item.St} {o o' : List Bool} {op : Falcon.Item.Op} {r : Outcome}
    (h : itemStep l cs s o op = some (.ok (s', o', r))) :
    (r = .badAlloc ∧ s' = s ∧ ∃ x v, op = .new x v ∧ Refused (itemNeeds l v) o) ∨
    (r ≠ .badAlloc ∧ Falcon.Item.exec cs s op = some (.ok s') ∧ ∀ x v, op = .new x v → ¬ Refused (itemNeeds l v) o) := by
  cases op with
  | new x v =>
    simp only [itemStep] at h
    cases hx : s.var x with
    | some _ => rw [hx] at h; cases h
    | none =>
      rw [hx] at h
      rcases grab_case (itemNeeds l v) o with ⟨o1, e, hr⟩ | ⟨o1, e, hr⟩ <;> rw [e] at h
      · simp only [Option.some.injEq, Except.ok.injEq, Prod.mk.injEq] at h
        obtain ⟨rfl, rfl, rfl⟩ := h
        exact .inl ⟨rfl, rfl, x, v, rfl, hr⟩
      · simp only [Option.some.injEq, Except.ok.injEq, Prod.mk.injEq] at h
        obtain ⟨rfl, rfl, rfl⟩ := h
        refine .inr ⟨by simp, ?_, fun x' v' e' => by cases e'; exact hr⟩
        simp only [Falcon.Item.exec, hx]
  | use x =>
    simp only [itemStep] at h
    cases hx : s.var x with
    | none => rw [hx] at h; cases h
    | some i =>
      rw [hx] at h
      cases ht : Falcon.Item.toString l.fl l.big s.heap i with
      | error e => simp only [ht] at h; cases h
      | ok t =>
        simp only [ht] at h
        rcases e : textOf l i.handler t o with ⟨_ | t', o1⟩ <;> simp only [e] at h
        · cases h
        · simp only [Option.some.injEq, Except.ok.injEq, Prod.mk.injEq] at h
          obtain ⟨rfl, rfl, rfl⟩ := h
          obtain ⟨t2, h2⟩ := item_text_ok ht
          refine .inr ⟨by simp, ?_, fun x' v' e' => by cases e'⟩
          simp only [Falcon.Item.exec, hx, h2]
  | _ =>
    simp only [itemStep] at h
    split at h
    · cases h
    · cases h
    · rename_i s1 he
      simp only [Option.some.injEq, Except.ok.injEq, Prod.mk.injEq] at h
      obtain ⟨rfl, rfl, rfl⟩ := h
      exact .inr ⟨by simp, he, fun x' v' e' => by cases e'⟩

theorem item_exec_no_terminate {cs : Bool} {s : Falcon.Item.St} {op : Falcon.Item.Op} {e : Fault} (h : Falcon.Item.exec cs s op = some (.error e)) : ∃ u, e = .ub u := by
  cases op with
  | new x v => simp only [Falcon.Item.exec] at h; split at h <;> cases h
  | newNil x => simp only [Falcon.Item.exec] at h; split at h <;> cases h
  | copy x y => simp only [Falcon.Item.exec] at h; split at h <;> cases h
  | assign x y => simp only [Falcon.Item.exec] at h; split at h <;> cases h
  | del x =>
    simp only [Falcon.Item.exec] at h
    split at h
    · cases h
    · split at h
      · cases h
      · rename_i i _ e' he
        simp only [Option.some.injEq, Except.error.injEq] at h
        subst h
        unfold Falcon.Item.destroy at he
        split at he
        · cases he
        · unfold Falcon.Item.Heap.free at he
          split at he
          · split at he
            · cases he
            · cases he; exact ⟨_, rfl⟩
          · cases he; exact ⟨_, rfl⟩
  | use x =>
    simp only [Falcon.Item.exec] at h
    split at h
    · cases h
    · rename_i i _
      split at h
      · cases h
      · rename_i e' he
        simp only [Option.some.injEq, Except.error.injEq] at h
        subst h
        exact (item_text_error (l := ⟨0, fun _ => 0, fun _ => [], fun _ => []⟩) he).2

theorem itemStep_error {l : Lib} {cs : Bool} {s : Falcon.Item.St} {o : List Bool} {op : Falcon.Item.Op} {e : Fault}
    (h : itemStep l cs s o op = some (.error e)) :
    (Falcon.Item.exec cs s op = some (.error e) ∧ e ≠ .terminate) ∨
    (e = .terminate ∧ ∃ x i t o', op = .use x ∧ s.var x = some i ∧ Falcon.Item.toString l.fl l.big s.heap i = .ok t ∧ textOf l i.handler t o = (none, o')) := by
  have hb : ∀ {e}, Falcon.Item.exec cs s op = some (.error e) → e ≠ .terminate := by
    intro e he; obtain ⟨u, rfl⟩ := item_exec_no_terminate he; simp
  cases op with
  | new x v =>
    simp only [itemStep] at h
    cases hx : s.var x with
    | some _ => rw [hx] at h; cases h
    | none =>
      rw [hx] at h
      rcases grab_case (itemNeeds l v) o with ⟨o1, e1, hr⟩ | ⟨o1, e1, hr⟩ <;> rw [e1] at h <;> cases h
  | use x =>
    simp only [itemStep] at h
    cases hx : s.var x with
    | none => rw [hx] at h; cases h
    | some i =>
      rw [hx] at h
      cases ht : Falcon.Item.toString l.fl l.big s.heap i with
      | error e1 =>
        simp only [ht, Option.some.injEq, Except.error.injEq] at h
        subst h
        have : Falcon.Item.exec cs s (.use x) = some (.error e1) := by
          simp only [Falcon.Item.exec, hx, (item_text_error ht).1]
        exact .inl ⟨this, hb this⟩
      | ok t =>
        simp only [ht] at h
        rcases e1 : textOf l i.handler t o with ⟨_ | t', o1⟩ <;> simp only [e1] at h
        · simp only [Option.some.injEq, Except.error.injEq] at h
          exact .inr ⟨h.symm, x, i, t, o1, rfl, hx, ht, e1⟩
        · cases h
  | _ =>
    simp only [itemStep] at h
    split at h
    · cases h
    · rename_i e1 he
      simp only [Option.some.injEq, Except.error.injEq] at h
      subst h
      exact .inl ⟨he, hb he⟩
    · cases h

/-- C157 (what holds, items): whatever is refused, a program with items that goes on has the effect of the program without the
statements that ended with std::bad_alloc: no value is changed or lost by them, and nothing stays allocated. -/
theorem C157_items_partial (l : Lib) (cs : Bool) (s s' : Falcon.Item.St) (o o' : List Bool) (ops : List Falcon.Item.Op) (rs : List Outcome)
    (h : itemRun l cs s o ops = some (.ok (s', o', rs))) :
    rs.length = ops.length ∧ Falcon.Item.run cs s (survivors ops rs) = some (.ok s') := by
  induction ops generalizing s o rs with
  | nil => simp only [itemRun, Option.some.injEq, Except.ok.injEq, Prod.mk.injEq] at h; obtain ⟨rfl, rfl, rfl⟩ := h; exact ⟨rfl, rfl⟩
  | cons op ops ih =>
    simp only [itemRun] at h
    split at h
    · cases h
    · cases h
    · rename_i s1 o1 r h1
      split at h
      · cases h
      · cases h
      · rename_i s2 o2 rs' h2
        simp only [Option.some.injEq, Except.ok.injEq, Prod.mk.injEq] at h
        obtain ⟨rfl, rfl, rfl⟩ := h
        obtain ⟨i1, i2⟩ := ih _ _ _ h2
        refine ⟨by simp [i1], ?_⟩
        rcases itemStep_ok h1 with ⟨rfl, rfl, -⟩ | ⟨hr, he, -⟩
        · simpa [survivors] using i2
        · simp only [survivors, if_neg hr, Falcon.Item.run, he]; exact i2

/-- C157 (exact, items): a statement ends with std::bad_alloc iff it constructs an item from a text or BigNum and one of its allocations is refused; then
nothing is changed. -/
theorem C157_item_fails_partial (l : Lib) (cs : Bool) (s : Falcon.Item.St) (o : List Bool) (op : Falcon.Item.Op) :
    (∃ s' o', itemStep l cs s o op = some (.ok (s', o', .badAlloc))) ↔ ∃ x v, op = .new x v ∧ s.var x = none ∧ Refused (wanted l.sso v) o := by
  simp only [← itemNeeds_eq]
  constructor
  · rintro ⟨s', o', h⟩
    rcases itemStep_ok h with ⟨-, -, x, v, rfl, hr⟩ | ⟨hr, -⟩
    · refine ⟨x, v, rfl, ?_, hr⟩
      simp only [itemStep] at h
      cases hx : s.var x with
      | none => rfl
      | some _ => rw [hx] at h; cases h
    · exact absurd rfl hr
  · rintro ⟨x, v, rfl, hx, hr⟩
    rcases grab_case (itemNeeds l v) o with ⟨o1, e1, -⟩ | ⟨o1, e1, hn⟩
    · exact ⟨s, o1, by simp only [itemStep, hx, e1]⟩
    · exact absurd hr hn

/-- Items of the types stored in the item itself are always constructed, whatever is refused; so are copies, and destructions work. -/
theorem C157_flat_partial (l : Lib) (cs : Bool) (s : Falcon.Item.St) (o : List Bool) (op : Falcon.Item.Op)
    (hu : ∀ x, op ≠ .use x) (hv : ∀ x v, op = .new x v → wanted l.sso v = 0) :
    itemStep l cs s o op = (Falcon.Item.exec cs s op).map fun r => r.map fun s' => (s', o, .done) := by
  cases op with
  | new x v =>
    have : itemNeeds l v = 0 := (itemNeeds_eq l v).trans (hv x v rfl)
    simp only [itemStep, Falcon.Item.exec, this, grab]
    cases s.var x <;> rfl
  | use x => exact absurd rfl (hu x)
  | _ =>
    simp only [itemStep]
    split <;> (rename_i he; rw [he]; rfl)

/-- C157 (exact, toString of an item): a text or truth value: the text is returned unless it is long and its copy is refused, which ends the
program. A number: if its text is long and the buffer of the stream is refused more room, the text returned is cut, without any notice; if the buffer gets
room and the copy is refused, the program ends. A short text is always returned. -/
theorem C157_toString_partial (l : Lib) (h : Hd) (t : Str) (o : List Bool) :
    (t.length ≤ l.sso → h ≠ .bignum → textOf l h t o = (some t, o)) ∧
    (l.sso < t.length → h = .string ∨ h = .nil ∨ h = .bool →
      (textOf l h t o).1 = if o.head? = some false then none else some t) ∧
    (l.sso < t.length → h = .int ∨ h = .float →
      (textOf l h t o).1 = if o.head? = some false then some (t.take l.sso) else if o.take 2 = [true, false] then none else some t) := by
  have hs : t.length ≤ l.sso → l.text t = 0 := fun h => if_pos h
  have hl : l.sso < t.length → l.text t = 1 := fun h => if_neg (by omega)
  have hc : l.text (t.take l.sso) = 0 := if_pos (by rw [List.length_take]; omega)
  refine ⟨fun ht hb => ?_, fun ht hh => ?_, fun ht hh => ?_⟩
  · cases h <;> simp_all [textOf, streamed, grab]
  · have hg : ∀ o : List Bool, (grab 1 o).1 = if o.head? = some false then false else true := by
      intro o; match o with
      | [] => rfl
      | true :: _ => rfl
      | false :: _ => rfl
    rcases hh with rfl | rfl | rfl <;>
    · simp only [textOf, hl ht]
      match o with
      | [] => rfl
      | true :: _ => rfl
      | false :: _ => rfl
  · have hn : ¬ t.length ≤ l.sso := by omega
    rcases hh with rfl | rfl <;>
    · simp only [textOf, streamed, if_neg hn]
      match o with
      | [] => simp [grab, hl ht]
      | [true] => simp [grab, hl ht]
      | true :: true :: o => simp [grab, hl ht]
      | true :: false :: o => simp [grab, hl ht]
      | false :: o => simp [grab, hc]

/-- C157 (exact, items): besides what is undefined with all memory in the world, a program with items is ended only by a toString that `textOf` says
cannot return. -/
theorem C157_item_dies_partial (l : Lib) (cs : Bool) (s : Falcon.Item.St) (o : List Bool) (op : Falcon.Item.Op) (e : Fault) :
    itemStep l cs s o op = some (.error e) ↔
      (Falcon.Item.exec cs s op = some (.error e) ∧ e ≠ .terminate) ∨
      (e = .terminate ∧ ∃ x i t o', op = .use x ∧ s.var x = some i ∧ Falcon.Item.toString l.fl l.big s.heap i = .ok t ∧ textOf l i.handler t o = (none, o')) := by
  constructor
  · exact itemStep_error
  · rintro (⟨h, -⟩ | ⟨rfl, x, i, t, o', rfl, hx, ht, hn⟩)
    · cases op with
      | new x v => simp only [Falcon.Item.exec] at h; split at h <;> cases h
      | use x =>
        simp only [Falcon.Item.exec] at h
        split at h
        · cases h
        · rename_i i hx
          split at h
          · cases h
          · rename_i e1 he
            simp only [Option.some.injEq, Except.error.injEq] at h
            subst h
            simp only [itemStep, hx]
            cases ht : Falcon.Item.toString l.fl l.big s.heap i with
            | ok t => obtain ⟨t', h'⟩ := item_text_ok ht; rw [he] at h'; cases h'
            | error e2 => have := (item_text_error ht).1; rw [he] at this; cases this; rfl
      | _ => simp only [itemStep, h]
    · simp only [itemStep, hx, ht, hn]

theorem grab_granted (n : Nat) (o : List Bool) (h : ∀ b ∈ o, b = true) : ∃ o', grab n o = (true, o') ∧ ∀ b ∈ o', b = true := by
  induction n generalizing o with
  | zero => exact ⟨o, rfl, h⟩
  | succ n ih => match o, h with
    | [], _ => exact ⟨[], rfl, nofun⟩
    | true :: o, h => exact ih o (fun b hb => h b (List.mem_cons_of_mem _ hb))
    | false :: o, h => exact absurd (h false (by simp)) (by simp)

theorem textOf_granted (l : Lib) (h : Hd) (t : Str) (o : List Bool) (ho : ∀ b ∈ o, b = true) :
    ∃ o', textOf l h t o = (some t, o') ∧ ∀ b ∈ o', b = true := by
  have hs : ∀ o : List Bool, (∀ b ∈ o, b = true) → ∃ o', streamed l t o = (t, o') ∧ ∀ b ∈ o', b = true := by
    intro o ho
    unfold streamed
    split
    · exact ⟨o, rfl, ho⟩
    · obtain ⟨o1, e1, h1⟩ := grab_granted 1 o ho
      exact ⟨o1, by rw [e1], h1⟩
  cases h with
  | bignum =>
    obtain ⟨o0, e0, h0⟩ := grab_granted (l.str t) o ho
    obtain ⟨o1, e1, h1⟩ := hs o0 h0
    obtain ⟨o2, e2, h2⟩ := grab_granted (l.text t) o1 h1
    exact ⟨o2, by simp only [textOf, e0, e1, e2], h2⟩
  | int | float =>
    obtain ⟨o1, e1, h1⟩ := hs o ho
    obtain ⟨o2, e2, h2⟩ := grab_granted (l.text t) o1 h1
    exact ⟨o2, by simp only [textOf, e1, e2], h2⟩
  | string | nil | bool =>
    obtain ⟨o2, e2, h2⟩ := grab_granted (l.text t) o ho
    exact ⟨o2, by simp only [textOf, e2], h2⟩

/-- As long as no allocation is refused, every statement on items does what it does in the model of C71-C78, and toString returns the whole text. -/
theorem C157_enough (l : Lib) (cs : Bool) (s : Falcon.Item.St) (o : List Bool) (op : Falcon.Item.Op) (ho : ∀ b ∈ o, b = true) :
    ∃ o' r, (∀ b ∈ o', b = true) ∧ r ≠ .badAlloc ∧
      itemStep l cs s o op = ((Falcon.Item.exec cs s op).map fun q => q.map fun s' => (s', o', r)) ∧
      ∀ x i t, op = .use x → s.var x = some i → Falcon.Item.toString l.fl l.big s.heap i = .ok t → r = .text t := by
  cases op with
  | new x v =>
    obtain ⟨o1, e1, h1⟩ := grab_granted (itemNeeds l v) o ho
    refine ⟨o1, .done, h1, by simp, ?_, nofun⟩
    simp only [itemStep, Falcon.Item.exec, e1]
    cases s.var x <;> rfl
  | use x =>
    cases hx : s.var x with
    | none => exact ⟨o, .done, ho, by simp, by simp only [itemStep, Falcon.Item.exec, hx]; rfl, fun x' i t e hi => by cases e; rw [hx] at hi; cases hi⟩
    | some i =>
      cases ht : Falcon.Item.toString l.fl l.big s.heap i with
      | error e =>
        refine ⟨o, .done, ho, by simp, ?_, fun x' i' t e hi h' => ?_⟩
        · simp only [itemStep, Falcon.Item.exec, hx, ht, (item_text_error ht).1]; rfl
        · cases e; rw [hx] at hi; cases hi; rw [ht] at h'; cases h'
      | ok t =>
        obtain ⟨o1, e1, h1⟩ := textOf_granted l i.handler t o ho
        obtain ⟨t', h'⟩ := item_text_ok ht
        refine ⟨o1, .text t, h1, by simp, ?_, fun x' i' t' e hi h' => ?_⟩
        · simp only [itemStep, Falcon.Item.exec, hx, ht, e1, h']; rfl
        · cases e; rw [hx] at hi; cases hi; rw [ht] at h'; cases h'; rfl
  | _ =>
    refine ⟨o, .done, ho, by simp, ?_, nofun⟩
    simp only [itemStep]
    split <;> (rename_i he; rw [he]; rfl)

/-! ### Code -/

theorem code_text_error {s : Falcon.Code.St} {c : Falcon.Code.Code} {e : Fault} (h : Falcon.Code.toString s c = .error e) : ∃ u, e = .ub u := by
  have hr : ∀ (b : Falcon.Code.Buf) (k i : Nat) e, b.readZ k i = .error e → ∃ u, e = .ub u := by
    intro b k
    induction k with
    | zero => intro i e h; cases h; exact ⟨_, rfl⟩
    | succ k ih =>
      intro i e h
      simp only [Falcon.Code.Buf.readZ] at h
      split at h
      · cases h; exact ⟨_, rfl⟩
      · split at h
        · cases h
        · split at h
          · cases h
          · rename_i he; cases h; exact ih _ _ he
  unfold Falcon.Code.toString at h
  split at h
  · cases h; exact ⟨_, rfl⟩
  · split at h
    · cases h; exact ⟨_, rfl⟩
    · exact hr _ _ _ _ h

theorem code_fill_error {src : Str} {e : Fault} (h : Falcon.Code.fill src = .error e) : ∃ u, e = .ub u := by
  by_cases hl : src.length < 1000
  · obtain ⟨b, hb, -⟩ := Falcon.Code.fill_ok src hl; rw [hb] at h; cases h
  · rw [Falcon.Code.fill_overflow src (by omega)] at h; cases h; exact ⟨_, rfl⟩

theorem code_exec_no_terminate {s : Falcon.Code.St} {op : Falcon.Code.Op} {e : Fault} (h : Falcon.Code.exec s op = some (.error e)) : ∃ u, e = .ub u := by
  cases op with
  | new x src line =>
    simp only [Falcon.Code.exec] at h
    split at h
    · cases h
    · split at h
      · cases h
      · rename_i he; cases h; exact code_fill_error he
  | copy x y => simp only [Falcon.Code.exec] at h; split at h <;> cases h
  | move x y => simp only [Falcon.Code.exec] at h; split at h <;> cases h
  | assign x y => simp only [Falcon.Code.exec] at h; split at h <;> cases h
  | del x =>
    simp only [Falcon.Code.exec] at h
    split at h
    · cases h
    · split at h
      · cases h
      · rename_i he
        cases h
        unfold Falcon.Code.freeBuf at he
        split at he
        · cases he
        · split at he
          · cases he
          · cases he; exact ⟨_, rfl⟩
  | use x =>
    simp only [Falcon.Code.exec] at h
    split at h
    · cases h
    · split at h
      · cases h
      · rename_i he; cases h; exact code_text_error he

/-- The statement ends the program because it is refused memory. -/
def CodeDies (l : Lib) (s : Falcon.Code.St) (o : List Bool) : Falcon.Code.Op → Prop
  | .new x src _ => s.var x = none ∧ Refused (l.text src + 1) o
  | .copy x y => s.var x = none ∧ ∃ c, s.var y = some c ∧ Refused (l.text c.source) o
  | .use x => ∃ c t, s.var x = some c ∧ Falcon.Code.toString s c = .ok t ∧ Refused (l.text t) o
  | _ => False

/-- The statement throws std::bad_alloc. -/
def CodeThrows (l : Lib) (s : Falcon.Code.St) (o : List Bool) : Falcon.Code.Op → Prop
  | .assign x y => x ≠ y ∧ s.var x ≠ none ∧ ∃ c, s.var y = some c ∧ Refused (l.text c.source) o
  | _ => False

theorem not_refused_zero (o : List Bool) : ¬ Refused 0 o := by simp [Refused]

/-- C157 (exact, code objects): a statement either ends the program (construction, copy construction and toString that are refused memory), or throws and
changes nothing (an assignment that is refused memory), or does what it does with all memory in the world. -/
theorem C157_code_partial (l : Lib) (s : Falcon.Code.St) (o : List Bool) (op : Falcon.Code.Op) :
    (CodeDies l s o op ∧ codeStep l s o op = some (.error .terminate)) ∨
    (CodeThrows l s o op ∧ ∃ o', codeStep l s o op = some (.ok (s, o', .badAlloc))) ∨
    (¬ CodeDies l s o op ∧ ¬ CodeThrows l s o op ∧ ∃ o' r, r ≠ .badAlloc ∧
      codeStep l s o op = (Falcon.Code.exec s op).map fun q => q.map fun s' => (s', o', r)) := by
  cases op with
  | new x src line =>
    simp only [codeStep, CodeDies, CodeThrows]
    cases hx : s.var x with
    | some c => exact .inr (.inr ⟨by simp, id, o, .done, by simp, by simp only [Falcon.Code.exec, hx]; rfl⟩)
    | none =>
      rcases grab_case (l.text src + 1) o with ⟨o1, e, hr⟩ | ⟨o1, e, hr⟩
      · exact .inl ⟨⟨rfl, hr⟩, by simp only [e]⟩
      · refine .inr (.inr ⟨fun h => hr h.2, id, o1, .done, by simp, ?_⟩)
        simp only [e]
        rcases Falcon.Code.exec s (.new x src line) with _ | _ | _ <;> rfl
  | copy x y =>
    simp only [codeStep, CodeDies, CodeThrows]
    cases hx : s.var x with
    | some c => exact .inr (.inr ⟨by simp, id, o, .done, by simp, by simp only [Falcon.Code.exec, hx]; rfl⟩)
    | none =>
      cases hy : s.var y with
      | none => exact .inr (.inr ⟨by simp, id, o, .done, by simp, by simp only [Falcon.Code.exec, hx, hy]; rfl⟩)
      | some c =>
        rcases grab_case (l.text c.source) o with ⟨o1, e, hr⟩ | ⟨o1, e, hr⟩
        · exact .inl ⟨⟨rfl, c, rfl, hr⟩, by simp only [e]⟩
        · refine .inr (.inr ⟨?_, id, o1, .done, by simp, by simp only [e, Falcon.Code.exec, hx, hy]; rfl⟩)
          rintro ⟨-, c', h', hr'⟩
          cases h'
          exact hr hr'
  | assign x y =>
    simp only [codeStep, CodeDies, CodeThrows]
    cases hx : s.var x with
    | none => exact .inr (.inr ⟨id, by simp, o, .done, by simp, by simp only [Falcon.Code.exec, hx]; rfl⟩)
    | some d =>
      cases hy : s.var y with
      | none => exact .inr (.inr ⟨id, by simp, o, .done, by simp, by simp only [Falcon.Code.exec, hx, hy]; rfl⟩)
      | some c =>
        rcases grab_case (if x = y then 0 else l.text c.source) o with ⟨o1, e, hr⟩ | ⟨o1, e, hr⟩
        · right; left
          by_cases hxy : x = y
          · rw [if_pos hxy] at hr; exact absurd hr (not_refused_zero o)
          · rw [if_neg hxy] at hr
            exact ⟨⟨hxy, by simp, c, rfl, hr⟩, o1, by simp only [e]⟩
        · refine .inr (.inr ⟨id, ?_, o1, .done, by simp, by simp only [e, Falcon.Code.exec, hx, hy]; rfl⟩)
          rintro ⟨hxy, -, c', h', hr'⟩
          cases h'
          rw [if_neg hxy] at hr
          exact hr hr'
  | use x =>
    simp only [codeStep, CodeDies, CodeThrows]
    cases hx : s.var x with
    | none => exact .inr (.inr ⟨by simp, id, o, .done, by simp, by simp only [Falcon.Code.exec, hx]; rfl⟩)
    | some c =>
      cases ht : Falcon.Code.toString s c with
      | error e =>
        refine .inr (.inr ⟨?_, id, o, .done, by simp, by simp only [Falcon.Code.exec, hx, ht]; rfl⟩)
        rintro ⟨c', t, h', h2, -⟩
        cases h'
        rw [ht] at h2; cases h2
      | ok t =>
        rcases grab_case (l.text t) o with ⟨o1, e, hr⟩ | ⟨o1, e, hr⟩
        · exact .inl ⟨⟨c, t, rfl, ht, hr⟩, by simp only [ht, e]⟩
        · refine .inr (.inr ⟨?_, id, o1, .text t, by simp, by simp only [Falcon.Code.exec, hx, ht, e]; rfl⟩)
          rintro ⟨c', t', h', h2, hr'⟩
          cases h'
          rw [ht] at h2; cases h2
          exact hr hr'
  | move x y =>
    refine .inr (.inr ⟨id, id, o, .done, by simp, ?_⟩)
    simp only [codeStep]
    rcases Falcon.Code.exec s (.move x y) with _ | _ | _ <;> rfl
  | del x =>
    refine .inr (.inr ⟨id, id, o, .done, by simp, ?_⟩)
    simp only [codeStep]
    rcases Falcon.Code.exec s (.del x) with _ | _ | _ <;> rfl

/-- C157 (what holds, code objects): whatever is refused, a program with code objects that goes on has the effect, and the texts, of the program
without the assignments that ended with std::bad_alloc. -/
theorem C157_codes_partial (l : Lib) (s s' : Falcon.Code.St) (o o' : List Bool) (ops : List Falcon.Code.Op) (rs : List Outcome)
    (h : codeRun l s o ops = some (.ok (s', o', rs))) :
    rs.length = ops.length ∧ Falcon.Code.run s (survivors ops rs) = some (.ok s') ∧ s'.out = s.out ++ texts rs := by
  induction ops generalizing s o rs with
  | nil => simp only [codeRun, Option.some.injEq, Except.ok.injEq, Prod.mk.injEq] at h; obtain ⟨rfl, rfl, rfl⟩ := h; exact ⟨rfl, rfl, by simp [texts]⟩
  | cons op ops ih =>
    simp only [codeRun] at h
    split at h
    · cases h
    · cases h
    · rename_i s1 o1 r h1
      split at h
      · cases h
      · cases h
      · rename_i s2 o2 rs' h2
        simp only [Option.some.injEq, Except.ok.injEq, Prod.mk.injEq] at h
        obtain ⟨rfl, rfl, rfl⟩ := h
        obtain ⟨i1, i2, i3⟩ := ih _ _ _ h2
        have hout : s1.out = s.out ++ texts [r] := by
          cases op with
          | use x =>
            simp only [codeStep] at h1
            split at h1
            · cases h1
            · split at h1
              · cases h1
              · split at h1
                · cases h1
                · simp only [Option.some.injEq, Except.ok.injEq, Prod.mk.injEq] at h1
                  obtain ⟨rfl, rfl, rfl⟩ := h1
                  simp [texts]
          | new x src line =>
            simp only [codeStep] at h1
            split at h1
            · cases h1
            · split at h1
              · cases h1
              · split at h1
                · cases h1
                · cases h1
                · rename_i he
                  simp only [Option.some.injEq, Except.ok.injEq, Prod.mk.injEq] at h1
                  obtain ⟨rfl, rfl, rfl⟩ := h1
                  simp only [Falcon.Code.exec] at he
                  split at he
                  · cases he
                  · split at he
                    · simp only [Option.some.injEq, Except.ok.injEq] at he
                      subst he; simp [texts, Falcon.Code.setVar]
                    · cases he
          | copy x y =>
            simp only [codeStep] at h1
            split at h1
            · split at h1
              · cases h1
              · simp only [Option.some.injEq, Except.ok.injEq, Prod.mk.injEq] at h1
                obtain ⟨rfl, rfl, rfl⟩ := h1
                simp [texts, Falcon.Code.setVar]
            · cases h1
          | assign x y =>
            simp only [codeStep] at h1
            split at h1
            · split at h1 <;>
              · simp only [Option.some.injEq, Except.ok.injEq, Prod.mk.injEq] at h1
                obtain ⟨rfl, rfl, rfl⟩ := h1
                simp [texts, Falcon.Code.setVar]
            · cases h1
          | move x y =>
            simp only [codeStep, Falcon.Code.exec] at h1
            cases hx : s.var x <;> cases hy : s.var y <;> simp only [hx, hy] at h1 <;>
              first
              | (cases h1; done)
              | (simp only [Option.some.injEq, Except.ok.injEq, Prod.mk.injEq] at h1
                 obtain ⟨rfl, rfl, rfl⟩ := h1
                 exact (List.append_nil _).symm)
          | del x =>
            simp only [codeStep] at h1
            split at h1
            · cases h1
            · cases h1
            · rename_i he
              simp only [Option.some.injEq, Except.ok.injEq, Prod.mk.injEq] at h1
              obtain ⟨rfl, rfl, rfl⟩ := h1
              simp only [Falcon.Code.exec] at he
              split at he
              · cases he
              · rename_i c _
                split at he
                · rename_i hf
                  simp only [Option.some.injEq, Except.ok.injEq] at he
                  subst he
                  unfold Falcon.Code.freeBuf at hf
                  split at hf
                  · cases hf; simp [texts, Falcon.Code.setVar]
                  · split at hf
                    · cases hf; simp [texts, Falcon.Code.setVar]
                    · cases hf
                · cases he
        have hcat : s2.out = s.out ++ texts (r :: rs') := by
          rw [i3, hout, List.append_assoc]
          congr 1
          show _ = texts ([r] ++ rs')
          simp only [texts, List.filterMap_append]
        refine ⟨by simp [i1], ?_, hcat⟩
        rcases C157_code_partial l s o op with ⟨-, e⟩ | ⟨-, o3, e⟩ | ⟨-, -, o3, r3, hr3, e⟩
        · rw [h1] at e; cases e
        · rw [h1] at e
          simp only [Option.some.injEq, Except.ok.injEq, Prod.mk.injEq] at e
          obtain ⟨rfl, -, rfl⟩ := e
          simpa [survivors] using i2
        · rw [h1] at e
          rcases he : Falcon.Code.exec s op with _ | e1 | s3 <;> rw [he] at e
          · cases e
          · cases e
          · simp only [Option.map, Except.map, Option.some.injEq, Except.ok.injEq, Prod.mk.injEq] at e
            obtain ⟨rfl, -, rfl⟩ := e
            simp only [survivors, if_neg hr3, Falcon.Code.run, he]
            exact i2

/-! ### Compiler -/

/-- C157 (exact, compiler): when the text read runs out of memory behind the first `c` characters of a word, `k` of which were stored, the call
does not fail: it returns code for those `k` characters, and the stream is left bad behind the `c` characters. -/
theorem C157_compile_partial (l : Lib) (st : Falcon.Code.St) (x : Nat) (i j : Falcon.Code.IStream) (w : Str) (c k : Nat) (hx : st.var x = none)
    (hg : i.eof = false ∧ i.fail = false) (hw : i.extract = .ok (w, j)) (hs : i.skipws = true) (hn : i.width = 0) (h0 : 0 < c) (hc : c ≤ w.length) (hk : k ≤ c)
    (hk' : k < 1000) (hz : '\x00' ∉ w) :
    ∃ st' r b, compile l st x ⟨i, false, false⟩ (some (c, k)) [] = some (.ok (st', ⟨{ i with rest := r }, true, false⟩, [])) ∧
      w.drop c ++ j.rest = r ∧ st'.var x = some b ∧ Falcon.Code.toString st' b = .ok (w.take k) := by
  have hex : w = (Falcon.Code.takeWord none (i.rest.dropWhile Falcon.Code.isSpace)).1 ∧
      j.rest = (Falcon.Code.takeWord none (i.rest.dropWhile Falcon.Code.isSpace)).2.1 := by
    simp only [Falcon.Code.IStream.extract, hg.1, hg.2, Bool.or_self, Bool.false_eq_true, if_false, hs, if_true, hn] at hw
    split at hw
    · rename_i hr
      split at hw
      · simp only [Except.ok.injEq, Prod.mk.injEq] at hw
        rw [← hw.1] at hc
        simp at hc; omega
      · cases hw
    · rename_i hr
      rcases e : Falcon.Code.takeWord none (i.rest.dropWhile Falcon.Code.isSpace) with ⟨w', r', b⟩
      simp only [e] at hw
      split at hw
      · rename_i j' he
        simp only [Except.ok.injEq, Prod.mk.injEq] at hw
        obtain ⟨rfl, rfl⟩ := hw
        refine ⟨rfl, ?_⟩
        unfold Falcon.Code.IStream.setState at he
        dsimp only at he
        split at he
        · cases he
        · cases he; rfl
      · cases hw
  have happ : ∀ r : Str, (Falcon.Code.takeWord none r).1 ++ (Falcon.Code.takeWord none r).2.1 = r := by
    intro r
    induction r with
    | nil => rfl
    | cons a r ih =>
      simp only [Falcon.Code.takeWord]
      split
      · rfl
      · simpa using ih
  generalize hr : i.rest.dropWhile Falcon.Code.isSpace = r0 at hex
  have h1 := happ r0
  rw [← hex.1, ← hex.2] at h1
  have hlen : (w.take k).length < 1000 := by simp; omega
  obtain ⟨bf, f1, f2, f3⟩ := Falcon.Code.fill_ok (w.take k) hlen
  have hrd := Falcon.Code.readZ_eq (w.take k) bf Falcon.Code.bufSize 0 hlen (by simpa using f2) (by simpa using f3)
  rw [Falcon.Code.takeWhile_holdable _ (fun h => hz (List.mem_of_mem_take h))] at hrd
  have hw2 : (Falcon.Code.takeWord (if i.width = 0 then none else some i.width) (if i.skipws = true then i.rest.dropWhile Falcon.Code.isSpace else i.rest)).1 = w := by
    rw [if_pos hn, if_pos hs, hr]; exact hex.1.symm
  have hext : extract ⟨i, false, false⟩ (some (c, k)) = .ok (w.take k, ⟨{ i with rest := r0.drop c }, true, false⟩) := by
    unfold extract
    dsimp only
    rw [if_neg (by simp), hw2, if_pos ⟨hg.1, hg.2, h0, hc⟩, if_neg (by simp), if_pos hs, hr, Nat.min_eq_left hk]
  have hgr : ∀ n, grab n [] = (true, []) := by intro n; cases n <;> rfl
  refine ⟨Falcon.Code.setVar { st with buf := fun a => if a = st.next then some bf else st.buf a, next := st.next + 1 } x (some ⟨w.take k, 1, some st.next⟩),
    r0.drop c, ⟨w.take k, 1, some st.next⟩, ?_, ?_, ?_, ?_⟩
  · unfold compile
    rw [hext]
    simp only [codeStep, hx, hgr, Falcon.Code.exec, f1]
  · rw [← h1, List.drop_append_of_le_length hc]
  · simp [Falcon.Code.setVar]
  · simp [Falcon.Code.toString, Falcon.Code.setVar, hrd]

/-- Without such a failure compiling is that of C81, or ends the program when the code object is refused memory. -/
theorem C157_compile_plain_partial (l : Lib) (st : Falcon.Code.St) (x : Nat) (i : Falcon.Code.IStream) (o : List Bool) (b : Bool) :
    (compile l st x ⟨i, false, b⟩ none o = some (.error .terminate) ∧ ∃ w j, i.extract = .ok (w, j) ∧ Refused (l.text w + 1) o) ∨
    ∃ o', compile l st x ⟨i, false, b⟩ none o = (Falcon.Code.compile st x i).map fun q => q.map fun p => (p.1, ⟨p.2, false, b⟩, o') := by
  unfold compile extract Falcon.Code.compile
  dsimp only
  rw [if_neg (by simp)]
  rcases e : i.extract with f | ⟨w, j⟩
  · right; refine ⟨o, ?_⟩
    cases f <;> rfl
  · dsimp only
    rcases C157_code_partial l st o (.new x w 1) with ⟨hd, e1⟩ | ⟨hd, -⟩ | ⟨-, -, o1, r1, -, e1⟩
    · exact .inl ⟨by rw [e1], w, j, rfl, hd.2⟩
    · exact absurd hd id
    · right; refine ⟨o1, ?_⟩
      rw [e1]
      rcases Falcon.Code.exec st (.new x w 1) with _ | _ | _ <;> rfl

/-- Compiling from a stream that is bad (for instance after such a failure) reads nothing and gives code with the empty text; it ends the program if the
stream was told to throw in that case, or if the code object is refused memory. -/
theorem C157_compile_bad_partial (l : Lib) (st : Falcon.Code.St) (x : Nat) (i : Falcon.Code.IStream) (b : Bool) (cut : Option (Nat × Nat)) (o : List Bool)
    (hx : st.var x = none) :
    (compile l st x ⟨i, true, b⟩ cut o = some (.error .terminate) ∧ ((i.eof = true ∧ i.excEof = true) ∨ i.excFail = true ∨ b = true ∨ Refused 1 o)) ∨
    ∃ st' c o', compile l st x ⟨i, true, b⟩ cut o = some (.ok (st', ⟨{ i with fail := true }, true, b⟩, o')) ∧
      st'.var x = some c ∧ Falcon.Code.toString st' c = .ok [] ∧ ¬ (i.eof = true ∧ i.excEof = true) ∧ i.excFail = false ∧ b = false ∧ ¬ Refused 1 o := by
  have hst : i.setState false true = if (i.eof && i.excEof || i.excFail) = true then .error (.exn .user) else .ok { i with fail := true } := by
    simp [Falcon.Code.IStream.setState]
  by_cases h1 : (i.eof && i.excEof || i.excFail) = true
  · left
    refine ⟨?_, ?_⟩
    · simp only [compile, extract, hst, if_true, h1]
    · simp at h1; rcases h1 with h1 | h1
      · exact .inl h1
      · exact .inr (.inl h1)
  · have h2 : ¬ (i.eof = true ∧ i.excEof = true) ∧ i.excFail = false := by
      simp at h1
      exact ⟨fun h => absurd (h1.1 h.1) (by simp [h.2]), h1.2⟩
    cases b with
    | true =>
      left
      exact ⟨by simp only [compile, extract, hst, if_true, if_neg h1], .inr (.inr (.inl rfl))⟩
    | false =>
      have hext : extract ⟨i, true, false⟩ cut = .ok ([], ⟨{ i with fail := true }, true, false⟩) := by
        simp only [extract, hst, if_true, if_neg h1, Bool.false_eq_true, if_false]
      have ht : l.text [] + 1 = 1 := by simp [Lib.text]
      obtain ⟨bf, f1, f2, f3⟩ := Falcon.Code.fill_ok [] (by simp)
      have hrd := Falcon.Code.readZ_eq [] bf Falcon.Code.bufSize 0 (by decide) (by simp) (by simpa using f3)
      rcases grab_case 1 o with ⟨o1, e, hr⟩ | ⟨o1, e, hr⟩
      · exact .inl ⟨by simp only [compile, hext, codeStep, hx, ht, e], .inr (.inr (.inr hr))⟩
      · right
        refine ⟨Falcon.Code.setVar { st with buf := fun a => if a = st.next then some bf else st.buf a, next := st.next + 1 } x (some ⟨[], 1, some st.next⟩),
          ⟨[], 1, some st.next⟩, o1, ?_, ?_, ?_, h2.1, h2.2, rfl, hr⟩
        · simp only [compile, hext, codeStep, hx, ht, e, Falcon.Code.exec, f1]
        · simp [Falcon.Code.setVar]
        · simp [Falcon.Code.toString, Falcon.Code.setVar]
          simpa using hrd

/-! ### C157 is false -/

/-- The library of the GNU compiler: 15 characters are held without an allocation. -/
def gnu : Lib := ⟨15, fun _ => 1, Falcon.Item.floatText, fun _ => ['0']⟩

/-- C157 does not hold (1): an integer of more than 15 digits, converted to text when there is no memory, gives the text of another number, without any notice. -/
theorem C157_number_refuted : ((itemRun gnu true {} [false] [.new 0 (.int64 1234567890123456789#64), .use 0]).map fun r => r.toOption.map fun p => p.2.2) =
    some (some [.done, .text "123456789012345".toList]) := by
  decide +kernel

/-- C157 does not hold (2): toString of a text that is too long ends the program when there is no memory. -/
theorem C157_toString_refuted : itemRun gnu true {} [true, true, false] [.new 0 (.cstring "a text of some length".toList), .use 0] = some (.error .terminate) := by
  rfl

/-- C157 does not hold (3): the construction of any code object ends the program when there is no memory; so does copying one with a long source. -/
theorem C157_code_refuted (l : Lib) (st : Falcon.Code.St) (x : Nat) (src : Str) (line : Int) (o : List Bool) (hx : st.var x = none) :
    codeStep l st (false :: o) (.new x src line) = some (.error .terminate) := by
  rcases C157_code_partial l st (false :: o) (.new x src line) with ⟨-, h⟩ | ⟨h, -⟩ | ⟨h, -⟩
  · exact h
  · exact absurd h id
  · exact absurd ⟨hx, by simp [Refused]⟩ h

/-- C157 does not hold (4): compiling a long word when there is no memory for it gives code for a part of it, and no exception. -/
theorem C157_compile_refuted : ((compile gnu {} 0 ⟨{ rest := "printl(123456789)".toList }, false, false⟩ (some (17, 15)) []).map fun r => r.toOption.map fun p =>
    (p.1.var 0).map fun c => ((Falcon.Code.toString p.1 c).toOption, p.2.1.bad)) = some (some (some (some "printl(12345678".toList, true))) := by
  decide +kernel

/-! non-vacuity -/

/-- a construction that is refused memory for its text, then one that gets it -/
example : ((itemRun gnu true {} [true, true, false] [.new 0 (.string "0123456789012345".toList), .new 0 (.string "0123456789012345".toList), .use 0]).map
    fun r => r.toOption.map fun p => p.2.2) = some (some [.badAlloc, .done, .text "0123456789012345".toList]) := by
  decide +kernel

/-- short texts are always returned -/
example : ((itemRun gnu true {} [true, false] [.new 0 (.string "abc".toList), .use 0, .new 1 (.string "d".toList), .use 0]).map
    fun r => r.toOption.map fun p => p.2.2) = some (some [.done, .text "abc".toList, .badAlloc, .text "abc".toList]) := by
  decide +kernel

/-- an assignment that fails leaves both as they were -/
example : ((codeRun gnu {} [true, true, true, false] [.new 0 "0123456789012345".toList 1, .new 1 "b".toList 1, .assign 1 0, .use 1]).map
    fun r => r.toOption.map fun p => p.2.2) = some (some [.done, .done, .badAlloc, .text "b".toList]) := by
  decide +kernel

/-- the hypotheses of C157_compile_partial -/
example : ∃ i j w, i.eof = false ∧ i.fail = false ∧ Falcon.Code.IStream.extract i = .ok (w, j) ∧ i.skipws = true ∧ i.width = 0 ∧ 17 ≤ w.length ∧ '\x00' ∉ w :=
  ⟨{ rest := " printl(123456789) x".toList }, { rest := " x".toList }, "printl(123456789)".toList, rfl, rfl, by decide +kernel, rfl, rfl, by decide, by decide⟩

end Falcon.Mem
