import Verif.Spec.ItemStack
import Verif.Proofs.PSLaw
import Verif.Props.Item
import Verif.Props.StackIter
/- Items on a stack: who owns which heap object. -/
namespace Falcon.ItemStack
open Falcon.Item (Item Heap Val make makeNil destroy Fits flat_iff)
open Falcon.PagedStack

/-- the heap object an item owns -/
def own (i : Item) : Option Nat := if i.handler = .string ∨ i.handler = .bignum then (match i.data with | .ptr a => some a | _ => none) else none

theorem own_flat {i : Item} (h : i.Flat) : own i = none := by
  unfold own; rw [if_neg]; intro h'; exact (flat_iff i).2 h' h

theorem own_deep {i : Item} (h : ¬ i.Flat) {a : Nat} (hd : i.data = .ptr a) : own i = some a := by
  unfold own; rw [if_pos ((flat_iff i).1 h), hd]

theorem own_some {i : Item} {a : Nat} (h : own i = some a) : ¬ i.Flat ∧ i.data = .ptr a := by
  unfold own at h
  split at h
  · rename_i hh
    refine ⟨(flat_iff i).2 hh, ?_⟩
    split at h <;> cases h; assumption
  · cases h

/-- Every item of the list is well formed, every heap object is owned by exactly one item of the list. -/
structure Owns (h : Heap) (l : List Item) : Prop where
  fits  : ∀ i ∈ l, Fits h.obj i
  nodup : (l.filterMap own).Nodup
  live  : ∀ a, h.obj a ≠ none → a ∈ l.filterMap own
  fresh : ∀ a, h.obj a ≠ none → a < h.next

theorem Owns.perm {h : Heap} {l l' : List Item} (hp : l.Perm l') (g : Owns h l) : Owns h l' :=
  ⟨fun i hi => g.fits i (hp.mem_iff.2 hi), (hp.filterMap own).nodup_iff.1 g.nodup, fun a ha => (hp.filterMap own).mem_iff.1 (g.live a ha), g.fresh⟩

theorem Owns.nil : Owns {} [] := ⟨by simp, by simp, fun a h => absurd rfl h, fun a h => absurd rfl h⟩

theorem Owns.addFlat {h : Heap} {l : List Item} (g : Owns h l) {i : Item} (hi : i.Flat) (hf : Fits h.obj i) : Owns h (i :: l) := by
  have e : (i :: l).filterMap own = l.filterMap own := by rw [List.filterMap_cons, own_flat hi]
  refine ⟨?_, by rw [e]; exact g.nodup, by rw [e]; exact g.live, g.fresh⟩
  intro j hj
  rcases List.mem_cons.1 hj with rfl | hj
  · exact hf
  · exact g.fits j hj

theorem Owns.dropFlat {h : Heap} {l : List Item} {i : Item} (hi : i.Flat) (g : Owns h (i :: l)) : Owns h l := by
  have e : (i :: l).filterMap own = l.filterMap own := by rw [List.filterMap_cons, own_flat hi]
  exact ⟨fun j hj => g.fits j (List.mem_cons_of_mem _ hj), by rw [← e]; exact g.nodup, by rw [← e]; exact g.live, g.fresh⟩

theorem Owns.owned {h : Heap} {l : List Item} (g : Owns h l) {a : Nat} (ha : a ∈ l.filterMap own) : h.obj a ≠ none := by
  obtain ⟨i, hi, hi'⟩ := List.mem_filterMap.1 ha
  obtain ⟨h1, h2⟩ := own_some hi'
  obtain ⟨b, o, h3, h4⟩ := (g.fits i hi).deep h1
  rw [h2] at h3; cases h3; rw [h4]; simp

theorem Owns.addDeep {h : Heap} {l : List Item} (g : Owns h l) (o : Item.Obj) (hd : Item.Hd) (hh : hd = .string ∨ hd = .bignum)
    (hf : Fits (h.alloc o).2.obj ⟨.ptr (h.alloc o).1, hd⟩) : Owns (h.alloc o).2 (⟨.ptr (h.alloc o).1, hd⟩ :: l) := by
  have ho : own (⟨.ptr (h.alloc o).1, hd⟩ : Item) = some h.next := by
    unfold own; rw [if_pos hh]; rfl
  have hnew : h.next ∉ l.filterMap own := fun hm => Nat.lt_irrefl _ (g.fresh _ (g.owned hm))
  refine ⟨?_, ?_, ?_, ?_⟩
  · intro j hj
    rcases List.mem_cons.1 hj with rfl | hj
    · exact hf
    · refine (g.fits j hj).mono (fun hj' a ha => ?_)
      have : a ≠ h.next := by
        rintro rfl
        exact hnew (List.mem_filterMap.2 ⟨j, hj, own_deep hj' ha⟩)
      simp [Heap.alloc, this]
  · rw [List.filterMap_cons, ho]; exact List.nodup_cons.2 ⟨hnew, g.nodup⟩
  · intro a ha
    rw [List.filterMap_cons, ho]
    by_cases e : a = h.next
    · subst e; exact List.mem_cons_self
    · exact List.mem_cons_of_mem _ (g.live a (by simpa [Heap.alloc, e] using ha))
  · intro a ha
    by_cases e : a = h.next
    · subst e; simp [Heap.alloc]
    · have := g.fresh a (by simpa [Heap.alloc, e] using ha)
      simp [Heap.alloc]; omega

theorem Owns.make {h : Heap} {l : List Item} (g : Owns h l) (cs : Bool) (v : Val) : Owns (make cs h v).2 ((make cs h v).1 :: l) := by
  cases v with
  | bool b => exact g.addFlat (by constructor <;> simp [Item.make]) ⟨_, rfl⟩
  | char b => exact g.addFlat (by constructor <;> simp [Item.make]) ⟨_, rfl⟩
  | byte b => exact g.addFlat (by constructor <;> simp [Item.make]) ⟨_, rfl⟩
  | int32 b => exact g.addFlat (by constructor <;> simp [Item.make]) ⟨_, rfl⟩
  | uint32 b => exact g.addFlat (by constructor <;> simp [Item.make]) ⟨_, rfl⟩
  | int64 b => exact g.addFlat (by constructor <;> simp [Item.make]) ⟨_, rfl⟩
  | uint64 b => exact g.addFlat (by constructor <;> simp [Item.make]) ⟨_, rfl⟩
  | numeric b => exact g.addFlat (by constructor <;> simp [Item.make]) ⟨_, rfl⟩
  | cstring t => exact g.addDeep _ .string (.inl rfl) ⟨_, _, rfl, by simp [Heap.alloc]; rfl⟩
  | string t => exact g.addDeep _ .string (.inl rfl) ⟨_, _, rfl, by simp [Heap.alloc]; rfl⟩
  | bignum t => exact g.addDeep _ .bignum (.inr rfl) ⟨_, _, rfl, by simp [Heap.alloc]; rfl⟩

theorem isFlat_of {i : Item} (hf : i.Flat) : i.handler.isFlat = true := by
  unfold Item.Flat at hf; cases hh : i.handler <;> simp_all [Item.Hd.isFlat]

theorem isFlat_of_not {i : Item} (hf : ¬ i.Flat) : i.handler.isFlat = false := by
  rcases (flat_iff i).1 hf with e | e <;> rw [e] <;> rfl

theorem Owns.destroy {h : Heap} {l : List Item} {i : Item} (g : Owns h (i :: l)) : ∃ h', destroy h i.handler i.data = .ok h' ∧ Owns h' l := by
  by_cases hf : i.Flat
  · exact ⟨h, by simp [Item.destroy, isFlat_of hf], g.dropFlat hf⟩
  · obtain ⟨a, o, h1, h2⟩ := (g.fits i List.mem_cons_self).deep hf
    have hn := g.nodup
    rw [List.filterMap_cons, own_deep hf h1] at hn
    obtain ⟨hn1, hn2⟩ := List.nodup_cons.1 hn
    refine ⟨{ h with obj := fun y => if y = a then none else h.obj y }, by simp [Item.destroy, isFlat_of_not hf, h1, Heap.free, h2], ?_, hn2, ?_, ?_⟩
    · intro j hj
      refine (g.fits j (List.mem_cons_of_mem _ hj)).mono (fun hj' b hb => ?_)
      have : b ≠ a := by
        rintro rfl
        exact hn1 (List.mem_filterMap.2 ⟨j, hj, own_deep hj' hb⟩)
      simp [this]
    · intro b hb
      by_cases e : b = a
      · subst e; simp at hb
      · have := g.live b (by simpa [e] using hb)
        rw [List.filterMap_cons, own_deep hf h1] at this
        rcases List.mem_cons.1 this with e' | e'
        · exact absurd e' e
        · exact e'
    · intro b hb
      by_cases e : b = a
      · subst e; simp at hb
      · exact g.fresh b (by simpa [e] using hb)

theorem law (cs : Bool) : Law (itemElem cs) Owns := ⟨fun h g => g.perm h, fun g => g.destroy⟩

theorem fits_use {obj : Heap} {i : Item} (hf : Fits obj.obj i) (fl : Item.Dbl → Item.Str) (big : Item.Obj → Item.Str) :
    ∃ t, Item.toString fl big obj i = .ok t := by
  unfold Fits at hf
  unfold Item.toString
  cases hh : i.handler <;> rw [hh] at hf <;> simp only at hf ⊢
  · exact ⟨_, rfl⟩
  · obtain ⟨b, e⟩ := hf; rw [e]; exact ⟨_, rfl⟩
  · obtain ⟨b, e⟩ := hf; rw [e]; exact ⟨_, rfl⟩
  · obtain ⟨b, e⟩ := hf; rw [e]; exact ⟨_, rfl⟩
  · obtain ⟨a, t, e, e2⟩ := hf; exact ⟨t, by simp [e, Heap.deref, e2]⟩
  · obtain ⟨a, t, e, e2⟩ := hf; exact ⟨big (.big t), by simp [e, Heap.deref, e2]⟩

/-- invariant of programs that copy flat items only -/
structure Ok (ps al : Nat) (s : St) : Prop where
  inv  : Inv ps al s.st
  owns : Owns s.heap (s.st.base.flatten ++ s.vars)

theorem erase_perm {α : Type} {l : List α} {k : Nat} {i : α} (h : l[k]? = some i) : l.Perm (i :: l.eraseIdx k) := by
  obtain ⟨hk, rfl⟩ := List.getElem?_eq_some_iff.1 h
  exact (List.getElem_cons_eraseIdx_perm hk).symm

theorem set_perm {α : Type} {l : List α} {k : Nat} (hk : k < l.length) (v : α) : (l.set k v).Perm (v :: l.eraseIdx k) :=
  List.set_perm_cons_eraseIdx hk v

theorem size_of_Inv {ps al : Nat} {s : PS Item} (h : Inv ps al s) : size s = .ok (contents s).length := by
  obtain ⟨pre, cp, k, n, sr, rfl, g⟩ := h
  rw [size_spec, contents_mk, List.length_reverse]

theorem enough_iff {ps al : Nat} {s : PS Item} (h : Inv ps al s) (n : Nat) : enough s n = true ↔ n ≤ (contents s).length := by
  simp [enough, size_of_Inv h]

section plain
variable {α : Type} {ps al : Nat}

theorem plain_push (h0 : 0 < ps) (ha : 0 < al) {s : PS α} (h : Inv ps al s) (x : α) :
    ∃ s', push s x = .ok s' ∧ Inv ps al s' ∧ contents s' = x :: contents s := by
  obtain ⟨s', e, r⟩ := R_push h0 ha (R_of_Inv h) x
  exact ⟨s', e, Inv_of_R r, contents_of_R r⟩

theorem plain_pop (h0 : 0 < ps) (ha : 0 < al) {s : PS α} (h : Inv ps al s) {x : α} {xs : List α} (hc : contents s = x :: xs) :
    ∃ s', popOne s = .ok s' ∧ Inv ps al s' ∧ contents s' = xs := by
  obtain ⟨s', e, r⟩ := R_step h0 ha (R_of_Inv h) .pop (o := .unit) (t' := ⟨xs, s.base.length, s.syncCount.toNat, s.shrinkReq⟩)
    (by simp only [StackSpec.step, hc])
  obtain ⟨s1, e1, e⟩ := life_bind_ok e
  cases e
  exact ⟨s', e1, Inv_of_R r, contents_of_R r⟩

theorem plain_popMany (h0 : 0 < ps) (ha : 0 < al) {s : PS α} (h : Inv ps al s) (n : Nat) (hn : n ≤ (contents s).length) :
    ∃ s', popMany s n = .ok (s', (contents s).take n) ∧ Inv ps al s' := by
  obtain ⟨s', e, r⟩ := R_step h0 ha (R_of_Inv h) (.popMany n) (o := .vals ((contents s).take n))
    (t' := ⟨(contents s).drop n, s.base.length, s.syncCount.toNat, s.shrinkReq⟩) (by simp only [StackSpec.step, if_pos hn])
  obtain ⟨⟨s1, vs⟩, e1, e⟩ := life_bind_ok e
  cases e
  exact ⟨s', e1, Inv_of_R r⟩

theorem plain_discard (h0 : 0 < ps) (ha : 0 < al) {s : PS α} (h : Inv ps al s) (n : Nat) (hn : n ≤ (contents s).length) :
    ∃ s', discard s n = .ok s' ∧ Inv ps al s' := by
  obtain ⟨s', e, r⟩ := R_step h0 ha (R_of_Inv h) (.discard n) (o := .unit)
    (t' := ⟨(contents s).drop n, s.base.length, s.syncCount.toNat, s.shrinkReq⟩) (by simp only [StackSpec.step, if_pos hn])
  obtain ⟨s1, e1, e⟩ := life_bind_ok e
  cases e
  exact ⟨s', e1, Inv_of_R r⟩

theorem plain_clear {s : PS α} (h : Inv ps al s) : ∃ s', clear s = .ok s' ∧ Inv ps al s' := by
  obtain ⟨pre, cp, k, n, sr, rfl, g⟩ := h
  refine ⟨_, clear_spec, ⟨[], _, pre.length + k, n, sr, ?_, (head_good g).1⟩⟩
  rw [List.replicate_append_replicate]

theorem plain_shrink (h0 : 0 < ps) (ha : 0 < al) {s : PS α} (h : Inv ps al s) : Inv ps al (shrinkToFit s) :=
  Inv_step (o := .unit) h0 ha h .shrink (by simp) rfl

theorem plain_top (h0 : 0 < ps) (ha : 0 < al) {s : PS α} (h : Inv ps al s) {x : α} {xs : List α} (hc : contents s = x :: xs) : top s = .ok x := by
  obtain ⟨s', e, r⟩ := R_step h0 ha (R_of_Inv h) .top (o := .val x) (t' := ⟨contents s, s.base.length, s.syncCount.toNat, s.shrinkReq⟩)
    (by simp only [StackSpec.step, hc])
  obtain ⟨y, e1, e⟩ := life_bind_ok e
  cases e
  exact e1

theorem plain_setTop (h0 : 0 < ps) (ha : 0 < al) {s : PS α} (h : Inv ps al s) {x : α} {xs : List α} (hc : contents s = x :: xs) (y : α) :
    ∃ s', setTop s y = .ok s' ∧ Inv ps al s' ∧ contents s' = y :: xs := by
  obtain ⟨s', e, r⟩ := R_step h0 ha (R_of_Inv h) (.setTop y) (o := .unit) (t' := ⟨y :: xs, s.base.length, s.syncCount.toNat, s.shrinkReq⟩)
    (by simp only [StackSpec.step, hc])
  obtain ⟨s1, e1, e⟩ := life_bind_ok e
  cases e
  exact ⟨s', e1, Inv_of_R r, contents_of_R r⟩

theorem flat_perm {s : PS α} (h : Inv ps al s) : s.base.flatten.Perm (contents s) := by
  rw [← held_inv h]; exact (List.reverse_perm _).symm

theorem plain_nth (h0 : 0 < ps) {s : PS α} (h : Inv ps al s) (n : Nat) {x : α} (hn : (contents s)[n]? = some x) :
    ∃ i, begin_ s = .ok i ∧ ∃ it, stepN (fwdInc s) n i = .ok it ∧ it.deref s = .ok x := by
  obtain ⟨pre, cp, k, m, sr, rfl, g⟩ := h
  rw [contents_mk] at hn
  obtain ⟨hlt, -⟩ := List.getElem?_eq_some_iff.1 hn
  rw [List.length_reverse] at hlt
  have e := nthForward_pos (al := al) (rest := List.replicate k []) (sc := m) (sr := sr) h0 g n hlt
  unfold nthForward at e
  obtain ⟨i, e1, e2⟩ := life_bind_ok e
  refine ⟨i, e1, _, e2, ?_⟩
  rw [List.getElem?_reverse hlt] at hn
  exact deref_pos g h0 _ _ x hn
end plain

end Falcon.ItemStack
