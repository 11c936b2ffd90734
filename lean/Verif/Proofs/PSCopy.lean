import Verif.Proofs.PSMore
import Verif.Spec.StackValue
/-
Helper lemmas: PagedStack variables with moves and swaps refine value semantics.
-/
namespace Falcon.PSCopy
open Falcon.PagedStack Falcon.StackValue
variable {α : Type}

theorem load_congr {w w' : World α} {o : Obj} (h : ∀ n ∈ o.nodes, w'.heap n = w.heap n) :
    load w' o = load w o := by
  unfold load
  cases o.cur with
  | none => rfl
  | some c =>
    have : o.nodes.map (fun n => (w'.heap n).getD []) = o.nodes.map (fun n => (w.heap n).getD []) :=
      List.map_congr_left (fun n hn => by rw [h n hn])
    simp only [this]

structure Rel (w : World α) (e : Env α) : Prop where
  nodup : ∀ i o, w.objs i = some o → o.nodes.Nodup
  lt    : ∀ i o, w.objs i = some o → ∀ n ∈ o.nodes, n < w.next
  disj  : ∀ i j oi oj, i ≠ j → w.objs i = some oi → w.objs j = some oj → ∀ n ∈ oi.nodes, n ∉ oj.nodes
  alive : ∀ i o, w.objs i = some o → ∀ n ∈ o.nodes, ∃ p, w.heap n = some p
  dom   : ∀ i, e i = none ↔ w.objs i = none
  live  : ∀ i ps al t, e i = some (.live ps al t) → 0 < ps ∧ 0 < al ∧
            ∃ o s, w.objs i = some o ∧ load w o = some s ∧ R ps al s t

/-- one object changes, its nodes are among its old ones and new ones -/
theorem Rel.update {w w' : World α} {e : Env α} (h : Rel w e) (i : Nat) (v : Option (Val α))
    (hobj : ∀ k, k ≠ i → w'.objs k = w.objs k) (hnext : w.next ≤ w'.next)
    (hn : ∀ o', w'.objs i = some o' → o'.nodes.Nodup ∧ ∀ n ∈ o'.nodes, n < w'.next ∧
      (w.next ≤ n ∨ ∃ o, w.objs i = some o ∧ n ∈ o.nodes))
    (hf : ∀ n < w.next, (∀ o, w.objs i = some o → n ∉ o.nodes) → w'.heap n = w.heap n)
    (hal : ∀ o', w'.objs i = some o' → ∀ n ∈ o'.nodes, ∃ p, w'.heap n = some p)
    (hd : v = none ↔ w'.objs i = none)
    (hl : ∀ ps al t, v = some (.live ps al t) → 0 < ps ∧ 0 < al ∧
            ∃ o s, w'.objs i = some o ∧ load w' o = some s ∧ R ps al s t) :
    Rel w' (e.set i v) where
  nodup k o hk := by
    by_cases e1 : k = i
    · subst e1; exact (hn o hk).1
    · rw [hobj k e1] at hk; exact h.nodup k o hk
  lt k o hk n hm := by
    by_cases e1 : k = i
    · subst e1; exact ((hn o hk).2 n hm).1
    · rw [hobj k e1] at hk; exact Nat.lt_of_lt_of_le (h.lt k o hk n hm) hnext
  disj k l ok ol hkl hk hl' n hm hm' := by
    by_cases e1 : k = i
    · subst e1
      rw [hobj l (fun x => hkl x.symm)] at hl'
      rcases ((hn ok hk).2 n hm).2 with h1 | ⟨o, ho, hno⟩
      · have := h.lt l ol hl' n hm'; omega
      · exact h.disj k l o ol hkl ho hl' n hno hm'
    · rw [hobj k e1] at hk
      by_cases e2 : l = i
      · subst e2
        rcases ((hn ol hl').2 n hm').2 with h1 | ⟨o, ho, hno⟩
        · have := h.lt k ok hk n hm; omega
        · exact h.disj k l ok o hkl hk ho n hm hno
      · rw [hobj l e2] at hl'; exact h.disj k l ok ol hkl hk hl' n hm hm'
  alive k o hk n hm := by
    by_cases e1 : k = i
    · subst e1; exact hal o hk n hm
    · rw [hobj k e1] at hk
      obtain ⟨p, hp⟩ := h.alive k o hk n hm
      exact ⟨p, by rw [hf n (h.lt k o hk n hm) (fun o' ho' hm' => h.disj k i o o' e1 hk ho' n hm hm')]; exact hp⟩
  dom k := by
    unfold Env.set
    by_cases e1 : k = i
    · subst e1; simp only [if_true]; exact hd
    · rw [if_neg e1, hobj k e1]; exact h.dom k
  live k ps al t hk := by
    unfold Env.set at hk
    by_cases e1 : k = i
    · subst e1; rw [if_pos rfl] at hk; exact hl ps al t hk
    · rw [if_neg e1] at hk
      obtain ⟨a, b, o, s, ho, hs, r⟩ := h.live k ps al t hk
      refine ⟨a, b, o, s, by rw [hobj k e1]; exact ho, ?_, r⟩
      rw [← hs]
      refine load_congr (fun n hn' => hf n (h.lt k o ho n hn') (fun o' ho' hm => ?_))
      exact h.disj k i o o' e1 ho ho' n hn' hm

theorem idxOf_getElem {l : List Nat} (h : l.Nodup) (i : Nat) (hi : i < l.length) : l.idxOf l[i] = i := by
  exact h.idxOf_getElem i hi

theorem map_idx {β : Type} {l : List Nat} (h : l.Nodup) (b : List β) (hlen : l.length = b.length)
    (d : β) : l.map (fun n => (b[l.idxOf n]?).getD d) = b := by
  apply List.ext_getElem
  · simp [hlen]
  · intro i h1 h2
    simp only [List.length_map] at h1
    simp only [List.getElem_map, idxOf_getElem h i h1, List.getElem?_eq_getElem h2, Option.getD_some]

theorem nodup_app {a : List Nat} {m k : Nat} (h : a.Nodup) (hl : ∀ n ∈ a, n < m) :
    (a ++ List.range' m k).Nodup := by
  rw [List.nodup_append]
  refine ⟨h, List.nodup_range', ?_⟩
  intro x hx y hy e
  have := hl x hx
  have := List.mem_range'_1.1 hy
  omega

theorem load_store {w : World α} {i : Nat} {o : Obj} {s : PS α} (hnd : o.nodes.Nodup)
    (hlt : ∀ n ∈ o.nodes, n < w.next) (hc : s.cur < s.base.length)
    (hp : s.pageSize = o.pageSize) (ha : s.allocSize = o.allocSize) :
    ∃ o', (store w i o s).objs i = some o' ∧ load (store w i o s) o' = some s ∧
      o'.nodes = o.nodes.take s.base.length ++ List.range' w.next (s.base.length - o.nodes.length) := by
  refine ⟨_, if_pos rfl, ?_, rfl⟩
  generalize hns : o.nodes.take s.base.length ++ List.range' w.next (s.base.length - o.nodes.length) = ns
  have nd : ns.Nodup := by
    rw [← hns]
    exact nodup_app (hnd.sublist (List.take_sublist _ _)) (fun n hn => hlt n (List.mem_of_mem_take hn))
  have hlen : ns.length = s.base.length := by
    rw [← hns]; simp; omega
  have hcl : s.cur < ns.length := by omega
  unfold load store
  simp only [hns, List.getElem?_eq_getElem hcl, List.getElem_mem, if_true, idxOf_getElem nd _ hcl]
  have : ns.map (fun n => ((if n ∈ ns then s.base[ns.idxOf n]? else if n ∈ o.nodes then none else w.heap n).getD []))
      = s.base := by
    rw [← map_idx nd s.base hlen []]
    exact List.map_congr_left (fun n hn => by rw [if_pos hn, map_idx nd s.base hlen []])
  simp only [this, ← hp, ← ha]

theorem Rel.empty : Rel (PSCopy.empty : World α) none' where
  nodup _ _ h := nomatch h
  lt _ _ h := nomatch h
  disj _ _ _ _ _ h := nomatch h
  alive _ _ h := nomatch h
  dom _ := ⟨fun _ => rfl, fun _ => rfl⟩
  live _ _ _ _ h := nomatch h

theorem R_fields {ps al : Nat} {s : PS α} {t : StackSpec.St α} (h : R ps al s t) :
    s.cur < s.base.length ∧ s.pageSize = ps ∧ s.allocSize = al := by
  obtain ⟨pre, cp, k, rfl, -, -, -⟩ := h
  exact ⟨by simp [mkS], rfl, rfl⟩

theorem load_fields {w : World α} {o : Obj} {s : PS α} (h : load w o = some s) :
    s.pageSize = o.pageSize ∧ s.allocSize = o.allocSize ∧ s.base.length = o.nodes.length ∧
    s.syncCount = o.syncCount ∧ s.shrinkReq = o.shrinkReq ∧ ∃ c, o.cur = some c ∧ c ∈ o.nodes := by
  unfold load at h
  cases hc : o.cur with
  | none => rw [hc] at h; exact nomatch h
  | some c =>
    rw [hc] at h
    dsimp only at h
    by_cases hm : c ∈ o.nodes
    · rw [if_pos hm] at h
      obtain rfl := Option.some.inj h
      exact ⟨rfl, rfl, by simp, rfl, rfl, c, rfl, hm⟩
    · rw [if_neg hm] at h; exact nomatch h

theorem Rel.call {w : World α} {e : Env α} (h : Rel w e) {i ps al : Nat} {t t' : StackSpec.St α}
    {op : Op α} {out : Out α} (hi : e i = some (.live ps al t))
    (hs : StackSpec.step ps al t op = some (t', out)) :
    ∃ w', call w i op = .ok (w', out) ∧ Rel w' (e.set i (some (.live ps al t'))) := by
  obtain ⟨h0, ha, o, s, ho, hl, r⟩ := h.live i ps al t hi
  obtain ⟨s', es, r'⟩ := R_step h0 ha r op hs
  refine ⟨store w i o s', ?_, ?_⟩
  · unfold PSCopy.call
    rw [ho]; dsimp only
    rw [hl]; dsimp only
    rw [es]
  · obtain ⟨l1, l2, l3, -⟩ := load_fields hl
    obtain ⟨-, f2, f3⟩ := R_fields r
    obtain ⟨g1, g2, g3⟩ := R_fields r'
    obtain ⟨o', ho', hlo', hns⟩ := load_store (w := w) (i := i) (o := o) (s := s') (h.nodup i o ho)
      (h.lt i o ho) g1 (by omega) (by omega)
    refine h.update i _ (fun k hk => by simp [store, hk]) (by simp [store]) ?_ ?_ ?_ ?_ ?_
    · intro o'' ho''
      rw [ho'] at ho''
      obtain rfl := Option.some.inj ho''
      rw [hns]
      refine ⟨nodup_app ((h.nodup i o ho).sublist (List.take_sublist _ _))
        (fun n hn => h.lt i o ho n (List.mem_of_mem_take hn)), ?_⟩
      intro n hn
      rcases List.mem_append.1 hn with hn | hn
      · have h1 := List.mem_of_mem_take hn
        refine ⟨?_, Or.inr ⟨o, ho, h1⟩⟩
        have := h.lt i o ho n h1
        show n < w.next + _
        omega
      · have := List.mem_range'_1.1 hn
        exact ⟨by show n < w.next + _; omega, Or.inl this.1⟩
    · intro n hn hno
      have hno := hno o ho
      show (if n ∈ _ then _ else _) = _
      rw [if_neg, if_neg hno]
      intro hm
      rcases List.mem_append.1 hm with hm | hm
      · exact hno (List.mem_of_mem_take hm)
      · have := List.mem_range'_1.1 hm; omega
    · intro o'' ho'' n hn
      rw [ho'] at ho''
      obtain rfl := Option.some.inj ho''
      rw [hns] at hn
      have hlen : (o.nodes.take s'.base.length ++ List.range' w.next (s'.base.length - o.nodes.length)).length
          = s'.base.length := by simp; omega
      have hlt := List.idxOf_lt_length_of_mem hn
      rw [hlen] at hlt
      exact ⟨_, by show (if n ∈ _ then _ else _) = _; rw [if_pos hn]; exact List.getElem?_eq_getElem hlt⟩
    · rw [ho']; simp
    · intro ps' al' t'' hv
      simp only [Option.some.injEq, Val.live.injEq] at hv
      obtain ⟨rfl, rfl, rfl⟩ := hv
      exact ⟨h0, ha, o', s', ho', hlo', r'⟩

theorem Rel.construct {w : World α} {e : Env α} (h : Rel w e) {i ps al : Nat} (h0 : 0 < ps)
    (ha : 0 < al) (hi : e i = none) :
    Rel (construct w i ps al) (e.set i (some (.live ps al (StackSpec.init al)))) := by
  have hno := (h.dom i).1 hi
  have hc : (List.range' w.next al).head? = some w.next := by
    cases al with
    | zero => omega
    | succ k => simp [List.range'_succ]
  have hm : w.next ∈ List.range' w.next al := List.mem_range'_1.2 ⟨by omega, by omega⟩
  have hix : (List.range' w.next al).idxOf w.next = 0 := by
    cases al with
    | zero => omega
    | succ k => simp [List.range'_succ]
  refine h.update i _ (fun k hk => by simp [PSCopy.construct, hk]) (by simp [PSCopy.construct]) ?_ ?_ ?_ ?_ ?_
  · intro o ho
    simp only [PSCopy.construct, if_true, Option.some.injEq] at ho
    subst ho
    exact ⟨List.nodup_range', fun n hn => ⟨(List.mem_range'_1.1 hn).2, Or.inl (List.mem_range'_1.1 hn).1⟩⟩
  · intro n hn _
    show (if n ∈ _ then _ else _) = _
    rw [if_neg]
    intro hm; have := List.mem_range'_1.1 hm; omega
  · intro o ho n hn
    simp only [PSCopy.construct, if_true, Option.some.injEq] at ho
    subst ho
    exact ⟨[], by show (if n ∈ _ then _ else _) = _; rw [if_pos hn]⟩
  · simp [PSCopy.construct]
  · intro ps' al' t hv
    simp only [Option.some.injEq, Val.live.injEq] at hv
    obtain ⟨rfl, rfl, rfl⟩ := hv
    refine ⟨h0, ha, _, PagedStack.init ps al, if_pos rfl, ?_, R_init ha⟩
    unfold load
    simp only [hc, hm, if_true, hix]
    congr 1
    unfold PagedStack.init growBase
    simp only [PS.mk.injEq, true_and, List.nil_append, and_true]
    apply List.ext_getElem
    · simp
    · intro k h1 h2
      simp only [List.length_map, List.length_range'] at h1
      simp only [List.getElem_map, List.getElem_replicate]
      show (if _ then _ else _ : Option (List α)).getD [] = []
      rw [if_pos (List.getElem_mem _)]; rfl

theorem nodePage_alive {w : World α} {e : Env α} (h : Rel w e) {j : Nat} {o : Obj}
    (hj : w.objs j = some o) (k : Nat) (hk : k < o.nodes.length) : ∃ p, nodePage w o.nodes k = some p := by
  obtain ⟨p, hp⟩ := h.alive j o hj _ (List.getElem_mem hk)
  exact ⟨p, by unfold nodePage; rw [List.getElem?_eq_getElem hk]; exact hp⟩

theorem Rel.copyNew {w : World α} {e : Env α} (h : Rel w e) {i j : Nat} {o : Obj}
    (hj : w.objs j = some o) : Rel (copyConstruct w i o) (e.set i (some .spent)) := by
  refine h.update i _ (fun k hk => by simp [copyConstruct, hk]) (by simp [copyConstruct]) ?_ ?_ ?_ ?_ ?_
  · intro o' ho
    simp only [copyConstruct, if_true, Option.some.injEq] at ho
    subst ho
    exact ⟨List.nodup_range', fun n hn => ⟨(List.mem_range'_1.1 hn).2, Or.inl (List.mem_range'_1.1 hn).1⟩⟩
  · intro n hn _
    show (if n ∈ _ then _ else _) = _
    rw [if_neg]
    intro hm; have := List.mem_range'_1.1 hm; omega
  · intro o' ho n hn
    simp only [copyConstruct, if_true, Option.some.injEq] at ho
    subst ho
    have hlt := List.idxOf_lt_length_of_mem hn
    rw [List.length_range'] at hlt
    obtain ⟨p, hp⟩ := nodePage_alive h hj _ hlt
    exact ⟨p, by show (if n ∈ _ then _ else _) = _; rw [if_pos hn]; exact hp⟩
  · simp [copyConstruct]
  · intro _ _ _ hv; simp at hv

theorem Rel.copyTo {w : World α} {e : Env α} (h : Rel w e) {i j : Nat} {t o : Obj}
    (hi : w.objs i = some t) (hj : w.objs j = some o) : Rel (copyAssign w i t o) (e.set i (some .spent)) := by
  refine h.update i _ (fun k hk => by simp [copyAssign, hk]) (by simp [copyAssign]) ?_ ?_ ?_ ?_ ?_
  · intro o' ho
    simp only [copyAssign, if_true, Option.some.injEq] at ho
    subst ho
    refine ⟨nodup_app ((h.nodup i t hi).sublist (List.take_sublist _ _))
        (fun n hn => h.lt i t hi n (List.mem_of_mem_take hn)), ?_⟩
    intro n hn
    rcases List.mem_append.1 hn with hn | hn
    · have h1 := List.mem_of_mem_take hn
      refine ⟨?_, Or.inr ⟨t, hi, h1⟩⟩
      have := h.lt i t hi n h1
      show n < w.next + _
      omega
    · have := List.mem_range'_1.1 hn
      exact ⟨by show n < w.next + _; omega, Or.inl this.1⟩
  · intro n hn hno
    have hno := hno t hi
    show (if n ∈ _ then _ else _) = _
    rw [if_neg, if_neg hno]
    intro hm
    rcases List.mem_append.1 hm with hm | hm
    · exact hno (List.mem_of_mem_take hm)
    · have := List.mem_range'_1.1 hm; omega
  · intro o' ho n hn
    simp only [copyAssign, if_true, Option.some.injEq] at ho
    subst ho
    have hlt := List.idxOf_lt_length_of_mem hn
    have hlen : (t.nodes.take o.nodes.length ++ List.range' w.next (o.nodes.length - t.nodes.length)).length
        = o.nodes.length := by simp; omega
    dsimp only at hlt
    rw [hlen] at hlt
    obtain ⟨p, hp⟩ := nodePage_alive h hj _ hlt
    exact ⟨p, by show (if n ∈ _ then _ else _) = _; rw [if_pos hn]; exact hp⟩
  · simp [copyAssign]
  · intro _ _ _ hv; simp at hv

/-- an object loses its nodes (destroyed, or emptied by a self move) -/
theorem Rel.drop {w : World α} {e : Env α} (h : Rel w e) {i : Nat} {t : Obj}
    (hi : w.objs i = some t) (g : Option Obj) (hg : ∀ o, g = some o → o.nodes = []) :
    Rel ((w.free t.nodes).put i g) (e.set i (g.map (fun _ => .spent))) := by
  refine h.update i _ (fun k hk => by simp [World.put, World.free, hk]) (by simp [World.put, World.free]) ?_ ?_ ?_ ?_ ?_
  · intro o' ho
    simp only [World.put, if_true] at ho
    rw [hg o' ho]; simp
  · intro n hn hno
    show (if n ∈ _ then _ else _) = _
    rw [if_neg (hno t hi)]
  · intro o' ho n hn
    simp only [World.put, if_true] at ho
    rw [hg o' ho] at hn; exact nomatch hn
  · simp [World.put]
  · intro _ _ _ hv; cases g <;> simp at hv

/-- the nodes of `j` go to the new object `i` -/
theorem Rel.move {w : World α} {e : Env α} (h : Rel w e) {i j : Nat} {o : Obj} {v : Val α} (hij : i ≠ j)
    (hi : e i = none) (hj : w.objs j = some o) (hv : e j = some v) :
    Rel ((w.put i (some o)).put j (some o.gone)) ((e.set i (some v)).set j (some .spent)) := by
  have hoi := (h.dom i).1 hi
  have hobj : ∀ k, ((w.put i (some o)).put j (some o.gone)).objs k =
      if k = j then some o.gone else if k = i then some o else w.objs k := fun k => rfl
  constructor
  · intro k o' hk
    rw [hobj] at hk
    split at hk
    · obtain rfl := Option.some.inj hk; exact List.nodup_nil
    · split at hk
      · obtain rfl := Option.some.inj hk; exact h.nodup j o hj
      · exact h.nodup k o' hk
  · intro k o' hk n hn
    rw [hobj] at hk
    split at hk
    · obtain rfl := Option.some.inj hk; exact nomatch hn
    · split at hk
      · obtain rfl := Option.some.inj hk; exact h.lt j o hj n hn
      · exact h.lt k o' hk n hn
  · intro k l ok ol hkl hk hl n hm hm'
    rw [hobj] at hk hl
    split at hk
    · obtain rfl := Option.some.inj hk; exact nomatch hm
    · rename_i kj
      split at hl
      · obtain rfl := Option.some.inj hl; exact nomatch hm'
      · rename_i lj
        split at hk
        · obtain rfl := Option.some.inj hk
          split at hl
          · rename_i a b; exact hkl (a.trans b.symm)
          · exact h.disj j l o ol (fun x => lj x.symm) hj hl n hm hm'
        · split at hl
          · obtain rfl := Option.some.inj hl
            exact h.disj k j ok o kj hk hj n hm hm'
          · exact h.disj k l ok ol hkl hk hl n hm hm'
  · intro k o' hk n hn
    rw [hobj] at hk
    split at hk
    · obtain rfl := Option.some.inj hk; exact nomatch hn
    · split at hk
      · obtain rfl := Option.some.inj hk; exact h.alive j o hj n hn
      · exact h.alive k o' hk n hn
  · intro k
    rw [hobj]
    unfold Env.set
    split
    · simp
    · split
      · simp
      · exact h.dom k
  · intro k ps al t hk
    have hload : ∀ o', load ((w.put i (some o)).put j (some o.gone)) o' = load w o' := fun o' =>
      load_congr (fun _ _ => rfl)
    rw [hobj]
    unfold Env.set at hk
    by_cases kj : k = j
    · rw [if_pos kj] at hk; exact nomatch hk
    · rw [if_neg kj] at hk ⊢
      by_cases ki : k = i
      · rw [if_pos ki] at hk ⊢
        obtain ⟨a, b, o', s, ho, hs, r⟩ := h.live j ps al t (by rw [hv]; exact hk)
        rw [hj] at ho
        obtain rfl := Option.some.inj ho
        exact ⟨a, b, _, s, rfl, by rw [hload]; exact hs, r⟩
      · rw [if_neg ki] at hk ⊢
        obtain ⟨a, b, o', s, ho, hs, r⟩ := h.live k ps al t hk
        exact ⟨a, b, o', s, ho, by rw [hload]; exact hs, r⟩

/-- two objects exchange their nodes -/
theorem Rel.exchange {w w' : World α} {e : Env α} (h : Rel w e) {i j : Nat} {a b : Obj} {va vb : Val α}
    (ha : w.objs i = some a) (hb : w.objs j = some b) (hea : e i = some va) (heb : e j = some vb)
    (hh : w'.heap = w.heap) (hn : w'.next = w.next)
    (hobj : ∀ k, w'.objs k = if k = j then some a else if k = i then some b else w.objs k) :
    Rel w' ((e.set i (some vb)).set j (some va)) := by
  -- the object that `k` holds now was held before by the partner of `k`
  let p : Nat → Nat := fun k => if k = j then i else if k = i then j else k
  have hp : ∀ k, w'.objs k = w.objs (p k) := by
    intro k; rw [hobj]; show _ = w.objs (if k = j then i else if k = i then j else k)
    split
    · exact ha.symm
    · split
      · exact hb.symm
      · rfl
  have he : ∀ k, ((e.set i (some vb)).set j (some va)) k = e (p k) := by
    intro k; show (if k = j then _ else if k = i then _ else _) = e (if k = j then i else if k = i then j else k)
    split
    · exact hea.symm
    · split
      · exact heb.symm
      · rfl
  have hinj : ∀ k l, k ≠ l → p k ≠ p l := by
    intro k l hkl
    show (if k = j then i else if k = i then j else k) ≠ (if l = j then i else if l = i then j else l)
    split <;> split <;> (try split) <;> (try split) <;> omega
  have hload : ∀ o', load w' o' = load w o' := fun o' => load_congr (fun _ _ => by rw [hh])
  exact {
    nodup := fun k o hk => h.nodup (p k) o (by rw [← hp]; exact hk)
    lt := fun k o hk => by rw [hn]; exact h.lt (p k) o (by rw [← hp]; exact hk)
    disj := fun k l ok ol hkl hk hl => h.disj (p k) (p l) ok ol (hinj k l hkl) (by rw [← hp]; exact hk)
      (by rw [← hp]; exact hl)
    alive := fun k o hk => by rw [hh]; exact h.alive (p k) o (by rw [← hp]; exact hk)
    dom := fun k => by rw [he, hp]; exact h.dom (p k)
    live := fun k ps al t hk => by
      obtain ⟨x, y, o, s, ho, hs, r⟩ := h.live (p k) ps al t (by rw [← he]; exact hk)
      exact ⟨x, y, o, s, by rw [hp]; exact ho, by rw [hload]; exact hs, r⟩ }

theorem Rel.obj {w : World α} {e : Env α} (h : Rel w e) {i : Nat} {v : Val α} (hi : e i = some v) :
    ∃ o, w.objs i = some o := by
  cases ho : w.objs i with
  | none => rw [(h.dom i).2 ho] at hi; exact nomatch hi
  | some o => exact ⟨o, rfl⟩

theorem free_nil (w : World α) : w.free [] = w := by simp [World.free]

theorem moveTo_rel {w : World α} {e : Env α} (h : Rel w e) {i j : Nat} {t o : Obj} {v : Val α}
    (hij : i ≠ j) (hi : w.objs i = some t) (hj : w.objs j = some o) (hv : e j = some v) :
    Rel ((takeOver w i t o).put j (some o.gone)) ((e.set i (some v)).set j (some .spent)) := by
  have h1 := h.drop hi none (by intro _ hx; exact nomatch hx)
  have h2 := h1.move (i := i) (j := j) (o := o) (v := v) hij (by simp [Env.set])
    (by simp only [World.put]; rw [if_neg (fun x => hij x.symm)]; exact hj)
    (by simp only [Env.set]; rw [if_neg (fun x => hij x.symm)]; exact hv)
  have e1 : ((w.free t.nodes).put i none).put i (some o) = takeOver w i t o := by
    unfold takeOver World.put
    congr 1
    funext k
    by_cases hk : k = i <;> simp [hk]
  have e2 : (e.set i ((none : Option Obj).map (fun _ => (Val.spent : Val α)))).set i (some v) = e.set i (some v) := by
    unfold Env.set
    funext k
    by_cases hk : k = i <;> simp [hk]
  rw [e1, e2] at h2
  exact h2

theorem Rel.act {w : World α} {e e' : Env α} (h : Rel w e) {a : Act α} {out : Out α}
    (hs : StackValue.act false e a = some (e', out)) :
    ∃ w', act w a = .ok (w', out) ∧ Rel w' e' := by
  cases a with
  | new i ps al =>
    simp only [StackValue.act] at hs
    split at hs
    · rename_i hi
      split at hs
      · rename_i hc
        simp only [Option.some.injEq, Prod.mk.injEq] at hs
        obtain ⟨rfl, rfl⟩ := hs
        exact ⟨_, rfl, h.construct hc.1 hc.2 hi⟩
      · exact nomatch hs
    · exact nomatch hs
  | copyNew i j =>
    simp only [StackValue.act] at hs
    split at hs
    · rename_i ps al t hi hj
      simp only [Option.some.injEq, Prod.mk.injEq] at hs
      obtain ⟨rfl, rfl⟩ := hs
      obtain ⟨o, ho⟩ := h.obj hj
      refine ⟨copyConstruct w i o, by simp only [PSCopy.act, ho], ?_⟩
      exact h.copyNew ho
    · exact nomatch hs
  | moveNew i j =>
    simp only [StackValue.act] at hs
    split at hs
    · rename_i ps al t hi hj
      simp only [Option.some.injEq, Prod.mk.injEq] at hs
      obtain ⟨rfl, rfl⟩ := hs
      obtain ⟨o, ho⟩ := h.obj hj
      refine ⟨(w.put i (some o)).put j (some o.gone), by simp only [PSCopy.act, ho], ?_⟩
      exact h.move (fun x => by rw [x, hj] at hi; exact nomatch hi) hi ho hj
    · exact nomatch hs
  | copyTo i j =>
    simp only [StackValue.act] at hs
    split at hs
    · rename_i v ps al t hi hj
      obtain ⟨o, ho⟩ := h.obj hj
      obtain ⟨o2, ho2⟩ := h.obj hi
      split at hs
      · rename_i hij
        simp only [Option.some.injEq, Prod.mk.injEq] at hs
        obtain ⟨rfl, rfl⟩ := hs
        exact ⟨w, by simp only [PSCopy.act, ho, ho2, hij, if_true], h⟩
      · rename_i hij
        simp only [Option.some.injEq, Prod.mk.injEq] at hs
        obtain ⟨rfl, rfl⟩ := hs
        refine ⟨_, by simp only [PSCopy.act, ho, ho2]; rw [if_neg hij], ?_⟩
        exact h.copyTo ho2 ho
    · exact nomatch hs
  | moveTo i j =>
    simp only [StackValue.act] at hs
    split at hs
    · rename_i v ps al t hi hj
      obtain ⟨o, ho⟩ := h.obj hj
      obtain ⟨o2, ho2⟩ := h.obj hi
      split at hs
      · rename_i hij
        simp only [Option.some.injEq, Prod.mk.injEq] at hs
        obtain ⟨rfl, rfl⟩ := hs
        subst hij
        refine ⟨(w.free o.nodes).put i (some o.gone), by simp only [PSCopy.act, PSCopy.moveTo, ho, if_true], ?_⟩
        exact h.drop ho (some o.gone) (by intro _ hx; obtain rfl := Option.some.inj hx; rfl)
      · rename_i hij
        simp only [Option.some.injEq, Prod.mk.injEq] at hs
        obtain ⟨rfl, rfl⟩ := hs
        refine ⟨_, by simp only [PSCopy.act, PSCopy.moveTo, ho, ho2]; rw [if_neg hij], ?_⟩
        exact moveTo_rel h hij ho2 ho hj
    · exact nomatch hs
  | swap i j =>
    simp only [StackValue.act] at hs
    split at hs
    · rename_i ps al t ps' al' t' hi hj
      simp only [Option.some.injEq, Prod.mk.injEq] at hs
      obtain ⟨rfl, rfl⟩ := hs
      obtain ⟨a, ha⟩ := h.obj hi
      obtain ⟨b, hb⟩ := h.obj hj
      by_cases hij : i = j
      · subst hij
        obtain rfl := Option.some.inj (ha.symm.trans hb)
        obtain ⟨rfl, rfl, rfl⟩ : ps' = ps ∧ al' = al ∧ t' = t := by
          have := hi.symm.trans hj
          simp only [Option.some.injEq, Val.live.injEq] at this
          exact ⟨this.1.symm, this.2.1.symm, this.2.2.symm⟩
        refine ⟨takeOver (((w.put i (some a.gone)).free a.gone.nodes).put i (some a.gone.gone)) i a.gone.gone a, ?_, ?_⟩
        · have e1 : (w.put i (some a.gone)).objs i = some a.gone := by simp [World.put]
          simp only [PSCopy.act, PSCopy.swap, ha, PSCopy.moveTo, e1, if_true]
          simp only [World.put, if_true]
        · refine h.exchange (i := i) (j := i) ha ha hi hi ?_ ?_ ?_
          · show (fun n => _) = w.heap
            funext n
            simp [takeOver, World.put, World.free, Obj.gone]
          · rfl
          · intro k
            show (if k = i then _ else if k = i then _ else if k = i then _ else _) = _
            by_cases hk : k = i <;> simp [hk]
      · refine ⟨takeOver ((takeOver (w.put i (some a.gone)) i a.gone b).put j (some b.gone)) j b.gone a, ?_, ?_⟩
        · have e1 : (w.put i (some a.gone)).objs i = some a.gone := by simp [World.put]
          have e2 : (w.put i (some a.gone)).objs j = some b := by
            simp only [World.put]; rw [if_neg (fun x => hij x.symm)]; exact hb
          simp only [PSCopy.act, PSCopy.swap, ha, PSCopy.moveTo, e1, e2]
          rw [if_neg hij]
          simp only [World.put, if_true]
        · refine h.exchange (i := i) (j := j) ha hb hi hj ?_ ?_ ?_
          · show (fun n => _) = w.heap
            funext n
            simp [takeOver, World.put, World.free, Obj.gone]
          · rfl
          · intro k
            show (if k = j then _ else if k = j then _ else if k = i then _ else if k = i then _ else _) = _
            by_cases hk : k = j
            · simp [hk]
            · by_cases hk2 : k = i
              · subst hk2; simp [hk]
              · simp [hk, hk2]
    · exact nomatch hs
  | destroy i =>
    simp only [StackValue.act] at hs
    split at hs
    · rename_i v hi
      simp only [Option.some.injEq, Prod.mk.injEq] at hs
      obtain ⟨rfl, rfl⟩ := hs
      obtain ⟨o, ho⟩ := h.obj hi
      exact ⟨_, by simp only [PSCopy.act, ho], h.drop ho none (by intro _ hx; exact nomatch hx)⟩
    · exact nomatch hs
  | call i op =>
    simp only [StackValue.act] at hs
    split at hs
    · rename_i ps al t hi
      split at hs
      · rename_i t' o hst
        simp only [Option.some.injEq, Prod.mk.injEq] at hs
        obtain ⟨rfl, rfl⟩ := hs
        exact h.call hi hst
      · exact nomatch hs
    · exact nomatch hs

theorem Rel.run {w : World α} {e e' : Env α} (h : Rel w e) {as : List (Act α)} {os : List (Out α)}
    (hs : StackValue.run false e as = some (e', os)) :
    ∃ w', run w as = .ok (w', os) ∧ Rel w' e' := by
  induction as generalizing w e os with
  | nil =>
    simp only [StackValue.run, Option.some.injEq, Prod.mk.injEq] at hs
    obtain ⟨rfl, rfl⟩ := hs
    exact ⟨w, rfl, h⟩
  | cons a as ih =>
    simp only [StackValue.run] at hs
    split at hs
    · exact nomatch hs
    · rename_i e1 o ha
      split at hs
      · exact nomatch hs
      · rename_i e2 os' hr
        simp only [Option.some.injEq, Prod.mk.injEq] at hs
        obtain ⟨rfl, rfl⟩ := hs
        obtain ⟨w1, ea, r1⟩ := h.act ha
        obtain ⟨w2, er, r2⟩ := ih r1 hr
        exact ⟨w2, by simp only [PSCopy.run, ea, er], r2⟩

end Falcon.PSCopy
