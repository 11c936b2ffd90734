import Verif.Proofs.Futex
import Verif.Props.PagedStack
/-
C24-C32: Futex, RFutex, PagedStack under a mutex.
-/
namespace Falcon.Futex
variable {σ τ ω : Type}

/-! ### C24, C25 -/

/-- C24: at most one thread is between a returned lock() and its unlock(). -/
theorem C24_mutual_exclusion (c : Client σ τ ω) (spin : BitVec 32) (g : σ) (prog : Nat → List ω)
    (s : St σ τ ω) (h : Reach c spin g prog s) (i j : Nat) (hi : Holds s i) (hj : Holds s j) : i = j := by
  rcases h.inv.excl with f | ⟨k, op, hh, fin, rest, l, b⟩
  · exact absurd hi (f.none i)
  · have hi' : i = k := Classical.byContradiction fun e => b.none i e hi
    have hj' : j = k := Classical.byContradiction fun e => b.none j e hj
    rw [hi', hj']

/-- C25: whenever nobody is inside, the shared state and all results handed out so far are those
of running the guarded operations one after another, uninterrupted, in the order in which the
lock was acquired; that order contains, for every thread, exactly the operations it has
completed, in its program order. -/
theorem C25_atomic_sections (c : Client σ τ ω) (spin : BitVec 32) (g : σ) (prog : Nat → List ω)
    (s : St σ τ ω) (h : Reach c spin g prog s) (hfree : ∀ i, ¬ Holds s i) :
    s.shared = (sequential c g s.hist).1 ∧
    (∀ i, (s.th i).results = ofThread i (sequential c g s.hist).2) ∧
    (∀ i, ofThread i s.hist ++ (s.th i).todo = prog i) := by
  rcases h.inv.excl with f | ⟨k, op, hh, fin, rest, l, b⟩
  · exact ⟨f.shared, f.res, f.prg⟩
  · exact absurd ⟨_, _, b.pc⟩ (hfree k)

/-- C25, final states: when every thread is done there is one order of all operations, agreeing
with every thread's program, that explains the final state and every result. -/
theorem C25_final_state (c : Client σ τ ω) (spin : BitVec 32) (g : σ) (prog : Nat → List ω)
    (s : St σ τ ω) (h : Reach c spin g prog s) (hd : ∀ i, Done s i) :
    ∃ order : List (Nat × ω), (∀ i, ofThread i order = prog i) ∧
      s.shared = (sequential c g order).1 ∧
      ∀ i, (s.th i).results = ofThread i (sequential c g order).2 := by
  obtain ⟨h1, h2, h3⟩ := C25_atomic_sections c spin g prog s h (by
    rintro i ⟨r, l, e⟩; rw [(hd i).1] at e; cases e)
  refine ⟨s.hist, fun i => ?_, h1, h2⟩
  have := h3 i
  rwa [(hd i).2, List.append_nil] at this

/-- The classical lost-update program: read the counter, then write the value read plus one. -/
def counter : Client Nat Nat Unit where
  micro _ := [fun (g, _) => (g, g), fun (_, l) => (l + 1, l)]
  start _ := 0

/-- C25, no lost update: unprotected read-then-write increments under the lock all count. -/
theorem C25_no_lost_update (spin : BitVec 32) (n : Nat) (prog : Nat → List Unit) (s : St Nat Nat Unit)
    (h : Reach counter spin n prog s) (hd : ∀ i, Done s i) :
    ∃ order : List (Nat × Unit), (∀ i, ofThread i order = prog i) ∧ s.shared = n + order.length := by
  obtain ⟨order, h1, h2, -⟩ := C25_final_state counter spin n prog s h hd
  refine ⟨order, h1, ?_⟩
  rw [h2]
  clear h1 h2 hd h
  induction order generalizing n with
  | nil => rfl
  | cons p o ih =>
    show (sequential counter (n + 1) o).1 = _
    rw [ih (n + 1), List.length_cons]; omega

/-- Two threads contending; thread 1 fails an attempt while thread 0 is inside. -/
def demoProg : Nat → List Unit := fun i => if i < 2 then [()] else []
def demoRun (s : St Nat Nat Unit) : List Nat → Option (St Nat Nat Unit)
  | [] => some s
  | i :: is => (step counter 1 s i false).bind fun s' => demoRun s' is
theorem demoRun_reach (s s' : St Nat Nat Unit) (l : List Nat) (h : Reach counter 1 0 demoProg s)
    (e : demoRun s l = some s') : Reach counter 1 0 demoProg s' := by
  induction l generalizing s with
  | nil => cases e; exact h
  | cons i is ih =>
    simp only [demoRun, Option.bind_eq_some_iff] at e
    obtain ⟨s1, e1, e2⟩ := e
    exact ih s1 (.step i false h e1) e2
example : (demoRun (initial 0 demoProg) [0, 1, 0, 1, 0, 0, 1, 0, 1, 1, 1, 1]).map
    (fun s => (s.shared, s.owned, s.hist, (s.th 0).results, (s.th 1).results, (s.th 1).yields))
    = some (2, false, [(0, ()), (1, ())], [0], [1], 1) := rfl

/-! ### C26 -/

/-- Steps that thread still has to take, not counting failed attempts: entering lock(), the
successful attempt, the guarded accesses, unlock(). -/
def stepsLeft (c : Client σ τ ω) (t : Th σ τ ω) : Nat :=
  let ops := fun l : List ω => (l.map fun op => (c.micro op).length + 3).sum
  match t.pc with
  | .out           => ops t.todo
  | .trying _      => ops t.todo - 1
  | .inside rest _ => rest.length + 1 + ops t.todo.tail

/-- C26 (first part): a thread inside lock() on a free Futex has it after its next attempt, unless
the CAS fails spuriously. -/
theorem C26_acquires_when_free (c : Client σ τ ω) (spin : BitVec 32) (g : σ) (prog : Nat → List ω)
    (s : St σ τ ω) (h : Reach c spin g prog s) (i : Nat) (sc : BitVec 32)
    (hi : (s.th i).pc = .trying sc) (hfree : ∀ j, ¬ Holds s j) :
    ∃ s', step c spin s i false = some s' ∧ Holds s' i := by
  have ho : s.owned = false := by
    rcases h.inv.excl with f | ⟨k, op, hh, fin, rest, l, b⟩
    · exact f.owned
    · exact absurd ⟨_, _, b.pc⟩ (hfree k)
  obtain ⟨op, tl, e⟩ := List.exists_cons_of_ne_nil (h.inv.work i sc hi)
  have hcas : casWeak s.owned false = (true, true, false) := by simp [casWeak, ho]
  exact ⟨_, by simp only [step, hi, e, hcas]; rfl, c.micro op, c.start op, by simp only [upd_self]⟩

/-- C26 (second part): in every reachable state in which some thread is not done, some thread can
take a step that brings it strictly closer to completing its operations, and no step of any
thread ever moves a thread away from it. -/
theorem C26_progress (c : Client σ τ ω) (spin : BitVec 32) (g : σ) (prog : Nat → List ω)
    (s : St σ τ ω) (h : Reach c spin g prog s) :
    (∀ i, ¬ Done s i → ∃ j s', step c spin s j false = some s' ∧
      stepsLeft c (s'.th j) < stepsLeft c (s.th j) ∧ ∀ k, k ≠ j → s'.th k = s.th k) ∧
    (∀ i sp s', step c spin s i sp = some s' →
      stepsLeft c (s'.th i) ≤ stepsLeft c (s.th i) ∧ ∀ k, k ≠ i → s'.th k = s.th k) := by
  have inside : ∀ j rest l, (s.th j).pc = .inside rest l → ∀ sp, ∃ s', step c spin s j sp = some s' ∧
      stepsLeft c (s'.th j) < stepsLeft c (s.th j) ∧ ∀ k, k ≠ j → s'.th k = s.th k := by
    intro j rest l hj sp
    cases rest with
    | nil =>
      refine ⟨_, by simp only [step, hj]; rfl, ?_, fun k hk => by simp only [upd_ne _ _ hk]⟩
      simp only [upd_self, stepsLeft, hj]; omega
    | cons m ms =>
      refine ⟨_, by simp only [step, hj]; rfl, ?_, fun k hk => by simp only [upd_ne _ _ hk]⟩
      simp only [upd_self, stepsLeft, hj, List.length_cons]; omega
  have out : ∀ j op tl, (s.th j).pc = .out → (s.th j).todo = op :: tl → ∀ sp, ∃ s', step c spin s j sp = some s' ∧
      stepsLeft c (s'.th j) < stepsLeft c (s.th j) ∧ ∀ k, k ≠ j → s'.th k = s.th k := by
    intro j op tl hj ht sp
    refine ⟨_, by simp only [step, hj, ht]; rfl, ?_, fun k hk => by simp only [upd_ne _ _ hk]⟩
    simp only [upd_self, stepsLeft, hj, ht, List.map_cons, List.sum_cons]; omega
  have acq : ∀ j sc op tl, (s.th j).pc = .trying sc → (s.th j).todo = op :: tl → s.owned = false →
      ∃ s', step c spin s j false = some s' ∧
      stepsLeft c (s'.th j) < stepsLeft c (s.th j) ∧ ∀ k, k ≠ j → s'.th k = s.th k := by
    intro j sc op tl hj ht ho
    have hcas : casWeak s.owned false = (true, true, false) := by simp [casWeak, ho]
    refine ⟨_, by simp only [step, hj, ht, hcas]; rfl, ?_, fun k hk => by simp only [upd_ne _ _ hk]⟩
    simp only [upd_self, stepsLeft, hj, ht, List.map_cons, List.sum_cons, List.tail_cons]; omega
  constructor
  · intro i hi
    rcases h.inv.excl with f | ⟨k, op, hh, fin, rest, l, b⟩
    · cases hpc : (s.th i).pc with
      | out =>
        cases ht : (s.th i).todo with
        | nil => exact absurd ⟨hpc, ht⟩ hi
        | cons op tl => exact ⟨i, out i op tl hpc ht false⟩
      | trying sc =>
        obtain ⟨op, tl, e⟩ := List.exists_cons_of_ne_nil (h.inv.work i sc hpc)
        exact ⟨i, acq i sc op tl hpc e f.owned⟩
      | inside rest l => exact absurd ⟨_, _, hpc⟩ (f.none i)
    · exact ⟨k, inside k rest l b.pc false⟩
  · intro i sp s' hs
    have use : (∃ s'', step c spin s i sp = some s'' ∧ stepsLeft c (s''.th i) < stepsLeft c (s.th i) ∧
        ∀ k, k ≠ i → s''.th k = s.th k) → stepsLeft c (s'.th i) ≤ stepsLeft c (s.th i) ∧ ∀ k, k ≠ i → s'.th k = s.th k := by
      rintro ⟨s'', e1, e2, e3⟩
      rw [e1] at hs; injection hs with hs; subst hs
      exact ⟨Nat.le_of_lt e2, e3⟩
    cases hpc : (s.th i).pc with
    | out =>
      cases ht : (s.th i).todo with
      | nil => simp [step, hpc, ht] at hs
      | cons op tl => exact use (out i op tl hpc ht sp)
    | inside rest l => exact use (inside i rest l hpc sp)
    | trying sc =>
      obtain ⟨op, tl, e⟩ := List.exists_cons_of_ne_nil (h.inv.work i sc hpc)
      by_cases hf : s.owned = false ∧ sp = false
      · obtain ⟨ho, rfl⟩ := hf
        exact use (acq i sc op tl hpc e ho)
      · have hcas : casWeak s.owned sp = (s.owned, false, s.owned) := by
          unfold casWeak
          by_cases ho : s.owned = false
          · have : sp = true := by cases sp <;> simp_all
            simp [ho, this]
          · simp [ho]
        simp only [step, hpc, e, hcas, retry, Bool.not_false, Bool.true_or, if_true] at hs
        injection hs with hs; subst hs
        refine ⟨?_, fun k hk => by simp only [upd_ne _ _ hk]⟩
        simp only [upd_self, stepsLeft, hpc, e]; omega

/-! ### C27 -/

/-- `sc` after `k` failed attempts of one lock() call. -/
def scAfter (spin : BitVec 32) : Nat → BitVec 32
  | 0     => spin
  | k + 1 => (failBody spin (scAfter spin k)).1

/-- Does the `k`-th failed attempt of a lock() call (counted from 1) yield? -/
def yieldsAt (spin : BitVec 32) (k : Nat) : Bool := (failBody spin (scAfter spin (k - 1))).2

/-- C27 does not hold: with spinCount 1 only the first failed attempt yields, and with spinCount
3 the sixth does not. -/
theorem C27_yield_refuted : yieldsAt 1 1 = true ∧ yieldsAt 1 2 = false ∧
    yieldsAt 3 3 = true ∧ yieldsAt 3 6 = false := by decide

/-- C27 (exact): the k-th failed attempt yields iff spinCount is not 0 and k is spinCount modulo
2^32; in particular spinCount 0 never yields and every other count yields at its n-th failure. -/
theorem C27_yield_partial (spin : BitVec 32) (k : Nat) (hk : 1 ≤ k) :
    yieldsAt spin k = true ↔ spin ≠ 0 ∧ k % 2 ^ 32 = spin.toNat := by
  have b1 : (1 : BitVec 32).toNat = 1 := rfl
  have b0 : (0 : BitVec 32).toNat = 0 := rfl
  by_cases h0 : spin = 0
  · simp [yieldsAt, failBody, h0]
  · have hsc : ∀ n, scAfter spin n = spin - BitVec.ofNat 32 n := by
      intro n
      induction n with
      | zero => simp [scAfter]
      | succ n ih =>
        show (failBody spin (scAfter spin n)).1 = _
        rw [failBody, if_pos h0, ih]
        show spin - BitVec.ofNat 32 n - 1 = _
        apply BitVec.eq_of_toNat_eq
        simp only [BitVec.toNat_sub, BitVec.toNat_ofNat, b1, b0]
        omega
    rw [yieldsAt, failBody, if_pos h0, hsc]
    show decide (spin - BitVec.ofNat 32 (k - 1) - 1 = 0) = true ↔ _
    rw [decide_eq_true_iff]
    have hlt := spin.isLt
    constructor
    · intro e
      refine ⟨h0, ?_⟩
      have := congrArg BitVec.toNat e
      simp only [BitVec.toNat_sub, BitVec.toNat_ofNat, b1, b0] at this
      omega
    · rintro ⟨-, e⟩
      apply BitVec.eq_of_toNat_eq
      simp only [BitVec.toNat_sub, BitVec.toNat_ofNat, b1, b0]
      omega

theorem failed_step (c : Client σ τ ω) (spin sc : BitVec 32) (s s' : St σ τ ω) (i : Nat) (sp : Bool)
    (hpc : (s.th i).pc = .trying sc) (hs : step c spin s i sp = some s') (hnot : ¬ Holds s' i) :
    (s'.th i).pc = .trying (failBody spin sc).1 ∧
    (s'.th i).yields = (s.th i).yields + (failBody spin sc).2.toNat := by
  simp only [step, hpc] at hs
  split at hs
  · cases hs
  · split at hs
    · injection hs with hs; subst hs; simp only [upd_self, and_self]
    · injection hs with hs; subst hs
      exact absurd ⟨_, _, congrArg Th.pc (upd_self ..)⟩ hnot

theorem other_step (c : Client σ τ ω) (spin : BitVec 32) (s s' : St σ τ ω) (i j : Nat) (sp : Bool)
    (hj : j ≠ i) (hs : step c spin s j sp = some s') : s'.th i = s.th i := by
  simp only [step] at hs
  split at hs
  · split at hs
    · cases hs
    · injection hs with hs; subst hs; exact upd_ne _ _ (Ne.symm hj)
  · split at hs
    · cases hs
    · split at hs
      · injection hs with hs; subst hs; exact upd_ne _ _ (Ne.symm hj)
      · injection hs with hs; subst hs; exact upd_ne _ _ (Ne.symm hj)
  · injection hs with hs; subst hs; exact upd_ne _ _ (Ne.symm hj)
  · injection hs with hs; subst hs; exact upd_ne _ _ (Ne.symm hj)

/-- Thread `i` called lock() in the state `s`; now, in the state of the last argument, `k` attempts have failed
and the call has not returned. The other threads do what they want in between. -/
inductive Waiting (c : Client σ τ ω) (spin : BitVec 32) (i : Nat) (s : St σ τ ω) : Nat → St σ τ ω → Prop
  | enter : (s.th i).pc = .out → step c spin s i sp = some s' → Waiting c spin i s 0 s'
  | other : Waiting c spin i s k s' → j ≠ i → step c spin s' j sp = some s'' → Waiting c spin i s k s''
  | failed : Waiting c spin i s k s' → step c spin s' i sp = some s'' → ¬ Holds s'' i → Waiting c spin i s (k + 1) s''

/-- C27, in every execution: a call of lock() that has failed k times has yielded as often as there are numbers
from 1 to k that are congruent to a spinCount other than 0 modulo 2^32. -/
theorem C27_in_system_partial (c : Client σ τ ω) (spin : BitVec 32) (s s' : St σ τ ω) (i k : Nat)
    (h : Waiting c spin i s k s') :
    (s'.th i).yields = (s.th i).yields + ((List.range k).filter fun j => spin ≠ 0 ∧ (j + 1) % 2 ^ 32 = spin.toNat).length := by
  suffices (s'.th i).pc = .trying (scAfter spin k) ∧
      (s'.th i).yields = (s.th i).yields + ((List.range k).filter fun j => spin ≠ 0 ∧ (j + 1) % 2 ^ 32 = spin.toNat).length from this.2
  induction h with
  | enter h0 hs =>
    simp only [step, h0] at hs
    split at hs
    · cases hs
    · injection hs with hs; subst hs; simp [scAfter]
  | other _ hj hs ih => rw [other_step c spin _ _ i _ _ hj hs]; exact ih
  | @failed k _ _ _ _ hs hn ih =>
    obtain ⟨h1, h2⟩ := failed_step c spin _ _ _ i _ ih.1 hs hn
    refine ⟨h1, ?_⟩
    rw [h2, ih.2, List.range_succ, List.filter_append, List.length_append, Nat.add_assoc]
    congr 2
    have := C27_yield_partial spin (k + 1) (by omega)
    rw [yieldsAt, Nat.add_sub_cancel] at this
    by_cases hc : spin ≠ 0 ∧ (k + 1) % 2 ^ 32 = spin.toNat
    · rw [this.2 hc, List.filter_cons_of_pos (by rw [decide_eq_true_iff]; exact hc)]; rfl
    · have hf : (failBody spin (scAfter spin k)).2 = false := by
        cases e : (failBody spin (scAfter spin k)).2 with
        | false => rfl
        | true => exact absurd (this.1 e) hc
      rw [hf, List.filter_cons_of_neg (by rw [decide_eq_true_iff]; exact hc)]; rfl

/- Such a wait: thread 1 fails three times while thread 0 has the lock; with spinCount 2 it yields once. -/
example : (((step (σ := Nat) (τ := Unit) (ω := Unit) ⟨fun _ => [], fun _ => ()⟩ 2 (initial 0 fun _ => [()]) 0 false).bind fun s =>
    (step ⟨fun _ => [], fun _ => ()⟩ 2 s 0 false).bind fun s => (step ⟨fun _ => [], fun _ => ()⟩ 2 s 1 false).bind fun s =>
    (step ⟨fun _ => [], fun _ => ()⟩ 2 s 1 false).bind fun s => (step ⟨fun _ => [], fun _ => ()⟩ 2 s 1 false).bind fun s =>
    step ⟨fun _ => [], fun _ => ()⟩ 2 s 1 false).map fun s => ((s.th 1).yields, match (s.th 1).pc with | .trying _ => true | _ => false)) = some (1, true) := by decide

/-! ### C28 -/

/-- C28: isLocked() returns true iff some thread has acquired the Futex and not yet released it. -/
theorem C28_isLocked (c : Client σ τ ω) (spin : BitVec 32) (g : σ) (prog : Nat → List ω)
    (s : St σ τ ω) (h : Reach c spin g prog s) : isLocked s = true ↔ ∃ i, Holds s i := by
  rcases h.inv.excl with f | ⟨k, op, hh, fin, rest, l, b⟩
  · simp only [isLocked, f.owned, Bool.false_eq_true, false_iff]
    rintro ⟨i, hi⟩; exact f.none i hi
  · simp only [isLocked, b.owned, true_iff]; exact ⟨k, _, _, b.pc⟩

/-! ### C29-C31: RFutex -/

theorem nodup_lt_length : ∀ (n : Nat) (L : List Nat), L.Nodup → (∀ i ∈ L, i < n) → L.length ≤ n
  | 0, L, _, h => by
    cases L with
    | nil => simp
    | cons a L => exact absurd (h a (by simp)) (by omega)
  | n + 1, L, hd, h => by
    have := nodup_lt_length n (L.erase n) (hd.erase n) (by
      intro i hi
      have h1 := h i (List.mem_of_mem_erase hi)
      have h2 : i ≠ n := by rintro rfl; exact (List.Nodup.mem_erase_iff hd).1 hi |>.1 rfl
      omega)
    rw [List.length_erase] at this
    split at this <;> omega

/-- Invariant: `L` lists the threads in order of their first lock(). -/
structure RInv (n : Nat) (s : RSt) (L : List Nat) : Prop where
  nodup : L.Nodup
  lt    : ∀ i ∈ L, i < n
  count : s.count = BitVec.ofNat 32 L.length
  ids   : ∀ k i, L[k]? = some i → (s.th i).id = BitVec.ofNat 32 (k + 1)
  unused : ∀ i, i ∉ L → (s.th i).id = 0 ∧ (s.th i).pc = .out
  pcs   : ∀ i, i ∈ L → (s.th i).pc = .looping
  own   : s.owner = 0 ∨ ∃ i ∈ L, s.owner = (s.th i).id
  none_held : s.mcount = 0

theorem RInv.idNat {n : Nat} {s : RSt} {L : List Nat} (h : RInv n s L) (hn : n < 2 ^ 32) {i : Nat} (hi : i ∈ L) :
    ∃ k, L[k]? = some i ∧ (s.th i).id.toNat = k + 1 := by
  obtain ⟨k, hk, e⟩ := List.getElem_of_mem hi
  have hl := nodup_lt_length n L h.nodup h.lt
  refine ⟨k, List.getElem?_eq_some_iff.2 ⟨hk, e⟩, ?_⟩
  rw [h.ids k i (List.getElem?_eq_some_iff.2 ⟨hk, e⟩), BitVec.toNat_ofNat]
  exact Nat.mod_eq_of_lt (by omega)

theorem RInv.ne0 {n : Nat} {s : RSt} {L : List Nat} (h : RInv n s L) (hn : n < 2 ^ 32) {i : Nat} (hi : i ∈ L) :
    (s.th i).id ≠ 0 := by
  obtain ⟨k, -, e⟩ := h.idNat hn hi
  intro e'; rw [e'] at e; simp at e

theorem rupd_self (f : Nat → RTh) (i : Nat) (t : RTh) : rupd f i t i = t := by simp [rupd]
theorem rupd_ne (f : Nat → RTh) {i j : Nat} (t : RTh) (h : j ≠ i) : rupd f i t j = f j := by simp [rupd, h]

theorem RInv_step {n : Nat} (hn : n < 2 ^ 32) {s : RSt} {L : List Nat} (h : RInv n s L) (i : Nat) (hi : i < n) :
    ∃ L', L <+: L' ∧ RInv n (rstep s i) L' := by
  by_cases hm : i ∈ L
  · -- already inside lock(): the attempt never succeeds
    have hne := h.ne0 hn hm
    have hpc := h.pcs i hm
    have hst : rstep s i = { s with owner := (casStrong s.owner (s.th i).id).1 } := by
      unfold rstep
      simp only [hpc]
      rw [if_pos]
      unfold casStrong rretry
      split
      · have : (0 : BitVec 32) ≠ (s.th i).id := Ne.symm hne
        simp only [Bool.not_true, Bool.false_or, decide_eq_true_eq]; exact this
      · simp
    refine ⟨L, List.prefix_refl _, ?_⟩
    rw [hst]
    refine ⟨h.nodup, h.lt, h.count, h.ids, h.unused, h.pcs, ?_, h.none_held⟩
    show (casStrong s.owner (s.th i).id).1 = 0 ∨ _
    unfold casStrong
    split
    · exact Or.inr ⟨i, hm, rfl⟩
    · exact h.own
  · obtain ⟨h0, hpc⟩ := h.unused i hm
    have hst : rstep s i = { s with count := s.count + 1, th := rupd s.th i { id := s.count + 1, pc := .looping } } := by
      unfold rstep; simp only [hpc, h0, if_true]
    refine ⟨L ++ [i], List.prefix_append _ _, ?_⟩
    rw [hst]
    have hcnt : s.count + 1 = BitVec.ofNat 32 (L.length + 1) := by
      rw [h.count]; simp [BitVec.ofNat_add]
    have hther : ∀ j ∈ L, rupd s.th i { id := s.count + 1, pc := .looping } j = s.th j := by
      intro j hj; exact rupd_ne _ _ (by rintro rfl; exact hm hj)
    refine ⟨?_, ?_, ?_, ?_, ?_, ?_, ?_, h.none_held⟩
    · exact List.nodup_append.2 ⟨h.nodup, by simp, by rintro a ha b hb rfl; simp at hb; subst hb; exact hm ha⟩
    · intro j hj; rcases List.mem_append.1 hj with hj | hj
      · exact h.lt j hj
      · simp at hj; omega
    · show s.count + 1 = _; rw [hcnt]; simp
    · intro k j hk
      show (rupd s.th i _ j).id = _
      by_cases hkl : k < L.length
      · rw [List.getElem?_append_left hkl] at hk
        rw [hther j (List.mem_of_getElem? hk)]
        exact h.ids k j hk
      · have hkl' : k = L.length := by
          have := (List.getElem?_eq_some_iff.1 hk).1; simp at this; omega
        subst hkl'
        simp at hk; subst hk
        rw [rupd_self]; exact hcnt
    · intro j hj
      show (rupd s.th i _ j).id = 0 ∧ (rupd s.th i _ j).pc = _
      have hj' : j ≠ i ∧ j ∉ L := by
        simp only [List.mem_append, List.mem_singleton, not_or] at hj; exact ⟨hj.2, hj.1⟩
      rw [rupd_ne _ _ hj'.1]; exact h.unused j hj'.2
    · intro j hj
      show (rupd s.th i _ j).pc = _
      by_cases e : j = i
      · subst e; rw [rupd_self]
      · rw [rupd_ne _ _ e]
        rcases List.mem_append.1 hj with hj | hj
        · exact h.pcs j hj
        · simp at hj; exact absurd hj e
    · rcases h.own with e | ⟨j, hj, e⟩
      · exact Or.inl e
      · refine Or.inr ⟨j, List.mem_append_left _ hj, ?_⟩
        show s.owner = (rupd s.th i _ j).id
        rw [hther j hj]; exact e

theorem RInv_run {n : Nat} (hn : n < 2 ^ 32) (sched : List Nat) (hs : ∀ i ∈ sched, i < n) :
    ∀ (s : RSt) (L : List Nat), RInv n s L → ∃ L', RInv n (rrun s sched) L' := by
  induction sched with
  | nil => intro s L h; exact ⟨L, h⟩
  | cons i is ih =>
    intro s L h
    obtain ⟨L', -, h'⟩ := RInv_step hn h i (hs i (by simp))
    exact ih (fun j hj => hs j (by simp [hj])) _ L' h'

theorem RInv_init (n : Nat) : RInv n rinit [] :=
  ⟨by simp, by simp, rfl, by simp, fun _ _ => ⟨rfl, rfl⟩, by simp, Or.inl rfl, rfl⟩

/-- C29 does not hold: with up to 2^32-1 threads, in every schedule, no call of lock() ever
returns - not even on a free RFutex used by a single thread. -/
theorem C29_rlock_refuted (n : Nat) (hn : n < 2 ^ 32) (sched : List Nat) (hs : ∀ i ∈ sched, i < n) (i : Nat) :
    ((rrun rinit sched).th i).pc ≠ .returned := by
  obtain ⟨L, h⟩ := RInv_run hn sched hs _ _ (RInv_init n)
  by_cases hm : i ∈ L
  · rw [h.pcs i hm]; simp
  · rw [(h.unused i hm).2]; simp

/-- C29 (exact): an attempt inside lock() makes it return iff the RFutex is free and the caller's
identity is 0 - so for no thread with a valid identity. -/
theorem C29_rlock_partial (owner id : BitVec 32) :
    rretry (casStrong owner id).2.1 (casStrong owner id).2.2 id = false ↔ owner = 0 ∧ id = 0 := by
  unfold casStrong rretry
  split
  · rename_i h
    simp only [Bool.not_true, Bool.false_or, decide_eq_false_iff_not, Decidable.not_not, h, true_and]
    exact eq_comm
  · rename_i h
    simp only [Bool.not_false, Bool.true_or, h, false_and, Bool.true_eq_false]

/-- C29 (exact): unlock() undoes one lock() if one is counted and frees the RFutex when it undoes the last; it does
not look at who calls it. -/
theorem C29_unlock_partial (s : RSt) :
    (runlock s).mcount.toNat = s.mcount.toNat - 1 ∧
      (runlock s).owner = (if s.mcount.toNat = 1 then 0 else s.owner) ∧
      (runlock s).count = s.count ∧ (runlock s).th = s.th := by
  have hlt := s.mcount.isLt
  have hpos : s.mcount > 0 ↔ 0 < s.mcount.toNat := by
    rw [gt_iff_lt, BitVec.lt_def]; rfl
  have hsub : 0 < s.mcount.toNat → (s.mcount - 1).toNat = s.mcount.toNat - 1 := by
    intro h; rw [BitVec.toNat_sub_of_le (by rw [BitVec.le_def]; exact h)]; rfl
  unfold runlock
  split
  · rename_i h
    have h := hpos.1 h
    have e0 : s.mcount - 1 = 0 ↔ s.mcount.toNat = 1 := by
      rw [← BitVec.toNat_inj, hsub h]; show _ = 0 ↔ _; omega
    split
    · rename_i e; exact ⟨hsub h, by rw [if_pos (e0.1 e)], rfl, rfl⟩
    · rename_i e; exact ⟨hsub h, by rw [if_neg (fun x => e (e0.2 x))], rfl, rfl⟩
  · rename_i h
    have h : s.mcount.toNat = 0 := by
      rcases Nat.eq_zero_or_pos s.mcount.toNat with e | e
      · exact e
      · exact absurd (hpos.2 e) h
    exact ⟨by omega, by rw [if_neg (by omega)], rfl, rfl⟩

/-- C29 (exact): a thread whose lock() has returned and that calls unlock() is outside again, with the same
identity. -/
theorem C29_unlock_leaves_partial (s : RSt) (i : Nat) (hi : (s.th i).pc = .returned) :
    (rstep s i).mcount = (runlock s).mcount ∧ (rstep s i).owner = (runlock s).owner ∧
      (rstep s i).th i = { s.th i with pc := .out } ∧ ∀ j, j ≠ i → (rstep s i).th j = s.th j := by
  unfold rstep
  simp only [hi]
  exact ⟨trivial, trivial, by simp [rupd], fun j hj => by simp [rupd, hj]⟩

/-- C29 (consequence): with fewer than 2^32 threads, in every schedule, unlock() has no effect, whoever calls it: an
RFutex that some thread has taken stays taken. -/
theorem C29_unlock_idle_partial (n : Nat) (hn : n < 2 ^ 32) (sched : List Nat) (hs : ∀ i ∈ sched, i < n) :
    runlock (rrun rinit sched) = rrun rinit sched := by
  obtain ⟨L, h⟩ := RInv_run hn sched hs _ _ (RInv_init n)
  unfold runlock
  rw [h.none_held]
  rfl

/-- Non-vacuity: counted twice, unlock() twice frees it. -/
example : (runlock (runlock { rinit with owner := 7, mcount := 2 })).owner = 0 ∧
    (runlock { rinit with owner := 7, mcount := 2 }).owner = 7 := by decide

example : ((rrun rinit [0, 0, 0, 0]).th 0) = { id := 1, pc := .looping } ∧ (rrun rinit [0, 0, 0, 0]).owner = 1 := by
  decide

theorem rrun_append (s : RSt) (a b : List Nat) : rrun s (a ++ b) = rrun (rrun s a) b := by
  induction a generalizing s with
  | nil => rfl
  | cons i a ih => exact ih _

/-- m threads entering lock() for the first time, in order -/
theorem enter_all (m : Nat) : (rrun rinit (List.range m)).count = BitVec.ofNat 32 m ∧
    ∀ i, (rrun rinit (List.range m)).th i
      = if i < m then { id := BitVec.ofNat 32 (i + 1), pc := .looping } else { id := 0, pc := .out } := by
  induction m with
  | zero => exact ⟨rfl, fun i => by simp [rrun, rinit]⟩
  | succ m ih =>
    rw [List.range_succ, rrun_append]
    obtain ⟨h1, h2⟩ := ih
    have hm := h2 m
    rw [if_neg (by omega)] at hm
    have hst : rstep (rrun rinit (List.range m)) m = { rrun rinit (List.range m) with
        count := (rrun rinit (List.range m)).count + 1,
        th := rupd (rrun rinit (List.range m)).th m { id := (rrun rinit (List.range m)).count + 1, pc := .looping } } := by
      unfold rstep; simp only [hm, if_true]
    show (rstep (rrun rinit (List.range m)) m).count = _ ∧ ∀ i, (rstep (rrun rinit (List.range m)) m).th i = _
    rw [hst]
    have hc : (rrun rinit (List.range m)).count + 1 = BitVec.ofNat 32 (m + 1) := by
      rw [h1]; simp [BitVec.ofNat_add]
    refine ⟨hc, fun i => ?_⟩
    show rupd _ m _ i = _
    by_cases e : i = m
    · subst e; rw [rupd_self, if_pos (by omega), hc]
    · rw [rupd_ne _ _ e, h2 i]
      by_cases hlt : i < m
      · rw [if_pos hlt, if_pos (by omega)]
      · rw [if_neg hlt, if_neg (by omega)]

/-- C30 does not hold for 2^32 threads or more: the 2^32-th gets identity 0 and the next one the
identity of the first. -/
theorem C30_identity_refuted :
    ((rrun rinit (List.range (2 ^ 32 + 1))).th (2 ^ 32 - 1)) = { id := 0, pc := .looping } ∧
    ((rrun rinit (List.range (2 ^ 32 + 1))).th (2 ^ 32)).id = ((rrun rinit (List.range (2 ^ 32 + 1))).th 0).id := by
  obtain ⟨-, h⟩ := enter_all (2 ^ 32 + 1)
  rw [h, h, h, if_pos (by omega), if_pos (by omega), if_pos (by omega)]
  decide

/-- C30 (what holds): with fewer than 2^32 threads, in every schedule, threads that called lock()
have pairwise different, non-zero identities. -/
theorem C30_identity_partial (n : Nat) (hn : n < 2 ^ 32) (sched : List Nat) (hs : ∀ i ∈ sched, i < n)
    (i j : Nat) (hi : ((rrun rinit sched).th i).pc ≠ .out) (hj : ((rrun rinit sched).th j).pc ≠ .out) :
    ((rrun rinit sched).th i).id ≠ 0 ∧
    (((rrun rinit sched).th i).id = ((rrun rinit sched).th j).id → i = j) := by
  obtain ⟨L, h⟩ := RInv_run hn sched hs _ _ (RInv_init n)
  have mem : ∀ k, ((rrun rinit sched).th k).pc ≠ .out → k ∈ L := fun k hk =>
    Classical.byContradiction fun e => hk (h.unused k e).2
  refine ⟨h.ne0 hn (mem i hi), fun e => ?_⟩
  obtain ⟨a, ha, ea⟩ := h.idNat hn (mem i hi)
  obtain ⟨b, hb, eb⟩ := h.idNat hn (mem j hj)
  have : a = b := by rw [e] at ea; omega
  subst this
  rw [ha] at hb; exact Option.some.inj hb

example : ((rrun rinit [3, 0, 3]).th 3).pc ≠ .out ∧ ((rrun rinit [3, 0, 3]).th 0).pc ≠ .out ∧
    ((rrun rinit [3, 0, 3]).th 3).id = 1 ∧ ((rrun rinit [3, 0, 3]).th 0).id = 2 := by decide

/-- C31 does not hold: isOwner() is true on a fresh RFutex for a thread that never locked it. -/
theorem C31_isOwner_refuted : isOwner rinit 0 = true ∧ (rinit.th 0).pc = .out := by decide

/-- C31 (exact): with fewer than 2^32 threads, in every schedule, a thread that can call
isOwner() (it is not inside lock()) gets true iff the RFutex is free - never because it owns it. -/
theorem C31_isOwner_partial (n : Nat) (hn : n < 2 ^ 32) (sched : List Nat) (hs : ∀ i ∈ sched, i < n)
    (i : Nat) (hi : ((rrun rinit sched).th i).pc ≠ .looping) :
    isOwner (rrun rinit sched) i = true ↔ rIsLocked (rrun rinit sched) = false := by
  obtain ⟨L, h⟩ := RInv_run hn sched hs _ _ (RInv_init n)
  have hm : i ∉ L := fun e => hi (h.pcs i e)
  simp only [isOwner, rIsLocked, (h.unused i hm).1]
  simp

/-! ### C32 -/

open Falcon.PagedStack in
/-- A PagedStack whose calls are made under the mutex: any decomposition of each call into
indivisible accesses whose uninterrupted execution is the call. -/
structure LockedStack {α : Type} (c : Client (PS α) τ (Op α)) (out : τ → Res (Out α)) : Prop where
  ok : ∀ (s s' : PS α) (op : Op α) (o : Out α), PagedStack.step s op = .ok (s', o) →
    (alone c s op).1 = s' ∧ out (alone c s op).2 = .ok o

/-- C32: concurrent calls on a PagedStack guarded by a Futex are linearizable: when all threads
are done, the order `hist` in which the lock was acquired lists all calls, agrees with every
thread's program order, and - provided the calls meet the documented preconditions in that
order - every thread has received exactly the results that an ideal stack returns in that
order, and the stack holds what the ideal one holds. -/
theorem C32_linearizable {α : Type} (ps al : Nat) (h0 : 0 < ps) (ha : 0 < al)
    (c : Client (PagedStack.PS α) τ (PagedStack.Op α)) (out : τ → Res (PagedStack.Out α))
    (hc : LockedStack c out) (spin : BitVec 32) (prog : Nat → List (PagedStack.Op α))
    (s : St (PagedStack.PS α) τ (PagedStack.Op α))
    (h : Reach c spin (PagedStack.init ps al) prog s) (hd : ∀ i, Done s i) :
    (∀ i, ofThread i s.hist = prog i) ∧
      ∀ t os, StackSpec.run ps al (StackSpec.init al) (s.hist.map Prod.snd) = some (t, os) →
        (∀ i, (s.th i).results.map out = (ofThread i ((s.hist.map Prod.fst).zip os)).map .ok) ∧
        PagedStack.contents s.shared = t.items := by
  obtain ⟨h2, h3, h1'⟩ := C25_atomic_sections c spin _ prog s h (by
    rintro i ⟨r, l, e⟩; rw [(hd i).1] at e; cases e)
  have h1 : ∀ i, ofThread i s.hist = prog i := fun i => by
    have := h1' i
    rwa [(hd i).2, List.append_nil] at this
  refine ⟨h1, fun t os hr => ?_⟩
  generalize s.hist = order at *
  obtain ⟨s', e1, e2⟩ := PagedStack.R_run h0 ha (order.map Prod.snd) (PagedStack.R_init ha) hr
  have key : ∀ (order : List (Nat × PagedStack.Op α)) (g g' : PagedStack.PS α) (os : List (PagedStack.Out α)),
      PagedStack.run g (order.map Prod.snd) = .ok (g', os) →
      (sequential c g order).1 = g' ∧
      (∀ i, (ofThread i (sequential c g order).2).map out = (ofThread i ((order.map Prod.fst).zip os)).map .ok) := by
    intro order
    induction order with
    | nil =>
      intro g g' os e
      simp only [List.map_nil, PagedStack.run] at e
      injection e with e; obtain ⟨rfl, rfl⟩ := Prod.mk.inj e
      exact ⟨rfl, fun i => rfl⟩
    | cons p order ih =>
      obtain ⟨j, op⟩ := p
      intro g g' os e
      simp only [List.map_cons, PagedStack.run] at e
      cases e3 : PagedStack.step g op with
      | error f => rw [e3] at e; cases e
      | ok r =>
        obtain ⟨g1, o1⟩ := r
        rw [e3, PagedStack.bind_ok] at e
        dsimp only at e
        cases e4 : PagedStack.run g1 (order.map Prod.snd) with
        | error f => rw [e4] at e; cases e
        | ok r2 =>
          obtain ⟨g2, os2⟩ := r2
          rw [e4, PagedStack.bind_ok] at e
          injection e with e
          obtain ⟨rfl, rfl⟩ := Prod.mk.inj e
          obtain ⟨a1, a2⟩ := hc.ok g g1 op o1 e3
          obtain ⟨b1, b2⟩ := ih g1 g2 os2 e4
          simp only [sequential]
          rw [a1]
          refine ⟨b1, fun i => ?_⟩
          have := b2 i
          simp only [ofThread, List.filterMap_cons, List.map_cons, List.zip_cons_cons] at this ⊢
          by_cases ej : j = i
          · simp [ej, a2, this]
          · simp [ej, this]
  obtain ⟨k1, k2⟩ := key order _ s' os e1
  refine ⟨fun i => by rw [h3 i]; exact k2 i, ?_⟩
  rw [h2, k1]
  exact PagedStack.contents_of_R e2

/-- C32, real time: a call takes its place in the order, at the end of it, in the step in which its lock() succeeds,
which lies between the beginning and the return of the call; nothing else changes the order. So a call that has
returned precedes every call made later. -/
theorem C32_real_time_order (c : Client σ τ ω) (spin : BitVec 32)
    (s s' : St σ τ ω) (i : Nat) (sp : Bool) (hs : step c spin s i sp = some s') :
    (¬ (¬ Holds s i ∧ Holds s' i) ∧ s'.hist = s.hist) ∨
    ((¬ Holds s i ∧ Holds s' i) ∧ ∃ op rest, (s.th i).todo = op :: rest ∧ (s'.th i).todo = op :: rest ∧ s'.hist = s.hist ++ [(i, op)]) := by
  unfold step at hs
  simp only [] at hs
  split at hs
  · split at hs
    · cases hs
    · injection hs with hs; subst hs
      refine .inl ⟨fun ⟨_, _, _, h⟩ => ?_, rfl⟩
      simp at h
  · rename_i sc hpc
    split at hs
    · cases hs
    · rename_i op rest htodo
      split at hs <;> (injection hs with hs; subst hs)
      · refine .inl ⟨fun ⟨_, _, _, h⟩ => ?_, rfl⟩
        simp at h
      · refine .inr ⟨⟨fun ⟨_, _, h⟩ => (by rw [hpc] at h; cases h), _, _, congrArg Th.pc (upd_self ..)⟩, op, rest, htodo, ?_, rfl⟩
        exact (congrArg Th.todo (upd_self ..)).trans htodo
  · rename_i hpc
    injection hs with hs; subst hs
    exact .inl ⟨fun h => h.1 ⟨_, _, hpc⟩, rfl⟩
  · rename_i hpc
    injection hs with hs; subst hs
    exact .inl ⟨fun h => h.1 ⟨_, _, hpc⟩, rfl⟩

/-- A locked stack exists: one access per call. -/
example {α : Type} : ∃ (c : Client (PagedStack.PS α) (Option (Res (PagedStack.Out α))) (PagedStack.Op α))
    (out : Option (Res (PagedStack.Out α)) → Res (PagedStack.Out α)), LockedStack c out :=
  ⟨{ micro := fun op => [fun (s, _) => match PagedStack.step s op with
      | .ok (s', o) => (s', some (.ok o))
      | .error e => (s, some (.error e))],
     start := fun _ => none },
   fun r => r.getD (.error .hang),
   ⟨fun s s' op o e => by simp [alone, e]⟩⟩

end Falcon.Futex
