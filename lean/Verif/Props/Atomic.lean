import Verif.Model.Atomic
/-
C33-C37: the portable atomic operations.

A schedule is a list of (thread, call) in the order in which the indivisible calls take effect;
every interleaving of any number of threads is such a list.
-/
namespace Falcon.Atomic

/-- The amount a counting call adds. -/
def delta : Op → Option I32
  | .inc        => some 1
  | .dec        => some (-1)
  | .add v      => some v
  | .fetch      => some 0
  | .set _      => none
  | .exchange _ => none
  | .cas _ _    => none
  | .xor _      => none
  | .and _      => none
  | .or _       => none

/-- Only increments, decrements, additions and reads. -/
def Counting (l : List (Nat × Op)) : Prop := ∀ p ∈ l, delta p.2 ≠ none

/-- Sum (modulo 2^32) of the amounts added by the calls. -/
def total (l : List (Nat × Op)) : I32 := (l.map fun p => (delta p.2).getD 0).foldr (· + ·) 0

theorem run_cons (p : Platform) (x : I32) (q : Nat × Op) (l : List (Nat × Op)) :
    run p x (q :: l) = ((run p (step p x q.2).1 l).1, (q.1, (step p x q.2).2) :: (run p (step p x q.2).1 l).2) := rfl

theorem run_length (p : Platform) (l : List (Nat × Op)) : ∀ x, (run p x l).2.length = l.length := by
  induction l with
  | nil => intro x; rfl
  | cons q l ih => intro x; rw [run_cons]; simp [ih]

theorem delta_cases {op : Op} (h : delta op ≠ none) :
    op = .inc ∨ op = .dec ∨ (∃ v, op = .add v) ∨ op = .fetch := by
  cases op <;> simp [delta] at h ⊢

theorem fetch_eq (p : Platform) (x : I32) : fetch p x = (x, x) := by
  cases p <;> simp only [fetch] <;> split <;> simp_all

theorem step_delta (p : Platform) (x : I32) (op : Op) (h : delta op ≠ none) :
    (step p x op).1 = x + (delta op).getD 0 := by
  rcases delta_cases h with rfl | rfl | ⟨v, rfl⟩ | rfl <;> cases p <;> simp [step, inc, dec, add, delta, fetch_eq]

/-- C33: in every interleaving the variable ends at its initial value plus the sum of all amounts
(mod 2^32), on every platform. -/
theorem C33_counter_sum (p : Platform) (x : I32) (l : List (Nat × Op)) (h : Counting l) :
    (run p x l).1 = x + total l := by
  induction l generalizing x with
  | nil => simp [run, total]
  | cons q l ih =>
    rw [run_cons]
    show (run p (step p x q.2).1 l).1 = _
    rw [ih _ (fun a ha => h a (by simp [ha])), step_delta _ _ _ (h q (by simp))]
    show _ = x + ((delta q.2).getD 0 + total l)
    rw [BitVec.add_assoc]

theorem total_perm {l l' : List (Nat × Op)} (h : l.Perm l') : total l = total l' := by
  induction h with
  | nil => rfl
  | cons q _ ih =>
    show (delta q.2).getD 0 + _ = (delta q.2).getD 0 + _
    exact congrArg _ ih
  | swap q r l =>
    show (delta r.2).getD 0 + ((delta q.2).getD 0 + total l) = (delta q.2).getD 0 + ((delta r.2).getD 0 + total l)
    rw [← BitVec.add_assoc, ← BitVec.add_assoc, BitVec.add_comm ((delta r.2).getD 0)]
  | trans _ _ a b => exact a.trans b

/-- C33: the final value does not depend on the order of the calls. -/
theorem C33_order_irrelevant (p : Platform) (x : I32) (l l' : List (Nat × Op)) (h : Counting l)
    (hp : l.Perm l') : (run p x l).1 = (run p x l').1 := by
  rw [C33_counter_sum p x l h, C33_counter_sum p x l' (fun a ha => h a (hp.mem_iff.2 ha)), total_perm hp]

/-- C33: the k-th call to take effect returns the value it established, i.e. the initial value
plus the amounts of the first k+1 calls (inc, dec and fetch on every platform; add where it returns
the new value, see C37). -/
theorem C33_returns_established (p : Platform) (hp : p ≠ .vcX86) (x : I32) (l : List (Nat × Op))
    (h : Counting l) (k : Nat) (hk : k < l.length) :
    (run p x l).2[k]? = some (l[k].1, .int (x + total (l.take (k + 1)))) := by
  induction l generalizing x k with
  | nil => simp at hk
  | cons q l ih =>
    rw [run_cons]
    cases k with
    | zero =>
      obtain ⟨i, op⟩ := q
      have := h _ (List.mem_cons_self)
      rcases delta_cases this with rfl | rfl | ⟨v, rfl⟩ | rfl <;> cases p <;>
        first | exact absurd rfl hp | simp [step, inc, dec, add, delta, total, fetch_eq]
    | succ k =>
      show (run p (step p x q.2).1 l).2[k]? = _
      have hk' : k < l.length := by simpa using hk
      rw [ih _ (fun a ha => h a (by simp [ha])) k hk', step_delta _ _ _ (h q (by simp))]
      show _ = some (l[k].1, Ret.int (x + ((delta q.2).getD 0 + total (l.take (k + 1)))))
      rw [BitVec.add_assoc]

/-- C33: the same for increments, decrements and reads on x86 Visual C++. -/
theorem C33_returns_established_incdec (p : Platform) (x : I32) (l : List (Nat × Op))
    (h : Counting l) (k : Nat) (hk : k < l.length) (hop : l[k].2 = .inc ∨ l[k].2 = .dec ∨ l[k].2 = .fetch) :
    (run p x l).2[k]? = some (l[k].1, .int (x + total (l.take (k + 1)))) := by
  induction l generalizing x k with
  | nil => simp at hk
  | cons q l ih =>
    rw [run_cons]
    cases k with
    | zero =>
      obtain ⟨i, op⟩ := q
      rcases hop with e | e | e <;> (simp only [List.getElem_cons_zero] at e; subst e; simp [step, inc, dec, delta, total, fetch_eq])
    | succ k =>
      show (run p (step p x q.2).1 l).2[k]? = _
      have hk' : k < l.length := by simpa using hk
      rw [ih _ (fun a ha => h a (by simp [ha])) k hk' hop, step_delta _ _ _ (h q (by simp))]
      show _ = some (l[k].1, Ret.int (x + ((delta q.2).getD 0 + total (l.take (k + 1)))))
      rw [BitVec.add_assoc]

example : Counting [(0, .inc), (1, .add 5), (0, .dec), (3, .fetch), (2, .add (-7))] ∧
    run .gcc 10 [(0, .inc), (1, .add 5), (0, .dec), (3, .fetch), (2, .add (-7))]
      = (8, [(0, .int 11), (1, .int 16), (0, .int 15), (3, .int 15), (2, .int 8)]) := by
  refine ⟨?_, by decide⟩
  intro p hp; simp at hp; rcases hp with rfl | rfl | rfl | rfl | rfl <;> simp [delta]

/-! ### C34 -/

/-- The calls of a history that are increments. -/
def incs (l : List (Nat × Op)) : Nat := (l.filter fun q => q.2 = .inc).length

theorem total_inc (l : List (Nat × Op)) (h : ∀ p ∈ l, p.2 = .inc ∨ p.2 = .fetch) :
    total l = BitVec.ofNat 32 (incs l) := by
  induction l with
  | nil => rfl
  | cons q l ih =>
    show (delta q.2).getD 0 + total l = _
    rw [ih (fun a ha => h a (by simp [ha]))]
    rcases h q (by simp) with e | e
    · rw [show incs (q :: l) = incs l + 1 by simp [incs, e], e]
      show 1#32 + BitVec.ofNat 32 (incs l) = _
      rw [BitVec.add_comm, BitVec.ofNat_add]
    · rw [show incs (q :: l) = incs l by simp [incs, e], e]
      show 0#32 + BitVec.ofNat 32 (incs l) = _
      rw [BitVec.zero_add]

theorem incs_take_le (l : List (Nat × Op)) (k : Nat) : incs (l.take k) ≤ incs l :=
  ((List.take_sublist k l).filter _).length_le

theorem incs_take_lt (l : List (Nat × Op)) (a b : Nat) (hab : a < b) (hb : b < l.length)
    (h : l[b].2 = .inc) : incs (l.take (a + 1)) < incs (l.take (b + 1)) := by
  have h1 : incs (l.take (a + 1)) ≤ incs (l.take b) := by
    have := incs_take_le (l.take b) (a + 1)
    rwa [List.take_take, Nat.min_eq_left (by omega)] at this
  have h2 : incs (l.take (b + 1)) = incs (l.take b) + 1 := by
    rw [List.take_succ_eq_append_getElem hb, incs, incs, List.filter_append]
    simp [h]
  omega

theorem inc_returns (p : Platform) (x : I32) (l : List (Nat × Op))
    (h : ∀ q ∈ l, q.2 = .inc ∨ q.2 = .fetch) (k : Nat) (hk : k < l.length) :
    (run p x l).2[k]? = some (l[k].1, .int (x + BitVec.ofNat 32 (incs (l.take (k + 1))))) := by
  have hc : Counting l := fun q hq => by rcases h q hq with e | e <;> rw [e] <;> simp [delta]
  rw [C33_returns_established_incdec p x l hc k hk (by
        rcases h _ (List.getElem_mem hk) with e | e
        · exact Or.inl e
        · exact Or.inr (Or.inr e)),
    total_inc _ (fun q hq => h q (List.mem_of_mem_take hq))]

/-- C34: up to 2^32 increments, by any threads in any interleaving, with any reads in between,
return pairwise different values. -/
theorem C34_distinct_tickets (p : Platform) (x : I32) (l : List (Nat × Op))
    (h : ∀ q ∈ l, q.2 = .inc ∨ q.2 = .fetch) (hl : incs l ≤ 2 ^ 32)
    (a b : Nat) (hab : a < b) (hb : b < l.length) (ia : l[a].2 = .inc) (ib : l[b].2 = .inc) :
    ((run p x l).2[a]?).map Prod.snd ≠ ((run p x l).2[b]?).map Prod.snd := by
  rw [inc_returns p x l h a (by omega), inc_returns p x l h b hb]
  intro e
  have e := Ret.int.inj (Option.some.inj e)
  have e := congrArg BitVec.toNat ((BitVec.add_right_inj _).1 e)
  simp only [BitVec.toNat_ofNat] at e
  have h1 := incs_take_lt l a b hab hb ib
  have h2 := incs_take_le l (b + 1)
  have h3 : 0 < incs (l.take (a + 1)) := by
    rw [List.take_succ_eq_append_getElem (by omega), incs, List.filter_append]
    simp [ia]
  omega

/-- C34: the bound is exact - the increment after 2^32 others returns the first one's value. -/
theorem C34_bound_exact (p : Platform) (x : I32) (l : List (Nat × Op))
    (h : ∀ q ∈ l, q.2 = .inc) (hl : 2 ^ 32 < l.length) :
    ((run p x l).2[2 ^ 32]?).map Prod.snd = ((run p x l).2[0]?).map Prod.snd := by
  have all : ∀ k, k ≤ l.length → incs (l.take k) = k := by
    intro k hk
    rw [incs, List.filter_eq_self.2 (fun q hq => by simp [h q (List.mem_of_mem_take hq)]), List.length_take,
      Nat.min_eq_left hk]
  rw [inc_returns p x l (fun q hq => Or.inl (h q hq)) _ hl,
    inc_returns p x l (fun q hq => Or.inl (h q hq)) 0 (by omega), all _ (by omega), all _ (by omega)]
  rfl

example : (run .vcX86 (-1) [(0, .inc), (1, .inc), (0, .inc)]).2 = [(0, .int 0), (1, .int 1), (0, .int 2)] := by decide

/-! ### C35 -/

theorem cas_lose (p : Platform) (old x : I32) (hx : x ≠ old) (l : List (Nat × I32)) :
    run p x (l.map fun c => (c.1, .cas old c.2)) = (x, l.map fun c => (c.1, .bool false)) := by
  induction l with
  | nil => rfl
  | cons c l ih =>
    have hs : step p x (.cas old c.2) = (x, .bool false) := by
      cases p <;> simp [step, cas, hx]
    rw [List.map_cons, run_cons]
    simp only [hs, ih, List.map_cons]

/-- C35: any number n ≥ 1 of contenders try cas(old → newᵢ) with newᵢ ≠ old on a variable holding
old: in every order exactly one call returns true, and the variable ends with that call's value. -/
theorem C35_one_winner (p : Platform) (old : I32) (l : List (Nat × I32)) (hne : l ≠ [])
    (hnew : ∀ c ∈ l, c.2 ≠ old) :
    ∃ pre w post, l = pre ++ w :: post ∧
      run p old (l.map fun c => (c.1, .cas old c.2))
        = (w.2, pre.map (fun c => (c.1, .bool false)) ++ (w.1, .bool true) :: post.map fun c => (c.1, .bool false)) := by
  cases l with
  | nil => exact absurd rfl hne
  | cons c l =>
    refine ⟨[], c, l, rfl, ?_⟩
    have hs : step p old (.cas old c.2) = (c.2, .bool true) := by
      cases p <;> simp [step, cas]
    rw [List.map_cons, run_cons]
    simp only [hs, cas_lose p old c.2 (hnew c (by simp)) l, List.map_nil, List.nil_append]

/-- C35: a call returns true iff the variable held the expected value, and it changes the variable
only then. -/
theorem C35_cas_exact (p : Platform) (x a b : I32) :
    (cas p x a b = (b, true) ∧ x = a) ∨ (cas p x a b = (x, false) ∧ x ≠ a) := by
  by_cases h : x = a
  · left; cases p <;> simp [cas, h]
  · right; cases p <;> simp [cas, h]

example : run .vc64 4 [(0, .cas 4 7), (1, .cas 4 9), (2, .cas 4 7)] = (7, [(0, .bool true), (1, .bool false), (2, .bool false)]) := by
  decide

/-! ### C36 -/

/-- C36: exchange/xor/and/or return the value held before; the new value is the bitwise result at
every bit position. -/
theorem C36_bitwise (p : Platform) (x v : I32) (i : Nat) :
    (step p x (.xor v)).2 = .int x ∧ (step p x (.and v)).2 = .int x ∧ (step p x (.or v)).2 = .int x ∧
    (step p x (.exchange v)).2 = .int x ∧ (step p x (.exchange v)).1 = v ∧
    (step p x (.xor v)).1.getLsbD i = (x.getLsbD i ^^ v.getLsbD i) ∧
    (step p x (.and v)).1.getLsbD i = (x.getLsbD i && v.getLsbD i) ∧
    (step p x (.or v)).1.getLsbD i = (x.getLsbD i || v.getLsbD i) := by
  simp [step, xor, and, or, exchange]

/-- C36: xor with the same value twice restores the variable; exchanging back the returned value
restores it. -/
theorem C36_restore (p : Platform) (x v : I32) (i j : Nat) :
    (run p x [(i, .xor v), (j, .xor v)]).1 = x ∧ (run p x [(i, .exchange v), (j, .exchange x)]).1 = x := by
  constructor
  · show x ^^^ v ^^^ v = x
    rw [BitVec.xor_assoc, BitVec.xor_self, BitVec.xor_zero]
  · rfl

/-- C36: fetch returns the value and leaves it unchanged, on every platform. -/
theorem C36_fetch (p : Platform) (x : I32) : step p x .fetch = (x, .int x) := by
  simp [step, fetch_eq]

/-- C36: after atomicSet(v) every read returns v, however many threads read, until somebody
writes again, whatever was in the variable before. -/
theorem C36_set_then_read (p : Platform) (x v : I32) (i : Nat) (rs : List Nat) :
    run p x ((i, .set v) :: rs.map fun r => (r, .fetch)) = (v, (i, .unit) :: rs.map fun r => (r, .int v)) := by
  rw [run_cons]
  have : ∀ rs : List Nat, run p v (rs.map fun r => (r, .fetch)) = (v, rs.map fun r => (r, .int v)) := by
    intro rs
    induction rs with
    | nil => rfl
    | cons r rs ih => rw [List.map_cons, run_cons]; simp only [C36_fetch, ih, List.map_cons]
  rw [show (step p x (.set v)).1 = v from rfl, this rs]
  rfl

/-- C36: in a schedule of exchanges, every stored value (the initial one included) is handed out
exactly once or is the final value: nothing is duplicated or lost. -/
theorem C36_exchange_conserves (p : Platform) (l : List (Nat × I32)) : ∀ x,
    ((run p x (l.map fun c => (c.1, .exchange c.2))).2.map Prod.snd) ++
      [.int (run p x (l.map fun c => (c.1, .exchange c.2))).1] = .int x :: l.map fun c => .int c.2 := by
  induction l with
  | nil => intro x; rfl
  | cons c l ih =>
    intro x
    rw [List.map_cons, run_cons]
    simp only [List.map_cons, List.cons_append]
    rw [show (step p x (.exchange c.2)).1 = c.2 from rfl, ih c.2]
    rfl

/-! ### C37 -/

/-- C37 does not hold: on 32 bit x86 Visual C++ builds atomicAdd returns the old value. -/
theorem C37_add_portable_refuted : (add .vcX86 3 4).2 = 3 ∧ (add .gcc 3 4).2 = 7 ∧ (add .vc64 3 4).2 = 7 := by
  decide

/-- C37 (what holds): every call except add on x86 behaves identically on all platforms, for all
values, including the value returned; add leaves the same value in the variable everywhere and
returns the new value, except on x86 where the result is smaller by exactly the amount added. -/
theorem C37_portable_partial (p q : Platform) (x : I32) (op : Op) :
    (step p x op).1 = (step q x op).1 ∧
    ((∀ v, op ≠ .add v) → (step p x op).2 = (step q x op).2) ∧
    (∀ v, (add .gcc x v).2 = x + v ∧ (add .vc64 x v).2 = x + v ∧ (add .vcX86 x v).2 + v = x + v) := by
  refine ⟨?_, ?_, fun v => ⟨rfl, rfl, rfl⟩⟩
  · cases op <;> cases p <;> cases q <;> first | rfl | (simp only [step, fetch, cas]; split <;> simp_all)
  · intro h
    cases op <;> first | exact absurd rfl (h _) | skip
    all_goals cases p <;> cases q <;> first | rfl | (simp only [step, fetch, cas]; split <;> simp_all)

end Falcon.Atomic
