import Verif.Proofs.Logger
/-
C56-C65, C104: the Logger front end.
-/
namespace Falcon.Logger
open Falcon.Log (Str Msg Rx Lst LId setLst setCategory checkCategory)

/-! ### C56, C57 -/

/-- C56: a thread that executes any sequence of (non-nested) LOG and LOG_BLOCK statements, category
and level changes emits exactly the messages the statements describe: one per admissible statement,
text = its own pieces in order, its own file, line and level, its category; nothing for the others;
and afterwards it is ready again. No other thread's state changes. -/
theorem C56_statements (min : Int) (w : W) (i : Nat) (ss : List Stm) (rest : List Op) (hp : ∀ s ∈ ss, s.isPlain = true)
    (htodo : (w.th i).todo = ss.map Stm.toOp ++ rest) (hready : Ready (w.th i).tls) :
    ∃ w', Runs min i w w' ∧ w'.out = w.out ++ (emitsAll min w.level (w.th i).tls.category ss).map (fun m => (i, m)) ∧
      (w'.th i).todo = rest ∧ Ready (w'.th i).tls ∧ ∀ j, j ≠ i → w'.th j = w.th j := by
  obtain ⟨t', h1, h2, h3⟩ := runs_stms (min := min) (i := i) (w := w) (r := rest) (es := (w.th i).ends) ss (w.th i).tls w.level w.out hp hready
  have e : mk w i { todo := ss.map Stm.toOp ++ rest, ends := (w.th i).ends, tls := (w.th i).tls } w.level w.out = w := by
    rw [← htodo]; exact mk_self w i
  rw [e] at h3
  exact ⟨_, h3, rfl, by simp [mk], by simpa [mk] using h1, fun j hj => by simp [mk, hj]⟩

/-- C56: a statement that is not admitted by the compile-time or the run-time level changes nothing
but the thread's position. -/
theorem C56_filtered_no_effect (min : Int) (w : W) (i : Nat) (f : Str) (l lvl : Int) (tc : Option Str) (ps : List Piece) (rest : List Op)
    (htodo : (w.th i).todo = (Stm.log f l lvl tc ps).toOp :: rest) (h : ¬ (lvl ≤ min ∧ lvl ≤ w.level)) :
    Runs min i w (setTh w i { w.th i with todo := rest }) := by
  have := runs_log_off (min := min) (i := i) (w := w) (r := rest) (es := (w.th i).ends) (t := (w.th i).tls) (lv := w.level) (out := w.out)
    (f := f) (l := l) (tc := tc) (ps := ps) h
  rw [← htodo, mk_self] at this
  exact this

/-- C57: LOG(l) << LOG_CAT(c) << ... is emitted under c, and the next statement again under the
thread's own category. -/
theorem C57_temporary_category (min : Int) (w : W) (i : Nat) (f f' : Str) (l l' lvl lvl' : Int) (c : Str) (ps qs : List Piece)
    (hc : c ≠ []) (hps : ps.all Piece.isPlain = true) (hqs : qs.all Piece.isPlain = true)
    (h1 : lvl ≤ min ∧ lvl ≤ w.level) (h2 : lvl' ≤ min ∧ lvl' ≤ w.level) (hready : Ready (w.th i).tls)
    (htodo : (w.th i).todo = [(Stm.log f l lvl (some c) ps).toOp, (Stm.log f' l' lvl' none qs).toOp]) :
    ∃ w', Runs min i w w' ∧ (w'.th i).todo = [] ∧
      w'.out = w.out ++ [(i, { file := f, line := l, level := lvl, cat := c, text := plainText ps }),
                         (i, { file := f', line := l', level := lvl', cat := (w.th i).tls.category, text := plainText qs })] := by
  obtain ⟨w', e1, e2, e3, -⟩ := C56_statements min w i [.log f l lvl (some c) ps, .log f' l' lvl' none qs] [] (by
    intro s hs
    rcases List.mem_cons.1 hs with rfl | hs
    · exact hps
    · rw [List.mem_singleton.1 hs]; exact hqs) (by simpa using htodo) hready
  refine ⟨w', e1, e3, ?_⟩
  have q1 : Stm.emits min w.level (w.th i).tls.category (Stm.log f l lvl (some c) ps) =
      [Msg.mk f l lvl c (plainText ps)] := by simp only [Stm.emits, msgCat]; rw [if_pos h1, if_neg hc]
  have q2 : Stm.emits min w.level (w.th i).tls.category (Stm.log f' l' lvl' none qs) =
      [Msg.mk f' l' lvl' (w.th i).tls.category (plainText qs)] := by simp only [Stm.emits, msgCat]; rw [if_pos h2]
  rw [e2]
  simp [emitsAll, q1, Stm.newLevel, Stm.newCat, q2]

/-- C57 does not hold for the empty category: a message cannot be excepted from the thread's
category. -/
theorem C57_empty_category_refuted :
    (runS 5 { level := 5, th := fun _ => { todo := [.setCategory ['A'], (Stm.log ['f'] 1 3 (some []) [.text ['x']]).toOp] } }
      (List.replicate 5 0)).out = [(0, { file := ['f'], line := 1, level := 3, cat := ['A'], text := ['x'] })] := by decide

/-- Non-vacuity: two threads' worth of statements, one of them filtered. -/
example : emitsAll 4 5 [] [.log ['f'] 1 3 none [.text ['x'], .num 12], .log ['f'] 2 5 none [.text ['y']], .category ['C'],
    .block ['f'] 3 4 [.text ['z']]] =
  [{ file := ['f'], line := 1, level := 3, cat := [], text := ['x', '1', '2'] },
   { file := ['f'], line := 3, level := 4, cat := ['C'], text := ['z'] }] := by decide

/-! ### C58 -/

/-- C58 does not hold: `LOG(3) << "a" << f() << "b"` where f() contains `LOG(4) << "in"`: the inner
message carries the outer text, the outer message the inner location and level. -/
theorem C58_nesting_refuted :
    (runS 5 { level := 5, th := fun _ => { todo := [.log ['o'] 1 3 [.put (.text ['a']), .log ['i'] 2 4 [.put (.text ['n'])], .put (.text ['b'])]] } }
      (List.replicate 7 0)).out =
      [(0, { file := ['i'], line := 2, level := 4, cat := [], text := ['a', 'n'] }),
       (0, { file := ['i'], line := 2, level := 4, cat := [], text := ['b'] })] := by decide

/-- C58 (what happens, exactly): the inner statement's message begins with what the outer one had
composed so far, and the rest of the outer one is emitted with the inner one's file, line and
level. -/
theorem C58_nesting_exact_partial (min : Int) (w : W) (i : Nat) (f f' : Str) (l l' lvl lvl' : Int) (as ps bs : List Piece) (rest : List Op)
    (ha : as.all Piece.isPlain = true) (hps : ps.all Piece.isPlain = true) (hb : bs.all Piece.isPlain = true)
    (h1 : lvl ≤ min ∧ lvl ≤ w.level) (h2 : lvl' ≤ min ∧ lvl' ≤ w.level) (hready : Ready (w.th i).tls)
    (htodo : (w.th i).todo = .log f l lvl (as.map Op.put ++ (Stm.log f' l' lvl' none ps).toOp :: bs.map Op.put) :: rest) :
    ∃ w', Runs min i w w' ∧ (w'.th i).todo = rest ∧ Ready (w'.th i).tls ∧
      w'.out = w.out ++ [(i, { file := f', line := l', level := lvl', cat := (w.th i).tls.category, text := plainText as ++ plainText ps }),
                         (i, { file := f', line := l', level := lvl', cat := (w.th i).tls.category, text := plainText bs })] := by
  obtain ⟨r1, r2, r3, r4⟩ := hready
  have e : mk w i (Th.mk (.log f l lvl (as.map Op.put ++ (Stm.log f' l' lvl' none ps).toOp :: bs.map Op.put) :: rest)
      (w.th i).ends (w.th i).tls) w.level w.out = w := by
    rw [← htodo]; exact mk_self w i
  have a1 := step_log_on (w := w) (i := i) (min := min) (r := rest) (es := (w.th i).ends) (t := (w.th i).tls) (lv := w.level) (out := w.out)
    (f := f) (l := l) (parts := as.map Op.put ++ (Stm.log f' l' lvl' none ps).toOp :: bs.map Op.put) h1
  rw [e] at a1
  have a2 := runs_puts (min := min) (w := w) (i := i) (r := (Stm.log f' l' lvl' none ps).toOp :: (bs.map Op.put ++ .autoEnd :: rest))
    (es := (w.th i).ends) (lv := w.level) (out := w.out) as (locate (w.th i).tls f l lvl)
  have a3 := runs_log_on (min := min) (w := w) (i := i) (r := bs.map Op.put ++ .autoEnd :: rest) (es := true :: (w.th i).ends)
    (t := as.foldl insert (locate (w.th i).tls f l lvl)) (lv := w.level) (out := w.out) (f := f') (l := l') (tc := none) (ps := ps) h2
  have a4 := runs_puts (min := min) (w := w) (i := i) (r := .autoEnd :: rest)
    (es := (w.th i).ends) (lv := w.level) (out := w.out ++ [(i, ((as.foldl insert (locate (w.th i).tls f l lvl)).composed f' l' lvl' none ps).msg)]) bs
    ((as.foldl insert (locate (w.th i).tls f l lvl)).composed f' l' lvl' none ps).clean
  have a5 := step_autoEnd_on (min := min) (w := w) (i := i) (r := rest) (es := (w.th i).ends) (lv := w.level)
    (t := bs.foldl insert ((as.foldl insert (locate (w.th i).tls f l lvl)).composed f' l' lvl' none ps).clean)
    (out := w.out ++ [(i, ((as.foldl insert (locate (w.th i).tls f l lvl)).composed f' l' lvl' none ps).msg)])
  have r := (Runs.one a1).trans ((by simpa using a2 : Runs min i _ _).trans (a3.trans (a4.trans (.one a5))))
  refine ⟨_, r, by simp [mk], ?_, ?_⟩
  · simp [mk, Ready, Tls.clean, Tls.composed, foldl_insert, locate, r2, r3, renderP_plain as ha, renderP_plain ps hps, renderP_plain bs hb]
  · have hl : (bs.foldl insert ((as.foldl insert (locate (w.th i).tls f l lvl)).composed f' l' lvl' none ps).clean).lvl ≤ w.level := by
      simp only [Tls.clean, Tls.composed, foldl_insert, locate]; exact h2.2
    rw [if_pos hl]
    simp [mk, Tls.msg, Tls.effCat, Tls.clean, Tls.composed, foldl_insert, locate, r1, r2, r3, r4, renderP_plain as ha, renderP_plain ps hps,
      renderP_plain bs hb]

/-- C58 (what holds): a nested statement that is filtered out does not disturb the outer one. -/
theorem C58_filtered_nested_partial (min : Int) (w : W) (i : Nat) (f f' : Str) (l l' lvl lvl' : Int) (as ps bs : List Piece) (rest : List Op)
    (ha : as.all Piece.isPlain = true) (hb : bs.all Piece.isPlain = true)
    (h1 : lvl ≤ min ∧ lvl ≤ w.level) (h2 : ¬ (lvl' ≤ min ∧ lvl' ≤ w.level)) (hready : Ready (w.th i).tls)
    (htodo : (w.th i).todo = .log f l lvl (as.map Op.put ++ (Stm.log f' l' lvl' none ps).toOp :: bs.map Op.put) :: rest) :
    ∃ w', Runs min i w w' ∧ (w'.th i).todo = rest ∧ Ready (w'.th i).tls ∧
      w'.out = w.out ++ [(i, { file := f, line := l, level := lvl, cat := (w.th i).tls.category, text := plainText as ++ plainText bs })] := by
  obtain ⟨r1, r2, r3, r4⟩ := hready
  have e : mk w i (Th.mk (.log f l lvl (as.map Op.put ++ (Stm.log f' l' lvl' none ps).toOp :: bs.map Op.put) :: rest)
      (w.th i).ends (w.th i).tls) w.level w.out = w := by
    rw [← htodo]; exact mk_self w i
  have a1 := step_log_on (w := w) (i := i) (min := min) (r := rest) (es := (w.th i).ends) (t := (w.th i).tls) (lv := w.level) (out := w.out)
    (f := f) (l := l) (parts := as.map Op.put ++ (Stm.log f' l' lvl' none ps).toOp :: bs.map Op.put) h1
  rw [e] at a1
  have a2 := runs_puts (min := min) (w := w) (i := i) (r := (Stm.log f' l' lvl' none ps).toOp :: (bs.map Op.put ++ .autoEnd :: rest))
    (es := (w.th i).ends) (lv := w.level) (out := w.out) as (locate (w.th i).tls f l lvl)
  have a3 := runs_log_off (min := min) (w := w) (i := i) (r := bs.map Op.put ++ .autoEnd :: rest) (es := true :: (w.th i).ends)
    (t := as.foldl insert (locate (w.th i).tls f l lvl)) (lv := w.level) (out := w.out) (f := f') (l := l') (tc := none) (ps := ps) h2
  have a4 := runs_puts (min := min) (w := w) (i := i) (r := .autoEnd :: rest)
    (es := (w.th i).ends) (lv := w.level) (out := w.out) bs (as.foldl insert (locate (w.th i).tls f l lvl))
  have a5 := step_autoEnd_on (min := min) (w := w) (i := i) (r := rest) (es := (w.th i).ends) (lv := w.level)
    (t := bs.foldl insert (as.foldl insert (locate (w.th i).tls f l lvl))) (out := w.out)
  have r := (Runs.one a1).trans ((by simpa using a2 : Runs min i _ _).trans (a3.trans (a4.trans (.one a5))))
  refine ⟨_, r, by simp [mk], ?_, ?_⟩
  · simp [mk, Ready, Tls.clean, foldl_insert, locate, r2, r3, renderP_plain as ha, renderP_plain bs hb]
  · have hl : (bs.foldl insert (as.foldl insert (locate (w.th i).tls f l lvl))).lvl ≤ w.level := by
      simp only [foldl_insert, locate]; exact h1.2
    rw [if_pos hl]
    simp [mk, Tls.msg, Tls.effCat, foldl_insert, locate, r1, r2, r3, r4, renderP_plain as ha, renderP_plain bs hb]

/-! ### C59 -/

/-- C59 does not hold: a block left with break emits nothing, and its text appears in the next
message. -/
theorem C59_early_exit_refuted :
    (runS 5 { level := 5, th := fun _ => { todo := [.block ['f'] 1 3 [.lput (.text ['a'])] true, (Stm.log ['f'] 2 3 none [.text ['b']]).toOp] } }
      (List.replicate 6 0)).out = [(0, { file := ['f'], line := 2, level := 3, cat := [], text := ['a', 'b'] })] := by decide

/-- C59 (what holds): a block that runs to its end emits exactly one message with its own text,
file, line and level - also when its body contains no or many insertions. -/
theorem C59_block_partial (min : Int) (w : W) (i : Nat) (f : Str) (l lvl : Int) (ps : List Piece) (rest : List Op)
    (hps : ps.all Piece.isPlain = true) (h1 : lvl ≤ min ∧ lvl ≤ w.level) (hready : Ready (w.th i).tls)
    (htodo : (w.th i).todo = .block f l lvl (ps.map Op.lput) false :: rest) :
    ∃ w', Runs min i w w' ∧ (w'.th i).todo = rest ∧ Ready (w'.th i).tls ∧
      w'.out = w.out ++ [(i, { file := f, line := l, level := lvl, cat := (w.th i).tls.category, text := plainText ps })] := by
  obtain ⟨w', e1, e2, e3, e4, -⟩ := C56_statements min w i [.block f l lvl ps] rest (by
    intro s hs; rw [List.mem_singleton.1 hs]; exact hps) (by simpa [Stm.toOp] using htodo) hready
  refine ⟨w', e1, e3, e4, ?_⟩
  rw [e2]; simp only [emitsAll, Stm.emits, if_pos h1]; simp

/-- C59 (what happens, exactly): after an early exit nothing is emitted and the block's text is put
in front of the next statement's text. -/
theorem C59_early_exit_exact_partial (min : Int) (w : W) (i : Nat) (f f' : Str) (l l' lvl lvl' : Int) (ps qs : List Piece) (rest : List Op)
    (hps : ps.all Piece.isPlain = true) (hqs : qs.all Piece.isPlain = true)
    (h1 : lvl ≤ min ∧ lvl ≤ w.level) (h2 : lvl' ≤ min ∧ lvl' ≤ w.level) (hready : Ready (w.th i).tls)
    (htodo : (w.th i).todo = .block f l lvl (ps.map Op.lput) true :: (Stm.log f' l' lvl' none qs).toOp :: rest) :
    ∃ w', Runs min i w w' ∧ (w'.th i).todo = rest ∧ Ready (w'.th i).tls ∧
      w'.out = w.out ++ [(i, { file := f', line := l', level := lvl', cat := (w.th i).tls.category, text := plainText ps ++ plainText qs })] := by
  obtain ⟨r1, r2, r3, r4⟩ := hready
  have e : mk w i (Th.mk (.block f l lvl (ps.map Op.lput) true :: (Stm.log f' l' lvl' none qs).toOp :: rest)
      (w.th i).ends (w.th i).tls) w.level w.out = w := by
    rw [← htodo]; exact mk_self w i
  have a1 := runs_block_enter (w := w) (i := i) (min := min) (r := (Stm.log f' l' lvl' none qs).toOp :: rest) (es := (w.th i).ends) (t := (w.th i).tls)
    (lv := w.level) (out := w.out) (f := f) (l := l) (body := ps.map Op.lput) (early := true) h1
  rw [e] at a1
  have a2 := runs_lputs (min := min) (w := w) (i := i) (r := (Stm.log f' l' lvl' none qs).toOp :: rest)
    (es := (w.th i).ends) (lv := w.level) (out := w.out) ps (locate (w.th i).tls f l lvl)
  have a3 := runs_log_on (min := min) (w := w) (i := i) (r := rest) (es := (w.th i).ends)
    (t := ps.foldl insert (locate (w.th i).tls f l lvl)) (lv := w.level) (out := w.out) (f := f') (l := l') (tc := none) (ps := qs) h2
  refine ⟨_, a1.trans (a2.trans a3), by simp [mk], ?_, ?_⟩
  · simp [mk, Ready, Tls.clean, Tls.composed, foldl_insert, locate, r2, r3, renderP_plain ps hps, renderP_plain qs hqs]
  · simp [mk, Tls.msg, Tls.effCat, Tls.composed, foldl_insert, locate, r1, r2, r3, r4, renderP_plain ps hps, renderP_plain qs hqs]

/-! ### C60 -/

/-- Levels that thread `i` meets at its own steps. -/
def levelsSeen (min : Int) (i : Nat) : W → List Nat → List Int
  | _, []      => []
  | w, j :: js => (if j = i then [w.level] else []) ++ levelsSeen min i (step min w j) js

/-- C60: whatever the other threads do and however the steps are interleaved, thread `i`'s
thread-local state and the messages it emits are those it produces when running alone, given the
values of the (shared) general level at its own steps. -/
theorem C60_isolation (min : Int) (i : Nat) (sched : List Nat) : ∀ (w v : W), w.th i = v.th i → outOf w i = outOf v i →
    let solo := (levelsSeen min i w sched).foldl (fun u lv => step min { u with level := lv } i) v
    (runS min w sched).th i = solo.th i ∧ outOf (runS min w sched) i = outOf solo i := by
  induction sched with
  | nil => intro w v h1 h2; exact ⟨h1, h2⟩
  | cons j js ih =>
    intro w v h1 h2
    simp only [levelsSeen, runS, List.foldl_cons] at ih ⊢
    by_cases hj : j = i
    · subst hj
      obtain ⟨a, b⟩ := step_local (min := min) h1 h2
      simp only [if_true, List.cons_append, List.nil_append, List.foldl_cons]
      exact ih _ _ a b
    · obtain ⟨a, b⟩ := step_other (min := min) (w := w) (i := i) (j := j) (Ne.symm hj)
      simp only [hj, if_false, List.nil_append]
      exact ih _ _ (a.trans h1) (b.trans h2)

/-- C60: in particular, while nobody changes the general level, the messages of thread `i` under
any interleaving are those of running only its own steps. -/
theorem C60_as_if_alone (min : Int) (i : Nat) (sched : List Nat) (w : W)
    (hlv : ∀ k, (runS min w (sched.take k)).level = w.level)
    (halone : ∀ k, (runS min w (List.replicate k i)).level = w.level) :
    outOf (runS min w sched) i = outOf (runS min w (List.replicate (sched.count i) i)) i := by
  have seen : ∀ (sched : List Nat) (w : W) (L : Int), (∀ k, (runS min w (sched.take k)).level = L) →
      levelsSeen min i w sched = List.replicate (sched.count i) L := by
    intro sched
    induction sched with
    | nil => intro w L _; rfl
    | cons j js ih =>
      intro w L h
      have h0 : w.level = L := h 0
      have := ih (step min w j) L (fun k => h (k + 1))
      simp only [levelsSeen, this]
      by_cases hj : j = i
      · subst hj; simp [List.replicate_succ, h0]
      · simp [hj]
  have solo : ∀ (k : Nat) (u : W), (∀ m, m ≤ k → (runS min u (List.replicate m i)).level = w.level) →
      (List.replicate k w.level).foldl (fun u lv => step min { u with level := lv } i) u = runS min u (List.replicate k i) := by
    intro k
    induction k with
    | zero => intro u _; rfl
    | succ k ih =>
      intro u hu
      have h0 : u.level = w.level := hu 0 (Nat.zero_le _)
      have e : ({ u with level := w.level } : W) = u := by cases u; simp only at h0; rw [h0]
      rw [List.replicate_succ, List.replicate_succ, List.foldl_cons, e]
      exact ih (step min u i) (fun m hm => hu (m + 1) (by omega))
  have := (C60_isolation min i sched w w rfl rfl).2
  rw [seen sched w w.level hlv, solo _ w (fun m _ => halone m)] at this
  exact this

/-- Non-vacuity: two threads interleaved in the middle of their statements. -/
def twoThreads : W := { level := 5, th := fun j => { todo := [(Stm.log ['f'] j 3 none [.text ['a'], .num j]).toOp] } }
example : outOf (runS 5 twoThreads [0, 1, 1, 0, 1, 0, 0, 1]) 0 = [{ file := ['f'], line := 0, level := 3, cat := [], text := ['a', '0'] }]
    ∧ outOf (runS 5 twoThreads [0, 1, 1, 0, 1, 0, 0, 1]) 1 = [{ file := ['f'], line := 1, level := 3, cat := [], text := ['a', '1'] }] := by decide

/-! ### C61 -/

/-- C61 does not hold: with FALCON_MIN_LOG_LEVEL = INFO and the default general level TRACE, the
macro does nothing and an INFO message is emitted under the old category. -/
theorem C61_category_macro_refuted :
    (runS 3 { level := 5, th := fun _ => { todo := [.categoryMacro ['N'], (Stm.log ['f'] 1 3 none [.text ['x']]).toOp] } }
      (List.replicate 4 0)).out = [(0, { file := ['f'], line := 1, level := 3, cat := [], text := ['x'] })] := by decide

/-- C61 (what happens, exactly): the category is set iff the compile-time level is at least the
general level at that moment. -/
theorem C61_category_macro_partial (min : Int) (w : W) (i : Nat) (c : Str) (rest : List Op) (htodo : (w.th i).todo = .categoryMacro c :: rest) :
    ((step min w i).th i).tls.category = (if w.level ≤ min then c else (w.th i).tls.category) ∧
    (step min w i).out = w.out ∧ (step min w i).level = w.level ∧ ((step min w i).th i).todo = rest := by
  simp only [step, htodo]
  by_cases h : w.level ≤ min
  · rw [if_pos (by exact h), if_pos h]; simp [setTh]
  · rw [if_neg (by exact h), if_neg h]; simp [setTh]

/-- C61 (what holds): with the default compile-time level (TRACE, the highest) it always takes
effect, for all statements that follow until the next change. -/
theorem C61_default_build_partial (w : W) (i : Nat) (c : Str) (ss : List Stm) (hlv : w.level ≤ 5)
    (hp : ∀ s ∈ ss, s.isPlain = true) (hready : Ready (w.th i).tls) (htodo : (w.th i).todo = .categoryMacro c :: ss.map Stm.toOp) :
    ∃ w', Runs 5 i w w' ∧ (w'.th i).todo = [] ∧ w'.out = w.out ++ (emitsAll 5 w.level c ss).map fun m => (i, m) := by
  obtain ⟨h1, h2, h3, h4⟩ := C61_category_macro_partial 5 w i c (ss.map Stm.toOp) htodo
  have hr : Ready ((step 5 w i).th i).tls := by
    simp only [step, htodo]
    rw [if_pos (by exact hlv)]; simpa [setTh, Ready] using hready
  obtain ⟨w', e1, e2, e3, -⟩ := C56_statements 5 (step 5 w i) i ss [] hp (by rw [h4]; simp) hr
  refine ⟨w', .head rfl e1, e3, ?_⟩
  rw [e2, h1, h2, h3, if_pos hlv]

/-! ### C104 -/

/-- C104 does not hold: a manipulator used in one statement is in force in all later statements of
the thread. -/
theorem C104_format_leak_refuted :
    (runS 5 { level := 5, th := fun _ => { todo := [(Stm.log ['f'] 1 3 none [.hex, .num 255]).toOp, (Stm.log ['f'] 2 3 none [.num 255]).toOp] } }
      (List.replicate 7 0)).out.map (fun p => p.2.text) = [['f', 'f'], ['f', 'f']] := by decide

/-- C104 (what holds): the error state of the stream is reset, the format flags are not: after any
admissible LOG statement the composer is empty and good, and the base is the one selected last. -/
theorem C104_after_statement_partial (min : Int) (w : W) (i : Nat) (f : Str) (l lvl : Int) (tc : Option Str) (ps : List Piece) (rest : List Op)
    (h : lvl ≤ min ∧ lvl ≤ w.level) (htodo : (w.th i).todo = (Stm.log f l lvl tc ps).toOp :: rest) :
    ∃ w', Runs min i w w' ∧ (w'.th i).todo = rest ∧ (w'.th i).tls.composer = [] ∧ (w'.th i).tls.bad = false ∧ (w'.th i).tls.temp = [] ∧
      (w'.th i).tls.isHex = (ps.foldl (fun b p => match p with | .hex => true | .dec => false | _ => b) (w.th i).tls.isHex) := by
  have r := runs_log_on (min := min) (i := i) (w := w) (r := rest) (es := (w.th i).ends) (t := (w.th i).tls) (lv := w.level) (out := w.out)
    (f := f) (l := l) (tc := tc) (ps := ps) h
  rw [← htodo, mk_self] at r
  have hx : ∀ (ps : List Piece) (hex bad : Bool), (renderP hex bad ps).2.1 = ps.foldl (fun b p => match p with | .hex => true | .dec => false | _ => b) hex := by
    intro ps
    induction ps with
    | nil => intro _ _; rfl
    | cons p ps ih => intro hex bad; cases p <;> simp [renderP, ih]
  refine ⟨_, r, by simp [mk], by simp [mk, Tls.clean], by simp [mk, Tls.clean], by simp [mk, Tls.clean], ?_⟩
  cases tc <;> simp [mk, Tls.clean, Tls.composed, foldl_insert, locate, hx]

/-! ### C62-C65: the category filter helper -/

/-- What is always true of the Logger's listeners. -/
structure FInv (s : Fs) : Prop where
  next   : ∀ l ∈ s.regs, l < s.next
  pos    : 0 < s.next
  proxy  : ∀ p, s.proxy = some p → p < s.next ∧ p ≠ 0
  others : ∀ l ∈ s.regs, l ≠ 0 → s.proxy ≠ some l → (s.lst l).detached = true
  dflt   : (s.lst 0).detached = false ∧ (s.lst 0).enabled = true ∧ (s.lst 0).category = []
  zero   : s.regs.count 0 = 1
  nodup  : s.regs.Nodup

theorem setLst_self (f : LId → Lst) (l : LId) (v : Lst) : setLst f l v l = v := by simp [setLst]
theorem setLst_ne (f : LId → Lst) {l k : LId} (v : Lst) (h : k ≠ l) : setLst f l v k = f k := by simp [setLst, h]

theorem finv_init : FInv finit := by
  refine ⟨?_, by decide, by simp [finit], ?_, by decide, by decide, by decide⟩
  · intro l hl; simp [finit] at hl ⊢; omega
  · intro l hl h0; simp [finit] at hl; exact absurd hl h0

/-- categoryFilter, spelled out. -/
theorem categoryFilter_eq (rx : Rx) (s : Fs) (re : Str) (l : Int) :
    categoryFilter rx s re l =
      (let d := (detachIf s s.proxy).lst
       let lv := if l > s.level then l else s.level
       if rx.valid re then
         ({ level := lv, base := s.level, proxy := some s.next, next := s.next + 1, regs := s.regs ++ [s.next],
            lst := setLst (setLst d s.next {}) s.next { regex := some re, category := re, level := l } }, none)
       else
         ({ level := lv, base := s.level, proxy := some s.next, next := s.next + 1, regs := s.regs,
            lst := setLst d s.next {} }, some .invalidCategory)) := by
  have h1 : (detachIf s s.proxy).level = s.level ∧ (detachIf s s.proxy).next = s.next ∧ (detachIf s s.proxy).regs = s.regs := by
    cases s.proxy <;> exact ⟨rfl, rfl, rfl⟩
  obtain ⟨a, b, c⟩ := h1
  unfold categoryFilter
  simp only [a, b, c, setCategory]
  by_cases hl : l > s.level
  · simp only [hl, if_true, Nat.add_sub_cancel, setLst_self]
    cases hv : rx.valid re <;> simp
  · simp only [hl, if_false, Nat.add_sub_cancel, setLst_self]
    cases hv : rx.valid re <;> simp

theorem detach_lst (s : Fs) (l : LId) : ((detachIf s s.proxy).lst l).detached = ((s.lst l).detached || decide (s.proxy = some l)) ∧
    ((detachIf s s.proxy).lst l).enabled = (s.lst l).enabled ∧ ((detachIf s s.proxy).lst l).category = (s.lst l).category ∧
    ((detachIf s s.proxy).lst l).level = (s.lst l).level ∧ ((detachIf s s.proxy).lst l).regex = (s.lst l).regex := by
  cases hp : s.proxy with
  | none => simp [detachIf]
  | some p =>
    by_cases e : l = p
    · subst e; simp [detachIf, setLst]
    · simp [detachIf, setLst, e, Ne.symm e]

theorem FInv.filter {rx : Rx} {s : Fs} (h : FInv s) (re : Str) (l : Int) : FInv (categoryFilter rx s re l).1 := by
  rw [categoryFilter_eq]
  have h0 : s.next ≠ 0 := Nat.pos_iff_ne_zero.1 h.pos
  have hnot : s.next ∉ s.regs := fun hm => Nat.lt_irrefl _ (h.next _ hm)
  have d0 : s.proxy ≠ some 0 := fun e => (h.proxy 0 e).2 rfl
  have hd : ∀ k ∈ s.regs, k ≠ 0 → ((detachIf s s.proxy).lst k).detached = true := by
    intro k hk hk0
    rw [(detach_lst s k).1]
    by_cases hp : s.proxy = some k
    · simp [hp]
    · simp [h.others k hk hk0 hp]
  have hz := detach_lst s 0
  cases hv : rx.valid re with
  | true =>
    simp only [if_true]
    refine ⟨?_, Nat.succ_pos _, ?_, ?_, ?_, ?_, ?_⟩
    · intro k hk
      rcases List.mem_append.1 hk with hk | hk
      · exact Nat.lt_succ_of_lt (h.next k hk)
      · rw [List.mem_singleton.1 hk]; exact Nat.lt_succ_self _
    · intro p hp; cases hp; exact ⟨Nat.lt_succ_self _, h0⟩
    · intro k hk hk0 hp
      rcases List.mem_append.1 hk with hk | hk
      · have hne : k ≠ s.next := fun e => hnot (e ▸ hk)
        show (setLst _ _ _ k).detached = true
        rw [setLst_ne _ _ hne, setLst_ne _ _ hne]; exact hd k hk hk0
      · rw [List.mem_singleton.1 hk] at hp; exact absurd rfl hp
    · show (setLst _ _ _ 0).detached = false ∧ (setLst _ _ _ 0).enabled = true ∧ (setLst _ _ _ 0).category = []
      rw [setLst_ne _ _ (Ne.symm h0), setLst_ne _ _ (Ne.symm h0), hz.1, hz.2.1, hz.2.2.1]
      simp [h.dflt, d0]
    · rw [List.count_append, h.zero, List.count_singleton]; simp [h0]
    · rw [List.nodup_append]; exact ⟨h.nodup, by simp, by
        intro a ha b hb; rw [List.mem_singleton.1 hb]; intro e; exact hnot (e ▸ ha)⟩
  | false =>
    simp only [Bool.false_eq_true, if_false]
    refine ⟨?_, Nat.succ_pos _, ?_, ?_, ?_, ?_, ?_⟩
    · intro k hk; exact Nat.lt_succ_of_lt (h.next k hk)
    · intro p hp; cases hp; exact ⟨Nat.lt_succ_self _, h0⟩
    · intro k hk hk0 hp
      have hne : k ≠ s.next := fun e => hnot (e ▸ hk)
      show (setLst _ _ _ k).detached = true
      rw [setLst_ne _ _ hne]; exact hd k hk hk0
    · show (setLst _ _ _ 0).detached = false ∧ (setLst _ _ _ 0).enabled = true ∧ (setLst _ _ _ 0).category = []
      rw [setLst_ne _ _ (Ne.symm h0), hz.1, hz.2.1, hz.2.2.1]
      simp [h.dflt, d0]
    · exact h.zero
    · exact h.nodup

theorem clear_eq {s s' : Fs} (h : clearFilter s = .ok s') :
    ∃ p, s.proxy = some p ∧ s' = { detachIf s s.proxy with level := s.base } := by
  unfold clearFilter at h
  split at h
  · cases h
  · rename_i p hp
    cases h; exact ⟨p, hp, by rw [hp]⟩

theorem detachIf_fields (s : Fs) : (detachIf s s.proxy).regs = s.regs ∧ (detachIf s s.proxy).proxy = s.proxy ∧
    (detachIf s s.proxy).next = s.next ∧ (detachIf s s.proxy).base = s.base ∧ (detachIf s s.proxy).level = s.level := by
  cases h : s.proxy <;> simp [detachIf, h]

theorem FInv.step {rx : Rx} {s s' : Fs} {o : FOp} (h : FInv s) (hs : fstep rx s o = .ok s') : FInv s' := by
  cases o with
  | filter re l => simp only [fstep] at hs; cases hs; exact h.filter re l
  | level n => simp only [fstep] at hs; cases hs; exact ⟨h.next, h.pos, h.proxy, h.others, h.dflt, h.zero, h.nodup⟩
  | dflt n =>
    simp only [fstep] at hs; cases hs
    refine ⟨h.next, h.pos, h.proxy, ?_, ?_, h.zero, h.nodup⟩
    · intro k hk h0 hp
      show (setLst _ _ _ k).detached = true
      rw [setLst_ne _ _ h0]; exact h.others k hk h0 hp
    · show (setLst _ _ _ 0).detached = false ∧ _
      simp only [setLst_self]; exact h.dflt
  | clear =>
    simp only [fstep] at hs
    obtain ⟨p, hp, rfl⟩ := clear_eq hs
    obtain ⟨f1, f2, f3, -, -⟩ := detachIf_fields s
    refine ⟨by simp only [f1, f3]; exact h.next, by simp only [f3]; exact h.pos, by simp only [f2, f3]; exact h.proxy, ?_, ?_, by simp only [f1]; exact h.zero, by simp only [f1]; exact h.nodup⟩
    · intro k hk h0 hq
      simp only [f1] at hk
      simp only [f2] at hq
      have := (detach_lst s k).1
      simp only [this, h.others k hk h0 hq, Bool.true_or]
    · obtain ⟨d1, d2, d3, -, -⟩ := detach_lst s 0
      simp only [d1, d2, d3]
      have d0 : s.proxy ≠ some 0 := fun e => (h.proxy 0 e).2 rfl
      simp [h.dflt, d0]

theorem finv_run {rx : Rx} (os : List FOp) : ∀ {s s' : Fs}, FInv s → frun rx s os = .ok s' → FInv s' := by
  induction os with
  | nil => intro s s' h hr; simp only [frun] at hr; cases hr; exact h
  | cons o os ih =>
    intro s s' h hr
    simp only [frun] at hr
    cases hs : fstep rx s o with
    | error e => rw [hs] at hr; cases hr
    | ok s1 => rw [hs] at hr; exact ih (h.step hs) hr

def anyRx : Rx := { valid := fun re => decide (re ≠ ['(']), full := fun re c => decide (re = c) }

/-- C62 does not hold: after two categoryFilter calls clearFilter does not restore the level that
was in force before filtering. -/
theorem C62_twice_refuted : ((frun anyRx finit [.level 3, .filter ['a'] 4, .filter ['b'] 5, .clear]).toOption.map (·.level)) = some 4 := by
  decide

/-- C62 does not hold: clearFilter() without a previous categoryFilter() dereferences a null pointer. -/
theorem C62_clear_without_filter_refuted : (match frun anyRx finit [.clear] with | .error f => some f | .ok _ => none) = some (.ub .nullDeref) := by
  decide

/-- C62 (what holds): clearFilter restores exactly the level in force when the last categoryFilter
was called, whatever happened in between; it can be called iff there was a categoryFilter. -/
theorem C62_restores_last_partial (rx : Rx) (s : Fs) (re : Str) (l : Int) (os : List FOp) (hos : ∀ re' l', FOp.filter re' l' ∉ os) (s2 : Fs)
    (hr : frun rx (categoryFilter rx s re l).1 os = .ok s2) : ∃ s3, clearFilter s2 = .ok s3 ∧ s3.level = s.level := by
  have key : ∀ (os : List FOp) (a b : Fs), (∀ re' l', FOp.filter re' l' ∉ os) → frun rx a os = .ok b → a.proxy ≠ none →
      b.base = a.base ∧ b.proxy ≠ none := by
    intro os
    induction os with
    | nil => intro a b _ h hp; simp only [frun] at h; cases h; exact ⟨rfl, hp⟩
    | cons o os ih =>
      intro a b hn h hp
      simp only [frun] at h
      cases hs : fstep rx a o with
      | error e => rw [hs] at h; cases h
      | ok s1 =>
        rw [hs] at h
        have h1 : s1.base = a.base ∧ s1.proxy ≠ none := by
          cases o with
          | filter re' l' => exact absurd (by simp) (hn re' l')
          | clear =>
            simp only [fstep] at hs
            obtain ⟨p, hp', rfl⟩ := clear_eq hs
            obtain ⟨-, f2, -, f4, -⟩ := detachIf_fields a
            exact ⟨f4, by simp only [f2]; exact hp⟩
          | level n => simp only [fstep] at hs; cases hs; exact ⟨rfl, hp⟩
          | dflt n => simp only [fstep] at hs; cases hs; exact ⟨rfl, hp⟩
        obtain ⟨h2, h3⟩ := ih s1 b (fun re' l' hm => hn re' l' (by simp [hm])) h h1.2
        exact ⟨h2.trans h1.1, h3⟩
  have hb : (categoryFilter rx s re l).1.base = s.level ∧ (categoryFilter rx s re l).1.proxy ≠ none := by
    rw [categoryFilter_eq]; simp only; split <;> simp
  obtain ⟨h1, h2⟩ := key os _ s2 hos hr hb.2
  cases hp : s2.proxy with
  | none => exact absurd hp h2
  | some p => exact ⟨_, by simp only [clearFilter, hp]; rfl, by rw [← hb.1, ← h1]⟩

/-- C62 (what holds): one categoryFilter followed by one clearFilter, when no other filter was
active: every message is written exactly as often as before. -/
theorem C62_same_lines_partial (rx : Rx) (os : List FOp) (s : Fs) (hr : frun rx finit os = .ok s)
    (hnone : ∀ l ∈ s.regs, l ≠ 0 → (s.lst l).detached = true) (re : Str) (l : Int) (s3 : Fs)
    (hc : clearFilter (categoryFilter rx s re l).1 = .ok s3) (m : Msg) : lines rx s3 m = lines rx s m := by
  have h := finv_run os finv_init hr
  obtain ⟨p, hp, rfl⟩ := clear_eq hc
  have h0 : s.next ≠ 0 := Nat.pos_iff_ne_zero.1 h.pos
  have hnot : s.next ∉ s.regs := fun hm => Nat.lt_irrefl _ (h.next _ hm)
  have hpx : (categoryFilter rx s re l).1.proxy = some s.next := by rw [categoryFilter_eq]; simp only; split <;> rfl
  have hbase : (categoryFilter rx s re l).1.base = s.level := by rw [categoryFilter_eq]; simp only; split <;> rfl
  obtain ⟨f1, -, -, -, -⟩ := detachIf_fields (categoryFilter rx s re l).1
  have hregs : ∀ k ∈ s.regs, ((detachIf (categoryFilter rx s re l).1 (categoryFilter rx s re l).1.proxy).lst k) = (detachIf s s.proxy).lst k := by
    intro k hk
    have hne : k ≠ s.next := fun e => hnot (e ▸ hk)
    rw [hpx]
    simp only [detachIf]
    rw [setLst_ne _ _ hne]
    rw [categoryFilter_eq]
    simp only
    split
    · show setLst _ _ _ k = _; rw [setLst_ne _ _ hne, setLst_ne _ _ hne]; rfl
    · show setLst _ _ _ k = _; rw [setLst_ne _ _ hne]; rfl
  have hnew : (detachIf (categoryFilter rx s re l).1 (categoryFilter rx s re l).1.proxy).lst s.next
      = { (categoryFilter rx s re l).1.lst s.next with detached := true } := by
    rw [hpx]; simp only [detachIf]; rw [setLst_self]
  have same : ∀ k ∈ s.regs, ((detachIf s s.proxy).lst k) = s.lst k ∨ (s.lst k).detached = true ∧ ((detachIf s s.proxy).lst k).detached = true := by
    intro k hk
    by_cases hk0 : k = 0
    · left
      subst hk0
      have d0 : s.proxy ≠ some 0 := fun e => (h.proxy 0 e).2 rfl
      cases hp : s.proxy with
      | none => rfl
      | some q =>
        have : (0 : LId) ≠ q := fun e => d0 (by rw [hp, e])
        simp only [detachIf]; exact setLst_ne _ _ this
    · right
      exact ⟨hnone k hk hk0, by rw [(detach_lst s k).1, hnone k hk hk0]; rfl⟩
  unfold lines
  simp only [hbase, f1]
  by_cases hm : m.level > s.level
  · rw [if_pos hm, if_pos hm]
  · rw [if_neg hm, if_neg hm]
    have filt : (s.regs.filter fun k => !((detachIf (categoryFilter rx s re l).1 (categoryFilter rx s re l).1.proxy).lst k).detached &&
        ((detachIf (categoryFilter rx s re l).1 (categoryFilter rx s re l).1.proxy).lst k).enabled &&
        decide (((detachIf (categoryFilter rx s re l).1 (categoryFilter rx s re l).1.proxy).lst k).level ≥ m.level) &&
        checkCategory rx ((detachIf (categoryFilter rx s re l).1 (categoryFilter rx s re l).1.proxy).lst k) m.cat)
      = s.regs.filter fun k => !(s.lst k).detached && (s.lst k).enabled && decide ((s.lst k).level ≥ m.level) && checkCategory rx (s.lst k) m.cat := by
      apply List.filter_congr
      intro k hk
      rw [hregs k hk]
      rcases same k hk with e | ⟨e1, e2⟩
      · rw [e]
      · simp [e1, e2]
    have hr2 : (categoryFilter rx s re l).1.regs = s.regs ∨ (categoryFilter rx s re l).1.regs = s.regs ++ [s.next] := by
      rw [categoryFilter_eq]; simp only; split
      · right; rfl
      · left; rfl
    rcases hr2 with e | e
    · rw [e, filt]
    · rw [e, List.filter_append, filt]
      simp [hnew]

/-! C63 -/

theorem checkCategory_new {rx : Rx} (re : Str) (l : Int) (cat : Str) :
    checkCategory rx { regex := some re, category := re, level := l } cat = true ↔ (cat = [] ∨ re = [] ∨ rx.full re cat = true) := by
  unfold checkCategory
  by_cases h1 : cat = []
  · simp [h1]
  · by_cases h2 : re = []
    · simp [h2]
    · simp [h1, h2]

/-- C63: exactly how often a message is written after categoryFilter(re, l) on any Logger: never if it
is above the raised general level; otherwise once through the default listener if that listener's
level admits it, plus once more through the filter if l admits it and the category matches or is
empty. -/
theorem C63_lines_exact_partial (rx : Rx) (os : List FOp) (s : Fs) (hr : frun rx finit os = .ok s) (re : Str) (l : Int)
    (hv : rx.valid re = true) (m : Msg) :
    lines rx (categoryFilter rx s re l).1 m =
      if m.level > max s.level l then 0
      else (if m.level ≤ (s.lst 0).level then 1 else 0)
         + (if m.level ≤ l ∧ (m.cat = [] ∨ re = [] ∨ rx.full re m.cat = true) then 1 else 0) := by
  have h := finv_run os finv_init hr
  have h0 : s.next ≠ 0 := Nat.pos_iff_ne_zero.1 h.pos
  have hnot : s.next ∉ s.regs := fun hm => Nat.lt_irrefl _ (h.next _ hm)
  rw [categoryFilter_eq]
  simp only [hv, if_true]
  unfold lines
  simp only
  have hmax : (if l > s.level then l else s.level) = max s.level l := by omega
  rw [hmax]
  by_cases hm : m.level > max s.level l
  · rw [if_pos hm, if_pos hm]
  · rw [if_neg hm, if_neg hm, List.filter_append, List.length_append]
    congr 1
    · -- old listeners: only the default one
      have d0 : s.proxy ≠ some 0 := fun e => (h.proxy 0 e).2 rfl
      have e : (s.regs.filter fun k => !(setLst (setLst (detachIf s s.proxy).lst s.next {}) s.next { regex := some re, category := re, level := l } k).detached &&
          (setLst (setLst (detachIf s s.proxy).lst s.next {}) s.next { regex := some re, category := re, level := l } k).enabled &&
          decide ((setLst (setLst (detachIf s s.proxy).lst s.next {}) s.next { regex := some re, category := re, level := l } k).level ≥ m.level) &&
          checkCategory rx (setLst (setLst (detachIf s s.proxy).lst s.next {}) s.next { regex := some re, category := re, level := l } k) m.cat)
        = s.regs.filter fun k => decide (k = 0) && decide (m.level ≤ (s.lst 0).level) := by
        apply List.filter_congr
        intro k hk
        have hne : k ≠ s.next := fun e => hnot (e ▸ hk)
        simp only [setLst_ne _ _ hne]
        by_cases hk0 : k = 0
        · subst hk0
          have hz := detach_lst s 0
          obtain ⟨g1, g2, g3⟩ := h.dflt
          have hcc : checkCategory rx ((detachIf s s.proxy).lst 0) m.cat = true := by
            unfold checkCategory; rw [hz.2.2.1, g3]; simp
          rw [hcc, hz.1, hz.2.1, hz.2.2.2.1, g1, g2]
          simp [d0]
        · have : ((detachIf s s.proxy).lst k).detached = true := by
            rw [(detach_lst s k).1]
            by_cases hp : s.proxy = some k
            · simp [hp]
            · simp [h.others k hk hk0 hp]
          simp [this, hk0]
      rw [e]
      by_cases hl : m.level ≤ (s.lst 0).level
      · rw [if_pos hl]
        have : (s.regs.filter fun k => decide (k = 0) && decide (m.level ≤ (s.lst 0).level)) = s.regs.filter (fun k => k == 0) := by
          apply List.filter_congr; intro k _; simp [hl]; rfl
        rw [this, ← List.countP_eq_length_filter]
        exact h.zero
      · rw [if_neg hl]
        rw [List.length_eq_zero_iff, List.filter_eq_nil_iff]
        intro k _; simp [hl]
    · -- the new one
      have hcc := Falcon.Logger.checkCategory_new (rx := rx) re l m.cat
      simp only [List.filter_cons, List.filter_nil, setLst_self]
      by_cases hx : m.level ≤ l ∧ (m.cat = [] ∨ re = [] ∨ rx.full re m.cat = true)
      · have h2 := hcc.2 hx.2
        simp [hx.1, hx.2, h2]
      · rw [if_neg hx]
        by_cases h1 : m.level ≤ l
        · have h2 : checkCategory rx { regex := some re, category := re, level := l } m.cat = false := by
            cases hc : checkCategory rx { regex := some re, category := re, level := l } m.cat with
            | false => rfl
            | true => exact absurd ⟨h1, hcc.1 hc⟩ hx
          simp [h2]
        · simp [h1]

def fm (lvl : Int) (cat : Str) : Msg := { file := ['f'], line := 1, level := lvl, cat := cat, text := ['x'] }

/-- How often `m` is written after the given calls (the process has crashed: none). -/
def linesAfter (os : List FOp) (m : Msg) : Option Nat := (frun anyRx finit os).toOption.map fun s => lines anyRx s m

/-- C63 does not hold: with the default listener at the general level 3, a matching message at level
3 or below is written twice. -/
theorem C63_written_twice_refuted : linesAfter [.level 3, .dflt 3, .filter ['a'] 5] (fm 3 ['a']) = some 2 := by decide

/-- C63 does not hold: detail messages without category are written although the filter is "a". -/
theorem C63_uncategorised_detail_refuted : linesAfter [.level 3, .dflt 3, .filter ['a'] 5] (fm 5 []) = some 1 := by decide

/-- C63 does not hold as documented: categoryFilter does not lower the default listener to the
general level, so with an untouched default listener every detail message is written, matching or
not. -/
theorem C63_default_not_lowered_refuted : linesAfter [.level 3, .filter ['a'] 5] (fm 5 ['z']) = some 1 ∧
    linesAfter [.level 3, .filter ['a'] 5] (fm 5 ['a']) = some 2 := by decide

/-- C63 (what holds): with the default listener at the old general level, a detail message that has a
category is written once if the category matches and not at all otherwise. -/
theorem C63_detail_partial (rx : Rx) (os : List FOp) (s : Fs) (hr : frun rx finit os = .ok s) (re : Str) (l : Int)
    (hv : rx.valid re = true) (hre : re ≠ []) (hd : (s.lst 0).level = s.level) (m : Msg) (hm : s.level < m.level) (hcat : m.cat ≠ []) :
    lines rx (categoryFilter rx s re l).1 m = if m.level ≤ l ∧ rx.full re m.cat = true then 1 else 0 := by
  rw [C63_lines_exact_partial rx os s hr re l hv m, hd]
  simp only [hcat, hre, false_or]
  by_cases h : m.level > max s.level l
  · rw [if_pos h, if_neg (by omega)]
  · rw [if_neg h, if_neg (by omega), Nat.zero_add]

/-! C64 -/

/-- C64 does not hold: categoryFilter with an invalid expression throws, but the general level is
raised and the previous filter is gone. -/
theorem C64_invalid_expression_refuted :
    linesAfter [.level 3, .dflt 3, .filter ['a'] 5] (fm 5 ['a']) = some 1 ∧
    linesAfter [.level 3, .dflt 3, .filter ['a'] 5, .filter ['('] 5] (fm 5 ['a']) = some 0 ∧
    ((frun anyRx finit [.level 3, .filter ['('] 5]).toOption.map (·.level)) = some 5 ∧
    (categoryFilter anyRx finit ['('] 5).2 = some .invalidCategory := by decide

/-- C64 (what happens, exactly): it throws iff the expression is invalid; no listener is added and
the default listener is untouched; the level is raised to `l` if lower; the previous filter is
detached. -/
theorem C64_invalid_expression_partial (rx : Rx) (os : List FOp) (s : Fs) (hr : frun rx finit os = .ok s) (re : Str) (l : Int) :
    ((categoryFilter rx s re l).2 = some .invalidCategory ↔ rx.valid re = false) ∧
    (rx.valid re = false → (categoryFilter rx s re l).1.regs = s.regs ∧ (categoryFilter rx s re l).1.lst 0 = s.lst 0 ∧
      (categoryFilter rx s re l).1.level = max s.level l ∧
      ∀ k ∈ s.regs, k ≠ 0 → ((categoryFilter rx s re l).1.lst k).detached = true) := by
  have h := finv_run os finv_init hr
  have h0 : s.next ≠ 0 := Nat.pos_iff_ne_zero.1 h.pos
  constructor
  · rw [categoryFilter_eq]; simp only; split <;> simp_all
  · intro hv
    have hinv := h.filter (rx := rx) re l
    refine ⟨?_, ?_, ?_, ?_⟩
    · rw [categoryFilter_eq]; simp [hv]
    · rw [categoryFilter_eq]; simp only [hv, Bool.false_eq_true, if_false]
      rw [setLst_ne _ _ (Ne.symm h0)]
      cases hp : s.proxy with
      | none => rfl
      | some q => simp only [detachIf]; exact setLst_ne _ _ (fun e => (h.proxy q hp).2 e.symm)
    · rw [categoryFilter_eq]; simp only [hv, Bool.false_eq_true, if_false]; omega
    · intro k hk hk0
      have hk' : k ∈ (categoryFilter rx s re l).1.regs := by rw [categoryFilter_eq]; simp [hv]; exact hk
      refine hinv.others k hk' hk0 ?_
      rw [categoryFilter_eq]; simp only [hv, Bool.false_eq_true, if_false]
      intro e; cases e; exact Nat.lt_irrefl _ (h.next _ hk)

/-! C65 -/

/-- C65: after any sequence of calls, every filter listener that was ever added, except the one
created last, is detached (and C45 says what that means for messages in progress); after
clearFilter() the last one is, too. -/
theorem C65_one_filter (rx : Rx) (os : List FOp) (s : Fs) (hr : frun rx finit os = .ok s) :
    (∀ a ∈ s.regs, ∀ b ∈ s.regs, a ≠ 0 → b ≠ 0 → (s.lst a).detached = false → (s.lst b).detached = false → a = b) ∧
    (∀ s', clearFilter s = .ok s' → ∀ a ∈ s'.regs, a ≠ 0 → (s'.lst a).detached = true) := by
  have h := finv_run os finv_init hr
  constructor
  · intro a ha b hb a0 b0 da db
    have pa : s.proxy = some a := Classical.byContradiction fun hc => by rw [h.others a ha a0 hc] at da; cases da
    have pb : s.proxy = some b := Classical.byContradiction fun hc => by rw [h.others b hb b0 hc] at db; cases db
    rw [pa] at pb; exact Option.some.inj pb
  · intro s' hc a ha a0
    obtain ⟨p, hp, rfl⟩ := clear_eq hc
    simp only [(detachIf_fields s).1] at ha
    simp only [(detach_lst s a).1]
    by_cases e : s.proxy = some a
    · simp [e]
    · simp [h.others a ha a0 e]

example : ((frun anyRx finit [.filter ['a'] 5, .filter ['b'] 4, .level 2, .filter ['('] 5, .filter ['c'] 5]).toOption.map
    fun s => (s.regs, s.regs.map fun l => (s.lst l).detached)) = some ([0, 1, 2, 4], [false, true, true, false]) := by decide

end Falcon.Logger
