import Verif.Proofs.LoggerThrow
/-
C154: exceptions while a log statement is composed.
-/
namespace Falcon.Logger
open Falcon.Log (Str Msg)

/-- nothing goes wrong in commit() -/
def fine : Nat → Fate := fun _ => .ok

/-- C154 does not hold (1): `LOG(3) << "a" << f()` where f() throws logs the incomplete message "a". -/
theorem C154_incomplete_refuted :
    exec 5 fine false ((Stm.log ['f'] 1 3 none [.text ['a']]).withEnd (.thrw 7)) { level := 5 } =
      ({ level := 5, tls := { file := ['f'], line := 1, lvl := 3 }, commits := 1,
         out := [{ file := ['f'], line := 1, level := 3, cat := [], text := ['a'] }] }, .threw (some 7)) := by decide

/-- C154 does not hold (2): the text of a LOG_BLOCK that was left by an exception appears in the next message. -/
theorem C154_block_refuted :
    (exec 5 fine false (.seq (.tryc ((Stm.block ['f'] 1 3 [.text ['a']]).withEnd (.thrw 7)) .skip) (Stm.log ['g'] 2 3 none [.text ['b']]).toProg)
      { level := 5 }).1.out = [{ file := ['g'], line := 2, level := 3, cat := [], text := ['a', 'b'] }] := by decide

/-- C154 does not hold (3): a LOG statement for which memory runs out ends the program, whatever the caller catches. -/
theorem C154_terminate_refuted :
    (exec 5 (fun _ => .throws) false (.tryc (Stm.log ['f'] 1 3 none [.text ['a']]).toProg .skip) { level := 5 }).2 = .dead := by decide

/-- C154 (what holds, 1): as long as no commit() runs out of memory, logging does not change what a program does
otherwise: for every program, with any nesting of statements, operands, exceptions and handlers, the exception that
leaves it and the general level it leaves are those of the program without its logging. -/
theorem C154_flow_partial (min : Int) (fate : Nat → Fate) (hf : ∀ k, fate k = .ok) (act : Bool) (p : Prog) (s : Ctx) :
    (exec min fate act p s).2 = endOf (flow min p s.level).2 ∧ (exec min fate act p s).1.level = (flow min p s.level).1 :=
  exec_flow hf p act s

/-- C154 (what happens, exactly): an admitted LOG statement that throws behind its last piece emits one message with the
pieces so far, under its own file, line, level and category, hands on the exception, and leaves the thread ready. -/
theorem C154_log_exact_partial (min : Int) (fate : Nat → Fate) (hf : ∀ k, fate k = .ok) (act : Bool) (f : Str) (l lvl : Int) (tc : Option Str)
    (ps : List Piece) (e : Nat) (s : Ctx) (hp : ps.all Piece.isPlain = true) (h : lvl ≤ min ∧ lvl ≤ s.level) (hr : Ready s.tls) :
    ∃ s', exec min fate act ((Stm.log f l lvl tc ps).withEnd (.thrw e)) s = (s', .threw (some e)) ∧
      s'.out = s.out ++ [{ file := f, line := l, level := lvl, cat := msgCat s.tls.category tc, text := plainText ps }] ∧
      Ready s'.tls ∧ s'.tls.category = s.tls.category := by
  obtain ⟨s', h1, h2, h3, h4, -⟩ := exec_log_throw (act := act) (f := f) (l := l) (lvl := lvl) (tc := tc) (ps := ps) (q := .thrw e) (e := some e)
    (s := s) (.inr ⟨e, rfl, rfl⟩) hf hp h hr.2.1 hr.2.2.1 hr.2.2.2
  rw [hr.1, List.nil_append] at h2
  exact ⟨s', h1, h2, h3, h4⟩

/-- C154: one that is not admitted throws as well and changes nothing at all. -/
theorem C154_log_filtered_partial (min : Int) (fate : Nat → Fate) (act : Bool) (f : Str) (l lvl : Int) (tc : Option Str)
    (ps : List Piece) (e : Nat) (s : Ctx) (h : ¬ (lvl ≤ min ∧ lvl ≤ s.level)) :
    exec min fate act ((Stm.log f l lvl tc ps).withEnd (.thrw e)) s = (s, .threw (some e)) := by
  rw [exec_logparts, if_neg h]; simp [exec]

/-- C154 (what holds, 2): an admitted LOG statement leaves nothing half composed, whatever its operands do - nested
statements, exceptions, blocks -, unless the program is ended. -/
theorem C154_nothing_left_partial (min : Int) (fate : Nat → Fate) (act : Bool) (f : Str) (l lvl : Int) (parts : Prog) (s s' : Ctx) (e : End)
    (h : lvl ≤ min ∧ lvl ≤ s.level) (he : exec min fate act (.log f l lvl parts) s = (s', e)) (hd : e ≠ .dead) :
    s'.tls.composer = [] ∧ s'.tls.temp = [] ∧ s'.tls.bad = false := by
  rw [exec_log_eq, if_pos h] at he
  generalize exec min fate true parts { s with tls := locate s.tls f l lvl } = ra at he
  obtain ⟨sa, ea⟩ := ra
  cases ea with
  | dead => cases he; exact absurd rfl hd
  | done =>
    dsimp only at he
    cases hf : fate sa.commits <;> rw [hf] at he <;> cases he
    · exact ⟨rfl, rfl, rfl⟩
    · exact absurd rfl hd
    · exact absurd rfl hd
  | threw x =>
    dsimp only at he
    cases hf : fate sa.commits <;> rw [hf] at he <;> cases he
    · exact ⟨rfl, rfl, rfl⟩
    · exact absurd rfl hd
    · exact absurd rfl hd

/-- C154 (what happens, exactly): a LOG_BLOCK left by an exception emits nothing; its text stands in front of that of the
thread's next message, and only of that one. -/
theorem C154_block_exact_partial (min : Int) (fate : Nat → Fate) (hf : ∀ k, fate k = .ok) (f f' : Str) (l l' lvl lvl' : Int) (tc : Option Str)
    (ps qs : List Piece) (e : Nat) (s : Ctx) (hp : ps.all Piece.isPlain = true) (hq : qs.all Piece.isPlain = true)
    (h : lvl ≤ min ∧ lvl ≤ s.level) (h' : lvl' ≤ min ∧ lvl' ≤ s.level) (hr : Ready s.tls) :
    ∃ s1 s2, exec min fate false ((Stm.block f l lvl ps).withEnd (.thrw e)) s = (s1, .threw (some e)) ∧ s1.out = s.out ∧
      exec min fate false (Stm.log f' l' lvl' tc qs).toProg s1 = (s2, .done) ∧
      s2.out = s.out ++ [{ file := f', line := l', level := lvl', cat := msgCat s.tls.category tc, text := plainText ps ++ plainText qs }] ∧
      Ready s2.tls := by
  obtain ⟨r1, r2, r3, r4⟩ := hr
  have hb : exec min fate false ((Stm.block f l lvl ps).withEnd (.thrw e)) s =
      ({ s with tls := ps.foldl insert (locate s.tls f l lvl) }, .threw (some e)) := by
    simp only [Stm.withEnd, exec]
    rw [if_pos h, exec_lputs]
    simp [exec]
  have ht : ps.foldl insert (locate s.tls f l lvl) = { locate s.tls f l lvl with composer := plainText ps } := by
    rw [foldl_insert]
    simp [locate, r1, r2, r3, renderP_plain ps hp]
  obtain ⟨s2, h1, h2, h3, h4, h5⟩ := exec_log_throw (min := min) (fate := fate) (act := false) (f := f') (l := l') (lvl := lvl') (tc := tc) (ps := qs) (q := .skip)
    (e := none) (s := { s with tls := ps.foldl insert (locate s.tls f l lvl) }) (.inl ⟨rfl, rfl⟩) hf hq h'
    (by rw [ht]; exact r2) (by rw [ht]; exact r3) (by rw [ht]; exact r4)
  rw [ht] at h2
  exact ⟨_, s2, hb, rfl, h1, h2, h3⟩

/-- C154 (what holds, 3): in a program in which no exception leaves a LOG_BLOCK, whatever else is thrown and wherever it
is caught, later statements are as if nothing had been thrown: behind it, a LOG statement emits exactly its own
message. -/
theorem C154_later_partial (min : Int) (fate : Nat → Fate) (hf : ∀ k, fate k = .ok) (p : Prog) (ht : p.tidy false false = true) (s : Ctx) (hr : Ready s.tls)
    (f : Str) (l lvl : Int) (tc : Option Str) (ps : List Piece) (hp : ps.all Piece.isPlain = true) :
    ∃ s1 s2, exec min fate false (.tryc p .skip) s = (s1, .done) ∧ Ready s1.tls ∧
      exec min fate false (Stm.log f l lvl tc ps).toProg s1 = (s2, .done) ∧ Ready s2.tls ∧
      s2.out = s1.out ++ (Stm.log f l lvl tc ps).emits min s1.level s1.tls.category := by
  obtain ⟨t1, t2, t3⟩ := exec_tidy (min := min) hf p false false false s ht hr.2.1 hr.2.2.1
  obtain ⟨t3, t4⟩ := t3 rfl (fun h => by cases h) hr.1 hr.2.2.2
  have hr1 : Ready (exec min fate false p s).1.tls := ⟨t3, t1, t2, t4⟩
  have hd := (exec_flow (min := min) hf p false s).1
  have h1 : exec min fate false (.tryc p .skip) s = ((exec min fate false p s).1, .done) := by
    simp only [exec]
    generalize exec min fate false p s = ra at hd ⊢
    obtain ⟨sa, ea⟩ := ra
    cases ea with
    | dead => dsimp only at hd; generalize (flow min p s.level).2 = x at hd; cases x <;> cases hd
    | done => rfl
    | threw x => rfl
  refine ⟨(exec min fate false p s).1, ?_⟩
  generalize (exec min fate false p s).1 = s1 at h1 hr1
  by_cases h : lvl ≤ min ∧ lvl ≤ s1.level
  · obtain ⟨s2, e1, e2, e3, -, -⟩ := exec_log_throw (min := min) (fate := fate) (act := false) (f := f) (l := l) (lvl := lvl) (tc := tc) (ps := ps) (q := .skip)
      (e := none) (s := s1) (.inl ⟨rfl, rfl⟩) hf hp h hr1.2.1 hr1.2.2.1 hr1.2.2.2
    refine ⟨s2, h1, hr1, e1, e3, ?_⟩
    rw [e2, hr1.1, List.nil_append]
    simp only [Stm.emits]
    rw [if_pos h]
  · refine ⟨s1, h1, hr1, ?_, hr1, ?_⟩
    · simp only [Stm.toProg]
      rw [exec_logparts, if_neg h]; simp [exec]
    · simp only [Stm.emits]
      rw [if_neg h, List.append_nil]

/-- C154 (exactly when the program is ended): a LOG statement that is admitted ends it if its commit() fails, in whatever
way; otherwise only if its operands do. -/
theorem C154_terminate_exact_partial (min : Int) (fate : Nat → Fate) (act : Bool) (f : Str) (l lvl : Int) (parts : Prog) (s : Ctx)
    (h : lvl ≤ min ∧ lvl ≤ s.level) :
    (exec min fate act (.log f l lvl parts) s).2 = .dead ↔
      (exec min fate true parts { s with tls := locate s.tls f l lvl }).2 = .dead ∨
      fate (exec min fate true parts { s with tls := locate s.tls f l lvl }).1.commits ≠ .ok := by
  rw [exec_log_eq, if_pos h]
  generalize exec min fate true parts { s with tls := locate s.tls f l lvl } = ra
  obtain ⟨sa, ea⟩ := ra
  cases ea <;> cases hf : fate sa.commits <;> simp [hf]

/-- A LOG_BLOCK whose commit() runs out of memory throws instead, and keeps its text for the next message. -/
theorem C154_block_memory_partial (min : Int) (fate : Nat → Fate) (f : Str) (l lvl : Int) (ps : List Piece) (s : Ctx)
    (hp : ps.all Piece.isPlain = true) (h : lvl ≤ min ∧ lvl ≤ s.level) (hr : Ready s.tls) (hf : fate s.commits = .throws) :
    ∃ s', exec min fate false (Stm.block f l lvl ps).toProg s = (s', .threw none) ∧ s'.out = s.out ∧ s'.tls.composer = plainText ps := by
  obtain ⟨r1, r2, r3, r4⟩ := hr
  have ht : ps.foldl insert (locate s.tls f l lvl) = { locate s.tls f l lvl with composer := plainText ps } := by
    rw [foldl_insert]
    simp [locate, r1, r2, r3, renderP_plain ps hp]
  refine ⟨Ctx.failed { s with tls := ps.foldl insert (locate s.tls f l lvl) }, ?_, rfl, by rw [ht]; rfl⟩
  simp only [Stm.toProg, Stm.withEnd, exec]
  rw [if_pos h, exec_lputs]
  simp [exec, hf]

/-- The model of this property is the one of C56-C61 where nothing throws: for every program without exceptions, any
thread `i` of that model that runs it alone, inside an admitted LOG statement or not, ends with the same level, the same
thread-local members and the same messages. -/
theorem C154_same_threads (min : Int) (fate : Nat → Fate) (hf : ∀ k, fate k = .ok) (p : Prog) (hq : p.quiet = true) (w : W) (i : Nat) (rest : List Op)
    (htodo : (w.th i).todo = p.ops ++ rest) :
    ∃ (s : Ctx) (w' : W), exec min fate ((w.th i).ends.head?.getD false) p { level := w.level, tls := (w.th i).tls } = (s, .done) ∧
      Runs min i w w' ∧ (w'.th i).todo = rest ∧ (w'.th i).ends = (w.th i).ends ∧ (w'.th i).tls = s.tls ∧ w'.level = s.level ∧
      w'.out = w.out ++ s.out.map (fun m => (i, m)) ∧ ∀ j, j ≠ i → w'.th j = w.th j := by
  obtain ⟨new, o, d, r⟩ := runs_prog (min := min) hf (i := i) (w := w) p _ { level := w.level, tls := (w.th i).tls } (w.th i).ends rest w.out hq rfl
  generalize exec min fate ((w.th i).ends.head?.getD false) p { level := w.level, tls := (w.th i).tls } = ra at o d r ⊢
  obtain ⟨sa, ea⟩ := ra
  dsimp only at o d r
  subst d
  rw [List.nil_append] at o
  subst o
  have hw : mk w i { todo := p.ops ++ rest, ends := (w.th i).ends, tls := (w.th i).tls } w.level w.out = w := by
    rw [← htodo]
    exact mk_self w i
  rw [hw] at r
  refine ⟨sa, _, rfl, r, by rw [mk_th], by rw [mk_th], by rw [mk_th], rfl, rfl, ?_⟩
  intro j hj
  simp [mk, hj]

/-! ### the hypotheses are met -/

/-- a program in which a nested LOG statement throws out of a LOG statement, is caught, and a block contains its own
handler -/
def busyProg : Prog :=
  .seq (.tryc (.log ['o'] 1 3 (.seq (.put (.text ['x'])) (.seq (.log ['i'] 2 4 (.seq (.put (.num 7)) (.thrw 1))) (.put (.text ['y']))))) (.setCategory ['C']))
    (.seq (.block ['b'] 3 3 (.seq (.lput (.text ['z'])) (.tryc (.thrw 2) (.lput (.text ['w']))))) (.log ['n'] 4 9 (.seq (.put (.text ['v'])) (.thrw 3))))

example : busyProg.tidy false false = true ∧ (flow 5 busyProg 5).2 = some 3 ∧
    (exec 5 fine false busyProg { level := 5 }).1.out =
      [⟨['i'], 2, 4, [], ['x', '7']⟩, ⟨['i'], 2, 4, [], []⟩, ⟨['b'], 3, 3, ['C'], ['z', 'w']⟩] := by decide

example : Ready ({} : Tls) ∧ (3 : Int) ≤ 5 := ⟨⟨rfl, rfl, rfl, rfl⟩, by decide⟩

example : (Prog.seq (.log ['o'] 1 3 (.put (.text ['x']))) (.block ['b'] 3 3 (.lput (.text ['z'])))).quiet = true := by decide

end Falcon.Logger
