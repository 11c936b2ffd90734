import Verif.Spec.LoggerThrow
import Verif.Proofs.Logger
/-
Log statements and exceptions.
-/
namespace Falcon.Logger
open Falcon.Log (Str Msg)

variable {min : Int} {fate : Nat → Fate}

theorem commit_tls (s : Ctx) : s.commit.tls = s.tls.clean := rfl
theorem commit_level (s : Ctx) : s.commit.level = s.level := rfl
theorem commit_commits (s : Ctx) : s.commit.commits = s.commits + 1 := rfl
theorem commit_out (s : Ctx) : s.commit.out = s.out ++ if s.tls.lvl ≤ s.level then [s.tls.msg] else [] := by
  unfold Ctx.commit Tls.msg Tls.effCat
  dsimp only
  by_cases h : s.tls.lvl > s.level
  · have h' : ¬ s.tls.lvl ≤ s.level := by omega
    simp only [h, h', if_true, if_false, List.append_nil]
  · have h' : s.tls.lvl ≤ s.level := by omega
    simp only [h, h', if_true, if_false]

theorem exec_log_eq (act : Bool) (f : Str) (l lvl : Int) (parts : Prog) (s : Ctx) :
    exec min fate act (.log f l lvl parts) s =
      if lvl ≤ min ∧ lvl ≤ s.level then
        match exec min fate true parts { s with tls := locate s.tls f l lvl } with
        | (s, .dead) => (s, .dead)
        | (s, e) => match fate s.commits with
          | .ok => (s.commit, e)
          | _   => (s.failed, .dead)
      else exec min fate false parts s := by
  simp only [exec]
  rfl

/-- Logging does not influence what the program does otherwise. -/
theorem exec_flow (hf : ∀ k, fate k = .ok) (p : Prog) : ∀ (act : Bool) (s : Ctx),
    (exec min fate act p s).2 = endOf (flow min p s.level).2 ∧ (exec min fate act p s).1.level = (flow min p s.level).1 := by
  induction p with
  | seq a b iha ihb =>
    intro act s
    obtain ⟨h1, h2⟩ := iha act s
    simp only [exec, flow]
    generalize exec min fate act a s = ra at h1 h2 ⊢
    generalize flow min a s.level = fa at h1 h2 ⊢
    obtain ⟨sa, ea⟩ := ra
    obtain ⟨la, xa⟩ := fa
    dsimp only at h1 h2
    subst h1 h2
    cases xa with
    | none => exact ihb act sa
    | some e => exact ⟨rfl, rfl⟩
  | log f l lvl parts ih =>
    intro act s
    simp only [exec, flow]
    split
    · obtain ⟨h1, h2⟩ := ih true { s with tls := locate s.tls f l lvl }
      generalize exec min fate true parts { s with tls := locate s.tls f l lvl } = ra at h1 h2 ⊢
      dsimp only at h1 h2
      generalize flow min parts s.level = fa at h1 h2 ⊢
      obtain ⟨sa, ea⟩ := ra
      obtain ⟨la, xa⟩ := fa
      dsimp only at h1 h2
      subst h1 h2
      cases xa <;> simp [endOf, hf, commit_level]
    · exact ih false s
  | block f l lvl body ih =>
    intro act s
    simp only [exec, flow]
    by_cases h : lvl ≤ min ∧ lvl ≤ s.level
    · rw [if_pos h, if_pos h]
      obtain ⟨h1, h2⟩ := ih act { s with tls := locate s.tls f l lvl }
      generalize exec min fate act body { s with tls := locate s.tls f l lvl } = ra at h1 h2 ⊢
      dsimp only at h1 h2
      generalize flow min body s.level = fa at h1 h2 ⊢
      obtain ⟨sa, ea⟩ := ra
      obtain ⟨la, xa⟩ := fa
      dsimp only at h1 h2
      subst h1 h2
      cases xa <;> simp [endOf, hf, commit_level]
    · rw [if_neg h, if_neg h]; exact ⟨rfl, rfl⟩
  | tryc a b iha ihb =>
    intro act s
    obtain ⟨h1, h2⟩ := iha act s
    simp only [exec, flow]
    generalize exec min fate act a s = ra at h1 h2 ⊢
    generalize flow min a s.level = fa at h1 h2 ⊢
    obtain ⟨sa, ea⟩ := ra
    obtain ⟨la, xa⟩ := fa
    dsimp only at h1 h2
    subst h1 h2
    cases xa with
    | none => exact ⟨rfl, rfl⟩
    | some e => exact ihb act sa
  | skip => intro act s; exact ⟨rfl, rfl⟩
  | put p => intro act s; cases act <;> exact ⟨rfl, rfl⟩
  | cat p => intro act s; cases act <;> exact ⟨rfl, rfl⟩
  | lput p => intro act s; exact ⟨rfl, rfl⟩
  | setCategory p => intro act s; exact ⟨rfl, rfl⟩
  | level p => intro act s; exact ⟨rfl, rfl⟩
  | thrw p => intro act s; exact ⟨rfl, rfl⟩

/-- A calm fragment throws nothing. -/
theorem flow_calm (p : Prog) : ∀ (lv : Int), p.calm = true → (flow min p lv).2 = none := by
  induction p with
  | seq a b iha ihb =>
    intro lv h
    simp only [Prog.calm, Bool.and_eq_true] at h
    have := iha lv h.1
    simp only [flow]
    generalize flow min a lv = fa at this ⊢
    obtain ⟨la, xa⟩ := fa
    dsimp only at this
    subst this
    exact ihb la h.2
  | log f l lvl parts ih => intro lv h; exact ih lv h
  | block f l lvl body ih =>
    intro lv h
    simp only [flow]
    split
    · exact ih lv h
    · rfl
  | tryc a b iha ihb =>
    intro lv h
    simp only [flow]
    generalize flow min a lv = fa
    obtain ⟨la, xa⟩ := fa
    cases xa with
    | none => rfl
    | some e => exact ihb la h
  | thrw e => intro lv h; simp [Prog.calm] at h
  | _ => intro lv h; rfl

/-- Clean but for what a LOG statement under way may have composed. -/
theorem exec_tidy (hf : ∀ k, fate k = .ok) (p : Prog) : ∀ (b l act : Bool) (s : Ctx), p.tidy b l = true →
    s.tls.isHex = false → s.tls.bad = false →
    (exec min fate act p s).1.tls.isHex = false ∧ (exec min fate act p s).1.tls.bad = false ∧
    (b = false → (l = true → act = false) → s.tls.composer = [] → s.tls.temp = [] →
      (exec min fate act p s).1.tls.composer = [] ∧ (exec min fate act p s).1.tls.temp = []) := by
  have ins : ∀ (t : Tls) (p : Piece), p.isPlain = true → t.isHex = false → t.bad = false →
      (insert t p).isHex = false ∧ (insert t p).bad = false := by
    intro t p hp h1 h2
    cases p <;> simp_all [insert, Piece.isPlain]
  induction p with
  | seq a b iha ihb =>
    intro bl l act s ht h1 h2
    simp only [Prog.tidy, Bool.and_eq_true] at ht
    obtain ⟨a1, a2, a3⟩ := iha bl l act s ht.1 h1 h2
    simp only [exec]
    generalize exec min fate act a s = ra at a1 a2 a3 ⊢
    obtain ⟨sa, ea⟩ := ra
    cases ea with
    | done =>
      obtain ⟨b1, b2, b3⟩ := ihb bl l act sa ht.2 a1 a2
      exact ⟨b1, b2, fun x y z w => b3 x y (a3 x y z w).1 (a3 x y z w).2⟩
    | threw e => exact ⟨a1, a2, a3⟩
    | dead => exact ⟨a1, a2, a3⟩
  | log f l lvl parts ih =>
    intro bl ll act s ht h1 h2
    simp only [Prog.tidy] at ht
    simp only [exec]
    split
    · obtain ⟨a1, a2, -⟩ := ih false true true { s with tls := locate s.tls f l lvl } ht h1 h2
      have hd := (exec_flow (min := min) hf parts true { s with tls := locate s.tls f l lvl }).1
      generalize exec min fate true parts { s with tls := locate s.tls f l lvl } = ra at a1 a2 hd ⊢
      obtain ⟨sa, ea⟩ := ra
      dsimp only at hd
      cases ea with
      | dead => generalize (flow min parts s.level).2 = x at hd; cases x <;> cases hd
      | done => simp only [hf, commit_tls]; exact ⟨a1, rfl, fun _ _ _ _ => ⟨rfl, rfl⟩⟩
      | threw e => simp only [hf, commit_tls]; exact ⟨a1, rfl, fun _ _ _ _ => ⟨rfl, rfl⟩⟩
    · obtain ⟨a1, a2, a3⟩ := ih false true false s ht h1 h2
      exact ⟨a1, a2, fun _ _ => a3 rfl (fun _ => rfl)⟩
  | block f l lvl body ih =>
    intro bl ll act s ht h1 h2
    simp only [Prog.tidy, Bool.and_eq_true] at ht
    simp only [exec]
    split
    · obtain ⟨a1, a2, -⟩ := ih true false act { s with tls := locate s.tls f l lvl } ht.2 h1 h2
      have hd := (exec_flow (min := min) hf body act { s with tls := locate s.tls f l lvl }).1
      rw [flow_calm body _ ht.1] at hd
      generalize exec min fate act body { s with tls := locate s.tls f l lvl } = ra at a1 a2 hd ⊢
      obtain ⟨sa, ea⟩ := ra
      dsimp only [endOf] at hd
      subst hd
      simp only [hf, commit_tls]
      exact ⟨a1, rfl, fun _ _ _ _ => ⟨rfl, rfl⟩⟩
    · exact ⟨h1, h2, fun _ _ h3 h4 => ⟨h3, h4⟩⟩
  | tryc a b iha ihb =>
    intro bl l act s ht h1 h2
    simp only [Prog.tidy, Bool.and_eq_true] at ht
    obtain ⟨a1, a2, a3⟩ := iha bl l act s ht.1 h1 h2
    simp only [exec]
    generalize exec min fate act a s = ra at a1 a2 a3 ⊢
    obtain ⟨sa, ea⟩ := ra
    cases ea with
    | threw e =>
      obtain ⟨b1, b2, b3⟩ := ihb bl l act sa ht.2 a1 a2
      exact ⟨b1, b2, fun x y z w => b3 x y (a3 x y z w).1 (a3 x y z w).2⟩
    | done => exact ⟨a1, a2, a3⟩
    | dead => exact ⟨a1, a2, a3⟩
  | put p =>
    intro bl l act s ht h1 h2
    simp only [Prog.tidy, Bool.and_eq_true] at ht
    cases act with
    | false => exact ⟨h1, h2, fun _ _ h3 h4 => ⟨h3, h4⟩⟩
    | true => exact ⟨(ins _ _ ht.2 h1 h2).1, (ins _ _ ht.2 h1 h2).2, fun _ y => by cases y ht.1⟩
  | cat c =>
    intro bl l act s ht h1 h2
    simp only [Prog.tidy] at ht
    cases act with
    | false => exact ⟨h1, h2, fun _ _ h3 h4 => ⟨h3, h4⟩⟩
    | true => exact ⟨h1, h2, fun _ y => by cases y ht⟩
  | lput p =>
    intro bl l act s ht h1 h2
    simp only [Prog.tidy, Bool.and_eq_true] at ht
    exact ⟨(ins _ _ ht.2 h1 h2).1, (ins _ _ ht.2 h1 h2).2, fun x => by rw [ht.1] at x; cases x⟩
  | skip => intro bl l act s ht h1 h2; exact ⟨h1, h2, fun _ _ h3 h4 => ⟨h3, h4⟩⟩
  | setCategory p => intro bl l act s ht h1 h2; exact ⟨h1, h2, fun _ _ h3 h4 => ⟨h3, h4⟩⟩
  | level p => intro bl l act s ht h1 h2; exact ⟨h1, h2, fun _ _ h3 h4 => ⟨h3, h4⟩⟩
  | thrw p => intro bl l act s ht h1 h2; exact ⟨h1, h2, fun _ _ h3 h4 => ⟨h3, h4⟩⟩

/-! ### flat statements -/

theorem exec_puts (ps : List Piece) (q : Prog) : ∀ s : Ctx,
    exec min fate true (.ofList (ps.map Prog.put ++ [q])) s = exec min fate true (.seq q .skip) { s with tls := ps.foldl insert s.tls } := by
  induction ps with
  | nil => intro s; rfl
  | cons p ps ih =>
    intro s
    simp only [List.map_cons, List.cons_append, Prog.ofList, exec, if_true, List.foldl_cons]
    rw [ih]
    simp only [exec]

theorem exec_puts_off (ps : List Piece) (q : Prog) : ∀ s : Ctx,
    exec min fate false (.ofList (ps.map Prog.put ++ [q])) s = exec min fate false (.seq q .skip) s := by
  induction ps with
  | nil => intro s; rfl
  | cons p ps ih =>
    intro s
    simp only [List.map_cons, List.cons_append, Prog.ofList, exec, Bool.false_eq_true, if_false]
    rw [ih]
    simp only [exec]

theorem exec_lputs (act : Bool) (ps : List Piece) (q : Prog) : ∀ s : Ctx,
    exec min fate act (.ofList (ps.map Prog.lput ++ [q])) s = exec min fate act (.seq q .skip) { s with tls := ps.foldl insert s.tls } := by
  induction ps with
  | nil => intro s; rfl
  | cons p ps ih =>
    intro s
    simp only [List.map_cons, List.cons_append, Prog.ofList, exec, List.foldl_cons]
    rw [ih]
    simp only [exec]

theorem exec_logparts (f : Str) (l lvl : Int) (tc : Option Str) (ps : List Piece) (q : Prog) (s : Ctx) (act : Bool) :
    exec min fate act ((Stm.log f l lvl tc ps).withEnd q) s =
      if lvl ≤ min ∧ lvl ≤ s.level then
        match exec min fate true (.seq q .skip) { s with tls := s.tls.composed f l lvl tc ps } with
        | (s, .dead) => (s, .dead)
        | (s, e) => match fate s.commits with
          | .ok => (s.commit, e)
          | _   => (s.failed, .dead)
      else exec min fate false (.seq q .skip) s := by
  cases tc with
  | none =>
    simp only [Stm.withEnd]
    rw [exec_log_eq]
    by_cases h : lvl ≤ min ∧ lvl ≤ s.level
    · rw [if_pos h, if_pos h, exec_puts]; rfl
    · rw [if_neg h, if_neg h, exec_puts_off]
  | some c =>
    simp only [Stm.withEnd]
    rw [exec_log_eq]
    by_cases h : lvl ≤ min ∧ lvl ≤ s.level
    · rw [if_pos h, if_pos h]
      have : exec min fate true (Prog.ofList (Prog.cat c :: ps.map Prog.put ++ [q])) { s with tls := locate s.tls f l lvl } =
          exec min fate true (.seq q .skip) { s with tls := s.tls.composed f l lvl (some c) ps } := by
        simp only [List.cons_append, Prog.ofList]
        rw [exec]
        simp only [exec, if_true]
        rw [exec_puts]
        simp only [exec, Tls.composed]
      rw [this]
    · rw [if_neg h, if_neg h]
      simp only [List.cons_append, Prog.ofList]
      rw [exec]
      simp only [exec, Bool.false_eq_true, if_false]
      rw [exec_puts_off]
      simp only [exec]

theorem composed_plain {t : Tls} {f : Str} {l lvl : Int} {tc : Option Str} {ps : List Piece} (hp : ps.all Piece.isPlain = true)
    (h2 : t.isHex = false) (h3 : t.bad = false) (h4 : t.temp = []) :
    (t.composed f l lvl tc ps).msg = { file := f, line := l, level := lvl, cat := msgCat t.category tc, text := t.composer ++ plainText ps } ∧
    Ready (t.composed f l lvl tc ps).clean ∧ (t.composed f l lvl tc ps).clean.category = t.category ∧ (t.composed f l lvl tc ps).lvl = lvl := by
  refine ⟨?_, ?_, ?_, ?_⟩
  · cases tc <;> simp [Tls.msg, Tls.effCat, msgCat, Tls.composed, foldl_insert, locate, h2, h3, h4, renderP_plain ps hp]
  · cases tc <;> simp [Ready, Tls.clean, Tls.composed, foldl_insert, locate, h2, h3, renderP_plain ps hp]
  · cases tc <;> simp [Tls.clean, Tls.composed, foldl_insert, locate]
  · cases tc <;> simp [Tls.composed, foldl_insert, locate]

/-- A LOG statement whose last operand throws, on a thread that has some text left over. -/
theorem exec_log_throw {act : Bool} {f : Str} {l lvl : Int} {tc : Option Str} {ps : List Piece} {q : Prog} {e : Option Nat} {s : Ctx}
    (hq : q = .skip ∧ e = none ∨ ∃ x, q = .thrw x ∧ e = some x)
    (hf : ∀ k, fate k = .ok) (hp : ps.all Piece.isPlain = true) (h : lvl ≤ min ∧ lvl ≤ s.level)
    (h2 : s.tls.isHex = false) (h3 : s.tls.bad = false) (h4 : s.tls.temp = []) :
    ∃ s', exec min fate act ((Stm.log f l lvl tc ps).withEnd q) s = (s', endOf e) ∧
      s'.out = s.out ++ [{ file := f, line := l, level := lvl, cat := msgCat s.tls.category tc, text := s.tls.composer ++ plainText ps }] ∧
      Ready s'.tls ∧ s'.tls.category = s.tls.category ∧ s'.level = s.level := by
  obtain ⟨m1, m2, m3, m4⟩ := composed_plain (t := s.tls) (f := f) (l := l) (lvl := lvl) (tc := tc) hp h2 h3 h4
  refine ⟨Ctx.commit { s with tls := s.tls.composed f l lvl tc ps }, ?_, ?_, ?_, ?_, ?_⟩
  · rw [exec_logparts, if_pos h]
    rcases hq with ⟨rfl, rfl⟩ | ⟨x, rfl, rfl⟩ <;> simp [exec, hf, endOf]
  · rw [commit_out]
    dsimp only
    rw [m4, if_pos h.2, m1]
  · exact m2
  · exact m3
  · rfl

/-! ### the threads of Model/Logger do the same, as long as nothing throws -/

theorem runs_prog (hf : ∀ k, fate k = .ok) {i : Nat} {w : W} (p : Prog) : ∀ (act : Bool) (s : Ctx) (es : List Bool) (r : List Op)
    (out : List (Nat × Msg)), p.quiet = true → es.head?.getD false = act →
    ∃ new, (exec min fate act p s).1.out = s.out ++ new ∧ (exec min fate act p s).2 = .done ∧
      Runs min i (mk w i { todo := p.ops ++ r, ends := es, tls := s.tls } s.level out)
        (mk w i { todo := r, ends := es, tls := (exec min fate act p s).1.tls } (exec min fate act p s).1.level
          (out ++ new.map fun m => (i, m))) := by
  induction p with
  | seq a b iha ihb =>
    intro act s es r out hq he
    simp only [Prog.quiet, Bool.and_eq_true] at hq
    obtain ⟨n1, o1, d1, r1⟩ := iha act s es (b.ops ++ r) out hq.1 he
    simp only [exec, Prog.ops]
    generalize exec min fate act a s = ra at o1 d1 r1 ⊢
    obtain ⟨sa, ea⟩ := ra
    dsimp only at o1 d1 r1
    subst d1
    obtain ⟨n2, o2, d2, r2⟩ := ihb act sa es r (out ++ n1.map fun m => (i, m)) hq.2 he
    refine ⟨n1 ++ n2, by rw [o2, o1, List.append_assoc], d2, ?_⟩
    rw [List.append_assoc]
    refine r1.trans ?_
    rw [List.map_append, ← List.append_assoc]
    exact r2
  | log f l lvl parts ih =>
    intro act s es r out hq he
    simp only [Prog.quiet] at hq
    simp only [exec, Prog.ops, List.cons_append, List.nil_append]
    by_cases h : lvl ≤ min ∧ lvl ≤ s.level
    · obtain ⟨n1, o1, d1, r1⟩ := ih true { s with tls := locate s.tls f l lvl } (true :: es) (.autoEnd :: r) out hq rfl
      rw [if_pos h]
      generalize exec min fate true parts { s with tls := locate s.tls f l lvl } = ra at o1 d1 r1 ⊢
      obtain ⟨sa, ea⟩ := ra
      dsimp only at o1 d1 r1
      subst d1
      simp only [hf, commit_tls, commit_level, commit_out]
      refine ⟨n1 ++ (if sa.tls.lvl ≤ sa.level then [sa.tls.msg] else []), by rw [o1, List.append_assoc], trivial, ?_⟩
      refine .head (step_log_on h) (r1.trans (.one ?_))
      rw [step_autoEnd_on, List.map_append, List.append_assoc]
      congr 2
      split <;> rfl
    · obtain ⟨n1, o1, d1, r1⟩ := ih false s (false :: es) (.autoEnd :: r) out hq rfl
      rw [if_neg h]
      exact ⟨n1, o1, d1, .head (step_log_off h) (r1.trans (.one step_autoEnd_off))⟩
  | block f l lvl body ih =>
    intro act s es r out hq he
    simp only [Prog.quiet] at hq
    simp only [exec, Prog.ops, List.cons_append, List.nil_append]
    by_cases h : lvl ≤ min ∧ lvl ≤ s.level
    · obtain ⟨n1, o1, d1, r1⟩ := ih act { s with tls := locate s.tls f l lvl } es (.complete :: r) out hq he
      rw [if_pos h]
      generalize exec min fate act body { s with tls := locate s.tls f l lvl } = ra at o1 d1 r1 ⊢
      obtain ⟨sa, ea⟩ := ra
      dsimp only at o1 d1 r1
      subst d1
      simp only [hf, commit_tls, commit_level, commit_out]
      refine ⟨n1 ++ (if sa.tls.lvl ≤ sa.level then [sa.tls.msg] else []), by rw [o1, List.append_assoc], trivial, ?_⟩
      refine (runs_block_enter h).trans ?_
      simp only [Bool.false_eq_true, if_false]
      refine r1.trans (.one ?_)
      rw [step_complete, List.map_append, List.append_assoc]
      congr 2
      split <;> rfl
    · rw [if_neg h]
      exact ⟨[], by simp, rfl, by simpa using runs_block_off h⟩
  | tryc a b _ _ => intro act s es r out hq; simp [Prog.quiet] at hq
  | thrw e => intro act s es r out hq; simp [Prog.quiet] at hq
  | skip => intro act s es r out hq he; exact ⟨[], by simp [exec], rfl, by simpa [exec, Prog.ops] using Runs.refl⟩
  | put p =>
    intro act s es r out hq he
    refine ⟨[], by cases act <;> simp [exec], rfl, .one ?_⟩
    subst he
    match es with
    | [] => simp [step, mk_th, Prog.ops, setTh_mk, exec]
    | true :: es => simp [step, mk_th, Prog.ops, setTh_mk, exec]
    | false :: es => simp [step, mk_th, Prog.ops, setTh_mk, exec]
  | cat c =>
    intro act s es r out hq he
    refine ⟨[], by cases act <;> simp [exec], rfl, .one ?_⟩
    subst he
    match es with
    | [] => simp [step, mk_th, Prog.ops, setTh_mk, exec]
    | true :: es => simp [step, mk_th, Prog.ops, setTh_mk, exec]
    | false :: es => simp [step, mk_th, Prog.ops, setTh_mk, exec]
  | lput p =>
    intro act s es r out hq he
    exact ⟨[], by simp [exec], rfl, .one (by simp [step, mk_th, Prog.ops, setTh_mk, exec])⟩
  | setCategory c =>
    intro act s es r out hq he
    exact ⟨[], by simp [exec], rfl, .one (by simp [step, mk_th, Prog.ops, setTh_mk, exec])⟩
  | level n =>
    intro act s es r out hq he
    refine ⟨[], by simp [exec], rfl, .one ?_⟩
    simp only [Prog.ops, List.cons_append, List.nil_append, step, mk_th, exec, List.map_nil, List.append_nil]
    simp only [mk, setTh]; congr 1; funext j; by_cases h : j = i <;> simp [h]

end Falcon.Logger
