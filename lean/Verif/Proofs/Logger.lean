import Verif.Spec.Logger
/-
Composition of messages.
-/
namespace Falcon.Logger
open Falcon.Log (Str Msg Rx Lst LId)

theorem Runs.refl {min : Int} {i : Nat} {w : W} : Runs min i w w := ⟨0, rfl⟩
theorem Runs.trans {min : Int} {i : Nat} {a b c : W} (h1 : Runs min i a b) (h2 : Runs min i b c) : Runs min i a c := by
  obtain ⟨k, e1⟩ := h1; obtain ⟨m, e2⟩ := h2
  refine ⟨k + m, ?_⟩
  unfold runS at e1 e2 ⊢
  rw [← List.replicate_append_replicate, List.foldl_append, e1, e2]
theorem Runs.one {min : Int} {i : Nat} {a b : W} (h : step min a i = b) : Runs min i a b := ⟨1, h⟩
theorem Runs.head {min : Int} {i : Nat} {a b c : W} (h : step min a i = b) (h2 : Runs min i b c) : Runs min i a c :=
  (Runs.one h).trans h2

/-- World `w` with thread `i`, level and output replaced. -/
def mk (w : W) (i : Nat) (th : Th) (lv : Int) (out : List (Nat × Msg)) : W :=
  { level := lv, th := fun j => if j = i then th else w.th j, out := out }

theorem mk_self (w : W) (i : Nat) : mk w i (w.th i) w.level w.out = w := by
  cases w; simp only [mk]
  congr 1
  funext j; by_cases h : j = i <;> simp [h]

theorem setTh_mk (w : W) (i : Nat) (th th' : Th) (lv : Int) (out : List (Nat × Msg)) :
    setTh (mk w i th lv out) i th' = mk w i th' lv out := by
  simp only [setTh, mk]; congr 1; funext j; by_cases h : j = i <;> simp [h]

theorem mk_th (w : W) (i : Nat) (th : Th) (lv : Int) (out : List (Nat × Msg)) : (mk w i th lv out).th i = th := by
  simp [mk]
theorem mk_level (w : W) (i : Nat) (th : Th) (lv : Int) (out : List (Nat × Msg)) : (mk w i th lv out).level = lv := rfl
theorem mk_out (w : W) (i : Nat) (th : Th) (lv : Int) (out : List (Nat × Msg)) : (mk w i th lv out).out = out := rfl

/-- Category under which a commit happens. -/
def Tls.effCat (t : Tls) : Str := if t.temp = [] then t.category else t.temp

def Tls.msg (t : Tls) : Msg := { file := t.file, line := t.line, level := t.lvl, cat := t.effCat, text := t.composer }

def Tls.clean (t : Tls) : Tls := { t with temp := [], composer := [], bad := false }

theorem commit_mk (w : W) (i : Nat) (th0 th : Th) (lv : Int) (out : List (Nat × Msg)) :
    commit (mk w i th0 lv out) i th =
      mk w i { th with tls := th.tls.clean } lv (out ++ if th.tls.lvl ≤ lv then [(i, th.tls.msg)] else []) := by
  simp only [commit, mk_level, setTh_mk]
  by_cases h : th.tls.lvl > lv
  · have h' : ¬ th.tls.lvl ≤ lv := by omega
    rw [if_pos h, if_neg h', List.append_nil]; rfl
  · have h' : th.tls.lvl ≤ lv := by omega
    rw [if_neg h, if_pos h']; rfl

/-! ### pieces -/

/-- Text and final flags produced by a list of pieces. -/
def renderP : (hex bad : Bool) → List Piece → Str × Bool × Bool
  | hex, bad, []            => ([], hex, bad)
  | hex, bad, .text s :: ps => ((if bad then [] else s) ++ (renderP hex bad ps).1, (renderP hex bad ps).2)
  | hex, bad, .num n :: ps  => ((if bad then [] else Nat.toDigits (if hex then 16 else 10) n) ++ (renderP hex bad ps).1, (renderP hex bad ps).2)
  | _, bad, .hex :: ps      => renderP true bad ps
  | _, bad, .dec :: ps      => renderP false bad ps
  | hex, _, .nullStr :: ps  => renderP hex true ps

theorem foldl_insert (ps : List Piece) : ∀ t : Tls, ps.foldl insert t =
    { t with composer := t.composer ++ (renderP t.isHex t.bad ps).1, isHex := (renderP t.isHex t.bad ps).2.1,
             bad := (renderP t.isHex t.bad ps).2.2 } := by
  induction ps with
  | nil => intro t; simp [renderP]
  | cons p ps ih =>
    intro t
    rw [List.foldl_cons, ih]
    cases p with
    | text s => cases hb : t.bad <;> simp [insert, renderP, hb]
    | num n => cases hb : t.bad <;> simp [insert, renderP, hb]
    | hex => simp [insert, renderP]
    | dec => simp [insert, renderP]
    | nullStr => simp [insert, renderP]

theorem renderP_plain : ∀ ps : List Piece, ps.all Piece.isPlain = true → renderP false false ps = (plainText ps, false, false) := by
  intro ps
  induction ps with
  | nil => intro _; rfl
  | cons p ps ih =>
    intro h
    rw [List.all_cons, Bool.and_eq_true] at h
    have := ih h.2
    cases p with
    | text s => simp [renderP, plainText, this]
    | num n => simp [renderP, plainText, this]
    | _ => simp [Piece.isPlain] at h

variable {min : Int} {i : Nat} {w : W} {r : List Op} {es : List Bool} {t : Tls} {lv : Int} {out : List (Nat × Msg)}

theorem runs_puts (ps : List Piece) : ∀ (t : Tls),
    Runs min i (mk w i { todo := ps.map Op.put ++ r, ends := true :: es, tls := t } lv out)
      (mk w i { todo := r, ends := true :: es, tls := ps.foldl insert t } lv out) := by
  induction ps with
  | nil => intro t; exact .refl
  | cons p ps ih =>
    intro t
    refine .head ?_ (ih (insert t p))
    simp only [step, mk_th, List.map_cons, List.cons_append, setTh_mk]

theorem runs_puts_off (ps : List Piece) :
    Runs min i (mk w i { todo := ps.map Op.put ++ r, ends := false :: es, tls := t } lv out)
      (mk w i { todo := r, ends := false :: es, tls := t } lv out) := by
  induction ps with
  | nil => exact .refl
  | cons p ps ih =>
    refine .head ?_ ih
    simp only [step, mk_th, List.map_cons, List.cons_append, setTh_mk]

theorem runs_lputs (ps : List Piece) : ∀ (t : Tls),
    Runs min i (mk w i { todo := ps.map Op.lput ++ r, ends := es, tls := t } lv out)
      (mk w i { todo := r, ends := es, tls := ps.foldl insert t } lv out) := by
  induction ps with
  | nil => intro t; exact .refl
  | cons p ps ih =>
    intro t
    refine .head ?_ (ih (insert t p))
    simp only [step, mk_th, List.map_cons, List.cons_append, setTh_mk]

theorem step_log_on {f : Str} {l lvl : Int} {parts : List Op} (h : lvl ≤ min ∧ lvl ≤ lv) :
    step min (mk w i { todo := .log f l lvl parts :: r, ends := es, tls := t } lv out) i =
      mk w i { todo := parts ++ .autoEnd :: r, ends := true :: es, tls := locate t f l lvl } lv out := by
  simp only [step, mk_th, mk_level]
  rw [if_pos (by exact ⟨h.1, h.2⟩), setTh_mk]

theorem step_log_off {f : Str} {l lvl : Int} {parts : List Op} (h : ¬ (lvl ≤ min ∧ lvl ≤ lv)) :
    step min (mk w i { todo := .log f l lvl parts :: r, ends := es, tls := t } lv out) i =
      mk w i { todo := parts ++ .autoEnd :: r, ends := false :: es, tls := t } lv out := by
  simp only [step, mk_th, mk_level]
  rw [if_neg (by exact h), setTh_mk]

theorem step_autoEnd_on : step min (mk w i { todo := .autoEnd :: r, ends := true :: es, tls := t } lv out) i =
    mk w i { todo := r, ends := es, tls := t.clean } lv (out ++ if t.lvl ≤ lv then [(i, t.msg)] else []) := by
  simp only [step, mk_th]
  rw [commit_mk]

theorem step_autoEnd_off : step min (mk w i { todo := .autoEnd :: r, ends := false :: es, tls := t } lv out) i =
    mk w i { todo := r, ends := es, tls := t } lv out := by
  simp only [step, mk_th, setTh_mk, List.tail_cons]

theorem step_putCat_on {c : Str} : step min (mk w i { todo := .putCat c :: r, ends := true :: es, tls := t } lv out) i =
    mk w i { todo := r, ends := true :: es, tls := { t with temp := c } } lv out := by
  simp only [step, mk_th, setTh_mk]

theorem step_putCat_off {c : Str} : step min (mk w i { todo := .putCat c :: r, ends := false :: es, tls := t } lv out) i =
    mk w i { todo := r, ends := false :: es, tls := t } lv out := by
  simp only [step, mk_th, setTh_mk]

/-- An inadmissible LOG statement does nothing. -/
theorem runs_log_off {f : Str} {l lvl : Int} {tc : Option Str} {ps : List Piece} (h : ¬ (lvl ≤ min ∧ lvl ≤ lv)) :
    Runs min i (mk w i { todo := (Stm.log f l lvl tc ps).toOp :: r, ends := es, tls := t } lv out)
      (mk w i { todo := r, ends := es, tls := t } lv out) := by
  cases tc with
  | none =>
    refine .head (step_log_off h) ?_
    exact (runs_puts_off ps).trans (.one step_autoEnd_off)
  | some c =>
    refine .head (step_log_off h) ?_
    refine .head step_putCat_off ?_
    exact (runs_puts_off ps).trans (.one step_autoEnd_off)

/-- Thread-local data when an admissible LOG statement is about to commit. -/
def Tls.composed (t : Tls) (f : Str) (l lvl : Int) (tc : Option Str) (ps : List Piece) : Tls :=
  ps.foldl insert (match tc with | none => locate t f l lvl | some c => { locate t f l lvl with temp := c })

theorem runs_log_on {f : Str} {l lvl : Int} {tc : Option Str} {ps : List Piece} (h : lvl ≤ min ∧ lvl ≤ lv) :
    Runs min i (mk w i { todo := (Stm.log f l lvl tc ps).toOp :: r, ends := es, tls := t } lv out)
      (mk w i { todo := r, ends := es, tls := (t.composed f l lvl tc ps).clean } lv (out ++ [(i, (t.composed f l lvl tc ps).msg)])) := by
  have hl : (t.composed f l lvl tc ps).lvl ≤ lv := by
    unfold Tls.composed
    cases tc <;> (simp only [foldl_insert, locate]; exact h.2)
  have fin : step min (mk w i { todo := .autoEnd :: r, ends := true :: es, tls := t.composed f l lvl tc ps } lv out) i =
      mk w i { todo := r, ends := es, tls := (t.composed f l lvl tc ps).clean } lv (out ++ [(i, (t.composed f l lvl tc ps).msg)]) := by
    rw [step_autoEnd_on, if_pos hl]
  cases tc with
  | none => exact .head (step_log_on h) ((runs_puts ps _).trans (.one fin))
  | some c => exact .head (step_log_on h) (.head step_putCat_on ((runs_puts ps _).trans (.one fin)))

theorem runs_block_off {f : Str} {l lvl : Int} {body : List Op} {early : Bool} (h : ¬ (lvl ≤ min ∧ lvl ≤ lv)) :
    Runs min i (mk w i { todo := .block f l lvl body early :: r, ends := es, tls := t } lv out)
      (mk w i { todo := r, ends := es, tls := t } lv out) := by
  refine .head (b := mk w i { todo := .blockTest false lvl body early :: r, ends := es, tls := t } lv out) ?_ (.one ?_)
  · simp only [step, mk_th, mk_level]
    rw [if_neg (by exact h), setTh_mk]
  · simp only [step, mk_th, mk_level]
    rw [if_neg (by simp), setTh_mk]

theorem runs_block_enter {f : Str} {l lvl : Int} {body : List Op} {early : Bool} (h : lvl ≤ min ∧ lvl ≤ lv) :
    Runs min i (mk w i { todo := .block f l lvl body early :: r, ends := es, tls := t } lv out)
      (mk w i { todo := body ++ (if early then r else .complete :: r), ends := es, tls := locate t f l lvl } lv out) := by
  refine .head (b := mk w i { todo := .blockTest true lvl body early :: r, ends := es, tls := locate t f l lvl } lv out) ?_ (.one ?_)
  · simp only [step, mk_th, mk_level]
    rw [if_pos (by exact h), setTh_mk]
  · simp only [step, mk_th, mk_level]
    rw [if_pos (by exact ⟨h.1, h.2, trivial⟩), setTh_mk]

theorem step_complete : step min (mk w i { todo := .complete :: r, ends := es, tls := t } lv out) i =
    mk w i { todo := r, ends := es, tls := t.clean } lv (out ++ if t.lvl ≤ lv then [(i, t.msg)] else []) := by
  simp only [step, mk_th]
  rw [commit_mk]

/-- One plain statement from a ready thread. -/
theorem runs_stm (s : Stm) (hp : s.isPlain = true) (ht : Ready t) :
    ∃ t', Ready t' ∧ t'.category = s.newCat t.category ∧
      Runs min i (mk w i { todo := s.toOp :: r, ends := es, tls := t } lv out)
        (mk w i { todo := r, ends := es, tls := t' } (s.newLevel lv) (out ++ (s.emits min lv t.category).map fun m => (i, m))) := by
  obtain ⟨h1, h2, h3, h4⟩ := ht
  cases s with
  | log f l lvl tc ps =>
    by_cases h : lvl ≤ min ∧ lvl ≤ lv
    · refine ⟨(t.composed f l lvl tc ps).clean, ?_, ?_, ?_⟩
      · cases tc <;>
          simp [Ready, Tls.clean, Tls.composed, foldl_insert, locate, h2, h3, renderP_plain ps hp]
      · cases tc <;> simp [Tls.clean, Tls.composed, foldl_insert, locate, Stm.newCat]
      · have e : (t.composed f l lvl tc ps).msg = Msg.mk f l lvl (msgCat t.category tc) (plainText ps) := by
          cases tc <;> simp [Tls.msg, Tls.effCat, msgCat, Tls.composed, foldl_insert, locate, h1, h2, h3, h4, renderP_plain ps hp]
        have := runs_log_on (w := w) (i := i) (r := r) (es := es) (t := t) (out := out) (f := f) (l := l) (tc := tc) (ps := ps) h
        simp only [Stm.emits, Stm.newLevel]
        rw [if_pos h]
        rw [e] at this
        simpa using this
    · refine ⟨t, ⟨h1, h2, h3, h4⟩, rfl, ?_⟩
      simp only [Stm.emits, Stm.newLevel]
      rw [if_neg h]
      simpa using runs_log_off h
  | block f l lvl ps =>
    by_cases h : lvl ≤ min ∧ lvl ≤ lv
    · refine ⟨(ps.foldl insert (locate t f l lvl)).clean, ?_, ?_, ?_⟩
      · simp [Ready, Tls.clean, foldl_insert, locate, h2, h3, renderP_plain ps hp]
      · simp [Tls.clean, foldl_insert, locate, Stm.newCat]
      · have e : (ps.foldl insert (locate t f l lvl)).msg = { file := f, line := l, level := lvl, text := plainText ps, cat := t.category } := by
          simp [Tls.msg, Tls.effCat, foldl_insert, locate, h1, h2, h3, h4, renderP_plain ps hp]
        have hl : (ps.foldl insert (locate t f l lvl)).lvl ≤ lv := by simp only [foldl_insert, locate]; exact h.2
        simp only [Stm.emits, Stm.newLevel]
        rw [if_pos h]
        refine (runs_block_enter h).trans ?_
        refine (runs_lputs ps _).trans (.one ?_)
        simp only [Bool.false_eq_true, if_false]
        rw [step_complete, if_pos hl, e]; rfl
    · refine ⟨t, ⟨h1, h2, h3, h4⟩, rfl, ?_⟩
      simp only [Stm.emits, Stm.newLevel]
      rw [if_neg h]
      simpa [Stm.toOp] using runs_block_off h
  | category c =>
    refine ⟨{ t with category := c }, ⟨h1, h2, h3, h4⟩, rfl, .one ?_⟩
    simp only [Stm.toOp, step, mk_th, setTh_mk, Stm.emits, Stm.newLevel, List.map_nil, List.append_nil]
  | level n =>
    refine ⟨t, ⟨h1, h2, h3, h4⟩, rfl, .one ?_⟩
    simp only [Stm.toOp, step, mk_th, Stm.emits, Stm.newLevel, List.map_nil, List.append_nil]
    simp only [mk, setTh]; congr 1; funext j; by_cases h : j = i <;> simp [h]

def finalLevel : Int → List Stm → Int
  | lv, [] => lv
  | lv, s :: ss => finalLevel (s.newLevel lv) ss
def finalCat : Str → List Stm → Str
  | c, [] => c
  | c, s :: ss => finalCat (s.newCat c) ss

theorem runs_stms (ss : List Stm) : ∀ (t : Tls) (lv : Int) (out : List (Nat × Msg)), (∀ s ∈ ss, s.isPlain = true) → Ready t →
    ∃ t', Ready t' ∧ t'.category = finalCat t.category ss ∧
      Runs min i (mk w i { todo := ss.map Stm.toOp ++ r, ends := es, tls := t } lv out)
        (mk w i { todo := r, ends := es, tls := t' } (finalLevel lv ss) (out ++ (emitsAll min lv t.category ss).map fun m => (i, m))) := by
  induction ss with
  | nil => intro t lv out _ ht; exact ⟨t, ht, rfl, by simpa [emitsAll, finalLevel] using Runs.refl⟩
  | cons s ss ih =>
    intro t lv out hp ht
    obtain ⟨t1, r1, c1, h1⟩ := runs_stm (min := min) (i := i) (w := w) (r := ss.map Stm.toOp ++ r) (es := es) (lv := lv) (out := out)
      s (hp s (by simp)) ht
    obtain ⟨t2, r2, c2, h2⟩ := ih t1 (s.newLevel lv) (out ++ (s.emits min lv t.category).map fun m => (i, m)) (fun s' hs => hp s' (by simp [hs])) r1
    refine ⟨t2, r2, by rw [c2, c1]; rfl, ?_⟩
    rw [c1] at h2
    have := h1.trans h2
    simpa [emitsAll, finalLevel, List.append_assoc] using this

/-! ### threads -/

theorem setTh_other {w : W} {i j : Nat} {t : Th} (h : i ≠ j) : (setTh w j t).th i = w.th i := by simp [setTh, h]

theorem commit_other {w : W} {i j : Nat} {t : Th} (h : i ≠ j) : (commit w j t).th i = w.th i ∧ outOf (commit w j t) i = outOf w i := by
  simp only [commit]
  split
  · exact ⟨setTh_other h, rfl⟩
  · refine ⟨setTh_other h, ?_⟩
    simp [outOf, setTh, List.filter_append, Ne.symm h]

/-- A step of another thread changes nothing of thread `i`. -/
theorem step_other {min : Int} {w : W} {i j : Nat} (h : i ≠ j) : (step min w j).th i = w.th i ∧ outOf (step min w j) i = outOf w i := by
  have a : ∀ t, (setTh w j t).th i = w.th i ∧ outOf (setTh w j t) i = outOf w i := fun t => ⟨setTh_other h, rfl⟩
  cases htd : (w.th j).todo with
  | nil => simp only [step, htd]; exact ⟨trivial, trivial⟩
  | cons op rest =>
    simp only [step, htd]
    split
    · split <;> exact a _
    · split <;> exact a _
    · split <;> exact a _
    · split
      · exact commit_other h
      · exact a _
    · split <;> exact a _
    · split <;> exact a _
    · exact commit_other h
    · exact a _
    · split <;> exact a _
    · exact a _
    · exact a _
    · exact ⟨setTh_other h, rfl⟩

/-- A step of thread `i` depends only on the level and on thread `i`. -/
theorem step_local {min : Int} {w w' : W} {i : Nat} (h1 : w.th i = w'.th i) (h2 : outOf w i = outOf w' i) :
    (step min w i).th i = (step min { w' with level := w.level } i).th i ∧
    outOf (step min w i) i = outOf (step min { w' with level := w.level } i) i := by
  have a : ∀ t, (setTh w i t).th i = (setTh { w' with level := w.level } i t).th i ∧
      outOf (setTh w i t) i = outOf (setTh { w' with level := w.level } i t) i :=
    fun t => ⟨by simp [setTh], by simpa [outOf, setTh] using h2⟩
  have c : ∀ t, (commit w i t).th i = (commit { w' with level := w.level } i t).th i ∧
      outOf (commit w i t) i = outOf (commit { w' with level := w.level } i t) i := by
    intro t
    simp only [commit]
    by_cases hl : t.tls.lvl > w.level
    · rw [if_pos hl, if_pos hl]; exact a _
    · rw [if_neg hl, if_neg hl]
      refine ⟨by simp [setTh], ?_⟩
      simp only [outOf, setTh, List.filter_append, List.map_append] at h2 ⊢
      rw [h2]
  cases htd : (w.th i).todo with
  | nil => simp only [step, ← h1, htd]; exact ⟨trivial, h2⟩
  | cons op rest =>
    simp only [step, ← h1, htd]
    split
    · split <;> exact a _
    · split <;> exact a _
    · split <;> exact a _
    · split
      · exact c _
      · exact a _
    · split <;> exact a _
    · split <;> exact a _
    · exact c _
    · exact a _
    · split <;> exact a _
    · exact a _
    · exact a _
    · exact ⟨by simp [setTh], by simpa [outOf, setTh] using h2⟩

end Falcon.Logger
