import Verif.Spec.LogFile
import Verif.Props.LogHistory
import Verif.Props.LogStream
/- C130: the log file tells exactly what was logged, from the threads' calls to the decoded lines. -/
namespace Falcon.Log

variable {rx : Rx} {n : Nat} {t b : Bool} {s s0 : St} {es es0 es1 : List Ev} {l : LId}

theorem Exec.split (h : Exec rx s0 s (es0 ++ es1)) : ∃ s1, Exec rx s0 s1 es0 ∧ Exec rx s1 s es1 := by
  generalize he : es0 ++ es1 = es at h
  induction h generalizing es1 with
  | nil =>
    obtain ⟨rfl, rfl⟩ := List.append_eq_nil_iff.1 he
    exact ⟨s0, .nil, .nil⟩
  | snoc h hs ih =>
    rename_i s s' es a e
    rcases List.eq_nil_or_concat es1 with rfl | ⟨es1', e', rfl⟩
    · rw [List.append_nil] at he; subst he
      exact ⟨_, .snoc h hs, .nil⟩
    · rw [List.concat_eq_append, ← List.append_assoc] at he
      obtain ⟨h1, h2⟩ := List.append_inj' he rfl
      obtain rfl : e' = e := by simpa using h2
      obtain ⟨s1, a1, a2⟩ := ih h1
      rw [List.concat_eq_append]
      exact ⟨s1, a1, .snoc a2 hs⟩

theorem wantsIn_snoc (e : Ev) (h : ∀ i op, e = .did i op → op.concerns l = false) :
    enabledIn l (es ++ [e]) = enabledIn l es ∧ listenerLevelIn l (es ++ [e]) = listenerLevelIn l es ∧ categoryIn l (es ++ [e]) = categoryIn l es := by
  rw [enabledIn_snoc, listenerLevelIn_snoc, categoryIn_snoc]
  cases e with
  | did i op =>
    have := h i op rfl
    cases op <;> simp_all [Op.concerns]
  | _ => exact ⟨rfl, rfl, rfl⟩

theorem leftAlone_cfg (es1 : List Ev) : ∀ es0, LeftAlone l es1 →
    enabledIn l (es0 ++ es1) = enabledIn l es0 ∧ listenerLevelIn l (es0 ++ es1) = listenerLevelIn l es0 ∧ categoryIn l (es0 ++ es1) = categoryIn l es0 := by
  induction es1 with
  | nil => intro es0 _; simp
  | cons e es1 ih =>
    intro es0 h
    obtain ⟨a, b, c⟩ := ih (es0 ++ [e]) (fun i op hi => h i op (List.mem_cons_of_mem _ hi))
    obtain ⟨a', b', c'⟩ := wantsIn_snoc (l := l) (es := es0) e (fun i op hi => h i op (by simp [hi]))
    rw [List.append_assoc] at a b c
    exact ⟨a.trans a', b.trans b', c.trans c'⟩

theorem leftAlone_wants (h : LeftAlone l es1) (m : Msg) : WantsIn rx l (es0 ++ es1) m ↔ WantsIn rx l es0 m := by
  obtain ⟨a, b, c⟩ := leftAlone_cfg es1 es0 h
  unfold WantsIn; rw [a, b, c]

theorem leftAlone_adds (h : LeftAlone l es1) : addCalls l (es0 ++ es1) = addCalls l es0 := by
  unfold addCalls
  rw [List.filter_append, List.length_append, Nat.add_eq_left, List.length_eq_zero_iff, List.filter_eq_nil_iff]
  intro e he hx
  cases e with
  | did i op =>
    have := h i op he
    cases op <;> simp_all [Op.concerns]
  | _ => simp at hx

theorem leftAlone_detached (h : LeftAlone l es1) (h0 : detachedIn l es0 = false) : detachedIn l (es0 ++ es1) = false := by
  unfold detachedIn at h0 ⊢
  rw [List.any_append, h0, Bool.false_or, List.any_eq_false]
  intro e he hx
  cases e with
  | did i op =>
    have := h i op he
    cases op <;> simp_all [Op.concerns]
  | _ => simp at hx

/-- Without a dispatch nothing happens to the listeners. -/
theorem round_quiet : ∀ (es : List Ev) (r : Round), Round.run .idle es = some r → dispatched es = [] → r = .idle ∧ receivedBy l es = [] ∧ served es = 0 := by
  intro es
  induction es with
  | nil => intro r h _; cases h; exact ⟨rfl, rfl, rfl⟩
  | cons e es ih =>
    intro r h hd
    have key : ∀ r', Round.next .idle e = some r' → (∀ m ls, e ≠ .dispatch m ls) →
        r' = .idle ∧ receivedBy l (e :: es) = receivedBy l es ∧ served (e :: es) = served es := by
      intro r' h1 h2
      cases e with
      | dispatch m ls => exact absurd rfl (h2 m ls)
      | tested k m st b => cases st <;> simp [Round.next] at h1
      | deliver k m => simp [Round.next] at h1
      | done m => simp [Round.next] at h1
      | _ => simp only [Round.next, Option.some.injEq] at h1; exact ⟨h1.symm, rfl, rfl⟩
    have hn : ∀ m ls, e ≠ .dispatch m ls := by
      intro m ls hx; subst hx
      simp [dispatched] at hd
    have hd' : dispatched es = [] := by
      unfold dispatched at hd ⊢
      cases e with
      | dispatch m ls => exact absurd rfl (hn m ls)
      | _ => exact hd
    simp only [Round.run] at h
    cases h1 : Round.next .idle e with
    | none => rw [h1] at h; cases h
    | some r' =>
      rw [h1] at h
      obtain ⟨rfl, k2, k3⟩ := key r' h1 hn
      obtain ⟨a, b, c⟩ := ih r h hd'
      exact ⟨a, by rw [k2, b], by rw [k3, c]⟩

/-- What listener `l` has still to get of the current message. -/
def due (l : LId) (W : Msg → Bool) : Round → List Msg
  | .idle => []
  | .serving m rem => if W m then List.replicate (rem.count l) m else []
  | .asking m k _ rem => if W m then List.replicate ((k :: rem).count l) m else []

/-- Questions already answered. -/
def answered (l : LId) (en : Bool) (lv : Int) (W : Msg → Bool) : Round → Prop
  | .asking _ k .level _ => k = l → en = true
  | .asking m k .category _ => k = l → en = true ∧ m.level ≤ lv
  | .asking m k .call _ => k = l → W m = true
  | _ => True

/-- Copies of what is wanted. -/
def copies (W : Msg → Bool) (k : Nat) (ms : List Msg) : List Msg := ms.flatMap (fun m => if W m then List.replicate k m else [])

def Ev.got (l : LId) : Ev → List Msg
  | .deliver k m => if k = l then [m] else []
  | _ => []
def Ev.ends : Ev → Nat
  | .done _ => 1
  | _ => 0
def Ev.starts : Ev → List Msg
  | .dispatch m _ => [m]
  | _ => []

theorem received_snoc (e : Ev) : receivedBy l (es ++ [e]) = receivedBy l es ++ e.got l := by
  unfold receivedBy
  rw [List.filterMap_append]
  congr 1
  cases e with
  | deliver k m => by_cases h : k = l <;> simp [h, Ev.got]
  | _ => rfl

theorem served_snoc (e : Ev) : served (es ++ [e]) = served es + e.ends := by
  unfold served
  rw [List.filter_append, List.length_append]
  cases e <;> rfl

theorem dispatched_snoc' (e : Ev) : dispatched (es ++ [e]) = dispatched es ++ e.starts := by
  unfold dispatched
  rw [List.filterMap_append]
  cases e <;> rfl

/-- Bookkeeping for one listener. -/
structure Ledger (l : LId) (k : Nat) (en : Bool) (lv : Int) (W : Msg → Bool) (es : List Ev) (r : Round) : Prop where
  got  : receivedBy l es ++ due l W r = copies W k (dispatched es)
  ans  : answered l en lv W r
  cnt  : served es + (if r = .idle then 0 else 1) = (dispatched es).length

theorem Ledger.step {k : Nat} {r r' : Round} {e : Ev} {en : Bool} {lv : Int} {C : Msg → Prop} {W : Msg → Bool}
    (hW : ∀ m, W m = true ↔ en = true ∧ m.level ≤ lv ∧ C m) (h : Ledger l k en lv W es r) (hn : r.next e = some r')
    (htest : ∀ m st x, e = .tested l m st x → (st = .enabled → x = en) ∧ (st = .level → (x = true ↔ m.level ≤ lv)) ∧ (st = .category → (x = true ↔ C m)))
    (hdisp : ∀ m ls, e = .dispatch m ls → ls.count l = k) : Ledger l k en lv W (es ++ [e]) r' := by
  obtain ⟨g, a, c⟩ := h
  -- an answer for another listener, or one that does not change what is due
  have keep : e.got l = [] → e.ends = 0 → e.starts = [] → r ≠ .idle → r' ≠ .idle → due l W r' = due l W r → answered l en lv W r' →
      Ledger l k en lv W (es ++ [e]) r' := by
    intro h1 h2 h3 h4 h5 h6 h7
    refine ⟨?_, h7, ?_⟩
    · rw [received_snoc, dispatched_snoc', h1, h3, h6]; simpa using g
    · rw [served_snoc, dispatched_snoc', h2, h3]; simpa [h4, h5] using c
  cases e with
  | dispatch m ls =>
    simp only [Round.next] at hn
    split at hn
    · rename_i hr
      cases hn; subst hr
      have hk := hdisp m ls rfl
      refine ⟨?_, trivial, ?_⟩
      · rw [received_snoc, dispatched_snoc']
        simp only [Ev.got, Ev.starts, due, List.append_nil, copies, List.flatMap_append, List.flatMap_cons, List.flatMap_nil, hk] at g ⊢
        rw [g]
      · rw [served_snoc, dispatched_snoc']; simp [Ev.ends, Ev.starts] at c ⊢; omega
    · cases hn
  | tested k' m st x =>
    cases st with
    | enabled =>
      simp only [Round.next] at hn
      split at hn
      · rename_i m' l' rem
        split at hn
        · rename_i hh
          obtain ⟨rfl, rfl⟩ := hh
          cases hn
          by_cases hk : k' = l
          · subst hk
            have hx := (htest m .enabled x rfl).1 rfl
            subst hx
            cases x with
            | true => exact keep rfl rfl rfl (by simp) (by simp) rfl (fun _ => rfl)
            | false =>
              refine keep rfl rfl rfl (by simp) (by simp) ?_ trivial
              have : W m = false := by rw [Bool.eq_false_iff]; intro y; simpa using ((hW m).1 y).1
              simp [due, this]
          · cases x with
            | true => exact keep rfl rfl rfl (by simp) (by simp) rfl (fun y => absurd y hk)
            | false =>
              refine keep rfl rfl rfl (by simp) (by simp) ?_ trivial
              simp [due, List.count_cons, hk]
        · cases hn
      · cases hn
    | level =>
      simp only [Round.next] at hn
      split at hn
      · rename_i m' l' rem
        split at hn
        · rename_i hh
          obtain ⟨rfl, rfl⟩ := hh
          cases hn
          by_cases hk : k' = l
          · subst hk
            have hx := (htest m .level x rfl).2.1 rfl
            cases x with
            | true => exact keep rfl rfl rfl (by simp) (by simp) rfl (fun _ => ⟨a rfl, hx.1 rfl⟩)
            | false =>
              refine keep rfl rfl rfl (by simp) (by simp) ?_ trivial
              have : W m = false := by rw [Bool.eq_false_iff]; intro y; simpa using hx.2 ((hW m).1 y).2.1
              simp [due, this]
          · cases x with
            | true => exact keep rfl rfl rfl (by simp) (by simp) rfl (fun y => absurd y hk)
            | false =>
              refine keep rfl rfl rfl (by simp) (by simp) ?_ trivial
              simp [due, List.count_cons, hk]
        · cases hn
      · cases hn
    | category =>
      simp only [Round.next] at hn
      split at hn
      · rename_i m' l' rem
        split at hn
        · rename_i hh
          obtain ⟨rfl, rfl⟩ := hh
          cases hn
          by_cases hk : k' = l
          · subst hk
            have hx := (htest m .category x rfl).2.2 rfl
            cases x with
            | true => exact keep rfl rfl rfl (by simp) (by simp) rfl (fun _ => (hW m).2 ⟨(a rfl).1, (a rfl).2, hx.1 rfl⟩)
            | false =>
              refine keep rfl rfl rfl (by simp) (by simp) ?_ trivial
              have : W m = false := by rw [Bool.eq_false_iff]; intro y; simpa using hx.2 ((hW m).1 y).2.2
              simp [due, this]
          · cases x with
            | true => exact keep rfl rfl rfl (by simp) (by simp) rfl (fun y => absurd y hk)
            | false =>
              refine keep rfl rfl rfl (by simp) (by simp) ?_ trivial
              simp [due, List.count_cons, hk]
        · cases hn
      · cases hn
    | call => simp [Round.next] at hn
  | deliver k' m =>
    simp only [Round.next] at hn
    split at hn
    · rename_i m' l' rem
      split at hn
      · rename_i hh
        obtain ⟨rfl, rfl⟩ := hh
        cases hn
        by_cases hk : k' = l
        · subst hk
          have hw : W m = true := a rfl
          refine ⟨?_, trivial, ?_⟩
          · rw [received_snoc, dispatched_snoc']
            simp only [due, hw, if_true, List.count_cons_self, List.replicate_succ] at g ⊢
            simpa [Ev.got, Ev.starts] using g
          · rw [served_snoc, dispatched_snoc']; simpa [Ev.ends, Ev.starts] using c
        · exact keep (by simp [Ev.got, hk]) rfl rfl (by simp) (by simp) (by simp [due, List.count_cons, hk]) trivial
      · cases hn
    · cases hn
  | done m =>
    simp only [Round.next] at hn
    split at hn
    · rename_i hr
      cases hn; subst hr
      refine ⟨?_, trivial, ?_⟩
      · rw [received_snoc, dispatched_snoc']; simpa [due, Ev.got, Ev.starts] using g
      · rw [served_snoc, dispatched_snoc']; simp [Ev.ends, Ev.starts] at c ⊢; omega
    · cases hn
  | _ =>
    simp only [Round.next, Option.some.injEq] at hn
    subst hn
    refine ⟨?_, a, ?_⟩
    · rw [received_snoc, dispatched_snoc']; simpa [Ev.got, Ev.starts] using g
    · rw [served_snoc, dispatched_snoc']; simpa [Ev.ends, Ev.starts] using c

theorem exec_ledger (h : Exec rx (init n t b) s (es0 ++ es1)) (h0 : accepted es0 = []) (hdet : detachedIn l es0 = false) (hadd : 0 < addCalls l es0)
    (ha : LeftAlone l es1) : ∃ r, Round.run .idle (es0 ++ es1) = some r ∧
      Ledger l (addCalls l es0) (enabledIn l es0) (listenerLevelIn l es0) (fun m => decide (WantsIn rx l es0 m)) (es0 ++ es1) r := by
  obtain ⟨s1, h1, h2⟩ := h.split
  clear h
  induction h2 with
  | nil =>
    rw [List.append_nil]
    obtain ⟨r, hr, -⟩ := exec_round h1
    have hd : dispatched es0 = [] := by
      have := C38_fifo h1
      rw [h0] at this
      exact List.prefix_nil.1 this
    obtain ⟨rfl, q2, q3⟩ := round_quiet (l := l) es0 r hr hd
    exact ⟨.idle, hr, by rw [q2, hd]; rfl, trivial, by rw [q3, hd]; rfl⟩
  | snoc h2 hs ih =>
    rename_i s2 s3 es1 act e
    have ha1 : LeftAlone l es1 := fun i op hi => ha i op (List.mem_append_left _ hi)
    obtain ⟨r, hr, L⟩ := ih ha1
    have hx := h1.append h2
    have hx' : Exec rx (init n t b) s3 (es0 ++ es1 ++ [e]) := .snoc hx hs
    obtain ⟨r', hr', -⟩ := exec_round hx'
    have hnext : r.next e = some r' := by
      rw [Round.run_append, hr, Option.bind_some] at hr'
      simp only [Round.run] at hr'
      cases h3 : r.next e with
      | none => rw [h3] at hr'; cases hr'
      | some r2 => rw [h3] at hr'; exact hr'
    rw [← List.append_assoc]
    refine ⟨r', hr', Ledger.step (C := fun m => m.cat = [] ∨ categoryIn l es0 = [] ∨ rx.full (categoryIn l es0) m.cat = true) ?_ L hnext ?_ ?_⟩
    · intro m; rw [decide_eq_true_iff]; rfl
    · intro m st x he
      subst he
      obtain ⟨c1, c2, c3⟩ := leftAlone_cfg es1 es0 ha1
      have hans := C42_answers_history hx act s3 l m x
      rw [c1, c2, c3] at hans
      refine ⟨fun y => ?_, fun y => ?_, fun y => ?_⟩ <;> subst y
      · exact hans.1 hs
      · exact hans.2.1 hs
      · exact hans.2.2 hs
    · intro m ls he
      subst he
      have hdet' : (s2.lst l).detached = false := by
        rw [(exec_conf hx).detached]; exact leftAlone_detached ha1 hdet
      have hmem : ∃ i, .did i (.addListener l) ∈ es0 ++ es1 := by
        unfold addCalls at hadd
        obtain ⟨e, he⟩ := List.exists_mem_of_length_pos hadd
        obtain ⟨he', hx⟩ := List.mem_filter.1 he
        clear he
        cases e with
        | did i op =>
          cases op with
          | addListener k => simp at hx; subst hx; exact ⟨i, List.mem_append_left _ he'⟩
          | _ => simp at hx
        | _ => simp at hx
      obtain ⟨i, hi⟩ := hmem
      have := (C46_added_listener_served hx act s3 m ls hs i l hi hdet').1
      rw [this, leftAlone_adds ha1]

end Falcon.Log

namespace Falcon.LogStream
open Falcon.Log (Str Msg)

theorem dropWhile_head {p : Char → Bool} {s xs : Str} {x : Char} (h : s.dropWhile p = x :: xs) : p x = false := by
  induction s with
  | nil => cases h
  | cons y s ih =>
    rw [List.dropWhile_cons] at h
    split at h
    · exact ih h
    · rename_i hy
      cases h
      simpa using hy

theorem afterLast_base (sep : Char) (path : Str) : IsBaseName sep path (afterLast sep path) := by
  constructor
  · unfold afterLast
    intro h
    rw [List.mem_reverse] at h
    have := List.all_eq_true.1 List.all_takeWhile _ h
    simp at this
  · unfold afterLast
    have h := List.takeWhile_append_dropWhile (p := fun c => decide (c ≠ sep)) (l := path.reverse)
    cases hd : path.reverse.dropWhile (fun c => decide (c ≠ sep)) with
    | nil =>
      rw [hd, List.append_nil] at h
      left; rw [h, List.reverse_reverse]
    | cons x xs =>
      right
      have hx : x = sep := by
        have := dropWhile_head hd
        simpa using this
      subst hx
      refine ⟨xs.reverse, ?_⟩
      have : path = (path.reverse.takeWhile (fun c => decide (c ≠ x)) ++ path.reverse.dropWhile (fun c => decide (c ≠ x))).reverse := by
        rw [h, List.reverse_reverse]
      rw [hd] at this
      rw [List.reverse_append, List.reverse_cons] at this
      exact this

theorem fileLines_line (s r : Str) (h : '\n' ∉ s) : fileLines (s ++ '\n' :: r) = (s ++ ['\n']) :: fileLines r := by
  induction s with
  | nil => simp [fileLines]
  | cons x s ih =>
    rw [List.mem_cons, not_or] at h
    rw [List.cons_append, fileLines, if_neg (Ne.symm h.1), ih h.2]
    rfl

/-- A file with the given messages reads back as these messages. -/
theorem readFile_written (sep : Char) (o : OS) (ho : o.Plain) (ms : List (Tm × Msg)) (hv : ∀ p ∈ ms, p.1.Valid ∧ Legible sep p.2) :
    ∃ x, (written sep o ms).text = o.text ++ x ∧ readFile x = ms.map fun p => some (shouldSee sep p.2) := by
  induction ms generalizing o with
  | nil => exact ⟨[], by simp [written], rfl⟩
  | cons p ms ih =>
    obtain ⟨tm, m⟩ := p
    obtain ⟨ht, l1, l2, l3, l4, l5, l6⟩ := hv (tm, m) (by simp)
    dsimp only at ht l1 l2 l3 l4 l5 l6
    have ho' : (onMessage sep o tm m).Plain := by rw [onMessage_eq ho ht.small]; exact ho
    obtain ⟨x, e1, e2⟩ := ih (onMessage sep o tm m) ho' (fun p hp => hv p (by simp [hp]))
    obtain ⟨ln, d1, d2⟩ := C66_decodable sep o tm m _ (afterLast_base sep m.file) ho ht l4 l5 l6
    obtain ⟨y, c1, c2⟩ := C69_one_line sep o tm m ho ht.small l1 l2 l3
    have hln : ln = y ++ ['\n'] := by
      rw [d1, List.append_assoc] at c1
      exact List.append_cancel_left c1
    refine ⟨ln ++ x, ?_, ?_⟩
    · show (written sep (onMessage sep o tm m) ms).text = _
      rw [e1, d1, List.append_assoc]
    · unfold readFile at e2 ⊢
      rw [hln, List.append_assoc, List.singleton_append, fileLines_line _ _ c2, List.map_cons, e2, ← hln, d2]
      rfl

end Falcon.LogStream

namespace Falcon.Log
open Falcon.LogStream (OS Tm written readFile shouldSee Legible)

variable {rx : Rx} {n : Nat} {t b : Bool} {s s0 : St} {es es0 es1 : List Ev} {l : LId}

theorem accepted_snoc (e : Ev) : accepted (es ++ [e]) = accepted es ++ (accepted [e]) := by
  unfold accepted; rw [List.filterMap_append]

theorem setup_accepted (h : Exec rx (init n t b) s es) (hs : ∀ i op, .call i op ∉ es) : accepted es = [] := by
  unfold accepted
  rw [List.filterMap_eq_nil_iff]
  intro e he
  cases e with
  | accept i m =>
    obtain ⟨c, hc⟩ := C41_outcome h i
    rcases call_msgs i es _ _ hc m he with x | x | x | x
    · cases x
    · cases x
    · exact absurd x (hs _ _)
    · exact absurd x (hs _ _)
  | _ => rfl

theorem copies_one (W : Msg → Bool) (ms : List Msg) : copies W 1 ms = ms.filter W := by
  induction ms with
  | nil => rfl
  | cons m ms ih =>
    unfold copies at ih ⊢
    rw [List.flatMap_cons, ih, List.filter_cons]
    by_cases h : W m <;> simp [h]

/-- C130: a listener is registered once, before any message is logged (history `es0`); afterwards (`es1`) any number of threads log
in any interleaving, start and stop the system, change the system level and other listeners, but leave this one alone.  It writes what it gets to an empty
file, at whatever times.  Then the file, read line by line, shows at every moment a beginning of the list of messages that came into the queue and that the listener
wants, completely and in order - and all of them as soon as every message of the queue was served. -/
theorem C130_log_file (h : Exec rx (init n t b) s (es0 ++ es1)) (hsetup : ∀ i op, .call i op ∉ es0) (hadd : addCalls l es0 = 1)
    (hdet : detachedIn l es0 = false) (ha : LeftAlone l es1) (sep : Char) (o : OS) (ho : o.Plain) (he : o.text = [])
    (times : List Tm) (hl : times.length = (receivedBy l (es0 ++ es1)).length) (hv : ∀ x ∈ times, x.Valid)
    (hm : ∀ m ∈ accepted es1, Legible sep m) :
    let file := (written sep o (times.zip (receivedBy l (es0 ++ es1)))).text
    let wanted := (accepted es1).filter fun m => decide (WantsIn rx l es0 m)
    readFile file <+: wanted.map (fun m => some (shouldSee sep m)) ∧
      (served (es0 ++ es1) = (accepted es1).length → readFile file = wanted.map (fun m => some (shouldSee sep m))) := by
  intro file wanted
  obtain ⟨s1, h1, h2⟩ := h.split
  have h0 := setup_accepted h1 hsetup
  obtain ⟨r, hr, L⟩ := exec_ledger (l := l) h h0 hdet (by omega) ha
  rw [hadd] at L
  have hacc : accepted (es0 ++ es1) = accepted es1 := by
    have : accepted (es0 ++ es1) = accepted es0 ++ accepted es1 := by
      unfold accepted; rw [List.filterMap_append]
    rw [this, h0, List.nil_append]
  have hfifo := C38_fifo h
  rw [hacc] at hfifo
  have hgot := L.got
  rw [copies_one] at hgot
  obtain ⟨rest, hrest⟩ := hfifo
  have hpre : receivedBy l (es0 ++ es1) <+: wanted := by
    refine ⟨due l (fun m => decide (WantsIn rx l es0 m)) r ++ rest.filter (fun m => decide (WantsIn rx l es0 m)), ?_⟩
    rw [← List.append_assoc, hgot, ← List.filter_append, hrest]
  have hleg : ∀ m ∈ receivedBy l (es0 ++ es1), Legible sep m := by
    intro m hmm
    have := hpre.subset hmm
    exact hm m (List.mem_filter.1 this).1
  obtain ⟨x, e1, e2⟩ := LogStream.readFile_written sep o ho (times.zip (receivedBy l (es0 ++ es1))) (by
    intro p hp
    have := List.of_mem_zip hp
    exact ⟨hv _ this.1, hleg _ this.2⟩)
  have hfile : readFile file = (receivedBy l (es0 ++ es1)).map fun m => some (shouldSee sep m) := by
    show readFile (written sep o _).text = _
    rw [e1, he, List.nil_append, e2]
    show (times.zip (receivedBy l (es0 ++ es1))).map ((fun m => some (shouldSee sep m)) ∘ Prod.snd) = _
    rw [← List.map_map, List.map_snd_zip (by omega)]
  rw [hfile]
  refine ⟨hpre.map _, fun hs => ?_⟩
  congr 1
  have hcnt := L.cnt
  have hlen := congrArg List.length hrest
  rw [List.length_append] at hlen
  have hidle : r = .idle := by
    by_cases hi : r = .idle
    · exact hi
    · rw [if_neg hi] at hcnt; omega
  subst hidle
  rw [if_pos rfl] at hcnt
  have hnil : rest = [] := List.length_eq_zero_iff.1 (by omega)
  subst hnil
  rw [List.append_nil] at hrest
  rw [hrest] at hgot
  simpa [due] using hgot

/-- What thread `i` is about to add to the queue. -/
def underway (v : Int) : Call → List Msg
  | .out => []
  | .checking m => if m.level ≤ v then [m] else []
  | .sending m => [m]

def Ev.acc (i : Nat) : Ev → List Msg
  | .accept j m => if j = i then [m] else []
  | _ => []
def Ev.logs (i : Nat) (v : Int) : Ev → List Msg
  | .call j (.log m)    => if j = i ∧ m.level ≤ v then [m] else []
  | .call j (.logPtr m) => if j = i then [m] else []
  | _ => []

theorem acceptedBy_snoc (i : Nat) (e : Ev) : acceptedBy i (es ++ [e]) = acceptedBy i es ++ e.acc i := by
  unfold acceptedBy
  rw [List.filterMap_append]
  congr 1
  cases e with
  | accept j m => by_cases h : j = i <;> simp [h, Ev.acc]
  | _ => rfl

theorem loggedBy_snoc (i : Nat) (v : Int) (e : Ev) : loggedBy i v (es ++ [e]) = loggedBy i v es ++ e.logs i v := by
  unfold loggedBy
  rw [List.filterMap_append]
  congr 1
  cases e with
  | call j op =>
    cases op with
    | log m => by_cases h : j = i ∧ m.level ≤ v <;> simp [h, Ev.logs]
    | logPtr m => by_cases h : j = i <;> simp [h, Ev.logs]
    | _ => rfl
  | _ => rfl

/-- C130: the messages of one thread come into the queue, and so into the file, in the order in which it logged them: at every moment
those of thread `i` are the ones it logged that are not above the system level (set before), except that of the call it is in. -/
theorem C130_program_order (h : Exec rx (init n t b) s (es0 ++ es1)) (hsetup : ∀ i op, .call i op ∉ es0) (hlev : ∀ j v, .did j (.level v) ∉ es1) (i : Nat) :
    acceptedBy i es1 <+: loggedBy i (levelIn es0) es1 ∧ (loggedBy i (levelIn es0) es1).length ≤ (acceptedBy i es1).length + 1 ∧
      (s.cl[i]? = some .idle → acceptedBy i es1 = loggedBy i (levelIn es0) es1) := by
  obtain ⟨s1, h1, h2⟩ := h.split
  have key : ∃ c, Call.run i .out (es0 ++ es1) = some c ∧ levelIn (es0 ++ es1) = levelIn es0 ∧
      acceptedBy i es1 ++ underway (levelIn es0) c = loggedBy i (levelIn es0) es1 := by
    clear h
    induction h2 with
    | nil =>
      obtain ⟨c, hc⟩ := C41_outcome h1 i
      have hout : c = .out := by
        have gen : ∀ (es : List Ev) c, Call.run i .out es = some c → (∀ i op, .call i op ∉ es) → c = .out := by
          intro es
          induction es with
          | nil => intro c h _; cases h; rfl
          | cons e es ih =>
            intro c h hn
            have hn' : ∀ i op, .call i op ∉ es := fun i op hx => hn i op (List.mem_cons_of_mem _ hx)
            simp only [Call.run] at h
            have : ∀ c', Call.next i .out e = some c' → c' = .out := by
              intro c' hc'
              cases e with
              | call j op => exact absurd (List.mem_cons_self ..) (hn j op)
              | reject j m => simp only [Call.next] at hc'; split at hc' <;> simp_all
              | pass j m => simp only [Call.next] at hc'; split at hc' <;> simp_all
              | accept j m => simp only [Call.next] at hc'; split at hc' <;> simp_all
              | _ => simp only [Call.next, Option.some.injEq] at hc'; exact hc'.symm
            cases hx : Call.next i .out e with
            | none => rw [hx] at h; cases h
            | some c' =>
              rw [hx] at h
              obtain rfl := this c' hx
              exact ih c h hn'
        exact gen es0 c hc hsetup
      subst hout
      exact ⟨.out, by rw [List.append_nil]; exact hc, by rw [List.append_nil], rfl⟩
    | snoc h2 hs ih =>
      rename_i s2 s3 es1 act e
      obtain ⟨c, hc, hlv, g⟩ := ih (fun j v hx => hlev j v (List.mem_append_left _ hx))
      have hx := h1.append h2
      have hx' : Exec rx (init n t b) s3 (es0 ++ es1 ++ [e]) := .snoc hx hs
      obtain ⟨c', hc'⟩ := C41_outcome hx' i
      have hnext : Call.next i c e = some c' := by
        rw [Call.run_append, hc, Option.bind_some] at hc'
        simp only [Call.run] at hc'
        cases h3 : Call.next i c e with
        | none => rw [h3] at hc'; cases hc'
        | some r2 => rw [h3] at hc'; exact hc'
      have hlv' : levelIn (es0 ++ (es1 ++ [e])) = levelIn es0 := by
        rw [← List.append_assoc, levelIn_snoc]
        cases e with
        | did j op =>
          cases op with
          | level v => exact absurd (by simp) (hlev j v)
          | _ => exact hlv
        | _ => exact hlv
      refine ⟨c', by rw [← List.append_assoc]; exact hc', hlv', ?_⟩
      rw [acceptedBy_snoc, loggedBy_snoc]
      have keep : e.acc i = [] → e.logs i (levelIn es0) = [] → underway (levelIn es0) c' = underway (levelIn es0) c →
          acceptedBy i es1 ++ e.acc i ++ underway (levelIn es0) c' = loggedBy i (levelIn es0) es1 ++ e.logs i (levelIn es0) := by
        intro a1 a2 a3; rw [a1, a2, a3]; simpa using g
      have lev := C41_level_history hx act s3 i
      rw [hlv] at lev
      cases e with
      | call j op =>
        by_cases hj : j = i
        · subst hj
          cases op with
          | log m =>
            simp only [Call.next, if_true] at hnext
            split at hnext
            · rename_i ho
              cases hnext; subst ho
              simp only [underway, List.append_nil] at g
              by_cases hm : m.level ≤ levelIn es0 <;> simp [underway, Ev.acc, Ev.logs, hm, g]
            · cases hnext
          | logPtr m =>
            simp only [Call.next, if_true] at hnext
            split at hnext
            · rename_i ho
              cases hnext; subst ho
              simp only [underway, List.append_nil] at g
              simp [underway, Ev.acc, Ev.logs, g]
            · cases hnext
          | _ => simp only [Call.next, Option.some.injEq] at hnext; subst hnext; exact keep rfl rfl rfl
        · have : c' = c := by
            cases op <;> simp only [Call.next, if_neg hj, Option.some.injEq] at hnext <;> exact hnext.symm
          subst this
          refine keep rfl ?_ rfl
          cases op <;> simp [Ev.logs, hj]
      | reject j m =>
        by_cases hj : j = i
        · subst hj
          simp only [Call.next, if_true] at hnext
          split at hnext
          · rename_i ho
            cases hnext; subst ho
            refine keep rfl rfl ?_
            have := (lev m).2 hs
            simp only [underway]
            rw [if_neg (by omega)]
          · cases hnext
        · simp only [Call.next, if_neg hj, Option.some.injEq] at hnext; subst hnext; exact keep rfl rfl rfl
      | pass j m =>
        by_cases hj : j = i
        · subst hj
          simp only [Call.next, if_true] at hnext
          split at hnext
          · rename_i ho
            cases hnext; subst ho
            refine keep rfl rfl ?_
            have := (lev m).1 hs
            simp only [underway]
            rw [if_pos (by omega)]
          · cases hnext
        · simp only [Call.next, if_neg hj, Option.some.injEq] at hnext; subst hnext; exact keep rfl rfl rfl
      | accept j m =>
        by_cases hj : j = i
        · subst hj
          simp only [Call.next, if_true] at hnext
          split at hnext
          · rename_i ho
            cases hnext; subst ho
            simpa [underway, Ev.acc, Ev.logs] using g
          · cases hnext
        · simp only [Call.next, if_neg hj, Option.some.injEq] at hnext; subst hnext
          exact keep (by simp [Ev.acc, hj]) rfl rfl
      | _ => simp only [Call.next, Option.some.injEq] at hnext; subst hnext; exact keep rfl rfl rfl
  obtain ⟨c, hc, -, g⟩ := key
  refine ⟨⟨_, g⟩, ?_, fun hi => ?_⟩
  · rw [← g, List.length_append]
    have : (underway (levelIn es0) c).length ≤ 1 := by
      cases c with
      | checking m => simp only [underway]; split <;> simp
      | _ => simp [underway]
    omega
  · have := exec_call h i
    rw [hc, hi] at this
    obtain rfl : c = .out := Option.some.inj this
    simpa [underway] using g

/-! Non-vacuity: listener 7 takes levels up to 3; two threads log three messages, one of them too detailed for the listener. -/

def fileSetup : List Act := [.call 0 (.addListener 7), .call 0 (.llevel 7 3), .call 1 (.level 4)]
def fileMsg (k : Int) (lv : Int) : Msg := { file := "a/b.cpp".toList, line := k, level := lv, cat := ['x'], text := "hi (there): 1".toList }
def fileActs : List Act :=
  [.call 0 (.log (fileMsg 1 3)), .call 1 (.log (fileMsg 2 4)), .cli 1, .cli 0, .cli 1, .cli 1, .cli 1, .cli 0, .cli 0, .cli 0, .call 0 (.log (fileMsg 3 5)), .cli 0,
   .call 0 (.log (fileMsg 4 0)), .cli 0, .cli 0, .cli 0, .cli 0] ++ List.replicate 28 .log

def fileRun : Option (List Ev × List Ev × St) :=
  (run demoRx (init 2 false true) fileSetup).bind fun r => (run demoRx r.1 fileActs).map fun q => (r.2, q.2, q.1)

example : fileRun.map (fun r => (accepted r.2.1, receivedBy 7 (r.1 ++ r.2.1), served (r.1 ++ r.2.1), acceptedBy 0 r.2.1, loggedBy 0 4 r.2.1)) = some
  ([fileMsg 2 4, fileMsg 1 3, fileMsg 4 0], [fileMsg 1 3, fileMsg 4 0], 3, [fileMsg 1 3, fileMsg 4 0], [fileMsg 1 3, fileMsg 4 0]) := by decide +kernel

example : fileRun.map (fun r => (addCalls 7 r.1, detachedIn 7 r.1, r.1.any (fun e => match e with | .call _ _ => true | _ => false),
    r.2.1.all (fun e => match e with | .did _ op => !op.concerns 7 | _ => true))) = some (1, false, false, true) := by decide +kernel
example : Legible '/' (fileMsg 1 3) := by
  refine ⟨by decide, by decide, by decide, by decide, by decide, ?_⟩
  intro r h
  have : ['b', '.', 'c', 'p', 'p'] = '(' :: r := h
  cases this
example : fileRun.map (fun r => readFile (written '/' {} ([⟨2020, 1, 2, 3, 4, 5⟩, ⟨2020, 1, 2, 3, 4, 6⟩].zip (receivedBy 7 (r.1 ++ r.2.1)))).text) = some
    [some ⟨"INFO".toList, ['x'], "b.cpp".toList, 1, "hi (there): 1".toList⟩, some ⟨"CRIT".toList, ['x'], "b.cpp".toList, 4, "hi (there): 1".toList⟩] := by
  decide +kernel

end Falcon.Log
