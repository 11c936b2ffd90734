import Verif.Proofs.LogStreamFail
import Verif.Props.LogStream
/-
C149: logging on a stream that fails now and then.
-/
namespace Falcon.LogStream
open Falcon.Log (Str Msg levelToString)

theorem lineOf_eq (sep : Char) {t : Tm} (ht : t.Small) (m : Msg) : lineOf sep t m = lineText sep t m := by
  unfold lineOf; rw [onMessage_eq ⟨rfl, rfl, rfl⟩ ht]; rfl

/-- Insertions other than setw leave width 0 alone. -/
theorem width_stays (as : List Act) (ha : ∀ a ∈ as, (∃ s, a = .str s) ∨ ∃ n, a = .int n) : ∀ (o : FOS), o.throws = false → o.os.width = 0 →
    (o.acts as).1.os.width = 0 := by
  induction as with
  | nil => intro o _ h; exact h
  | cons a as ih =>
    intro o ht h
    have put : ∀ s, (o.put s).1.os.width = 0 := by
      intro s; unfold FOS.put; split
      · exact h
      · dsimp only
        generalize (if o.os.left = true then s ++ List.replicate (o.os.width - s.length) o.os.fill
            else List.replicate (o.os.width - s.length) o.os.fill ++ s) = q
        split <;> rfl
    obtain ⟨_, h1, h2⟩ := actsF_append [a] [] (o := o) ht
    have h1 : (o.act a).2 = false := by
      simp only [FOS.acts] at h1
      cases e : (o.act a).2 with
      | true => rw [e] at h1; simp at h1
      | false => rfl
    simp only [FOS.acts, h1, Bool.false_eq_true, if_false] at h2 ⊢
    refine ih (fun b hb => ha b (List.mem_cons_of_mem _ hb)) _ h2 ?_
    rcases ha a (List.mem_cons_self ..) with ⟨s, rfl⟩ | ⟨n, rfl⟩ <;> exact put _

/-- After a message the width is 0, whether the stream failed or not. -/
theorem width_after (sep : Char) (o : FOS) (ht : o.throws = false) (t : Tm) (m : Msg) : (onMessageF sep o t m).1.os.width = 0 := by
  unfold onMessageF msgActs
  have : dateActs t = (dateActs t).take 22 ++ [.setw 0] := rfl
  rw [this]
  obtain ⟨e1, _, h2⟩ := actsF_append ((dateActs t).take 22 ++ [.setw 0]) (bodyActs sep m) (o := o) ht
  rw [e1]
  obtain ⟨e3, _, h3⟩ := actsF_append ((dateActs t).take 22) [.setw 0] (o := o) ht
  refine width_stays _ ?_ _ h2 (by rw [e3]; rfl)
  intro a ha
  simp only [bodyActs, List.mem_append, List.mem_cons, List.not_mem_nil, or_false] at ha
  rcases ha with ((rfl | rfl | rfl) | h) | (rfl | rfl | rfl | rfl | rfl | rfl)
  all_goals try exact .inl ⟨_, rfl⟩
  all_goals try exact .inr ⟨_, rfl⟩
  split at h
  · cases h
  · simp only [List.mem_cons, List.not_mem_nil, or_false] at h
    rcases h with rfl | rfl | rfl <;> exact .inl ⟨_, rfl⟩

/-- One message on a stream in any condition. -/
theorem message_spec (sep : Char) (o : FOS) (ho : o.os.Plain) (t : Tm) (hs : t.Small) (m : Msg) :
    let ln := lineOf sep t m
    (o.bad = true → o.throws = false → ∃ os', onMessageF sep o t m = ({ o with os := os' }, false) ∧ os'.text = o.os.text ∧ os'.Plain) ∧
    (o.bad = true → o.throws = true → (onMessageF sep o t m).2 = true) ∧
    (o.bad = false → (∀ n, o.room = some n → ln.length ≤ n) → ∃ os', onMessageF sep o t m = ({ o with os := os', room := left o.room ln }, false) ∧
      os'.text = o.os.text ++ ln ∧ os'.Plain) ∧
    (o.bad = false → ∀ n, o.room = some n → n < ln.length → ∃ os',
      onMessageF sep o t m = ({ o with os := os', room := some 0, bad := true }, o.throws) ∧ os'.text = o.os.text ++ ln.take n ∧
      (o.throws = false → os'.Plain)) := by
  have key : o.bad = false → ∃ p, (o.os.acts (msgActs sep t m)).text = o.os.text ++ p ∧ _ ∧ _ := acts_good (msgActs sep t m) o
  have hp : ∀ {p}, (o.os.acts (msgActs sep t m)).text = o.os.text ++ p → p = lineOf sep t m := by
    intro p e
    have : o.os.acts (msgActs sep t m) = _ := onMessage_eq ho hs sep m
    rw [this] at e
    rw [lineOf_eq sep hs m]
    exact (List.append_cancel_left e).symm
  refine ⟨?_, ?_, ?_, ?_⟩
  · intro hb ht
    obtain ⟨os', e, h1, h2, h3⟩ := acts_bad (msgActs sep t m) o hb ht
    have hw := width_after sep o ht t m
    refine ⟨os', e, h1, by rw [h2]; exact ho.1, by rw [h3]; exact ho.2.1, ?_⟩
    rw [onMessageF, e] at hw; exact hw
  · intro hb ht
    have : (o.act (.int t.year)).2 = true := by simp [FOS.act, FOS.put, hb, ht]
    simp [onMessageF, msgActs, dateActs, FOS.acts, this]
  · intro hb hn
    obtain ⟨p, e, h1, _⟩ := key hb
    have := hp e; subst this
    refine ⟨_, h1 hn, ?_, ?_⟩
    · exact e
    · have : o.os.acts (msgActs sep t m) = _ := onMessage_eq ho hs sep m
      rw [this]; exact ho
  · intro hb n hr hlt
    obtain ⟨p, e, _, h2⟩ := key hb
    have := hp e; subst this
    obtain ⟨os', g1, g2, g3, g4⟩ := h2 n hr hlt
    refine ⟨os', g1, g2, fun ht => ⟨by rw [g3]; exact ho.1, by rw [g4]; exact ho.2.1, ?_⟩⟩
    have hw := width_after sep o ht t m
    rw [onMessageF, g1] at hw; exact hw

/-! ### What does not hold -/

def msg2 : Msg := { msg1 with text := ['o', 'k'] }

/-- C149 does not hold: the stream fails in the middle of a message; after the device has room again and clear() has
been called, the next message is not a line of its own but continues the cut one. -/
theorem C149_own_line_refuted :
    (frun '/' { room := some 20 } [.msg tm1 msg1, .device none, .repair, .msg tm1 msg2]).2 = false ∧
    ¬IsLineOf (lineOf '/' tm1 msg2) (frun '/' { room := some 20 } [.msg tm1 msg1, .device none, .repair, .msg tm1 msg2]).1.os.text := by
  refine ⟨by decide, ?_⟩
  rintro ⟨pre, post, e, h⟩
  have hpre : pre = (frun '/' { room := some 20 } [.msg tm1 msg1, .device none, .repair, .msg tm1 msg2]).1.os.text.take pre.length := by
    rw [e]; simp
  have hln : lineOf '/' tm1 msg2 = ((frun '/' { room := some 20 } [.msg tm1 msg1, .device none, .repair, .msg tm1 msg2]).1.os.text.drop pre.length).take 43 := by
    have h43 : (lineOf '/' tm1 msg2).length = 43 := by decide
    rw [e, List.append_assoc, List.drop_left, ← h43, List.take_left]
  have hle : pre.length ≤ 20 := by
    have h1 := congrArg List.length e
    have h2 : (frun '/' { room := some 20 } [.msg tm1 msg1, .device none, .repair, .msg tm1 msg2]).1.os.text.length = 63 := by decide
    have h3 : (lineOf '/' tm1 msg2).length = 43 := by decide
    rw [h2] at h1
    simp only [List.length_append, h3] at h1
    omega
  have all : ∀ k : Fin 21, lineOf '/' tm1 msg2 = ((frun '/' { room := some 20 } [.msg tm1 msg1, .device none, .repair, .msg tm1 msg2]).1.os.text.drop k).take 43 → k = 20 := by
    decide +kernel
  have h20 := all ⟨pre.length, by omega⟩ hln
  have h20 : pre.length = 20 := congrArg Fin.val h20
  rw [h20] at hpre
  have hlast : pre.getLast? = some ' ' := by rw [hpre]; decide
  rcases h with rfl | ⟨p, rfl⟩
  · cases hlast
  · simp at hlast

/-- C149 does not hold: if the stream is set to throw, its failure ends the program. -/
theorem C149_survives_refuted : (frun '/' { room := some 20, throws := true } [.msg tm1 msg1]).2 = true := by decide

/-! ### What holds -/

/-- C149 (exact): on a stream that does not throw the program goes on whatever happens, and the file holds exactly the
lines of the messages logged while the stream was good, the one that made it bad being cut where the room
ended; the format state is that of a new stream but for the fill character. -/
theorem C149_file_partial (sep : Char) (es : List FEv) (hs : ∀ e ∈ es, e.Small) :
    ∀ (o : FOS), o.os.Plain → o.throws = false →
      (frun sep o es).2 = false ∧ (frun sep o es).1.os.text = o.os.text ++ added sep o.room o.bad es ∧ (frun sep o es).1.os.Plain := by
  induction es with
  | nil => intro o h _; exact ⟨rfl, by simp [frun, added], h⟩
  | cons e es ih =>
    intro o ho ht
    have ih := ih (fun x hx => hs x (List.mem_cons_of_mem _ hx))
    cases e with
    | device r => exact ih { o with room := r } ho ht
    | repair => exact ih { o with bad := false } ho ht
    | msg t m =>
      obtain ⟨a1, -, a3, a4⟩ := message_spec sep o ho t (hs _ (List.mem_cons_self ..)) m
      cases hb : o.bad with
      | true =>
        obtain ⟨os', e, h1, h2⟩ := a1 hb ht
        obtain ⟨k1, k2, k3⟩ := ih { o with os := os' } h2 ht
        simp only [frun, e, added, Bool.false_eq_true, if_false, if_true]
        exact ⟨k1, by rw [k2, h1]; dsimp only; rw [hb], k3⟩
      | false =>
        by_cases hn : ∀ n, o.room = some n → (lineOf sep t m).length ≤ n
        · obtain ⟨os', e, h1, h2⟩ := a3 hb hn
          obtain ⟨k1, k2, k3⟩ := ih { o with os := os', room := left o.room (lineOf sep t m) } h2 ht
          simp only [frun, e, Bool.false_eq_true, if_false]
          refine ⟨k1, ?_, k3⟩
          rw [k2, h1]
          dsimp only
          rw [hb]
          cases hr : o.room with
          | none => simp [added, left]
          | some n =>
            have := hn n hr
            simp [added, left, List.take_of_length_le this, Nat.not_lt.2 this]
        · obtain ⟨n, hr, hlt⟩ : ∃ n, o.room = some n ∧ n < (lineOf sep t m).length := by
            apply Classical.byContradiction
            intro hno
            exact hn fun n hr => Nat.le_of_not_lt fun x => hno ⟨n, hr, x⟩
          obtain ⟨os', e, h1, h2⟩ := a4 hb n hr hlt
          obtain ⟨k1, k2, k3⟩ := ih { o with os := os', room := some 0, bad := true } (h2 ht) ht
          simp only [frun, e]
          rw [if_neg (by simp [ht])]
          refine ⟨k1, ?_, k3⟩
          rw [k2, h1]
          have h0 : n - (lineOf sep t m).length = 0 := by omega
          simp [added, hr, h0, hlt]

/-- C149 (exact): a stream that throws ends the program iff a message is logged while it is bad or does not fit. -/
theorem C149_throwing_partial (sep : Char) (es : List FEv) (hs : ∀ e ∈ es, e.Small) :
    ∀ (o : FOS), o.os.Plain → o.throws = true → (frun sep o es).2 = fails sep o.room o.bad es := by
  induction es with
  | nil => intro o _ _; rfl
  | cons e es ih =>
    intro o ho ht
    have ih := ih (fun x hx => hs x (List.mem_cons_of_mem _ hx))
    cases e with
    | device r => exact ih { o with room := r } ho ht
    | repair => exact ih { o with bad := false } ho ht
    | msg t m =>
      obtain ⟨-, a2, a3, a4⟩ := message_spec sep o ho t (hs _ (List.mem_cons_self ..)) m
      cases hb : o.bad with
      | true => simp [frun, a2 hb ht, fails]
      | false =>
        by_cases hn : ∀ n, o.room = some n → (lineOf sep t m).length ≤ n
        · obtain ⟨os', e, h1, h2⟩ := a3 hb hn
          have k := ih { o with os := os', room := left o.room (lineOf sep t m) } h2 ht
          simp only [frun, e, Bool.false_eq_true, if_false]
          rw [k]
          dsimp only
          rw [hb]
          cases hr : o.room with
          | none => simp [fails, left]
          | some n => simp [fails, left, Nat.not_lt.2 (hn n hr)]
        · obtain ⟨n, hr, hlt⟩ : ∃ n, o.room = some n ∧ n < (lineOf sep t m).length := by
            apply Classical.byContradiction
            intro hno
            exact hn fun n hr => Nat.le_of_not_lt fun x => hno ⟨n, hr, x⟩
          obtain ⟨os', e, h1, h2⟩ := a4 hb n hr hlt
          simp [frun, e, ht, fails, hr, hlt]

theorem added_append (sep : Char) (es : List FEv) : ∀ room bad, ∃ room' bad', ∀ es', added sep room bad (es ++ es') = added sep room bad es ++ added sep room' bad' es' := by
  induction es with
  | nil => intro room bad; exact ⟨room, bad, fun _ => rfl⟩
  | cons e es ih =>
    intro room bad
    cases e with
    | device r => exact ih r bad
    | repair => exact ih room false
    | msg t m =>
      cases bad with
      | true =>
        obtain ⟨r', b', h⟩ := ih room true
        exact ⟨r', b', fun x => by simpa [added] using h x⟩
      | false =>
        cases room with
        | none =>
          obtain ⟨r', b', h⟩ := ih none false
          exact ⟨r', b', fun x => by simp [added, h x]⟩
        | some n =>
          obtain ⟨r', b', h⟩ := ih (some (n - (lineOf sep t m).length)) (decide (n < (lineOf sep t m).length))
          exact ⟨r', b', fun x => by simp [added, h x]⟩

/-- The lines of messages. -/
def linesOf (sep : Char) : List (Tm × Msg) → Str
  | []           => []
  | (t, m) :: ms => lineOf sep t m ++ linesOf sep ms

/-- C149 (what holds): once the device has room again and clear() has been called, every message from then on is
written completely, whatever happened before. -/
theorem C149_after_repair_partial (sep : Char) (o : FOS) (ho : o.os.Plain) (ht : o.throws = false) (es : List FEv) (ms : List (Tm × Msg))
    (hs : ∀ e ∈ es, e.Small) (hm : ∀ p ∈ ms, p.1.Small) :
    (frun sep o (es ++ [.device none, .repair] ++ ms.map fun p => .msg p.1 p.2)).1.os.text =
      (frun sep o es).1.os.text ++ linesOf sep ms := by
  have h1 := (C149_file_partial sep es hs o ho ht).2.1
  have h2 := (C149_file_partial sep (es ++ [.device none, .repair] ++ ms.map fun p => .msg p.1 p.2) (by
    intro e he
    simp only [List.mem_append, List.mem_cons, List.not_mem_nil, or_false, List.mem_map] at he
    rcases he with (he | rfl | rfl) | ⟨p, hp, rfl⟩
    · exact hs e he
    · trivial
    · trivial
    · exact hm p hp) o ho ht).2.1
  rw [h2, h1, List.append_assoc, List.append_assoc]
  obtain ⟨r', b', h⟩ := added_append sep es o.room o.bad
  rw [h]
  congr 2
  show added sep none false (ms.map fun p => .msg p.1 p.2) = _
  clear h2 hm
  induction ms with
  | nil => rfl
  | cons p ms ih =>
    show lineOf sep p.1 p.2 ++ added sep none false _ = _
    rw [ih]
    rfl

/-- Non-vacuity: a message, a cut one, a lost one, one after the repair. -/
example : String.ofList (frun '/' { room := some 70 } [.msg tm1 msg1, .msg tm1 msg2, .msg tm1 msg1, .device none, .repair, .msg tm1 msg2]).1.os.text =
    "2019-03-02 09:05:00 [INFO] (Net) b.c:12 hi :\n2019-03-02 09:05:00 [INFO2019-03-02 09:05:00 [INFO] (Net) b.c:12 ok\n" := by
  decide +kernel
example : fails '/' (some 70) false [.msg tm1 msg1, .device (some 50), .msg tm1 msg2] = false ∧ fails '/' (some 70) false [.msg tm1 msg1, .msg tm1 msg2] = true := by
  decide +kernel
example : tm1.Small ∧ ({} : OS).Plain := ⟨by unfold Tm.Small; decide, rfl, rfl, rfl⟩

end Falcon.LogStream
