import Verif.Proofs.LogStream2
/- C66-C70, C105, C106: the stream listener. -/
namespace Falcon.LogStream
open Falcon.Log (Str Msg levelToString)

/-! ### C66 -/

theorem fileShown_base (sep : Char) (path : Str) : IsBaseName sep path (fileShown sep path) := by
  unfold fileShown
  cases h : rfind sep path with
  | none => exact ⟨rfind_none.1 h, .inl rfl⟩
  | some p =>
    obtain ⟨h1, h2⟩ := rfind_some h
    exact ⟨h2, .inr ⟨path.take p, by simpa using h1⟩⟩

/-- A suffix without separator is not longer than the base name. -/
theorem base_longest {sep : Char} {path b : Str} (hb : IsBaseName sep path b) (pre suf : Str) (h : path = pre ++ suf) (hs : sep ∉ suf) :
    suf.length ≤ b.length := by
  rcases hb with ⟨-, e | ⟨dir, e⟩⟩
  · rw [e, h]; simp
  · apply Nat.le_of_not_lt
    intro hlt
    apply hs
    -- the separator before the base name lies inside suf
    have e2 : pre ++ suf = dir ++ ([sep] ++ b) := by rw [← h, ← List.append_assoc]; exact e
    have hsuf : suf = (pre ++ suf).drop pre.length := by simp
    have hl : pre.length ≤ dir.length := by
      have := congrArg List.length e2; simp at this; omega
    rw [hsuf, e2, List.drop_append_of_le_length hl]
    simp

/-- The base name is unique. -/
theorem base_unique {sep : Char} {path b b' : Str} (h : IsBaseName sep path b) (h' : IsBaseName sep path b') : b = b' := by
  have suf : ∀ {b}, IsBaseName sep path b → ∃ pre, path = pre ++ b := by
    rintro b ⟨-, e | ⟨dir, e⟩⟩
    · exact ⟨[], by simp [e]⟩
    · exact ⟨_, e⟩
  obtain ⟨p, e⟩ := suf h
  obtain ⟨p', e'⟩ := suf h'
  have hl : b.length = b'.length := Nat.le_antisymm (base_longest h' p b e h.1) (base_longest h p' b' e' h'.1)
  exact (List.append_inj' (e.symm.trans e') hl).2

theorem levelToString_name (l : Int) : levelToString l = levelName l := by
  unfold levelToString levelName
  repeat' split
  all_goals first | rfl | omega

/-- C66: every message written on a plain stream appends a line from which a reader recovers the
level, the category, the base name, the line number and the text, if the category has no ')' and the
base name no ':' and no leading '('. -/
theorem C66_decodable (sep : Char) (o : OS) (t : Tm) (m : Msg) (b : Str) (hb : IsBaseName sep m.file b) (ho : o.Plain) (ht : t.Valid) (hcat : ')' ∉ m.cat)
    (hcolon : ':' ∉ b) (hpar : ∀ r, b ≠ '(' :: r) :
    ∃ ln, (onMessage sep o t m).text = o.text ++ ln ∧
      readLine ln = some { date := ln.take 20, level := levelName m.level, cat := m.cat, file := b, line := m.line, text := m.text } := by
  obtain rfl := base_unique hb (fileShown_base sep m.file)
  refine ⟨lineText sep t m, by rw [onMessage_eq ho ht.small], ?_⟩
  rw [readLine_eq sep t m ht hcat hcolon hpar, levelToString_name]
  have : (lineText sep t m).take 20 = dateText t := by
    rw [lineText, ← dateText_length ht]; simp
  rw [this]

/-- C66: so two such messages that produce the same text agree in everything shown (and in the
level, for the six levels). -/
theorem C66_unique (sep : Char) (t t' : Tm) (m m' : Msg) (b b' : Str) (hb : IsBaseName sep m.file b) (hb' : IsBaseName sep m'.file b')
    (ht : t.Valid) (ht' : t'.Valid)
    (hc : ')' ∉ m.cat) (hc' : ')' ∉ m'.cat) (hf : ':' ∉ b) (hf' : ':' ∉ b')
    (hp : ∀ r, b ≠ '(' :: r) (hp' : ∀ r, b' ≠ '(' :: r)
    (hl : 0 ≤ m.level ∧ m.level ≤ 5) (hl' : 0 ≤ m'.level ∧ m'.level ≤ 5)
    (he : (onMessage sep {} t m).text = (onMessage sep {} t' m').text) :
    m.level = m'.level ∧ m.cat = m'.cat ∧ b = b' ∧ m.line = m'.line ∧ m.text = m'.text := by
  obtain rfl := base_unique hb (fileShown_base sep m.file)
  obtain rfl := base_unique hb' (fileShown_base sep m'.file)
  have p : OS.Plain {} := ⟨rfl, rfl, rfl⟩
  rw [onMessage_eq p ht.small, onMessage_eq p ht'.small] at he
  have h1 := readLine_eq sep t m ht hc hf hp
  have h2 := readLine_eq sep t' m' ht' hc' hf' hp'
  have he : lineText sep t m = lineText sep t' m' := by simpa using he
  rw [he, h2] at h1
  simp only [Option.some.injEq, Rec.mk.injEq] at h1
  obtain ⟨-, hlv, a, b, c, d⟩ := h1
  refine ⟨?_, a.symm, b.symm, c.symm, d.symm⟩
  have dis : ∀ a b : Fin 6, levelToString (a.1 : Int) = levelToString (b.1 : Int) → a = b := by decide
  have := dis ⟨m'.level.toNat, by omega⟩ ⟨m.level.toNat, by omega⟩ (by
    rw [show ((m'.level.toNat : Nat) : Int) = m'.level by omega, show ((m.level.toNat : Nat) : Int) = m.level by omega]; exact hlv)
  have := congrArg Fin.val this
  simp only at this; omega

def tm1 : Tm := { year := 2019, mon := 3, day := 2, hour := 9, min := 5, sec := 0 }
def msg1 : Msg := { file := ['/', 'a', '/', 'b', '.', 'c'], line := 12, level := 3, cat := ['N', 'e', 't'], text := ['h', 'i', ' ', ':'] }

/-- Non-vacuity: the hypotheses hold of an ordinary message, and this is its line. -/
example : tm1.Valid ∧ ')' ∉ msg1.cat ∧ ':' ∉ fileShown '/' msg1.file ∧ fileShown '/' msg1.file = ['b', '.', 'c'] ∧
    String.ofList (onMessage '/' {} tm1 msg1).text = "2019-03-02 09:05:00 [INFO] (Net) b.c:12 hi :\n" := by
  refine ⟨?_, ?_, ?_, ?_, ?_⟩
  · simp [Tm.Valid, tm1]
  all_goals decide

/-- The side conditions cannot be dropped: two different messages with the same line. -/
example : (onMessage '/' {} tm1 { msg1 with cat := [')'] , file := ['f'], line := 1, text := [] }).text =
    (onMessage '/' {} tm1 { msg1 with cat := [], file := "()) f".toList, line := 1, text := [] }).text := by decide

/-! ### C67 -/

/-- C67: where the line shows the file, between the category and the line number, it shows the part of the
path after its last separator. -/
theorem C67_base_name (sep : Char) (o : OS) (t : Tm) (m : Msg) (ho : o.Plain) (ht : t.Valid) :
    ∃ date b num, IsBaseName sep m.file b ∧ date.length = 20 ∧ readInt num = m.line ∧
      (onMessage sep o t m).text = o.text ++ date ++ "[".toList ++ levelName m.level ++ "] ".toList ++
        (if m.cat = [] then [] else "(".toList ++ m.cat ++ ") ".toList) ++ b ++ ":".toList ++ num ++ " ".toList ++ m.text ++ "\n".toList := by
  refine ⟨dateText t, fileShown sep m.file, dec m.line, fileShown_base _ _, dateText_length ht, readInt_dec _, ?_⟩
  rw [onMessage_eq ho ht.small, ← levelToString_name]
  simp [lineText, bodyText]

/-- C67: the part after the last separator is the longest suffix without separator. -/
theorem C67_longest (sep : Char) (path b : Str) : IsBaseName sep path b ↔
    ((∃ pre, path = pre ++ b) ∧ sep ∉ b ∧ ∀ pre suf, path = pre ++ suf → sep ∉ suf → suf.length ≤ b.length) := by
  constructor
  · intro h
    refine ⟨?_, h.1, base_longest h⟩
    rcases h with ⟨-, e | ⟨dir, e⟩⟩
    · exact ⟨[], by simp [e]⟩
    · exact ⟨_, e⟩
  · rintro ⟨⟨pre, e⟩, hs, hl⟩
    have hb := fileShown_base sep path
    have h1 := base_longest hb pre b e hs
    have h2 : ∃ p, path = p ++ fileShown sep path := by
      rcases hb with ⟨-, e | ⟨dir, e⟩⟩
      · exact ⟨[], by simp [e]⟩
      · exact ⟨_, e⟩
    obtain ⟨p, e'⟩ := h2
    have h3 := hl p _ e' hb.1
    have := (List.append_inj' (e.symm.trans e') (Nat.le_antisymm h1 h3)).2
    rw [this]; exact hb

example : fileShown '/' "src/engine/x.cpp".toList = "x.cpp".toList ∧ fileShown '/' "x.cpp".toList = "x.cpp".toList ∧
    fileShown '\\' "C:\\a\\b".toList = "b".toList ∧ fileShown '/' "dir/".toList = [] := by decide

/-! ### C68 -/

/-- C68: the line begins with a date prefix of exactly 20 characters, and these prefixes sort like
the times. -/
theorem C68_date_prefix (sep : Char) (o o' : OS) (t t' : Tm) (m m' : Msg) (ho : o.Plain) (ho' : o'.Plain) (ht : t.Valid) (ht' : t'.Valid) :
    ∃ d d' r r', (onMessage sep o t m).text = o.text ++ d ++ r ∧ (onMessage sep o' t' m').text = o'.text ++ d' ++ r' ∧
      d.length = 20 ∧ d'.length = 20 ∧ r.take 1 = ['['] ∧ r'.take 1 = ['['] ∧ (d < d' ↔ t.before t') ∧ (d = d' ↔ t = t') := by
  refine ⟨dateText t, dateText t', bodyText sep m, bodyText sep m', ?_, ?_, dateText_length ht, dateText_length ht', ?_, ?_, date_lt ht ht', ?_⟩
  · rw [onMessage_eq ho ht.small]; simp [lineText]
  · rw [onMessage_eq ho' ht'.small]; simp [lineText]
  · simp [bodyText]
  · simp [bodyText]
  · constructor
    · intro h
      have h1 : ¬ t.before t' := fun hb => by
        have := (date_lt ht ht').2 hb; rw [h] at this; exact absurd this (List.lt_irrefl _)
      have h2 : ¬ t'.before t := fun hb => by
        have := (date_lt ht' ht).2 hb; rw [h] at this; exact absurd this (List.lt_irrefl _)
      unfold Tm.before at h1 h2
      have : t.year = t'.year ∧ t.mon = t'.mon ∧ t.day = t'.day ∧ t.hour = t'.hour ∧ t.min = t'.min ∧ t.sec = t'.sec := by
        obtain ⟨y, mo, d, hh, mi, s⟩ := t; obtain ⟨y', mo', d', hh', mi', s'⟩ := t'
        simp only at *; omega
      obtain ⟨a, b, c, d, e, f⟩ := this
      cases t; cases t'; simp_all
    · rintro rfl; rfl

/-- The calendar hypothesis is needed for the year: the year is not padded. -/
example : (dateText { tm1 with year := 999 }).length = 19 := by decide

/-! ### C69 -/

theorem newline_digits (n : Nat) (h : n < 10) : Nat.digitChar n ≠ '\n' := by
  have : ∀ n : Fin 10, Nat.digitChar n ≠ '\n' := by decide
  exact this ⟨n, h⟩

/-- C69: a message without newlines in category, file and text appends exactly one newline, as its
last character. -/
theorem C69_one_line (sep : Char) (o : OS) (t : Tm) (m : Msg) (ho : o.Plain) (ht : t.Small) (hc : '\n' ∉ m.cat) (hf : '\n' ∉ m.file) (hx : '\n' ∉ m.text) :
    ∃ s, (onMessage sep o t m).text = o.text ++ s ++ ['\n'] ∧ '\n' ∉ s := by
  refine ⟨dateText t ++ (['['] ++ levelToString m.level ++ [']', ' '] ++ (if m.cat = [] then [] else ['('] ++ m.cat ++ [')', ' '])
    ++ fileShown sep m.file ++ [':'] ++ dec m.line ++ [' '] ++ m.text), ?_, ?_⟩
  · rw [onMessage_eq ho ht]; simp [lineText, bodyText]
  · have two' : ∀ n, n < 100 → '\n' ∉ two n := by
      intro n hn h
      simp only [two, List.mem_cons, List.not_mem_nil, or_false] at h
      rcases h with h | h
      · exact newline_digits _ (by omega) h.symm
      · exact newline_digits _ (by omega) h.symm
    have hlev : '\n' ∉ levelToString m.level := by
      unfold levelToString; repeat' split
      all_goals decide
    have hfile : '\n' ∉ fileShown sep m.file := by
      rcases (fileShown_base sep m.file).2 with e | ⟨d, e⟩
      · rw [e]; exact hf
      · intro h; exact hf (by rw [e]; exact List.mem_append_right _ h)
    have hcat : '\n' ∉ (if m.cat = [] then [] else ['('] ++ m.cat ++ [')', ' ']) := by
      split
      · simp
      · simp [hc]
    obtain ⟨h1, h2, h3, h4, h5⟩ := ht
    simp only [dateText, List.mem_append, not_or, List.mem_cons, List.not_mem_nil, or_false]
    simp only [newline_not_dec, two' _ h1, two' _ h2, two' _ h3, two' _ h4, two' _ h5, hlev, hcat, hfile, hx, not_false_iff, and_true, true_and]
    decide

/-! ### C105 -/

/-- C105 does not hold: after a message the stream pads with '0': `cout << setw(3) << 7` prints 007. -/
theorem C105_format_state_refuted :
    ((onMessage '/' {} tm1 msg1).acts [.setw 3, .int 7]).text = (onMessage '/' {} tm1 msg1).text ++ ['0', '0', '7'] ∧
    (({} : OS).acts [.setw 3, .int 7]).text = [' ', ' ', '7'] := by decide

/-- C105 does not hold in the other direction either: left-over format flags of the stream change the
date and the line number. -/
theorem C105_hex_stream_refuted :
    String.ofList (onMessage '/' { isHex := true } tm1 msg1).text = "7e3-03-02 09:05:00 [INFO] (Net) b.c:c hi :\n" := by decide

/-- The value a text in base 16 stands for. -/
def hexValue : Str → Nat := List.foldl (fun v c => 16 * v + (if c.toNat < 97 then c.toNat - 48 else c.toNat - 87)) 0

theorem hexValue_digits (n : Nat) : hexValue (Nat.toDigits 16 n) = n ∧ ∀ c ∈ Nat.toDigits 16 n, c ∈ "0123456789abcdef".toList := by
  induction n using Nat.strongRecOn with
  | _ n ih =>
    have hd : ∀ k, k < 16 → (if (Nat.digitChar k).toNat < 97 then (Nat.digitChar k).toNat - 48 else (Nat.digitChar k).toNat - 87) = k ∧
        Nat.digitChar k ∈ "0123456789abcdef".toList := by decide
    rw [Nat.toDigits_eq_if (by omega)]
    split
    · rename_i h
      have := hd n h
      refine ⟨?_, fun c hc => ?_⟩
      · simp only [hexValue, List.foldl_cons, List.foldl_nil]; rw [this.1]; omega
      · rw [List.mem_singleton.1 hc]; exact this.2
    · rename_i h
      have h2 := ih (n / 16) (by omega)
      have := hd (n % 16) (by omega)
      refine ⟨?_, fun c hc => ?_⟩
      · have e := h2.1
        simp only [hexValue] at e ⊢
        rw [List.foldl_append, e]
        simp only [List.foldl_cons, List.foldl_nil]; rw [this.1]; omega
      · rcases List.mem_append.1 hc with hc | hc
        · exact h2.2 c hc
        · rw [List.mem_singleton.1 hc]; exact this.2

/-- C105 (exactly what goes wrong on a hexadecimal stream): an `int` is written as the hexadecimal
digits of its 32 bit pattern, so a negative line number comes out as a huge one. -/
theorem C105_hex_partial (o : OS) (n : Int) (hh : o.isHex = true) (hw : o.width = 0) :
    ∃ ds, (o.act (.int n)).text = o.text ++ ds ∧ (∀ c ∈ ds, c ∈ "0123456789abcdef".toList) ∧ (hexValue ds : Int) = n % 2 ^ 32 := by
  have := hexValue_digits (n % 4294967296).toNat
  refine ⟨_, ?_, this.2, ?_⟩
  · simp [OS.act, OS.put, intText, hh, hw]
  · rw [this.1]; omega

example : (({ isHex := true } : OS).act (.int (-2))).text = "fffffffe".toList := by decide +kernel

/-- C105 (what holds): on a plain stream only the fill character changes, to '0'; base, adjustment and
width are as before. -/
theorem C105_format_state_partial (sep : Char) (o : OS) (t : Tm) (m : Msg) (ho : o.Plain) (ht : t.Small) :
    (onMessage sep o t m).Plain ∧ (onMessage sep o t m).fill = '0' ∧ ∃ ln, (onMessage sep o t m).text = o.text ++ ln := by
  rw [onMessage_eq ho ht]
  exact ⟨ho, rfl, _, rfl⟩

/-! ### C70 -/

theorem CI.start {s : CS} (h : s.Fresh) : CI s.ls.os s (holder s) := by
  obtain ⟨h1, h2, h3, h4, h5, h6, h7, h8, h9⟩ := h
  have : holder s = .idle := by simp [holder, h6]
  rw [this]
  refine ⟨by rw [h1]; simp [CS.calls, h7, target], fun x => ?_⟩
  simp [content, CS.calls, h7, messagesTo, OS.acts]

/-- C70: any number of threads call own, share, writeOn and onMessage in any order and with any
interleaving, never with null: no step is undefined (no `<<` on a destroyed or null stream); and
whenever nobody is inside a call, the stream in use is the one set last and not destroyed. -/
theorem C70_stream_alive (s : CS) (hfresh : s.Fresh) (hn : ∀ i, ∀ c ∈ (s.th i).todo, c.NonNull) (sched : List Nat) :
    ∃ s', crun s sched = .ok s' ∧
      (s'.mtx = none → ∃ p, s'.ls.pout = some p ∧ target (some .dummy) (s'.hist.map Prod.snd) = some p ∧ s'.ls.dead p = false) := by
  obtain ⟨s', e, g⟩ := (GI.init hfresh hn).run sched
  refine ⟨s', e, fun hm => ?_⟩
  have nolock : ∀ i, inLock (s'.th i).pc = false := fun i => by
    cases h : inLock (s'.th i).pc with
    | false => rfl
    | true => rw [(g.lock i).1 h] at hm; cases hm
  obtain ⟨p, hp, hd⟩ := g.alive (fun i n h => by have := nolock i; rw [h] at this; cases this)
    (fun i n h => by have := nolock i; rw [h] at this; cases this)
  refine ⟨p, hp, ?_, hd⟩
  have c := CI.run sched (GI.init hfresh hn) (CI.start hfresh) e
  have hh : holder s' = .idle := by simp [holder, hm]
  rw [hh] at c
  rw [← hp]; exact c.1.symm

/-- A null stream makes the next message undefined. -/
example : crun { ls := { refs := fun _ => [] }, th := fun _ => { todo := [.own false, .msg [.str ['x']]] } } (List.replicate 8 0) =
    .error (.ub .nullDeref) := by rfl

/-- The window inside own(): between the two assignments the stream in use is destroyed - only the lock
keeps others out. -/
example : ((crun { ls := { refs := fun _ => [] }, th := fun _ => { todo := [.own true, .own true] } } (List.replicate 8 0)).toOption.map
    fun s => (s.ls.pout, s.ls.dead (.owned 0), s.mtx)) = some (some (.owned 0), true, some 0) := by decide

/-! ### C106 -/

theorem acts_msgs {sep : Char} (x : OS) (hx : x.Plain) : ∀ (ms : List (Tm × Msg)), (∀ p ∈ ms, p.1.Small) →
    (x.acts ((ms.map fun p => msgActs sep p.1 p.2).flatten)).text = x.text ++ (ms.map fun p => lineText sep p.1 p.2).flatten := by
  intro ms
  induction ms generalizing x with
  | nil => intro _; simp [OS.acts]
  | cons p ps ih =>
    intro hs
    simp only [List.map_cons, List.flatten_cons, acts_append]
    have e := onMessage_eq (sep := sep) hx (hs p List.mem_cons_self) p.2
    have hp : (onMessage sep x p.1 p.2).Plain := by rw [e]; exact hx
    have := ih (onMessage sep x p.1 p.2) hp (fun q hq => hs q (List.mem_cons_of_mem _ hq))
    show ((onMessage sep x p.1 p.2).acts _).text = _
    rw [this, e]; simp

/-- C106: lines of different threads are never mixed, none is lost, duplicated or split, even while
other threads replace the stream: whenever nobody is inside a call, every stream holds what it held
before plus a sequence of complete lines, one for each message sent while it was the stream in use, in
the order of the calls; and the messages of each thread are, in its program order, those it has been
given and not still waiting to send. -/
theorem C106_whole_lines (sep : Char) (s : CS) (hfresh : s.Fresh) (hn : ∀ i, ∀ c ∈ (s.th i).todo, c.NonNull)
    (hplain : ∀ x, (s.ls.os x).Plain)
    (hmsg : ∀ i as, Call.msg as ∈ (s.th i).todo → ∃ t m, Tm.Small t ∧ as = msgActs sep t m)
    (sched : List Nat) (s' : CS) (hr : crun s sched = .ok s') (hm : s'.mtx = none) :
    (∀ x, ∃ ms : List (Tm × Msg), (∀ p ∈ ms, p.1.Small) ∧
      messagesTo x (some .dummy) (s'.hist.map Prod.snd) = ms.map (fun p => msgActs sep p.1 p.2) ∧
      (s'.ls.os x).text = (s.ls.os x).text ++ (ms.map fun p => (onMessage sep {} p.1 p.2).text).flatten) ∧
    (∀ i, (s'.hist.filter fun p => p.1 = i).filterMap (fun p => p.2.msg?)
        ++ (match (s'.th i).pc with | .wait (.msg as) => [as] | _ => [])
        ++ (s'.th i).todo.filterMap Call.msg? = (s.th i).todo.filterMap Call.msg?) := by
  have g := (GI.init hfresh hn).run sched
  obtain ⟨s1, e1, g1⟩ := g
  rw [hr] at e1; cases e1
  have c := CI.run sched (GI.init hfresh hn) (CI.start hfresh) hr
  have hh : holder s' = .idle := by simp [holder, hm]
  rw [hh] at c
  have hmine : ∀ i, mine s' i = (s.th i).todo.filterMap Call.msg? := by
    intro i; rw [mine_run sched hr i]
    unfold mine
    rw [hfresh.2.2.2.2.2.2.1, hfresh.2.2.2.2.2.2.2.1 i]; simp [msgOfPc]
  constructor
  · intro x
    have hall : ∀ as ∈ messagesTo x (some .dummy) (s'.hist.map Prod.snd), ∃ t m, Tm.Small t ∧ as = msgActs sep t m := by
      have mem : ∀ (t : Option Sid) (cs : List LC) as, as ∈ messagesTo x t cs → LC.msg as ∈ cs := by
        intro t cs
        induction cs generalizing t with
        | nil => intro as h; cases h
        | cons c cs ih =>
          intro as h
          cases c with
          | msg bs =>
            simp only [messagesTo] at h
            split at h
            · rcases List.mem_cons.1 h with rfl | h
              · exact List.mem_cons_self
              · exact List.mem_cons_of_mem _ (ih _ _ h)
            · exact List.mem_cons_of_mem _ (ih _ _ h)
          | _ => exact List.mem_cons_of_mem _ (ih _ _ h)
      intro as has
      obtain ⟨⟨i, c⟩, h1, h2⟩ := List.mem_map.1 (mem _ _ _ has)
      simp only at h2; subst h2
      have := mem_hist h1
      rw [hmine i] at this
      obtain ⟨c, hc1, hc2⟩ := List.mem_filterMap.1 this
      cases c with
      | msg bs => cases hc2; exact hmsg i as hc1
      | _ => cases hc2
    have lift : ∀ l : List (List Act), (∀ as ∈ l, ∃ t m, Tm.Small t ∧ as = msgActs sep t m) →
        ∃ ms : List (Tm × Msg), (∀ p ∈ ms, p.1.Small) ∧ l = ms.map (fun p => msgActs sep p.1 p.2) := by
      intro l
      induction l with
      | nil => intro _; exact ⟨[], by simp, rfl⟩
      | cons a l ih =>
        intro h
        obtain ⟨t, m, ht, rfl⟩ := h a List.mem_cons_self
        obtain ⟨ms, h1, h2⟩ := ih (fun b hb => h b (List.mem_cons_of_mem _ hb))
        refine ⟨(t, m) :: ms, ?_, by simp [h2]⟩
        intro p hp
        rcases List.mem_cons.1 hp with rfl | hp
        · exact ht
        · exact h1 p hp
    obtain ⟨ms, h1, h2⟩ := lift _ hall
    refine ⟨ms, h1, h2, ?_⟩
    have := c.2 x
    rw [this, content, List.append_nil]
    show ((s.ls.os x).acts (messagesTo x (some .dummy) (s'.hist.map Prod.snd)).flatten).text = _
    rw [h2, acts_msgs _ (hplain x) ms h1]
    congr 2
    apply List.map_congr_left
    intro p hp
    rw [onMessage_eq ⟨rfl, rfl, rfl⟩ (h1 p hp)]; simp
  · intro i
    rw [← hmine i]
    unfold mine
    congr 2
    have : inLock (s'.th i).pc = false := by
      cases h : inLock (s'.th i).pc with
      | false => rfl
      | true => rw [(g1.lock i).1 h] at hm; cases hm
    cases hpc : (s'.th i).pc with
    | wait c => cases c <;> rfl
    | idle => rfl
    | ret n => rfl
    | _ => rw [hpc] at this; cases this

/-- Non-vacuity: two threads, a stream replaced while the other thread is about to write. -/
example : ((crun { ls := { refs := fun _ => [none] }, th := fun i => if i = 0 then { todo := [.own true, .msg (msgActs '/' tm1 msg1), .own true] }
      else if i = 1 then { todo := [.share (some 7), .msg (msgActs '/' tm1 { msg1 with line := 99, cat := [] })] } else {} }
    ([0, 0, 1, 0, 1, 0, 0, 1, 1, 1, 1, 1, 0] ++ List.replicate 40 1 ++ List.replicate 50 0)).toOption.map
    fun s => (s.mtx, String.ofList (s.ls.os (.owned 0)).text, String.ofList (s.ls.os (.shared 7)).text, s.ls.dead (.owned 0), s.ls.pout))
    = some (none, "", "2019-03-02 09:05:00 [INFO] b.c:99 hi :\n2019-03-02 09:05:00 [INFO] (Net) b.c:12 hi :\n", true, some (.owned 1)) := by decide

end Falcon.LogStream
