import Verif.Proofs.UnitTest2
/- Command lines. -/
namespace Falcon.Fut

theorem takeWhile_stop {α : Type} (p : α → Bool) (a b : List α) (h : ∀ x ∈ a, p x = true) (hb : ∀ x, b.head? = some x → p x = false) : (a ++ b).takeWhile p = a := by
  induction a with
  | nil =>
    cases b with
    | nil => rfl
    | cons x xs => simp [hb x rfl]
  | cons c cs ih =>
    have := ih (fun x hx => h x (by simp [hx]))
    simp [h c (by simp), this]

theorem digit_not_blank {c : Char} (h : c.isDigit = true) : isBlank c = false ∧ c ≠ '-' ∧ c ≠ '+' := by
  have hd := Char.isDigit_iff_toNat.1 h
  have h0 : '0'.toNat = 48 := rfl
  have h9 : '9'.toNat = 57 := rfl
  rw [h0, h9] at hd
  have key : ∀ x : Char, (x.toNat < 48 ∨ 57 < x.toNat) → c ≠ x := by
    intro x hx e; subst e; omega
  refine ⟨?_, key '-' (by decide), key '+' (by decide)⟩
  unfold isBlank
  simp [key ' ' (by decide), key '\t' (by decide), key '\n' (by decide), key '\x0b' (by decide), key '\x0c' (by decide), key '\r' (by decide)]

theorem dropWhile_blank (bl r : Str) (h : ∀ c ∈ bl, isBlank c = true) (hr : ∀ c, r.head? = some c → isBlank c = false) : (bl ++ r).dropWhile isBlank = r := by
  induction bl with
  | nil =>
    cases r with
    | nil => rfl
    | cons c cs => simp [hr c rfl]
  | cons c cs ih => simp [h c (by simp), ih (fun x hx => h x (by simp [hx]))]

theorem takeWhile_digits (ds r : Str) (h : ∀ c ∈ ds, c.isDigit = true) (hr : ∀ c, r.head? = some c → c.isDigit = false) : (ds ++ r).takeWhile Char.isDigit = ds :=
  takeWhile_stop _ _ _ h hr


theorem white_iff (c : Char) : White c ↔ isBlank c = true := by
  simp [White, isBlank, or_assoc]

theorem not_white {c : Char} (h : ¬ White c) : isBlank c = false := by
  rw [white_iff] at h; simpa using h

/-- What the model reads is what the specification stores. -/
theorem readLevel_iff (a : Str) (l : Int) : readLevel a = some l ↔ Stores a l := by
  constructor
  · intro h
    have hb : ∀ c ∈ a.takeWhile isBlank, White c := fun c hc => (white_iff c).2 (of_mem_takeWhile _ _ hc)
    have ha : a = a.takeWhile isBlank ++ a.dropWhile isBlank := (List.takeWhile_append_dropWhile).symm
    have hd : ∀ r : Str, ∀ c ∈ r.takeWhile Char.isDigit, c.isDigit = true := fun r c hc => of_mem_takeWhile _ _ hc
    have hr : ∀ r : Str, ∀ c, (r.dropWhile Char.isDigit).head? = some c → c.isDigit = false := fun r c hc => by
      have := List.head?_dropWhile_not Char.isDigit r
      rw [hc] at this; simpa using this
    have hsplit : ∀ r : Str, r = r.takeWhile Char.isDigit ++ r.dropWhile Char.isDigit := fun r => (List.takeWhile_append_dropWhile).symm
    have hn : ∀ c, (a.dropWhile isBlank).head? = some c → isBlank c = false := fun c hc => by
      have := List.head?_dropWhile_not isBlank a
      rw [hc] at this; simpa using this
    unfold readLevel at h
    split at h
    · cases h
    · rename_i r e
      cases h
      refine ⟨_, ['-'], r.takeWhile Char.isDigit, r.dropWhile Char.isDigit, ?_, hb, .inr (.inr rfl), hd r, hr r, (fun h => by cases h), ?_⟩
      · rw [List.append_assoc, List.append_assoc, ← hsplit, List.singleton_append, ← e]; exact ha
      · rw [if_pos rfl]; omega
    · rename_i r e
      cases h
      refine ⟨_, ['+'], r.takeWhile Char.isDigit, r.dropWhile Char.isDigit, ?_, hb, .inr (.inl rfl), hd r, hr r, (fun h => by cases h), ?_⟩
      · rw [List.append_assoc, List.append_assoc, ← hsplit, List.singleton_append, ← e]; exact ha
      · rw [if_neg (by decide)]; omega
    · rename_i r e1 e2 e3
      cases h
      refine ⟨_, [], (a.dropWhile isBlank).takeWhile Char.isDigit, (a.dropWhile isBlank).dropWhile Char.isDigit, ?_, hb, .inl rfl, hd _, hr _, ?_, ?_⟩
      · rw [List.append_nil, List.append_assoc, ← hsplit]; exact ha
      · intro _ hds
        have hs := hsplit (a.dropWhile isBlank)
        rw [hds, List.nil_append] at hs
        rw [← hs]
        cases hx : a.dropWhile isBlank with
        | nil => exact absurd hx e1
        | cons c cs =>
          rw [hx] at hn
          refine ⟨c, rfl, fun hw => ?_, ?_, ?_⟩
          · have := hn c rfl; rw [(white_iff c).1 hw] at this; cases this
          · rintro rfl; exact e3 _ hx
          · rintro rfl; exact e2 _ hx
      · rw [if_neg (by decide)]; omega
  · rintro ⟨bl, sign, ds, rest, rfl, hbl, hs, hds, hr, hne, rfl⟩
    have hbl' : ∀ c ∈ bl, isBlank c = true := fun c hc => (white_iff c).1 (hbl c hc)
    rw [List.append_assoc, List.append_assoc]
    unfold readLevel
    rcases hs with rfl | rfl | rfl
    · have hh : ∀ c, (ds ++ rest).head? = some c → isBlank c = false ∧ c ≠ '-' ∧ c ≠ '+' := by
        intro c hc
        cases ds with
        | nil =>
          obtain ⟨c', h1, h2, h3, h4⟩ := hne rfl rfl
          rw [List.nil_append, h1] at hc; cases hc
          exact ⟨not_white h2, h4, h3⟩
        | cons d ds => simp at hc; subst hc; exact digit_not_blank (hds d (by simp))
      rw [List.nil_append, dropWhile_blank _ _ hbl' (fun c hc => (hh c hc).1)]
      have hne' : ds ++ rest ≠ [] := by
        intro e
        have h1 : ds = [] := (List.append_eq_nil_iff.1 e).1
        have h2 : rest = [] := (List.append_eq_nil_iff.1 e).2
        obtain ⟨c, h3, _⟩ := hne rfl h1
        rw [h2] at h3; cases h3
      split
      · rename_i e; exact absurd e hne'
      · rename_i e; exact absurd rfl (hh '-' (by rw [e]; rfl)).2.1
      · rename_i e; exact absurd rfl (hh '+' (by rw [e]; rfl)).2.2
      · rw [takeWhile_digits _ _ hds hr, if_neg (by decide)]; congr 1; omega
    · rw [List.singleton_append, dropWhile_blank _ _ hbl' (by intro c hc; simp at hc; subst hc; rfl)]
      show some (min 2147483647 (Nat.ofDigitChars 10 ((ds ++ rest).takeWhile Char.isDigit) 0 : Int)) = _
      rw [takeWhile_digits _ _ hds hr, if_neg (by decide)]; congr 1; omega
    · rw [List.singleton_append, dropWhile_blank _ _ hbl' (by intro c hc; simp at hc; subst hc; rfl)]
      show some (max (-2147483648) (-(Nat.ofDigitChars 10 ((ds ++ rest).takeWhile Char.isDigit) 0 : Int))) = _
      rw [takeWhile_digits _ _ hds hr, if_pos rfl]; congr 1; omega

theorem configured_nil (u : UT) : configured u [] = u := by
  cases u; simp [configured, lastSome]

theorem lastSome_cons {α : Type} (f : Opt → Option α) (o : Opt) (os : List Opt) (d : α) : lastSome f (o :: os) d = lastSome f os ((f o).getD d) := by
  unfold lastSome
  cases h : f o with
  | none => rw [List.filterMap_cons, h]; simp
  | some s =>
    rw [List.filterMap_cons, h]
    simp only [List.getLast?_cons]
    cases hh : (os.filterMap f).getLast? <;> rfl

theorem lastSome_one {α : Type} (f : Opt → Option α) (o : Opt) (d : α) : lastSome f [o] d = (f o).getD d := by
  rw [lastSome_cons]; rfl

theorem findByName_configured (u : UT) (os : List Opt) : findByName (configured u os) = findByName u := rfl

theorem configured_cons (u : UT) (o : Opt) (os : List Opt) : configured (configured u [o]) os = configured u (o :: os) := by
  have h : findByName (configured u [o]) = findByName u := rfl
  unfold configured at h ⊢
  rw [h]
  simp only [lastSome_cons]
  congr 1
  · have : (findByName { u with verbosity := lastSome Opt.setsVerbosity [o] u.verbosity }) = findByName u := rfl
    cases hs : o.selects (findByName u) <;> simp [hs]
  · cases o <;> simp [Bool.and_assoc]
  · cases o <;> simp [Bool.or_assoc]

/-- One option. -/
theorem parse_opt (u : UT) (w : World) (o : Opt) (rest : List Str) (hv : o.valid (findByName u)) :
    parseParams u w (o.words ++ rest) = parseParams (configured u [o]) w rest := by
  cases o with
  | quiet =>
    show parseParams u w ("-q".toList :: rest) = _
    rw [parseParams.eq_def]; dsimp only; rw [if_pos rfl]; congr 1
    cases u; simp [configured, lastSome, Opt.setsVerbosity, Opt.setsXml, Opt.setsName, Opt.setsId, Opt.selects]
  | noCapture =>
    show parseParams u w ("-c".toList :: rest) = _
    rw [parseParams.eq_def]; dsimp only; rw [if_neg (by decide), if_pos rfl]; congr 1
    cases u; simp [configured, lastSome, Opt.setsVerbosity, Opt.setsXml, Opt.setsName, Opt.setsId, Opt.selects]
  | errFail =>
    show parseParams u w ("-e".toList :: rest) = _
    rw [parseParams.eq_def]; dsimp only; rw [if_neg (by decide), if_neg (by decide), if_pos rfl]; congr 1
    cases u; simp [configured, lastSome, Opt.setsVerbosity, Opt.setsXml, Opt.setsName, Opt.setsId, Opt.selects]
  | level a l =>
    obtain ⟨hl, h5⟩ := hv
    have hl := (readLevel_iff a l).2 hl
    show parseParams u w ("-v".toList :: a :: rest) = _
    rw [parseParams.eq_def]; dsimp only; rw [if_neg (by decide), if_neg (by decide), if_neg (by decide), if_neg (by decide)]
    rw [if_pos rfl, hl]
    dsimp only
    rw [if_pos ⟨Int.natCast_nonneg l, by omega⟩]; congr 1
    cases u; simp [configured, lastSome, Opt.setsVerbosity, Opt.setsXml, Opt.setsName, Opt.setsId, Opt.selects]
  | test n =>
    show parseParams u w ("-t".toList :: n :: rest) = _
    rw [parseParams.eq_def]; dsimp only; rw [if_neg (by decide), if_neg (by decide), if_neg (by decide), if_neg (by decide)]
    rw [if_neg (by decide), if_pos rfl]
    cases hf : findByName u n with
    | none => simp [Opt.valid, hf] at hv
    | some t =>
      dsimp only; congr 1
      simp [configured, lastSome, Opt.setsVerbosity, Opt.setsXml, Opt.setsName, Opt.setsId, Opt.selects, hf]
  | xml f =>
    show parseParams u w ("-x".toList :: f :: rest) = _
    rw [parseParams.eq_def]; dsimp only; rw [if_neg (by decide), if_neg (by decide), if_neg (by decide), if_neg (by decide)]
    rw [if_neg (by decide), if_neg (by decide), if_pos rfl]; congr 1
    cases u; simp [configured, lastSome, Opt.setsVerbosity, Opt.setsXml, Opt.setsName, Opt.setsId, Opt.selects]
  | name f =>
    show parseParams u w ("-n".toList :: f :: rest) = _
    rw [parseParams.eq_def]; dsimp only; rw [if_neg (by decide), if_neg (by decide), if_neg (by decide), if_neg (by decide)]
    rw [if_neg (by decide), if_neg (by decide), if_neg (by decide), if_pos rfl]; congr 1
    cases u; simp [configured, lastSome, Opt.setsVerbosity, Opt.setsXml, Opt.setsName, Opt.setsId, Opt.selects]
  | ident f =>
    show parseParams u w ("-i".toList :: f :: rest) = _
    rw [parseParams.eq_def]; dsimp only; rw [if_neg (by decide), if_neg (by decide), if_neg (by decide), if_neg (by decide)]
    rw [if_neg (by decide), if_neg (by decide), if_neg (by decide), if_neg (by decide), if_pos rfl]; congr 1
    cases u; simp [configured, lastSome, Opt.setsVerbosity, Opt.setsXml, Opt.setsName, Opt.setsId, Opt.selects]

theorem valid_configured (u : UT) (o : Opt) (os : List Opt) : o.valid (findByName (configured u os)) ↔ o.valid (findByName u) := Iff.rfl

theorem parse_valid (u : UT) (w : World) (os : List Opt) (hv : ∀ o ∈ os, o.valid (findByName u)) :
    parseParams u w (os.flatMap Opt.words) = .ok (configured u os, w, 0) := by
  induction os generalizing u with
  | nil => rw [configured_nil]; rfl
  | cons o os ih =>
    rw [List.flatMap_cons, parse_opt u w o _ (hv o (by simp)), ih _ (fun x hx => (valid_configured u x [o]).2 (hv x (by simp [hx]))), configured_cons]

/-- What can come out of parsing. -/
inductive ParseOut (u : UT) (w : World) (args : List Str) : Res (UT × World × Int) → Prop
  | good (os : List Opt) : args = os.flatMap Opt.words → (∀ o ∈ os, o.valid (findByName u)) → ParseOut u w args (.ok (configured u os, w, 0))
  | bad (u' : UT) (w' : World) : w'.tr = w.tr → w'.tc = w.tc → ParseOut u w args (.ok (u', w', 1))
  | undef : ParseOut u w args (.error (.ub .uninitRead))

theorem ParseOut.prepend {u : UT} {w : World} {o : Opt} {rest : List Str} {r : Res (UT × World × Int)} (hv : o.valid (findByName u))
    (h : ParseOut (configured u [o]) w rest r) : ParseOut u w (o.words ++ rest) r := by
  cases h with
  | good os h1 h2 =>
    rw [configured_cons]
    exact .good (o :: os) (by rw [h1]; rfl) (fun x hx => by
      simp at hx; rcases hx with rfl | hx
      · exact hv
      · exact (valid_configured u x [o]).1 (h2 x hx))
  | bad u' w' h1 h2 => exact .bad u' w' h1 h2
  | undef => exact .undef

theorem parse_out (u : UT) (w : World) (args : List Str) : ParseOut u w args (parseParams u w args) := by
  have hinv : ∀ u' args', ParseOut u w args' (invalid u' w) := fun u' args' => .bad _ _ rfl rfl
  have hnil : ∀ u : UT, ParseOut u w [] (parseParams u w []) := by
    intro u
    have h := ParseOut.good (u := u) (w := w) (args := []) [] rfl (by simp)
    rw [configured_nil] at h
    exact h
  have key : ∀ n (u : UT) (args : List Str), args.length ≤ n → ParseOut u w args (parseParams u w args) := by
    intro n
    induction n with
    | zero =>
      intro u args h
      cases args with
      | nil => exact hnil u
      | cons => simp at h
    | succ n ih =>
      intro u args h
      cases args with
      | nil => exact hnil u
      | cons opt rest =>
        simp at h
        by_cases e1 : opt = "-q".toList
        · subst e1
          have hv : Opt.valid (findByName u) .quiet := trivial
          have := parse_opt u w .quiet rest hv
          rw [show "-q".toList :: rest = Opt.words .quiet ++ rest from rfl, this]
          exact .prepend hv (ih _ _ h)
        by_cases e2 : opt = "-c".toList
        · subst e2
          have hv : Opt.valid (findByName u) .noCapture := trivial
          have := parse_opt u w .noCapture rest hv
          rw [show "-c".toList :: rest = Opt.words .noCapture ++ rest from rfl, this]
          exact .prepend hv (ih _ _ h)
        by_cases e3 : opt = "-e".toList
        · subst e3
          have hv : Opt.valid (findByName u) .errFail := trivial
          have := parse_opt u w .errFail rest hv
          rw [show "-e".toList :: rest = Opt.words .errFail ++ rest from rfl, this]
          exact .prepend hv (ih _ _ h)
        by_cases e4 : opt = "-h".toList
        · rw [parseParams.eq_def]; dsimp only; rw [if_neg e1, if_neg e2, if_neg e3, if_pos e4]
          exact .bad _ _ rfl rfl
        cases rest with
        | nil =>
          rw [parseParams.eq_def]; dsimp only; rw [if_neg e1, if_neg e2, if_neg e3, if_neg e4]
          exact .bad _ _ rfl rfl
        | cons a rest =>
          simp at h
          by_cases e5 : opt = "-v".toList
          · cases hl : readLevel a with
            | none =>
              rw [parseParams.eq_def]; dsimp only; rw [if_neg e1, if_neg e2, if_neg e3, if_neg e4]
              rw [if_pos e5, hl]; exact .undef
            | some l =>
              by_cases hr : 0 ≤ l ∧ l ≤ 5
              · subst e5
                have hn : ((l.toNat : Nat) : Int) = l := Int.toNat_of_nonneg hr.1
                have hv : Opt.valid (findByName u) (.level a l.toNat) := ⟨by rw [hn]; exact (readLevel_iff a l).1 hl, by omega⟩
                have := parse_opt u w (.level a l.toNat) rest hv
                rw [show "-v".toList :: a :: rest = Opt.words (.level a l.toNat) ++ rest from rfl, this]
                exact .prepend hv (ih _ _ (by omega))
              · rw [parseParams.eq_def]; dsimp only; rw [if_neg e1, if_neg e2, if_neg e3, if_neg e4]
                rw [if_pos e5, hl]; dsimp only; rw [if_neg hr]; exact .bad _ _ rfl rfl
          by_cases e6 : opt = "-t".toList
          · cases hf : findByName u a with
            | none =>
              rw [parseParams.eq_def]; dsimp only; rw [if_neg e1, if_neg e2, if_neg e3, if_neg e4]
              rw [if_neg e5, if_pos e6, hf]; exact .bad _ _ rfl rfl
            | some t =>
              subst e6
              have hv : Opt.valid (findByName u) (.test a) := by simp [Opt.valid, hf]
              have := parse_opt u w (.test a) rest hv
              rw [show "-t".toList :: a :: rest = Opt.words (.test a) ++ rest from rfl, this]
              exact .prepend hv (ih _ _ (by omega))
          by_cases e7 : opt = "-x".toList
          · subst e7
            have hv : Opt.valid (findByName u) (.xml a) := trivial
            have := parse_opt u w (.xml a) rest hv
            rw [show "-x".toList :: a :: rest = Opt.words (.xml a) ++ rest from rfl, this]
            exact .prepend hv (ih _ _ (by omega))
          by_cases e8 : opt = "-n".toList
          · subst e8
            have hv : Opt.valid (findByName u) (.name a) := trivial
            have := parse_opt u w (.name a) rest hv
            rw [show "-n".toList :: a :: rest = Opt.words (.name a) ++ rest from rfl, this]
            exact .prepend hv (ih _ _ (by omega))
          by_cases e9 : opt = "-i".toList
          · subst e9
            have hv : Opt.valid (findByName u) (.ident a) := trivial
            have := parse_opt u w (.ident a) rest hv
            rw [show "-i".toList :: a :: rest = Opt.words (.ident a) ++ rest from rfl, this]
            exact .prepend hv (ih _ _ (by omega))
          · rw [parseParams.eq_def]; dsimp only; rw [if_neg e1, if_neg e2, if_neg e3, if_neg e4]
            rw [if_neg e5, if_neg e6, if_neg e7, if_neg e8, if_neg e9]
            exact .bad _ _ rfl rfl
  exact key args.length u args (Nat.le_refl _)

end Falcon.Fut
