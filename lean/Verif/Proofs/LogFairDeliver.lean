import Verif.Proofs.LogFairStop
import Verif.Props.LogHistory
/-
A listener that wants a message gets it, in endless executions.
-/
namespace Falcon.Log

variable {rx : Rx} {f : Nat → Act} {n : Nat} {t b : Bool}

/-- The listeners that the logging thread still has to ask about the message it is processing. -/
def remaining : LPc → List LId
  | .send _ rem => rem
  | .test _ l _ rem => l :: rem
  | _ => []

theorem remaining_notify (p : LPc) : remaining (notify p) = remaining p := by cases p <;> rfl

theorem Delivered.append {l : LId} {m : Msg} {j : Nat} {es : List Ev} (h : Delivered l m j es) (x : List Ev) : Delivered l m j (es ++ x) := by
  obtain ⟨pre, post, h1, h2⟩ := h
  exact ⟨pre, post ++ x, by simp [h1], h2⟩

/-- One step of the round in which `l` is to be served. -/
theorem round_step {s s' : St} {es : List Ev} {e : Ev} {l : LId} {m : Msg} {j : Nat} {a : Act} (he : Exec rx (init n t b) s es)
    (hs : step rx s a = some (s', e)) (hw : WantsIn rx l es m)
    (hd : (dispatched es).length = j + 1) (hr : l ∈ remaining s.lt) (hc : ∃ c, roundOf s = some c ∧ c.current = [m]) :
    Delivered l m j (es ++ [e]) ∨ ((dispatched (es ++ [e])).length = j + 1 ∧ l ∈ remaining s'.lt) := by
  have hm := exec_mem he
  have ans := C42_answers_history he a s' l
  have hx : ∀ a', lHolds a' s.lt = 1 → serving s.lt = true → s.heap a' = some m := by
    intro a' h1 h2
    obtain ⟨c, h3, h4⟩ := hc
    obtain ⟨m', hh⟩ := hm.lt_alive h1
    unfold roundOf at h3
    cases hl : s.lt with
    | send a'' rem =>
      rw [hl] at h1 h3
      have : a' = a'' := by simp only [lHolds] at h1; split at h1 <;> simp_all
      subst this
      simp only [hh, Option.map_some, Option.some.injEq] at h3; subst h3
      simp only [Round.current, List.cons.injEq, and_true] at h4; rw [hh, h4]
    | test a'' l' st rem =>
      rw [hl] at h1 h3
      have : a' = a'' := by simp only [lHolds] at h1; split at h1 <;> simp_all
      subst this
      cases st <;> simp only [hh, Option.map_some, Option.some.injEq] at h3 <;> subst h3 <;>
        (simp only [Round.current, List.cons.injEq, and_true] at h4; rw [hh, h4])
    | _ => rw [hl] at h2; cases h2
  have sv : serving s.lt = true := by cases hl : s.lt <;> rw [hl] at hr <;> simp_all [remaining, serving]
  have same : dispatched [e] = [] → s'.lt = s.lt ∨ s'.lt = notify s.lt →
      Delivered l m j (es ++ [e]) ∨ ((dispatched (es ++ [e])).length = j + 1 ∧ l ∈ remaining s'.lt) := by
    intro h1 h2
    right
    refine ⟨by rw [dispatched_append, h1]; simpa using hd, ?_⟩
    rcases h2 with h2 | h2
    · rw [h2]; exact hr
    · rw [h2, remaining_notify]; exact hr
  by_cases ha : a = .log
  · subst ha
    have len : dispatched [e] = [] → (dispatched (es ++ [e])).length = j + 1 := by
      intro h1; rw [dispatched_append, h1]; simpa using hd
    have hs0 := hs
    simp only [step] at hs
    cases hl : s.lt with
    | send a' rem =>
      cases rem with
      | nil => rw [hl] at hr; simp [remaining] at hr
      | cons l' rem =>
        simp only [logStep, hl] at hs; cases hs
        right; refine ⟨len rfl, ?_⟩
        rw [hl] at hr; exact hr
    | test a' l' st rem =>
      have hh := hx a' (by simp [hl, lHolds]) sv
      rw [hl] at hr
      simp only [remaining, List.mem_cons] at hr
      by_cases hll : l' = l
      · subst hll
        obtain ⟨w1, w2, w3⟩ := hw
        cases st with
        | enabled =>
          simp only [logStep, hl, hh] at hs; cases hs
          have h1 := ((ans m _).1 hs0).trans w1
          right; refine ⟨len rfl, ?_⟩
          simp [h1, remaining]
        | level =>
          simp only [logStep, hl, hh] at hs; cases hs
          have h1 := ((ans m _).2.1 hs0).2 w2
          have h1 := of_decide_eq_true h1
          right; refine ⟨len rfl, ?_⟩
          simp only [h1, if_true, remaining]; simp
        | category =>
          simp only [logStep, hl, hh] at hs; cases hs
          have h1 := ((ans m _).2.2 hs0).2 w3
          right; refine ⟨len rfl, ?_⟩
          simp [h1, remaining]
        | call =>
          simp only [logStep, hl, hh] at hs; cases hs
          exact Or.inl ⟨es, [], rfl, hd⟩
      · have hr' : l ∈ rem := hr.resolve_left (fun e => hll e.symm)
        cases st with
        | enabled =>
          simp only [logStep, hl, hh] at hs; cases hs
          right; refine ⟨len rfl, ?_⟩
          simp only; split <;> simp [remaining, hr']
        | level =>
          simp only [logStep, hl, hh] at hs; cases hs
          right; refine ⟨len rfl, ?_⟩
          simp only; split <;> simp [remaining, hr']
        | category =>
          simp only [logStep, hl, hh] at hs; cases hs
          right; refine ⟨len rfl, ?_⟩
          simp only; split <;> simp [remaining, hr']
        | call =>
          simp only [logStep, hl, hh] at hs; cases hs
          right; exact ⟨len rfl, hr'⟩
    | _ => rw [hl] at sv; cases sv
  · have h1 := client_aside ha hs
    exact same h1.quiet.1 (rank_aside h1 (by intro e; rw [e] at sv; cases sv) (by intro e; rw [e] at sv; cases sv)).2

/-- What is dispatched next is what was accepted. -/
theorem dispatch_is {s s' : St} {es : List Ev} {m m' : Msg} {ls : List LId} {j : Nat} {a : Act} (he : Exec rx (init n t b) s es)
    (hs : step rx s a = some (s', .dispatch m' ls)) (hd : (dispatched es).length = j) (hj : (accepted es)[j]? = some m) : m' = m := by
  have hs' := step_rel hs
  cases hs' with
  | dispatch a0 m' hl hh =>
    have hfi := (exec_mem he).fifo
    rw [show inflight s = [some m'] by simp [inflight, hl, hh]] at hfi
    have : ((accepted es).map some)[j]? = some (some m) := by simp [hj]
    rw [hfi] at this
    rw [List.append_assoc, List.getElem?_append_right (by simp [hd])] at this
    simp [hd] at this
    exact this

theorem delivers {K k j i : Nat} {l : LId} {m : Msg}
    (hadd : .did i (.addListener l) ∈ evAt rx f n t b K) (hj : (accepted (evAt rx f n t b K)).length ≤ j)
    (hdet : ∀ k, K ≤ k → detachedIn l (evAt rx f n t b k) = false) (hw : ∀ k, K ≤ k → WantsIn rx l (evAt rx f n t b k) m)
    (hacc : ∀ k m', K ≤ k → (accepted (evAt rx f n t b k))[j]? = some m' → m' = m) (hk : K ≤ k) :
    Delivered l m j (evAt rx f n t b k) ∨ (dispatched (evAt rx f n t b k)).length ≤ j ∨
      ((dispatched (evAt rx f n t b k)).length = j + 1 ∧ l ∈ remaining (stAt rx f n t b k).lt ∧
        (dispatched (evAt rx f n t b k))[j]? = some m) := by
  induction hk with
  | refl =>
    right; left
    have hfi := congrArg List.length (exec_mem (atExec (rx := rx) (f := f) (n := n) (t := t) (b := b) K)).fifo
    simp only [List.length_append, List.length_map] at hfi
    omega
  | step hk ih =>
    rename_i k
    have he := forever_exec (rx := rx) (f := f) (s0 := init n t b) k
    rcases forever_succ (rx := rx) (s0 := init n t b) (f := f) k with ⟨-, h⟩ | ⟨s', e, h1, h2⟩
    · simp only [stAt, evAt, Nat.succ_eq_add_one, h]; exact ih
    · simp only [stAt, evAt, Nat.succ_eq_add_one, h2] at ih ⊢
      rcases ih with ih | ih | ⟨ih1, ih2, ih3⟩
      · exact Or.inl (ih.append _)
      · right
        by_cases hle : (dispatched ((forever rx (init n t b) f k).2 ++ [e])).length ≤ j
        · exact Or.inl hle
        · right
          have hs := step_rel h1
          rw [dispatched_append, List.length_append] at hle
          have hd1 : (dispatched [e]).length ≤ 1 := by cases e <;> simp [dispatched]
          have hex : ∃ m' ls, e = .dispatch m' ls := by
            cases e with
            | dispatch m' ls => exact ⟨_, _, rfl⟩
            | _ =>
              simp only [dispatched, List.filterMap_cons, List.filterMap_nil, List.length_nil] at hle ih
              omega
          obtain ⟨m', ls, rfl⟩ := hex
          have hdj : (dispatched (forever rx (init n t b) f k).2).length = j := by omega
          have hex2 : ∃ m'', (accepted (forever rx (init n t b) f k).2)[j]? = some m'' := by
            have hfi := congrArg List.length (exec_mem he).fifo
            simp only [List.length_append, List.length_map] at hfi
            cases hs with
            | dispatch a0 m' hl hh =>
              rw [show inflight (forever rx (init n t b) f k).1 = [some m'] by simp [inflight, hl, hh]] at hfi
              simp only [List.length_cons, List.length_nil] at hfi
              exact ⟨_, List.getElem?_eq_getElem (by omega)⟩
          obtain ⟨m'', h3⟩ := hex2
          have hm2 := hacc k m'' hk h3
          have hmm := dispatch_is he h1 hdj h3
          have hlr : l ∈ ls := by
            have ho := C46_offered_in_order he _ _ _ _ h1
            have : l ∈ (added (evAt rx f n t b k)).filter (fun l => !detachedIn l (evAt rx f n t b k)) := by
              refine List.mem_filter.2 ⟨?_, by simp [hdet k hk]⟩
              obtain ⟨x, hx⟩ := forever_prefix (rx := rx) (s0 := init n t b) (f := f) hk
              unfold added
              refine List.mem_filterMap.2 ⟨.did i (.addListener l), ?_, rfl⟩
              show _ ∈ (forever rx (init n t b) f k).2
              rw [← hx]; exact List.mem_append_left _ hadd
            rw [← ho] at this
            exact (List.mem_filter.1 this).1
          refine ⟨?_, ?_, ?_⟩
          · rw [dispatched_append, List.length_append, hdj]; simp [dispatched]
          · cases hs with
            | dispatch a0 m' hl hh => exact hlr
          · rw [dispatched_append, List.getElem?_append_right (by omega), hdj]
            simp [dispatched, hmm, hm2]
      · obtain ⟨r, hr1, hr2⟩ := exec_round he
        have hcur : dispatched (forever rx (init n t b) f k).2 = finished (forever rx (init n t b) f k).2 ++ r.current :=
          Round.run_current hr1
        have hrc : ∃ c, roundOf (forever rx (init n t b) f k).1 = some c ∧ c.current = [m] := by
          refine ⟨r, hr2, ?_⟩
          have hne : r.current.length = 1 := by
            unfold roundOf at hr2
            split at hr2
            · cases hx : (forever rx (init n t b) f k).1.heap _ <;> rw [hx] at hr2 <;> cases hr2; rfl
            · cases hx : (forever rx (init n t b) f k).1.heap _ <;> rw [hx] at hr2 <;> cases hr2; rfl
            · cases hx : (forever rx (init n t b) f k).1.heap _ <;> rw [hx] at hr2 <;> cases hr2; rfl
            · rename_i h4 h5 h6
              cases hl : (forever rx (init n t b) f k).1.lt <;> simp only [hl] at ih2 <;> simp [remaining] at ih2
              · exact absurd hl (by intro e; exact h4 _ _ e)
              · rename_i a l' st rem
                exact absurd hl (by intro e; exact h6 _ _ _ _ e)
          obtain ⟨x, hx⟩ := List.length_eq_one_iff.1 hne
          have hlen : (finished (forever rx (init n t b) f k).2).length = j := by
            have := congrArg List.length hcur
            rw [List.length_append, hne] at this
            have : (dispatched (forever rx (init n t b) f k).2).length = j + 1 := ih1
            omega
          have h5 : (dispatched (forever rx (init n t b) f k).2)[j]? = some m := ih3
          rw [hcur, hx, List.getElem?_append_right (by omega), hlen] at h5
          simp at h5
          rw [hx, h5]
        rcases round_step he h1 (hw k hk) ih1 ih2 hrc with h3 | ⟨h3, h4⟩
        · exact Or.inl h3
        · right; right
          refine ⟨h3, h4, ?_⟩
          have h5 : (dispatched (forever rx (init n t b) f k).2)[j]? = some m := ih3
          rw [dispatched_append, List.getElem?_append_left (List.getElem?_eq_some_iff.1 h5).1]; exact h5

end Falcon.Log
