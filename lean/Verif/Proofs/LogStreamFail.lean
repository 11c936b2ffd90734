import Verif.Spec.LogStreamFail
import Verif.Proofs.LogStream
/-
A stream that fails: chains of insertions.
-/
namespace Falcon.LogStream
open Falcon.Log (Str Msg levelToString)

theorem actsF_append (a b : List Act) : ∀ {o : FOS}, o.throws = false →
    o.acts (a ++ b) = (o.acts a).1.acts b ∧ (o.acts a).2 = false ∧ (o.acts a).1.throws = false := by
  have one : ∀ (o : FOS) (x : Act), o.throws = false → (o.act x).2 = false ∧ (o.act x).1.throws = false := by
    intro o x h
    have put : ∀ s, (o.put s).2 = false ∧ (o.put s).1.throws = false := by
      intro s; unfold FOS.put; split
      · exact ⟨h, h⟩
      · dsimp only
        generalize (if o.os.left = true then s ++ List.replicate (o.os.width - s.length) o.os.fill
            else List.replicate (o.os.width - s.length) o.os.fill ++ s) = q
        split
        · exact ⟨h, h⟩
        · exact ⟨rfl, h⟩
    cases x with
    | int n => exact put _
    | str s => exact put _
    | setfill c => exact ⟨rfl, h⟩
    | setw n => exact ⟨rfl, h⟩
  induction a with
  | nil => intro o h; exact ⟨rfl, rfl, h⟩
  | cons x a ih =>
    intro o h
    obtain ⟨h1, h2⟩ := one o x h
    simp only [List.cons_append, FOS.acts, h1, Bool.false_eq_true, if_false]
    exact ih h2

/-- On a bad stream that does not throw nothing is written. -/
theorem acts_bad (as : List Act) : ∀ (o : FOS), o.bad = true → o.throws = false →
    ∃ os', o.acts as = ({ o with os := os' }, false) ∧ os'.text = o.os.text ∧ os'.isHex = o.os.isHex ∧ os'.left = o.os.left := by
  induction as with
  | nil => intro o _ _; exact ⟨o.os, rfl, rfl, rfl, rfl⟩
  | cons a as ih =>
    intro o hb ht
    have : ∃ os', o.act a = ({ o with os := os' }, false) ∧ os'.text = o.os.text ∧ os'.isHex = o.os.isHex ∧ os'.left = o.os.left := by
      cases a with
      | int n => exact ⟨o.os, by simp only [FOS.act, FOS.put, hb, if_true]; rw [← hb, ht.symm], rfl, rfl, rfl⟩
      | str n => exact ⟨o.os, by simp only [FOS.act, FOS.put, hb, if_true]; rw [← hb, ht.symm], rfl, rfl, rfl⟩
      | setfill n => exact ⟨_, rfl, rfl, rfl, rfl⟩
      | setw n => exact ⟨_, rfl, rfl, rfl, rfl⟩
    obtain ⟨os1, e, h1, h2, h3⟩ := this
    obtain ⟨os2, e', h1', h2', h3'⟩ := ih { o with os := os1 } hb ht
    refine ⟨os2, ?_, h1'.trans h1, h2'.trans h2, h3'.trans h3⟩
    simp only [FOS.acts, e, Bool.false_eq_true, if_false]
    exact e'

/-- What a chain puts on a good stream: as much of what it puts on one that does not fail as there is room for. -/
theorem acts_good (as : List Act) : ∀ (o : FOS), o.bad = false → ∃ p, (o.os.acts as).text = o.os.text ++ p ∧
    ((∀ n, o.room = some n → p.length ≤ n) → o.acts as = ({ o with os := o.os.acts as, room := left o.room p }, false)) ∧
    (∀ n, o.room = some n → n < p.length → ∃ os', o.acts as = ({ o with os := os', room := some 0, bad := true }, o.throws) ∧
      os'.text = o.os.text ++ p.take n ∧ os'.isHex = o.os.isHex ∧ os'.left = o.os.left) := by
  induction as with
  | nil =>
    intro o _
    refine ⟨[], by simp [OS.acts], fun _ => ?_, fun n _ h => by simp at h⟩
    cases h : o.room <;> simp [FOS.acts, OS.acts, left] <;> rw [← h]
  | cons a as ih =>
    intro o hb
    -- the first insertion
    have one : ∃ q, (o.os.act a).text = o.os.text ++ q ∧
        ((∀ n, o.room = some n → q.length ≤ n) → o.act a = ({ o with os := o.os.act a, room := left o.room q }, false)) ∧
        (∀ n, o.room = some n → n < q.length → ∃ os', o.act a = ({ o with os := os', room := some 0, bad := true }, o.throws) ∧
          os'.text = o.os.text ++ q.take n ∧ os'.isHex = o.os.isHex ∧ os'.left = o.os.left) := by
      have put : ∀ s, ∃ q, (o.os.put s).text = o.os.text ++ q ∧
          ((∀ n, o.room = some n → q.length ≤ n) → o.put s = ({ o with os := o.os.put s, room := left o.room q }, false)) ∧
          (∀ n, o.room = some n → n < q.length → ∃ os', o.put s = ({ o with os := os', room := some 0, bad := true }, o.throws) ∧
            os'.text = o.os.text ++ q.take n ∧ os'.isHex = o.os.isHex ∧ os'.left = o.os.left) := by
        intro s
        refine ⟨_, rfl, ?_, ?_⟩
        · intro hn
          unfold FOS.put OS.put
          simp only [hb, Bool.false_eq_true, if_false]
          generalize (if o.os.left = true then s ++ List.replicate (o.os.width - s.length) o.os.fill
            else List.replicate (o.os.width - s.length) o.os.fill ++ s) = q at hn
          have : fits o.room q = q := by
            unfold fits
            cases hr : o.room with
            | none => rfl
            | some n => exact List.take_of_length_le (hn n hr)
          simp only [this, Nat.lt_irrefl, if_false]
        · intro n hr hlt
          unfold FOS.put
          simp only [hb, Bool.false_eq_true, if_false]
          generalize (if o.os.left = true then s ++ List.replicate (o.os.width - s.length) o.os.fill
            else List.replicate (o.os.width - s.length) o.os.fill ++ s) = q at hlt
          have hl : (fits o.room q).length < q.length := by
            simp only [hr, fits, List.length_take]; omega
          simp only [hl, if_true]
          have hz : left o.room q = some 0 := by simp [left, hr]; omega
          rw [hz]
          refine ⟨_, rfl, ?_, rfl, rfl⟩
          simp [fits, hr]
      cases a with
      | int n => exact put _
      | str s => exact put _
      | setfill c =>
        refine ⟨[], by simp [OS.act], fun _ => ?_, fun n _ h => by simp at h⟩
        cases h : o.room <;> simp [FOS.act, OS.act, left] <;> rw [← h]
      | setw c =>
        refine ⟨[], by simp [OS.act], fun _ => ?_, fun n _ h => by simp at h⟩
        cases h : o.room <;> simp [FOS.act, OS.act, left] <;> rw [← h]
    obtain ⟨q, e1, e2, e3⟩ := one
    obtain ⟨p, f1, f2, f3⟩ := ih { o with os := o.os.act a, room := left o.room q } hb
    refine ⟨q ++ p, ?_, ?_, ?_⟩
    · show ((o.os.act a).acts as).text = _
      rw [f1, e1, List.append_assoc]
    · intro hn
      have h1 : ∀ n, o.room = some n → q.length ≤ n := fun n hr => by have := hn n hr; simp at this; omega
      have h2 : ∀ n, left o.room q = some n → p.length ≤ n := by
        intro n hr
        cases hor : o.room with
        | none => simp [left, hor] at hr
        | some k =>
          simp [left, hor] at hr
          have := hn k hor; simp at this; omega
      rw [FOS.acts, e2 h1]
      simp only [Bool.false_eq_true, if_false]
      rw [f2 h2]
      cases hor : o.room with
      | none => rfl
      | some k => simp [left, Nat.sub_sub]; rfl
    · intro n hr hlt
      by_cases hq : n < q.length
      · obtain ⟨os1, g1, g2, g3, g4⟩ := e3 n hr hq
        cases ht : o.throws with
        | true =>
          refine ⟨os1, by rw [FOS.acts, g1, ht]; rfl, ?_, g3, g4⟩
          rw [g2, List.take_append_of_le_length (by omega)]
        | false =>
          obtain ⟨os2, k1, k2, k3, k4⟩ := acts_bad as { o with os := os1, room := some 0, bad := true } rfl ht
          refine ⟨os2, ?_, ?_, k3.trans g3, k4.trans g4⟩
          · rw [FOS.acts, g1]
            simp only [ht, Bool.false_eq_true, if_false] at k1 ⊢
            rw [k1]
          · rw [k2]
            show os1.text = _
            rw [g2, List.take_append_of_le_length (by omega)]
      · have h1 : ∀ k, o.room = some k → q.length ≤ k := fun k hk => by
          rw [hr] at hk; injection hk with hk; omega
        have hlr : left o.room q = some (n - q.length) := by simp [left, hr]
        obtain ⟨os1, g1, g2, g3, g4⟩ := f3 (n - q.length) hlr (by simp at hlt; omega)
        refine ⟨os1, ?_, ?_, ?_, ?_⟩
        · rw [FOS.acts, e2 h1]
          simp only [Bool.false_eq_true, if_false]
          exact g1
        · rw [g2, e1, List.append_assoc, List.take_append, List.take_of_length_le (l := q) (by omega)]
        · rw [g3]; cases a <;> rfl
        · rw [g4]; cases a <;> rfl

end Falcon.LogStream
