import Verif.Props.LogReact
import Verif.Props.LogMutexReact

/-! The theorems about listeners that call back into the logging system, applied to concrete runs. -/
namespace Falcon.Log

def demoReact : Reaction := ⟨[.log (demoMsg 2), .detach 7], false⟩

/-- The run of C132's example: a listener that logs and detaches itself while thread 0 is in stop(). -/
def demoReactRun : List RAct := reactActs demoReact ++ [.log quietly, .log quietly, .call 0 .stop, .cli 0, .cli 0, .cli 0,
     .log quietly, .log quietly, .log quietly]

theorem demoReactRun_harmless : AllHarmless demoReactRun := by
  intro re hre
  have : re = quietly ∨ re = demoReact := by
    simp [demoReactRun, reactActs] at hre; rcases hre with h | h | h <;> simp [h, quietly]
  rcases this with rfl | rfl <;> exact ⟨rfl, by decide, by decide⟩

/-- C132 applied: the thread in stop() returns, after finitely many steps of the logging thread alone, whatever harmless thing listeners go on doing. -/
example : ∃ r es, RExec demoRx 1 (rinit 1 false true) r demoReactRun es ∧ r.dead = false ∧ dispatched es <+: [demoMsg 1, demoMsg 2] ∧
    ∃ k r1 es1 r2, logAlone demoRx 1 (fun _ => demoReact) k r = some (r1, es1) ∧ rstep demoRx 1 r1 (.cli 0) = some (r2, [.stopped 0]) := by
  obtain ⟨r, es, h, hi, ha⟩ : ∃ r es, RExec demoRx 1 (rinit 1 false true) r demoReactRun es ∧ r.base.cl[0]? = some .stopJoin ∧
      accepted es = [demoMsg 1, demoMsg 2] := ⟨_, _, rexec_of_rrun _ rfl, rfl, rfl⟩
  refine ⟨r, es, h, C132_survives_partial h demoReactRun_harmless, ha ▸ (C132_fifo_partial h).1, ?_⟩
  exact C132_stop_partial h demoReactRun_harmless 0 hi (fun _ => demoReact) fun _ => ⟨rfl, by decide, by decide⟩

/-- C132 applied: the reaction has ended after so many further steps. -/
example : ∃ r as es, RExec demoRx 1 (rinit 1 false true) r as es ∧ r.cur = some demoReact ∧
    ∃ r1 as1 es1, as1 <+: List.replicate 16 (.log quietly) ∧ RExec demoRx 1 r r1 as1 es1 ∧ r1.cur = none := by
  have hh : ∀ as : List RAct, (∀ re, .log re ∈ as → re = quietly ∨ re = demoReact) → AllHarmless as := by
    intro as h re hre
    rcases h re hre with rfl | rfl <;> exact ⟨rfl, by decide, by decide⟩
  obtain ⟨r, es, h, hc, r', es', h'⟩ : ∃ r es, RExec demoRx 1 (rinit 1 false true) r (reactActs demoReact) es ∧ r.cur = some demoReact ∧
      ∃ r' es', RExec demoRx 1 r r' (List.replicate 16 (.log quietly)) es' :=
    ⟨_, _, rexec_of_rrun _ rfl, rfl, _, _, rexec_of_rrun _ rfl⟩
  refine ⟨r, _, es, h, hc, C132_returns_partial h ?_ demoReact hc h' ?_ ?_⟩
  · exact hh _ fun re hre => by simp [reactActs] at hre; exact hre
  · exact hh _ fun re hre => by simp at hre; exact .inl hre
  · decide

end Falcon.Log

namespace Falcon.LogM
open Falcon.Log (Msg accepted dispatched)

def demoDoing : Doing := ⟨[.op (.log Msg.default), .diags, .categ 7], false⟩

example : ∃ r es, FRExec Falcon.Log.demoRx 1 (frinit 1 false true) r (handed demoDoing) es ∧ r.dead = false ∧
    dispatched es <+: accepted es ∧ (∀ x, r.base.mtx x ≠ some none) ∧
    (Proceeds Falcon.Log.demoRx 1 r none ∨ ∃ j, j ≠ 1 ∧ Proceeds Falcon.Log.demoRx 1 r (some j)) := by
  have hm : AllMild (handed demoDoing) := by
    intro d hd
    have : d = demoDoing := by simpa [handed] using hd
    subst this
    exact ⟨rfl, by decide, by decide⟩
  have h : (frrun Falcon.Log.demoRx 1 (frinit 1 false true) (handed demoDoing)).map
    (fun r => (r.cur, r.base.cl)) = some (some demoDoing, [.idle, .idle]) := by decide +kernel
  cases hr : frrun Falcon.Log.demoRx 1 (frinit 1 false true) (handed demoDoing) with
  | none => rw [hr] at h; cases h
  | some r =>
    rw [hr] at h
    obtain ⟨es, hx⟩ := FRExec.of_run .nil hr
    have h := Option.some.inj h
    simp only [Prod.mk.injEq] at h
    exact ⟨r, es, hx, C167_survives_partial hx hm, (C167_order_partial hx).1, (C167_unlocked_partial hx).1 demoDoing h.1,
      (C167_no_deadlock_partial hx hm).1 demoDoing h.1⟩

end Falcon.LogM
