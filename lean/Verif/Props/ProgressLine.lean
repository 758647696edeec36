import Verif.Model.ProgressLine
import Verif.Props.Simulation

/-!
# Property C11: the progress lines
-/

namespace WxVerif.Props.ProgressLine

open WxVerif.Sim

variable {K I V : Type*} [Field K] [LinearOrder K] [IsStrictOrderedRing K] [FloorRing K]

/-- **C11.** The progress lines of a run without failure count the steps: after a start at step `a` they show
`a + 1, a + 2, …, L`, each "of `L`", where `L` is the number of the step at which the run ends.  A run that is started
at or after the end prints none. -/
theorem C11_progress (env : Env K I V) (cfg : Config K V) (i0 : I) (hdt : 0 < cfg.dt)
    (hnf : ∀ i Q dt, (∀ p, p < env.size → (env.integ i Q dt).2.2 p = 0) ∧
      (∀ p, p < env.size → env.hasNaN (env.filters dt (env.integ i Q dt).2.1 p) = false)) :
    ∀ fuel, (⌈cfg.tEnd / cfg.dt⌉ - cfg.startingStep).toNat < fuel →
      ∃ s', run env cfg fuel (init env cfg i0) = (s', some .stop) ∧
        progressLines cfg s' =
          (List.range (s'.stepId - cfg.startingStep)).map (fun i => (cfg.startingStep + i + 1, (s'.stepId : Int))) ∧
        (cfg.tEnd ≤ cfg.startingStep * cfg.dt → progressLines cfg s' = []) := by
  intro fuel hf
  obtain ⟨s', hr, hs, hid, -, -, -⟩ := Simulation.C11_run_reaches_end env cfg i0 hdt hnf fuel hf
  have key : progressLines cfg s' =
      (List.range (s'.stepId - cfg.startingStep)).map fun i => (cfg.startingStep + i + 1, (s'.stepId : Int)) := by
    unfold progressLines numSteps
    rw [hs, hid, Nat.add_sub_cancel_left]
    simp only [Schedule.expectedSteps, List.map_map]
    apply List.map_congr_left
    intro i hi
    have hi' := List.mem_range.1 hi
    simp only [Function.comp_apply, Prod.mk.injEq, true_and]
    push_cast
    omega
  refine ⟨s', hr, key, fun h => ?_⟩
  have hc : ⌈cfg.tEnd / cfg.dt⌉ ≤ (cfg.startingStep : Int) := by
    rw [Int.ceil_le, div_le_iff₀ hdt]
    exact_mod_cast h
  have hN : (⌈cfg.tEnd / cfg.dt⌉ - (cfg.startingStep : Int)).toNat = 0 := by omega
  rw [key, hid, hN]
  simp

example : 0 < Simulation.exCfg.dt ∧
    progressLines Simulation.exCfg (run Simulation.exEnv Simulation.exCfg 5 (init Simulation.exEnv Simulation.exCfg ())).1 =
      [(1, 3), (2, 3), (3, 3)] := by
  decide +kernel

end WxVerif.Props.ProgressLine
