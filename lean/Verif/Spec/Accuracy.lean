import Verif.Model.Simulation
import Verif.Spec.Schedule
import Verif.Spec.Convergence

/-!
# Specification: a whole run of a simulation is accurate
-/

namespace WxVerif.SpecAccuracy

open Sim Schedule

variable {V : Type*} [NormedAddCommGroup V] [NormedSpace ℝ V]

/-- the state of the `P` processes as one vector -/
def whole (P : Nat) (Q : Nat → V) : Fin P → V := fun r => Q r

/-- The simulation runs on `P` processes, no step fails or produces a NaN, and between the steps nothing changes the solution: no filter,
    no prescribed wind, and the output managers leave it as it is (see C75, C52 and C77 for what they do). -/
structure Undisturbed {I : Type*} (env : Env ℝ I V) (P : Nat) : Prop where
  size : env.size = P
  ok : ∀ i Q dt p, p < env.size → (env.integ i Q dt).2.2 p = 0
  number : ∀ v, env.hasNaN v = false
  filters : ∀ dt Q, env.filters dt Q = Q
  winds : ∀ t Q, env.winds t Q = Q
  written : ∀ Q, env.written Q = Q

/-- the run of the simulation from step 0 to `tEnd` with the step `dt` ends by itself at `tEnd`; its last state, and every state it outputs, saves
    or makes statistics of on the way, differs from the exact solution at that time by at most `B` -/
def RunWithin {I : Type*} (env : Env ℝ I V) (P : Nat) (i0 : I) (y : ℝ → Fin P → V) (tEnd dt : ℝ) (initialQ : Nat → V) (freqs : Freqs) (B : ℝ) : Prop :=
  ∀ fuel, ⌈tEnd / dt⌉.toNat < fuel → ∃ s', run env ⟨tEnd, dt, 0, initialQ, freqs⟩ fuel (init env ⟨tEnd, dt, 0, initialQ, freqs⟩ i0) = (s', some .stop) ∧
    s'.t = tEnd ∧ ‖whole P s'.Q - y tEnd‖ ≤ B ∧
    (∀ k d Q, Event.write k d Q ∈ s'.events → ‖whole P Q - y (timeAfter tEnd dt k)‖ ≤ B) ∧
    (∀ k Q, Event.saveState k Q ∈ s'.events → ‖whole P Q - y (timeAfter tEnd dt k)‖ ≤ B) ∧
    ∀ k Q, Event.blockStats k Q ∈ s'.events → ‖whole P Q - y (timeAfter tEnd dt k)‖ ≤ B

/-- the simulation advances by the one-step scheme `step` -/
def OneStep {I : Type*} (env : Env ℝ I V) (P : Nat) (step : (Fin P → V) → ℝ → Fin P → V) : Prop :=
  ∀ i Q dt, whole P (env.integ i Q dt).2.1 = step (whole P Q) dt

/-- the runs of all simulations that advance by the scheme `step`, from the exact initial state, are accurate to the order `p`, with a constant that
depends neither on the step nor on what is output -/
def AccurateRuns {P : Nat} (step : (Fin P → V) → ℝ → Fin P → V) (y : ℝ → Fin P → V) (tEnd : ℝ) (p : Nat) : Prop :=
  ∃ C dt0 : ℝ, 0 < dt0 ∧ ∀ dt, 0 < dt → dt ≤ dt0 → ∀ (I : Type) (env : Env ℝ I V) (i0 : I) (initialQ : Nat → V) (freqs : Freqs), Undisturbed env P →
    OneStep env P step → whole P initialQ = y 0 → RunWithin env P i0 y tEnd dt initialQ freqs (C * dt ^ p)

/-- the same for a scheme that calls a nonlinear solver of tolerance `tol` -/
def AccurateRunsWithSolver {P : Nat} (step : (((Fin P → V) → Fin P → V) → (Fin P → V) → Fin P → V) → (Fin P → V) → ℝ → Fin P → V)
    (y : ℝ → Fin P → V) (tEnd : ℝ) (p : Nat) : Prop :=
  ∃ C dt0 ρ : ℝ, 0 < dt0 ∧ 0 < ρ ∧ ∀ dt tol, 0 < dt → dt ≤ dt0 → 0 ≤ tol → tol ≤ dt0 → ∀ newton, SpecConvergence.LocalSolver ρ tol newton →
    ∀ (I : Type) (env : Env ℝ I V) (i0 : I) (initialQ : Nat → V) (freqs : Freqs), Undisturbed env P → OneStep env P (step newton) → whole P initialQ = y 0 →
      RunWithin env P i0 y tEnd dt initialQ freqs (C * (dt ^ p + tol))

end WxVerif.SpecAccuracy
