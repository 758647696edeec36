/-
Which configurations run: a table, written without the model of the start-up.
-/
import Verif.Model.Startup
import Mathlib.Data.Nat.Digits.Defs

namespace WxVerif.Spec.Supported

open WxVerif.Startup (Setup World)

/-- `s` is the word `p` followed by a decimal number whose value is `n` (leading zeros allowed) -/
def Numbered (p s : String) (n : ℕ) : Prop :=
  ∃ ds : List ℕ, ds ≠ [] ∧ (∀ d ∈ ds, d ≤ 9) ∧ s.toList = p.toList ++ ds.map Nat.digitChar ∧ n = Nat.ofDigits 10 ds.reverse

/-- The tiles of a face form a k × k arrangement with the same number of elements in each, and not a single element per tile unless the
face has only one -/
def TilesFit (nelem size : ℕ) : Prop := ∃ k, 1 ≤ k ∧ k ∣ nelem ∧ (k = 1 ∨ 2 * k ≤ nelem) ∧ size = 6 * k ^ 2

/-- shallow water on the sphere: solid-body advection, geostrophic flow, mountain, Rossby-Haurwitz wave -/
def shallowWaterCases : List ℤ := [1, 2, 5, 6]

/-- Euler equations on the sphere: two Schär mountains, gravity wave, bubble -/
def eulerCases : List ℤ := [21, 22, 31, 77]

/-- Cases of the plane that are documented and cannot be created -/
def brokenPlaneCases : List ℤ := [0, 1, 3, 4]

/-- The names of the exponential solvers -/
def solvers : List String :=
  ["pmex", "kiops", "exode", "pmex_ne", "cwy_1s", "cwy_ne", "cwy_ne1s", "dcgs2", "icwy_1s", "icwy_neiop", "icwy_ne", "icwy_ne1s", "kiops_ne",
   "pmex_1s", "pmex_ne1s"]

/-- integrators whose name carries no order and which use the full right-hand side -/
def plainIntegrators : List String := ["euler1", "tvdrk3", "ros2", "rosexp2", "backward_euler", "bdf2", "crank_nicolson"]

/-- integrators that split the right-hand side -/
def splitIntegrators : List String := ["partrosexp2", "imex2", "strang_epi2_ros2", "strang_ros2_epi2"]

/-- Integrator and exponential solver fit together -/
def IntegratorRuns (name solver : String) : Prop :=
  name ∈ plainIntegrators
  ∨ (∃ n, Numbered "epi" name n ∧ 2 ≤ n ∧ n ≤ 6 ∧ solver ∈ solvers)
  ∨ (∃ n, Numbered "epi_stiff" name n ∧ 2 ≤ n ∧ (n = 2 ∨ solver ∈ solvers))
  ∨ (∃ n, Numbered "srerk" name n ∧ 3 ≤ n ∧ solver ∈ solvers ∧ solver ≠ "exode" ∧ solver ≠ "pmex_ne")

/-- grid, equations, case, filter and output -/
def ProblemRuns (w : World) (c : Setup) : Prop :=
  match c.grid, c.equations with
  | .cubedSphere, .shallowWater =>
    TilesFit c.numElements w.size ∧ c.caseNumber ∈ shallowWaterCases ∧ c.expfilterApply = false ∧
      (c.outputFormat = "netcdf" ∨ c.outputFormat = "fst" ∧ (c.outputFreq ≤ 0 ∨ w.rmnAvailable))
  | .cubedSphere, .euler =>
    TilesFit c.numElements w.size ∧ c.caseNumber ∈ eulerCases ∧
      (c.outputFormat = "netcdf" ∧ (c.outputFreq ≤ 0 ∨ w.size = 6) ∨ c.outputFormat = "fst" ∧ c.outputFreq ≤ 0)
  | .cartesian2d, .euler => c.caseNumber ∉ brokenPlaneCases ∧ c.expfilterApply = false ∧ c.discretization = .dg
  | .cartesian2d, .shallowWater => False

/-- The configurations that start and take a first step -/
def Supported (w : World) (c : Setup) : Prop :=
  (c.discretization = .fv → c.numSolpts = 1) ∧ c.preconditioner = "none" ∧ c.applySponge = false ∧
    ProblemRuns w c ∧ IntegratorRuns c.timeIntegrator c.exponentialSolver

/-- The ways in which a configuration ends with something else than a `ValueError` -/
def Unexpected (c : Setup) : Startup.Exc → Prop
  | .typeError => (c.expfilterApply = true ∧ ¬ (c.grid = .cubedSphere ∧ c.equations = .euler)) ∨ (c.applySponge = true ∧ c.grid = .cubedSphere)
      ∨ (c.grid = .cubedSphere ∧ c.equations = .euler ∧ c.caseNumber = 20)
  | .attributeError => (c.grid = .cartesian2d ∧ c.equations = .euler ∧ c.caseNumber = 0)
      ∨ (c.grid = .cubedSphere ∧ c.timeIntegrator ∈ splitIntegrators) ∨ (c.grid = .cartesian2d ∧ c.discretization = .fv)
  | .nameError => c.grid = .cartesian2d ∧ c.equations = .euler ∧ (c.caseNumber = 1 ∨ c.caseNumber = 3 ∨ c.caseNumber = 4)
  | .keyError => False
  | .valueError => False

/-- The ways in which a configuration is accepted and fails in the first step -/
def FailsLate (c : Setup) : Prop :=
  (c.grid = .cubedSphere ∧ c.equations = .euler ∧ (c.caseNumber = 11 ∨ c.caseNumber = 12))
  ∨ (c.grid = .cartesian2d ∧ (c.discretization = .fv ∨ c.timeIntegrator ∈ splitIntegrators))
  ∨ ((∃ n, Numbered "srerk" c.timeIntegrator n) ∧ (c.exponentialSolver = "exode" ∨ c.exponentialSolver = "pmex_ne"))

end WxVerif.Spec.Supported
