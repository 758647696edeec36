/-
Model of the decisions taken while a `Simulation` is created from a validated configuration and takes its first step: which geometry,
initial state, preconditioner, output manager, right-hand side and integrator are chosen, and which exception ends the run.  The numerical
content is left out; array shapes are kept where they decide between success and an exception.
-/
import Verif.Model.Simulation
import Verif.Model.Advection

namespace WxVerif.Startup

/-- Exceptions distinguished here. -/
inductive Exc where
  | valueError | typeError | nameError | attributeError | keyError
  deriving DecidableEq, Repr

/-- selectable values of `grid_type` — `config/config-format.json` -/
inductive Grid where
  | cubedSphere | cartesian2d
  deriving DecidableEq, Repr

/-- selectable values of `equations` — `config/config-format.json` -/
inductive Equations where
  | euler | shallowWater
  deriving DecidableEq, Repr

/-- selectable values of `discretization` — `config/config-format.json` -/
inductive Discretization where
  | dg | fv
  deriving DecidableEq, Repr

/-- The configuration values that take part in the decisions.  Those with selectable values in `config/config-format.json` have been
checked when the file was read (C20); `output_format` has not (its list of values is called `selectable` there, which the schema reader
ignores), nor have `case_number` and `time_integrator`, which have none. -/
structure Setup where
  grid : Grid
  equations : Equations
  discretization : Discretization
  caseNumber : Int
  numSolpts : Nat
  /-- `num_elements_horizontal` as given, for one side of a panel (or of the plane) -/
  numElements : Nat
  numElementsVertical : Nat
  expfilterApply : Bool
  applySponge : Bool
  preconditioner : String
  outputFormat : String
  outputFreq : Int
  timeIntegrator : String
  exponentialSolver : String

/-- The surroundings: number of processes, and whether the optional module `rmn` can be imported. -/
structure World where
  size : Nat
  rmnAvailable : Bool

/-- Geometry classes — `wx_factory/simulation/simulation.py` 232-270 -/
inductive Geom where
  | sphere2d | sphere3d | plane
  deriving DecidableEq, Repr

/-- Last check of `Configuration.__init__` — `wx_factory/common/configuration.py` 39-44 -/
def checkConfig (c : Setup) : Except Exc Unit :=
  if c.discretization = .fv ∧ c.numSolpts ≠ 1 then .error .valueError else .ok ()

/-- `_adjust_num_elements`: elements per side of a tile — `simulation.py` 209-230 (only the cubed sphere is checked) -/
def elementsPerTile (w : World) (c : Setup) : Except Exc Nat :=
  match c.grid with
  | .cubedSphere => match Sim.adjustNumElements c.numElements w.size with
    | some n => .ok n
    | none => .error .valueError
  | .cartesian2d => .ok c.numElements

/-- `_create_geometry` — `simulation.py` 232-270 (`process_topo` exists exactly for the cubed sphere, 98-100) -/
def createGeometry (c : Setup) : Geom :=
  match c.grid, c.equations with
  | .cubedSphere, .shallowWater => .sphere2d
  | .cubedSphere, .euler => .sphere3d
  | .cartesian2d, _ => .plane

/-- `a, b = array.shape`: Python raises `ValueError` unless there are exactly two axes -/
def unpack2 (shape : List Nat) : Except Exc (Nat × Nat) :=
  match shape with
  | [a, b] => .ok (a, b)
  | _ => .error .valueError

/-- shape of `geom.X1` of the plane: elements along z, elements along x, points of an element — `wx_factory/geometry/cartesian_2d_mesh.py` 56 -/
def planeShape (c : Setup) : List Nat := [c.numElementsVertical, c.numElements, c.numSolpts ^ 2]

/-- shape of `geom.lon` and `geom.lat` of the two-dimensional cubed sphere — `wx_factory/geometry/cubed_sphere_2d.py` 452-453 -/
def sphereShape (n : Nat) (c : Setup) : List Nat := [n, n, c.numSolpts ^ 2]

/-- The checks of `DFROperators.__init__` — `wx_factory/geometry/operators.py` 101-138 -/
def operators (c : Setup) (g : Geom) : Except Exc Unit := do
  if c.expfilterApply then
    if g ≠ .sphere3d then throw .typeError
  if c.applySponge then
    if g ≠ .plane then throw .typeError
    let _ ← unpack2 (planeShape c)
  pure ()

/-- `initialize_sw` — `wx_factory/init/initialize.py` 132-202.  Cases 0, 8, 9 and 10 unpack the shape of `geom.lat` or `geom.lon` into two
numbers (`wx_factory/init/shallow_water_test.py` 92, 289, 362, 440). Case 10 assigns to arrays of the former layout before that, which
raises the same exception. -/
def initializeSw (n : Nat) (c : Setup) : Except Exc Unit := do
  if c.caseNumber = 0 then let _ ← unpack2 (sphereShape n c)
  else if c.caseNumber = 1 then pure ()
  else if c.caseNumber = 2 then pure ()
  else if c.caseNumber = 5 then pure ()
  else if c.caseNumber = 6 then pure ()
  else if c.caseNumber = 8 then let _ ← unpack2 (sphereShape n c)
  else if c.caseNumber = 9 then let _ ← unpack2 (sphereShape n c)
  else if c.caseNumber = 10 then let _ ← unpack2 (sphereShape n c)
  else throw .valueError

/-- number of arguments `geom.apply_topography` requires, besides `self` — `wx_factory/geometry/cubed_sphere_3d.py` 441-449 -/
def topographyArity : Nat := 6

/-- a call of `apply_topography` with `n` arguments -/
def applyTopography (n : Nat) : Except Exc Unit := if n = topographyArity then .ok () else .error .typeError

/-- `initialize_euler` — `initialize.py` 86-129; the calls of `apply_topography` are those of `wx_factory/init/dcmip.py` 482, 620, 812 -/
def initializeEuler (c : Setup) : Except Exc Unit := do
  if c.caseNumber = 11 then pure ()
  else if c.caseNumber = 12 then pure ()
  else if c.caseNumber = 20 then applyTopography 3
  else if c.caseNumber = 21 then applyTopography 6
  else if c.caseNumber = 22 then applyTopography 6
  else if c.caseNumber = 31 then applyTopography 6
  else if c.caseNumber = 77 then pure ()
  else throw .valueError

/-- `initialize_cartesian2d` — `initialize.py` 205-340: case 0 calls `geom.make_mountain`, which does not exist; cases 1, 3 and 4 use the
undefined names `nk` and `ni` (the line that defined them is commented out, 212).  There is no `else` that refuses other numbers. -/
def initializeCartesian (c : Setup) : Except Exc Unit := do
  if c.caseNumber = 0 then throw .attributeError
  else if c.caseNumber = 1 then throw .nameError
  else if c.caseNumber = 2 then pure ()
  else if c.caseNumber = 3 then throw .nameError
  else if c.caseNumber = 4 then throw .nameError
  else pure ()

/-- `init_state_vars` — `wx_factory/init/init_state_vars.py` 10-36 -/
def initState (n : Nat) (c : Setup) (g : Geom) : Except Exc Unit :=
  match c.equations, g with
  | .euler, .sphere3d => initializeEuler c
  | .euler, .plane => initializeCartesian c
  | .shallowWater, .sphere2d => initializeSw n c
  | _, _ => .error .valueError

/-- `_create_preconditioner` — `simulation.py` 272-275: everything but `"none"` is refused -/
def createPreconditioner (c : Setup) : Except Exc Unit := if c.preconditioner ≠ "none" then .error .valueError else .ok ()

/-- `_create_output_manager` — `simulation.py` 287-312, `wx_factory/output/output_cubesphere_fst.py` 52-70,
`output_cubesphere_netcdf.py` 43-50, 277-281: with the 3D equations the 2D field `zbot` is gathered as if it had three dimensions, which is harmless
when every panel is one tile and otherwise joins along an axis that does not exist (`AxisError`, a `ValueError`).  Simplifications: the
netCDF library is taken to be installed, and the numbers of elements and points to be within the limits the other format can encode. -/
def createOutput (w : World) (c : Setup) (g : Geom) : Except Exc Unit :=
  if g = .plane then .ok ()
  else if c.outputFormat = "netcdf" then
    if g = .sphere3d ∧ c.outputFreq > 0 ∧ Topology.numPe w.size ≠ 1 then .error .valueError else .ok ()
  else if c.outputFormat = "fst" then
    if c.outputFreq ≤ 0 then .ok () else if w.rmnAvailable then .ok () else .error .valueError
  else .error .valueError

/-- The functions of `RhsBundle` an integrator may ask for — `wx_factory/rhs/rhs_selector.py` 18-93 -/
inductive Part where
  | full | implicit | explicit
  deriving DecidableEq, Repr

/-- The integrators — `simulation.py` 332-397 -/
inductive Scheme where
  | epiStiff (order : Nat) | epi (order : Nat) | srerk (order : Nat)
  | euler1 | tvdrk3 | ros2 | rosexp2 | partrosexp2 | imex2 | backwardEuler | bdf2 | crankNicolson | strangEpiRos | strangRosEpi
  deriving DecidableEq, Repr

/-- `s[:k] == prefix and s[k:].isdigit()` and then `int(s[k:])`.  Simplification: only the digits 0-9 count (Python's `isdigit` accepts
more characters, for some of which `int` raises `ValueError`). -/
def prefixed (p : String) (s : String) : Option Nat :=
  let rest := s.toList.drop p.length
  if s.toList.take p.length = p.toList ∧ rest ≠ [] ∧ rest.all Char.isDigit then
    some (rest.foldl (fun v ch => 10 * v + (ch.toNat - '0'.toNat)) 0) else none

/-- The chain of tests of `_create_time_integrator` — `simulation.py` 332-397 -/
def parseScheme (s : String) : Except Exc Scheme :=
  match prefixed "epi_stiff" s with
  | some n => .ok (.epiStiff n)
  | none => match prefixed "epi" s with
    | some n => .ok (.epi n)
    | none => match prefixed "srerk" s with
      | some n => .ok (.srerk n)
      | none =>
        if s = "euler1" then .ok .euler1 else if s = "tvdrk3" then .ok .tvdrk3 else if s = "ros2" then .ok .ros2
        else if s = "rosexp2" then .ok .rosexp2 else if s = "partrosexp2" then .ok .partrosexp2 else if s = "imex2" then .ok .imex2
        else if s = "backward_euler" then .ok .backwardEuler else if s = "bdf2" then .ok .bdf2
        else if s = "crank_nicolson" then .ok .crankNicolson
        else if s = "strang_epi2_ros2" then .ok .strangEpiRos else if s = "strang_ros2_epi2" then .ok .strangRosEpi
        else .error .valueError

/-- parts of the right-hand side an integrator takes from the bundle when it is created, in order — `simulation.py` 332-397 -/
def Scheme.parts : Scheme → List Part
  | .partrosexp2 => [.full, .implicit]
  | .imex2 => [.explicit, .implicit]
  | .strangEpiRos => [.explicit, .implicit]
  | .strangRosEpi => [.implicit, .explicit]
  | _ => [.full]

/-- `rhs.implicit`, `rhs.explicit` exist on the plane only — `rhs_selector.py` 80-90 -/
def hasPart (g : Geom) : Part → Bool
  | .full => true
  | _ => g = .plane

/-- orders the constructors accept — `wx_factory/integrators/epi.py` 47-63, `epi_stiff.py` 25-26, `srerk.py` 29-31 -/
def Scheme.orderOk : Scheme → Bool
  | .epi n => 2 ≤ n && n ≤ 6
  | .epiStiff n => 2 ≤ n
  | .srerk n => 3 ≤ n
  | _ => true

/-- `_create_time_integrator` — `simulation.py` 332-397: the attributes of the bundle are read before the constructor runs -/
def createIntegrator (c : Setup) (g : Geom) : Except Exc Scheme := do
  let s ← parseScheme c.timeIntegrator
  if !(s.parts.all (hasPart g)) then throw .attributeError
  if !s.orderOk then throw .valueError
  pure s

/-- The output of the initial state of a run that starts at step 0 — `simulation.py` 126, `output_manager.py` 123-134,
`output_cubesphere_fst.py` 134-144: this format is refused for the 3D grid, but only when it is used.  (What is written is the subject of
C13, C77 and C78.) -/
def firstOutput (c : Setup) (g : Geom) : Except Exc Unit :=
  if c.outputFreq > 0 ∧ g = .sphere3d ∧ c.outputFormat = "fst" then .error .valueError else .ok ()

/-- `Simulation.__init__` — `simulation.py` 54-131 (from the configuration on, starting at step 0) -/
def startUp (w : World) (c : Setup) : Except Exc (Geom × Scheme) := do
  checkConfig c
  let n ← elementsPerTile w c
  let g := createGeometry c
  operators c g
  initState n c g
  createPreconditioner c
  createOutput w c g
  let s ← createIntegrator c g
  firstOutput c g
  pure (g, s)

/-- exponential solvers known to `Epi` — `epi.py` 119-348 -/
def epiSolvers : List String :=
  ["pmex_ne", "pmex_1s", "pmex_ne1s", "icwy_ne1s", "icwy_ne", "icwy_1s", "icwy_neiop", "cwy_ne1s", "cwy_ne", "cwy_1s", "dcgs2", "kiops_ne",
   "exode", "pmex", "kiops"]

/-- exponential solvers known to `Srerk` — `srerk.py` 87-280 -/
def srerkSolvers : List String :=
  ["kiops", "pmex", "pmex_1s", "pmex_ne1s", "icwy_ne1s", "icwy_ne", "icwy_1s", "icwy_neiop", "cwy_ne1s", "cwy_ne", "cwy_1s", "dcgs2", "kiops_ne"]

/-- Which call of the right-hand side raises: the finite-volume class reads `self.q`, which is never set (`wx_factory/rhs/rhs_fv.py` 14-17;
it is only selected on the plane, `rhs_selector.py` 37-90), and the states of cases 11 and 12 have more equations than the arrays of the 3D
equations (C52). -/
def evaluateFull (c : Setup) (g : Geom) : Except Exc Unit :=
  match g with
  | .plane => if c.discretization = .fv then .error .attributeError else .ok ()
  | .sphere3d => match Advection.numEquations c.caseNumber with
    | some n => if Advection.assignable Advection.numVar n then .ok () else .error .valueError
    | none => .ok ()
  | .sphere2d => .ok ()

/-- A part of the right-hand side is called: `implicit` and `explicit` are `not_implemented` — `rhs_selector.py` 34-35 -/
def evaluate (c : Setup) (g : Geom) : Part → Except Exc Unit
  | .full => evaluateFull c g
  | _ => .error .valueError

/-- The right-hand sides the first step calls before anything else, in order — `wx_factory/integrators/partrosexp2.py` 24-25, `imex2.py` 19,
`splitting.py` 24 with `epi.py` 101 and `ros2.py` 27, and the first lines of `__prestep__` or `__step__` of the others -/
def callParts (c : Setup) (g : Geom) : Scheme → Except Exc Unit
  | .imex2 => evaluate c g .explicit
  | .strangEpiRos => evaluate c g .explicit
  | .strangRosEpi => evaluate c g .implicit
  | .partrosexp2 => do evaluate c g .full; evaluate c g .implicit
  | _ => evaluate c g .full

/-- The choice of the exponential solver — `epi.py` 119-348, `srerk.py` 87-280, `epi_stiff.py` 48-110 (any name but two means KIOPS there).  An
`Epi` or `EpiStiff` of order three or more starts with an `Epi` of order 2, which makes the choice of `Epi`; an `EpiStiff` of order 2 does
not. -/
def chooseSolver (c : Setup) : Scheme → Except Exc Unit
  | .epi _ => if c.exponentialSolver ∈ epiSolvers then .ok () else .error .valueError
  | .epiStiff n => if n = 2 ∨ c.exponentialSolver ∈ epiSolvers then .ok () else .error .valueError
  | .srerk _ => if c.exponentialSolver ∈ srerkSolvers then .ok () else .error .valueError
  | _ => .ok ()

/-- The first step, as far as it decides between success and an exception -/
def firstStep (c : Setup) (g : Geom) (s : Scheme) : Except Exc Unit := do
  callParts c g s
  chooseSolver c s

/-- start-up and first step -/
def run (w : World) (c : Setup) : Except Exc Unit := do
  let (g, s) ← startUp w c
  firstStep c g s

end WxVerif.Startup
