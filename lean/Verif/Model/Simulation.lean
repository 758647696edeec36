import Mathlib.Algebra.Order.Floor.Ring
import Mathlib.Algebra.Order.Field.Basic
import Verif.Model.Topology
import Verif.Model.Mpi
import Verif.Model.Gather

/-!
# Model of `wx_factory/simulation/simulation.py` and `wx_factory/output/output_manager.py`

Times are elements of a linearly ordered field (exact arithmetic instead of floating point).  The numerical content
(integrator, filters, NaN test, wind overwrite of DCMIP cases 11/12) is an arbitrary parameter.
The distributed state is a function from ranks to local arrays.
-/

namespace WxVerif.Sim

/-! ## Process counts -/

/-- `allowed_pe_counts` for a cubed sphere (simulation.py:78-84). -/
def allowedPeCounts (nelem : Nat) : List Nat :=
  ((List.range' 1 (max (nelem / 2 + 1) 2 - 1)).filter fun i => nelem % i == 0).map fun i => i ^ 2 * 6

/-- `_adjust_num_elements` (simulation.py:209-224): elements per tile, or `none` for the `ValueError`.
Simplification: `int(numpy.sqrt(..))` is the exact integer square root. -/
def adjustNumElements (nelem size : Nat) : Option Nat :=
  if size ∈ allowedPeCounts nelem then some (nelem / Nat.sqrt (size / 6)) else none

/-! ## Surroundings -/

/-- What the simulation is built from. -/
structure Env (K I V : Type*) where
  /-- `integrator.step(Q, dt)`: new integrator state, new solution, `failure_flag` on every rank.  (Every integrator returns a
  new array, so the arrays it was given before are not changed by what happens to the result.) -/
  integ : I → (Nat → V) → K → I × (Nat → V) × (Nat → Int)
  /-- `operators.apply_filters(Q, ..., dt)` -/
  filters : K → (Nat → V) → (Nat → V)
  /-- `numpy.any(numpy.isnan(Q))` on a local array -/
  hasNaN : V → Bool
  /-- the wind overwrite for DCMIP cases 11 and 12, identity otherwise (simulation.py:160-173) -/
  winds : K → (Nat → V) → (Nat → V)
  /-- contents of the array `Q` after `__write_result__(Q, step_id)` (output_manager.py:131): the method is given the array of the
  solution itself and may change it.  What it does in each output manager is modelled in `Model/WriteResult.lean`. -/
  written : (Nat → V) → (Nat → V)
  /-- number of processes -/
  size : Nat

/-! ## Output schedule -/

/-- Observable output events; they carry the state they are made from, and solution outputs the value of `config.dt`. -/
inductive Event (K V : Type*) where
  | write (stepId : Nat) (dt : K) (Q : Nat → V)
  | saveState (stepId : Nat) (Q : Nat → V)
  | blockStats (stepId : Nat) (Q : Nat → V)
  | finalize

/-- The three output frequencies of the configuration. -/
structure Freqs where
  output : Int
  save : Int
  stat : Int

/-- Contents of the array `Q` after `OutputManager.step(Q, step_id)` (output_manager.py:123-149): changed by `__write_result__` if the
solution is output at this step; saving and statistics do not assign to it. -/
def afterOutput {K I V : Type*} (env : Env K I V) (f : Freqs) (Q : Nat → V) (id : Nat) : Nat → V :=
  if f.output > 0 ∧ (id : Int) % f.output = 0 then env.written Q else Q

/-- `OutputManager.step(Q, step_id)` (output_manager.py:123-149); `dt` is `config.dt` at that time.  The state is saved after the
solution output, from the same array.  Timing and printing are left out. -/
def outputStep {K I V : Type*} (env : Env K I V) (f : Freqs) (dt : K) (Q : Nat → V) (id : Nat) : List (Event K V) :=
  (if f.output > 0 ∧ (id : Int) % f.output = 0 then [.write id dt Q] else []) ++
  (if f.save > 0 ∧ (id : Int) % f.save = 0 then [.saveState id (afterOutput env f Q id)] else []) ++
  (if f.stat > 0 ∧ (id : Int) % f.stat = 0 then [.blockStats id (afterOutput env f Q id)] else [])

/-! ## Stepping -/

/-- The configuration values used by the driver. -/
structure Config (K V : Type*) where
  tEnd : K
  dt : K
  startingStep : Nat
  initialQ : Nat → V
  freqs : Freqs

/-- Attributes of `Simulation` that change, plus the history of steps and outputs. -/
structure State (K I V : Type*) where
  t : K
  /-- `self.config.dt` (it is overwritten by the last, shortened step) -/
  dt : K
  stepId : Nat
  integ : I
  Q : Nat → V
  /-- ghost: (step id, dt passed to the integrator, time reached) of every step so far -/
  steps : List (Nat × K × K)
  /-- ghost: every output event so far -/
  events : List (Event K V)

/-- How a call to `step()` ends, over all processes. -/
inductive Result where
  /-- returns `True` everywhere -/
  | more
  /-- returns `False` everywhere -/
  | stop
  /-- `ValueError("NaN")` everywhere -/
  | raised
  /-- `failure_flag` differs between processes: some return `True`, some `False` -/
  | split
  deriving DecidableEq, Repr

variable {K I V : Type*} [Field K] [LinearOrder K]

/-- `_check_for_nan` (simulation.py:399-408): `Allreduce(MAX)` of the local tests. -/
def nanAnywhere (env : Env K I V) (Q : Nat → V) : Bool := (List.range env.size).any fun r => env.hasNaN (Q r)

/-- `Simulation.step()` (simulation.py:133-180). -/
def step (env : Env K I V) (cfg : Config K V) (s : State K I V) : State K I V × Result :=
  if s.t < cfg.tEnd then
    let dt := if s.t + s.dt > cfg.tEnd then cfg.tEnd - s.t else s.dt
    let t := if s.t + s.dt > cfg.tEnd then cfg.tEnd else s.t + s.dt
    let id := s.stepId + 1
    let r := env.integ s.integ s.Q dt
    let Q := env.filters dt r.2.1
    let s1 : State K I V :=
      { t := t, dt := dt, stepId := id, integ := r.1, Q := Q, steps := s.steps ++ [(id, dt, t)], events := s.events }
    if nanAnywhere env Q then (s1, .raised)
    else
      let Q := env.winds t Q
      let s2 := { s1 with Q := afterOutput env cfg.freqs Q id, events := s.events ++ outputStep env cfg.freqs dt Q id }
      (s2,
        if (List.range env.size).all fun p => r.2.2 p == 0 then .more
        else if (List.range env.size).all fun p => r.2.2 p != 0 then .stop
        else .split)
  else (s, .stop)

/-- Contents of the array `self.initial_Q` from the end of `Simulation.__init__` on (simulation.py:106-126): the output of the
starting step has been made from it. -/
def initialArray (env : Env K I V) (cfg : Config K V) : Nat → V := afterOutput env cfg.freqs cfg.initialQ cfg.startingStep

/-- State at the end of `Simulation.__init__` (simulation.py:104-131), `starting` being the pair returned by
`_determine_starting_state`.  `self.Q` and `self.initial_Q` are one array (108), which is handed to the output (126). -/
def init (env : Env K I V) (cfg : Config K V) (integ0 : I) : State K I V :=
  { t := cfg.dt * (cfg.startingStep : K), dt := cfg.dt, stepId := cfg.startingStep, integ := integ0,
    Q := initialArray env cfg, steps := [], events := outputStep env cfg.freqs cfg.dt cfg.initialQ cfg.startingStep }

/-- `self.num_steps` (simulation.py:131). -/
def numSteps [FloorRing K] (cfg : Config K V) : Int := ⌈cfg.tEnd / cfg.dt⌉ - cfg.startingStep

/-- `while self.step(): pass` (simulation.py:189-190), at most `fuel` iterations; `none` = still running. -/
def loop (env : Env K I V) (cfg : Config K V) : Nat → State K I V → State K I V × Option Result
  | 0, s => (s, none)
  | n + 1, s =>
    match step env cfg s with
    | (s', .more) => loop env cfg n s'
    | (s', r) => (s', some r)

/-- `Simulation.run()` (simulation.py:182-192). -/
def run (env : Env K I V) (cfg : Config K V) (fuel : Nat) (s : State K I V) : State K I V × Option Result :=
  match loop env cfg fuel { s with stepId := cfg.startingStep, Q := initialArray env cfg } with
  | (s', some .stop) => ({ s' with events := s'.events ++ [.finalize] }, some .stop)
  | r => r

/-! ## Starting state -/

/-- Kinds of exceptions distinguished by the handlers of `_determine_starting_state` (simulation.py:320-328). -/
inductive ExcKind where
  | fileNotFound | valueError | systemExit
  /-- any other subclass of `Exception` -/
  | otherException
  /-- `BaseException` that is not an `Exception` nor `SystemExit` (e.g. `KeyboardInterrupt`) -/
  | baseException
  deriving DecidableEq, Repr

/-- Do the handlers at simulation.py:320-328 catch it? -/
def ExcKind.caught : ExcKind → Bool
  | .baseException => false
  | _ => true

/-- `_Skip` derives from `SystemExit` (wx_mpi.py:8). -/
def kindOf : Mpi.Exc ExcKind → ExcKind
  | .skip => .systemExit
  | .user e => e

/-- `OutputManager.load_state_from_file(step, sh)` for a cubed sphere (output_manager.py:99-121,
output_cubesphere.py:158-159).  `read` is what `load_state` does on rank 0.  A refusal inside `distribute_cube` raises
`ValueError` on rank 0 and `_Skip` elsewhere (its checks run in a `SingleProcess` context). -/
def loadStateFromFile {α : Type*} (size : Nat) (read : Except ExcKind (List (Gather.Mat α))) (shapeOk : Gather.Mat α → Bool)
    (rank : Nat) : Except ExcKind (Gather.Mat α) :=
  let body : Mpi.Body Unit ExcKind :=
    match read with | .ok _ => ⟨.none, none⟩ | .error e => ⟨.none, some e⟩
  match Mpi.singleProcess 0 body rank, read with
  | .raised e, _ => .error (kindOf e)
  | .normal _, .error _ => .error .otherException  -- unreachable
  | .normal _, .ok field =>
    match Gather.distributeCube size field with
    | none =>
      match Mpi.singleProcess (V := Unit) 0 ⟨.none, some ExcKind.valueError⟩ rank with
      | .raised e => .error (kindOf e)
      | .normal _ => .error .otherException  -- unreachable
    | some D =>
      match D rank with
      | none => .error .valueError
      | some tile => if shapeOk tile then .ok tile else .error .valueError

/-- `_determine_starting_state` (simulation.py:314-330): starting tile and step on one rank; `none` when the exception
is not caught. -/
def determineStartingState {α : Type*} (size startingStep : Nat) (read : Except ExcKind (List (Gather.Mat α)))
    (shapeOk : Gather.Mat α → Bool) (initialTile : Nat → Gather.Mat α) (rank : Nat) : Option (Gather.Mat α × Nat) :=
  if startingStep > 0 then
    match loadStateFromFile size read shapeOk rank with
    | .ok Q => some (Q, startingStep)
    | .error e => if e.caught then some (initialTile rank, 0) else none
  else some (initialTile rank, 0)

end WxVerif.Sim
