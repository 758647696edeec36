/-
Model of the solution output: what `__write_result__` of each output manager does to the array of the solution and what it puts in the file,
`wx_factory/output/output_cubesphere_netcdf.py`, `output_cubesphere_fst.py` (2D), `output_cartesian.py`, with the panel assembly of
`output_cubesphere.py`.

Arrays are given by their entries; the entry of a local 2D block is addressed by row (south to north) and column (west to east).
`geom.to_single_block` reorders a local array into such a block (C18); the model uses the block throughout.
-/
import Verif.Model.Simulation
import Verif.Model.Metric3D
import Verif.Model.Flux

namespace WxVerif.WriteResult

open WxVerif.Gather WxVerif.Topology WxVerif.Sphere

/-- a horizontal field on one tile -/
abbrev Field := Nat → Nat → ℝ

/-- The local array of the solution: shallow water (`idx_h, idx_hu1, idx_hu2`), 3D equations (by variable and level), plane (by variable).
`wx_factory/common/definitions.py` 5-35 -/
inductive Local where
  | sw (h hu1 hu2 : Field)
  | euler (q : Nat → Nat → Field)
  | plane (q : Nat → Field)

/-- `_create_output_manager` chooses one of these — `wx_factory/simulation/simulation.py` 287-312 -/
inductive Manager where
  | netcdf | fst | cartesian
  deriving DecidableEq, Repr

/-- The geometry and the diagnostics the managers call. -/
structure Tools where
  /-- panel orientation on a rank -/
  orient : Nat → Orientation
  /-- metric data of a point of a level of a rank (level 0 for shallow water) -/
  point : Nat → Nat → Nat → Nat → Point3
  /-- `geom.coslat` -/
  coslat : Nat → Nat → Nat → ℝ
  /-- `relative_vorticity(u1, u2)` on a rank — `wx_factory/output/diagnostic.py` 9-19, modelled per element in `Model/Diagnostic.lean` -/
  vort : Nat → Field → Field → Field
  /-- `metric.coriolis_f` -/
  coriolis : Nat → Field

/-- `geom.contra2wind(u1, u2)` on a rank, at a point — `cubed_sphere_2d.py` 629-695 -/
noncomputable def wind (T : Tools) (r j i : Nat) (u1 u2 : ℝ) : ℝ × ℝ :=
  let p := T.point r 0 j i
  contra2wind (T.orient r) p.R p.dx p.dy (T.coslat r j i) p.X p.Y u1 u2

/-- `h = Q[idx_h]; if self.topo is not None: h += self.topo.hsurf` — `output_cubesphere_netcdf.py` 314-317.  `h` is a view of the array of the
solution and the addition is made in place, so this is also what the solution contains afterwards. -/
def writtenHeight (topo : Option Field) (h : Field) : Field := match topo with | none => h | some hs => fun j i => h j i + hs j i

/-- `Q` after `OutputCubesphereNetcdf.__write_result__` for shallow water, and the fields stored, by name — `output_cubesphere_netcdf.py` 311-331
and `diagnostic.py` 22-28 for the potential vorticity.  `u1` and `u2` are computed after `h` was changed. -/
noncomputable def netcdfSw (T : Tools) (caseNumber : Int) (topo : Option Field) (r : Nat) (h hu1 hu2 : Field) : Local × List (String × Field) :=
  let h := writtenHeight topo h
  let u1 : Field := fun j i => hu1 j i / h j i
  let u2 : Field := fun j i => hu2 j i / h j i
  (.sw h hu1 hu2,
    ("h", h) :: if caseNumber ≥ 2 then
      [("U", fun j i => (wind T r j i (u1 j i) (u2 j i)).1), ("V", fun j i => (wind T r j i (u1 j i) (u2 j i)).2),
       ("RV", T.vort r u1 u2), ("PV", fun j i => (T.vort r u1 u2 j i + T.coriolis r j i) / h j i)] else [])

/-- The fields stored for the 3D equations, by name and level — `output_cubesphere_netcdf.py` 333-356.  The array of the solution is only
read. -/
noncomputable def netcdfEuler (T : Tools) (caseNumber : Int) (r : Nat) (q : Nat → Nat → Field) : List (String × (Nat → Field)) :=
  let over (v : Nat) : Nat → Field := fun l j i => q v l j i / q 0 l j i
  let w (l j i : Nat) := contra2wind3 (T.orient r) (T.coslat r j i) (T.point r l j i) (over 1 l j i) (over 2 l j i) (over 3 l j i)
  [("rho", q 0), ("U", fun l j i => (w l j i).1), ("V", fun l j i => (w l j i).2.1), ("W", fun l j i => (w l j i).2.2), ("theta", over 4),
   ("P", fun l j i => Flux.p0 * (q 4 l j i * Flux.Rd / Flux.p0) ^ (Flux.cpd / Flux.cvd))] ++
  (if caseNumber = 11 ∨ caseNumber = 12 then [("q1", over 5)] else []) ++
  (if caseNumber = 11 then [("q2", over 6), ("q3", over 7), ("q4", over 8)] else [])

/-- The image made by `OutputCartesian.__write_result__` — `output_cartesian.py` 15-33: variable plotted and range of the colours; `none` if no
branch applies. -/
noncomputable def cartesianImage (caseNumber : Int) (q : Nat → Field) : Option (Field × ℝ × ℝ) :=
  let theta : Field := fun j i => q 3 j i / q 0 j i
  if caseNumber = 0 then some (q 2, -1, 1)
  else if caseNumber ≤ 2 then some (theta, 303.1, 303.7)
  else if caseNumber = 3 then some (theta, 303.0, 303.7)
  else if caseNumber = 4 then some (theta, 290, 300)
  else none

/-- Contents of the local array after `__write_result__(Q, step_id)`; `none` if it raises (`output_cubesphere_netcdf.py` 358-359,
`output_cubesphere_fst.py` 143-144; the manager of the plane would fail on the arrays of the sphere). -/
noncomputable def written (m : Manager) (T : Tools) (caseNumber : Int) (topo : Nat → Option Field) (r : Nat) : Local → Option Local
  | .sw h hu1 hu2 => match m with
    | .netcdf => some (netcdfSw T caseNumber (topo r) r h hu1 hu2).1
    | .fst => some (.sw h hu1 hu2)
    | .cartesian => none
  | .euler q => if m = .netcdf then some (.euler q) else none
  | .plane q => if m = .cartesian then some (.plane q) else none

/-! ## The netCDF file -/

/-- a local array as list of rows -/
def block (t : Nat) (f : Field) : Mat ℝ := (List.range t).map fun j => (List.range t).map fun i => f j i

/-- One entry along the time axis: the value of `time`, the variables by name as gathered on the process that writes (`none` if gathering fails). -/
structure Record where
  time : ℝ
  vars : List (String × Option (List (Mat ℝ)))

/-- `store_field` — `output_cubesphere_netcdf.py` 366-371: the six panels gathered from the tiles -/
def stored (size t : Nat) (f : Nat → Field) : Option (List (Mat ℝ)) := gatherCube size fun r => block t (f r)

/-- One call of `__write_result__` for shallow water on all ranks — `output_cubesphere_netcdf.py` 302-331; `dt` is `config.dt` at that time.
`states r` are the three fields on rank `r`. -/
noncomputable def recordSw (size t : Nat) (T : Tools) (caseNumber : Int) (topo : Nat → Option Field) (stepId : Nat) (dt : ℝ)
    (states : Nat → Field × Field × Field) : Record :=
  let out (r : Nat) := (netcdfSw T caseNumber (topo r) r (states r).1 (states r).2.1 (states r).2.2).2
  ⟨stepId * dt, (out 0).map fun x => (x.1, stored size t fun r => ((out r).lookup x.1).getD fun _ _ => 0)⟩

/-- One call of `__write_result__` for the 3D equations on all ranks — `output_cubesphere_netcdf.py` 302-309, 333-356; the variables by level
(the levels of a 3D array are gathered independently of each other, see `Model/Gather.lean`). -/
noncomputable def recordEuler (size t : Nat) (T : Tools) (caseNumber : Int) (stepId : Nat) (dt : ℝ) (q : Nat → Nat → Nat → Field) :
    ℝ × List (String × (Nat → Option (List (Mat ℝ)))) :=
  let out (r : Nat) := netcdfEuler T caseNumber r (q r)
  (stepId * dt, (out 0).map fun x => (x.1, fun l => stored size t fun r => ((out r).lookup x.1).getD (fun _ _ _ => 0) l))

/-- Units of time -/
inductive TimeUnit where
  | seconds | hours
  deriving DecidableEq, Repr

/-- `tme.units = "hours since 1800-01-01"` — `output_cubesphere_netcdf.py` 92-93 -/
def timeUnits : TimeUnit := .hours

/-- `netCDF4.Dataset(self.filename, "w")` — `output_cubesphere_netcdf.py` 58-59: a file of that name is replaced by an empty one. -/
def openFile (_old : List Record) : List Record := []

/-- the three fields of a shallow-water array -/
def Local.fields : Local → Field × Field × Field
  | .sw h hu1 hu2 => (h, hu1, hu2)
  | _ => (fun _ _ => 0, fun _ _ => 0, fun _ _ => 0)

/-- `OutputManager.step` calls `__write_result__` in its first branch only — `output_manager.py` 124-133 -/
def ofWrite {β : Type*} (rcd : Nat → ℝ → (Nat → Local) → β) : Sim.Event ℝ Local → Option β
  | .write id dt Q => some (rcd id dt Q)
  | _ => none

/-- The file at the end of a run that made these output events, `old` being the contents of a file of the same name before:
`output_cubesphere_netcdf.py` 307-309 appends to the time axis. -/
noncomputable def fileAfter (size t : Nat) (T : Tools) (caseNumber : Int) (topo : Nat → Option Field) (old : List Record)
    (events : List (Sim.Event ℝ Local)) : List Record :=
  openFile old ++ events.filterMap (ofWrite (fun id dt Q => recordSw size t T caseNumber topo id dt fun r => (Q r).fields))

/-- A record of the fst file: name, `npas`, `deet`, and the data (six panels) -/
structure FstRecord where
  name : String
  npas : Nat
  deet : Int
  data : Option (List (Mat ℝ))

/-- `int(x)` of Python on a float: towards zero -/
noncomputable def pyInt (x : ℝ) : Int := if 0 ≤ x then ⌊x⌋ else ⌈x⌉

/-- `OutputCubesphereFst.__write_result__` for shallow water with `_make_record` — `output_cubesphere_fst.py` 104-144: only `h` is recorded (`u1`
and `u2` are computed and not used); the step is `int(self.config.dt)`. -/
noncomputable def recordFst (size t : Nat) (stepId : Nat) (dt : ℝ) (states : Nat → Field × Field × Field) : FstRecord :=
  ⟨"h", stepId, pyInt dt, stored size t fun r => (states r).1⟩

/-- The records of the fst file at the end of a run: the file is opened with "RSF+R/W" (`output_cubesphere_fst.py` 82), which keeps what a
file of that name contains, and records are added (`rewrite=0`, 141).  Only the records of the solution (not those of the grid, 100). -/
noncomputable def fstAfter (size t : Nat) (old : List FstRecord) (events : List (Sim.Event ℝ Local)) : List FstRecord :=
  old ++ events.filterMap (ofWrite fun id dt Q => recordFst size t id dt fun r => (Q r).fields)

/-- `_gather_panel` of a one-dimensional array on the first panel — `output_cubesphere.py` 131-155: `panel_comm.gather`, then
`concatenate(panel_fields[:side])` -/
def gatherPanelLine (size t : Nat) (x : Nat → Nat → ℝ) : List ℝ :=
  let members := panelComm size 0
  let line (r : Nat) := (List.range t).map (x r)
  if members.length = 1 then line (members.headD 0)
  else ((members.take (numLines size)).map line).flatten

/-- What the file says about positions — `output_cubesphere_netcdf.py` 266-292: dimension variables `Xdim` and `Ydim`, and the longitudes and
latitudes in degrees as panel fields.  The variables are declared with dimensions `("npe", "Xdim", "Ydim")` (66, 143-160), so the row of a
panel array is the index along `Xdim` and its column the index along `Ydim`. -/
structure Axes where
  Xdim : List ℝ
  Ydim : List ℝ
  lons : Option (List (Mat ℝ))
  lats : Option (List (Mat ℝ))

/-- `_output_init` — `output_cubesphere_netcdf.py` 264-292 -/
noncomputable def axes (size t : Nat) (x1 x2 : Nat → Nat → ℝ) (lon lat : Nat → Field) : Axes :=
  ⟨gatherPanelLine size t x1, gatherPanelLine size t x2,
    stored size t fun r j i => lon r j i * 180 / Real.pi, stored size t fun r j i => lat r j i * 180 / Real.pi⟩

/-- The processes of a simulation that execute the statement opening the file: `SingleProcess()` without argument takes process 0 of
`MPI.COMM_WORLD` (`wx_factory/wx_mpi.py` 62-75), whatever the communicator of the simulation — `output_cubesphere_netcdf.py` 58-59,
`output_cubesphere_fst.py` 81-82.  `members` are the processes of the simulation by their rank in `MPI.COMM_WORLD`. -/
def openers (members : List Nat) : List Nat := members.filter fun p => Mpi.executes 0 p

/-- The processes the closing broadcast of that context waits for (`wx_mpi.py` 81-94) and that do not take part in the simulation -/
def waitedFor (world : Nat) (members : List Nat) : List Nat := (List.range world).filter fun p => !members.contains p

end WxVerif.WriteResult
