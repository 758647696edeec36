import Mathlib.Data.Rat.Defs

/-!
# Model: the file of solver statistics over program versions, runs and crashes

`output/solver_stats.py`.  Which steps and runs the rows belong to is the subject of `Model/Stats.lean`; here are the columns of the table, what is
stored in them, how the table is brought up to date when it is opened, and what survives a crash.

SQLite (external, as documented): `CREATE TABLE` and `ALTER TABLE` take effect at once (the `sqlite3` module opens a transaction only before
statements that change rows); rows become permanent with `commit`; adding a column gives its default to all rows; an insertion that names an
unknown column, and any statement on a table that does not exist or exists already, raises `OperationalError`.
-/

namespace WxVerif.StatsDb

/-- values of the database -/
inductive Cell | null | num (x : ℚ) | flag (b : Bool) | text (s : String)
  deriving DecidableEq

/-- types of columns, `output/solver_stats.py` lines 29-85 -/
inductive CType | int | float | bool | text
  deriving DecidableEq

/-- a row: the value of each column -/
abbrev Row := String → Cell

/-- the table of parameters: its columns with their defaults, in order, and its rows -/
structure Table where
  cols : List (String × Cell)
  rows : List Row

/-- the file; `D` is the type of the rows of the two other tables -/
structure Disk (D : Type) where
  param : Option Table
  data : Option (List D)
  timing : Option (List D)

/-- a file that does not exist yet -/
def empty {D : Type} : Disk D := ⟨none, none, none⟩

/-- exceptions: `OperationalError`, and its parent `DatabaseError` (raised, for instance, for a file that is not a database) -/
inductive Err | operational | database
  deriving DecidableEq

/-- `output/solver_stats.py` lines 190-192: default of an added column, -1 for `int` and `float`, otherwise `none` -/
def defaultOf : CType → Cell
  | .int => .num (-1)
  | .float => .num (-1)
  | .bool => .text "none"
  | .text => .text "none"

/-- statements that take effect at once -/
inductive Op
  | createParam (cols : List (String × CType))
  | createData
  | createTiming
  | addColumn (name : String) (type : CType)

variable {D : Type}

/-- `output/solver_stats.py` lines 137-177 and 193-199: the statement, executed by SQLite.  A column of `CREATE TABLE` has no default. -/
def exec (d : Disk D) : Op → Except Err (Disk D)
  | .createParam cols => match d.param with
    | some _ => .error .operational
    | none => .ok { d with param := some ⟨("entry_id", .null) :: cols.map (fun c => (c.1, .null)), []⟩ }
  | .createData => match d.data with
    | some _ => .error .operational
    | none => .ok { d with data := some [] }
  | .createTiming => match d.timing with
    | some _ => .error .operational
    | none => .ok { d with timing := some [] }
  | .addColumn n ty => match d.param with
    | none => .error .operational
    | some t => .ok { d with param := some ⟨t.cols ++ [(n, defaultOf ty)], t.rows.map fun r m => if m = n then defaultOf ty else r m⟩ }

/-- `output/solver_stats.py` lines 126-199 `create_results_table`: the statements it issues.  Columns are added only if the table has fewer columns
than needed, not counting its key. -/
def plan (cols : List (String × CType)) (d : Disk D) : List Op :=
  match d.param with
  | none => [.createParam cols, .createData, .createTiming]
  | some t =>
    if t.cols.length > cols.length + 1 then []
    else if cols.length > t.cols.length - 1 then (cols.filter fun c => c.1 ∉ t.cols.map Prod.fst).map fun c => .addColumn c.1 c.2
    else []

/-- execution of a list of statements -/
def execAll : List Op → Disk D → Except Err (Disk D)
  | [], d => .ok d
  | o :: os, d => match exec d o with
    | .error e => .error e
    | .ok d' => execAll os d'

/-- opening, stopped by a crash after `k` statements if `k` is given -/
def openDb (cols : List (String × CType)) (crash : Option Nat) (d : Disk D) : Except Err (Disk D) :=
  match crash with
  | none => execAll (plan cols d) d
  | some k => execAll ((plan cols d).take k) d

/-- what one step stores: a value for each column, rows for the other tables, and whether the timings are stored -/
structure Entry (D : Type) where
  values : String → Cell
  data : List D
  timing : Option (List D)

/-- next value of the key: SQLite takes one more than the largest; rows are never deleted, so it is one more than the number of rows -/
def newRow (cols : List (String × CType)) (t : Table) (v : String → Cell) : Row := fun n =>
  if n = "entry_id" then .num (t.rows.length + 1)
  else if n ∈ cols.map Prod.fst then v n
  else match t.cols.find? (fun c => c.1 = n) with
    | some c => c.2
    | none => .null

/-- `output/solver_stats.py` lines 258-264, the insertion into the table of parameters -/
def insertParam (cols : List (String × CType)) (e : Entry D) (d : Disk D) : Except Err (Disk D) :=
  match d.param with
  | none => .error .operational
  | some t => if ∀ c ∈ cols, c.1 ∈ t.cols.map Prod.fst then .ok { d with param := some { t with rows := t.rows ++ [newRow cols t e.values] } }
    else .error .operational

/-- `output/solver_stats.py` lines 277-285 -/
def insertData (e : Entry D) (d : Disk D) : Except Err (Disk D) :=
  match d.data with
  | none => .error .operational
  | some l => .ok { d with data := some (l ++ e.data) }

/-- `output/solver_stats.py` lines 287-299; nothing to store without timings -/
def insertTiming (e : Entry D) (d : Disk D) : Except Err (Disk D) :=
  match e.timing with
  | none => .ok d
  | some x => match d.timing with
    | none => .error .operational
    | some l => .ok { d with timing := some (l ++ x) }

/-- a connection: what is in the file, and what it will be after a commit -/
structure Conn (D : Type) where
  disk : Disk D
  view : Disk D

/-- the statements of one call of `write_output`, `output/solver_stats.py` lines 258-301; the last one is the commit.  The update of the run
number (lines 266-275) is part of the first insertion here. -/
def statements (cols : List (String × CType)) (e : Entry D) : List (Conn D → Except Err (Conn D)) :=
  [fun c => (insertParam cols e c.view).map fun v => { c with view := v },
   fun c => (insertData e c.view).map fun v => { c with view := v },
   fun c => (insertTiming e c.view).map fun v => { c with view := v },
   fun c => .ok { c with disk := c.view }]

/-- execution of a list of statements on a connection -/
def runAll : List (Conn D → Except Err (Conn D)) → Conn D → Except Err (Conn D)
  | [], c => .ok c
  | s :: ss, c => match s c with
    | .error e => .error e
    | .ok c' => runAll ss c'

/-- `output/solver_stats.py` lines 218-302 `_exec_write_output` on the process that writes -/
def write (cols : List (String × CType)) (e : Entry D) (d : Disk D) : Except Err (Disk D) := (runAll (statements cols e) ⟨d, d⟩).map Conn.disk

/-- the file after a crash that stops the call after `k` statements -/
def writeCrash (cols : List (String × CType)) (e : Entry D) (k : Nat) (d : Disk D) : Except Err (Disk D) :=
  (runAll ((statements cols e).take k) ⟨d, d⟩).map Conn.disk

/-- one execution of the program: the columns of its version, a crash while opening, the steps it completes, and a crash during a further step -/
structure Session (D : Type) where
  cols : List (String × CType)
  openCrash : Option Nat
  entries : List (Entry D)
  writeCrash : Option (Entry D × Nat)

/-- several steps -/
def writeAll (cols : List (String × CType)) : List (Entry D) → Disk D → Except Err (Disk D)
  | [], d => .ok d
  | e :: es, d => match write cols e d with
    | .error x => .error x
    | .ok d' => writeAll cols es d'

/-- one execution of the program -/
def session (s : Session D) (d : Disk D) : Except Err (Disk D) :=
  match openDb s.cols s.openCrash d with
  | .error x => .error x
  | .ok d1 => match s.openCrash with
    | some _ => .ok d1
    | none => match writeAll s.cols s.entries d1 with
      | .error x => .error x
      | .ok d2 => match s.writeCrash with
        | none => .ok d2
        | some (e, k) => writeCrash s.cols e k d2

/-- several executions, one after the other, with the same file -/
def sessions : List (Session D) → Disk D → Except Err (Disk D)
  | [], d => .ok d
  | s :: ss, d => match session s d with
    | .error x => .error x
    | .ok d' => sessions ss d'

/-! ## Opening by several processes -/

/-- how opening ends on a process: the constructor returns, raises, or waits for a collective call that never completes -/
inductive End | returns | raises | waits
  deriving DecidableEq

/-- `output/solver_stats.py` lines 91-124: process 0 opens the file and tells the others by `allreduce`; only `OperationalError` is told.
`sqlite` says whether the module could be imported. -/
def opening (sqlite : Bool) (result : Option Err) (rank : Nat) : End :=
  if sqlite = false then .returns
  else match result with
    | none => .returns
    | some .operational => .raises
    | some .database => if rank = 0 then .raises else .waits

/-- `output/output_manager.py` lines 60-75 and `output/solver_stats.py` lines 112-113: directory of the output files and directory of the
statistics, when the configured directory can or cannot be created -/
def outputDir (configured : String) (mayCreate : Bool) : String := if mayCreate then configured else "results"
@[inherit_doc outputDir] def statsDir (configured : String) (_mayCreate : Bool) : String := configured

/-! ## What is stored -/

/-- options of the configuration that the table knows -/
structure Params where
  num_solpts : Nat
  num_elements_horizontal_total : Nat
  num_elements_vertical : Nat
  dt : ℚ
  equations : String
  case_number : Int
  grid_type : String
  time_integrator : String
  tolerance : ℚ
  gmres_restart : Nat
  preconditioner : String
  dg_to_fv_interp : String
  precond_tolerance : ℚ
  mg_smoother : String
  kiops_dt_factor : ℚ
  num_mg_levels : Nat
  mg_solve_coarsest : Bool
  num_pre_smoothe : Nat
  num_post_smoothe : Nat
  pseudo_cfl : ℚ
  /-- absent unless the smoother is `exp` -/
  radii : Option (List ℚ)
  iters : Option (List Nat)
  x0 : ℚ
  x1 : ℚ
  z0 : ℚ
  z1 : ℚ
  ztop : ℚ
  deriving DecidableEq

/-- `output/solver_stats.py` lines 305-329 `_sanitize_params` -/
def sanitize (p : Params) : Params :=
  if p.preconditioner = "none" then
    { p with
      dg_to_fv_interp := "none", precond_tolerance := 0, mg_smoother := "none", kiops_dt_factor := 0, num_mg_levels := 0,
      mg_solve_coarsest := true, num_pre_smoothe := 0, num_post_smoothe := 0, pseudo_cfl := 0, radii := some [], iters := some [] }
  else if p.preconditioner ∈ ["p-mg", "fv-mg"] then
    let a := if p.mg_smoother ∈ ["kiops", "exp"] then { p with pseudo_cfl := 0 } else p
    let b := if a.mg_smoother ∈ ["erk1", "erk3", "ark1", "exp"] then { a with kiops_dt_factor := 0 } else a
    if b.mg_smoother ∈ ["erk1", "erk3", "ark1", "kiops"] then { b with radii := some [], iters := some [] } else b
  else p

/-- measurements of one step -/
structure Measured where
  dt : ℚ
  simulation_time : ℚ
  total_solve_time : ℚ
  num_solver_it : Nat
  solver_time : ℚ
  solver_flag : Int
  /-- the preconditioner, if one was used; the spectral radii of its levels, if it has such an attribute (`Multigrid` with smoother `exp`,
  `precondition/multigrid.py` line 377, but not `Factorization`, `precondition/factorization.py` lines 14-41) -/
  precond : Option (Option (List ℚ))
  deriving DecidableEq

/-- `str` of a list of numbers -/
def strOf (show_ : ℚ → String) (l : List ℚ) : String := "[" ++ ", ".intercalate (l.map show_) ++ "]"

/-- `output/solver_stats.py` lines 242-256: the radii stored in the first step; the attribute is read whenever the configuration has radii and
there is a preconditioner -/
def radiiOf (p : Params) (m : Measured) : Except String (List ℚ) :=
  match p.radii, m.precond with
  | some (_ :: _), some (some l) => .ok l
  | some (_ :: _), some none => .error "AttributeError"
  | _, _ => .ok []

/-- `output/solver_stats.py` lines 29-85 and 234-256: columns with their types and the values of a row, for the first step of a run, from options that
have been sanitized -/
def columns (show_ : ℚ → String) (p : Params) (procs : Nat) (backend : String) (m : Measured) (radii : List ℚ) : List (String × CType × Cell) :=
  [("run_id", .int, .num (-1)), ("step_id", .int, .num 0), ("dg_order", .int, .num p.num_solpts),
   ("num_elem_h", .int, .num p.num_elements_horizontal_total), ("num_elem_v", .int, .num p.num_elements_vertical),
   ("initial_dt", .int, .num p.dt), ("dt", .int, .num m.dt), ("equations", .text, .text p.equations),
   ("case_number", .int, .num p.case_number), ("grid_type", .text, .text p.grid_type),
   ("time_integrator", .text, .text p.time_integrator), ("solver_tol", .float, .num p.tolerance),
   ("gmres_restart", .int, .num p.gmres_restart),
   ("precond", .text, .text (if m.precond.isSome then p.preconditioner else "none")),
   ("precond_interp", .text, .text p.dg_to_fv_interp), ("precond_tol", .float, .num p.precond_tolerance),
   ("mg_smoother", .text, .text p.mg_smoother), ("kiops_dt_factor", .float, .num p.kiops_dt_factor),
   ("num_mg_levels", .int, .num p.num_mg_levels), ("mg_solve_coarsest", .bool, .flag p.mg_solve_coarsest),
   ("num_pre_smoothe", .int, .num p.num_pre_smoothe), ("num_post_smoothe", .int, .num p.num_post_smoothe),
   ("pseudo_cfl", .float, .num p.pseudo_cfl), ("simulation_time", .float, .num m.simulation_time),
   ("total_solve_time", .float, .num m.total_solve_time), ("num_solver_it", .int, .num m.num_solver_it),
   ("solver_time", .float, .num m.solver_time), ("solver_flag", .int, .num m.solver_flag), ("backend", .text, .text backend),
   ("smoother_radii", .text, .text (match p.radii with | none => "" | some l => strOf show_ l)),
   ("exp_radius_0", .float, .num (radii.getD 0 0)), ("exp_radius_1", .float, .num (radii.getD 1 0)), ("exp_radius_2", .float, .num (radii.getD 2 0)),
   ("exp_radius_3", .float, .num (radii.getD 3 0)), ("exp_radius_4", .float, .num (radii.getD 4 0)),
   ("num_procs", .int, .num procs)] ++
  (if p.grid_type = "cartesian2d" then
    [("x0", .float, .num p.x0), ("x1", .float, .num p.x1), ("z0", .float, .num p.z0), ("z1", .float, .num p.z1), ("ztop", .float, .num 0)]
  else if p.grid_type = "cubed_sphere" then
    [("x0", .float, .num 0), ("x1", .float, .num 0), ("z0", .float, .num 0), ("z1", .float, .num 0), ("ztop", .float, .num p.ztop)]
  else [])

/-- the row of the first step of a run, `output/solver_stats.py` lines 105-106 and 234-264 -/
def record (show_ : ℚ → String) (given : Params) (procs : Nat) (backend : String) (m : Measured) : Except String (List (String × CType × Cell)) :=
  match radiiOf (sanitize given) m with
  | .error e => .error e
  | .ok l => .ok (columns show_ (sanitize given) procs backend m l)

end WxVerif.StatsDb
