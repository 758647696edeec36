import Mathlib.Data.List.Basic

/-!
# Model of the statistics database

Sources: `wx_factory/output/solver_stats.py`, `wx_factory/rhs/rhs.py` (the time stamps) and `wx_factory/integrators/integrator.py`
(the end of a step).  A call of `_exec_write_output` is one SQL transaction (sqlite opens it at the first `insert`, line 267, and line
301 commits), so calls of several programs that share a database file are interleaved as wholes.  Only the columns that identify a row
are kept, next to the residual and the times.
-/

namespace WxVerif.Stats

/-- a row of `results_param`: `entry_id`, `run_id`, `step_id` (`solver_stats.py` 31–32, 132–137) -/
structure ParamRow where
  entry : Nat
  run : Int
  step : Nat
deriving DecidableEq

/-- a row of `results_data` (`solver_stats.py` 140–151) or `rhs_timing` (153–170): the content is a residual or the nine times -/
structure DataRow (α : Type*) where
  run : Int
  step : Nat
  iter : Nat
  val : α

/-- the three tables; `R` is what is stored of a residual, `T` a time -/
structure Db (R T : Type*) where
  params : List ParamRow
  data : List (DataRow R)
  timing : List (DataRow (List T))

/-- the columns that a `SolverStatsOutput` keeps between calls (`solver_stats.py` 103–104) -/
structure Writer where
  run : Int
  step : Nat

/-- a new `SolverStatsOutput` (`solver_stats.py` 103–104) -/
def newWriter : Writer := ⟨-1, 0⟩

/-- the key sqlite gives to a row inserted without one in an `integer PRIMARY KEY` column: one more than the largest -/
def nextKey (rows : List ParamRow) : Nat := (rows.map ParamRow.entry).foldl max 0 + 1

/-- `num_entries` (`solver_stats.py` 290) -/
def numEntries : Nat := 9

/-- `_exec_write_output` (`solver_stats.py` 218–302) on the writing process; `none` is an exception (`rhs_times[0]` of an empty list, or
    a list of times that does not fill the columns) -/
def write {R T : Type*} (db : Db R T) (w : Writer) (residuals : List R) (rhsTimes : Option (List (List T))) :
    Option (Db R T × Writer) :=
  let key := nextKey db.params
  let params := db.params ++ [⟨key, w.run, w.step⟩]
  let (params, run) :=
    if w.run < 0 then (params.map fun r => if r.entry = key then { r with run := (key : Int) } else r, (key : Int))
    else (params, w.run)
  let data := db.data ++ residuals.zipIdx.map fun r => ⟨run, w.step, r.2, r.1⟩
  let db' : Db R T := { params := params, data := data, timing := db.timing }
  match rhsTimes with
  | none => some (db', ⟨run, w.step + 1⟩)
  | some [] => none
  | some (t :: ts) =>
    if t.length = numEntries then
      if ts.all (fun u => u.length == numEntries) then
        some ({ db' with timing := db.timing ++ (t :: ts).zipIdx.map fun r => ⟨run, w.step, r.2, r.1⟩ }, ⟨run, w.step + 1⟩)
      else none
    else some (db', ⟨run, w.step + 1⟩)

/-- a call by the program with number `who` -/
structure Call (R T : Type*) where
  who : Nat
  residuals : List R
  times : Option (List (List T))

/-- the calls of any number of programs on one file, in the order of their transactions -/
def history {R T : Type*} : List (Call R T) → Option (Db R T × (Nat → Writer))
  | [] => some (⟨[], [], []⟩, fun _ => newWriter)
  | c :: earlier => (history earlier).bind fun st =>
    (write st.1 (st.2 c.who) c.residuals c.times).map fun r => (r.1, fun i => if i = c.who then r.2 else st.2 i)

/-! ## The times of the right-hand side -/

/-- `timestamps` (`none` before the first evaluation) and `timings` of a right-hand side (`rhs.py` 40–41) -/
structure Rhs (T : Type*) where
  stamps : Option T
  timings : List T

/-- a new right-hand side -/
def newRhs {T : Type*} : Rhs T := ⟨none, []⟩

/-- `RHS.__call__` (`rhs.py` 75–119): `t` stands for the time stamps of this evaluation, and for the times between them -/
def evaluate {T : Type*} (s : Rhs T) (t : T) : Rhs T :=
  match s.stamps with
  | some u => ⟨some t, s.timings ++ [u]⟩
  | none => ⟨some t, s.timings⟩

/-- the end of `Integrator.step` (`integrator.py` 99–106): the last times are retrieved and all timings are handed to the database;
    `none` is the `IndexError` of `elapsed` without time stamps -/
def endStep {T : Type*} (s : Rhs T) : Option (Rhs T × List T) :=
  s.stamps.map fun u => (⟨s.stamps, s.timings ++ [u]⟩, s.timings ++ [u])

/-- the timings handed over by each of a sequence of steps, given the evaluations of each step -/
def stepTimes {T : Type*} (s : Rhs T) : List (List T) → Option (List (List T))
  | [] => some []
  | evals :: rest => (endStep (evals.foldl evaluate s)).bind fun r => (stepTimes r.1 rest).map fun l => r.2 :: l

end WxVerif.Stats
