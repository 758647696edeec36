import Verif.Model.StatsDb

/-!
# Specification: what the file of solver statistics should contain
-/

namespace WxVerif.StatsDb
variable {D : Type}

/-- names of a list of columns -/
def names (cols : List (String × CType)) : List String := cols.map Prod.fst

/-- The steps a session has completed, each with the columns of its version: none if the program stopped while opening the file, and a step that was
interrupted counts only if its last statement, the commit, was executed. -/
def completed (s : Session D) : List (List (String × CType) × Entry D) :=
  match s.openCrash with
  | some _ => []
  | none => s.entries.map (fun e => (s.cols, e)) ++ (match s.writeCrash with
    | some (e, k) => if 4 ≤ k then [(s.cols, e)] else []
    | none => [])

/-- the steps completed by several sessions, in order -/
def allCompleted (ss : List (Session D)) : List (List (String × CType) × Entry D) := ss.flatMap completed

/-- the value rows get in a column that is added to an existing table: minus one for numbers, the word `none` for everything else -/
def added : CType → Cell
  | .int => .num (-1)
  | .float => .num (-1)
  | .bool => .text "none"
  | .text => .text "none"

/-- What a row has in a column its version does not know: nothing if the column is as old as the file, whose first version is `first`, and otherwise
the value of added columns for the type the column has in one of the versions `vs`. -/
def Missing (first : List (String × CType)) (vs : List (List (String × CType))) (n : String) (v : Cell) : Prop :=
  (n ∈ names first → v = .null) ∧ (n ∉ names first → ∃ c ∈ vs, ∃ ty, (n, ty) ∈ c ∧ v = added ty)

/-- A row is the record of step `x`: it has the values of this step in the columns of its version, and the columns it does not know are filled as
`Missing` says. -/
def Records (first : List (String × CType)) (vs : List (List (String × CType))) (table : List String) (x : List (String × CType) × Entry D) (r : Row) : Prop :=
  (∀ n ∈ names x.1, r n = x.2.values n) ∧ ∀ n ∈ table, n ≠ "entry_id" → n ∉ names x.1 → Missing first vs n (r n)

/-- The file holds exactly the steps `H`: one row for each, in order, numbered from one, in a table
that has all their columns, and their rows in the two other tables. -/
def Holds (first : List (String × CType)) (vs : List (List (String × CType))) (H : List (List (String × CType) × Entry D)) (d : Disk D) : Prop :=
  (∃ t, d.param = some t ∧ List.Forall₂ (Records first vs (t.cols.map Prod.fst)) H t.rows ∧
      (∀ x ∈ H, ∀ n ∈ names x.1, n ∈ t.cols.map Prod.fst) ∧ ∀ (i : Nat) (r : Row), t.rows[i]? = some r → r "entry_id" = .num ((i : ℚ) + 1)) ∧
    d.data = some (H.flatMap fun x => x.2.data) ∧ d.timing = some (H.flatMap fun x => x.2.timing.getD [])

/-- columns of a version: distinct names, none of them the name of the key -/
def Proper (cols : List (String × CType)) : Prop := (names cols).Nodup ∧ "entry_id" ∉ names cols

/-- Session `b`, later than session `a`, knows all columns of `a`'s version; or `a` has finished opening the file, and `b`'s version has no columns
besides those of `a`'s version. -/
def Compatible (a b : Session D) : Prop :=
  (∀ n ∈ names a.cols, n ∈ names b.cols) ∨ a.openCrash = none ∧ ∀ n ∈ names b.cols, n ∈ names a.cols

/-- Two configurations agree in the options that the table has a column for, apart from those that have no effect.  The extent of the domain depends on the grid; without
preconditioner its options have no effect; with multigrid the smoother decides which of its options matter. -/
def SameUse (p q : Params) : Prop :=
  p.num_solpts = q.num_solpts ∧ p.num_elements_horizontal_total = q.num_elements_horizontal_total ∧
  p.num_elements_vertical = q.num_elements_vertical ∧ p.dt = q.dt ∧ p.equations = q.equations ∧ p.case_number = q.case_number ∧
  p.grid_type = q.grid_type ∧ p.time_integrator = q.time_integrator ∧ p.tolerance = q.tolerance ∧ p.gmres_restart = q.gmres_restart ∧
  p.preconditioner = q.preconditioner ∧
  (p.grid_type = "cartesian2d" → p.x0 = q.x0 ∧ p.x1 = q.x1 ∧ p.z0 = q.z0 ∧ p.z1 = q.z1) ∧
  (p.grid_type = "cubed_sphere" → p.ztop = q.ztop) ∧
  (p.preconditioner ≠ "none" →
    p.dg_to_fv_interp = q.dg_to_fv_interp ∧ p.precond_tolerance = q.precond_tolerance ∧ p.mg_smoother = q.mg_smoother ∧
    p.num_mg_levels = q.num_mg_levels ∧ p.mg_solve_coarsest = q.mg_solve_coarsest ∧ p.num_pre_smoothe = q.num_pre_smoothe ∧
    p.num_post_smoothe = q.num_post_smoothe ∧
    (p.mg_smoother = "kiops" → p.kiops_dt_factor = q.kiops_dt_factor) ∧
    (p.mg_smoother ∈ ["erk1", "erk3", "ark3"] → p.pseudo_cfl = q.pseudo_cfl) ∧
    (p.mg_smoother = "exp" → p.radii = q.radii))

end WxVerif.StatsDb
