import Verif.Model.Topology

/-!
# Model of the gather / distribute collectives of `wx_factory/process_topology.py`

A tile is a two-dimensional array (list of rows, south to north) with entries of any type.  Array
dimensions before the two horizontal ones (variables, levels) are handled by numpy independently for each
index and dimensions after them belong to the entry, so neither is modelled.  `none` stands for the
`ValueError` raised by numpy or by the checks.
-/

namespace WxVerif.Gather

open WxVerif.Topology

variable {α : Type*}

/-- a two-dimensional array, as its list of rows -/
abbrev Mat (α : Type*) := List (List α)

/-- `xp.concatenate(ms, axis=num_dim - 1)` (used at process_topology.py:437): join side by side; numpy raises
`ValueError` on an empty list or on different numbers of rows. -/
def hcat : List (Mat α) → Option (Mat α)
  | [] => none
  | m :: rest =>
    if rest.all (fun b => b.length == m.length) then
      some (rest.foldl (fun acc b => List.zipWith (· ++ ·) acc b) m)
    else none

/-- `xp.concatenate(ms, axis=num_dim - 2)` (used at process_topology.py:436-439): stack rows; numpy raises
`ValueError` on an empty list or on different numbers of columns. -/
def vcat (ms : List (Mat α)) : Option (Mat α) :=
  match ms.flatten with
  | [] => if ms.isEmpty then none else some []
  | r :: rs => if rs.all (fun r' => r'.length == r.length) then some (r :: rs) else none

/-- Members of `self.panel_comm = self.comm.Split(self.my_panel, self.rank)` (process_topology.py:264): the ranks
with the same panel, ordered by rank (standard MPI semantics of `Split`). -/
def panelComm (size p : Nat) : List Nat := (List.range size).filter fun r => myPanel size r == p

/-- Members of `self.panel_roots_comm = self.comm.Split(self.panel_comm.rank == 0, self.rank)`
(process_topology.py:265-267): the first rank of each panel communicator, ordered by rank. -/
def panelRootsComm (size : Nat) : List Nat :=
  (List.range size).filter fun r => (panelComm size (myPanel size r)).head? == some r

/-- `gather_tiles_to_panel` on the panel root (process_topology.py:421-442), `field.ndim ≥ 2`: `fields` is the list
gathered from the panel communicator. -/
def gatherTilesToPanel (size : Nat) (fields : List (Mat α)) : Option (Mat α) :=
  if numPe size = 1 then fields.head?
  else
    let side := numLines size
    ((List.range side).mapM fun i => hcat ((fields.drop (i * side)).take side)).bind vcat

/-- `gather_cube` on rank 0 (process_topology.py:444-469); `tiles r` is the argument on rank `r`. -/
def gatherCube (size : Nat) (tiles : Nat → Mat α) : Option (List (Mat α)) :=
  (panelRootsComm size).mapM fun root =>
    gatherTilesToPanel size ((panelComm size (myPanel size root)).map tiles)

/-- Number of rows and columns of the panels of a global field. -/
def panelShape (field : List (Mat α)) : Nat × Nat :=
  ((field.headD []).length, ((field.headD []).headD []).length)

/-- One tile of a panel: `panel[i*ts:(i+1)*ts, j*ts:(j+1)*ts]` (process_topology.py:528-531). -/
def tileSlice (ts : Nat) (panel : Mat α) (i j : Nat) : Mat α :=
  ((panel.drop (i * ts)).take ts).map fun row => (row.drop (j * ts)).take ts

/-- `distribute_cube` (process_topology.py:471-539): result on every rank, or `none` when the root's checks
raise (then all ranks raise, see the model of `SingleProcess`).  The inner `Option` of a rank stands for a scatter list
of the wrong length. -/
def distributeCube (size : Nat) (field : List (Mat α)) : Option (Nat → Option (Mat α)) :=
  let side := numLines size
  let rows := (panelShape field).1
  if field.length ≠ 6 ∨ rows ≠ (panelShape field).2 then none
  else if rows / side * side ≠ rows then none
  else
    some fun rank =>
      let root := ((panelComm size (myPanel size rank)).headD 0)
      -- panel_roots_comm.scatter(panel_list): the i-th root receives the i-th panel
      (field[(panelRootsComm size).idxOf root]?).bind fun panel =>
        if size = 6 then some panel
        else
          let ts := panel.length / side
          let tileList := (List.range side).flatMap fun i => (List.range side).map fun j => tileSlice ts panel i j
          -- panel_comm.scatter(tile_list)
          tileList[(panelComm size (myPanel size rank)).idxOf rank]?

end WxVerif.Gather
