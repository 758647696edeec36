import Mathlib.Data.Nat.Sqrt
import Mathlib.Algebra.Field.Defs

/-!
# Model of `wx_factory/process_topology.py` (class `ProcessTopology`)

Ranks, sizes and grid positions are unbounded integers, as in Python.  The model follows the
constructor statement by statement; MPI collectives are modelled by their standard semantics.
-/

namespace WxVerif.Topology

/-- `SOUTH, NORTH, WEST, EAST = 0, 1, 2, 3` (process_topology.py:14-17): the four sides of a tile. -/
inductive Side
  | south | north | west | east
  deriving DecidableEq, Repr

/-- Order of the four slots of `sources`/`destinations`/`send_buffer`
(process_topology.py:258-260, 306-309). -/
def Side.all : List Side := [.south, .north, .west, .east]

/-- `self.num_pe_per_panel = int(self.size / 6)` (process_topology.py:69).
Simplification: the float quotient is exact integer division (sizes below 2^53). -/
def numPe (size : Nat) : Nat := size / 6

/-- `self.num_lines_per_panel = int(math.sqrt(self.num_pe_per_panel))` (process_topology.py:70).
Simplification: the float square root is the exact integer square root. -/
def numLines (size : Nat) : Nat := Nat.sqrt (numPe size)

/-- The size check of the constructor (process_topology.py:72-82).  The error value carries the two
"closest allowed processor counts" put in the `ValueError` message. -/
def checkSize (size : Nat) : Except (Nat × Nat) Unit :=
  if size < 6 ∨ numPe size ≠ numLines size ^ 2 ∨ numPe size * 6 ≠ size then
    .error (numLines size ^ 2 * 6, (numLines size + 1) ^ 2 * 6)
  else
    .ok ()

/-- `rank_from_location(panel, row, col)` (process_topology.py:84-89). -/
def rankFromLocation (size : Nat) (panel : Nat) (row col : Int) : Int :=
  let row := if row < 0 then row + numLines size else row
  let col := if col < 0 then col + numLines size else col
  panel * numPe size + row * numLines size + col

/-- `self.my_panel = math.floor(self.rank / self.num_pe_per_panel)` (process_topology.py:91). -/
def myPanel (size rank : Nat) : Nat := rank / numPe size

/-- `self.my_rank_in_panel` (process_topology.py:92). -/
def myRankInPanel (size rank : Nat) : Nat := rank - myPanel size rank * numPe size

/-- `self.my_row` (process_topology.py:93). -/
def myRow (size rank : Nat) : Nat := myRankInPanel size rank / numLines size

/-- `self.my_col` (process_topology.py:94). -/
def myCol (size rank : Nat) : Nat := myRankInPanel size rank % numLines size

/-- `all_neighbors` (process_topology.py:105-113): panel next to each side of each panel.
Panels outside 0..5 cannot occur (the Python list would raise `IndexError`). -/
def allNeighbors : Nat → Side → Nat
  | 0, .south => 5 | 0, .north => 4 | 0, .west => 3 | 0, .east => 1
  | 1, .south => 5 | 1, .north => 4 | 1, .west => 0 | 1, .east => 2
  | 2, .south => 5 | 2, .north => 4 | 2, .west => 1 | 2, .east => 3
  | 3, .south => 5 | 3, .north => 4 | 3, .west => 2 | 3, .east => 0
  | 4, .south => 0 | 4, .north => 2 | 4, .west => 3 | 4, .east => 1
  | 5, .south => 2 | 5, .north => 0 | 5, .west => 3 | 5, .east => 1
  | _, _ => 0

/-- `edge_coords` (process_topology.py:117-125): (row, col) of the tile across each panel edge,
negative values counting from the end. -/
def edgeCoords (row col : Int) : Nat → Side → Int × Int
  | 0, .south => (-1, col)      | 0, .north => (0, col)       | 0, .west => (row, -1)      | 0, .east => (row, 0)
  | 1, .south => (-col - 1, -1) | 1, .north => (col, -1)      | 1, .west => (row, -1)      | 1, .east => (row, 0)
  | 2, .south => (0, -col - 1)  | 2, .north => (-1, -col - 1) | 2, .west => (row, -1)      | 2, .east => (row, 0)
  | 3, .south => (col, 0)       | 3, .north => (-col - 1, 0)  | 3, .west => (row, -1)      | 3, .east => (row, 0)
  | 4, .south => (-1, col)      | 4, .north => (-1, -col - 1) | 4, .west => (-1, -row - 1) | 4, .east => (-1, row)
  | 5, .south => (0, -col - 1)  | 5, .north => (0, col)       | 5, .west => (0, row)       | 5, .east => (0, -row - 1)
  | _, _ => (0, 0)

/-- `flips` (process_topology.py:128-135). -/
def flips : Nat → Side → Bool
  | 0, .south => false | 0, .north => false | 0, .west => false | 0, .east => false
  | 1, .south => true  | 1, .north => false | 1, .west => false | 1, .east => false
  | 2, .south => true  | 2, .north => true  | 2, .west => false | 2, .east => false
  | 3, .south => false | 3, .north => true  | 3, .west => false | 3, .east => false
  | 4, .south => false | 4, .north => true  | 4, .west => true  | 4, .east => false
  | 5, .south => true  | 5, .north => false | 5, .west => false | 5, .east => true
  | _, _ => false

section Convert
variable {K : Type*} [Field K]

/-- `convert_contras` (process_topology.py:138-175): conversion of contravariant components sent
across each panel edge; `x` is the gnomonic coordinate along that edge in the sender's panel.
Floats are elements of a field. -/
def convertContras : Nat → Side → K → K → K → K × K
  | 0, .south => fun a1 a2 x => (a1 + 2 * x / (1 + x ^ 2) * a2, a2)
  | 0, .north => fun a1 a2 x => (a1 - 2 * x / (1 + x ^ 2) * a2, a2)
  | 0, .west  => fun a1 a2 x => (a1, 2 * x / (1 + x ^ 2) * a1 + a2)
  | 0, .east  => fun a1 a2 x => (a1, -2 * x / (1 + x ^ 2) * a1 + a2)
  | 1, .south => fun a1 a2 x => (a2, -a1 - 2 * x / (1 + x ^ 2) * a2)
  | 1, .north => fun a1 a2 x => (-a2, a1 - 2 * x / (1 + x ^ 2) * a2)
  | 1, .west  => fun a1 a2 x => (a1, 2 * x / (1 + x ^ 2) * a1 + a2)
  | 1, .east  => fun a1 a2 x => (a1, -2 * x / (1 + x ^ 2) * a1 + a2)
  | 2, .south => fun a1 a2 x => (-a1 - 2 * x / (1 + x ^ 2) * a2, -a2)
  | 2, .north => fun a1 a2 x => (-a1 + 2 * x / (1 + x ^ 2) * a2, -a2)
  | 2, .west  => fun a1 a2 x => (a1, 2 * x / (1 + x ^ 2) * a1 + a2)
  | 2, .east  => fun a1 a2 x => (a1, -2 * x / (1 + x ^ 2) * a1 + a2)
  | 3, .south => fun a1 a2 x => (-a2, a1 + 2 * x / (1 + x ^ 2) * a2)
  | 3, .north => fun a1 a2 x => (a2, -a1 + 2 * x / (1 + x ^ 2) * a2)
  | 3, .west  => fun a1 a2 x => (a1, 2 * x / (1 + x ^ 2) * a1 + a2)
  | 3, .east  => fun a1 a2 x => (a1, -2 * x / (1 + x ^ 2) * a1 + a2)
  | 4, .south => fun a1 a2 x => (a1 + 2 * x / (1 + x ^ 2) * a2, a2)
  | 4, .north => fun a1 a2 x => (-a1 + 2 * x / (1 + x ^ 2) * a2, -a2)
  | 4, .west  => fun a1 a2 x => (-2 * x / (1 + x ^ 2) * a1 - a2, a1)
  | 4, .east  => fun a1 a2 x => (-2 * x / (1 + x ^ 2) * a1 + a2, -a1)
  | 5, .south => fun a1 a2 x => (-a1 - 2 * x / (1 + x ^ 2) * a2, -a2)
  | 5, .north => fun a1 a2 x => (a1 - 2 * x / (1 + x ^ 2) * a2, a2)
  | 5, .west  => fun a1 a2 x => (2 * x / (1 + x ^ 2) * a1 + a2, -a1)
  | 5, .east  => fun a1 a2 x => (2 * x / (1 + x ^ 2) * a1 - a2, a1)
  | _, _ => fun a1 a2 _ => (a1, a2)

/-- `convert_covs` (process_topology.py:177-214), verbatim: note `(-a2, -a2 + ...)` for
panel 2 south (line 191). -/
def convertCovs : Nat → Side → K → K → K → K × K
  | 0, .south => fun a1 a2 x => (a1, a2 - 2 * x / (1 + x ^ 2) * a1)
  | 0, .north => fun a1 a2 x => (a1, a2 + 2 * x / (1 + x ^ 2) * a1)
  | 0, .west  => fun a1 a2 x => (a1 - 2 * x / (1 + x ^ 2) * a2, a2)
  | 0, .east  => fun a1 a2 x => (a1 + 2 * x / (1 + x ^ 2) * a2, a2)
  | 1, .south => fun a1 a2 x => (a2 - 2 * x / (1 + x ^ 2) * a1, -a1)
  | 1, .north => fun a1 a2 x => (-a2 - 2 * x / (1 + x ^ 2) * a1, a1)
  | 1, .west  => fun a1 a2 x => (a1 - 2 * x / (1 + x ^ 2) * a2, a2)
  | 1, .east  => fun a1 a2 x => (a1 + 2 * x / (1 + x ^ 2) * a2, a2)
  | 2, .south => fun a1 a2 x => (-a2, -a2 + 2 * x / (1 + x ^ 2) * a1)
  | 2, .north => fun a1 a2 x => (-a1, -a2 - 2 * x / (1 + x ^ 2) * a1)
  | 2, .west  => fun a1 a2 x => (a1 - 2 * x / (1 + x ^ 2) * a2, a2)
  | 2, .east  => fun a1 a2 x => (a1 + 2 * x / (1 + x ^ 2) * a2, a2)
  | 3, .south => fun a1 a2 x => (-a2 + 2 * x / (1 + x ^ 2) * a1, a1)
  | 3, .north => fun a1 a2 x => (a2 + 2 * x / (1 + x ^ 2) * a1, -a1)
  | 3, .west  => fun a1 a2 x => (a1 - 2 * x / (1 + x ^ 2) * a2, a2)
  | 3, .east  => fun a1 a2 x => (a1 + 2 * x / (1 + x ^ 2) * a2, a2)
  | 4, .south => fun a1 a2 x => (a1, a2 - 2 * x / (1 + x ^ 2) * a1)
  | 4, .north => fun a1 a2 x => (-a1, -a2 - 2 * x / (1 + x ^ 2) * a1)
  | 4, .west  => fun a1 a2 x => (-a2, a1 - 2 * x / (1 + x ^ 2) * a2)
  | 4, .east  => fun a1 a2 x => (a2, -a1 - 2 * x / (1 + x ^ 2) * a2)
  | 5, .south => fun a1 a2 x => (-a1, -a2 + 2 * x / (1 + x ^ 2) * a1)
  | 5, .north => fun a1 a2 x => (a1, a2 + 2 * x / (1 + x ^ 2) * a1)
  | 5, .west  => fun a1 a2 x => (a2, -a1 + 2 * x / (1 + x ^ 2) * a2)
  | 5, .east  => fun a1 a2 x => (-a2, a1 + 2 * x / (1 + x ^ 2) * a2)
  | _, _ => fun a1 a2 _ => (a1, a2)

end Convert

/-- The conditions of the four `if` statements that override the default neighbour
(process_topology.py:230, 237, 244, 251). -/
def atPanelEdge (size rank : Nat) : Side → Bool
  | .north => (myRow size rank : Int) == numLines size - 1
  | .south => myRow size rank == 0
  | .west  => myCol size rank == 0
  | .east  => (myCol size rank : Int) == numLines size - 1

/-- Default neighbour, "Middle panel tile" (process_topology.py:224-227). -/
def interiorNeighbor (size rank : Nat) : Side → Int
  | .south => rankFromLocation size (myPanel size rank) ((myRow size rank : Int) - 1) (myCol size rank)
  | .north => rankFromLocation size (myPanel size rank) ((myRow size rank : Int) + 1) (myCol size rank)
  | .west  => rankFromLocation size (myPanel size rank) (myRow size rank) ((myCol size rank : Int) - 1)
  | .east  => rankFromLocation size (myPanel size rank) (myRow size rank) ((myCol size rank : Int) + 1)

/-- `my_south`, `my_north`, `my_west`, `my_east` after all overrides (process_topology.py:224-256);
these are the entries of `self.sources` = `self.destinations` (258-259). -/
def neighbor (size rank : Nat) (s : Side) : Int :=
  if atPanelEdge size rank s then
    let p := myPanel size rank
    let e := edgeCoords (myRow size rank) (myCol size rank) p s
    rankFromLocation size (allNeighbors p s) e.1 e.2
  else
    interiorNeighbor size rank s

/-- `self.flip[side]` after the overrides (process_topology.py:228-256). -/
def flip (size rank : Nat) (s : Side) : Bool :=
  if atPanelEdge size rank s then flips (myPanel size rank) s else false

/-- `self.convert_contra[side]` (process_topology.py:218-256). -/
def convertContra {K : Type*} [Field K] (size rank : Nat) (s : Side) (a1 a2 x : K) : K × K :=
  if atPanelEdge size rank s then convertContras (myPanel size rank) s a1 a2 x else (a1, a2)

/-- `self.convert_cov[side]` (process_topology.py:218-256). -/
def convertCov {K : Type*} [Field K] (size rank : Nat) (s : Side) (a1 a2 x : K) : K × K :=
  if atPanelEdge size rank s then convertCovs (myPanel size rank) s a1 a2 x else (a1, a2)

/-- `Ineighbor_alltoall` on the distributed graph built from `sources`/`destinations`
(process_topology.py:258-260, 314).  Standard MPI semantics: block `d'` of the buffer of process `s`
goes to `destinations(s)[d']`; process `r` stores in slot `d` the block sent to it by `sources(r)[d]`.
`none` if no such block exists (the message would be missing). -/
def neighborAlltoall {β : Type*} (size : Nat) (sendBuf : Nat → Side → β) (r : Nat) (d : Side) :
    Option β :=
  let s := neighbor size r d
  if s < 0 then none
  else (Side.all.find? fun d' => neighbor size s.toNat d' == (r : Int)).map (sendBuf s.toNat)

/-- `start_exchange_scalars(...)` followed by `wait()` (process_topology.py:269-320, 588-606), for
one line of values along each side (`flip_dim = -1`): the data of side `d` are reversed if
`flip[d]`, then exchanged.  Other array dimensions are carried along unchanged (the element type is
arbitrary). -/
def exchangeScalars {α : Type*} (size : Nat) (data : Nat → Side → List α) (r : Nat) (d : Side) :
    Option (List α) :=
  neighborAlltoall size (fun s d' => if flip size s d' then (data s d').reverse else data s d') r d

/-- `start_exchange_vectors(...)` followed by `wait()` (process_topology.py:322-386): components are
converted pointwise with the sender's boundary coordinate `bd`, the optional third component is
copied, then the line is reversed if `flip[d]`. -/
def exchangeVectors {K : Type*} [Field K] (covariant : Bool) (size : Nat)
    (data : Nat → Side → List (K × K × K)) (bd : Nat → Side → List K) (r : Nat) (d : Side) :
    Option (List (K × K × K)) :=
  let convert := if covariant then convertCov (K := K) size else convertContra size
  neighborAlltoall size
    (fun s d' =>
      let conv := List.zipWith
        (fun (v : K × K × K) x => let c := convert s d' v.1 v.2.1 x; (c.1, c.2, v.2.2)) (data s d') (bd s d')
      if flip size s d' then conv.reverse else conv)
    r d

end WxVerif.Topology
