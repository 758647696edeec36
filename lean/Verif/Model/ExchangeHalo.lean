import Verif.Model.Exchange
import Verif.Model.EulerSphere

/-!
# The arrays that the right-hand sides give to the exchange

Source: `wx_factory/rhs/rhs_dfr.py` 141-208, `wx_factory/rhs/rhs_sw.py` 99-150, `wx_factory/geometry/metric3d.py` 400-421,
`wx_factory/geometry/cubed_sphere_3d.py` 197, 560-568.
-/

namespace WxVerif.ExchangeHalo

open WxVerif.Nd WxVerif.Exchange
open WxVerif.Topology (Side)

section atmosphere
open WxVerif.EulerSphere
open WxVerif.ShallowWater (node)

variable (g : Atm) (Q : Field3)

/-- the slice of variable `v` that tile `r` gives for side `d` (`rhs_dfr.py` 142-173): the outer sides of the elements of the first or last row or column,
indexed by level, element along the side and node of the face -/
noncomputable def faces (v r : Nat) (d : Side) : Arr ℝ :=
  ⟨[g.nz, g.N, g.n * g.n], fun idx =>
    let ek := idx.getD 0 0
    let e := idx.getD 1 0
    let m := idx.getD 2 0
    match d with
    | .south => qJ g Q r ek 0 e v (node (g.n * g.n) false m)
    | .north => qJ g Q r ek (g.N - 1) e v (node (g.n * g.n) true m)
    | .west => qI g Q r ek e 0 v (node (g.n * g.n) false m)
    | .east => qI g Q r ek e (g.N - 1) v (node (g.n * g.n) true m)⟩

/-- the three slices of a vector (`rhs_dfr.py` 156-160) -/
noncomputable def vectorFaces (r : Nat) (d : Side) : Arr (ℝ × ℝ × ℝ) :=
  ⟨[g.nz, g.N, g.n * g.n], fun idx => ((faces g Q 1 r d).get idx, (faces g Q 2 r d).get idx, (faces g Q 3 r d).get idx)⟩

/-- `boundary_sn_new` and `boundary_we_new` (`cubed_sphere_3d.py` 563-568): the coordinates of the nodes of each element repeated for each level node -/
noncomputable def boundaryArray (r : Nat) (d : Side) : Arr ℝ :=
  ⟨[g.N, g.n, g.n], fun idx => (g.toGrid.boundary r d).getD (idx.getD 0 0 * g.n + idx.getD 2 0) 0⟩

/-- what `start_exchange_scalars(...)` and `wait()` give for variable `v` (`rhs_dfr.py` 148-155, 165-172, 184-201) -/
noncomputable def scalarHalo (v r : Nat) (d : Side) : Except String (Option (Arr ℝ)) :=
  exchangeScalarArrays g.size [g.N, g.n, g.n] [-3, -1] (faces g Q v) r d

/-- what `start_exchange_vectors(...)` and `wait()` give (`rhs_dfr.py` 156-164, 190-195) -/
noncomputable def vectorHalo (r : Nat) (d : Side) : Except String (Option (Arr (ℝ × ℝ × ℝ))) :=
  exchangeVectorArrays false g.size [-3, -1] (vectorFaces g Q) (boundaryArray g) r d

/-- the slices of the slopes that tile `r` gives for side `d` (`metric3d.py` 402-405, 414-418): indexed by level node and point along the side -/
noncomputable def slopeSides (f : Floor) (r : Nat) (d : Side) : Arr (ℝ × ℝ × ℝ) :=
  ⟨[g.nz * g.n, g.N * g.n], fun idx =>
    let ek := idx.getD 0 0 / g.n
    let e := idx.getD 1 0 / g.n
    let m := (idx.getD 0 0 % g.n) * g.n + idx.getD 1 0 % g.n
    match d with
    | .south => (exOwnJ g f 0 r ek 0 e false m, exOwnJ g f 1 r ek 0 e false m, exOwnJ g f 2 r ek 0 e false m)
    | .north => (exOwnJ g f 0 r ek (g.N - 1) e true m, exOwnJ g f 1 r ek (g.N - 1) e true m, exOwnJ g f 2 r ek (g.N - 1) e true m)
    | .west => (exOwnI g f 0 r ek e 0 false m, exOwnI g f 1 r ek e 0 false m, exOwnI g f 2 r ek e 0 false m)
    | .east => (exOwnI g f 0 r ek e (g.N - 1) true m, exOwnI g f 1 r ek e (g.N - 1) true m, exOwnI g f 2 r ek e (g.N - 1) true m)⟩

/-- what the exchange of the slopes gives (`metric3d.py` 409-421) -/
noncomputable def slopeHalo (f : Floor) (r : Nat) (d : Side) : Except String (Option (Arr (ℝ × ℝ × ℝ))) :=
  exchangeVectorArrays false g.size [-1] (slopeSides g f) (fun r d => ⟨[g.N * g.n], fun idx => (g.toGrid.boundary r d).getD (idx.getD 0 0) 0⟩) r d

end atmosphere

section shallow
open WxVerif.ShallowWater

variable (g : Grid) (t : Topography) (Q : Field)

/-- the slice of variable `v` that tile `r` gives for side `d` (`rhs_sw.py` 103-117), indexed by element along the side and node -/
noncomputable def sides (v r : Nat) (d : Side) : Arr ℝ :=
  ⟨[g.N, g.n], fun idx =>
    let e := idx.getD 0 0
    let l := idx.getD 1 0
    match d with
    | .south => extrapJ g t Q r 0 e v (node g.n false l)
    | .north => extrapJ g t Q r (g.N - 1) e v (node g.n true l)
    | .west => extrapI g t Q r e 0 v (node g.n false l)
    | .east => extrapI g t Q r e (g.N - 1) v (node g.n true l)⟩

/-- what the exchange of the height gives (`rhs_sw.py` 111-117, 145-150); the flip acts on the last axis by default (`process_topology.py` 269-279) -/
noncomputable def heightHalo (r : Nat) (d : Side) : Except String (Option (Arr ℝ)) :=
  exchangeScalarArrays g.size [g.N * g.n] [-1] (sides g t Q 0) r d

/-- what the exchange of the momentum gives (`rhs_sw.py` 103-110, 138-143) -/
noncomputable def momentumHalo (r : Nat) (d : Side) : Except String (Option (Arr (ℝ × ℝ × ℝ))) :=
  exchangeVectorArrays false g.size [-1]
    (fun r d => ⟨[g.N, g.n], fun idx => ((sides g t Q 1 r d).get idx, (sides g t Q 2 r d).get idx, 0)⟩)
    (fun r d => ⟨[g.N * g.n], fun idx => (g.boundary r d).getD (idx.getD 0 0) 0⟩) r d

end shallow

end WxVerif.ExchangeHalo
