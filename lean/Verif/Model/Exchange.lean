import Verif.Model.Topology
import Verif.Model.NdArray

/-!
# Model of the exchange of whole arrays between neighbouring tiles

`start_exchange_scalars` / `start_exchange_vectors` take arrays with any number of leading axes (variables, levels), view their last axes as
the boundary, flip them if the neighbour runs the other way, and hand the arrays back in the shape they were given.
-/

namespace WxVerif.Exchange

open WxVerif.Topology (Side neighborAlltoall flip convertContra convertCov)
open WxVerif.Nd

/-- The loop `while product < length` (process_topology.py:555-557): `rest` holds the axes not yet used, last one first; the result is
`(num_fuse, product)`.  `initial_shape[-num_fuse]` raises `IndexError` when there are no axes left. -/
def fuse (length : Nat) : List Nat → Nat → Nat → Except String (Nat × Nat)
  | [], numFuse, product => if product < length then .error "IndexError" else .ok (numFuse, product)
  | d :: rest, numFuse, product =>
    if product < length then fuse length rest (numFuse + 1) (product * d) else .ok (numFuse, product)

/-- `get_base_shape(initial_shape, length_shape)` (process_topology.py:542-561) -/
def baseShape (initial lengthShape : List Nat) : Except String (List Nat) :=
  match initial.reverse with
  | [] => .error "IndexError"
  | last :: rest =>
    match fuse lengthShape.prod rest 1 last with
    | .error e => .error e
    | .ok (numFuse, product) =>
      if product ≠ lengthShape.prod then .error "ValueError" else .ok (initial.take (initial.length - numFuse) ++ lengthShape)

/-- `xp.flip(a, axis=axes)` (used at process_topology.py:313, 379) -/
def flipAxes {α : Type} (axes : List Int) (a : Arr α) : Arr α :=
  ⟨a.shape, fun idx =>
    a.get (idx.mapIdx fun ax i => if ax ∈ axes.map (normAxis a.shape.length) then a.shape.getD ax 0 - 1 - i else i)⟩

/-- `start_exchange_scalars(south, north, west, east, boundary_shape, flip_dim)` followed by `wait()` (process_topology.py:269-320, 564-606)
on process `r`, as seen on side `d`.  `data s d'` is the array process `s` gives for side `d'`.  Simplification: the arrays have the same
shape on all sides (the documentation asks for it) and on all processes, so the shape of the receiver is used for the views of the senders. -/
def exchangeScalarArrays {α : Type} (size : Nat) (boundaryShape : List Nat) (flipDim : List Int) (data : Nat → Side → Arr α) (r : Nat) (d : Side) :
    Except String (Option (Arr α)) :=
  let shape := (data r .south).shape
  match baseShape shape boundaryShape with
  | .error e => .error e
  | .ok base =>
    .ok ((neighborAlltoall size
      (fun s d' =>
        let tmp := reshape base (data s d')
        if flip size s d' then flipAxes flipDim tmp else tmp) r d).map (reshape shape))

/-- `start_exchange_vectors(...)` followed by `wait()` (process_topology.py:322-386, 564-606).  The arrays of the components are one array of
triples (with two components the third one is ignored); `bd` are the boundary coordinates, which NumPy broadcasts over the leading axes. -/
def exchangeVectorArrays {K : Type} [Field K] (covariant : Bool) (size : Nat) (flipDim : List Int) (data : Nat → Side → Arr (K × K × K))
    (bd : Nat → Side → Arr K) (r : Nat) (d : Side) : Except String (Option (Arr (K × K × K))) :=
  let convert := if covariant then convertCov (K := K) size else convertContra size
  let shape := (data r .south).shape
  match baseShape shape (bd r .south).shape with
  | .error e => .error e
  | .ok base =>
    .ok ((neighborAlltoall size
      (fun s d' =>
        let tmp := reshape base (data s d')
        let conv : Arr (K × K × K) := ⟨base, fun idx =>
          let v := tmp.get idx
          let c := convert s d' v.1 v.2.1 ((bd s d').get (idx.drop (idx.length - (bd s d').shape.length)))
          (c.1, c.2, v.2.2)⟩
        if flip size s d' then flipAxes flipDim conv else conv) r d).map (reshape shape))

end WxVerif.Exchange
