import Mathlib.Data.List.Sort

/-!
# Model of the NumPy operations used to change the memory layout

An array is a shape and a function of the list of its indices; elements are stored in row-major order, which is what
`reshape` relies on.  Only the operations and the argument forms used by the layout functions of the geometries are modelled.
-/

namespace WxVerif.Nd

/-- an n-dimensional array -/
structure Arr (α : Type*) where
  shape : List Nat
  get : List Nat → α

/-- number of elements of a shape -/
def size (s : List Nat) : Nat := s.prod

/-- position of an element in row-major order -/
def ravel : List Nat → List Nat → Nat
  | _ :: ss, i :: is => i * size ss + ravel ss is
  | _, _ => 0

/-- indices of the element at a position of the row-major order -/
def unravel : List Nat → Nat → List Nat
  | [], _ => []
  | _ :: ss, k => k / size ss :: unravel ss (k % size ss)

/-- indices inside a shape -/
def Valid (idx shape : List Nat) : Prop := List.Forall₂ (fun i s => i < s) idx shape

variable {α : Type*}

/-- `a.reshape(shape)` (NumPy raises when the sizes differ; the callers check the shapes first) -/
def reshape (shape : List Nat) (a : Arr α) : Arr α := ⟨shape, fun idx => a.get (unravel a.shape (ravel shape idx))⟩

/-- `a.transpose(order)`: axis `k` of the result is axis `order[k]` of `a` -/
def transpose (order : List Nat) (a : Arr α) : Arr α :=
  ⟨order.map fun ax => a.shape.getD ax 0, fun idx => a.get ((List.range a.shape.length).map fun ax => idx.getD (order.idxOf ax) 0)⟩

/-- negative axes count from the end -/
def normAxis (ndim : Nat) (a : Int) : Nat := if a < 0 then (ndim + a).toNat else a.toNat

/-- Python's `list.insert` -/
def insertAt (l : List Nat) (d s : Nat) : List Nat := l.take d ++ s :: l.drop d

/-- the axis order computed by `numpy.moveaxis`: the other axes, then the sources inserted in the order of their destinations -/
def moveOrder (ndim : Nat) (src dst : List Nat) : List Nat :=
  ((dst.zip src).insertionSort fun a b => a.1 < b.1 ∨ a.1 = b.1 ∧ a.2 ≤ b.2).foldl (fun o ds => insertAt o ds.1 ds.2)
    ((List.range ndim).filter fun ax => !src.contains ax)

/-- `xp.moveaxis(a, src, dst)` -/
def moveaxis (src dst : List Int) (a : Arr α) : Arr α :=
  transpose (moveOrder a.shape.length (src.map (normAxis a.shape.length)) (dst.map (normAxis a.shape.length))) a

/-- `xp.swapaxes(a, x, y)` -/
def swapaxes (x y : Int) (a : Arr α) : Arr α :=
  let n := a.shape.length
  transpose ((List.range n).map fun ax => if ax = normAxis n x then normAxis n y else if ax = normAxis n y then normAxis n x else ax) a

/-- `xp.squeeze(a)` -/
def squeeze (a : Arr α) : Arr α :=
  let rec fill : List Nat → List Nat → List Nat
    | [], _ => []
    | 1 :: ss, is => 0 :: fill ss is
    | _ :: ss, i :: is => i :: fill ss is
    | _ :: ss, [] => 0 :: fill ss []
  ⟨a.shape.filter (· ≠ 1), fun idx => a.get (fill a.shape idx)⟩

/-- one entry of an indexing expression: `:`, `lo:hi` or an integer (negative values already resolved) -/
inductive Sl where
  | all
  | range (lo hi : Nat)
  | one (k : Nat)

/-- the index in the assigned value of an index of the target, if it is in the slice -/
def inside : List Sl → List Nat → Option (List Nat)
  | [], [] => some []
  | .all :: s, i :: is => (inside s is).map (i :: ·)
  | .range lo hi :: s, i :: is => if lo ≤ i ∧ i < hi then (inside s is).map ((i - lo) :: ·) else none
  | .one k :: s, i :: is => if i = k then inside s is else none
  | _, _ => none

/-- `a[..., s] = v` with an array `v` of the shape of the slice -/
def assign (s : List Sl) (v a : Arr α) : Arr α :=
  ⟨a.shape, fun idx =>
    match inside s (idx.drop (idx.length - s.length)) with
    | some t => v.get (idx.take (idx.length - s.length) ++ t)
    | none => a.get idx⟩

/-- `a[..., s] = c` with a scalar `c` -/
def assignConst (s : List Sl) (c : α) (a : Arr α) : Arr α :=
  ⟨a.shape, fun idx => if (inside s (idx.drop (idx.length - s.length))).isSome then c else a.get idx⟩

/-- put the integers of an indexing expression into an index of the result -/
def fillSl : List Sl → List Nat → List Nat
  | [], _ => []
  | .one k :: s, is => k :: fillSl s is
  | .range lo _ :: s, i :: is => (lo + i) :: fillSl s is
  | .all :: s, i :: is => i :: fillSl s is
  | _ :: s, [] => 0 :: fillSl s []

/-- number of axes kept by an indexing expression -/
def kept : List Sl → Nat
  | [] => 0
  | .one _ :: s => kept s
  | _ :: s => kept s + 1

/-- shape of the result of an indexing expression -/
def slShape : List Sl → List Nat → List Nat
  | .one _ :: s, _ :: ds => slShape s ds
  | .all :: s, d :: ds => d :: slShape s ds
  | .range lo hi :: s, _ :: ds => (hi - lo) :: slShape s ds
  | _, _ => []

/-- `a[..., s]` -/
def select (s : List Sl) (a : Arr α) : Arr α :=
  ⟨a.shape.take (a.shape.length - s.length) ++ slShape s (a.shape.drop (a.shape.length - s.length)),
    fun idx => a.get (idx.take (idx.length - kept s) ++ fillSl s (idx.drop (idx.length - kept s)))⟩

/-- `xp.repeat(a, count, axis)` -/
def rept (count axis : Nat) (a : Arr α) : Arr α :=
  ⟨a.shape.modify axis (· * count), fun idx => a.get (idx.modify axis (· / count))⟩

/-- `xp.tile(a, reps)` with as many repetition counts as axes -/
def tile (reps : List Nat) (a : Arr α) : Arr α :=
  ⟨List.zipWith (· * ·) reps a.shape, fun idx => a.get (List.zipWith (· % ·) idx a.shape)⟩

end WxVerif.Nd
