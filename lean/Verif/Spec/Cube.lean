import Mathlib.Algebra.Field.Defs

/-!
# Specification: the surface of a cube made of six faces, each cut in `k × k` tiles

Written without reference to the model of the process topology.

Face `p` has an outward normal `e p` and in-plane unit vectors `a p` (west→east) and `b p`
(south→north), as in the picture of the documentation (panels 0..3 around the equator, 4 the north
cap, 5 the south cap).  A point of face `p` with gnomonic coordinates `(X, Y) ∈ [-1,1]²` is the 3D
point `e + X a + Y b`.
-/

namespace WxVerif.Cube

variable {K : Type*} [Field K]

abbrev V3 (K : Type*) := K × K × K

/-- outward normal of each face -/
def normal : Nat → V3 K
  | 0 => (1, 0, 0) | 1 => (0, 1, 0) | 2 => (-1, 0, 0) | 3 => (0, -1, 0) | 4 => (0, 0, 1) | _ => (0, 0, -1)

/-- west→east direction of each face -/
def eastward : Nat → V3 K
  | 0 => (0, 1, 0) | 1 => (-1, 0, 0) | 2 => (0, -1, 0) | 3 => (1, 0, 0) | 4 => (0, 1, 0) | _ => (0, 1, 0)

/-- south→north direction of each face -/
def northward : Nat → V3 K
  | 0 => (0, 0, 1) | 1 => (0, 0, 1) | 2 => (0, 0, 1) | 3 => (0, 0, 1) | 4 => (-1, 0, 0) | _ => (1, 0, 0)

/-- the 3D point with coordinates `(X, Y)` on face `p` -/
def point (p : Nat) (X Y : K) : V3 K :=
  let e := normal (K := K) p; let a := eastward (K := K) p; let b := northward (K := K) p
  (e.1 + X * a.1 + Y * b.1, e.2.1 + X * a.2.1 + Y * b.2.1, e.2.2 + X * a.2.2 + Y * b.2.2)

/-- The pair `(u₁, u₂)` of contravariant components (with respect to the angles `x₁ = arctan X`,
`x₂ = arctan Y`) represents at the point `(X, Y)` of face `p` the vector `V` of ℝ³, seen as a tangent
vector of the sphere: moving the angles moves the cube point by `u₁ (1+X²) a + u₂ (1+Y²) b`, and this
equals `V` up to a multiple of the radial direction. -/
def Represents (p : Nat) (X Y u1 u2 : K) (V : V3 K) : Prop :=
  let a := eastward (K := K) p; let b := northward (K := K) p; let P := point p X Y
  ∃ c : K,
    u1 * (1 + X ^ 2) * a.1 + u2 * (1 + Y ^ 2) * b.1 = V.1 + c * P.1 ∧
    u1 * (1 + X ^ 2) * a.2.1 + u2 * (1 + Y ^ 2) * b.2.1 = V.2.1 + c * P.2.1 ∧
    u1 * (1 + X ^ 2) * a.2.2 + u2 * (1 + Y ^ 2) * b.2.2 = V.2.2 + c * P.2.2

/-- The pair `(w₁, w₂)` of covariant components represents at the point `(X, Y)` of face `p` the
covector `W` of ℝ³ (a covector of the sphere: it ignores the radial direction): `wᵢ` is the rate of
change along the angle `xᵢ`. -/
def RepresentsCov (p : Nat) (X Y w1 w2 : K) (W : V3 K) : Prop :=
  let a := eastward (K := K) p; let b := northward (K := K) p; let P := point p X Y
  W.1 * P.1 + W.2.1 * P.2.1 + W.2.2 * P.2.2 = 0 ∧
  w1 = (1 + X ^ 2) * (W.1 * a.1 + W.2.1 * a.2.1 + W.2.2 * a.2.2) ∧
  w2 = (1 + Y ^ 2) * (W.1 * b.1 + W.2.1 * b.2.1 + W.2.2 * b.2.2)

/-- Place of a process: face, tile row (from the south), tile column (from the west). -/
structure Place where
  panel : Nat
  row : Nat
  col : Nat
  deriving DecidableEq, Repr

/-- The numbering in the documentation: faces in order, then rows from south to north, then columns
from west to east. -/
def placeOf (k rank : Nat) : Place :=
  ⟨rank / (k * k), rank % (k * k) / k, rank % k⟩

end WxVerif.Cube
