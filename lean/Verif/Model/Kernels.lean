import Verif.Model.EulerCartesian
import Verif.Model.Christoffel3D

/-!
# Model of the drivers of the compiled kernels

Sources: `wx_factory/pde/interface.hpp`, `wx_factory/pde/interface.cpp` (loops on the processor), `wx_factory/pde/interface.cu` (launches on a
graphics card), `wx_factory/pde/kernels/*.hpp`.

Arrays are flat, as in C: one function from the address to the value.  The arrays a kernel reads are constant during a call; the arrays it
writes are the memory.  The arithmetic of the kernels is that of `Model/Flux.lean` and `Model/Christoffel3D.lean` (exact reals).  The index
arithmetic is that of the natural numbers: the overflow of the type `int` is left out.
-/

namespace WxVerif.Kernels

open WxVerif.Flux

/-- a place in one of the written arrays -/
structure Addr where
  arr : Nat
  off : Nat
  deriving DecidableEq

/-- contents of the written arrays -/
abbrev Memory := Addr → ℝ

/-- A memory operation of a kernel: storing a value computed from the constant arrays, or copying an entry of a written array
(`riemann_flux.hpp` 75-79). -/
inductive Op where
  | set (a : Addr) (x : ℝ)
  | copy (dst src : Addr)

/-- effect of an operation -/
def Op.run (m : Memory) : Op → Memory
  | .set a x => fun b => if b = a then x else m b
  | .copy d s => fun b => if b = d then m s else m b

/-- operations one after the other -/
def exec (m : Memory) (ops : List Op) : Memory := ops.foldl Op.run m

/-- the addresses an operation reads or writes -/
def Op.uses : Op → List Addr
  | .set a _ => [a]
  | .copy d s => [d, s]

/-! ## Kernels -/

/-- `euler_state_2d` on a constant array — `interface.hpp` 57-79 -/
def readState (q : Nat → ℝ) (ind stride : Nat) : State2 :=
  ⟨q ind, q (stride + ind), q (2 * stride + ind), q (3 * stride + ind)⟩

/-- `*params.flux[dir].rho = …` and so on, in the order of the kernels — `interface.hpp` 57-79, `boundary_flux.hpp` 10-23, `riemann_flux.hpp`
61-73 -/
def storeState (arr ind stride : Nat) (s : State2) : List Op :=
  [.set ⟨arr, ind⟩ s.rho, .set ⟨arr, stride + ind⟩ s.rhoU, .set ⟨arr, 2 * stride + ind⟩ s.rhoW, .set ⟨arr, 3 * stride + ind⟩ s.rhoTheta]

/-- `riemann_eulercartesian_ausm_2d_kernel(params_l, params_r, dir)` — `riemann_flux.hpp` 5-80.  The array of direction `dir` is written: the
left flux, then its copy on the right. -/
noncomputable def faceOps (q : Nat → ℝ) (dir indl indr stride : Nat) : List Op :=
  storeState dir indl stride (ausmKernel dir (readState q indl stride) (readState q indr stride)).1 ++
  [.copy ⟨dir, indr⟩ ⟨dir, indl⟩, .copy ⟨dir, stride + indr⟩ ⟨dir, stride + indl⟩,
   .copy ⟨dir, 2 * stride + indr⟩ ⟨dir, 2 * stride + indl⟩, .copy ⟨dir, 3 * stride + indr⟩ ⟨dir, 3 * stride + indl⟩]

/-- `boundary_eulercartesian_2d_kernel(params, dir)` with `dir` 0 or 1 — `boundary_flux.hpp` 3-24 -/
noncomputable def wallOps (q : Nat → ℝ) (dir ind stride : Nat) : List Op :=
  storeState dir ind stride (boundaryKernel dir (readState q ind stride) ⟨0, 0, 0, 0⟩)

/-- `pointwise_eulercartesian_2d_kernel(params)` — `pointwise_flux.hpp` 3-31: both flux arrays -/
noncomputable def pointOps (q : Nat → ℝ) (ind stride : Nat) : List Op :=
  storeState 0 ind stride (pointwise2 0 (readState q ind stride)) ++ storeState 1 ind stride (pointwise2 1 (readState q ind stride))

/-- `forcing_euler_cubesphere_3d_kernel(params)` — `forcing.hpp` 6-100, with the positions of the variables (`euler_state_3d`, `interface.hpp`
81-109), of the metric terms and of the symbols (`definitions.hpp` 82-117) -/
noncomputable def forceOps (q pressure h christoffel : Nat → ℝ) (ind stride : Nat) : List Op :=
  let rho := q ind
  let u : Fin 3 → ℝ := ![q (stride + ind) / rho, q (2 * stride + ind) / rho, q (3 * stride + ind) / rho]
  let H (i : Nat) := h (ind + i * stride)
  let C (i : Nat) := christoffel (ind + i * stride)
  let f (o : Nat) := Christoffel3D.forcing1 rho u (pressure ind) ![C o, C (o + 1), C (o + 2)] (C (o + 3)) (C (o + 4)) (C (o + 5)) (C (o + 6))
    (C (o + 7)) (C (o + 8)) (H 0) (H 1) (H 2) (H 4) (H 5) (H 8)
  [.set ⟨0, stride + ind⟩ (f 0), .set ⟨0, 2 * stride + ind⟩ (f 9), .set ⟨0, 3 * stride + ind⟩ (f 18)]

/-! ## Loops on the processor -/

/-- `get_c_index(i, j, k, l, shape)` — `interface.hpp` 152-156 -/
def cIndex (i j k l s1 s2 s3 : Nat) : Nat := i * s1 * s2 * s3 + j * s2 * s3 + k * s3 + l

/-- `pointwise_eulercartesian_2d` — `interface.cpp` 11-48; one list of operations for every call of the kernel, in order -/
noncomputable def pointwiseCpu (q : Nat → ℝ) (nx1 nx2 tot : Nat) : List (List Op) :=
  let stride := nx1 * nx2 * tot
  (List.range nx2).flatMap fun i => (List.range nx1).flatMap fun j => (List.range tot).map fun k =>
    pointOps q (cIndex 0 i j k nx2 nx1 tot) stride

/-- `riemann_eulercartesian_ausm_2d` — `interface.cpp` 130-239 -/
noncomputable def riemannCpu (q1 q2 : Nat → ℝ) (nx1 nx2 n : Nat) : List (List Op) :=
  let stride := nx1 * nx2 * (2 * n)
  let at4 (i j k : Nat) := cIndex 0 i j k nx2 nx1 (2 * n)
  ((List.range nx2).flatMap fun i => (List.range nx1).flatMap fun j =>
    (if j + 1 < nx1 then (List.range n).map fun k => faceOps q1 0 (at4 i j (n + k)) (at4 i (j + 1) k) stride else []) ++
    (if i + 1 < nx2 then (List.range n).map fun k => faceOps q2 1 (at4 i j (n + k)) (at4 (i + 1) j k) stride else [])) ++
  ((List.range nx2).flatMap fun i => (List.range n).flatMap fun j =>
    [wallOps q1 0 (at4 i 0 j) stride, wallOps q1 0 (at4 i (nx1 - 1) (j + n)) stride]) ++
  ((List.range nx1).flatMap fun i => (List.range n).flatMap fun j =>
    [wallOps q2 1 (at4 0 i j) stride, wallOps q2 1 (at4 (nx2 - 1) i (j + n)) stride])

/-- `forcing_euler_cubesphere_3d` — `interface.cpp` 241-280 -/
noncomputable def forcingCpu (q pressure h christoffel : Nat → ℝ) (nx1 nx2 nx3 tot : Nat) : List (List Op) :=
  let stride := nx3 * nx2 * nx1 * tot
  (List.range nx3).flatMap fun i => (List.range nx2).flatMap fun j => (List.range nx1).flatMap fun k => (List.range tot).map fun s =>
    forceOps q pressure h christoffel (((i * nx2 + j) * nx1 + k) * tot + s) stride

/-! ## Launches on a graphics card -/

/-- the values `blockIdx * blockDim + threadIdx` of a launch along one axis, for `blocks` blocks of `dim` threads -/
def axis (blocks dim : Nat) : List Nat := (List.range blocks).flatMap fun b => (List.range dim).map fun t => b * dim + t

/-- `(extent + dim - 1) / dim` — `interface.cu` 164-165, 241-244, 262-265, 284-286, 301-303, 376 -/
def numBlocks (extent dim : Nat) : Nat := (extent + dim - 1) / dim

/-- A launch: the operations of every thread — `interface.cu` 19-22, 44-48, 97-100, 142-144.  Launches with no block at all start no thread (they
are refused by the runtime, which the code does not check). -/
def launch1 (extent dim : Nat) (body : Nat → List Op) : List (List Op) :=
  (axis (numBlocks extent dim) dim).map fun i => if i < extent then body i else []

/-- the same with two axes -/
def launch2 (ex ey dx dy : Nat) (body : Nat → Nat → List Op) : List (List Op) :=
  ((axis (numBlocks ex dx) dx) ×ˢ (axis (numBlocks ey dy) dy)).map fun (x, y) => if x < ex ∧ y < ey then body x y else []

/-- the same with three axes -/
def launch3 (ex ey ez dx dy dz : Nat) (body : Nat → Nat → Nat → List Op) : List (List Op) :=
  ((axis (numBlocks ex dx) dx) ×ˢ ((axis (numBlocks ey dy) dy) ×ˢ (axis (numBlocks ez dz) dz))).map fun (x, y, z) =>
    if x < ex ∧ y < ey ∧ z < ez then body x y z else []

/-- `launch_pointwise_euler_cartesian_2d` and its kernel — `interface.cu` 11-31, 151-177; `BLOCK_SIZE` is 256 (`definitions.hpp` 42) -/
noncomputable def pointwiseGpu (q : Nat → ℝ) (nx1 nx2 tot : Nat) : List (List (List Op)) :=
  [launch1 (nx1 * nx2 * tot) 256 fun ind => pointOps q ind (nx1 * nx2 * tot)]

/-- `launch_riemann_eulercartesian_ausm_2d` and its kernels — `interface.cu` 33-135, 212-314: four launches -/
noncomputable def riemannGpu (q1 q2 : Nat → ℝ) (nx1 nx2 n : Nat) : List (List (List Op)) :=
  let stride := nx1 * nx2 * (2 * n)
  let at4 (i j k : Nat) := cIndex 0 i j k nx2 nx1 (2 * n)
  [launch3 nx2 (nx1 - 1) n 8 8 8 fun ix iy iz => faceOps q1 0 (at4 ix iy (n + iz)) (at4 ix (iy + 1) iz) stride,
   launch3 (nx2 - 1) nx1 n 8 8 8 fun ix iy iz => faceOps q2 1 (at4 ix iy (n + iz)) (at4 (ix + 1) iy iz) stride,
   launch2 nx2 n 16 16 fun ix iy => wallOps q1 0 (at4 ix 0 iy) stride ++ wallOps q1 0 (at4 ix (nx1 - 1) (n + iy)) stride,
   launch2 nx1 n 16 16 fun ix iy => wallOps q2 1 (at4 0 ix iy) stride ++ wallOps q2 1 (at4 (nx2 - 1) ix (n + iy)) stride]

/-- `launch_forcing_euler_cubesphere_3d` and its kernel — `interface.cu` 137-149, 352-379: blocks of 128 threads; the pointers are moved from
entry 0 to the entry of the thread (`set_index`, `interface.hpp` 204-214) -/
noncomputable def forcingGpu (q pressure h christoffel : Nat → ℝ) (nx1 nx2 nx3 tot : Nat) : List (List (List Op)) :=
  let stride := nx1 * nx2 * nx3 * tot
  [launch1 stride 128 fun id => forceOps q pressure h christoffel (0 + id) stride]

/-- `select_riemann_eulercartesian_ausm_2d` — `interface.cu` 316-350: arrays of another type are left as they are, without an error
(also `select_pointwise_eulercartesian_2d` 179-210) -/
noncomputable def selectRiemannGpu (dtype : String) (q1 q2 : Nat → ℝ) (nx1 nx2 n : Nat) : List (List (List Op)) :=
  if dtype = "float64" then riemannGpu q1 q2 nx1 nx2 n
  else if dtype = "complex128" then riemannGpu q1 q2 nx1 nx2 n
  else []

end WxVerif.Kernels
