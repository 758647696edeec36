import Verif.Model.Flux
import Verif.Model.Dfr

/-!
# Model of the right-hand side of the two-dimensional Cartesian model

Sources: `wx_factory/rhs/rhs.py` (`RHS.__call__`), `wx_factory/rhs/rhs_dfr.py` (`RHSDirecFluxReconstruction`),
`wx_factory/pde/pde_euler_cartesian.py`, `wx_factory/pde/interface.cpp` 131-240.

An array of shape `(4, nz, nx, size)` is a function of the variable, the element row, the element column and the entry.  Exact
real arithmetic; the timing and the device are left out.  `nx` and `nz` are the numbers of elements, `n` the number of
solution points along a side of an element.
-/

namespace WxVerif.EulerCartesian

open WxVerif.Dfr WxVerif.Flux

/-- an array `(4, nz, nx, size)` -/
abbrev Arr := Nat → Nat → Nat → Nat → ℝ

/-- the four variables at one entry: the pointers of `euler_state_2d` — `wx_factory/pde/interface.hpp` 58-79,
`idx_2d_rho` … `idx_2d_rho_theta` in `wx_factory/common/definitions.py` 37-40 -/
def read (q : Arr) (ek ei l : Nat) : State2 := ⟨q 0 ek ei l, q 1 ek ei l, q 2 ek ei l, q 3 ek ei l⟩

/-- one variable of a state, the value at offset `v * stride` -/
def field (v : Nat) (s : State2) : ℝ := if v = 0 then s.rho else if v = 1 then s.rhoU else if v = 2 then s.rhoW else s.rhoTheta

/-- `q @ extrap_x` — `rhs_dfr.py` 18 -/
noncomputable def qItf1 (n : Nat) (pts : Nat → ℝ) (q : Arr) : Arr := fun v ek ei =>
  vecmul (n * n) (q v ek ei) (extrapX2 n (extrapVec n pts (-1)) (extrapVec n pts 1))

/-- `q @ extrap_z` — `rhs_dfr.py` 19 -/
noncomputable def qItf3 (n : Nat) (pts : Nat → ℝ) (q : Arr) : Arr := fun v ek ei =>
  vecmul (n * n) (q v ek ei) (extrapY2 n (extrapVec n pts (-1)) (extrapVec n pts 1))

/-- `f_x1`, `f_x3`: the flux of every solution point — `pde_euler_cartesian.py` `pointwise_fluxes`, `interface.cpp` 14-48 -/
noncomputable def pointwise (dir : Nat) (q : Arr) : Arr := fun v ek ei c => field v (pointwise2 dir (read q ek ei c))

/-- entry of a side in an array of `2 n` interface values: the first `n` belong to the west (bottom) side — `interface.cpp` 163-175 -/
def slot (n k : Nat) (side : Bool) : Nat := if side then n + k else k

/-- The loops over faces and walls on the array of the x1 direction — `interface.cpp` 152-176, 199-217.  The lines of different
element rows and nodes do not touch each other, so the loops are run line by line (`cartesianLine`). -/
noncomputable def riemann1 (n nx : Nat) (qi old : Arr) : Arr := fun v ek ei l =>
  let k := if l < n then l else l - n
  field v (cartesianLine 0 nx (fun e side => read qi ek e (slot n k side)) (fun e side => read old ek e (slot n k side)) ei (decide (n ≤ l)))

/-- The same on the array of the x3 direction — `interface.cpp` 178-195, 219-238. -/
noncomputable def riemann3 (n nz : Nat) (qi old : Arr) : Arr := fun v ek ei l =>
  let k := if l < n then l else l - n
  field v (cartesianLine 1 nz (fun e side => read qi e ei (slot n k side)) (fun e side => read old e ei (slot n k side)) ek (decide (n ≤ l)))

/-- what the object keeps from call to call: the two arrays of interface fluxes, `None` before the first call — `rhs.py` 58-60,
178-187 -/
abbrev Mem := Option (Arr × Arr)

/-- `RHS.__call__` — `rhs.py` 82-136 with the methods of `RHSDirecFluxReconstruction` and `PDEEulerCartesian.forcing_terms`
(`pde_euler_cartesian.py` 49-50).  The data type of the argument does not change between calls. -/
noncomputable def call (n nx nz : Nat) (pts : Nat → ℝ) (Δx1 Δx3 : ℝ) (mem : Mem) (q : Arr) : Mem × Arr :=
  let old := mem.getD (fun _ _ _ _ => 0, fun _ _ _ _ => 0)
  let f1 := pointwise 0 q
  let f3 := pointwise 1 q
  let itf1 := riemann1 n nx (qItf1 n pts q) old.1
  let itf3 := riemann3 n nz (qItf3 n pts q) old.2
  let rhs : Arr := fun v ek ei => rhsCartesian n pts Δx1 Δx3 (f1 v ek ei) (f3 v ek ei) (itf1 v ek ei) (itf3 v ek ei)
  (some (itf1, itf3), fun v ek ei c => if v = 2 then rhs v ek ei c - q 0 ek ei c * gravity else rhs v ek ei c)

/-- the memory after a sequence of calls -/
noncomputable def history (n nx nz : Nat) (pts : Nat → ℝ) (Δx1 Δx3 : ℝ) : List Arr → Mem
  | [] => none
  | q :: earlier => (call n nx nz pts Δx1 Δx3 (history n nx nz pts Δx1 Δx3 earlier) q).1

end WxVerif.EulerCartesian
