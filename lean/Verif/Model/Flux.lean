/-
Model of the numerical fluxes: the Rusanov fluxes of the 3D Euler equations, the finite-volume flux functions, the AUSM kernel of the
Cartesian model and its boundary kernel, and the AUSM fluxes of the shallow-water model, together with the loops and slices that apply
them to all faces of a line of elements and the bottom/top treatment of the 3D model.

Arithmetic is over the reals.  NumPy arrays `[..., position, :, side * itf_size + node]` are modelled one node at a time as functions of
the position along the line and of the side (`false`: first half of the nodes, i.e. west, south or bottom side of the element; `true`:
second half); all code modelled here acts on each node separately.  Square roots of negative numbers (negative pressure, density or
depth) are NaN in NumPy and 0 in `Real.sqrt`; the theorems state positivity where it matters.
-/
import Mathlib.Analysis.SpecialFunctions.Sqrt
import Mathlib.Analysis.SpecialFunctions.Pow.Real

namespace WxVerif.Flux

/-! ## Constants — `wx_factory/common/definitions.py` 5-13, `wx_factory/pde/definitions.hpp` 33-40 -/

noncomputable def gravity : ℝ := 9.80616
noncomputable def p0 : ℝ := 100000
noncomputable def Rd : ℝ := 287.05
noncomputable def cpd : ℝ := 1005.46
noncomputable def cvd : ℝ := cpd - Rd
noncomputable def heatCapacityRatio : ℝ := cpd / cvd

/-- Pressure of the 3D model, `p0 * exp((cpd / cvd) * log(rho_theta * (Rd / p0)))` — `wx_factory/pde/pde_euler_cubesphere.py` 158-160. -/
noncomputable def pressure3 (rhoTheta : ℝ) : ℝ := p0 * Real.exp (cpd / cvd * Real.log (rhoTheta * (Rd / p0)))

/-! ## Faces of a line of elements -/

/-- A flux routine writes, at each face between position `f` and position `f + 1` (`f = 0 … N`), a value on the `true` side of `f` and one on
the `false` side of `f + 1`; the other entries keep what the array held — the slices `[..., :-1, …, n:]` and `[..., 1:, …, :n]` of
`wx_factory/pde/fluxes.py` 163-164, 209-222, 339-340, 390-403, 521-522, 568-582 and `wx_factory/rhs/rhs_sw.py` 165-168, 178-188, 198-207.
`N + 2` positions, the first and the last being the halo. -/
def faces {α β : Type*} (N : Nat) (face : α → α → β × β) (itf : Nat → Bool → α) (init : Nat → Bool → β) (pos : Nat) (side : Bool) : β :=
  match side with
  | true => if pos ≤ N then (face (itf pos true) (itf (pos + 1) false)).1 else init pos true
  | false => if 1 ≤ pos ∧ pos ≤ N + 1 then (face (itf (pos - 1) true) (itf pos false)).2 else init pos false

/-! ## Rusanov fluxes of the 3D Euler equations -/

/-- what the flux functions read on one side of a face: all variables, the pressure, the normal velocity and the metric -/
structure Side3 where
  var : Nat → ℝ
  pres : ℝ
  vel : ℝ
  sqrtG : ℝ
  h : Nat → Nat → ℝ

/-- what they write on one side of a face -/
structure Out3 where
  flux : Nat → ℝ
  wadv : ℝ
  wpres : ℝ

/-- Vertical flux — `wx_factory/pde/fluxes.py` `rusanov_3d_vert_new` 150-222. -/
noncomputable def rusanovVert (advectionOnly : Bool) (d u : Side3) : Out3 × Out3 :=
  let eigD := if advectionOnly then |d.vel| else |d.vel| + Real.sqrt (d.h 2 2 * heatCapacityRatio * d.pres / d.var 0)
  let eigU := if advectionOnly then |u.vel| else |u.vel| + Real.sqrt (u.h 2 2 * heatCapacityRatio * u.pres / u.var 0)
  let eig := max eigD eigU
  let fluxD : Nat → ℝ := fun i => d.sqrtG * d.vel * d.var i
  let fluxU : Nat → ℝ := fun i => u.sqrtG * u.vel * u.var i
  let wadvD := fluxD 3
  let wadvU := fluxU 3
  let fluxD : Nat → ℝ := fun i => if i = 1 then fluxD i + d.sqrtG * d.h 2 0 * d.pres else
    if i = 2 then fluxD i + d.sqrtG * d.h 2 1 * d.pres else if i = 3 then fluxD i + d.sqrtG * d.h 2 2 * d.pres else fluxD i
  let fluxU : Nat → ℝ := fun i => if i = 1 then fluxU i + u.sqrtG * u.h 2 0 * u.pres else
    if i = 2 then fluxU i + u.sqrtG * u.h 2 1 * u.pres else if i = 3 then fluxU i + u.sqrtG * u.h 2 2 * u.pres else fluxU i
  let wpresD := d.sqrtG * d.h 2 2 * d.pres
  let wpresU := u.sqrtG * u.h 2 2 * u.pres
  let flux : Nat → ℝ := fun i => 0.5 * (fluxD i + fluxU i - eig * d.sqrtG * (u.var i - d.var i))
  let wadv := 0.5 * (wadvD + wadvU - eig * d.sqrtG * (u.var 3 - d.var 3))
  (⟨flux, wadv, 0.5 * (wpresD + wpresU) / d.pres⟩, ⟨flux, wadv, 0.5 * (wpresD + wpresU) / u.pres⟩)

/-- Flux along x1 — `fluxes.py` `rusanov_3d_hori_i_new` 326-403. -/
noncomputable def rusanovHoriI (advectionOnly : Bool) (l r : Side3) : Out3 × Out3 :=
  let eigL := if advectionOnly then |l.vel| else |l.vel| + Real.sqrt (l.h 0 0 * heatCapacityRatio * l.pres / l.var 0)
  let eigR := if advectionOnly then |r.vel| else |r.vel| + Real.sqrt (r.h 0 0 * heatCapacityRatio * r.pres / r.var 0)
  let eig := max eigL eigR
  let fluxL : Nat → ℝ := fun i => l.sqrtG * l.vel * l.var i
  let fluxR : Nat → ℝ := fun i => r.sqrtG * r.vel * r.var i
  let wadvL := fluxL 3
  let wadvR := fluxR 3
  let fluxL : Nat → ℝ := fun i => if i = 1 then fluxL i + l.sqrtG * l.h 0 0 * l.pres else
    if i = 2 then fluxL i + l.sqrtG * l.h 0 1 * l.pres else if i = 3 then fluxL i + l.sqrtG * l.h 0 2 * l.pres else fluxL i
  let fluxR : Nat → ℝ := fun i => if i = 1 then fluxR i + r.sqrtG * r.h 0 0 * r.pres else
    if i = 2 then fluxR i + r.sqrtG * r.h 0 1 * r.pres else if i = 3 then fluxR i + r.sqrtG * r.h 0 2 * r.pres else fluxR i
  let wpresL := l.sqrtG * l.h 0 2 * l.pres
  let wpresR := r.sqrtG * r.h 0 2 * r.pres
  let flux : Nat → ℝ := fun i => 0.5 * (fluxL i + fluxR i - eig * l.sqrtG * (r.var i - l.var i))
  let wadv := 0.5 * (wadvL + wadvR - eig * l.sqrtG * (r.var 3 - l.var 3))
  (⟨flux, wadv, 0.5 * (wpresL + wpresR) / l.pres⟩, ⟨flux, wadv, 0.5 * (wpresL + wpresR) / r.pres⟩)

/-- Flux along x2 — `fluxes.py` `rusanov_3d_hori_j_new` 507-582. -/
noncomputable def rusanovHoriJ (advectionOnly : Bool) (l r : Side3) : Out3 × Out3 :=
  let eigL := if advectionOnly then |l.vel| else |l.vel| + Real.sqrt (l.h 1 1 * heatCapacityRatio * l.pres / l.var 0)
  let eigR := if advectionOnly then |r.vel| else |r.vel| + Real.sqrt (r.h 1 1 * heatCapacityRatio * r.pres / r.var 0)
  let eig := max eigL eigR
  let fluxL : Nat → ℝ := fun i => l.sqrtG * l.vel * l.var i
  let fluxR : Nat → ℝ := fun i => r.sqrtG * r.vel * r.var i
  let wadvL := fluxL 3
  let wadvR := fluxR 3
  let fluxL : Nat → ℝ := fun i => if i = 1 then fluxL i + l.sqrtG * l.h 1 0 * l.pres else
    if i = 2 then fluxL i + l.sqrtG * l.h 1 1 * l.pres else if i = 3 then fluxL i + l.sqrtG * l.h 1 2 * l.pres else fluxL i
  let fluxR : Nat → ℝ := fun i => if i = 1 then fluxR i + r.sqrtG * r.h 1 0 * r.pres else
    if i = 2 then fluxR i + r.sqrtG * r.h 1 1 * r.pres else if i = 3 then fluxR i + r.sqrtG * r.h 1 2 * r.pres else fluxR i
  let wpresL := l.sqrtG * l.h 1 2 * l.pres
  let wpresR := r.sqrtG * r.h 1 2 * r.pres
  let flux : Nat → ℝ := fun i => 0.5 * (fluxL i + fluxR i - eig * l.sqrtG * (r.var i - l.var i))
  let wadv := 0.5 * (wadvL + wadvR - eig * l.sqrtG * (r.var 3 - l.var 3))
  (⟨flux, wadv, 0.5 * (wpresL + wpresR) / l.pres⟩, ⟨flux, wadv, 0.5 * (wpresL + wpresR) / r.pres⟩)

/-- the three flux functions by direction — `pde_euler_cubesphere.py` 162-199 -/
noncomputable def rusanov (d : Nat) : Bool → Side3 → Side3 → Out3 × Out3 :=
  if d = 0 then rusanovHoriI else if d = 1 then rusanovHoriJ else rusanovVert

/-! ## A vertical line of elements of the 3D model -/

/-- one entry of an array overwritten -/
def put {α : Type*} (a : Nat → Bool → α) (pos : Nat) (side : Bool) (v : α) : Nat → Bool → α :=
  fun p s => if p = pos ∧ s = side then v else a p s

/-- State of the `nz + 2` positions of a vertical line: ones, then the interior elements, then the outermost sides copied from the adjacent
interior side — `wx_factory/rhs/rhs_dfr.py` 238-240, 259, 265-268. -/
def fullX3 (nz : Nat) (q : Nat → Bool → Nat → ℝ) : Nat → Bool → Nat → ℝ :=
  let a : Nat → Bool → Nat → ℝ := fun p s => if 1 ≤ p ∧ p ≤ nz then q (p - 1) s else fun _ => 1
  let a := put a 0 true (a 1 false)
  let a := put a 0 false (a 0 true)
  let a := put a (nz + 1) false (a nz true)
  put a (nz + 1) true (a (nz + 1) false)

/-- Vertical velocity on all sides, with odd symmetry at the bottom and the top — `pde_euler_cubesphere.py` 148-156. -/
noncomputable def wItf (nz : Nat) (full : Nat → Bool → Nat → ℝ) : Nat → Bool → ℝ :=
  let w : Nat → Bool → ℝ := fun p s => full p s 3 / full p s 0
  let w := put w 0 false 0
  let w := put w 0 true (-w 1 false)
  let w := put w (nz + 1) true 0
  put w (nz + 1) false (-w nz true)

/-- Vertical fluxes handed to element `e` (`e = 0 … nz-1`) of a vertical line — `rhs_dfr.py` 259-302 and `pde_euler_cubesphere.py` 148-199.
`sqrtG` and `h` are the metric arrays `sqrtG_itf_k_new`, `h_contra_itf_k_new` at this node (`nz + 2` positions), `old` what the full
flux arrays held before. -/
noncomputable def riemannX3 (nz : Nat) (advectionOnly : Bool) (sqrtG : Nat → Bool → ℝ) (h : Nat → Bool → Nat → Nat → ℝ)
    (old : Nat → Bool → Out3) (q : Nat → Bool → Nat → ℝ) (e : Nat) (side : Bool) : Out3 :=
  let full := fullX3 nz q
  let w := wItf nz full
  let sides : Nat → Bool → Side3 := fun p s => ⟨full p s, pressure3 (full p s 4), w p s, sqrtG p s, h p s⟩
  faces nz (rusanovVert advectionOnly) sides old (e + 1) side

/-- State of the `nx + 2` positions of a horizontal line: the interior elements, and on the inner sides of the halo what the
neighbouring tiles sent — `rhs_dfr.py` 238-239, 257-264. -/
def fullHori (nx : Nat) (q : Nat → Bool → Nat → ℝ) (first last : Nat → ℝ) : Nat → Bool → Nat → ℝ :=
  let a : Nat → Bool → Nat → ℝ := fun p s => if 1 ≤ p ∧ p ≤ nx then q (p - 1) s else fun _ => 1
  let a := put a 0 true first
  put a (nx + 1) false last

/-- Horizontal fluxes handed to element `e` of a line along x1 (`d = 0`) or x2 (`d = 1`) — `rhs_dfr.py` 257-302,
`pde_euler_cubesphere.py` 146-187. -/
noncomputable def riemannHori (d nx : Nat) (advectionOnly : Bool) (sqrtG : Nat → Bool → ℝ) (h : Nat → Bool → Nat → Nat → ℝ)
    (old : Nat → Bool → Out3) (q : Nat → Bool → Nat → ℝ) (first last : Nat → ℝ) (e : Nat) (side : Bool) : Out3 :=
  let full := fullHori nx q first last
  let sides : Nat → Bool → Side3 := fun p s =>
    ⟨full p s, pressure3 (full p s 4), full p s (d + 1) / full p s 0, sqrtG p s, h p s⟩
  faces nx (rusanov d advectionOnly) sides old (e + 1) side

/-! ## Finite-volume flux functions -/

/-- one side of a face of the Cartesian finite-volume code: variables (density, two momenta, potential temperature), pressure and
the physical flux computed there -/
structure Side2 where
  var : Nat → ℝ
  pres : ℝ
  flux : Nat → ℝ

/-- `wx_factory/pde/fluxes.py` `ausm_2d_fv` 33-76 in direction `d` (0: 58-74, 1: 37-54). -/
noncomputable def ausm2dFv (d : Nat) (L R : Side2) : (Nat → ℝ) × (Nat → ℝ) :=
  let aL := Real.sqrt (heatCapacityRatio * L.pres / L.var 0)
  let mL := L.var (d + 1) / (L.var 0 * aL)
  let aR := Real.sqrt (heatCapacityRatio * R.pres / R.var 0)
  let mR := R.var (d + 1) / (R.var 0 * aR)
  let M := 0.25 * ((mL + 1) ^ 2 - (mR - 1) ^ 2)
  let flux : Nat → ℝ := fun i => L.var i * max 0 M * aL + R.var i * min 0 M * aR
  let flux : Nat → ℝ := fun i => if i = d + 1 then flux i + 0.5 * ((1 + mL) * L.pres + (1 - mR) * R.pres) else flux i
  (flux, flux)

/-- `fluxes.py` `upwind_2d_fv` 82-105 in direction `d`. -/
noncomputable def upwind2dFv (d : Nat) (L R : Side2) : (Nat → ℝ) × (Nat → ℝ) :=
  let flux : Nat → ℝ := if L.var (d + 1) + R.var (d + 1) > 0 then L.flux else R.flux
  (flux, flux)

/-- `fluxes.py` `rusanov_2d_fv` 108-147 in direction `d`. -/
noncomputable def rusanov2dFv (d : Nat) (L R : Side2) : (Nat → ℝ) × (Nat → ℝ) :=
  let eigL := |L.var (d + 1) / L.var 0| + Real.sqrt (heatCapacityRatio * L.pres / L.var 0)
  let eigR := |R.var (d + 1) / R.var 0| + Real.sqrt (heatCapacityRatio * R.pres / R.var 0)
  let flux : Nat → ℝ := fun i => 0.5 * (L.flux i + R.flux i - max |eigL| |eigR| * (R.var i - L.var i))
  (flux, flux)

/-! ## The compiled kernels of the Cartesian model -/

/-- the four fields of `euler_state_2d` -/
structure State2 where
  rho : ℝ
  rhoU : ℝ
  rhoW : ℝ
  rhoTheta : ℝ

/-- Pressure in the kernels, `p0 * pow(rho_theta * Rd * inp0, heat_capacity_ratio)` — `wx_factory/pde/kernels/riemann_flux.hpp` 32-33,
`boundary_flux.hpp` 13, 21. -/
noncomputable def pressure2 (rhoTheta : ℝ) : ℝ := p0 * (rhoTheta * Rd * (1 / p0)) ^ heatCapacityRatio

/-- Physical flux at a solution point — `wx_factory/pde/kernels/pointwise_flux.hpp`. -/
noncomputable def pointwise2 (dir : Nat) (q : State2) : State2 :=
  let invRho := 1 / q.rho
  let u := q.rhoU * invRho
  let w := q.rhoW * invRho
  let p := p0 * Real.exp (heatCapacityRatio * Real.log (Rd * (1 / p0) * q.rhoTheta))
  if dir = 0 then ⟨q.rhoU, q.rhoU * u + p, q.rhoU * w, q.rhoTheta * u⟩ else ⟨q.rhoW, q.rhoW * u, q.rhoW * w + p, q.rhoTheta * w⟩

/-- Flux at a face between two elements — `riemann_flux.hpp` `riemann_eulercartesian_ausm_2d_kernel` 5-80. -/
noncomputable def ausmKernel (dir : Nat) (l r : State2) : State2 × State2 :=
  let invRhol := 1 / l.rho
  let ul := l.rhoU * invRhol
  let wl := l.rhoW * invRhol
  let invRhor := 1 / r.rho
  let ur := r.rhoU * invRhor
  let wr := r.rhoW * invRhor
  let pl := pressure2 l.rhoTheta
  let pr := pressure2 r.rhoTheta
  let al := Real.sqrt (heatCapacityRatio * pl * invRhol)
  let ar := Real.sqrt (heatCapacityRatio * pr * invRhor)
  let vnl := if dir = 1 then wl else if dir = 0 then ul else 0
  let vnr := if dir = 1 then wr else if dir = 0 then ur else 0
  let Ml := vnl / al + 1
  let Mr := vnr / ar - 1
  let M := 0.25 * (Ml * Ml - Mr * Mr)
  let Mmax := max 0 M * al
  let Mmin := min 0 M * ar
  let rho := l.rho * Mmax + r.rho * Mmin
  let rhoU := if dir = 0 then 0.5 * (Ml * pl - Mr * pr) else l.rhoU * Mmax + r.rhoU * Mmin
  let rhoW := if dir = 0 then l.rhoW * Mmax + r.rhoW * Mmin else 0.5 * (Ml * pl - Mr * pr)
  let rhoTheta := l.rhoTheta * Mmax + r.rhoTheta * Mmin
  (⟨rho, rhoU, rhoW, rhoTheta⟩, ⟨rho, rhoU, rhoW, rhoTheta⟩)

/-- Flux at a wall — `boundary_flux.hpp` `boundary_eulercartesian_2d_kernel`. -/
noncomputable def boundaryKernel (dir : Nat) (q : State2) (old : State2) : State2 :=
  if dir = 0 then ⟨0, pressure2 q.rhoTheta, 0, 0⟩ else if dir = 1 then ⟨0, 0, pressure2 q.rhoTheta, 0⟩ else old

/-- Interface fluxes of one node of a line of `N` elements: the kernel on the faces between elements, then the walls —
`wx_factory/pde/interface.cpp` `riemann_eulercartesian_ausm_2d` 131-240. -/
noncomputable def cartesianLine (dir N : Nat) (q : Nat → Bool → State2) (old : Nat → Bool → State2) : Nat → Bool → State2 :=
  let a : Nat → Bool → State2 := (List.range N).foldl (fun a e =>
    if e + 1 < N then
      let f := ausmKernel dir (q e true) (q (e + 1) false)
      put (put a e true f.1) (e + 1) false f.2
    else a) old
  let a := put a 0 false (boundaryKernel dir (q 0 false) (a 0 false))
  put a (N - 1) true (boundaryKernel dir (q (N - 1) true) (a (N - 1) true))

/-! ## The shallow-water fluxes — `wx_factory/rhs/rhs_sw.py` -/

/-- depth and momenta, and metric, on one side of a face -/
structure SideSW where
  var : Nat → ℝ
  sqrtG : ℝ
  H : Nat → Nat → ℝ

/-- Physical flux of variable `i` along direction `d` at a solution point — `rhs_sw.py` 93-97, 123-131. -/
noncomputable def pointwiseSW (d : Nat) (s : SideSW) (i : Nat) : ℝ :=
  let u1 := s.var 1 / s.var 0
  let u2 := s.var 2 / s.var 0
  let hsquared := s.var 0 ^ 2
  if d = 0 then
    if i = 0 then s.sqrtG * s.var 1 else if i = 1 then s.sqrtG * (s.var 1 * u1 + 0.5 * gravity * s.H 0 0 * hsquared)
    else s.sqrtG * (s.var 2 * u1 + 0.5 * gravity * s.H 1 0 * hsquared)
  else
    if i = 0 then s.sqrtG * s.var 2 else if i = 1 then s.sqrtG * (s.var 1 * u2 + 0.5 * gravity * s.H 0 1 * hsquared)
    else s.sqrtG * (s.var 2 * u2 + 0.5 * gravity * s.H 1 1 * hsquared)

/-- AUSM flux along x1 — `rhs_sw.py` 170-188 (`l` is the east side of the western element, `r` the west side of the eastern one). -/
noncomputable def ausmSWI (l r : SideSW) : (Nat → ℝ) × (Nat → ℝ) :=
  let a := fun s : SideSW => Real.sqrt (gravity * s.var 0 * s.H 0 0)
  let m := fun s : SideSW => let tmp := s.var 0 * a s; if tmp ≠ 0 then s.var 1 / tmp else 0
  let bigM := 0.25 * ((m l + 1) ^ 2 - (m r - 1) ^ 2)
  let flux : Nat → ℝ := fun i => l.sqrtG * (max 0 bigM * a l * l.var i + min 0 bigM * a r * r.var i)
  let p11 := fun s : SideSW => s.sqrtG * (0.5 * gravity) * s.H 0 0 * s.var 0 ^ 2
  let p21 := fun s : SideSW => s.sqrtG * (0.5 * gravity) * s.H 1 0 * s.var 0 ^ 2
  let flux : Nat → ℝ := fun i => if i = 1 then flux i + 0.5 * ((1 + m l) * p11 l + (1 - m r) * p11 r) else
    if i = 2 then flux i + 0.5 * ((1 + m l) * p21 l + (1 - m r) * p21 r) else flux i
  (flux, flux)

/-- Mach number along x2, `hu2 / (h a)` with NaN replaced by 0: `none` stands for the infinity NumPy computes when the
denominator is zero and the numerator is not — `rhs_sw.py` 191-193. -/
noncomputable def machSWJ (s : SideSW) : Option ℝ :=
  let a := Real.sqrt (gravity * s.var 0 * s.H 1 1)
  if s.var 0 * a ≠ 0 then some (s.var 2 / (s.var 0 * a)) else if s.var 2 = 0 then some 0 else none

/-- AUSM flux along x2 — `rhs_sw.py` 191-207; `none` if a Mach number is infinite. -/
noncomputable def ausmSWJ (l r : SideSW) : Option ((Nat → ℝ) × (Nat → ℝ)) :=
  match machSWJ l, machSWJ r with
  | some ml, some mr =>
    let a := fun s : SideSW => Real.sqrt (gravity * s.var 0 * s.H 1 1)
    let bigM := 0.25 * ((ml + 1) ^ 2 - (mr - 1) ^ 2)
    let flux : Nat → ℝ := fun i => l.sqrtG * (max 0 bigM * a l * l.var i + min 0 bigM * a r * r.var i)
    let p12 := fun s : SideSW => s.sqrtG * (0.5 * gravity) * s.H 0 1 * s.var 0 ^ 2
    let p22 := fun s : SideSW => s.sqrtG * (0.5 * gravity) * s.H 1 1 * s.var 0 ^ 2
    let flux : Nat → ℝ := fun i => if i = 1 then flux i + 0.5 * ((1 + ml) * p12 l + (1 - mr) * p12 r) else
      if i = 2 then flux i + 0.5 * ((1 + ml) * p22 l + (1 - mr) * p22 r) else flux i
    some (flux, flux)
  | _, _ => none

end WxVerif.Flux
