import Verif.Spec.Tendency3D

/-!
# Model: the object that evaluates the tendency on the 3D cubed sphere, with the arrays it keeps

`rhs/rhs.py` (class `RHS`), `rhs/rhs_dfr.py` (class `RHSDirecFluxReconstruction_mpi`), `pde/pde_euler_cubesphere.py` and the functions
`rusanov_3d_*_new` of `pde/fluxes.py`.  The object keeps about fifty arrays from one call to the next.  Each group of arrays is allocated at the
first call and again when the type of the argument (real or complex) changes; a store into an array of reals drops the imaginary part.

Simplifications.  The three directions, which the code writes out one after the other, are a parameter `d`.  An array along one direction is
indexed by the position of the element along this direction, the half of the last axis (`false`: the first `num_solpts**2` entries) and all
other indices `K`.  The numbers of the discretisation are the parameter `Numerics`.  What the other processes sent is an argument of the call.
Timestamps are left out.
-/

namespace WxVerif.RhsObject
open WxVerif.Tend

/-- type of the entries of an array -/
inductive Dt | real | complex
  deriving DecidableEq

/-- a store into an array of the given type: NumPy drops the imaginary part when the array is real (`ComplexWarning`) -/
def cast : Dt → ℂ → ℂ
  | .real, z => (z.re : ℂ)
  | .complex, z => z

variable {P K : Type}

/-- `rhs/rhs.py` lines 127-152, the arrays allocated by `allocate_arrays` (`df*_dx*` and `w_df3_dx3` are bound anew in every call). -/
structure Points (P : Type) where
  dt : Dt
  f : Fin 3 → Fin 5 → P → ℂ
  rhs : Fin 5 → P → ℂ
  pressure : P → ℂ
  logp : P → ℂ
  wadv : Fin 3 → P → ℂ
  wpres : Fin 3 → P → ℂ
  wdf : Fin 3 → P → ℂ
  forcing : Fin 5 → P → ℂ

/-- `rhs/rhs_dfr.py` lines 176-183, the values received: direction 0 is west/east, direction 1 south/north -/
structure Halos (K : Type) where
  dt : Dt
  halo : Fin 3 → Bool → Fin 5 → K → ℂ

/-- `rhs/rhs_dfr.py` lines 222-255, the arrays at the interfaces: with a halo (`…Full`) and without -/
structure Faces (K : Type) where
  dt : Dt
  f : Fin 3 → Fin 5 → Nat → Bool → K → ℂ
  p : Fin 3 → Nat → Bool → K → ℂ
  wadv : Fin 3 → Nat → Bool → K → ℂ
  wpres : Fin 3 → Nat → Bool → K → ℂ
  qFull : Fin 3 → Fin 5 → Nat → Bool → K → ℂ
  fFull : Fin 3 → Fin 5 → Nat → Bool → K → ℂ
  pFull : Fin 3 → Nat → Bool → K → ℂ
  wadvFull : Fin 3 → Nat → Bool → K → ℂ
  wpresFull : Fin 3 → Nat → Bool → K → ℂ

/-- the object: `rhs/rhs.py` lines 40-66, all arrays are `None` at first -/
structure Obj (P K : Type) where
  points : Option (Points P) := none
  halos : Option (Halos K) := none
  faces : Option (Faces K) := none

variable (N : Numerics P K)

/-- `rhs/rhs.py` lines 130-152: zeros, and `empty_like` (content `junk`) for the result -/
def freshPoints (junk : Fin 5 → P → ℂ) (t : Dt) : Points P :=
  ⟨t, fun _ _ _ => 0, junk, fun _ => 0, fun _ => 0, fun _ _ => 0, fun _ _ => 0, fun _ _ => 0, fun _ _ => 0⟩

/-- `rhs/rhs.py` lines 127-152 `allocate_arrays` -/
def allocatePoints (junk : Fin 5 → P → ℂ) (t : Dt) : Option (Points P) → Points P
  | none => freshPoints junk t
  | some b => if b.dt ≠ t then freshPoints junk t else b

/-- `rhs/rhs_dfr.py` lines 50-71 `solution_extrapolation` of the parallel class -/
def extrapolation (q : Fin 5 → P → ℂ) (d : Fin 3) (v : Fin 5) : Nat → Bool → K → ℂ :=
  let plain := N.extrap d (q v)
  let logRho := fun x => N.lg (q 0 x)
  let logTheta := fun x => N.lg (q 4 x)
  if v = 0 then fun e s k => N.ex (N.extrap d logRho e s k)
  else if v = 4 then fun e s k => N.ex (N.extrap d logTheta e s k)
  else plain

/-- `rhs/rhs_dfr.py` lines 174-201 `end_communication` -/
def endCommunication (t : Dt) (inbox : Fin 3 → Bool → Fin 5 → K → ℂ) (old : Option (Halos K)) : Halos K :=
  let h : Halos K := match old with
    | none => ⟨t, fun _ _ _ _ => 0⟩
    | some b => if b.dt ≠ t then ⟨t, fun _ _ _ _ => 0⟩ else b
  { h with halo := fun d s v k => cast h.dt (inbox d s v k) }

/-- an entry of the momenta changes by `g`, the others stay: `flux[idx_rho_u1] += …` and so on -/
def plus (t : Dt) (f : Fin 5 → P → ℂ) (g : Fin 3 → P → ℂ) : Fin 5 → P → ℂ :=
  fun v x => if v = 1 then cast t (f 1 x + g 0 x) else if v = 2 then cast t (f 2 x + g 1 x) else if v = 3 then cast t (f 3 x + g 2 x) else f v x

/-- `pde/pde_euler_cubesphere.py` lines 72-124 `pointwise_fluxes` -/
noncomputable def pointwiseFluxes (q : Fin 5 → P → ℂ) (b : Points P) : Points P :=
  let u : Fin 3 → P → ℂ := fun d x => q ⟨d.val + 1, by omega⟩ x / q 0 x
  let flux : Fin 3 → Fin 5 → P → ℂ := fun d v x => cast b.dt (N.vol x * u d x * q v x)
  let wadv : Fin 3 → P → ℂ := fun d x => cast b.dt (N.vol x * u d x * q 3 x)
  let pressure : P → ℂ := fun x => cast b.dt (N.pressure (q 4 x))
  { b with
    f := fun d => plus b.dt (flux d) (fun a x => N.vol x * N.h d a x * pressure x)
    wadv := wadv
    pressure := pressure
    wpres := fun d x => cast b.dt (N.vol x * N.h d 2 x)
    logp := fun x => cast b.dt (N.lg (pressure x)) }

/-- `rhs/rhs_dfr.py` lines 222-255: allocation of the arrays at the interfaces; `qFull` is filled with ones -/
def freshFaces (t : Dt) : Faces K :=
  ⟨t, fun _ _ _ _ _ => 0, fun _ _ _ _ => 0, fun _ _ _ _ => 0, fun _ _ _ _ => 0, fun _ _ _ _ _ => 1, fun _ _ _ _ _ => 0, fun _ _ _ _ => 0,
    fun _ _ _ _ => 0, fun _ _ _ _ => 0⟩

@[inherit_doc freshFaces]
def allocateFaces (t : Dt) : Option (Faces K) → Faces K
  | none => freshFaces t
  | some b => if b.dt ≠ t then freshFaces t else b

/-- store into the part `1:-1` of an array with a halo, `n` elements: `rhs/rhs_dfr.py` lines 257-259 -/
def setMid (t : Dt) (n : Nat) (a : Nat → Bool → K → ℂ) (own : Nat → Bool → K → ℂ) : Nat → Bool → K → ℂ :=
  fun e s k => if 1 ≤ e ∧ e ≤ n then cast t (own (e - 1) s k) else a e s k

/-- store into one element position and one half -/
def setAt (t : Dt) (e0 : Nat) (s0 : Bool) (a : Nat → Bool → K → ℂ) (val : K → ℂ) : Nat → Bool → K → ℂ :=
  fun e s k => if e = e0 ∧ s = s0 then cast t (val k) else a e s k

/-- `rhs/rhs_dfr.py` lines 257-268: the interface values of the process and its halo.  Horizontally the halo is what was received; vertically it
copies the element that touches the boundary, first into the facing half, then into the other half. -/
def fillFull (t : Dt) (own : Fin 3 → Fin 5 → Nat → Bool → K → ℂ) (halo : Fin 3 → Bool → Fin 5 → K → ℂ)
    (a : Fin 3 → Fin 5 → Nat → Bool → K → ℂ) (d : Fin 3) (v : Fin 5) : Nat → Bool → K → ℂ :=
  let n := N.count d
  let m := setMid t n (a d v) (own d v)
  if d = 2 then
    let b := setAt t 0 true m (m 1 false)
    let b' := setAt t 0 false b (b 0 true)
    let u := setAt t (n + 1) false b' (b' n true)
    setAt t (n + 1) true u (u (n + 1) false)
  else
    let w := setAt t 0 true m (halo d false v)
    setAt t (n + 1) false w (halo d true v)

/-- `pde/pde_euler_cubesphere.py` lines 146-156: velocity across the faces; vertically it is odd at the ground and at the lid -/
noncomputable def normalVelocity (qf : Fin 5 → Nat → Bool → K → ℂ) (d : Fin 3) : Nat → Bool → K → ℂ :=
  let n := N.count d
  let w : Nat → Bool → K → ℂ := fun e s k => qf ⟨d.val + 1, by omega⟩ e s k / qf 0 e s k
  if d = 2 then
    let w1 := setAt .complex 0 false w (fun _ => 0)
    let w2 := setAt .complex 0 true w1 (fun k => -w1 1 false k)
    let w3 := setAt .complex (n + 1) true w2 (fun _ => 0)
    setAt .complex (n + 1) false w3 (fun k => -w3 n true k)
  else w

/-- store into the slots `east = [:-1, second half]`: slot of face `j` on the element below it -/
def setEast (t : Dt) (n : Nat) (a : Nat → Bool → K → ℂ) (val : Nat → K → ℂ) : Nat → Bool → K → ℂ :=
  fun e s k => if s = true ∧ e ≤ n then cast t (val e k) else a e s k

/-- store into the slots `west = [1:, first half]`: slot of face `j` on the element above it -/
def setWest (t : Dt) (n : Nat) (a : Nat → Bool → K → ℂ) (val : Nat → K → ℂ) : Nat → Bool → K → ℂ :=
  fun e s k => if s = false ∧ 1 ≤ e ∧ e ≤ n + 1 then cast t (val (e - 1) k) else a e s k

/-- the momenta of one side of a face get the pressure -/
def plusAt (f : Fin 5 → ℂ) (g : Fin 3 → ℂ) : Fin 5 → ℂ :=
  fun v => if v = 1 then f 1 + g 0 else if v = 2 then f 2 + g 1 else if v = 3 then f 3 + g 2 else f v

/-- `pde/fluxes.py` lines 150-222, 326-403 and 507-582: `rusanov_3d_vert_new`, `rusanov_3d_hori_i_new` and `rusanov_3d_hori_j_new`, which differ in
the direction only.  Returns the three arrays they write. -/
noncomputable def rusanov (t : Dt) (d : Fin 3) (u : Nat → Bool → K → ℂ) (qf : Fin 5 → Nat → Bool → K → ℂ) (p : Nat → Bool → K → ℂ)
    (f : Fin 5 → Nat → Bool → K → ℂ) (wadv wpres : Nat → Bool → K → ℂ) :
    (Fin 5 → Nat → Bool → K → ℂ) × (Nat → Bool → K → ℂ) × (Nat → Bool → K → ℂ) :=
  let n := N.count d
  let G := N.volItf d
  let eig : Nat → K → ℂ := fun j k =>
    N.larger (N.speed (N.hItf d d j true k) (p j true k) (qf 0 j true k) (u j true k))
      (N.speed (N.hItf d d (j + 1) false k) (p (j + 1) false k) (qf 0 (j + 1) false k) (u (j + 1) false k))
  let fluxL : Nat → K → Fin 5 → ℂ := fun j k v => G j true k * u j true k * qf v j true k
  let fluxR : Nat → K → Fin 5 → ℂ := fun j k v => G (j + 1) false k * u (j + 1) false k * qf v (j + 1) false k
  let fluxL' : Nat → K → Fin 5 → ℂ := fun j k => plusAt (fluxL j k) (fun a => G j true k * N.hItf d a j true k * p j true k)
  let fluxR' : Nat → K → Fin 5 → ℂ := fun j k => plusAt (fluxR j k) (fun a => G (j + 1) false k * N.hItf d a (j + 1) false k * p (j + 1) false k)
  let presL : Nat → K → ℂ := fun j k => G j true k * N.hItf d 2 j true k * p j true k
  let presR : Nat → K → ℂ := fun j k => G (j + 1) false k * N.hItf d 2 (j + 1) false k * p (j + 1) false k
  let f1 : Fin 5 → Nat → Bool → K → ℂ := fun v => setEast t n (f v) fun j k =>
    (1 / 2) * (fluxL' j k v + fluxR' j k v - eig j k * G j true k * (qf v (j + 1) false k - qf v j true k))
  let f2 : Fin 5 → Nat → Bool → K → ℂ := fun v => setWest t n (f1 v) fun j k => f1 v j true k
  let a1 := setEast t n wadv fun j k =>
    (1 / 2) * (fluxL j k 3 + fluxR j k 3 - eig j k * G j true k * (qf 3 (j + 1) false k - qf 3 j true k))
  let a2 := setWest t n a1 fun j k => a1 j true k
  let p1 := setEast t n wpres fun j k => (1 / 2) * (presL j k + presR j k) / p j true k
  let p2 := setWest t n p1 fun j k => (1 / 2) * (presL j k + presR j k) / p (j + 1) false k
  (f2, a2, p2)

/-- the part `1:-1` of an array with a halo, stored into the array without: `rhs/rhs_dfr.py` lines 289-302 -/
def mid (t : Dt) (n : Nat) (a : Nat → Bool → K → ℂ) : Nat → Bool → K → ℂ := fun e s k => if e < n then cast t (a (e + 1) s k) else 0

/-- `rhs/rhs_dfr.py` lines 203-302 `riemann_fluxes`, with `pde/pde_euler_cubesphere.py` lines 126-201 -/
noncomputable def riemannFluxes (t : Dt) (own : Fin 3 → Fin 5 → Nat → Bool → K → ℂ) (halo : Fin 3 → Bool → Fin 5 → K → ℂ)
    (old : Option (Faces K)) : Faces K :=
  let b := allocateFaces t old
  let qf := fillFull N b.dt own halo b.qFull
  let pf : Fin 3 → Nat → Bool → K → ℂ := fun d e s k => cast b.dt (N.pressure (qf d 4 e s k))
  let out := fun d => rusanov N b.dt d (normalVelocity N (qf d) d) (qf d) (pf d) (b.fFull d) (b.wadvFull d) (b.wpresFull d)
  { dt := b.dt
    qFull := qf
    pFull := pf
    fFull := fun d => (out d).1
    wadvFull := fun d => (out d).2.1
    wpresFull := fun d => (out d).2.2
    f := fun d v => mid b.dt (N.count d) ((out d).1 v)
    p := fun d => mid b.dt (N.count d) (pf d)
    wadv := fun d => mid b.dt (N.count d) (out d).2.1
    wpres := fun d => mid b.dt (N.count d) (out d).2.2 }

/-- the logarithm of the entries of an array without halo: `logp_bdy_i = xp.log(self.pressure_itf_x1)` -/
def logOf (n : Nat) (a : Nat → Bool → K → ℂ) : Nat → Bool → K → ℂ := fun e s k => if e < n then N.lg (a e s k) else 0

/-- `rhs/rhs_dfr.py` lines 89-104 and 106-139: `flux_divergence_partial` and `flux_divergence`; `w_df1_dx1` and `w_df2_dx2` are stored into arrays
that exist, `w_df3_dx3` is a new array -/
noncomputable def fluxDivergence (g : Faces K) (b : Points P) : Points P :=
  let df : Fin 3 → Fin 5 → P → ℂ := fun d v x => N.deriv d (b.f d v) x + N.correct d (g.f d v) x
  let adv : Fin 3 → P → ℂ := fun d x => N.deriv d (b.wadv d) x + N.correct d (g.wadv d) x
  let presa : Fin 3 → P → ℂ := fun d x => (N.deriv d (b.wpres d) x + N.correct d (g.wpres d) x) * b.pressure x
  let presb : Fin 3 → P → ℂ := fun d x =>
    (N.deriv d b.logp x + N.correct d (logOf N (N.count d) (g.p d)) x) * (b.pressure x * b.wpres d x)
  let wdf : Fin 3 → P → ℂ := fun d x => if d = 2 then b.wdf 2 x else cast b.dt (adv d x + presa d x + presb d x)
  let w3 : P → ℂ := fun x => adv 2 x + presa 2 x + presb 2 x
  let all : Fin 5 → P → ℂ := fun v x => cast b.dt (-N.invVol x * (df 0 v x + df 1 v x + df 2 v x))
  { b with
    wdf := wdf
    rhs := fun v x => if v = 3 then cast b.dt (-N.invVol x * (wdf 0 x + wdf 1 x + w3 x)) else all v x }

/-- `pde/pde_euler_cubesphere.py` lines 203-290 `forcing_terms` and `rhs/rhs_dfr.py` lines 304-313.  The rows of density and of `ρθ` are never stored. -/
noncomputable def forcingTerms (q : Fin 5 → P → ℂ) (b : Points P) : Points P :=
  let u : Fin 3 → P → ℂ := fun d x => q ⟨d.val + 1, by omega⟩ x / q 0 x
  let metricForce : Fin 3 → P → ℂ := fun d x => N.force d (q 0 x) (fun a => u a x) (b.pressure x) x
  let f1 : Fin 5 → P → ℂ := fun v x =>
    if v = 1 then cast b.dt (metricForce 0 x) else if v = 2 then cast b.dt (metricForce 1 x) else if v = 3 then cast b.dt (metricForce 2 x)
    else b.forcing v x
  let f2 : Fin 5 → P → ℂ := fun v x => if v = 3 then cast b.dt (f1 3 x + N.gravity (q 0) x) else f1 v x
  let f3 : Fin 5 → P → ℂ := match N.damping with
    | none => f2
    | some D => plus b.dt f2 (fun d x => D d (q 0 x) (u d x) x)
  let r : Fin 5 → P → ℂ := fun v x => cast b.dt (b.rhs v x - f3 v x)
  { b with
    forcing := f3
    rhs := if N.advectionOnly then fun _ _ => 0 else r }

/-- `rhs/rhs.py` lines 75-122 `__call__`: state `q` of type `t`, what arrives from the other processes, contents of newly allocated memory.
Returns a copy of the result. -/
noncomputable def call (o : Obj P K) (t : Dt) (q : Fin 5 → P → ℂ) (inbox : Fin 3 → Bool → Fin 5 → K → ℂ) (junk : Fin 5 → P → ℂ) :
    Obj P K × (Fin 5 → P → ℂ) :=
  let b := allocatePoints junk t o.points
  let own := extrapolation N q
  let b1 := pointwiseFluxes N q b
  let h := endCommunication t inbox o.halos
  let g := riemannFluxes N t own h.halo o.faces
  let b2 := fluxDivergence N g b1
  let b3 := forcingTerms N q b2
  (⟨some b3, some h, some g⟩, b3.rhs)

/-- one call of the past: type and value of the argument, what arrived, contents of memory -/
structure Past (P K : Type) where
  t : Dt
  q : Fin 5 → P → ℂ
  inbox : Fin 3 → Bool → Fin 5 → K → ℂ
  junk : Fin 5 → P → ℂ

/-- the object after a list of calls -/
noncomputable def after (l : List (Past P K)) : Obj P K := l.foldl (fun o c => (call N o c.t c.q c.inbox c.junk).1) {}

end WxVerif.RhsObject
