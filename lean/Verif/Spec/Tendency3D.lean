import Mathlib.Data.Complex.Basic
import Mathlib.Algebra.BigOperators.Fin

/-!
# Specification: the tendency of the 3D atmosphere as a function of the state

Written as one formula, without arrays that persist from one evaluation to the next.  The numbers of the discretisation (operators, metric terms,
equation of state, source terms) are gathered in `Numerics`; nothing is assumed about them.  `c` is the conversion of a number to the type (real
or complex) of the state the tendency is asked for: every intermediate array has that type.
-/

namespace WxVerif.Tend

/-- What the discretisation provides.  `P`: solution points of the process; an interface value has the position of the element along the
direction, the side of the element (`false` is the first side) and the remaining indices `K`. -/
structure Numerics (P K : Type) where
  /-- number of elements along each direction -/
  count : Fin 3 → Nat
  /-- values at the ends of the elements, derivatives, corrections by values at the ends -/
  extrap : Fin 3 → (P → ℂ) → Nat → Bool → K → ℂ
  deriv : Fin 3 → (P → ℂ) → P → ℂ
  correct : Fin 3 → (Nat → Bool → K → ℂ) → P → ℂ
  /-- volume element, its inverse, contravariant metric; at the interfaces, positions count from 0 for the halo -/
  vol : P → ℂ
  invVol : P → ℂ
  h : Fin 3 → Fin 3 → P → ℂ
  volItf : Fin 3 → Nat → Bool → K → ℂ
  hItf : Fin 3 → Fin 3 → Nat → Bool → K → ℂ
  /-- pressure of a value of `ρθ`, logarithm, exponential -/
  pressure : ℂ → ℂ
  lg : ℂ → ℂ
  ex : ℂ → ℂ
  /-- fastest signal for metric term, pressure, density and velocity, and the larger of two speeds -/
  speed : ℂ → ℂ → ℂ → ℂ → ℂ
  larger : ℂ → ℂ → ℂ
  /-- metric and Coriolis forces for density, velocities and pressure; gravity; damping, if the case has one -/
  force : Fin 3 → ℂ → (Fin 3 → ℂ) → ℂ → P → ℂ
  gravity : (P → ℂ) → P → ℂ
  damping : Option (Fin 3 → ℂ → ℂ → P → ℂ)
  /-- only tracers move -/
  advectionOnly : Bool

variable {P K : Type} (N : Numerics P K) (c : ℂ → ℂ)

/-- variables: density, three momenta, `ρθ` -/
abbrev rho : Fin 5 := 0
@[inherit_doc rho] abbrev mom (d : Fin 3) : Fin 5 := ⟨d.val + 1, by omega⟩
@[inherit_doc rho] abbrev rhow : Fin 5 := 3
@[inherit_doc rho] abbrev rhotheta : Fin 5 := 4

/-- values at the ends of the elements: density and `ρθ` are extrapolated by their logarithms -/
def ends (q : Fin 5 → P → ℂ) (d : Fin 3) (v : Fin 5) : Nat → Bool → K → ℂ :=
  if v = rho ∨ v = rhotheta then fun e s k => N.ex (N.extrap d (fun x => N.lg (q v x)) e s k) else N.extrap d (q v)

/-- What meets at face `j` (the `j`-th along direction `d`), from below (`false`) or from above (`true`): the values of the adjacent element, or
what the neighbouring process sent (`inbox d false` at the low end, `inbox d true` at the high end); vertically, the values of the only element
that touches the boundary. -/
def meets (q : Fin 5 → P → ℂ) (inbox : Fin 3 → Bool → Fin 5 → K → ℂ) (d : Fin 3) (j : Nat) (above : Bool) (v : Fin 5) (k : K) : ℂ :=
  if above then
    if j < N.count d then c (ends N q d v j false k)
    else if d = 2 then c (ends N q d v (N.count d - 1) true k) else c (inbox d true v k)
  else
    if 0 < j then c (ends N q d v (j - 1) true k)
    else if d = 2 then c (ends N q d v 0 false k) else c (inbox d false v k)

/-- velocity across face `j`: opposite values on the two sides of the ground and of the lid -/
noncomputable def across (q : Fin 5 → P → ℂ) (inbox : Fin 3 → Bool → Fin 5 → K → ℂ) (d : Fin 3) (j : Nat) (above : Bool) (k : K) : ℂ :=
  let own := meets N c q inbox d j above (mom d) k / meets N c q inbox d j above rho k
  if d = 2 ∧ ((j = 0 ∧ above = false) ∨ (j = N.count d ∧ above = true)) then -own else own

/-- pressure at face `j` -/
def pressureAt (q : Fin 5 → P → ℂ) (inbox : Fin 3 → Bool → Fin 5 → K → ℂ) (d : Fin 3) (j : Nat) (above : Bool) (k : K) : ℂ :=
  c (N.pressure (meets N c q inbox d j above rhotheta k))

/-- position, counted from the halo, and side of the element that touches face `j` from below or above -/
def touching (j : Nat) (above : Bool) : Nat × Bool := if above then (j + 1, false) else (j, true)

/-- the share of the pressure in the flux of variable `v` -/
def pressed (v : Fin 5) (g : Fin 3 → ℂ) : ℂ := if v = mom 0 then g 0 else if v = mom 1 then g 1 else if v = mom 2 then g 2 else 0

/-- physical flux on one side of face `j`: its advective part, and the metric term that multiplies the pressure -/
noncomputable def advected (q : Fin 5 → P → ℂ) (inbox : Fin 3 → Bool → Fin 5 → K → ℂ) (d : Fin 3) (j : Nat) (above : Bool) (v : Fin 5) (k : K) : ℂ :=
  N.volItf d (touching j above).1 (touching j above).2 k * across N c q inbox d j above k * meets N c q inbox d j above v k
@[inherit_doc advected]
def pushed (q : Fin 5 → P → ℂ) (inbox : Fin 3 → Bool → Fin 5 → K → ℂ) (d a : Fin 3) (j : Nat) (above : Bool) (k : K) : ℂ :=
  N.volItf d (touching j above).1 (touching j above).2 k * N.hItf d a (touching j above).1 (touching j above).2 k *
    pressureAt N c q inbox d j above k

/-- fastest signal at face `j` -/
noncomputable def fastest (q : Fin 5 → P → ℂ) (inbox : Fin 3 → Bool → Fin 5 → K → ℂ) (d : Fin 3) (j : Nat) (k : K) : ℂ :=
  let one (above : Bool) := N.speed (N.hItf d d (touching j above).1 (touching j above).2 k) (pressureAt N c q inbox d j above k)
    (meets N c q inbox d j above rho k) (across N c q inbox d j above k)
  N.larger (one false) (one true)

/-- upwind part of the flux -/
noncomputable def upwind (q : Fin 5 → P → ℂ) (inbox : Fin 3 → Bool → Fin 5 → K → ℂ) (d : Fin 3) (j : Nat) (v : Fin 5) (k : K) : ℂ :=
  fastest N c q inbox d j k * N.volItf d j true k * (meets N c q inbox d j true v k - meets N c q inbox d j false v k)

/-- numerical flux of every variable across face `j`; for the vertical momentum, its advective part, and the part that multiplies the pressure,
seen from one side -/
noncomputable def flux (q : Fin 5 → P → ℂ) (inbox : Fin 3 → Bool → Fin 5 → K → ℂ) (d : Fin 3) (j : Nat) (v : Fin 5) (k : K) : ℂ :=
  c ((1 / 2) * (advected N c q inbox d j false v k + pressed v (fun a => pushed N c q inbox d a j false k) +
    (advected N c q inbox d j true v k + pressed v (fun a => pushed N c q inbox d a j true k)) - upwind N c q inbox d j v k))
@[inherit_doc flux]
noncomputable def fluxW (q : Fin 5 → P → ℂ) (inbox : Fin 3 → Bool → Fin 5 → K → ℂ) (d : Fin 3) (j : Nat) (k : K) : ℂ :=
  c ((1 / 2) * (advected N c q inbox d j false rhow k + advected N c q inbox d j true rhow k - upwind N c q inbox d j rhow k))
@[inherit_doc flux]
noncomputable def fluxWp (q : Fin 5 → P → ℂ) (inbox : Fin 3 → Bool → Fin 5 → K → ℂ) (d : Fin 3) (j : Nat) (above : Bool) (k : K) : ℂ :=
  c ((1 / 2) * (pushed N c q inbox d 2 j false k + pushed N c q inbox d 2 j true k) / pressureAt N c q inbox d j above k)

/-- a quantity of the faces, as seen from the elements: element `e` has face `e` at its first side and face `e + 1` at its second -/
def seen (n : Nat) (F : Nat → Bool → K → ℂ) : Nat → Bool → K → ℂ := fun e s k => if e < n then (if s then F (e + 1) false k else F e true k) else 0

/-- velocity and pressure at the points -/
noncomputable def velocity (q : Fin 5 → P → ℂ) (d : Fin 3) (x : P) : ℂ := q (mom d) x / q rho x
@[inherit_doc velocity]
def pressureIn (q : Fin 5 → P → ℂ) (x : P) : ℂ := c (N.pressure (q rhotheta x))

/-- physical flux at the points -/
noncomputable def inside (q : Fin 5 → P → ℂ) (d : Fin 3) (v : Fin 5) (x : P) : ℂ :=
  c (c (N.vol x * velocity q d x * q v x) + pressed v (fun a => N.vol x * N.h d a x * pressureIn N c q x))

/-- divergence along one direction of the flux of `v` -/
noncomputable def divergence (q : Fin 5 → P → ℂ) (inbox : Fin 3 → Bool → Fin 5 → K → ℂ) (d : Fin 3) (v : Fin 5) (x : P) : ℂ :=
  N.deriv d (inside N c q d v) x + N.correct d (seen (N.count d) fun j _ k => flux N c q inbox d j v k) x

/-- the same for the vertical momentum, where the pressure gradient is taken through its logarithm -/
noncomputable def divergenceW (q : Fin 5 → P → ℂ) (inbox : Fin 3 → Bool → Fin 5 → K → ℂ) (d : Fin 3) (x : P) : ℂ :=
  (N.deriv d (fun y => c (N.vol y * velocity q d y * q rhow y)) x + N.correct d (seen (N.count d) fun j _ k => fluxW N c q inbox d j k) x) +
  (N.deriv d (fun y => c (N.vol y * N.h d 2 y)) x + N.correct d (seen (N.count d) (fluxWp N c q inbox d)) x) * pressureIn N c q x +
  (N.deriv d (fun y => c (N.lg (pressureIn N c q y))) x +
    N.correct d (seen (N.count d) fun j a k => N.lg (pressureAt N c q inbox d j a k)) x) * (pressureIn N c q x * c (N.vol x * N.h d 2 x))

/-- source terms of the momenta -/
noncomputable def source (q : Fin 5 → P → ℂ) (d : Fin 3) (x : P) : ℂ :=
  let u := fun a => velocity q a x
  let base := c (N.force d (q rho x) u (pressureIn N c q x) x)
  let withGravity := if d = 2 then c (base + N.gravity (q rho) x) else base
  match N.damping with
  | none => withGravity
  | some D => c (withGravity + D d (q rho x) (u d) x)

/-- **The tendency** of variable `v` at point `x` for state `q`, when the neighbouring processes send `inbox`. -/
noncomputable def tendency (q : Fin 5 → P → ℂ) (inbox : Fin 3 → Bool → Fin 5 → K → ℂ) (v : Fin 5) (x : P) : ℂ :=
  if N.advectionOnly then 0
  else if v = rhow then
    c (c (-N.invVol x * (c (divergenceW N c q inbox 0 x) + c (divergenceW N c q inbox 1 x) + divergenceW N c q inbox 2 x)) - source N c q 2 x)
  else
    let adv := c (-N.invVol x * (divergence N c q inbox 0 v x + divergence N c q inbox 1 v x + divergence N c q inbox 2 v x))
    if v = mom 0 then c (adv - source N c q 0 x) else if v = mom 1 then c (adv - source N c q 1 x) else c (adv - 0)

/-- real numbers and positive real numbers among the complex ones -/
def IsReal (z : ℂ) : Prop := z.im = 0
@[inherit_doc IsReal] def IsPos (z : ℂ) : Prop := z.im = 0 ∧ 0 < z.re

/-- What the numbers of the discretisation do to real data: operators and metric terms are real; logarithms of positive numbers are real;
exponentials, and pressures of positive `ρθ`, are positive; so is the metric term under the root of the sound speed. -/
structure RealNumerics {P K : Type} (N : Numerics P K) : Prop where
  extrap : ∀ d f, (∀ x, IsReal (f x)) → ∀ e s k, IsReal (N.extrap d f e s k)
  deriv : ∀ d f, (∀ x, IsReal (f x)) → ∀ x, IsReal (N.deriv d f x)
  correct : ∀ d a, (∀ e s k, IsReal (a e s k)) → ∀ x, IsReal (N.correct d a x)
  vol : ∀ x, IsReal (N.vol x)
  invVol : ∀ x, IsReal (N.invVol x)
  h : ∀ d a x, IsReal (N.h d a x)
  volItf : ∀ d e s k, IsReal (N.volItf d e s k)
  hItf : ∀ d a e s k, IsReal (N.hItf d a e s k)
  hItf_pos : ∀ d e s k, IsPos (N.hItf d d e s k)
  pressure : ∀ z, IsPos z → IsPos (N.pressure z)
  lg : ∀ z, IsPos z → IsReal (N.lg z)
  ex : ∀ z, IsReal z → IsPos (N.ex z)
  speed : ∀ h p r u, IsPos h → IsPos p → IsPos r → IsReal u → IsReal (N.speed h p r u)
  larger : ∀ a b, IsReal a → IsReal b → IsReal (N.larger a b)
  force : ∀ d r u p x, IsReal r → (∀ a, IsReal (u a)) → IsReal p → IsReal (N.force d r u p x)
  gravity : ∀ r, (∀ x, IsReal (r x)) → ∀ x, IsReal (N.gravity r x)
  damping : ∀ D, N.damping = some D → ∀ d r u x, IsReal r → IsReal u → IsReal (D d r u x)

/-- a state of the air: real numbers, density and `ρθ` positive -/
def Air {I : Type} (q : Fin 5 → I → ℂ) : Prop := (∀ v i, IsReal (q v i)) ∧ (∀ i, IsPos (q rho i)) ∧ ∀ i, IsPos (q rhotheta i)

end WxVerif.Tend
