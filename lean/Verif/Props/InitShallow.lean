import Verif.Lemmas.ShallowEquations
import Verif.Spec.ShallowEquations
import Verif.Lemmas.RossbyHaurwitz
import Verif.Props.Winds
import Verif.Props.Flux
import Verif.Props.ShallowWater
import Verif.Props.Panels

/-!
# C60: the forcing of the shallow-water model; C61, C62: its initial states
-/

namespace WxVerif.Props.InitShallow

open WxVerif.Props WxVerif.Lemmas WxVerif.Sphere WxVerif.Flux WxVerif.ShallowWater WxVerif.InitShallow WxVerif.Lemmas.ShallowEquations
open WxVerif.Spec.ShallowEquations
open WxVerif.Cube (V3)
open Real

/-! ## C60 -/

/-- **C60** The forcing of the right-hand side is the complete source term of the shallow-water equations in the coordinates of the panel,
with the metric, the Christoffel symbols and the rotation symbols that the code holds: the code leaves out the symbols that are zero and the
contraction of the symbols with the pressure, which vanishes; the mass equation has no source.  Square elements, as the code always has. -/
theorem C60_forcing (o : Orientation) (Ω : ℝ) {r d : ℝ} (hr : r ≠ 0) (hd : d ≠ 0) (X Y : ℝ) (dz : Fin 2 → ℝ) (q : Nat → ℝ) (hq : q 0 ≠ 0) :
    let u : Fin 2 → ℝ := fun j => q (j + 1) / q 0
    forcingAt o Ω r d d X Y (dz 0) (dz 1) q 0 = 0 ∧ ∀ i : Fin 2,
      forcingAt o Ω r d d X Y (dz 0) (dz 1) q (i + 1) =
        momentumSource gravity (q 0) u dz (Hcontras r d d X Y) (christoffels d d X Y) (christoffelRot o Ω X Y) i := by
  intro u
  have t := fun i => Metric2D.C37_trace hr X Y i
  have t0 := t 0
  have t1 := t 1
  have z0 : christoffel X Y 0 1 1 = 0 := by simp [christoffel]
  have z1 : christoffel X Y 1 0 0 = 0 := by simp [christoffel]
  have y0 : christoffel X Y 0 1 0 = christoffel X Y 0 0 1 := by simp [christoffel]
  have y1 : christoffel X Y 1 1 0 = christoffel X Y 1 0 1 := by simp [christoffel]
  simp only [Fin.sum_univ_two] at t0 t1
  refine ⟨by simp [forcingAt], fun i => ?_⟩
  fin_cases i <;> simp only [forcingAt, momentumSource, u, Fin.sum_univ_two, christoffels, Hcontras, Matrix.of_apply, Matrix.cons_val', Matrix.cons_val_zero,
    Matrix.cons_val_one, Matrix.cons_val_fin_one, Fin.zero_eta, Fin.mk_one, Fin.isValue, Fin.val_zero, Fin.val_one, zero_add, if_true, one_ne_zero, if_false,
    Nat.reduceAdd, OfNat.ofNat_ne_one, z0, z1, y0, y1] at t0 t1 ⊢ 
  · field_simp
    linear_combination (-(d * q 0 ^ 3 * gravity * 2)) * t0
  · field_simp
    linear_combination (-(d * q 0 ^ 3 * gravity * 2)) * t1

/-! ## C61 -/

theorem mass_alg {S d : ℝ} (hS : S ≠ 0) (hd : d ≠ 0) {h A B P1 P2 Ax By hx hy x2 y2 : ℝ} (dv : x2 * (P1 * A + Ax) + y2 * (P2 * B + By) = 0) :
    -(A * 2 / d * hx + B * 2 / d * hy) = -(d / 4 * ((S * P1 * (x2 * (d / 2)) * h + S * hx) * A + S * h * (Ax * (x2 * (d / 2))))
      + d / 4 * ((S * P2 * (y2 * (d / 2)) * h + S * hy) * B + S * h * (By * (y2 * (d / 2))))) / (S * (d * d / 8)) - 0 := by
  field_simp
  linear_combination (8 * h * d) * dv

theorem momentum_alg {S d : ℝ} (hS : S ≠ 0) (hd : d ≠ 0) {g h A B P1 P2 Ax By hx hy x2 y2 m1 m2 H0 H1 R0 R1 G0 G1 G2 zx zy Tx Ty V Vx Vy : ℝ}
    (dv : x2 * (P1 * A + Ax) + y2 * (P2 * B + By) = 0) (m : m1 + m2 = 0)
    (bx : hx + zx = Tx * (x2 * (d / 2))) (by' : hy + zy = Ty * (y2 * (d / 2)))
    (k : x2 * A * Vx + y2 * B * Vy + (2 * (R0 * A + R1 * B) + G0 * A ^ 2 + G1 * A * B + G2 * B ^ 2) + g * (H0 * (x2 * Tx) + H1 * (y2 * Ty)) = 0) :
    V * 2 / d * -(A * 2 / d * hx + B * 2 / d * hy) =
      -(1 / 2 * (((S * P1 * (x2 * (d / 2)) * h + S * hx) * V + S * h * (Vx * (x2 * (d / 2)))) * A + S * h * V * (Ax * (x2 * (d / 2))))
          + (g / 4 * (m1 * (d / 2)) * h ^ 2 + g / 4 * (S * H0) * (2 * h ^ (2 - 1) * hx))
        + (1 / 2 * (((S * P2 * (y2 * (d / 2)) * h + S * hy) * V + S * h * (Vy * (y2 * (d / 2)))) * B + S * h * V * (By * (y2 * (d / 2))))
          + (g / 4 * (m2 * (d / 2)) * h ^ 2 + g / 4 * (S * H1) * (2 * h ^ (2 - 1) * hy)))) / (S * (d * d / 8))
      - 2 / d * h * (2 * (R0 * A + R1 * B) + G0 * A ^ 2 + G1 * A * B + G2 * B ^ 2 + g * (H0 * (2 / d * zx) + H1 * (2 / d * zy))) := by
  have ex : hx = Tx * (x2 * (d / 2)) - zx := by linarith
  have ey : hy = Ty * (y2 * (d / 2)) - zy := by linarith
  have em : m2 = -m1 := by linarith
  subst ex ey em
  simp only [Nat.add_one_sub_one, pow_one]
  field_simp
  linear_combination (32 * h * d * S * V) * dv + (32 * h * d * S) * k

section balance
variable (o : Orientation) (Ω : ℝ) {r : ℝ} (hr : 0 < r) (s1 s2 : ℝ) {d : ℝ} (hd : d ≠ 0) (e1 e2 : Nat) {ξ1 ξ2 : ℝ}
  (h1 : cos (elementCoord s1 d e1 ξ1) ≠ 0) (h2 : cos (elementCoord s2 d e2 ξ2) ≠ 0)

local notation "X[" ξ "]" => gno s1 d e1 ξ
local notation "Y[" ξ "]" => gno s2 d e2 ξ

include hr hd h1 h2 in
/-- A fluid in solid-body rotation whose surface (depth `h` plus bottom) has the shape `HT`: the tendencies of the momenta are the velocities
times the tendency of the depth, that is, the velocity is not changed. -/
theorem rotating (u0 h0 : ℝ) (h : ℝ → ℝ → ℝ) {hx hy zx zy : ℝ}
    (dx : HasDerivAt (fun ξ => h ξ ξ2) hx ξ1) (dy : HasDerivAt (fun ξ => h ξ1 ξ) hy ξ2)
    (a b c w k : ℝ) (ha : a = -(cos o.lat * sin o.ang)) (hb : b = cos o.lat * cos o.ang)
    (hc : c = sin o.lat) (hw : w = u0 / r) (hk : k = (r * Ω * u0 + 0.5 * u0 ^ 2) / gravity)
    (bx : hx + zx = HTx a b c k X[ξ1] Y[ξ2] * ((1 + X[ξ1] ^ 2) * (d / 2)))
    (by' : hy + zy = HTy a b c k X[ξ1] Y[ξ2] * ((1 + Y[ξ2] ^ 2) * (d / 2))) :
    let Q : ℝ → ℝ → Nat → ℝ := fun ξ1 ξ2 => stateOf (h ξ1 ξ2) d (U1 a b c w X[ξ1] Y[ξ2]) (U2 a b c w X[ξ1] Y[ξ2])
    let T : Nat → ℝ → Prop := fun v τ => ExactTendency (fun ξ1 ξ2 => fluxAt 0 r d d X[ξ1] Y[ξ2] (Q ξ1 ξ2) v)
      (fun ξ1 ξ2 => fluxAt 1 r d d X[ξ1] Y[ξ2] (Q ξ1 ξ2) v) (sqrtGs r d d X[ξ1] Y[ξ2])
      (forcingAt o Ω r d d X[ξ1] Y[ξ2] zx zy (Q ξ1 ξ2) v) ξ1 ξ2 τ
    ∃ τ, τ = -(U1 a b c w X[ξ1] Y[ξ2] * 2 / d * hx + U2 a b c w X[ξ1] Y[ξ2] * 2 / d * hy) ∧
      T 0 τ ∧ T 1 (U1 a b c w X[ξ1] Y[ξ2] * 2 / d * τ) ∧ T 2 (U2 a b c w X[ξ1] Y[ξ2] * 2 / d * τ) := by
  have hg : gravity ≠ 0 := Flux.gravity_pos.ne'
  have X' := gno_hasDerivAt s1 d e1 h1
  have Y' := gno_hasDerivAt s2 d e2 h2
  have S1 := HasDerivAt.comp (h₂ := fun t => sqrtG r t Y[ξ2]) ξ1 (sqrtG_dx r X[ξ1] Y[ξ2]) X'
  have S2 := HasDerivAt.comp (h₂ := fun t => sqrtG r X[ξ1] t) ξ2 (sqrtG_dy r X[ξ1] Y[ξ2]) Y'
  have A1 := HasDerivAt.comp (h₂ := fun t => U1 a b c w t Y[ξ2]) ξ1 (U1_dx a b c w X[ξ1] Y[ξ2]) X'
  have A2 := HasDerivAt.comp (h₂ := fun t => U1 a b c w X[ξ1] t) ξ2 (U1_dy a b c w X[ξ1] Y[ξ2]) Y'
  have B1 := HasDerivAt.comp (h₂ := fun t => U2 a b c w t Y[ξ2]) ξ1 (U2_dx a b c w X[ξ1] Y[ξ2]) X'
  have B2 := HasDerivAt.comp (h₂ := fun t => U2 a b c w X[ξ1] t) ξ2 (U2_dy a b c w X[ξ1] Y[ξ2]) Y'
  have hS : sqrtG r X[ξ1] Y[ξ2] ≠ 0 := by
    have := delta_pos X[ξ1] Y[ξ2]; have := delta2_pos X[ξ1] Y[ξ2]
    unfold sqrtG; positivity
  have sG : sqrtGs r d d X[ξ1] Y[ξ2] ≠ 0 := by unfold sqrtGs; have := mul_ne_zero hd hd; positivity
  have dv := divergence_free a b c w X[ξ1] Y[ξ2]
  have k1 := balance1 a b c w k r Ω X[ξ1] Y[ξ2] o hr.ne' hg u0 ha hb hc hw hk
  have k2 := balance2 a b c w k r Ω X[ξ1] Y[ξ2] o hr.ne' hg u0 ha hb hc hw hk
  obtain ⟨m1, m2, M1, M2, m12⟩ := Metric2D.C37_divergence hr.ne' h1 h2 0
  obtain ⟨n1, n2, N1, N2, n12⟩ := Metric2D.C37_divergence hr.ne' h1 h2 1
  have M1' : HasDerivAt (fun ξ => sqrtG r X[ξ] Y[ξ2] * Hcontra r X[ξ] Y[ξ2] 0 0) (m1 * (d / 2)) ξ1 := M1.comp ξ1 (Metric2D.elementCoord_hasDerivAt s1 d e1 ξ1)
  have M2' : HasDerivAt (fun ξ => sqrtG r X[ξ1] Y[ξ] * Hcontra r X[ξ1] Y[ξ] 0 1) (m2 * (d / 2)) ξ2 := M2.comp ξ2 (Metric2D.elementCoord_hasDerivAt s2 d e2 ξ2)
  have N1' : HasDerivAt (fun ξ => sqrtG r X[ξ] Y[ξ2] * Hcontra r X[ξ] Y[ξ2] 1 0) (n1 * (d / 2)) ξ1 := N1.comp ξ1 (Metric2D.elementCoord_hasDerivAt s1 d e1 ξ1)
  have N2' : HasDerivAt (fun ξ => sqrtG r X[ξ1] Y[ξ] * Hcontra r X[ξ1] Y[ξ] 1 1) (n2 * (d / 2)) ξ2 := N2.comp ξ2 (Metric2D.elementCoord_hasDerivAt s2 d e2 ξ2)
  intro Q T
  refine ⟨_, rfl, ?_, ?_, ?_⟩
  · have F1 := ((S1.mul dx).mul A1).const_mul (d / 4)
    have F2 := ((S2.mul dy).mul B2).const_mul (d / 4)
    refine ⟨_, _, F1.congr_of_eventuallyEq (.of_forall fun ξ => ?_), F2.congr_of_eventuallyEq (.of_forall fun ξ => ?_), ?_⟩
    · simp only [Q, (fluxAt_mass r hd _ _ _ _ _).1]; rfl
    · simp only [Q, (fluxAt_mass r hd _ _ _ _ _).2]; rfl
    · simp only [Q, (forcingAt_eq o Ω r hd _ _ _ _ _ _ _).1, Pi.mul_apply, Function.comp_apply, sqrtGs]
      exact mass_alg hS hd dv
  · have F1 := ((((S1.mul dx).mul A1).mul A1).const_mul (1 / 2)).add ((M1'.const_mul (gravity / 4)).mul (dx.pow 2))
    have F2 := ((((S2.mul dy).mul A2).mul B2).const_mul (1 / 2)).add ((M2'.const_mul (gravity / 4)).mul (dy.pow 2))
    refine ⟨_, _, F1.congr_of_eventuallyEq (.of_forall fun ξ => ?_), F2.congr_of_eventuallyEq (.of_forall fun ξ => ?_), ?_⟩
    · simp only [Q, (fluxAt_mom1 r hd _ _ _ _ _).1]; rfl
    · simp only [Q, (fluxAt_mom1 r hd _ _ _ _ _).2]; rfl
    · simp only [Q, (forcingAt_eq o Ω r hd _ _ _ _ _ _ _).2.1, Pi.mul_apply, Pi.pow_apply, Function.comp_apply, sqrtGs]
      have := momentum_alg hS hd (g := gravity) (h := h ξ1 ξ2) (V := U1 a b c w X[ξ1] Y[ξ2]) (Vx := U1x a b c w X[ξ1] Y[ξ2])
        (Vy := U1y a b c w X[ξ1] Y[ξ2]) (H0 := Hcontra r X[ξ1] Y[ξ2] 0 0) (H1 := Hcontra r X[ξ1] Y[ξ2] 0 1)
        (R0 := christoffelRot o Ω X[ξ1] Y[ξ2] 0 0) (R1 := christoffelRot o Ω X[ξ1] Y[ξ2] 0 1)
        (G0 := christoffel X[ξ1] Y[ξ2] 0 0 0) (G1 := 2 * christoffel X[ξ1] Y[ξ2] 0 0 1) (G2 := 0) dv m12 bx by' (by linear_combination k1)
      rw [this]
      push_cast
      ring
  · have F1 := ((((S1.mul dx).mul B1).mul A1).const_mul (1 / 2)).add ((N1'.const_mul (gravity / 4)).mul (dx.pow 2))
    have F2 := ((((S2.mul dy).mul B2).mul B2).const_mul (1 / 2)).add ((N2'.const_mul (gravity / 4)).mul (dy.pow 2))
    refine ⟨_, _, F1.congr_of_eventuallyEq (.of_forall fun ξ => ?_), F2.congr_of_eventuallyEq (.of_forall fun ξ => ?_), ?_⟩
    · simp only [Q, (fluxAt_mom2 r hd _ _ _ _ _).1]; rfl
    · simp only [Q, (fluxAt_mom2 r hd _ _ _ _ _).2]; rfl
    · simp only [Q, (forcingAt_eq o Ω r hd _ _ _ _ _ _ _).2.2, Pi.mul_apply, Pi.pow_apply, Function.comp_apply, sqrtGs]
      have := momentum_alg hS hd (g := gravity) (h := h ξ1 ξ2) (V := U2 a b c w X[ξ1] Y[ξ2]) (Vx := U2x a b c w X[ξ1] Y[ξ2])
        (Vy := U2y a b c w X[ξ1] Y[ξ2]) (H0 := Hcontra r X[ξ1] Y[ξ2] 1 0) (H1 := Hcontra r X[ξ1] Y[ξ2] 1 1)
        (R0 := christoffelRot o Ω X[ξ1] Y[ξ2] 1 0) (R1 := christoffelRot o Ω X[ξ1] Y[ξ2] 1 1)
        (G0 := 0) (G1 := 2 * christoffel X[ξ1] Y[ξ2] 1 0 1) (G2 := christoffel X[ξ1] Y[ξ2] 1 1 1) dv n12 bx by' (by linear_combination k2)
      rw [this]
      push_cast
      ring

end balance

/-- the axis of the planet in the frame of the panel -/
noncomputable def axA (o : Orientation) : ℝ := -(cos o.lat * sin o.ang)
noncomputable def axB (o : Orientation) : ℝ := cos o.lat * cos o.ang

theorem solidBody_eq (case : Nat) (o : Orientation) {r : ℝ} (hr : 0 < r) (d X Y : ℝ) (h : denom2 o X Y ≠ 0) :
    solidBody case o r d d X Y = (U1 (axA o) (axB o) (sin o.lat) (rotationU0 case r / r) X Y * 2 / d,
      U2 (axA o) (axB o) (sin o.lat) (rotationU0 case r / r) X Y * 2 / d) := by
  have hc : cos (pointLat o r X Y) ≠ 0 := by
    rw [cos_pointLat o hr]
    have := delta_pos X Y
    have h0 : 0 ≤ denom2 o X Y := by unfold denom2; positivity
    have : 0 < denom2 o X Y := lt_of_le_of_ne h0 (Ne.symm h)
    positivity
  have e : rotationU0 case r * cos (pointLat o r X Y) / (r * cos (pointLat o r X Y)) = rotationU0 case r / r := by field_simp
  simp only [solidBody, wind2contra, e, zero_div, mul_zero, add_zero, U1, U2, axA, axB]
  congr 1 <;> ring

theorem heightCase2_eq (o : Orientation) {r : ℝ} (hr : 0 < r) (Ω X Y : ℝ) :
    heightCase2 r Ω (sin (pointLat o r X Y)) = HT (axA o) (axB o) (sin o.lat) (29400 / gravity)
      ((r * Ω * rotationU0 2 r + 0.5 * rotationU0 2 r ^ 2) / gravity) X Y := by
  have hd := delta_pos X Y
  have hd2 : (0 : ℝ) < 1 + X ^ 2 + Y ^ 2 := by positivity
  rw [sin_pointLat o hr]
  simp only [heightCase2, HT, rotationU0, axA, axB]
  rw [div_pow (gridrot o X Y), delta_sq]
  unfold gridrot delta2
  have hg := Flux.gravity_pos.ne'
  simp only [Nat.reduceEqDiff, if_false]
  field_simp
  ring

theorem hStar5_eq (o : Orientation) {r : ℝ} (hr : 0 < r) (Ω X Y : ℝ) :
    hStar5 r Ω (sin (pointLat o r X Y)) = HT (axA o) (axB o) (sin o.lat) 5960
      ((r * Ω * rotationU0 5 r + 0.5 * rotationU0 5 r ^ 2) / gravity) X Y := by
  have hd := delta_pos X Y
  have hd2 : (0 : ℝ) < 1 + X ^ 2 + Y ^ 2 := by positivity
  rw [sin_pointLat o hr]
  simp only [hStar5, HT, rotationU0, axA, axB]
  rw [div_pow (gridrot o X Y), delta_sq]
  unfold gridrot delta2
  have hg := Flux.gravity_pos.ne'
  simp only [if_true]
  field_simp
  ring

theorem ExactTendency.congr {F1 F2 G1 G2 : ℝ → ℝ → ℝ} {sq src ξ1 ξ2 τ : ℝ} (h : ExactTendency F1 F2 sq src ξ1 ξ2 τ)
    (e1 : (fun ξ => G1 ξ ξ2) =ᶠ[nhds ξ1] fun ξ => F1 ξ ξ2) (e2 : (fun ξ => G2 ξ1 ξ) =ᶠ[nhds ξ2] fun ξ => F2 ξ1 ξ) :
    ExactTendency G1 G2 sq src ξ1 ξ2 τ := by
  obtain ⟨D1, D2, h1, h2, h3⟩ := h
  exact ⟨D1, D2, h1.congr_of_eventuallyEq e1, h2.congr_of_eventuallyEq e2, h3⟩

theorem denom2_near1 (o : Orientation) (s1 s2 d : ℝ) (e1 e2 : Nat) {ξ1 ξ2 : ℝ} (h1 : cos (elementCoord s1 d e1 ξ1) ≠ 0)
    (h : denom2 o (gno s1 d e1 ξ1) (gno s2 d e2 ξ2) ≠ 0) : ∀ᶠ ξ in nhds ξ1, denom2 o (gno s1 d e1 ξ) (gno s2 d e2 ξ2) ≠ 0 := by
  have hc : ContinuousAt (fun ξ => denom2 o (gno s1 d e1 ξ) (gno s2 d e2 ξ2)) ξ1 := by
    have := (gno_hasDerivAt s1 d e1 h1).continuousAt
    unfold denom2
    fun_prop
  exact hc.eventually_ne h

theorem denom2_near2 (o : Orientation) (s1 s2 d : ℝ) (e1 e2 : Nat) {ξ1 ξ2 : ℝ} (h2 : cos (elementCoord s2 d e2 ξ2) ≠ 0)
    (h : denom2 o (gno s1 d e1 ξ1) (gno s2 d e2 ξ2) ≠ 0) : ∀ᶠ ξ in nhds ξ2, denom2 o (gno s1 d e1 ξ1) (gno s2 d e2 ξ) ≠ 0 := by
  have hc : ContinuousAt (fun ξ => denom2 o (gno s1 d e1 ξ1) (gno s2 d e2 ξ)) ξ2 := by
    have := (gno_hasDerivAt s2 d e2 h2).continuousAt
    unfold denom2
    fun_prop
  exact hc.eventually_ne h

/-- **C61** Williamson case 2 is a steady state: at every point of every panel that is not a pole, with the derivatives of the fluxes taken
exactly, the right-hand side evaluated on the initial state is zero in all three equations. -/
theorem C61_case2_steady (o : Orientation) (Ω : ℝ) {r : ℝ} (hr : 0 < r) (s1 s2 : ℝ) {d : ℝ} (hd : d ≠ 0) (e1 e2 : Nat) {ξ1 ξ2 : ℝ}
    (h1 : cos (elementCoord s1 d e1 ξ1) ≠ 0) (h2 : cos (elementCoord s2 d e2 ξ2) ≠ 0)
    (hp : Winds.OffPole (Metric2D.elementPosition o r s1 s2 d d e1 e2 ξ1 ξ2)) :
    let X : ℝ → ℝ := fun ξ => tan (elementCoord s1 d e1 ξ)
    let Y : ℝ → ℝ := fun ξ => tan (elementCoord s2 d e2 ξ)
    ∃ Q : ℝ → ℝ → Nat → ℝ, (∀ ξ1 ξ2, initState 2 o r Ω d d (X ξ1) (Y ξ2) = some (Q ξ1 ξ2)) ∧
      ∀ v < 3, ExactTendency (fun ξ1 ξ2 => fluxAt 0 r d d (X ξ1) (Y ξ2) (Q ξ1 ξ2) v)
        (fun ξ1 ξ2 => fluxAt 1 r d d (X ξ1) (Y ξ2) (Q ξ1 ξ2) v) (sqrtGs r d d (X ξ1) (Y ξ2))
        (forcingAt o Ω r d d (X ξ1) (Y ξ2) 0 0 (Q ξ1 ξ2) v) ξ1 ξ2 0 := by
  intro X Y
  have hp' : denom2 o (gno s1 d e1 ξ1) (gno s2 d e2 ξ2) ≠ 0 := (Winds.off_pole_iff o hr _ _).mp hp
  set a := axA o
  set b := axB o
  set c := sin o.lat
  set w := rotationU0 2 r / r
  set k := (r * Ω * rotationU0 2 r + 0.5 * rotationU0 2 r ^ 2) / gravity
  have hstate : ∀ x y : ℝ, initState 2 o r Ω d d x y = some (fun v => if v = 0 then heightCase2 r Ω (sin (pointLat o r x y)) else
      if v = 1 then heightCase2 r Ω (sin (pointLat o r x y)) * (solidBody 2 o r d d x y).1
      else heightCase2 r Ω (sin (pointLat o r x y)) * (solidBody 2 o r d d x y).2) := by
    intro x y
    simp [initState, caseFields]
  refine ⟨fun ξ1 ξ2 => _, fun ξ1 ξ2 => hstate _ _, ?_⟩
  have hQ : ∀ x y : ℝ, denom2 o x y ≠ 0 → (fun v : Nat => if v = 0 then heightCase2 r Ω (sin (pointLat o r x y)) else
      if v = 1 then heightCase2 r Ω (sin (pointLat o r x y)) * (solidBody 2 o r d d x y).1
      else heightCase2 r Ω (sin (pointLat o r x y)) * (solidBody 2 o r d d x y).2) =
      stateOf (HT a b c (29400 / gravity) k x y) d (U1 a b c w x y) (U2 a b c w x y) := by
    intro x y h
    funext v
    rw [solidBody_eq 2 o hr d x y h, heightCase2_eq o hr]
    rfl
  have X' := gno_hasDerivAt s1 d e1 h1
  have Y' := gno_hasDerivAt s2 d e2 h2
  obtain ⟨τ, hτ, t0, t1, t2⟩ := rotating o Ω hr s1 s2 hd e1 e2 h1 h2 (rotationU0 2 r) 0
    (fun ξ1 ξ2 => HT a b c (29400 / gravity) k (gno s1 d e1 ξ1) (gno s2 d e2 ξ2)) (zx := 0) (zy := 0)
    ((HT_dx a b c (29400 / gravity) k _ _).comp ξ1 X') ((HT_dy a b c (29400 / gravity) k _ _).comp ξ2 Y')
    a b c w k rfl rfl rfl rfl rfl (add_zero _) (add_zero _)
  have z : τ = 0 := by
    have := along_parallels a b c w k (gno s1 d e1 ξ1) (gno s2 d e2 ξ2)
    rw [hτ]
    field_simp
    linear_combination -this
  subst z
  have n1 := denom2_near1 o s1 s2 d e1 e2 h1 hp'
  have n2 := denom2_near2 o s1 s2 d e1 e2 h2 hp'
  intro v hv
  have hv' : v = 0 ∨ v = 1 ∨ v = 2 := by omega
  have base : ExactTendency (fun ξ1 ξ2 => fluxAt 0 r d d (gno s1 d e1 ξ1) (gno s2 d e2 ξ2) (stateOf (HT a b c (29400 / gravity) k (gno s1 d e1 ξ1)
      (gno s2 d e2 ξ2)) d (U1 a b c w (gno s1 d e1 ξ1) (gno s2 d e2 ξ2)) (U2 a b c w (gno s1 d e1 ξ1) (gno s2 d e2 ξ2))) v)
      (fun ξ1 ξ2 => fluxAt 1 r d d (gno s1 d e1 ξ1) (gno s2 d e2 ξ2) (stateOf (HT a b c (29400 / gravity) k (gno s1 d e1 ξ1)
      (gno s2 d e2 ξ2)) d (U1 a b c w (gno s1 d e1 ξ1) (gno s2 d e2 ξ2)) (U2 a b c w (gno s1 d e1 ξ1) (gno s2 d e2 ξ2))) v)
      (sqrtGs r d d (gno s1 d e1 ξ1) (gno s2 d e2 ξ2)) (forcingAt o Ω r d d (gno s1 d e1 ξ1) (gno s2 d e2 ξ2) 0 0
        (stateOf (HT a b c (29400 / gravity) k (gno s1 d e1 ξ1) (gno s2 d e2 ξ2)) d (U1 a b c w (gno s1 d e1 ξ1) (gno s2 d e2 ξ2))
          (U2 a b c w (gno s1 d e1 ξ1) (gno s2 d e2 ξ2))) v) ξ1 ξ2 0 := by
    rw [mul_zero] at t1 t2
    rcases hv' with rfl | rfl | rfl
    · exact t0
    · exact t1
    · exact t2
  beta_reduce
  rw [hQ (X ξ1) (Y ξ2) hp']
  refine ExactTendency.congr base ?_ ?_
  · filter_upwards [n1] with ξ hξ
    rw [hQ (X ξ) (Y ξ2) hξ]; rfl
  · filter_upwards [n2] with ξ hξ
    rw [hQ (X ξ1) (Y ξ) hξ]; rfl

/-- the surface height of case 5 along the coordinates of a panel -/
noncomputable def mountain (o : Orientation) (r X Y : ℝ) : ℝ := hsurf5 (pointLon o r X Y) (pointLat o r X Y)

/-- **C61** Williamson case 5 starts in balance over its mountain: at every point that is not a pole and where the surface has slopes, with
exact derivatives and exact slopes, the depth changes only by advection, and the momentum changes only because the depth does (the velocity
has no tendency). -/
theorem C61_case5_balanced (o : Orientation) (Ω : ℝ) {r : ℝ} (hr : 0 < r) (s1 s2 : ℝ) {d : ℝ} (hd : d ≠ 0) (e1 e2 : Nat) {ξ1 ξ2 : ℝ}
    (h1 : cos (elementCoord s1 d e1 ξ1) ≠ 0) (h2 : cos (elementCoord s2 d e2 ξ2) ≠ 0)
    (hp : Winds.OffPole (Metric2D.elementPosition o r s1 s2 d d e1 e2 ξ1 ξ2)) {zx zy : ℝ}
    (hzx : HasDerivAt (fun ξ => mountain o r (tan (elementCoord s1 d e1 ξ)) (tan (elementCoord s2 d e2 ξ2))) zx ξ1)
    (hzy : HasDerivAt (fun ξ => mountain o r (tan (elementCoord s1 d e1 ξ1)) (tan (elementCoord s2 d e2 ξ))) zy ξ2) :
    let X : ℝ → ℝ := fun ξ => tan (elementCoord s1 d e1 ξ)
    let Y : ℝ → ℝ := fun ξ => tan (elementCoord s2 d e2 ξ)
    ∃ Q : ℝ → ℝ → Nat → ℝ, (∀ ξ1 ξ2, initState 5 o r Ω d d (X ξ1) (Y ξ2) = some (Q ξ1 ξ2)) ∧
      ∃ u : ℝ × ℝ, solidBody 5 o r d d (X ξ1) (Y ξ2) = u ∧ Q ξ1 ξ2 1 = Q ξ1 ξ2 0 * u.1 ∧ Q ξ1 ξ2 2 = Q ξ1 ξ2 0 * u.2 ∧
      ∃ τ, Advected (fun ξ1 ξ2 => Q ξ1 ξ2 0) u.1 u.2 ξ1 ξ2 (-τ) ∧
      ∀ v < 3, ExactTendency (fun ξ1 ξ2 => fluxAt 0 r d d (X ξ1) (Y ξ2) (Q ξ1 ξ2) v)
        (fun ξ1 ξ2 => fluxAt 1 r d d (X ξ1) (Y ξ2) (Q ξ1 ξ2) v) (sqrtGs r d d (X ξ1) (Y ξ2))
        (forcingAt o Ω r d d (X ξ1) (Y ξ2) zx zy (Q ξ1 ξ2) v) ξ1 ξ2 (if v = 0 then τ else if v = 1 then u.1 * τ else u.2 * τ) := by
  intro X Y
  have hp' : denom2 o (gno s1 d e1 ξ1) (gno s2 d e2 ξ2) ≠ 0 := (Winds.off_pole_iff o hr _ _).mp hp
  set a := axA o
  set b := axB o
  set c := sin o.lat
  set w := rotationU0 5 r / r
  set k := (r * Ω * rotationU0 5 r + 0.5 * rotationU0 5 r ^ 2) / gravity
  have hstate : ∀ x y : ℝ, initState 5 o r Ω d d x y = some (fun v => if v = 0 then hStar5 r Ω (sin (pointLat o r x y)) - mountain o r x y else
      if v = 1 then (hStar5 r Ω (sin (pointLat o r x y)) - mountain o r x y) * (solidBody 5 o r d d x y).1
      else (hStar5 r Ω (sin (pointLat o r x y)) - mountain o r x y) * (solidBody 5 o r d d x y).2) := by
    intro x y
    simp [initState, caseFields, mountain]
  refine ⟨fun ξ1 ξ2 => _, fun ξ1 ξ2 => hstate _ _, _, solidBody_eq 5 o hr d _ _ hp', ?_, ?_, ?_⟩
  · rw [← solidBody_eq 5 o hr d (X ξ1) (Y ξ2) hp']; rfl
  · rw [← solidBody_eq 5 o hr d (X ξ1) (Y ξ2) hp']; rfl
  have hQ : ∀ x y : ℝ, denom2 o x y ≠ 0 → (fun v : Nat => if v = 0 then hStar5 r Ω (sin (pointLat o r x y)) - mountain o r x y else
      if v = 1 then (hStar5 r Ω (sin (pointLat o r x y)) - mountain o r x y) * (solidBody 5 o r d d x y).1
      else (hStar5 r Ω (sin (pointLat o r x y)) - mountain o r x y) * (solidBody 5 o r d d x y).2) =
      stateOf (HT a b c 5960 k x y - mountain o r x y) d (U1 a b c w x y) (U2 a b c w x y) := by
    intro x y h
    funext v
    rw [solidBody_eq 5 o hr d x y h, hStar5_eq o hr]
    rfl
  have X' := gno_hasDerivAt s1 d e1 h1
  have Y' := gno_hasDerivAt s2 d e2 h2
  have Hx := (HasDerivAt.comp (h₂ := fun t => HT a b c 5960 k t (gno s2 d e2 ξ2)) ξ1 (HT_dx a b c 5960 k _ _) X').sub hzx
  have Hy := (HasDerivAt.comp (h₂ := fun t => HT a b c 5960 k (gno s1 d e1 ξ1) t) ξ2 (HT_dy a b c 5960 k _ _) Y').sub hzy
  obtain ⟨τ, hτ, t0, t1, t2⟩ := rotating o Ω hr s1 s2 hd e1 e2 h1 h2 (rotationU0 5 r) 0
    (fun ξ1 ξ2 => HT a b c 5960 k (gno s1 d e1 ξ1) (gno s2 d e2 ξ2) - mountain o r (gno s1 d e1 ξ1) (gno s2 d e2 ξ2)) (zx := zx) (zy := zy)
    Hx Hy a b c w k rfl rfl rfl rfl rfl (sub_add_cancel _ _) (sub_add_cancel _ _)
  have n1 := denom2_near1 o s1 s2 d e1 e2 h1 hp'
  have n2 := denom2_near2 o s1 s2 d e1 e2 h2 hp'
  refine ⟨τ, ⟨_, _, Hx.congr_of_eventuallyEq (.of_forall fun ξ => ?_), Hy.congr_of_eventuallyEq (.of_forall fun ξ => ?_), by rw [hτ, neg_neg]; rfl⟩, ?_⟩
  · simp only [if_true, hStar5_eq o hr]; rfl
  · simp only [if_true, hStar5_eq o hr]; rfl
  intro v hv
  have hv' : v = 0 ∨ v = 1 ∨ v = 2 := by omega
  have base : ExactTendency (fun ξ1 ξ2 => fluxAt 0 r d d (gno s1 d e1 ξ1) (gno s2 d e2 ξ2) (stateOf (HT a b c 5960 k (gno s1 d e1 ξ1)
      (gno s2 d e2 ξ2) - mountain o r (gno s1 d e1 ξ1) (gno s2 d e2 ξ2)) d (U1 a b c w (gno s1 d e1 ξ1) (gno s2 d e2 ξ2)) (U2 a b c w (gno s1 d e1 ξ1) (gno s2 d e2 ξ2))) v)
      (fun ξ1 ξ2 => fluxAt 1 r d d (gno s1 d e1 ξ1) (gno s2 d e2 ξ2) (stateOf (HT a b c 5960 k (gno s1 d e1 ξ1)
      (gno s2 d e2 ξ2) - mountain o r (gno s1 d e1 ξ1) (gno s2 d e2 ξ2)) d (U1 a b c w (gno s1 d e1 ξ1) (gno s2 d e2 ξ2)) (U2 a b c w (gno s1 d e1 ξ1) (gno s2 d e2 ξ2))) v)
      (sqrtGs r d d (gno s1 d e1 ξ1) (gno s2 d e2 ξ2)) (forcingAt o Ω r d d (gno s1 d e1 ξ1) (gno s2 d e2 ξ2) zx zy
        (stateOf (HT a b c 5960 k (gno s1 d e1 ξ1) (gno s2 d e2 ξ2) - mountain o r (gno s1 d e1 ξ1) (gno s2 d e2 ξ2)) d (U1 a b c w (gno s1 d e1 ξ1) (gno s2 d e2 ξ2))
          (U2 a b c w (gno s1 d e1 ξ1) (gno s2 d e2 ξ2))) v) ξ1 ξ2
      (if v = 0 then τ else if v = 1 then U1 a b c w (gno s1 d e1 ξ1) (gno s2 d e2 ξ2) * 2 / d * τ
        else U2 a b c w (gno s1 d e1 ξ1) (gno s2 d e2 ξ2) * 2 / d * τ) := by
    rcases hv' with rfl | rfl | rfl
    · exact t0
    · exact t1
    · exact t2
  beta_reduce
  rw [hQ (X ξ1) (Y ξ2) hp']
  refine ExactTendency.congr base ?_ ?_
  · filter_upwards [n1] with ξ hξ
    rw [hQ (X ξ) (Y ξ2) hξ]; rfl
  · filter_upwards [n2] with ξ hξ
    rw [hQ (X ξ1) (Y ξ) hξ]; rfl

theorem hsurf5_far {lon lat : ℝ} (h : (π / 9) ^ 2 ≤ (lon - 3 * π / 2) ^ 2 + (lat - π / 6) ^ 2) : hsurf5 lon lat = 0 := by
  have hp := pi_pos
  simp only [hsurf5, min_eq_left h]
  rw [sqrt_sq (by positivity), div_self (by positivity)]
  ring

theorem mountain_south (o : Orientation) {r : ℝ} (hr : 0 < r) {X Y : ℝ} (h : gridrot o X Y < 0) : mountain o r X Y = 0 := by
  have hs : sin (pointLat o r X Y) < 0 := by
    rw [sin_pointLat o hr]; exact div_neg_of_neg_of_pos h (delta_pos X Y)
  have hl : pointLat o r X Y < 0 := by
    by_contra hc
    have : pointLat o r X Y ≤ π := Complex.arg_le_pi _
    exact absurd (sin_nonneg_of_nonneg_of_le_pi (not_lt.mp hc) this) (not_le.mpr hs)
  apply hsurf5_far
  have hp := pi_pos
  nlinarith [sq_nonneg (pointLon o r X Y - 3 * π / 2), sq_nonneg (pointLat o r X Y)]

/-- **C61** Away from the mountain, in the whole southern hemisphere, case 5 is steady at the start. -/
theorem C61_case5_south_steady (o : Orientation) (Ω : ℝ) {r : ℝ} (hr : 0 < r) (s1 s2 : ℝ) {d : ℝ} (hd : d ≠ 0) (e1 e2 : Nat) {ξ1 ξ2 : ℝ}
    (h1 : cos (elementCoord s1 d e1 ξ1) ≠ 0) (h2 : cos (elementCoord s2 d e2 ξ2) ≠ 0)
    (hp : Winds.OffPole (Metric2D.elementPosition o r s1 s2 d d e1 e2 ξ1 ξ2))
    (south : (Metric2D.elementPosition o r s1 s2 d d e1 e2 ξ1 ξ2).2.2 < 0) :
    let X : ℝ → ℝ := fun ξ => tan (elementCoord s1 d e1 ξ)
    let Y : ℝ → ℝ := fun ξ => tan (elementCoord s2 d e2 ξ)
    ∃ Q : ℝ → ℝ → Nat → ℝ, (∀ ξ1 ξ2, initState 5 o r Ω d d (X ξ1) (Y ξ2) = some (Q ξ1 ξ2)) ∧
      ∀ v < 3, ExactTendency (fun ξ1 ξ2 => fluxAt 0 r d d (X ξ1) (Y ξ2) (Q ξ1 ξ2) v)
        (fun ξ1 ξ2 => fluxAt 1 r d d (X ξ1) (Y ξ2) (Q ξ1 ξ2) v) (sqrtGs r d d (X ξ1) (Y ξ2))
        (forcingAt o Ω r d d (X ξ1) (Y ξ2) 0 0 (Q ξ1 ξ2) v) ξ1 ξ2 0 := by
  intro X Y
  have hg : gridrot o (X ξ1) (Y ξ2) < 0 := by
    have hdl := delta_pos (X ξ1) (Y ξ2)
    have e : (Metric2D.elementPosition o r s1 s2 d d e1 e2 ξ1 ξ2).2.2 = r / delta (X ξ1) (Y ξ2) * gridrot o (X ξ1) (Y ξ2) := by
      simp only [Metric2D.elementPosition, position, cart, gridrot, X, Y]
    rw [e] at south
    by_contra hc
    have := not_lt.mp hc
    exact absurd south (not_lt.mpr (by positivity))
  have hm : ∀ {x : ℝ} {f : ℝ → ℝ × ℝ}, ContinuousAt (fun t => gridrot o (f t).1 (f t).2) x → gridrot o (f x).1 (f x).2 < 0 →
      HasDerivAt (fun t => mountain o r (f t).1 (f t).2) 0 x := by
    intro x f hc hx
    refine (hasDerivAt_const x (0 : ℝ)).congr_of_eventuallyEq ?_
    filter_upwards [hc.eventually_lt continuousAt_const hx] with t ht
    exact mountain_south o hr ht
  have X' := (gno_hasDerivAt s1 d e1 h1).continuousAt
  have Y' := (gno_hasDerivAt s2 d e2 h2).continuousAt
  have zx := hm (x := ξ1) (f := fun t => (gno s1 d e1 t, gno s2 d e2 ξ2)) (by unfold gridrot; fun_prop) hg
  have zy := hm (x := ξ2) (f := fun t => (gno s1 d e1 ξ1, gno s2 d e2 t)) (by unfold gridrot; fun_prop) hg
  obtain ⟨Q, hQ, u, hu, -, -, τ, ⟨D1, D2, A1, A2, hA⟩, T⟩ := C61_case5_balanced o Ω hr s1 s2 hd e1 e2 h1 h2 hp zx zy
  refine ⟨Q, hQ, ?_⟩
  have hp' : denom2 o (gno s1 d e1 ξ1) (gno s2 d e2 ξ2) ≠ 0 := (Winds.off_pole_iff o hr _ _).mp hp
  have z : τ = 0 := by
    have q0 : ∀ a b, Q a b 0 = HT (axA o) (axB o) (sin o.lat) 5960 ((r * Ω * rotationU0 5 r + 0.5 * rotationU0 5 r ^ 2) / gravity) (X a) (Y b)
        - mountain o r (X a) (Y b) := by
      intro a b
      have := hQ a b
      rw [← hStar5_eq o hr]
      simp only [initState, caseFields] at this
      simp at this
      rw [← this]
      rfl
    have B1 := (HasDerivAt.comp (h₂ := fun t => HT (axA o) (axB o) (sin o.lat) 5960 ((r * Ω * rotationU0 5 r + 0.5 * rotationU0 5 r ^ 2) / gravity) t (Y ξ2)) ξ1
      (HT_dx _ _ _ _ _ _ _) (gno_hasDerivAt s1 d e1 h1)).sub zx
    have B2 := (HasDerivAt.comp (h₂ := fun t => HT (axA o) (axB o) (sin o.lat) 5960 ((r * Ω * rotationU0 5 r + 0.5 * rotationU0 5 r ^ 2) / gravity) (X ξ1) t) ξ2
      (HT_dy _ _ _ _ _ _ _) (gno_hasDerivAt s2 d e2 h2)).sub zy
    have f1 := A1.unique (B1.congr_of_eventuallyEq (.of_forall fun ξ => q0 ξ ξ2))
    have f2 := A2.unique (B2.congr_of_eventuallyEq (.of_forall fun ξ => q0 ξ1 ξ))
    have hu' := solidBody_eq 5 o hr d _ _ hp'
    have hu2 : u = _ := hu.symm.trans hu'
    have := along_parallels (axA o) (axB o) (sin o.lat) (rotationU0 5 r / r) ((r * Ω * rotationU0 5 r + 0.5 * rotationU0 5 r ^ 2) / gravity) (X ξ1) (Y ξ2)
    rw [f1, f2, hu2] at hA
    have alg : ∀ x y P P' D E : ℝ, (1 + x ^ 2) * P * D + (1 + y ^ 2) * P' * E = 0 →
        P * 2 / d * (D * ((1 + x ^ 2) * (d / 2)) - 0) + P' * 2 / d * (E * ((1 + y ^ 2) * (d / 2)) - 0) = 0 := by
      intro x y P P' D E h
      refine Eq.trans ?_ h
      simp only [sub_zero]
      field_simp
    exact neg_eq_zero.mp (hA.trans (alg _ _ _ _ _ _ this))
  subst z
  intro v hv
  have := T v hv
  simpa using this

/-! ### case 6 -/

/-- **C61** The wind of Williamson case 6 (Rossby-Haurwitz wave) has no divergence, at every point that is not a pole. -/
theorem C61_case6_nondivergent (r lon lat : ℝ) :
    Divergence r (fun l p => (wind6 r l p).1) (fun l p => (wind6 r l p).2) lon lat 0 := by
  have h1 : HasDerivAt (fun l => (wind6 r l lat).1) (r * omega6 * (4 * cos lat ^ 3 - 5 * cos lat ^ 5) * (-4 * sin (4 * lon))) lon := by
    refine ((((RossbyHaurwitz.dp lon).const_mul (r * omega6 * (4 * cos lat ^ 3 - 5 * cos lat ^ 5))).const_add (r * omega6 * cos lat))).congr_of_eventuallyEq
      (.of_forall fun l => ?_)
    have := sin_sq lat
    simp only [wind6, this]; ring
  have h2 := RossbyHaurwitz.dsin (Polynomial.C (-4 * r * omega6 * sin (4 * lon)) * Polynomial.X ^ 4) lat
  refine ⟨_, _, h1, h2.congr_of_eventuallyEq (.of_forall fun p => ?_), ?_⟩
  · simp [wind6]; ring
  · have := sin_sq lat
    simp only [this, Polynomial.eval_mul, Polynomial.eval_C, Polynomial.eval_X, Polynomial.eval_pow, Polynomial.derivative_mul,
      Polynomial.derivative_C, Polynomial.derivative_X_pow, zero_mul, zero_add, Nat.cast_ofNat]
    rw [eq_comm, div_eq_zero_iff]
    left
    ring

/-- **C61** The depth of case 6 is the one that balances its wind: with it, the shallow-water equations give the wind a tendency without
divergence (so the divergence, zero at the start, has zero rate of change), at every point that is not a pole. -/
theorem C61_case6_balanced (Ω : ℝ) {r : ℝ} (hr : r ≠ 0) (lon : ℝ) {lat : ℝ} (hc : cos lat ≠ 0) :
    let u := fun l p => (wind6 r l p).1
    let v := fun l p => (wind6 r l p).2
    Divergence r (zonalTendency r gravity Ω u v (height6 r Ω)) (meridionalTendency r gravity Ω u v (height6 r Ω)) lon lat 0 := by
  intro u v
  have h1 := ((RossbyHaurwitz.dq lon).const_mul (RossbyHaurwitz.E r Ω (cos lat))).add
    (((RossbyHaurwitz.dq lon).mul (RossbyHaurwitz.dp lon)).const_mul (RossbyHaurwitz.F r (cos lat)))
  have h2 := RossbyHaurwitz.dsin (RossbyHaurwitz.G r Ω (cos (4 * lon)) (sin (4 * lon))) lat
  refine ⟨_, _, h1.congr_of_eventuallyEq (.of_forall fun l => RossbyHaurwitz.zonal_eq r Ω l lat hr hc), h2.congr_of_eventuallyEq ?_, ?_⟩
  · filter_upwards [continuous_cos.continuousAt.eventually_ne hc] with p hp
    exact RossbyHaurwitz.meridional_eq r Ω lon p hr hp
  · have := RossbyHaurwitz.balance r Ω (cos lat) (cos (4 * lon)) (sin (4 * lon)) (sin_sq _)
    rw [eq_comm, div_eq_zero_iff]
    left
    rw [sin_sq lat]
    linear_combination this

/-! ## C62 -/

theorem velocity_flux {d : ℝ} (hd : d ≠ 0) (S A : ℝ) : S * (d * d / 8) * (A * 2 / d) = d / 4 * (S * A) := by
  field_simp; ring

/-- **C62** (finding) In the state that the code stores for case 1, the exact tendency of the depth is zero at every point that is not a
pole, whatever the depth: the velocity is stored where the right-hand side reads the momentum. -/
theorem C62_case1_frozen (o : Orientation) (Ω : ℝ) {r : ℝ} (hr : 0 < r) (s1 s2 : ℝ) {d : ℝ} (hd : d ≠ 0) (e1 e2 : Nat) {ξ1 ξ2 : ℝ}
    (h1 : cos (elementCoord s1 d e1 ξ1) ≠ 0) (h2 : cos (elementCoord s2 d e2 ξ2) ≠ 0)
    (hp : Winds.OffPole (Metric2D.elementPosition o r s1 s2 d d e1 e2 ξ1 ξ2)) :
    let X : ℝ → ℝ := fun ξ => tan (elementCoord s1 d e1 ξ)
    let Y : ℝ → ℝ := fun ξ => tan (elementCoord s2 d e2 ξ)
    ∃ Q : ℝ → ℝ → Nat → ℝ, (∀ ξ1 ξ2, initState 1 o r Ω d d (X ξ1) (Y ξ2) = some (Q ξ1 ξ2)) ∧
      (∀ ξ1 ξ2, Q ξ1 ξ2 0 = heightCase1 (pointLon o r (X ξ1) (Y ξ2)) (pointLat o r (X ξ1) (Y ξ2)) 0) ∧
      ExactTendency (fun ξ1 ξ2 => fluxAt 0 r d d (X ξ1) (Y ξ2) (Q ξ1 ξ2) 0)
        (fun ξ1 ξ2 => fluxAt 1 r d d (X ξ1) (Y ξ2) (Q ξ1 ξ2) 0) (sqrtGs r d d (X ξ1) (Y ξ2))
        (forcingAt o Ω r d d (X ξ1) (Y ξ2) 0 0 (Q ξ1 ξ2) 0) ξ1 ξ2 0 := by
  intro X Y
  have hp' : denom2 o (gno s1 d e1 ξ1) (gno s2 d e2 ξ2) ≠ 0 := (Winds.off_pole_iff o hr _ _).mp hp
  have hstate : ∀ x y : ℝ, initState 1 o r Ω d d x y = some (fun v => if v = 0 then heightCase1 (pointLon o r x y) (pointLat o r x y) 0 else
      if v = 1 then (solidBody 1 o r d d x y).1 else (solidBody 1 o r d d x y).2) := by
    intro x y
    simp [initState, caseFields]
  refine ⟨fun ξ1 ξ2 => _, fun ξ1 ξ2 => hstate _ _, fun ξ1 ξ2 => rfl, ?_⟩
  set a := axA o
  set b := axB o
  set c := sin o.lat
  set w := rotationU0 1 r / r
  have X' := gno_hasDerivAt s1 d e1 h1
  have Y' := gno_hasDerivAt s2 d e2 h2
  have n1 := denom2_near1 o s1 s2 d e1 e2 h1 hp'
  have n2 := denom2_near2 o s1 s2 d e1 e2 h2 hp'
  have S1 := HasDerivAt.comp (h₂ := fun t => sqrtG r t (gno s2 d e2 ξ2)) ξ1 (sqrtG_dx r _ _) X'
  have S2 := HasDerivAt.comp (h₂ := fun t => sqrtG r (gno s1 d e1 ξ1) t) ξ2 (sqrtG_dy r _ _) Y'
  have A1 := HasDerivAt.comp (h₂ := fun t => U1 a b c w t (gno s2 d e2 ξ2)) ξ1 (U1_dx a b c w _ _) X'
  have B2 := HasDerivAt.comp (h₂ := fun t => U2 a b c w (gno s1 d e1 ξ1) t) ξ2 (U2_dy a b c w _ _) Y'
  have F1 := (S1.mul A1).const_mul (d / 4)
  have F2 := (S2.mul B2).const_mul (d / 4)
  have dv := divergence_free a b c w (gno s1 d e1 ξ1) (gno s2 d e2 ξ2)
  refine ⟨_, _, F1.congr_of_eventuallyEq ?_, F2.congr_of_eventuallyEq ?_, ?_⟩
  · filter_upwards [n1] with ξ hξ
    rw [solidBody_eq 1 o hr d (X ξ) (Y ξ2) hξ]
    simp only [fluxAt, pointwiseSW, sqrtGs, if_true, one_ne_zero, if_false, Pi.mul_apply, Function.comp_apply, a, b, c, w]
    exact velocity_flux hd _ _
  · filter_upwards [n2] with ξ hξ
    rw [solidBody_eq 1 o hr d (X ξ1) (Y ξ) hξ]
    simp only [fluxAt, pointwiseSW, sqrtGs, if_true, one_ne_zero, if_false, Pi.mul_apply, Function.comp_apply, OfNat.ofNat_ne_zero, OfNat.ofNat_ne_one, a, b, c, w]
    exact velocity_flux hd _ _
  · have f0 : forcingAt o Ω r d d (X ξ1) (Y ξ2) 0 0 (fun v => if v = 0 then heightCase1 (pointLon o r (X ξ1) (Y ξ2)) (pointLat o r (X ξ1) (Y ξ2)) 0 else
        if v = 1 then (solidBody 1 o r d d (X ξ1) (Y ξ2)).1 else (solidBody 1 o r d d (X ξ1) (Y ξ2)).2) 0 = 0 := by
      simp [forcingAt]
    rw [f0]
    have alg : ∀ S P1 P2 A B Ax By x2 y2 t : ℝ, x2 * (P1 * A + Ax) + y2 * (P2 * B + By) = 0 →
        0 = -(d / 4 * (S * P1 * (x2 * (d / 2)) * A + S * (Ax * (x2 * (d / 2)))) + d / 4 * (S * P2 * (y2 * (d / 2)) * B + S * (By * (y2 * (d / 2))))) / t - 0 := by
      intro S P1 P2 A B Ax By x2 y2 t h
      rw [sub_zero, eq_comm, div_eq_zero_iff]
      left
      linear_combination (-(S * d ^ 2 / 8)) * h
    exact alg _ _ _ _ _ _ _ _ _ _ dv

/-- the depth of case 1 at the point of the fourth panel that is 1/6 rad to the west of the centre of the bell, for as long as the point
stays inside the bell -/
theorem bell_west {r : ℝ} (hr : 0 < r) {t : ℝ} (h1 : |ubar * t| < 1 / 6) :
    heightCase1 (pointLon ⟨3 * π / 2, 0, 0⟩ r (tan (-(1 / 6))) (tan 0)) (pointLat ⟨3 * π / 2, 0, 0⟩ r (tan (-(1 / 6))) (tan 0)) t =
      500 * (1 + cos (3 * π * (ubar * t + 1 / 6))) := by
  have hpi := two_le_pi
  have hpi4 := pi_le_four
  obtain ⟨ha, hb⟩ := abs_lt.mp h1
  have hc : 0 < cos (1 / 6 : ℝ) := cos_pos_of_mem_Ioo ⟨by linarith, by linarith⟩
  have hX : tan (-(1 / 6 : ℝ)) = -(sin (1 / 6) / cos (1 / 6)) := by rw [tan_neg, tan_eq_sin_div_cos]
  set X := tan (-(1 / 6 : ℝ)) with hXd
  have hY : tan (0 : ℝ) = 0 := tan_zero
  rw [hY]
  have one : 1 + X ^ 2 = (1 / cos (1 / 6 : ℝ)) ^ 2 := by
    have := sin_sq_add_cos_sq (1 / 6 : ℝ)
    rw [hX]; field_simp; linarith
  have hden : denom2 ⟨3 * π / 2, 0, 0⟩ X 0 = (1 / cos (1 / 6 : ℝ)) ^ 2 := by rw [← one]; simp [denom2]
  have hdel : delta X 0 = 1 / cos (1 / 6 : ℝ) := by
    have : delta X 0 = sqrt (1 + X ^ 2) := by simp [delta, delta2]
    rw [this, one, sqrt_sq (by positivity)]
  have hden0 : denom2 ⟨3 * π / 2, 0, 0⟩ X 0 ≠ 0 := by rw [hden]; positivity
  have c0 : cos (3 * π / 2) = 0 := by
    have : 3 * π / 2 = π / 2 + π := by ring
    rw [this, cos_add_pi, cos_pi_div_two]; simp
  have s0 : sin (3 * π / 2) = -1 := by
    have : 3 * π / 2 = π / 2 + π := by ring
    rw [this, sin_add_pi, sin_pi_div_two]
  have clat : cos (pointLat ⟨3 * π / 2, 0, 0⟩ r X 0) = 1 := by
    rw [cos_pointLat _ hr, hden, hdel, sqrt_sq (by positivity), div_self (by positivity)]
  have slon := sin_pointLon ⟨3 * π / 2, 0, 0⟩ hr X 0
  have clon := cos_pointLon ⟨3 * π / 2, 0, 0⟩ hr (X := X) (Y := 0) hden0
  rw [hden, sqrt_sq (by positivity)] at slon clon
  simp only [relA, relB, c0, s0, cos_zero, sin_zero] at slon clon
  have lc : ¬ 3 * π / 2 + ubar * t > 2 * π := by push Not; linarith
  have hdist : cos (pointLon ⟨3 * π / 2, 0, 0⟩ r X 0 - (3 * π / 2 + ubar * t)) = cos (ubar * t + 1 / 6) := by
    rw [cos_sub, clon, slon, cos_add (3 * π / 2), sin_add (3 * π / 2), c0, s0, hX, cos_add (ubar * t)]
    field_simp
    ring
  simp only [heightCase1, if_neg lc, sin_zero, cos_zero, zero_mul, zero_add, one_mul, clat, hdist]
  rw [arccos_cos (by linarith) (by linarith), if_pos (by linarith)]
  have : π * (ubar * t + 1 / 6) / (1 / 3) = 3 * π * (ubar * t + 1 / 6) := by ring
  rw [this]; ring

/-- **C62** (finding) The tracer of case 1 is not advected: at a point of the fourth panel inside the cosine bell the exact tendency of the
depth in the stored state is zero, while the reference solution, against which the code measures its error, changes there. -/
theorem C62_tracer_fails (Ω : ℝ) {r : ℝ} (hr : 0 < r) :
    let o : Orientation := ⟨3 * π / 2, 0, 0⟩
    let X : ℝ → ℝ := fun ξ => tan (elementCoord (-(π / 4)) (π / 2) 0 ξ)
    let ξ1 : ℝ := -(2 / (3 * π))
    ∃ Q : ℝ → ℝ → Nat → ℝ, (∀ ξ1 ξ2, initState 1 o r Ω (π / 2) (π / 2) (X ξ1) (X ξ2) = some (Q ξ1 ξ2)) ∧
      ExactTendency (fun ξ1 ξ2 => fluxAt 0 r (π / 2) (π / 2) (X ξ1) (X ξ2) (Q ξ1 ξ2) 0)
        (fun ξ1 ξ2 => fluxAt 1 r (π / 2) (π / 2) (X ξ1) (X ξ2) (Q ξ1 ξ2) 0) (sqrtGs r (π / 2) (π / 2) (X ξ1) (X 0))
        (forcingAt o Ω r (π / 2) (π / 2) (X ξ1) (X 0) 0 0 (Q ξ1 0) 0) ξ1 0 0 ∧
      heightCase1 (pointLon o r (X ξ1) (X 0)) (pointLat o r (X ξ1) (X 0)) 0 = 500 ∧
      ∃ τ, τ < 0 ∧ HasDerivAt (fun t => heightCase1 (pointLon o r (X ξ1) (X 0)) (pointLat o r (X ξ1) (X 0)) t) τ 0 := by
  intro o X ξ1
  have hpi := two_le_pi
  have hpi4 := pi_le_four
  have ex : elementCoord (-(π / 4)) (π / 2) 0 ξ1 = -(1 / 6) := by simp only [elementCoord, ξ1]; field_simp; ring
  have e0 : elementCoord (-(π / 4)) (π / 2) 0 0 = 0 := by simp only [elementCoord]; push_cast; ring
  have c1 : cos (elementCoord (-(π / 4)) (π / 2) 0 ξ1) ≠ 0 := by
    rw [ex, cos_neg]; exact (cos_pos_of_mem_Ioo ⟨by linarith, by linarith⟩).ne'
  have c2 : cos (elementCoord (-(π / 4)) (π / 2) 0 0) ≠ 0 := by rw [e0]; simp
  have hp : Winds.OffPole (Metric2D.elementPosition o r (-(π / 4)) (-(π / 4)) (π / 2) (π / 2) 0 0 ξ1 0) := by
    refine (Winds.off_pole_iff o hr _ _).mpr ?_
    have : 0 < denom2 o (tan (elementCoord (-(π / 4)) (π / 2) 0 ξ1)) (tan (elementCoord (-(π / 4)) (π / 2) 0 0)) := by
      simp only [denom2, o, cos_zero, sin_zero]; norm_num; positivity
    exact this.ne'
  obtain ⟨Q, hQ, -, hT⟩ := C62_case1_frozen o Ω hr (-(π / 4)) (-(π / 4)) (d := π / 2) (by positivity) 0 0 c1 c2 hp
  have X1 : X ξ1 = tan (-(1 / 6)) := by simp only [X, ex]
  have X0 : X 0 = tan 0 := by simp only [X, e0]
  have hu : 0 < ubar := by unfold ubar dayInSecs; positivity
  refine ⟨Q, hQ, hT, ?_, -(1500 * π * ubar), by have : 0 < 1500 * π * ubar := by positivity
                                                linarith, ?_⟩
  · rw [X1, X0, bell_west hr (by simp)]
    have : 3 * π * (ubar * 0 + 1 / 6) = π / 2 := by ring
    rw [this, cos_pi_div_two]; norm_num
  · rw [X1, X0]
    have h := (((((hasDerivAt_id (0 : ℝ)).const_mul ubar).add_const (1 / 6)).const_mul (3 * π)).cos.const_add 1).const_mul 500
    have h' : HasDerivAt (fun t : ℝ => 500 * (1 + cos (3 * π * (ubar * t + 1 / 6)))) (-(1500 * π * ubar)) 0 := by
      refine h.congr_deriv ?_
      have : 3 * π * (ubar * id 0 + 1 / 6) = π / 2 := by simp only [id]; ring
      rw [this, sin_pi_div_two]; ring
    refine h'.congr_of_eventuallyEq ?_
    have hc : ContinuousAt (fun t : ℝ => |ubar * t|) 0 := by fun_prop
    filter_upwards [hc.eventually_lt (continuousAt_const (y := (1 / 6 : ℝ))) (by simp)] with t ht
    exact bell_west hr ht

/-- Non-vacuity of C61 and C62: the centre of the first panel, and a point of the southern hemisphere in the panel around the south pole. -/
example : Winds.OffPole (Metric2D.elementPosition ⟨0, -(π / 2), 0⟩ 6371220 (-(π / 4)) (-(π / 4)) (π / 2) (π / 2) 0 0 (1 / 2) 0) ∧
    (Metric2D.elementPosition ⟨0, -(π / 2), 0⟩ 6371220 (-(π / 4)) (-(π / 4)) (π / 2) (π / 2) 0 0 (1 / 2) 0).2.2 < 0 := by
  have hpi := pi_pos
  have e0 : elementCoord (-(π / 4)) (π / 2) 0 0 = 0 := by simp only [elementCoord]; push_cast; ring
  have e1 : elementCoord (-(π / 4)) (π / 2) 0 (1 / 2) = π / 8 := by simp only [elementCoord]; push_cast; ring
  have t : 0 < tan (π / 8) := tan_pos_of_pos_of_lt_pi_div_two (by linarith) (by linarith)
  constructor
  · refine (Winds.off_pole_iff _ (by norm_num) _ _).mpr ?_
    rw [e0, e1]
    simp [denom2, t.ne']
  · have hd := delta_pos (tan (π / 8)) 0
    simp [Metric2D.elementPosition, position, cart, e0, e1]
    exact delta_pos _ _

/-! ## C59 for case 5 -/

/-- **C59** The mountain of case 5 is one function on the sphere: two tiles that share an edge store the same surface height there, so mass
conservation holds for case 5 (any accepted rotation of the grid, any number of tiles). -/
theorem C59_williamson5 (g : Grid) (lambda0 phi0 alpha0 : ℝ) (hreg : Panels.Regular lambda0 phi0 alpha0)
    (ho : ∀ p < 6, WxVerif.Sphere.panelOrientation lambda0 phi0 alpha0 p = some (g.orient p)) :
    OneTopography g (topography5 g) := by
  refine ⟨fun v => let q := (g.radius / sqrt (v.1 ^ 2 + v.2.1 ^ 2 + v.2.2 ^ 2)) • Panels.rotate ⟨lambda0, phi0, alpha0⟩ v
                   hsurf5 (cart2sph q).1 (cart2sph q).2.1, ?_⟩
  intro r hr e he p s hp l hl
  have key : ∀ xy : ℝ × ℝ, surface5 g r xy = (fun v : V3 ℝ => let q := (g.radius / sqrt (v.1 ^ 2 + v.2.1 ^ 2 + v.2.2 ^ 2)) • Panels.rotate ⟨lambda0, phi0, alpha0⟩ v
      hsurf5 (cart2sph q).1 (cart2sph q).2.1) (WxVerif.Cube.point (WxVerif.Cube.placeOf g.k r).panel xy.1 xy.2) := by
    intro xy
    have hk : 1 ≤ g.k := by
      rcases Nat.eq_zero_or_pos g.k with h | h
      · rw [h] at hr; simp at hr
      · exact h
    obtain ⟨h6, -, -, hpl⟩ := (WxVerif.Props.Topology.C02_placement_bijective g.k hk).1 r hr
    have e : (WxVerif.Cube.placeOf g.k r).panel = WxVerif.Topology.myPanel g.size r := by
      rw [← hpl]; simp only [Grid.size, pow_two]
    have hsz : WxVerif.Topology.myPanel g.size r < 6 := by simpa only [Grid.size, pow_two] using h6
    obtain ⟨o, ho', hcart⟩ := Panels.C48_position lambda0 phi0 alpha0 hreg _ hsz
    have : o = g.orient (WxVerif.Topology.myPanel g.size r) := by
      have := ho _ hsz
      rw [ho'] at this; exact Option.some.inj this
    subst this
    simp only [surface5, pointLon, pointLat, hcart, e]
    rw [← Panels.delta_of_point _ hsz]
  have hne : ¬ ((p = 0 ∧ s = false) ∨ (p = g.N + 1 ∧ s = true)) := by
    rintro (⟨rfl, rfl⟩ | ⟨rfl, rfl⟩) <;> simp [AtFace] at hp
  constructor
  · show surface5I g r e p s l = _
    rw [surface5I, if_neg hne]; exact key _
  · show surface5J g r p e s l = _
    rw [surface5J, if_neg hne]; exact key _

/-- Non-vacuity: the standard grid with 24 tiles. -/
example : ∃ g : Grid, g.k = 2 ∧ g.N = 3 ∧ Panels.Regular 0 0 0 ∧
    ∀ p < 6, WxVerif.Sphere.panelOrientation 0 0 0 p = some (g.orient p) := by
  refine ⟨⟨2, 3, 4, fun _ => 0, 6371220, 7.29212e-5, fun p => (WxVerif.Sphere.panelOrientation 0 0 0 p).getD ⟨0, 0, 0⟩⟩, rfl, rfl, ?_, ?_⟩
  · exact ⟨by simp, Or.inl ⟨rfl, rfl⟩⟩
  · intro p hp
    obtain ⟨o, h, -⟩ := Panels.C48_position 0 0 0 ⟨by simp, Or.inl ⟨rfl, rfl⟩⟩ p hp
    simp only [h, Option.getD_some]

end WxVerif.Props.InitShallow
