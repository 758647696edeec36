import Verif.Model.InitShallow
import Verif.Lemmas.Sphere
import Verif.Lemmas.Winds
import Verif.Props.Metric2D
import Mathlib.Tactic.LinearCombination
import Mathlib.Tactic.FieldSimp

/-! # Helper lemmas for C60 and C61: solid-body rotation in the coordinates of a panel -/

namespace WxVerif.Lemmas.ShallowEquations

open WxVerif.Props WxVerif.Sphere WxVerif.Flux WxVerif.ShallowWater WxVerif.InitShallow
open Real

/-! Solid-body rotation with angular velocity `w` about an axis with components `(c, a, b)` in the frame of the panel. -/

/-- angular velocity components along the two equiangular coordinates -/
noncomputable def U1 (a b c w X Y : ℝ) : ℝ := w * (b + (-(a * X * Y) - c * Y) / (1 + X ^ 2))
noncomputable def U2 (a b c w X Y : ℝ) : ℝ := w * ((b * X * Y + c * X) / (1 + Y ^ 2) - a)
/-- a height that depends on the sine of the latitude squared -/
noncomputable def HT (a b c h0 k X Y : ℝ) : ℝ := h0 - k * (c + a * X + b * Y) ^ 2 / (1 + X ^ 2 + Y ^ 2)

noncomputable def U1x (a _b c w X Y : ℝ) : ℝ := w * ((-(a * Y) * (1 + X ^ 2) - (-(a * X * Y) - c * Y) * (2 * X)) / (1 + X ^ 2) ^ 2)
noncomputable def U1y (a _b c w X _Y : ℝ) : ℝ := w * ((-(a * X) - c) / (1 + X ^ 2))
noncomputable def U2x (_a b c w _X Y : ℝ) : ℝ := w * ((b * Y + c) / (1 + Y ^ 2))
noncomputable def U2y (_a b c w X Y : ℝ) : ℝ := w * ((b * X * (1 + Y ^ 2) - (b * X * Y + c * X) * (2 * Y)) / (1 + Y ^ 2) ^ 2)
noncomputable def HTx (a b c k X Y : ℝ) : ℝ :=
  -(k * ((2 * a * (c + a * X + b * Y) * (1 + X ^ 2 + Y ^ 2) - (c + a * X + b * Y) ^ 2 * (2 * X)) / (1 + X ^ 2 + Y ^ 2) ^ 2))
noncomputable def HTy (a b c k X Y : ℝ) : ℝ :=
  -(k * ((2 * b * (c + a * X + b * Y) * (1 + X ^ 2 + Y ^ 2) - (c + a * X + b * Y) ^ 2 * (2 * Y)) / (1 + X ^ 2 + Y ^ 2) ^ 2))

section derivs
variable (a b c w h0 k X Y : ℝ)

theorem sq_deriv (x : ℝ) : HasDerivAt (fun x : ℝ => 1 + x ^ 2) (2 * x) x := by
  simpa using (hasDerivAt_pow 2 x).const_add 1

theorem U1_dx : HasDerivAt (fun X => U1 a b c w X Y) (U1x a b c w X Y) X := by
  have n : HasDerivAt (fun X : ℝ => -(a * X * Y) - c * Y) (-(a * Y)) X :=
    ((((hasDerivAt_id X).const_mul a).mul_const Y).neg.sub_const (c * Y)).congr_deriv (by simp)
  have := ((n.div (sq_deriv X) (by positivity)).const_add b).const_mul w
  exact this

theorem U1_dy : HasDerivAt (fun Y => U1 a b c w X Y) (U1y a b c w X Y) Y := by
  have n : HasDerivAt (fun Y : ℝ => -(a * X * Y) - c * Y) (-(a * X) - c) Y :=
    (((hasDerivAt_id Y).const_mul (a * X)).neg.sub ((hasDerivAt_id Y).const_mul c)).congr_deriv (by simp)
  exact ((n.div_const (1 + X ^ 2)).const_add b).const_mul w

theorem U2_dx : HasDerivAt (fun X => U2 a b c w X Y) (U2x a b c w X Y) X := by
  have n : HasDerivAt (fun X : ℝ => b * X * Y + c * X) (b * Y + c) X :=
    ((((hasDerivAt_id X).const_mul b).mul_const Y).add ((hasDerivAt_id X).const_mul c)).congr_deriv (by simp)
  exact ((n.div_const (1 + Y ^ 2)).sub_const a).const_mul w

theorem U2_dy : HasDerivAt (fun Y => U2 a b c w X Y) (U2y a b c w X Y) Y := by
  have n : HasDerivAt (fun Y : ℝ => b * X * Y + c * X) (b * X) Y :=
    (((hasDerivAt_id Y).const_mul (b * X)).add_const (c * X)).congr_deriv (by simp)
  exact ((n.div (sq_deriv Y) (by positivity)).sub_const a).const_mul w

theorem HT_dx : HasDerivAt (fun X => HT a b c h0 k X Y) (HTx a b c k X Y) X := by
  have n : HasDerivAt (fun X : ℝ => (c + a * X + b * Y) ^ 2) (2 * a * (c + a * X + b * Y)) X := by
    have := ((((hasDerivAt_id X).const_mul a).const_add c).add_const (b * Y)).pow 2
    exact this.congr_deriv (by simp; ring)
  have m : HasDerivAt (fun X : ℝ => 1 + X ^ 2 + Y ^ 2) (2 * X) X := (sq_deriv X).add_const _
  have := (((n.div m (by positivity)).const_mul k).neg).const_add h0
  refine this.congr_of_eventuallyEq (Filter.Eventually.of_forall fun x => ?_)
  simp only [HT, Pi.neg_apply, Pi.div_apply]
  ring

theorem HT_swap : HT a b c h0 k X Y = HT b a c h0 k Y X := by unfold HT; ring

theorem HT_dy : HasDerivAt (fun Y => HT a b c h0 k X Y) (HTy a b c k X Y) Y := by
  simp only [HT_swap a b c h0 k X]
  refine (HT_dx b a c h0 k Y X).congr_deriv ?_
  unfold HTx HTy
  ring_nf

end derivs

/-! ### The three balances -/

section balance
variable (a b c w h0 k r Ω X Y : ℝ)

theorem pos1 (X : ℝ) : (0 : ℝ) < 1 + X ^ 2 := by positivity

/-- solid-body rotation has no divergence -/
theorem divergence_free :
    (1 + X ^ 2) * ((2 * X / (1 + X ^ 2) - 3 * X / delta2 X Y) * U1 a b c w X Y + U1x a b c w X Y)
      + (1 + Y ^ 2) * ((2 * Y / (1 + Y ^ 2) - 3 * Y / delta2 X Y) * U2 a b c w X Y + U2y a b c w X Y) = 0 := by
  have h1 := (pos1 X).ne'
  have h2 := (pos1 Y).ne'
  have h3 : (1 + X ^ 2 + Y ^ 2 : ℝ) ≠ 0 := by positivity
  unfold U1 U1x U2 U2y delta2
  field_simp
  ring

/-- it is along the parallels -/
theorem along_parallels :
    (1 + X ^ 2) * U1 a b c w X Y * HTx a b c k X Y + (1 + Y ^ 2) * U2 a b c w X Y * HTy a b c k X Y = 0 := by
  have h1 := (pos1 X).ne'
  have h2 := (pos1 Y).ne'
  have h3 : (1 + X ^ 2 + Y ^ 2 : ℝ) ≠ 0 := by positivity
  unfold U1 U2 HTx HTy
  field_simp
  ring

/-- the balance of Coriolis force, centrifugal acceleration and pressure gradient along the first coordinate -/
theorem balance1 (o : Orientation) (hr : r ≠ 0) (hg : gravity ≠ 0) (u0 : ℝ) (ha : a = -(cos o.lat * sin o.ang)) (hb : b = cos o.lat * cos o.ang)
    (hc : c = sin o.lat) (hw : w = u0 / r) (hk : k = (r * Ω * u0 + 0.5 * u0 ^ 2) / gravity) :
    (1 + X ^ 2) * U1 a b c w X Y * U1x a b c w X Y + (1 + Y ^ 2) * U2 a b c w X Y * U1y a b c w X Y
      + christoffel X Y 0 0 0 * U1 a b c w X Y ^ 2 + 2 * christoffel X Y 0 0 1 * U1 a b c w X Y * U2 a b c w X Y
      + 2 * (christoffelRot o Ω X Y 0 0 * U1 a b c w X Y + christoffelRot o Ω X Y 0 1 * U2 a b c w X Y)
      + gravity * (Hcontra r X Y 0 0 * ((1 + X ^ 2) * HTx a b c k X Y) + Hcontra r X Y 0 1 * ((1 + Y ^ 2) * HTy a b c k X Y)) = 0 := by
  have h1 := (pos1 X).ne'
  have h2 := (pos1 Y).ne'
  have h3 : (1 + X ^ 2 + Y ^ 2 : ℝ) ≠ 0 := by positivity
  have hG : gridrot o X Y = c + a * X + b * Y := by rw [ha, hb, hc]; unfold gridrot; ring
  simp only [christoffel, christoffelRot, Hcontra, hG, U1, U1x, U1y, U2, HTx, HTy, delta2, Matrix.of_apply, Matrix.cons_val', Matrix.cons_val_zero,
    Matrix.cons_val_one, Matrix.cons_val_fin_one]
  clear ha hb hc hG
  subst hw hk
  field_simp
  ring

/-- the same along the second coordinate -/
theorem balance2 (o : Orientation) (hr : r ≠ 0) (hg : gravity ≠ 0) (u0 : ℝ) (ha : a = -(cos o.lat * sin o.ang)) (hb : b = cos o.lat * cos o.ang)
    (hc : c = sin o.lat) (hw : w = u0 / r) (hk : k = (r * Ω * u0 + 0.5 * u0 ^ 2) / gravity) :
    (1 + X ^ 2) * U1 a b c w X Y * U2x a b c w X Y + (1 + Y ^ 2) * U2 a b c w X Y * U2y a b c w X Y
      + 2 * christoffel X Y 1 0 1 * U1 a b c w X Y * U2 a b c w X Y + christoffel X Y 1 1 1 * U2 a b c w X Y ^ 2
      + 2 * (christoffelRot o Ω X Y 1 0 * U1 a b c w X Y + christoffelRot o Ω X Y 1 1 * U2 a b c w X Y)
      + gravity * (Hcontra r X Y 1 0 * ((1 + X ^ 2) * HTx a b c k X Y) + Hcontra r X Y 1 1 * ((1 + Y ^ 2) * HTy a b c k X Y)) = 0 := by
  have h1 := (pos1 X).ne'
  have h2 := (pos1 Y).ne'
  have h3 : (1 + X ^ 2 + Y ^ 2 : ℝ) ≠ 0 := by positivity
  have hG : gridrot o X Y = c + a * X + b * Y := by rw [ha, hb, hc]; unfold gridrot; ring
  simp only [christoffel, christoffelRot, Hcontra, hG, U1, U2x, U2y, U2, HTx, HTy, delta2, Matrix.of_apply, Matrix.cons_val', Matrix.cons_val_zero,
    Matrix.cons_val_one, Matrix.cons_val_fin_one]
  clear ha hb hc hG
  subst hw hk
  field_simp
  ring

end balance

/-! ### Along the reference coordinates of an element -/

/-- gnomonic coordinate of a reference coordinate -/
noncomputable def gno (s d : ℝ) (e : Nat) (ξ : ℝ) : ℝ := tan (elementCoord s d e ξ)

theorem gno_hasDerivAt (s d : ℝ) (e : Nat) {ξ : ℝ} (h : cos (elementCoord s d e ξ) ≠ 0) :
    HasDerivAt (gno s d e) ((1 + gno s d e ξ ^ 2) * (d / 2)) ξ :=
  (tan_hasDerivAt h).comp ξ (Metric2D.elementCoord_hasDerivAt s d e ξ)

theorem sqrtG_dx (r X Y : ℝ) : HasDerivAt (fun X => sqrtG r X Y) (sqrtG r X Y * (2 * X / (1 + X ^ 2) - 3 * X / delta2 X Y)) X := by
  have hd := delta_pos X Y
  have hd2 := delta2_pos X Y
  have m : HasDerivAt (fun X : ℝ => delta2 X Y) (2 * X) X := (sq_deriv X).add_const _
  have sd : HasDerivAt (fun X : ℝ => delta X Y) (X / delta X Y) X := (m.sqrt hd2.ne').congr_deriv (by unfold delta; field_simp)
  have n : HasDerivAt (fun X : ℝ => r ^ 2 * (1 + X ^ 2) * (1 + Y ^ 2)) (r ^ 2 * (2 * X) * (1 + Y ^ 2)) X :=
    ((sq_deriv X).const_mul (r ^ 2)).mul_const _
  have := n.div (m.mul sd) (mul_pos hd2 hd).ne'
  refine this.congr_deriv ?_
  have h1 := (pos1 X).ne'
  simp only [Pi.mul_apply]
  unfold sqrtG
  have e : delta2 X Y = delta X Y ^ 2 := (delta_sq X Y).symm
  rw [e]
  field_simp
  ring

theorem sqrtG_comm (r X Y : ℝ) : sqrtG r X Y = sqrtG r Y X := by unfold sqrtG; rw [delta_comm, delta2_comm]; ring

theorem sqrtG_dy (r X Y : ℝ) : HasDerivAt (fun Y => sqrtG r X Y) (sqrtG r X Y * (2 * Y / (1 + Y ^ 2) - 3 * Y / delta2 X Y)) Y := by
  simp only [sqrtG_comm r X]
  rw [delta2_comm]
  exact sqrtG_dx r Y X

/-- a state with depth `h` and velocity given by the angular velocities `U1`, `U2` -/
noncomputable def stateOf (h d u1 u2 : ℝ) (v : Nat) : ℝ := if v = 0 then h else if v = 1 then h * (u1 * 2 / d) else h * (u2 * 2 / d)

theorem mul_div_self' (h a b : ℝ) : h * a * (h * b / h) = h * a * b := by
  by_cases h0 : h = 0
  · simp [h0]
  · field_simp

theorem fluxAt_mass (r : ℝ) {d : ℝ} (hd : d ≠ 0) (X Y h u1 u2 : ℝ) :
    fluxAt 0 r d d X Y (stateOf h d u1 u2) 0 = d / 4 * (sqrtG r X Y * h * u1) ∧
    fluxAt 1 r d d X Y (stateOf h d u1 u2) 0 = d / 4 * (sqrtG r X Y * h * u2) := by
  constructor <;> simp only [fluxAt, pointwiseSW, stateOf, sqrtGs, if_true, one_ne_zero, if_false, OfNat.ofNat_ne_zero,
    OfNat.ofNat_ne_one] <;> field_simp <;> ring

theorem fluxAt_mom1 (r : ℝ) {d : ℝ} (hd : d ≠ 0) (X Y h u1 u2 : ℝ) :
    fluxAt 0 r d d X Y (stateOf h d u1 u2) 1 = 1 / 2 * (sqrtG r X Y * h * u1 * u1) + gravity / 4 * (sqrtG r X Y * Hcontra r X Y 0 0) * h ^ 2 ∧
    fluxAt 1 r d d X Y (stateOf h d u1 u2) 1 = 1 / 2 * (sqrtG r X Y * h * u1 * u2) + gravity / 4 * (sqrtG r X Y * Hcontra r X Y 0 1) * h ^ 2 := by
  constructor <;> simp only [fluxAt, pointwiseSW, stateOf, sqrtGs, if_true, one_ne_zero, if_false, OfNat.ofNat_ne_zero,
    OfNat.ofNat_ne_one, Grid.toArr, Hcontras, mul_div_self', Matrix.of_apply, Matrix.cons_val', Matrix.cons_val_zero, Matrix.cons_val_one,
    Matrix.cons_val_fin_one] <;> field_simp <;> ring

theorem fluxAt_mom2 (r : ℝ) {d : ℝ} (hd : d ≠ 0) (X Y h u1 u2 : ℝ) :
    fluxAt 0 r d d X Y (stateOf h d u1 u2) 2 = 1 / 2 * (sqrtG r X Y * h * u2 * u1) + gravity / 4 * (sqrtG r X Y * Hcontra r X Y 1 0) * h ^ 2 ∧
    fluxAt 1 r d d X Y (stateOf h d u1 u2) 2 = 1 / 2 * (sqrtG r X Y * h * u2 * u2) + gravity / 4 * (sqrtG r X Y * Hcontra r X Y 1 1) * h ^ 2 := by
  constructor <;> simp only [fluxAt, pointwiseSW, stateOf, sqrtGs, if_true, one_ne_zero, if_false, OfNat.ofNat_ne_zero,
    OfNat.ofNat_ne_one, Grid.toArr, Hcontras, mul_div_self', Matrix.of_apply, Matrix.cons_val', Matrix.cons_val_zero, Matrix.cons_val_one,
    Matrix.cons_val_fin_one] <;> field_simp <;> ring

theorem forcingAt_eq (o : Orientation) (Ω r : ℝ) {d : ℝ} (hd : d ≠ 0) (X Y dz1 dz2 h u1 u2 : ℝ) :
    forcingAt o Ω r d d X Y dz1 dz2 (stateOf h d u1 u2) 0 = 0 ∧
    forcingAt o Ω r d d X Y dz1 dz2 (stateOf h d u1 u2) 1 = 2 / d * h * (2 * (christoffelRot o Ω X Y 0 0 * u1 + christoffelRot o Ω X Y 0 1 * u2)
      + christoffel X Y 0 0 0 * u1 ^ 2 + 2 * christoffel X Y 0 0 1 * u1 * u2
      + gravity * (Hcontra r X Y 0 0 * (2 / d * dz1) + Hcontra r X Y 0 1 * (2 / d * dz2))) ∧
    forcingAt o Ω r d d X Y dz1 dz2 (stateOf h d u1 u2) 2 = 2 / d * h * (2 * (christoffelRot o Ω X Y 1 0 * u1 + christoffelRot o Ω X Y 1 1 * u2)
      + 2 * christoffel X Y 1 0 1 * u1 * u2 + christoffel X Y 1 1 1 * u2 ^ 2
      + gravity * (Hcontra r X Y 1 0 * (2 / d * dz1) + Hcontra r X Y 1 1 * (2 / d * dz2))) := by
  have e : ∀ k a b : ℝ, k * (h * a) * (h * b / h) = k * (h * a * b) := fun k a b => by rw [← mul_div_self' h a b]; ring
  refine ⟨by simp [forcingAt], ?_, ?_⟩ <;> simp only [forcingAt, stateOf, if_true, one_ne_zero, if_false, OfNat.ofNat_ne_zero,
    OfNat.ofNat_ne_one, e, christoffels, Hcontras, Matrix.of_apply, Matrix.cons_val', Matrix.cons_val_zero, Matrix.cons_val_one,
    Matrix.cons_val_fin_one] <;> field_simp <;> ring

end WxVerif.Lemmas.ShallowEquations
