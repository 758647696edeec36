import Verif.Model.Metric3D
import Verif.Props.Winds
import Mathlib.Tactic.Module

/-!
# C36, C38 (3D), C39 (3D): terrain-following metric, Coriolis force and winds
-/

namespace WxVerif.Props.Metric3D

open WxVerif.Cube (V3)
open WxVerif.Geom WxVerif.Sphere
open WxVerif.Props.Metric2D (elementCoord_hasDerivAt)
open WxVerif.Props.Winds
open Real

/-- A field of the terrain-following coordinates has these three partial derivatives. -/
def HasPartials (f : ℝ → ℝ → ℝ → ℝ) (x1 x2 x3 d1 d2 d3 : ℝ) : Prop :=
  HasDerivAt (fun x => f x x2 x3) d1 x1 ∧ HasDerivAt (fun x => f x1 x x3) d2 x2 ∧ HasDerivAt (fun x => f x1 x2 x) d3 x3

/-- `t 0, t 1, t 2` are the partial derivatives of the map `P` into ℝ³. -/
def IsTangentBasis3 (P : ℝ → ℝ → ℝ → V3 ℝ) (x1 x2 x3 : ℝ) (t : Fin 3 → V3 ℝ) : Prop :=
  HasDerivAt (fun x => P x x2 x3) (t 0) x1 ∧ HasDerivAt (fun x => P x1 x x3) (t 1) x2 ∧
    HasDerivAt (fun x => P x1 x2 x) (t 2) x3

/-- Position of a grid point of a deep atmosphere whose distance to the centre is `Rf x₁ x₂ η`. -/
noncomputable def position3 (o : Orientation) (Rf : ℝ → ℝ → ℝ → ℝ) (x1 x2 x3 : ℝ) : V3 ℝ :=
  cart o (Rf x1 x2 x3) (tan x1) (tan x2)

/-- the same as a function of the reference coordinates of an element of size `(dx, dy, de)` -/
noncomputable def elementPosition3 (o : Orientation) (Rf : ℝ → ℝ → ℝ → ℝ) (s1 s2 s3 dx dy de : ℝ) (e1 e2 e3 : Nat)
    (ξ1 ξ2 ξ3 : ℝ) : V3 ℝ :=
  position3 o Rf (elementCoord s1 dx e1 ξ1) (elementCoord s2 dy e2 ξ2) (elementCoord s3 de e3 ξ3)

/-- radial unit vector -/
noncomputable def radial (o : Orientation) (X Y : ℝ) : V3 ℝ := cart o 1 X Y

theorem cart_smul (o : Orientation) (r X Y : ℝ) : cart o r X Y = r • radial o X Y := by
  simp only [radial, cart_eq_frame, frame, smul_add, smul_smul]
  congr 2
  · congr 1; congr 1; ring
  · congr 1; ring
  · ring

theorem tang_smul (o : Orientation) (r X Y : ℝ) (i : Fin 2) : tang o r X Y i = r • tang o 1 X Y i := by
  have sm : ∀ k a b c : ℝ, k • frame o a b c = frame o (k * a) (k * b) (k * c) := by
    intro k a b c; simp only [frame, smul_add, smul_smul]
  fin_cases i <;> simp only [tang, sm] <;> apply frame_ext <;> ring

/-- tangent vectors of the deep terrain-following grid -/
noncomputable def tang3 (o : Orientation) (R X Y R1 R2 R3 : ℝ) : Fin 3 → V3 ℝ
  | 0 => R • tang o 1 X Y 0 + R1 • radial o X Y
  | 1 => R • tang o 1 X Y 1 + R2 • radial o X Y
  | 2 => R3 • radial o X Y

theorem isTangentBasis_tang3 (o : Orientation) {Rf : ℝ → ℝ → ℝ → ℝ} {x1 x2 x3 R1 R2 R3 : ℝ}
    (h1 : cos x1 ≠ 0) (h2 : cos x2 ≠ 0) (hR : HasPartials Rf x1 x2 x3 R1 R2 R3) :
    IsTangentBasis3 (position3 o Rf) x1 x2 x3 (tang3 o (Rf x1 x2 x3) (tan x1) (tan x2) R1 R2 R3) := by
  obtain ⟨ht1, ht2⟩ := isTangentBasis_tang o 1 h1 h2
  obtain ⟨hR1, hR2, hR3⟩ := hR
  refine ⟨?_, ?_, ?_⟩
  · simp only [position3, cart_smul]
    exact (hR1.smul ht1)
  · simp only [position3, cart_smul]
    exact (hR2.smul ht2)
  · simp only [position3, cart_smul]
    exact hR3.smul_const (radial o (tan x1) (tan x2))

theorem dot_radial (o : Orientation) (X Y : ℝ) :
    dot (radial o X Y) (radial o X Y) = 1 ∧ (∀ i, dot (tang o 1 X Y i) (radial o X Y) = 0) ∧
    ∀ i, dot (radial o X Y) (tang o 1 X Y i) = 0 := by
  have hd := delta_pos X Y
  have hs := delta_sq X Y
  unfold delta2 at hs
  refine ⟨?_, ?_, ?_⟩
  · simp only [radial, cart_eq_frame, dot_frame]; field_simp; linear_combination -hs
  · intro i; fin_cases i <;> simp only [radial, cart_eq_frame, tang, dot_frame] <;> field_simp <;> ring
  · intro i; fin_cases i <;> simp only [radial, cart_eq_frame, tang, dot_frame] <;> field_simp <;> ring

/-- **C36, deep.** For every radius function of the terrain-following coordinates (with the partial
derivatives given to the metric), the covariant 3D metric is the metric induced by the position map in the
reference coordinates of the element. -/
theorem C36_induced_deep (o : Orientation) {Rf : ℝ → ℝ → ℝ → ℝ} (s1 s2 s3 dx dy de : ℝ) (e1 e2 e3 : Nat)
    {ξ1 ξ2 ξ3 R1 R2 R3 : ℝ} (h1 : cos (elementCoord s1 dx e1 ξ1) ≠ 0) (h2 : cos (elementCoord s2 dy e2 ξ2) ≠ 0)
    (hR : HasPartials Rf (elementCoord s1 dx e1 ξ1) (elementCoord s2 dy e2 ξ2) (elementCoord s3 de e3 ξ3) R1 R2 R3) :
    ∃ t, IsTangentBasis3 (elementPosition3 o Rf s1 s2 s3 dx dy de e1 e2 e3) ξ1 ξ2 ξ3 t ∧
      ∀ i j, Hcov3 ⟨Rf (elementCoord s1 dx e1 ξ1) (elementCoord s2 dy e2 ξ2) (elementCoord s3 de e3 ξ3),
        tan (elementCoord s1 dx e1 ξ1), tan (elementCoord s2 dy e2 ξ2), R1, R2, R3, dx, dy, de⟩ i j = dot (t i) (t j) := by
  obtain ⟨ht1, ht2, ht3⟩ := isTangentBasis_tang3 o h1 h2 hR
  generalize hT : tang3 o (Rf (elementCoord s1 dx e1 ξ1) (elementCoord s2 dy e2 ξ2) (elementCoord s3 de e3 ξ3))
    (tan (elementCoord s1 dx e1 ξ1)) (tan (elementCoord s2 dy e2 ξ2)) R1 R2 R3 = T at *
  refine ⟨![(dx / 2) • T 0, (dy / 2) • T 1, (de / 2) • T 2], ⟨?_, ?_, ?_⟩, ?_⟩
  · exact ht1.scomp ξ1 (elementCoord_hasDerivAt s1 dx e1 ξ1)
  · exact ht2.scomp ξ2 (elementCoord_hasDerivAt s2 dy e2 ξ2)
  · exact ht3.scomp ξ3 (elementCoord_hasDerivAt s3 de e3 ξ3)
  · subst hT
    generalize tan (elementCoord s1 dx e1 ξ1) = X
    generalize tan (elementCoord s2 dy e2 ξ2) = Y
    generalize Rf _ _ _ = R
    obtain ⟨hn, ha, hb⟩ := dot_radial o X Y
    have hm := isInducedMetric_tang o 1 X Y
    have m := fun i j => (hm i j).symm
    intro i j
    fin_cases i <;> fin_cases j <;>
      simp [tang3, dot_smul_left, dot_smul_right, dot_add_left, dot_add_right, hn, ha, hb, m, Hcov3, Hcov, delta_four] <;>
      ring

/-- **C36, shallow.** With the shallow approximation the covariant metric is the metric induced by the map
into ℝ³ × ℝ that sends a point to its place on the sphere of radius `A` and to its height. -/
theorem C36_induced_shallow (o : Orientation) (A : ℝ) {z : ℝ → ℝ → ℝ → ℝ} (s1 s2 s3 dx dy de : ℝ) (e1 e2 e3 : Nat)
    {ξ1 ξ2 ξ3 z1 z2 z3 : ℝ} (h1 : cos (elementCoord s1 dx e1 ξ1) ≠ 0) (h2 : cos (elementCoord s2 dy e2 ξ2) ≠ 0)
    (hz : HasPartials z (elementCoord s1 dx e1 ξ1) (elementCoord s2 dy e2 ξ2) (elementCoord s3 de e3 ξ3) z1 z2 z3) :
    ∃ (t : Fin 3 → V3 ℝ) (g : Fin 3 → ℝ),
      IsTangentBasis3 (elementPosition3 o (fun _ _ _ => A) s1 s2 s3 dx dy de e1 e2 e3) ξ1 ξ2 ξ3 t ∧
      HasPartials (fun ξ1 ξ2 ξ3 => z (elementCoord s1 dx e1 ξ1) (elementCoord s2 dy e2 ξ2) (elementCoord s3 de e3 ξ3))
        ξ1 ξ2 ξ3 (g 0) (g 1) (g 2) ∧
      ∀ i j, Hcov3 ⟨A, tan (elementCoord s1 dx e1 ξ1), tan (elementCoord s2 dy e2 ξ2), z1, z2, z3, dx, dy, de⟩ i j =
        dot (t i) (t j) + g i * g j := by
  have hc : HasPartials (fun _ _ _ : ℝ => A) (elementCoord s1 dx e1 ξ1) (elementCoord s2 dy e2 ξ2)
      (elementCoord s3 de e3 ξ3) 0 0 0 := ⟨hasDerivAt_const _ _, hasDerivAt_const _ _, hasDerivAt_const _ _⟩
  obtain ⟨t, ht, hm⟩ := C36_induced_deep o s1 s2 s3 dx dy de e1 e2 e3 h1 h2 hc
  refine ⟨t, ![z1 * (dx / 2), z2 * (dy / 2), z3 * (de / 2)], ht, ⟨?_, ?_, ?_⟩, ?_⟩
  · exact hz.1.comp ξ1 (elementCoord_hasDerivAt s1 dx e1 ξ1)
  · exact hz.2.1.comp ξ2 (elementCoord_hasDerivAt s2 dy e2 ξ2)
  · exact hz.2.2.comp ξ3 (elementCoord_hasDerivAt s3 de e3 ξ3)
  · intro i j
    rw [← hm]
    fin_cases i <;> fin_cases j <;> simp [Hcov3] <;> ring

/-- What the code needs to build the metric: radius, vertical slope and element sizes are not zero. -/
def NonDegenerate (p : Point3) : Prop := p.R ≠ 0 ∧ p.dRdeta ≠ 0 ∧ p.dx ≠ 0 ∧ p.dy ≠ 0 ∧ p.de ≠ 0

/-- **C36.** The covariant and contravariant 3D metrics are inverse matrices, for every slope, deep or
shallow. -/
theorem C36_inverse (p : Point3) (h : NonDegenerate p) : Hcov3 p * Hcontra3 p = 1 ∧ Hcontra3 p * Hcov3 p = 1 := by
  obtain ⟨R, X, Y, R1, R2, R3, dx, dy, de⟩ := p
  obtain ⟨hR, hR3, hx, hy, he⟩ := h
  simp only at hR hR3 hx hy he
  have hd := delta2_pos X Y
  have hX : (0:ℝ) < 1 + X ^ 2 := by positivity
  have hY : (0:ℝ) < 1 + Y ^ 2 := by positivity
  have key : Hcov3 ⟨R, X, Y, R1, R2, R3, dx, dy, de⟩ * Hcontra3 ⟨R, X, Y, R1, R2, R3, dx, dy, de⟩ = 1 := by
    ext i j
    fin_cases i <;> fin_cases j <;>
      simp [Hcov3, Hcontra3, Matrix.mul_apply, Fin.sum_univ_three] <;> field_simp <;>
      (try unfold delta2) <;> ring
  exact ⟨key, mul_eq_one_comm.mp key⟩

/-- **C36.** The square of the 3D volume element is the determinant of the covariant metric. -/
theorem C36_volume (p : Point3) : rootG3 p ^ 2 = (Hcov3 p).det := by
  obtain ⟨R, X, Y, R1, R2, R3, dx, dy, de⟩ := p
  have hd := delta2_pos X Y
  have h3 : (delta2 X Y ^ (1.5 : ℝ)) ^ 2 = delta2 X Y ^ 3 := by
    rw [← Real.rpow_natCast, ← Real.rpow_mul hd.le, ← Real.rpow_natCast]; norm_num
  rw [Matrix.det_fin_three]
  simp [Hcov3, rootG3, div_pow, mul_pow, h3, sq_abs]
  field_simp
  unfold delta2; ring

/-- … and the volume element is positive for positive element sizes. -/
theorem C36_volume_pos (p : Point3) (h : NonDegenerate p) (hx : 0 < p.dx) (hy : 0 < p.dy) (he : 0 < p.de) :
    0 < rootG3 p := by
  obtain ⟨R, X, Y, R1, R2, R3, dx, dy, de⟩ := p
  obtain ⟨hR, hR3, -⟩ := h
  simp only at *
  have hd := delta2_pos X Y
  have : 0 < |R3| := abs_pos.mpr hR3
  unfold rootG3
  simp only
  positivity

/-- **C36, violated clause.** The auxiliary contravariant 2D metric used to average the slopes at element
interfaces is not the inverse of its covariant companion, away from the coordinate lines and corners. -/
theorem C36_auxiliary_fails {X Y : ℝ} (h : X * Y ≠ 0) (hc : (X * Y) ^ 2 ≠ 1) : auxCov X Y * auxContra X Y ≠ 1 := by
  intro he
  have h01 := congrFun (congrFun he 0) 1
  have hd := delta2_pos X Y
  have hX : (0:ℝ) < 1 + X ^ 2 := by positivity
  have hY : (0:ℝ) < 1 + Y ^ 2 := by positivity
  have hs : (0:ℝ) < 1 + X ^ 2 + (1 + Y ^ 2) := by positivity
  simp [auxCov, auxContra, Matrix.mul_apply, Fin.sum_univ_two] at h01
  field_simp at h01
  apply h
  have h3 : X * Y * (1 + X ^ 2) * ((X * Y) ^ 2 - 1) = 0 := by linear_combination h01
  have h4 : X * Y * (1 + X ^ 2) = 0 := (mul_eq_zero.mp h3).resolve_right (sub_ne_zero.mpr hc)
  exact (mul_eq_zero.mp h4).resolve_right hX.ne'

/-- On the coordinate lines through the panel centre (and at the corners) the auxiliary metric is right. -/
theorem C36_auxiliary_partial {X Y : ℝ} (h : X * Y = 0 ∨ (X * Y) ^ 2 = 1) : auxCov X Y * auxContra X Y = 1 := by
  have hd := delta2_pos X Y
  have hX : (0:ℝ) < 1 + X ^ 2 := by positivity
  have hY : (0:ℝ) < 1 + Y ^ 2 := by positivity
  have hs : (0:ℝ) < 1 + X ^ 2 + (1 + Y ^ 2) := by positivity
  have h3 : X * Y * ((X * Y) ^ 2 - 1) = 0 := by
    rcases h with h | h
    · rw [h]; ring
    · rw [h]; ring
  ext i j
  fin_cases i <;> fin_cases j <;> simp [auxCov, auxContra, Matrix.mul_apply, Fin.sum_univ_two] <;> field_simp
  · unfold delta2; linear_combination -(X * Y) * h3
  · linear_combination (1 + X ^ 2) * h3
  · linear_combination (1 + Y ^ 2) * h3
  · unfold delta2; linear_combination -(X * Y) * h3

example : NonDegenerate ⟨6371220 + 1000, 1 / 3, -1 / 2, 0.1, -0.2, 3, 0.1, 0.1, 0.5⟩ := by
  refine ⟨?_, ?_, ?_, ?_, ?_⟩ <;> norm_num

/-- A terrain with slopes in every direction has the partial derivatives the theorems ask for. -/
example (x1 x2 x3 : ℝ) : HasPartials (fun x y z => 6371220 + 100 * x - 30 * y + 20000 * z) x1 x2 x3 100 (-30) 20000 := by
  refine ⟨?_, ?_, ?_⟩
  · exact ((((hasDerivAt_id x1).const_mul 100).const_add 6371220).sub_const (30 * x2) |>.add_const (20000 * x3)).congr_deriv
      (by ring)
  · exact ((((hasDerivAt_id x2).const_mul 30).const_sub (6371220 + 100 * x1)).add_const (20000 * x3)).congr_deriv (by ring)
  · exact (((hasDerivAt_id x3).const_mul 20000).const_add (6371220 + 100 * x1 - 30 * x2)).congr_deriv (by ring)

/-! ## C38 in three dimensions -/

/-- covariant components of the rotation part of the forcing (divided by the density) at velocity `u`;
`pde_euler_cubesphere.py` 203-290 subtracts `2 ρ Γᵃ₀ᵦ uᵇ` from the momentum equation `a` -/
noncomputable def coriolisCov (p : Point3) (g : Matrix (Fin 3) (Fin 3) ℝ) (u : Fin 3 → ℝ) (i : Fin 3) : ℝ :=
  ∑ a, Hcov3 p i a * (2 * ∑ b, scaleRot3 p g a b * u b)

/-- the rotation symbols with the signs of the two-dimensional metric -/
noncomputable def correctedRot3 (o : Orientation) (Ω : ℝ) (p : Point3) : Matrix (Fin 3) (Fin 3) ℝ :=
  christoffelRot3With (-(1 + p.Y ^ 2) * rot1 o p.X p.Y) (-(p.X * p.Y) * rot1 o p.X p.Y) o Ω p

/-- tangent vectors in the reference coordinates -/
noncomputable def refTang (o : Orientation) (p : Point3) : Fin 3 → V3 ℝ :=
  ![(p.dx / 2) • tang3 o p.R p.X p.Y p.dRdx1 p.dRdx2 p.dRdeta 0, (p.dy / 2) • tang3 o p.R p.X p.Y p.dRdx1 p.dRdx2 p.dRdeta 1,
    (p.de / 2) • tang3 o p.R p.X p.Y p.dRdx1 p.dRdx2 p.dRdeta 2]

theorem vert_frame (o : Orientation) (a b c a' b' c' : ℝ) :
    (frame o a b c).1 * (frame o a' b' c').2.1 - (frame o a b c).2.1 * (frame o a' b' c').1 =
    (b * c' - c * b') * sin o.lat + (c * a' - a * c') * -(cos o.lat * sin o.ang)
      + (a * b' - b * a') * (cos o.lat * cos o.ang) := by
  have q1 := sin_sq_add_cos_sq o.lon
  have q3 := sin_sq_add_cos_sq o.ang
  have c12 : (ax1 o).1 * (ax2 o).2.1 - (ax1 o).2.1 * (ax2 o).1 = sin o.lat := by
    simp only [ax1, ax2]
    linear_combination sin o.lat * (sin o.ang ^ 2 + cos o.ang ^ 2) * q1 + sin o.lat * q3
  have c20 : (ax2 o).1 * (ax0 o).2.1 - (ax2 o).2.1 * (ax0 o).1 = -(cos o.lat * sin o.ang) := by
    simp only [ax0, ax2]
    linear_combination -(cos o.lat * sin o.ang) * q1
  have c01 : (ax0 o).1 * (ax1 o).2.1 - (ax0 o).2.1 * (ax1 o).1 = cos o.lat * cos o.ang := by
    simp only [ax0, ax1]
    linear_combination (cos o.lat * cos o.ang) * q1
  simp only [frame, Prod.fst_add, Prod.snd_add, Prod.smul_fst, Prod.smul_snd, smul_eq_mul]
  linear_combination (b * c' - c * b') * c12 + (c * a' - a * c') * c20 + (a * b' - b * a') * c01

theorem tang3_frame (o : Orientation) (R X Y R1 R2 R3 : ℝ) :
    tang3 o R X Y R1 R2 R3 0 = frame o (-(R * X * (1 + X ^ 2) / delta X Y ^ 3) + R1 / delta X Y)
      (R * (1 + X ^ 2) * (1 + Y ^ 2) / delta X Y ^ 3 + R1 * X / delta X Y)
      (-(R * X * Y * (1 + X ^ 2) / delta X Y ^ 3) + R1 * Y / delta X Y) ∧
    tang3 o R X Y R1 R2 R3 1 = frame o (-(R * Y * (1 + Y ^ 2) / delta X Y ^ 3) + R2 / delta X Y)
      (-(R * X * Y * (1 + Y ^ 2) / delta X Y ^ 3) + R2 * X / delta X Y)
      (R * (1 + X ^ 2) * (1 + Y ^ 2) / delta X Y ^ 3 + R2 * Y / delta X Y) ∧
    tang3 o R X Y R1 R2 R3 2 = frame o (R3 / delta X Y) (R3 * X / delta X Y) (R3 * Y / delta X Y) := by
  have sm : ∀ k a b c : ℝ, k • frame o a b c = frame o (k * a) (k * b) (k * c) := by
    intro k a b c; simp only [frame, smul_add, smul_smul]
  have ad : ∀ a b c a' b' c' : ℝ, frame o a b c + frame o a' b' c' = frame o (a + a') (b + b') (c + c') := by
    intro a b c a' b' c'; simp only [frame, add_smul]; abel
  refine ⟨?_, ?_, ?_⟩ <;> simp only [tang3, tang, radial, cart_eq_frame, sm, ad] <;> apply frame_ext <;> ring

/-- the vertical components of the cross products of the tangent vectors -/
theorem tang3_vert (o : Orientation) (R X Y R1 R2 R3 : ℝ) :
    (tang3 o R X Y R1 R2 R3 0).1 * (tang3 o R X Y R1 R2 R3 1).2.1
        - (tang3 o R X Y R1 R2 R3 0).2.1 * (tang3 o R X Y R1 R2 R3 1).1 =
      R ^ 2 * (1 + X ^ 2) * (1 + Y ^ 2) / delta2 X Y ^ 2 * rot1 o X Y
        + R * R2 * (1 + X ^ 2) / delta2 X Y * (Y * sin o.lat - cos o.lat * cos o.ang)
        + R * R1 * (1 + Y ^ 2) / delta2 X Y * (X * sin o.lat + cos o.lat * sin o.ang) ∧
    (tang3 o R X Y R1 R2 R3 0).1 * (tang3 o R X Y R1 R2 R3 2).2.1
        - (tang3 o R X Y R1 R2 R3 0).2.1 * (tang3 o R X Y R1 R2 R3 2).1 =
      R * R3 * (1 + X ^ 2) / delta2 X Y * (Y * sin o.lat - cos o.lat * cos o.ang) ∧
    (tang3 o R X Y R1 R2 R3 1).1 * (tang3 o R X Y R1 R2 R3 2).2.1
        - (tang3 o R X Y R1 R2 R3 1).2.1 * (tang3 o R X Y R1 R2 R3 2).1 =
      -(R * R3 * (1 + Y ^ 2) / delta2 X Y * (X * sin o.lat + cos o.lat * sin o.ang)) := by
  obtain ⟨h0, h1, h2⟩ := tang3_frame o R X Y R1 R2 R3
  have hd := delta_pos X Y
  have hs := delta_sq X Y
  have hp := delta2_pos X Y
  have hh : delta2 X Y = 1 + X ^ 2 + Y ^ 2 := rfl
  rw [h0, h1, h2]
  simp only [vert_frame, rot1]
  generalize delta X Y = δ at *
  generalize hD : delta2 X Y = D at *
  refine ⟨?_, ?_, ?_⟩ <;> subst hs <;> field_simp <;> (have h4 : δ ^ 4 = (1 + X ^ 2 + Y ^ 2) ^ 2 := by rw [← hh]; ring) <;>
    simp only [h4, hh] <;> ring

/-- **C38, 3D, with the signs of the 2D symbols.** The rotation part of the forcing is `2 ω × U`, for every
terrain, position and velocity (deep atmosphere geometry; the shallow symbols have the same text). -/
theorem coriolis_corrected (o : Orientation) (Ω : ℝ) (p : Point3) (h : NonDegenerate p) (u : Fin 3 → ℝ) (i : Fin 3) :
    coriolisCov p (correctedRot3 o Ω p) u i = dot ((2:ℝ) • cross (0, 0, Ω) (∑ b, u b • refTang o p b)) (refTang o p i) := by
  obtain ⟨R, X, Y, R1, R2, R3, dx, dy, de⟩ := p
  obtain ⟨hR, hR3, hx, hy, he⟩ := h
  simp only at hR hR3 hx hy he
  obtain ⟨v01, v02, v12⟩ := tang3_vert o R X Y R1 R2 R3
  have hp := delta2_pos X Y
  have hX : (0:ℝ) < 1 + X ^ 2 := by positivity
  have hY : (0:ℝ) < 1 + Y ^ 2 := by positivity
  have rhs : dot ((2:ℝ) • cross (0, 0, Ω) (∑ b, u b • refTang o ⟨R, X, Y, R1, R2, R3, dx, dy, de⟩ b))
      (refTang o ⟨R, X, Y, R1, R2, R3, dx, dy, de⟩ i) =
      2 * Ω * (match i with
        | 0 => dx / 2 * (-(u 1 * dy / 2 * ((tang3 o R X Y R1 R2 R3 0).1 * (tang3 o R X Y R1 R2 R3 1).2.1
            - (tang3 o R X Y R1 R2 R3 0).2.1 * (tang3 o R X Y R1 R2 R3 1).1))
          - u 2 * de / 2 * ((tang3 o R X Y R1 R2 R3 0).1 * (tang3 o R X Y R1 R2 R3 2).2.1
            - (tang3 o R X Y R1 R2 R3 0).2.1 * (tang3 o R X Y R1 R2 R3 2).1))
        | 1 => dy / 2 * ((u 0 * dx / 2 * ((tang3 o R X Y R1 R2 R3 0).1 * (tang3 o R X Y R1 R2 R3 1).2.1
            - (tang3 o R X Y R1 R2 R3 0).2.1 * (tang3 o R X Y R1 R2 R3 1).1))
          - u 2 * de / 2 * ((tang3 o R X Y R1 R2 R3 1).1 * (tang3 o R X Y R1 R2 R3 2).2.1
            - (tang3 o R X Y R1 R2 R3 1).2.1 * (tang3 o R X Y R1 R2 R3 2).1))
        | 2 => de / 2 * ((u 0 * dx / 2 * ((tang3 o R X Y R1 R2 R3 0).1 * (tang3 o R X Y R1 R2 R3 2).2.1
            - (tang3 o R X Y R1 R2 R3 0).2.1 * (tang3 o R X Y R1 R2 R3 2).1))
          + u 1 * dy / 2 * ((tang3 o R X Y R1 R2 R3 1).1 * (tang3 o R X Y R1 R2 R3 2).2.1
            - (tang3 o R X Y R1 R2 R3 1).2.1 * (tang3 o R X Y R1 R2 R3 2).1))) := by
    fin_cases i <;> simp [dot, cross, refTang, Fin.sum_univ_three] <;> ring
  rw [rhs, v01, v02, v12]
  fin_cases i <;>
    simp [Fin.sum_univ_three, coriolisCov, Hcov3, scaleRot3, correctedRot3, christoffelRot3With, rot1, rot2, rot3] <;>
    field_simp <;> (unfold delta2; ring)

/-- `refTang` are the derivatives of the position in the reference coordinates. -/
theorem isTangentBasis_refTang (o : Orientation) {Rf : ℝ → ℝ → ℝ → ℝ} (s1 s2 s3 dx dy de : ℝ) (e1 e2 e3 : Nat)
    {ξ1 ξ2 ξ3 R1 R2 R3 : ℝ} (h1 : cos (elementCoord s1 dx e1 ξ1) ≠ 0) (h2 : cos (elementCoord s2 dy e2 ξ2) ≠ 0)
    (hR : HasPartials Rf (elementCoord s1 dx e1 ξ1) (elementCoord s2 dy e2 ξ2) (elementCoord s3 de e3 ξ3) R1 R2 R3) :
    IsTangentBasis3 (elementPosition3 o Rf s1 s2 s3 dx dy de e1 e2 e3) ξ1 ξ2 ξ3
      (refTang o ⟨Rf (elementCoord s1 dx e1 ξ1) (elementCoord s2 dy e2 ξ2) (elementCoord s3 de e3 ξ3),
        tan (elementCoord s1 dx e1 ξ1), tan (elementCoord s2 dy e2 ξ2), R1, R2, R3, dx, dy, de⟩) := by
  obtain ⟨ht1, ht2, ht3⟩ := isTangentBasis_tang3 o h1 h2 hR
  exact ⟨ht1.scomp ξ1 (elementCoord_hasDerivAt s1 dx e1 ξ1), ht2.scomp ξ2 (elementCoord_hasDerivAt s2 dy e2 ξ2),
    ht3.scomp ξ3 (elementCoord_hasDerivAt s3 de e3 ξ3)⟩

theorem tangentBasis3_unique {P : ℝ → ℝ → ℝ → V3 ℝ} {x1 x2 x3 : ℝ} {t t' : Fin 3 → V3 ℝ}
    (h : IsTangentBasis3 P x1 x2 x3 t) (h' : IsTangentBasis3 P x1 x2 x3 t') : t = t' := by
  funext j; fin_cases j
  · exact h.1.unique h'.1
  · exact h.2.1.unique h'.2.1
  · exact h.2.2.unique h'.2.2

/-- **C38, 3D, what the code gets right.** When the second velocity component vanishes, the covariant
components of the Coriolis forcing are those of `2 ω × U`, for every terrain. -/
theorem C38_coriolis_3d_partial (o : Orientation) (Ω : ℝ) {Rf : ℝ → ℝ → ℝ → ℝ} (s1 s2 s3 dx dy de : ℝ) (e1 e2 e3 : Nat)
    {ξ1 ξ2 ξ3 R1 R2 R3 : ℝ} (h1 : cos (elementCoord s1 dx e1 ξ1) ≠ 0) (h2 : cos (elementCoord s2 dy e2 ξ2) ≠ 0)
    (hR : HasPartials Rf (elementCoord s1 dx e1 ξ1) (elementCoord s2 dy e2 ξ2) (elementCoord s3 de e3 ξ3) R1 R2 R3)
    (hn : NonDegenerate ⟨Rf (elementCoord s1 dx e1 ξ1) (elementCoord s2 dy e2 ξ2) (elementCoord s3 de e3 ξ3),
        tan (elementCoord s1 dx e1 ξ1), tan (elementCoord s2 dy e2 ξ2), R1, R2, R3, dx, dy, de⟩)
    {t : Fin 3 → V3 ℝ} (ht : IsTangentBasis3 (elementPosition3 o Rf s1 s2 s3 dx dy de e1 e2 e3) ξ1 ξ2 ξ3 t)
    (u : Fin 3 → ℝ) (hu : u 1 = 0) (i : Fin 3) :
    let p : Point3 := ⟨Rf (elementCoord s1 dx e1 ξ1) (elementCoord s2 dy e2 ξ2) (elementCoord s3 de e3 ξ3),
        tan (elementCoord s1 dx e1 ξ1), tan (elementCoord s2 dy e2 ξ2), R1, R2, R3, dx, dy, de⟩
    coriolisCov p (christoffelRot3 o Ω p) u i = dot ((2:ℝ) • cross (0, 0, Ω) (∑ b, u b • t b)) (t i) := by
  intro p
  rw [tangentBasis3_unique ht (isTangentBasis_refTang o s1 s2 s3 dx dy de e1 e2 e3 h1 h2 hR),
    ← coriolis_corrected o Ω p hn u i]
  simp only [coriolisCov, Fin.sum_univ_three, hu, scaleRot3, christoffelRot3, correctedRot3, christoffelRot3With]
  simp

/-- **C38, 3D, with the signs corrected.** With the signs of the 2D symbols in `Γ¹₀₂` and `Γ²₀₂` the forcing is
`2 ω × U` for every terrain and velocity. -/
theorem C38_coriolis_3d_corrected (o : Orientation) (Ω : ℝ) {Rf : ℝ → ℝ → ℝ → ℝ} (s1 s2 s3 dx dy de : ℝ) (e1 e2 e3 : Nat)
    {ξ1 ξ2 ξ3 R1 R2 R3 : ℝ} (h1 : cos (elementCoord s1 dx e1 ξ1) ≠ 0) (h2 : cos (elementCoord s2 dy e2 ξ2) ≠ 0)
    (hR : HasPartials Rf (elementCoord s1 dx e1 ξ1) (elementCoord s2 dy e2 ξ2) (elementCoord s3 de e3 ξ3) R1 R2 R3)
    (hn : NonDegenerate ⟨Rf (elementCoord s1 dx e1 ξ1) (elementCoord s2 dy e2 ξ2) (elementCoord s3 de e3 ξ3),
        tan (elementCoord s1 dx e1 ξ1), tan (elementCoord s2 dy e2 ξ2), R1, R2, R3, dx, dy, de⟩)
    {t : Fin 3 → V3 ℝ} (ht : IsTangentBasis3 (elementPosition3 o Rf s1 s2 s3 dx dy de e1 e2 e3) ξ1 ξ2 ξ3 t)
    (u : Fin 3 → ℝ) (i : Fin 3) :
    let p : Point3 := ⟨Rf (elementCoord s1 dx e1 ξ1) (elementCoord s2 dy e2 ξ2) (elementCoord s3 de e3 ξ3),
        tan (elementCoord s1 dx e1 ξ1), tan (elementCoord s2 dy e2 ξ2), R1, R2, R3, dx, dy, de⟩
    coriolisCov p (correctedRot3 o Ω p) u i = dot ((2:ℝ) • cross (0, 0, Ω) (∑ b, u b • t b)) (t i) := by
  intro p
  rw [tangentBasis3_unique ht (isTangentBasis_refTang o s1 s2 s3 dx dy de e1 e2 e3 h1 h2 hR),
    ← coriolis_corrected o Ω p hn u i]

/-- Work of the Coriolis forcing per unit mass. -/
noncomputable def coriolisWork (p : Point3) (g : Matrix (Fin 3) (Fin 3) ℝ) (u : Fin 3 → ℝ) : ℝ :=
  ∑ i, coriolisCov p g u i * u i

/-- With the corrected signs the Coriolis forcing does no work, deep or shallow. -/
theorem C38_no_work_3d_corrected (o : Orientation) (Ω : ℝ) (p : Point3) (h : NonDegenerate p) (u : Fin 3 → ℝ) :
    coriolisWork p (correctedRot3 o Ω p) u = 0 := by
  simp only [coriolisWork, coriolis_corrected o Ω p h]
  simp only [Fin.sum_univ_three, dot, cross, Prod.fst_add, Prod.snd_add, Prod.smul_fst, Prod.smul_snd, smul_eq_mul]
  ring

/-- **C38, 3D, violated.** With the symbols of the code, at the centre of a panel the Coriolis forcing does work
at the rate `Ω Δx₁ Δx₂ R² sin(latitude) u¹ u²`, whatever the terrain, deep or shallow. -/
theorem C38_no_work_3d_fails (o : Orientation) (Ω : ℝ) (p : Point3) (h : NonDegenerate p) (hX : p.X = 0) (hY : p.Y = 0)
    (u : Fin 3 → ℝ) :
    coriolisWork p (christoffelRot3 o Ω p) u = Ω * p.dx * p.dy * p.R ^ 2 * sin o.lat * u 0 * u 1 := by
  have hw := C38_no_work_3d_corrected o Ω p h u
  obtain ⟨R, X, Y, R1, R2, R3, dx, dy, de⟩ := p
  obtain ⟨hR, hR3, hx, hy, he⟩ := h
  simp only at hR hR3 hx hy he hX hY
  subst hX hY
  have e : christoffelRot3 o Ω ⟨R, 0, 0, R1, R2, R3, dx, dy, de⟩ =
      correctedRot3 o Ω ⟨R, 0, 0, R1, R2, R3, dx, dy, de⟩ +
        !![0, 2 * Ω * sin o.lat, 0; 0, 0, 0; 0, -(R3⁻¹ * (R1 * (2 * Ω * sin o.lat))), 0] := by
    ext i j
    fin_cases i <;> fin_cases j <;>
      simp [correctedRot3, christoffelRot3, christoffelRot3With, rot1, rot2, rot3, delta2] <;> ring
  have ad : ∀ (p : Point3) (g g' : Matrix (Fin 3) (Fin 3) ℝ),
      coriolisWork p (g + g') u = coriolisWork p g u + coriolisWork p g' u := by
    intro p g g'
    simp only [coriolisWork, coriolisCov, scaleRot3, Fin.sum_univ_three, Matrix.add_apply]
    ring
  rw [e, ad, hw, zero_add]
  simp [coriolisWork, coriolisCov, Fin.sum_univ_three, Hcov3, scaleRot3, delta2]
  field_simp
  ring

/-- … which is not zero on a polar panel: the Earth's rotation rate and radius, 100 m of relief. -/
example : coriolisWork ⟨6371220, 0, 0, 100, 50, 30000, 0.1, 0.1, 0.1⟩
    (christoffelRot3 ⟨0, π / 2, 0⟩ (7.29212e-5) ⟨6371220, 0, 0, 100, 50, 30000, 0.1, 0.1, 0.1⟩) ![1, 1, 0] ≠ 0 := by
  rw [C38_no_work_3d_fails _ _ _ (by refine ⟨?_, ?_, ?_, ?_, ?_⟩ <;> norm_num) rfl rfl]
  simp
  norm_num

/-! ## C39 in three dimensions -/

/-- the radial unit vector is the local vertical -/
theorem upUnit_radial (o : Orientation) {r : ℝ} (hr : 0 < r) {X Y : ℝ} (h : denom2 o X Y ≠ 0) :
    upUnit (pointLon o r X Y) (pointLat o r X Y) = radial o X Y := by
  have hd := delta_pos X Y
  have hp : OffPole (cart o r X Y) := (off_pole_iff o hr X Y).mpr h
  have e := C39_cart2sph _ hp
  have hr3 : (cart2sph (cart o r X Y)).2.2 = r := hypot_cart3 o hr X Y
  rw [hr3, cart_smul o r X Y] at e
  have e2 : r • upUnit (pointLon o r X Y) (pointLat o r X Y) = r • radial o X Y := by
    rw [← e]
    simp only [upUnit, sph2cart, pointLon, pointLat, ← cart_smul o r X Y, Prod.smul_mk, smul_eq_mul, Prod.mk.injEq]
    refine ⟨by ring, by ring, trivial⟩
  exact smul_right_injective _ hr.ne' e2

/-- **C39, 3D.** The physical winds computed from contravariant components are the east, north and upward
components of the velocity vector `Σ uᵃ tₐ`, for every terrain, off the poles (deep atmosphere geometry). -/
theorem C39_contra2wind_3d (o : Orientation) {Rf : ℝ → ℝ → ℝ → ℝ} (s1 s2 s3 : ℝ) {dx dy de : ℝ}
    (hdx : dx ≠ 0) (hdy : dy ≠ 0) (hde : de ≠ 0) (e1 e2 e3 : Nat)
    {ξ1 ξ2 ξ3 R1 R2 R3 : ℝ} (h1 : cos (elementCoord s1 dx e1 ξ1) ≠ 0) (h2 : cos (elementCoord s2 dy e2 ξ2) ≠ 0)
    (hR : HasPartials Rf (elementCoord s1 dx e1 ξ1) (elementCoord s2 dy e2 ξ2) (elementCoord s3 de e3 ξ3) R1 R2 R3)
    (hpos : 0 < Rf (elementCoord s1 dx e1 ξ1) (elementCoord s2 dy e2 ξ2) (elementCoord s3 de e3 ξ3)) (hR3 : R3 ≠ 0)
    (hp : OffPole (elementPosition3 o Rf s1 s2 s3 dx dy de e1 e2 e3 ξ1 ξ2 ξ3))
    {t : Fin 3 → V3 ℝ} (ht : IsTangentBasis3 (elementPosition3 o Rf s1 s2 s3 dx dy de e1 e2 e3) ξ1 ξ2 ξ3 t)
    (u1 u2 u3 : ℝ) :
    let p : Point3 := ⟨Rf (elementCoord s1 dx e1 ξ1) (elementCoord s2 dy e2 ξ2) (elementCoord s3 de e3 ξ3),
        tan (elementCoord s1 dx e1 ξ1), tan (elementCoord s2 dy e2 ξ2), R1, R2, R3, dx, dy, de⟩
    let w := contra2wind3 o (cos (pointLat o p.R p.X p.Y)) p u1 u2 u3
    w.1 • eastUnit (pointLon o p.R p.X p.Y) + w.2.1 • northUnit (pointLon o p.R p.X p.Y) (pointLat o p.R p.X p.Y)
      + w.2.2 • upUnit (pointLon o p.R p.X p.Y) (pointLat o p.R p.X p.Y) = u1 • t 0 + u2 • t 1 + u3 • t 2 := by
  intro p w
  rw [tangentBasis3_unique ht (isTangentBasis_refTang o s1 s2 s3 dx dy de e1 e2 e3 h1 h2 hR)]
  have hden : denom2 o p.X p.Y ≠ 0 := (off_pole_iff o hpos p.X p.Y).mp hp
  obtain ⟨ht1, ht2⟩ := isTangentBasis_tang o p.R h1 h2
  have hor := C39_contra2wind o hpos s1 s2 hdx hdy e1 e2 h1 h2 hp
    (t := ![(dx / 2) • tang o p.R p.X p.Y 0, (dy / 2) • tang o p.R p.X p.Y 1])
    ⟨ht1.scomp ξ1 (elementCoord_hasDerivAt s1 dx e1 ξ1), ht2.scomp ξ2 (elementCoord_hasDerivAt s2 dy e2 ξ2)⟩ u1 u2
  have hw : w.2.2 = u1 * (dx / 2) * R1 + u2 * (dy / 2) * R2 + u3 * (de / 2) * R3 := by
    simp only [w, contra2wind3, Hcov3, invDzdeta, p]
    simp
    field_simp
    ring
  rw [upUnit_radial o hpos hden, hw]
  have : w.1 • eastUnit (pointLon o p.R p.X p.Y) + w.2.1 • northUnit (pointLon o p.R p.X p.Y) (pointLat o p.R p.X p.Y)
    = u1 • (dx / 2) • tang o p.R p.X p.Y 0 + u2 • (dy / 2) • tang o p.R p.X p.Y 1 := hor
  rw [this, tang_smul o p.R p.X p.Y 0, tang_smul o p.R p.X p.Y 1]
  simp only [refTang, tang3, Matrix.cons_val_zero, Matrix.cons_val_one, Matrix.cons_val_two, Matrix.head_cons, Matrix.tail_cons,
    Matrix.cons_val]
  module

/-- **C39, 3D, flat coordinate surfaces.** Where the coordinate surfaces are level, physical winds convert to
contravariant components and back without change, and the other way round. -/
theorem C39_roundtrip_3d_partial (o : Orientation) {p : Point3} (h : NonDegenerate p) (hpos : 0 < p.R)
    (hf1 : p.dRdx1 = 0) (hf2 : p.dRdx2 = 0) (hp : OffPole (cart o p.R p.X p.Y)) (a b c : ℝ) :
    (let w := wind2contra3 o (cos (pointLat o p.R p.X p.Y)) p a b c;
      contra2wind3 o (cos (pointLat o p.R p.X p.Y)) p w.1 w.2.1 w.2.2 = (a, b, c)) ∧
    (let w := contra2wind3 o (cos (pointLat o p.R p.X p.Y)) p a b c;
      wind2contra3 o (cos (pointLat o p.R p.X p.Y)) p w.1 w.2.1 w.2.2 = (a, b, c)) := by
  obtain ⟨hR, hR3, hx, hy, he⟩ := h
  have r1 := C39_roundtrip_wind o hpos hx hy hp hpos.ne' a b
  have r2 := C39_roundtrip_contra o hpos hx hy hp hpos.ne' a b
  have z : Hcov3 p 2 0 = 0 ∧ Hcov3 p 2 1 = 0 ∧ Hcontra3 p 0 2 = 0 ∧ Hcontra3 p 1 2 = 0 ∧
      Hcov3 p 2 2 = p.de ^ 2 / 4 * p.dRdeta ^ 2 ∧ Hcontra3 p 2 2 = 4 / p.de ^ 2 / p.dRdeta ^ 2 := by
    simp [Hcov3, Hcontra3, hf1, hf2]
  obtain ⟨z1, z2, z3, z4, z5, z6⟩ := z
  constructor
  · simp only [wind2contra3, contra2wind3, z1, z2, z3, z4, z5, z6, zero_mul, mul_zero, add_zero, zero_add] at r1 ⊢
    rw [r1]
    simp only [invDzdeta, Prod.mk.injEq, true_and]
    field_simp
  · simp only [wind2contra3, contra2wind3, z1, z2, z3, z4, z5, z6, zero_mul, mul_zero, add_zero, zero_add] at r2 ⊢
    rw [r2]
    simp only [invDzdeta, Prod.mk.injEq, true_and]
    field_simp

/-- **C39, 3D, violated.** Over sloping terrain a horizontal wind (no vertical motion) converted to
contravariant components and back has a vertical wind: the slope times the horizontal components. -/
theorem C39_roundtrip_3d_fails (o : Orientation) {p : Point3} (h : NonDegenerate p) (coslat u v : ℝ) :
    let c := wind2contra3 o coslat p u v 0
    (contra2wind3 o coslat p c.1 c.2.1 c.2.2).2.2 = p.dx / 2 * p.dRdx1 * c.1 + p.dy / 2 * p.dRdx2 * c.2.1 := by
  obtain ⟨hR, hR3, hx, hy, he⟩ := h
  simp only [wind2contra3, contra2wind3, Hcov3, invDzdeta, zero_div, mul_zero, add_zero]
  simp
  field_simp
  ring

/-- … for example a wind of 10 m/s to the east up a slope comes back with 0.1 m/s of vertical wind per
percent of slope: it is not zero. -/
example : let p : Point3 := ⟨6371220, 0, 0, 63712.2, 0, 30000, 0.1, 0.1, 0.1⟩
    let c := wind2contra3 ⟨0, 0, 0⟩ 1 p 10 0 0
    (contra2wind3 ⟨0, 0, 0⟩ 1 p c.1 c.2.1 c.2.2).2.2 ≠ 0 := by
  intro p c
  have e := C39_roundtrip_3d_fails ⟨0, 0, 0⟩ (p := p) (by refine ⟨?_, ?_, ?_, ?_, ?_⟩ <;> norm_num [p]) 1 10 0
  simp only at e
  rw [show c = wind2contra3 ⟨0, 0, 0⟩ 1 p 10 0 0 from rfl, e]
  simp [wind2contra3, wind2contra, p, invDzdeta, denom2, delta2]
  norm_num

end WxVerif.Props.Metric3D
