import Verif.Lemmas.Sphere

/-!
# C35, C37, C38 (shallow-water metric): metric tensors, connection, Coriolis force

The reference is the position map of the code (`Sphere.position`, the Cartesian coordinates of a grid
point) and the definitions of `Verif/Spec/Sphere.lean`.
-/

namespace WxVerif.Props.Metric2D

open WxVerif.Cube (V3)
open WxVerif.Geom WxVerif.Sphere
open Real

/-- the covariant metric as a field of the equiangular coordinates -/
noncomputable abbrev covField (r x1 x2 : ℝ) := Hcov r (tan x1) (tan x2)

/-- the position as a function of the reference coordinates of an element -/
noncomputable abbrev elementPosition (o : Orientation) (r s1 s2 d1 d2 : ℝ) (e1 e2 : Nat) (ξ1 ξ2 : ℝ) : V3 ℝ :=
  position o r (elementCoord s1 d1 e1 ξ1) (elementCoord s2 d2 e2 ξ2)

/-! ## C35 -/

/-- **C35.** At every point of every panel orientation the covariant metric is the metric induced on the
sphere by the position map. -/
theorem C35_induced (o : Orientation) (r : ℝ) {x1 x2 : ℝ} (h1 : cos x1 ≠ 0) (h2 : cos x2 ≠ 0) :
    ∃ t, IsTangentBasis (position o r) x1 x2 t ∧ IsInducedMetric t (Hcov r (tan x1) (tan x2)) :=
  ⟨_, isTangentBasis_tang o r h1 h2, isInducedMetric_tang o r _ _⟩

theorem Hcov_mul_Hcontra {r : ℝ} (hr : r ≠ 0) (X Y : ℝ) : Hcov r X Y * Hcontra r X Y = 1 := by
  have hd := delta2_pos X Y
  have h4 := delta_four X Y
  have hX : (0:ℝ) < 1 + X ^ 2 := by positivity
  have hY : (0:ℝ) < 1 + Y ^ 2 := by positivity
  ext i j
  fin_cases i <;> fin_cases j <;>
    simp [Hcov, Hcontra, Matrix.mul_apply, Fin.sum_univ_two, h4] <;> field_simp
  all_goals first
    | (unfold delta2; ring1)
    | skip

/-- **C35.** The contravariant metric is the inverse of the covariant one. -/
theorem C35_inverse {r : ℝ} (hr : r ≠ 0) (X Y : ℝ) :
    Hcov r X Y * Hcontra r X Y = 1 ∧ Hcontra r X Y * Hcov r X Y = 1 :=
  ⟨Hcov_mul_Hcontra hr X Y, mul_eq_one_comm.mp (Hcov_mul_Hcontra hr X Y)⟩

/-- **C35.** Before element scaling the volume element is the positive root of the determinant of the
covariant metric. -/
theorem C35_volume {r : ℝ} (hr : r ≠ 0) (X Y : ℝ) :
    0 < sqrtG r X Y ∧ sqrtG r X Y ^ 2 = (Hcov r X Y).det := by
  have hd := delta_pos X Y
  have hd2 := delta2_pos X Y
  have h2 := delta_sq X Y
  constructor
  · unfold sqrtG; positivity
  · rw [Matrix.det_fin_two]
    simp only [Hcov, sqrtG, Matrix.of_apply, Matrix.cons_val', Matrix.cons_val_zero, Matrix.cons_val_one,
      Matrix.cons_val_fin_one, delta_four]
    rw [div_pow, mul_pow (delta2 X Y), h2]
    field_simp
    unfold delta2; ring

theorem elementCoord_hasDerivAt (s d : ℝ) (e : Nat) (ξ : ℝ) :
    HasDerivAt (elementCoord s d e) (d / 2) ξ := by
  have := ((((hasDerivAt_id ξ).const_add 1).const_mul (d / 2))).const_add (s + d * e)
  exact this.congr_deriv (by ring)

/-- **C35.** After scaling, the covariant metric is the metric induced by the position map in the
reference coordinates of the element. -/
theorem C35_scaled_induced (o : Orientation) (r s1 s2 d1 d2 : ℝ) (e1 e2 : Nat) {ξ1 ξ2 : ℝ}
    (h1 : cos (elementCoord s1 d1 e1 ξ1) ≠ 0) (h2 : cos (elementCoord s2 d2 e2 ξ2) ≠ 0) :
    ∃ t, IsTangentBasis (elementPosition o r s1 s2 d1 d2 e1 e2) ξ1 ξ2 t ∧
      IsInducedMetric t
        (Hcovs r d1 d2 (tan (elementCoord s1 d1 e1 ξ1)) (tan (elementCoord s2 d2 e2 ξ2))) := by
  obtain ⟨ht1, ht2⟩ := isTangentBasis_tang o r h1 h2
  have hm := isInducedMetric_tang o r (tan (elementCoord s1 d1 e1 ξ1)) (tan (elementCoord s2 d2 e2 ξ2))
  refine ⟨![(d1 / 2) • tang o r (tan (elementCoord s1 d1 e1 ξ1)) (tan (elementCoord s2 d2 e2 ξ2)) 0,
      (d2 / 2) • tang o r (tan (elementCoord s1 d1 e1 ξ1)) (tan (elementCoord s2 d2 e2 ξ2)) 1], ⟨?_, ?_⟩, ?_⟩
  · exact ht1.scomp ξ1 (elementCoord_hasDerivAt s1 d1 e1 ξ1)
  · exact ht2.scomp ξ2 (elementCoord_hasDerivAt s2 d2 e2 ξ2)
  · intro i j
    fin_cases i <;> fin_cases j <;>
      simp [Hcovs, hm _ _, dot_smul_left, dot_smul_right] <;> ring

/-- **C35.** The scaled tensors are still mutually inverse. -/
theorem C35_scaled_inverse {r d1 d2 : ℝ} (hr : r ≠ 0) (h1 : d1 ≠ 0) (h2 : d2 ≠ 0) (X Y : ℝ) :
    Hcovs r d1 d2 X Y * Hcontras r d1 d2 X Y = 1 ∧ Hcontras r d1 d2 X Y * Hcovs r d1 d2 X Y = 1 := by
  have key : Hcovs r d1 d2 X Y * Hcontras r d1 d2 X Y = 1 := by
    have h := Hcov_mul_Hcontra hr X Y
    have h00 := congrFun (congrFun h 0) 0
    have h01 := congrFun (congrFun h 0) 1
    have h10 := congrFun (congrFun h 1) 0
    have h11 := congrFun (congrFun h 1) 1
    simp only [Matrix.mul_apply, Fin.sum_univ_two] at h00 h01 h10 h11
    ext i j
    fin_cases i <;> fin_cases j <;> simp [Hcovs, Hcontras, Matrix.mul_apply, Fin.sum_univ_two] <;> field_simp
    · simpa using h00
    · rw [h01]; simp
    · rw [h10]; simp
    · simpa using h11
  exact ⟨key, mul_eq_one_comm.mp key⟩

/-- **C35, violated after scaling.** The scaled volume element is half of what the scaled metric
requires: four times its square is the determinant, so its square is never the determinant. -/
theorem C35_scaled_volume_fails {r d1 d2 : ℝ} (hr : r ≠ 0) (h1 : d1 ≠ 0) (h2 : d2 ≠ 0) (X Y : ℝ) :
    4 * sqrtGs r d1 d2 X Y ^ 2 = (Hcovs r d1 d2 X Y).det ∧ sqrtGs r d1 d2 X Y ^ 2 ≠ (Hcovs r d1 d2 X Y).det := by
  obtain ⟨hp, hv⟩ := C35_volume hr X Y
  have e : 4 * sqrtGs r d1 d2 X Y ^ 2 = (Hcovs r d1 d2 X Y).det := by
    rw [Matrix.det_fin_two] at hv ⊢
    simp only [Hcovs, sqrtGs, Matrix.of_apply, Matrix.cons_val', Matrix.cons_val_zero, Matrix.cons_val_one,
      Matrix.cons_val_fin_one, mul_pow, hv]
    ring
  refine ⟨e, fun h => ?_⟩
  have h0 : sqrtGs r d1 d2 X Y ^ 2 = 0 := by linarith
  have : sqrtGs r d1 d2 X Y ≠ 0 := by
    unfold sqrtGs; exact mul_ne_zero hp.ne' (by positivity)
  exact this (pow_eq_zero_iff (two_ne_zero) |>.mp h0)

example : ∃ t, IsTangentBasis (position ⟨1, 2, 3⟩ 6371220) (π / 6) (-π / 5) t ∧
    IsInducedMetric t (Hcov 6371220 (tan (π / 6)) (tan (-π / 5))) :=
  C35_induced _ _ (cos_pos_of_mem_Ioo ⟨by linarith [pi_pos], by linarith [pi_pos]⟩).ne'
    (cos_pos_of_mem_Ioo ⟨by linarith [pi_pos], by linarith [pi_pos]⟩).ne'

/-! ## C37 -/

/-- closed form of the gradient of the covariant metric -/
noncomputable def gradHcov (r X Y : ℝ) : Fin 2 → Matrix (Fin 2) (Fin 2) ℝ
  | 0 =>
    let h12 := -(r ^ 2 * Y * (1 + X ^ 2) * (1 + Y ^ 2) * ((1 + 3 * X ^ 2) * delta2 X Y - 4 * X ^ 2 * (1 + X ^ 2)))
      / delta2 X Y ^ 3
    !![4 * r ^ 2 * X * Y ^ 2 * (1 + X ^ 2) ^ 2 * (1 + Y ^ 2) / delta2 X Y ^ 3, h12; h12,
      r ^ 2 * (1 + X ^ 2) * (1 + Y ^ 2) ^ 2 * (2 * X * (delta2 X Y - 2 * (1 + X ^ 2))) / delta2 X Y ^ 3]
  | 1 =>
    let h12 := -(r ^ 2 * X * (1 + Y ^ 2) * (1 + X ^ 2) * ((1 + 3 * Y ^ 2) * delta2 X Y - 4 * Y ^ 2 * (1 + Y ^ 2)))
      / delta2 X Y ^ 3
    !![r ^ 2 * (1 + Y ^ 2) * (1 + X ^ 2) ^ 2 * (2 * Y * (delta2 X Y - 2 * (1 + Y ^ 2))) / delta2 X Y ^ 3, h12; h12,
      4 * r ^ 2 * Y * X ^ 2 * (1 + Y ^ 2) ^ 2 * (1 + X ^ 2) / delta2 X Y ^ 3]

theorem Hcov_swap (r X Y : ℝ) (i j : Fin 2) : Hcov r X Y i j = Hcov r Y X (1 - i) (1 - j) := by
  fin_cases i <;> fin_cases j <;> simp [Hcov, delta_comm X Y] <;> ring

theorem gradHcov_swap (r X Y : ℝ) (i j : Fin 2) : gradHcov r X Y 1 i j = gradHcov r Y X 0 (1 - i) (1 - j) := by
  fin_cases i <;> fin_cases j <;> simp [gradHcov, delta2_comm X Y]

theorem grad1 (r : ℝ) {x1 : ℝ} (h1 : cos x1 ≠ 0) (Y : ℝ) (i j : Fin 2) :
    HasDerivAt (fun x => Hcov r (tan x) Y i j) (gradHcov r (tan x1) Y 0 i j) x1 := by
  have ht := tan_hasDerivAt h1
  have hd := delta2_hasDerivAt1 h1 Y
  have hd2 : HasDerivAt (fun t => delta2 (tan t) Y ^ 2) _ x1 := hd.fun_pow 2
  have hp := (delta2_pos (tan x1) Y).ne'
  have hs : HasDerivAt (fun t => 1 + tan t ^ 2) _ x1 := (ht.fun_pow 2).const_add 1
  have hs2 : HasDerivAt (fun t => (1 + tan t ^ 2) ^ 2) _ x1 := hs.fun_pow 2
  have hf : HasDerivAt (fun t => r ^ 2 / delta2 (tan t) Y ^ 2) _ x1 :=
    (hasDerivAt_const x1 (r ^ 2)).div hd2 (pow_ne_zero 2 hp)
  have h11 : HasDerivAt (fun x => Hcov r (tan x) Y 0 0) (gradHcov r (tan x1) Y 0 0 0) x1 := by
    simp only [Hcov, Matrix.of_apply, Matrix.cons_val', Matrix.cons_val_zero, Matrix.cons_val_fin_one, delta_four]
    refine ((hf.mul hs2).mul_const (1 + Y ^ 2)).congr_deriv ?_
    simp [gradHcov]
    field_simp
    unfold delta2; ring
  have h12 : HasDerivAt (fun x => Hcov r (tan x) Y 0 1) (gradHcov r (tan x1) Y 0 0 1) x1 := by
    simp only [Hcov, Matrix.of_apply, Matrix.cons_val', Matrix.cons_val_zero, Matrix.cons_val_one,
      Matrix.cons_val_fin_one, delta_four]
    refine ((((hf.neg.mul ht).mul_const Y).mul hs).mul_const (1 + Y ^ 2)).congr_deriv ?_
    simp [gradHcov]
    field_simp
    unfold delta2; ring
  have h22 : HasDerivAt (fun x => Hcov r (tan x) Y 1 1) (gradHcov r (tan x1) Y 0 1 1) x1 := by
    simp only [Hcov, Matrix.of_apply, Matrix.cons_val', Matrix.cons_val_zero, Matrix.cons_val_one,
      Matrix.cons_val_fin_one, delta_four]
    refine ((hf.mul hs).mul_const ((1 + Y ^ 2) ^ 2)).congr_deriv ?_
    simp [gradHcov]
    field_simp
    unfold delta2; ring
  fin_cases i <;> fin_cases j
  · exact h11
  · exact h12
  · exact h12
  · exact h22

theorem isMetricGradient (r : ℝ) {x1 x2 : ℝ} (h1 : cos x1 ≠ 0) (h2 : cos x2 ≠ 0) :
    IsMetricGradient (covField r) x1 x2 (gradHcov r (tan x1) (tan x2)) := by
  intro i j
  refine ⟨grad1 r h1 _ i j, ?_⟩
  rw [gradHcov_swap]
  have e : (fun x => covField r x1 x i j) = fun x => Hcov r (tan x) (tan x1) (1 - i) (1 - j) := by
    funext x; exact Hcov_swap _ _ _ _ _
  rw [e]
  exact grad1 r h2 _ _ _

theorem isLeviCivita (r X Y : ℝ) : IsLeviCivita (Hcov r X Y) (gradHcov r X Y) (christoffel X Y) := by
  have hd := delta2_pos X Y
  intro a b c
  fin_cases a <;> fin_cases b <;> fin_cases c <;>
    simp [Fin.sum_univ_two, Hcov, gradHcov, christoffel, delta_four] <;> field_simp <;>
    (try unfold delta2) <;> ring

/-- **C37.** The spatial Christoffel symbols are the Levi-Civita connection of the covariant metric
(symmetric in the lower indices, and obtained from the derivatives of the metric along the equiangular
coordinates). -/
theorem C37_levi_civita (r : ℝ) {x1 x2 : ℝ} (h1 : cos x1 ≠ 0) (h2 : cos x2 ≠ 0) :
    (∃ dH, IsMetricGradient (covField r) x1 x2 dH ∧
      IsLeviCivita (covField r x1 x2) dH (christoffel (tan x1) (tan x2))) ∧
    ∀ a b c, christoffel (tan x1) (tan x2) a b c = christoffel (tan x1) (tan x2) a c b := by
  refine ⟨⟨_, isMetricGradient r h1 h2, isLeviCivita r _ _⟩, fun a b c => ?_⟩
  fin_cases a <;> fin_cases b <;> fin_cases c <;> simp [christoffel]

/-- **C37.** The contraction of the symbols with the contravariant metric vanishes. -/
theorem C37_trace {r : ℝ} (_hr : r ≠ 0) (X Y : ℝ) (a : Fin 2) :
    ∑ b, ∑ c, Hcontra r X Y b c * christoffel X Y a b c = 0 := by
  have hd := delta2_pos X Y
  have hX : (0:ℝ) < 1 + X ^ 2 := by positivity
  have hY : (0:ℝ) < 1 + Y ^ 2 := by positivity
  fin_cases a <;> simp [Fin.sum_univ_two, Hcontra, christoffel] <;> field_simp <;> ring

/-- **C37.** Consequence used by the shallow-water right-hand side: the divergence of `√G H^{a·}` is zero,
so a constant depth produces no pressure forcing. -/
theorem C37_divergence {r : ℝ} (hr : r ≠ 0) {x1 x2 : ℝ} (h1 : cos x1 ≠ 0) (h2 : cos x2 ≠ 0) (a : Fin 2) :
    ∃ D1 D2, HasDerivAt (fun x => sqrtG r (tan x) (tan x2) * Hcontra r (tan x) (tan x2) a 0) D1 x1 ∧
      HasDerivAt (fun x => sqrtG r (tan x1) (tan x) * Hcontra r (tan x1) (tan x) a 1) D2 x2 ∧ D1 + D2 = 0 := by
  have s (X : ℝ) : (1:ℝ) + X ^ 2 ≠ 0 := by positivity
  have f0 : ∀ X Y : ℝ, sqrtG r X Y * Hcontra r X Y 0 0 = (1 + Y ^ 2) / delta X Y := by
    intro X Y
    have := delta2_pos X Y; have := delta_pos X Y; have := s X
    simp [sqrtG, Hcontra]; field_simp
  have f1 : ∀ X Y : ℝ, sqrtG r X Y * Hcontra r X Y 1 1 = (1 + X ^ 2) / delta X Y := by
    intro X Y
    have := delta2_pos X Y; have := delta_pos X Y; have := s Y
    simp [sqrtG, Hcontra]; field_simp
  have f2 : ∀ X Y : ℝ, sqrtG r X Y * Hcontra r X Y 0 1 = X * Y / delta X Y := by
    intro X Y
    have := delta2_pos X Y; have := delta_pos X Y; have := s Y; have := s X
    simp [sqrtG, Hcontra]; field_simp
  have f3 : ∀ X Y : ℝ, sqrtG r X Y * Hcontra r X Y 1 0 = X * Y / delta X Y := f2
  have g : ∀ {x : ℝ} (_ : cos x ≠ 0) (A Y : ℝ), HasDerivAt (fun t => A / delta (tan t) Y)
      (-(A * tan x * (1 + tan x ^ 2)) / delta (tan x) Y ^ 3) x := fun h A Y => inv_delta_hasDerivAt1 h A Y
  have g' : ∀ {x : ℝ} (_ : cos x ≠ 0) (Y : ℝ), HasDerivAt (fun t => tan t * Y / delta (tan t) Y)
      (Y * (1 + tan x ^ 2) * (1 + Y ^ 2) / delta (tan x) Y ^ 3) x := by
    intro x h Y
    have := coordX_hasDerivAt1 h Y Y
    refine (this.congr_deriv (by ring)).congr_of_eventuallyEq ?_
    exact Filter.Eventually.of_forall fun t => by simp only; ring
  have c0 : ∃ D1 D2, HasDerivAt (fun x => sqrtG r (tan x) (tan x2) * Hcontra r (tan x) (tan x2) 0 0) D1 x1 ∧
      HasDerivAt (fun x => sqrtG r (tan x1) (tan x) * Hcontra r (tan x1) (tan x) 0 1) D2 x2 ∧ D1 + D2 = 0 := by
    simp only [f0, f2, mul_comm (tan x1), delta_comm (tan x1)]
    exact ⟨_, _, g h1 _ _, g' h2 _, by rw [delta_comm (tan x2)]; ring⟩
  have c1 : ∃ D1 D2, HasDerivAt (fun x => sqrtG r (tan x) (tan x2) * Hcontra r (tan x) (tan x2) 1 0) D1 x1 ∧
      HasDerivAt (fun x => sqrtG r (tan x1) (tan x) * Hcontra r (tan x1) (tan x) 1 1) D2 x2 ∧ D1 + D2 = 0 := by
    simp only [f3, f1, delta_comm (tan x1)]
    exact ⟨_, _, g' h1 _, g h2 _ _, by rw [delta_comm (tan x2)]; ring⟩
  fin_cases a
  · exact c0
  · exact c1

/-- **C37 in the reference element.** With square elements (`d` is the size in both directions, as the
code always has) the scaled symbols are the Levi-Civita connection of the scaled metric. -/
theorem C37_scaled (r s1 s2 d : ℝ) (e1 e2 : Nat) {ξ1 ξ2 : ℝ}
    (h1 : cos (elementCoord s1 d e1 ξ1) ≠ 0) (h2 : cos (elementCoord s2 d e2 ξ2) ≠ 0) :
    ∃ dH, IsMetricGradient
        (fun ξ1 ξ2 => Hcovs r d d (tan (elementCoord s1 d e1 ξ1)) (tan (elementCoord s2 d e2 ξ2))) ξ1 ξ2 dH ∧
      IsLeviCivita (Hcovs r d d (tan (elementCoord s1 d e1 ξ1)) (tan (elementCoord s2 d e2 ξ2))) dH
        (christoffels d d (tan (elementCoord s1 d e1 ξ1)) (tan (elementCoord s2 d e2 ξ2))) := by
  set X := tan (elementCoord s1 d e1 ξ1) with hX
  set Y := tan (elementCoord s2 d e2 ξ2) with hY
  have hg := isMetricGradient r h1 h2
  have hl := isLeviCivita r X Y
  have hs : ∀ X Y : ℝ, Hcovs r d d X Y = (d ^ 2 / 4) • Hcov r X Y := by
    intro X Y
    ext i j; fin_cases i <;> fin_cases j <;> simp [Hcovs] <;> ring
  have hc : ∀ a, christoffels d d X Y a = (d / 2) • christoffel X Y a := by
    intro a
    ext i j; fin_cases a <;> fin_cases i <;> fin_cases j <;> simp [christoffels] <;> ring
  refine ⟨fun c => (d ^ 2 / 4 * (d / 2)) • gradHcov r X Y c, fun i j => ⟨?_, ?_⟩, fun a b c => ?_⟩
  · have := (((hg i j).1.comp ξ1 (elementCoord_hasDerivAt s1 d e1 ξ1)).const_mul (d ^ 2 / 4))
    simp only [hs]
    exact this.congr_deriv (by simp [hX, hY]; ring)
  · have := (((hg i j).2.comp ξ2 (elementCoord_hasDerivAt s2 d e2 ξ2)).const_mul (d ^ 2 / 4))
    simp only [hs]
    exact this.congr_deriv (by simp [hX, hY]; ring)
  · have := hl a b c
    simp only [hs, hc, Fin.sum_univ_two, Matrix.smul_apply, smul_eq_mul] at this ⊢
    linear_combination (d ^ 2 / 4 * (d / 2)) * this

/-- The restriction to square elements is needed: the symbol `Γ¹₁₂` is scaled with the size along the
first direction, while a change to reference coordinates scales it with the size along the second. -/
theorem C37_scaled_square_needed {d1 d2 : ℝ} (hd : d1 ≠ d2) {r : ℝ} (hr : r ≠ 0) (h1 : 0 < d1) (h2 : 0 < d2)
    {x1 x2 : ℝ} (hx1 : cos x1 ≠ 0) (hx2 : cos x2 ≠ 0) (hY : tan x2 ≠ 0) :
    ¬ ∃ dH, IsMetricGradient (fun ξ1 ξ2 => Hcovs r d1 d2 (tan (x1 + d1 / 2 * ξ1)) (tan (x2 + d2 / 2 * ξ2))) 0 0 dH ∧
      IsLeviCivita (Hcovs r d1 d2 (tan x1) (tan x2)) dH (christoffels d1 d2 (tan x1) (tan x2)) := by
  rintro ⟨dH, hg, hl⟩
  have hG := isMetricGradient r hx1 hx2
  have aff : ∀ x d : ℝ, HasDerivAt (fun ξ : ℝ => x + d / 2 * ξ) (d / 2) 0 := fun x d =>
    (((hasDerivAt_id (0:ℝ)).const_mul (d / 2)).const_add x).congr_deriv (by ring)
  have e2 : dH 1 0 0 = gradHcov r (tan x1) (tan x2) 1 0 0 * (d2 / 2) * (d1 ^ 2 / 4) := by
    have a := (hg 0 0).2
    have b0 : HasDerivAt (fun x => covField r x1 x 0 0) (gradHcov r (tan x1) (tan x2) 1 0 0)
        ((fun ξ : ℝ => x2 + d2 / 2 * ξ) 0) := by simpa using (hG 0 0).2
    have b := (b0.comp 0 (aff x2 d2)).mul_const (d1 ^ 2 / 4)
    refine a.unique (b.congr_of_eventuallyEq ?_)
    exact Filter.Eventually.of_forall fun t => by simp [Hcovs, covField]
  have l1 := hl 0 0 1
  have m1 := isLeviCivita r (tan x1) (tan x2) 0 0 1
  rw [e2] at l1
  simp only [Fin.sum_univ_two] at l1 m1
  generalize tan x1 = X at *
  generalize tan x2 = Y at *
  have hp := delta2_pos X Y
  have key : (d1 / 8) * (d1 - d2) * (d1 * (Hcov r X Y 0 0 * christoffel X Y 0 0 1)
      - d2 * (Hcov r X Y 0 1 * christoffel X Y 1 0 1)) = 0 := by
    simp [Hcovs, christoffels] at l1
    linear_combination l1 - d2 / 2 * (d1 ^ 2 / 4) * m1
  have k2 : d1 * (Hcov r X Y 0 0 * christoffel X Y 0 0 1) - d2 * (Hcov r X Y 0 1 * christoffel X Y 1 0 1)
      = -(r ^ 2 * (1 + X ^ 2) ^ 2 * (1 + Y ^ 2) * Y * (d1 * (1 + Y ^ 2) + d2 * X ^ 2)) / delta2 X Y ^ 3 := by
    simp [Hcov, christoffel, delta_four]; field_simp; ring
  rw [k2] at key
  have n1 : d1 - d2 ≠ 0 := sub_ne_zero.mpr hd
  have n2 : (r ^ 2 * (1 + X ^ 2) ^ 2 * (1 + Y ^ 2) * Y * (d1 * (1 + Y ^ 2) + d2 * X ^ 2)) ≠ 0 := by
    have : 0 < d1 * (1 + Y ^ 2) + d2 * X ^ 2 := by positivity
    have : (0:ℝ) < 1 + X ^ 2 := by positivity
    have : (0:ℝ) < 1 + Y ^ 2 := by positivity
    positivity
  exact (mul_ne_zero (mul_ne_zero (by positivity) n1) (div_ne_zero (neg_ne_zero.mpr n2) (by positivity))) key

example : (∃ dH, IsMetricGradient (covField 6371220) (π / 6) (-π / 5) dH ∧
      IsLeviCivita (covField 6371220 (π / 6) (-π / 5)) dH (christoffel (tan (π / 6)) (tan (-π / 5)))) :=
  (C37_levi_civita _ (cos_pos_of_mem_Ioo ⟨by linarith [pi_pos], by linarith [pi_pos]⟩).ne'
    (cos_pos_of_mem_Ioo ⟨by linarith [pi_pos], by linarith [pi_pos]⟩).ne').1

/-! ## C38 (2D) -/

/-- **C38.** The rotation part of the shallow-water forcing is the tangential part of `2 ω × U`, where
`ω = (0, 0, Ω)` and `U = u¹ t₀ + u² t₁` is the velocity vector in ℝ³. -/
theorem C38_coriolis_2d (o : Orientation) (Ω r : ℝ) {x1 x2 : ℝ} (h1 : cos x1 ≠ 0) (h2 : cos x2 ≠ 0)
    {t : Fin 2 → V3 ℝ} (ht : IsTangentBasis (position o r) x1 x2 t) (u1 u2 : ℝ) (i : Fin 2) :
    ∑ a, Hcov r (tan x1) (tan x2) i a * coriolisForcing o Ω (tan x1) (tan x2) u1 u2 a =
      dot ((2:ℝ) • cross (0, 0, Ω) (u1 • t 0 + u2 • t 1)) (t i) := by
  have hu := isTangentBasis_tang o r h1 h2
  have e : t = tang o r (tan x1) (tan x2) := by
    funext j; fin_cases j
    · exact ht.1.unique hu.1
    · exact ht.2.unique hu.2
  subst e
  generalize tan x1 = X at *
  generalize tan x2 = Y at *
  have hd := delta_pos X Y
  have hd2 := delta2_pos X Y
  have hs := delta_sq X Y
  -- `(t₀ × t₁)` has vertical component `√G · gridrot/δ`
  have vert : (tang o r X Y 0).1 * (tang o r X Y 1).2.1 - (tang o r X Y 0).2.1 * (tang o r X Y 1).1
      = r ^ 2 * (1 + X ^ 2) * (1 + Y ^ 2) / delta2 X Y ^ 2 * gridrot o X Y := by
    have q1 := sin_sq_add_cos_sq o.lon
    have q2 := sin_sq_add_cos_sq o.lat
    have q3 := sin_sq_add_cos_sq o.ang
    have c12 : (ax1 o).1 * (ax2 o).2.1 - (ax1 o).2.1 * (ax2 o).1 = sin o.lat := by
      simp only [ax1, ax2]
      linear_combination sin o.lat * (sin o.ang ^ 2 + cos o.ang ^ 2) * q1 + sin o.lat * q3
    have c20 : (ax2 o).1 * (ax0 o).2.1 - (ax2 o).2.1 * (ax0 o).1 = -(cos o.lat * sin o.ang) := by
      simp only [ax0, ax2]
      linear_combination -(cos o.lat * sin o.ang) * q1
    have c01 : (ax0 o).1 * (ax1 o).2.1 - (ax0 o).2.1 * (ax1 o).1 = cos o.lat * cos o.ang := by
      simp only [ax0, ax1]
      linear_combination (cos o.lat * cos o.ang) * q1
    have gen : ∀ a b c a' b' c' : ℝ,
        (frame o a b c).1 * (frame o a' b' c').2.1 - (frame o a b c).2.1 * (frame o a' b' c').1 =
        (b * c' - c * b') * sin o.lat + (c * a' - a * c') * -(cos o.lat * sin o.ang)
          + (a * b' - b * a') * (cos o.lat * cos o.ang) := by
      intro a b c a' b' c'
      simp only [frame, Prod.fst_add, Prod.snd_add, Prod.smul_fst, Prod.smul_snd, smul_eq_mul]
      linear_combination (b * c' - c * b') * c12 + (c * a' - a * c') * c20 + (a * b' - b * a') * c01
    simp only [tang, gen, gridrot]
    have h6 : delta X Y ^ 6 = delta2 X Y ^ 3 := by rw [← hs]; ring
    have hh : delta2 X Y = 1 + X ^ 2 + Y ^ 2 := rfl
    field_simp
    rw [h6]
    simp only [hh]
    ring
  have rhs : dot ((2:ℝ) • cross (0, 0, Ω) (u1 • tang o r X Y 0 + u2 • tang o r X Y 1)) (tang o r X Y i) =
      2 * Ω * (r ^ 2 * (1 + X ^ 2) * (1 + Y ^ 2) / delta2 X Y ^ 2 * gridrot o X Y) *
        (match i with | 0 => -u2 | 1 => u1) := by
    rw [← vert]
    fin_cases i <;> simp [dot, cross] <;> ring
  rw [rhs]
  fin_cases i <;>
    simp [Fin.sum_univ_two, Hcov, coriolisForcing, christoffelRot, delta_four] <;> field_simp <;>
    (unfold delta2; ring)

/-- **C38.** The Coriolis force of the shallow-water equations does no work, for every velocity. -/
theorem C38_no_work_2d (o : Orientation) (Ω r X Y u1 u2 : ℝ) :
    ∑ i, ∑ a, Hcov r X Y i a * coriolisForcing o Ω X Y u1 u2 a * ![u1, u2] i = 0 := by
  have hd2 := delta2_pos X Y
  simp [Fin.sum_univ_two, Hcov, coriolisForcing, christoffelRot, delta_four]
  field_simp
  unfold delta2; ring

/-- **C38 in the reference element** (square elements). -/
theorem C38_no_work_2d_scaled (o : Orientation) (Ω r d X Y u1 u2 : ℝ) :
    ∑ i, ∑ a, Hcovs r d d X Y i a * coriolisForcing o Ω X Y u1 u2 a * ![u1, u2] i = 0 := by
  have h := C38_no_work_2d o Ω r X Y u1 u2
  simp [Fin.sum_univ_two, Hcovs] at h ⊢
  linear_combination d ^ 2 / 4 * h

/-- **C38.** The Coriolis parameter is `2 Ω` times the sine of the latitude of the point. -/
theorem C38_coriolis_parameter (o : Orientation) (Ω : ℝ) {r : ℝ} (hr : r ≠ 0) (X Y : ℝ) :
    coriolisF o Ω X Y = 2 * Ω * ((cart o r X Y).2.2 / r) := by
  have hd := delta_pos X Y
  simp only [coriolisF, cart]; field_simp

example : ∑ i, ∑ a, Hcov 6371220 (1 / 3) (-1 / 2) i a *
    coriolisForcing ⟨1, 2, 3⟩ (7.29212e-5) (1 / 3) (-1 / 2) 10 (-20) a * ![10, -20] i = 0 :=
  C38_no_work_2d _ _ _ _ _ _ _

end WxVerif.Props.Metric2D
