import Verif.Model.BlockStats
import Verif.Spec.BlockStats
import Verif.Props.Metric2D
import Verif.Props.ShallowWater
import Verif.Props.Decomposition
import Mathlib.Analysis.SpecialFunctions.Integrals.Basic
import Mathlib.Analysis.Real.Pi.Bounds

/-!
# C85: the statistics printed during a run
-/

namespace WxVerif.Props.BlockStats

open WxVerif.BlockStats WxVerif.Spec.BlockStats WxVerif.ShallowWater WxVerif.Topology WxVerif.Sphere WxVerif.Geom WxVerif.Flux
open WxVerif.Spec.Decomposition WxVerif.Props.Decomposition
open WxVerif.Cube (V3 placeOf)
open Real (pi cos tan)

variable {g g' : Grid}

/-! ## Area -/

theorem lagrange (a b : V3 ℝ) : dot (cross a b) (cross a b) = dot a a * dot b b - dot a b * dot b a := by
  simp only [dot, cross]; ring

/-- the reference square of an element lies within the panel -/
theorem coord_bounds {k N col e : Nat} (hN : 0 < N) (hc : col < k) (he : e < N) {ξ : ℝ} (h1 : -1 ≤ ξ) (h2 : ξ ≤ 1) :
    -pi / 4 ≤ elementCoord (-pi / 4 + col * ((pi / 4 - -pi / 4) / k)) (((-pi / 4 + col * ((pi / 4 - -pi / 4) / k) + (pi / 4 - -pi / 4) / k) -
      (-pi / 4 + col * ((pi / 4 - -pi / 4) / k))) / N) e ξ ∧
    elementCoord (-pi / 4 + col * ((pi / 4 - -pi / 4) / k)) (((-pi / 4 + col * ((pi / 4 - -pi / 4) / k) + (pi / 4 - -pi / 4) / k) -
      (-pi / 4 + col * ((pi / 4 - -pi / 4) / k))) / N) e ξ ≤ pi / 4 := by
  set D := (pi / 4 - -pi / 4) / (k : ℝ) with hDd
  set s := -pi / 4 + col * D with hs
  have hk : (0 : ℝ) < k := by exact_mod_cast Nat.lt_of_le_of_lt (Nat.zero_le _) hc
  have hN' : (0 : ℝ) < N := by exact_mod_cast hN
  have hpi := Real.pi_pos
  have hD : 0 < D := by rw [hDd]; apply div_pos _ hk; linarith
  have hkD : k * D = pi / 2 := by rw [hDd]; field_simp; ring
  have hc' : (col : ℝ) + 1 ≤ k := by exact_mod_cast hc
  have he' : (e : ℝ) + 1 ≤ N := by exact_mod_cast he
  have hd : 0 < D / N := div_pos hD hN'
  have hNd : N * (D / N) = D := by field_simp
  have e1 : ((s + D) - s) / N = D / N := by rw [add_sub_cancel_left]
  rw [e1]
  unfold elementCoord
  have a1 : 0 ≤ D / N * e := mul_nonneg hd.le (Nat.cast_nonneg e)
  have a2 : 0 ≤ D / N / 2 * (1 + ξ) := mul_nonneg (by linarith) (by linarith)
  have a3 : D / N / 2 * (1 + ξ) ≤ D / N := by nlinarith
  have a4 : D / N * e + D / N ≤ D := by nlinarith
  have a5 : 0 ≤ (col : ℝ) * D := mul_nonneg (Nat.cast_nonneg col) hD.le
  have a6 : (col : ℝ) * D + D ≤ pi / 2 := by nlinarith
  constructor <;> rw [hs] <;> linarith

theorem cos_ne {x : ℝ} (h1 : -pi / 4 ≤ x) (h2 : x ≤ pi / 4) : cos x ≠ 0 :=
  (Real.cos_pos_of_mem_Ioo ⟨by linarith [Real.pi_pos], by linarith [Real.pi_pos]⟩).ne'

theorem x1_eq (r ei : Nat) {i : Nat} (hi : i < g.n) : g.x1 r (ei * g.n + i) = elementCoord (g.start1 r) (g.delta1 r) ei (g.pts i) := by
  unfold Grid.x1
  rw [show (ei * g.n + i) / g.n = ei by rw [mul_comm, Nat.mul_add_div (by omega), Nat.div_eq_of_lt hi, add_zero],
    show (ei * g.n + i) % g.n = i by rw [mul_comm, Nat.mul_add_mod, Nat.mod_eq_of_lt hi]]

theorem x2_eq (r ej : Nat) {i : Nat} (hi : i < g.n) : g.x2 r (ej * g.n + i) = elementCoord (g.start2 r) (g.delta2 r) ej (g.pts i) := by
  unfold Grid.x2
  rw [show (ej * g.n + i) / g.n = ej by rw [mul_comm, Nat.mul_add_div (by omega), Nat.div_eq_of_lt hi, add_zero],
    show (ej * g.n + i) % g.n = i by rw [mul_comm, Nat.mul_add_mod, Nat.mod_eq_of_lt hi]]

theorem solXY_eq (r ej ei : Nat) {j i : Nat} (hi : i < g.n) (hj : j < g.n) : g.solXY r ej ei (j * g.n + i) =
    (tan (elementCoord (g.start1 r) (g.delta1 r) ei (g.pts i)), tan (elementCoord (g.start2 r) (g.delta2 r) ej (g.pts j))) := by
  unfold Grid.solXY
  rw [show (j * g.n + i) / g.n = j by rw [mul_comm, Nat.mul_add_div (by omega), Nat.div_eq_of_lt hi, add_zero],
    show (j * g.n + i) % g.n = i by rw [mul_comm, Nat.mul_add_mod, Nat.mod_eq_of_lt hi], x1_eq _ _ hi, x2_eq _ _ hj]

theorem my_lt {r : Nat} (hr : r < 6 * (g.k * g.k)) : myCol g.size r < g.k ∧ myRow g.size r < g.k := by
  have hp := placeOf_valid hr
  have := tile_my hp
  rw [enc_placeOf] at this
  exact ⟨by rw [this.1]; exact hp.2.2, by rw [this.2.1]; exact hp.2.1⟩

theorem element_cos {r ej ei : Nat} (hr : r < 6 * (g.k * g.k)) (hj : ej < g.N) (hi : ei < g.N) {ξ1 ξ2 : ℝ} (h1 : |ξ1| ≤ 1) (h2 : |ξ2| ≤ 1) :
    cos (elementCoord (g.start1 r) (g.delta1 r) ei ξ1) ≠ 0 ∧ cos (elementCoord (g.start2 r) (g.delta2 r) ej ξ2) ≠ 0 := by
  obtain ⟨a, b⟩ := my_lt hr
  rw [abs_le] at h1 h2
  have c1 := coord_bounds (by omega) a hi h1.1 h1.2
  have c2 := coord_bounds (by omega) b hj h2.1 h2.2
  exact ⟨cos_ne c1.1 c1.2, cos_ne c2.1 c2.2⟩

theorem delta_pos {r : Nat} (hr : r < 6 * (g.k * g.k)) (hN : 0 < g.N) : 0 < g.delta1 r ∧ 0 < g.delta2 r := by
  have hk : 0 < g.k := Nat.pos_of_ne_zero fun h => by rw [h] at hr; simp at hr
  have hk' : (0 : ℝ) < g.k := by exact_mod_cast hk
  have hN' : (0 : ℝ) < g.N := by exact_mod_cast hN
  unfold Grid.delta1 Grid.delta2 Grid.deltaPanel
  rw [add_sub_cancel_left, add_sub_cancel_left]
  have : 0 < (pi / 4 - -pi / 4) / (g.k : ℝ) / g.N := div_pos (div_pos (by linarith [Real.pi_pos]) hk') hN'
  exact ⟨this, this⟩

theorem sqrtG_pos (hR : g.radius ≠ 0) {r : Nat} (hr : r < 6 * (g.k * g.k)) (hN : 0 < g.N) (xy : ℝ × ℝ) : 0 < g.sqrtG r xy := by
  obtain ⟨a, b⟩ := delta_pos hr hN
  unfold Grid.sqrtG sqrtGs
  exact mul_pos (Metric2D.C35_volume hR _ _).1 (by positivity)

/-- twice the factor of the integrals is the area element -/
theorem area_eq (hR : g.radius ≠ 0) {r ej ei j i : Nat} (hr : r < 6 * (g.k * g.k)) (hej : ej < g.N) (hei : ei < g.N) (hj : j < g.n) (hi : i < g.n)
    (hx : ∀ l < g.n, |g.pts l| ≤ 1) {a : ℝ} (ha : IsAreaElement (elementPoint g r ej ei) (g.pts i) (g.pts j) a) :
    a = 2 * g.sqrtG r (g.solXY r ej ei (j * g.n + i)) := by
  obtain ⟨t, ht, h0, h2⟩ := ha
  obtain ⟨c1, c2⟩ := element_cos hr hej hei (hx i hi) (hx j hj)
  obtain ⟨t', ht', hm⟩ := Metric2D.C35_scaled_induced (g.orient (myPanel g.size r)) g.radius (g.start1 r) (g.start2 r) (g.delta1 r) (g.delta2 r) ei ej c1 c2
  have e0 : t 0 = t' 0 := ht.1.unique ht'.1
  have e1 : t 1 = t' 1 := ht.2.unique ht'.2
  obtain ⟨d1, d2⟩ := delta_pos hr (by omega : 0 < g.N)
  have v := (Metric2D.C35_scaled_volume_fails hR d1.ne' d2.ne' (tan (elementCoord (g.start1 r) (g.delta1 r) ei (g.pts i)))
    (tan (elementCoord (g.start2 r) (g.delta2 r) ej (g.pts j)))).1
  rw [lagrange, e0, e1, ← hm 0 0, ← hm 1 1, ← hm 0 1, ← hm 1 0] at h2
  rw [Matrix.det_fin_two] at v
  have hs := sqrtG_pos hR hr (by omega : 0 < g.N) (g.solXY r ej ei (j * g.n + i))
  have e : a ^ 2 = (2 * g.sqrtG r (g.solXY r ej ei (j * g.n + i))) ^ 2 := by
    rw [h2, ← v, solXY_eq r ej ei hi hj]
    unfold Grid.sqrtG
    ring
  exact (sq_eq_sq₀ h0 (by linarith)).1 e

/-- the area elements exist at every solution point -/
theorem area_exists (hx : ∀ l < g.n, |g.pts l| ≤ 1) : ∃ a, AreaElements g a := by
  refine ⟨fun r ej ei c => Real.sqrt ((hcov g r ej ei c).det), fun r hr ej hej ei hei j hj i hi => ?_⟩
  obtain ⟨c1, c2⟩ := element_cos hr hej hei (hx i hi) (hx j hj)
  obtain ⟨t, ht, hm⟩ := Metric2D.C35_scaled_induced (g.orient (myPanel g.size r)) g.radius (g.start1 r) (g.start2 r) (g.delta1 r) (g.delta2 r) ei ej c1 c2
  refine ⟨t, ht, Real.sqrt_nonneg _, ?_⟩
  have hd : (hcov g r ej ei (j * g.n + i)).det = dot (cross (t 0) (t 1)) (cross (t 0) (t 1)) := by
    unfold hcov
    rw [solXY_eq r ej ei hi hj, Matrix.det_fin_two, hm 0 0, hm 1 1, hm 0 1, hm 1 0, lagrange]
  beta_reduce
  rw [hd, Real.sq_sqrt]
  simp only [dot]
  nlinarith [sq_nonneg (cross (t 0) (t 1)).1, sq_nonneg (cross (t 0) (t 1)).2.1, sq_nonneg (cross (t 0) (t 1)).2.2]

/-- **C85** fails for the printed integrals: at the solution points of the reference square, with the true area elements of the sphere, the number printed as
"Integral of" a field is half the quadrature of the field, so it is not the integral of a positive field. -/
theorem C85_integral_fails (hR : g.radius ≠ 0) (hx : ∀ l < g.n, |g.pts l| ≤ 1) {a : Nat → Nat → Nat → Nat → ℝ} (ha : AreaElements g a) (w : Nat → ℝ) (f : Scalar) :
    globalIntegral g w f = quadrature g w a f / 2 ∧
    (0 < g.k → 0 < g.N → 0 < g.n → (∀ l < g.n, 0 < w l) → AllPoints g (fun r ej ei c => 0 < f r ej ei c) →
      globalIntegral g w f ≠ quadrature g w a f) := by
  have e : globalIntegral g w f = quadrature g w a f / 2 := by
    unfold globalIntegral localSum quadrature Grid.size
    rw [eq_div_iff two_ne_zero, Finset.sum_mul]
    refine Finset.sum_congr rfl fun r hr => ?_
    rw [Finset.sum_mul]
    refine Finset.sum_congr rfl fun ej hej => ?_
    rw [Finset.sum_mul]
    refine Finset.sum_congr rfl fun ei hei => ?_
    rw [Finset.sum_mul]
    refine Finset.sum_congr rfl fun j hj => ?_
    rw [Finset.sum_mul]
    refine Finset.sum_congr rfl fun i hi => ?_
    rw [Finset.mem_range] at hr hej hei hj hi
    rw [area_eq hR hr hej hei hj hi hx (ha r hr ej hej ei hei j hj i hi)]
    ring
  refine ⟨e, fun hk hN hn hw hf => ?_⟩
  have hpos : 0 < globalIntegral g w f := by
    unfold globalIntegral localSum Grid.size
    have h6 : (Finset.range (6 * (g.k * g.k))).Nonempty := Finset.nonempty_range_iff.2 (by positivity)
    have hNn : (Finset.range g.N).Nonempty := Finset.nonempty_range_iff.2 hN.ne'
    have hnn : (Finset.range g.n).Nonempty := Finset.nonempty_range_iff.2 hn.ne'
    refine Finset.sum_pos (fun r hr => Finset.sum_pos (fun ej hej => Finset.sum_pos (fun ei hei => Finset.sum_pos (fun j hj =>
      Finset.sum_pos (fun i hi => ?_) hnn) hnn) hNn) hNn) h6
    rw [Finset.mem_range] at hr hej hei hj hi
    have hc : j * g.n + i < g.n * g.n := by nlinarith
    exact mul_pos (mul_pos (hf r hr ej hej ei hei _ hc) (sqrtG_pos hR hr hN _)) (mul_pos (hw j hj) (hw i hi))
  intro h
  rw [← h] at e
  linarith

/-! ## Energy -/

/-- height of the ground: zero without topography -/
def ground (s : Setup) (r ej ei c : Nat) : ℝ := match s.topo with | some t => t.h r ej ei c | none => 0

/-- **C85** the energy density that is integrated is the kinetic energy of the column, with the velocity in space that the stored momentum stands for, plus its
potential energy above height zero. -/
theorem C85_energy (s : Setup) (Q : Field) {r ej ei j i : Nat} (hr : r < 6 * (g.k * g.k)) (hej : ej < g.N) (hei : ei < g.N) (hj : j < g.n) (hi : i < g.n)
    (hx : ∀ l < g.n, |g.pts l| ≤ 1) {t : Fin 2 → V3 ℝ} (ht : IsTangentBasis (elementPoint g r ej ei) (g.pts i) (g.pts j) t) :
    energy g s Q r ej ei (j * g.n + i) = columnEnergy gravity (Q r ej ei 0 (j * g.n + i)) (ground s r ej ei (j * g.n + i))
      ((Q r ej ei 1 (j * g.n + i) / Q r ej ei 0 (j * g.n + i)) • t 0 + (Q r ej ei 2 (j * g.n + i) / Q r ej ei 0 (j * g.n + i)) • t 1) := by
  obtain ⟨c1, c2⟩ := element_cos hr hej hei (hx i hi) (hx j hj)
  obtain ⟨t', ht', hm⟩ := Metric2D.C35_scaled_induced (g.orient (myPanel g.size r)) g.radius (g.start1 r) (g.start2 r) (g.delta1 r) (g.delta2 r) ei ej c1 c2
  have e0 : t 0 = t' 0 := ht.1.unique ht'.1
  have e1 : t 1 = t' 1 := ht.2.unique ht'.2
  unfold energy totalEnergy hcov columnEnergy ground
  rw [solXY_eq r ej ei hi hj]
  dsimp only
  rw [hm 0 0, hm 1 1, hm 0 1, hm 1 0, e0, e1, intervalIntegral.integral_const_mul, integral_id]
  generalize Q r ej ei 1 (j * g.n + i) / Q r ej ei 0 (j * g.n + i) = u
  generalize Q r ej ei 2 (j * g.n + i) / Q r ej ei 0 (j * g.n + i) = v
  cases s.topo <;> simp only [Option.map_none, Option.map_some, dot, Prod.smul_fst, Prod.smul_snd, Prod.fst_add, Prod.snd_add, smul_eq_mul] <;> ring

/-- **C85** the enstrophy density is half the depth times the square of the potential vorticity that is written to the output file for the contravariant
velocity `hu₁/h`, `hu₂/h` of the same element. -/
theorem C85_enstrophy (Q : Field) {r ej ei c : Nat} (h : Q r ej ei 0 c ≠ 0) :
    enstrophy g Q r ej ei c = Q r ej ei 0 c / 2 * Diagnostic.potentialVorticity g.n g.pts (elementMetric g r ej ei) (Q r ej ei 0)
      (fun d => Q r ej ei 1 d / Q r ej ei 0 d) (fun d => Q r ej ei 2 d / Q r ej ei 0 d) c ^ 2 := by
  unfold enstrophy Diagnostic.potentialEnstrophy Diagnostic.potentialVorticity
  field_simp

example : ∃ Q : Field, Q 3 1 2 0 6 ≠ 0 ∧ Q 3 1 2 1 6 ≠ Q 3 1 2 1 7 := ⟨fun _ _ _ v c => if v = 0 then 1000 else c, by norm_num, by norm_num⟩

/-! ## Number of processes -/

theorem integral_whole (hn : 0 < g.n) (w : Nat → ℝ) {f F : Scalar}
    (h : ∀ r < 6 * (g.k * g.k), ∀ ej < g.N, ∀ ei < g.N, ∀ c < g.n * g.n, f r ej ei c = F (panelOf g r) (rowOf g r ej) (colOf g r ei) c) :
    globalIntegral g w f = globalIntegral (whole g) w F := by
  unfold globalIntegral localSum
  refine C83_sum g (fun r ej ei => ∑ j ∈ Finset.range g.n, ∑ i ∈ Finset.range g.n,
      (f r ej ei (j * g.n + i) * g.sqrtG r (g.solXY r ej ei (j * g.n + i))) * (w j * w i))
    (fun p R C => ∑ j ∈ Finset.range g.n, ∑ i ∈ Finset.range g.n,
      (F p R C (j * g.n + i) * (whole g).sqrtG p ((whole g).solXY p R C (j * g.n + i))) * (w j * w i)) ?_
  intro r hr ej hej ei hei
  refine Finset.sum_congr rfl fun j hj => Finset.sum_congr rfl fun i hi => ?_
  rw [Finset.mem_range] at hj hi
  have hc : j * g.n + i < g.n * g.n := by nlinarith
  obtain ⟨a, b, d, _⟩ := C83_coordinates g hn hr hej (ei := ei) (j * g.n + i)
  rw [h r hr ej hej ei hei _ hc]
  unfold Grid.sqrtG
  rw [a, b, d]
  rfl

/-- the maximum is the greatest of the values at all solution points -/
theorem isGreatest_max (hk : 0 < g.k) (hN : 0 < g.N) (hn : 0 < g.n) (f : Scalar) :
    IsGreatest {x | ∃ r < 6 * (g.k * g.k), ∃ ej < g.N, ∃ ei < g.N, ∃ c < g.n * g.n, x = f r ej ei c} (globalMax g f) := by
  haveI : Nonempty (Fin g.size) := ⟨⟨0, by unfold Grid.size; positivity⟩⟩
  haveI : Nonempty (Fin g.N × Fin g.N × Fin (g.n * g.n)) := ⟨⟨0, hN⟩, ⟨0, hN⟩, ⟨0, by positivity⟩⟩
  constructor
  · obtain ⟨r, hr⟩ := exists_eq_ciSup_of_finite (f := fun r : Fin g.size => localMax g f r)
    obtain ⟨i, hi⟩ := exists_eq_ciSup_of_finite (f := fun i : Fin g.N × Fin g.N × Fin (g.n * g.n) => f r i.1 i.2.1 i.2.2)
    exact ⟨r, r.2, i.1, i.1.2, i.2.1, i.2.1.2, i.2.2, i.2.2.2, by rw [globalMax, ← hr, localMax, ← hi]⟩
  · rintro x ⟨r, hr, ej, hej, ei, hei, c, hc, rfl⟩
    have a : f r ej ei c ≤ localMax g f r :=
      le_ciSup (f := fun i : Fin g.N × Fin g.N × Fin (g.n * g.n) => f r i.1 i.2.1 i.2.2) (Set.finite_range _).bddAbove (⟨ej, hej⟩, ⟨ei, hei⟩, ⟨c, hc⟩)
    exact a.trans (le_ciSup (f := fun r : Fin g.size => localMax g f r) (Set.finite_range _).bddAbove ⟨r, hr⟩)

theorem max_whole (hk : 0 < g.k) (hN : 0 < g.N) (hn : 0 < g.n) {f F : Scalar}
    (h : ∀ r < 6 * (g.k * g.k), ∀ ej < g.N, ∀ ei < g.N, ∀ c < g.n * g.n, f r ej ei c = F (panelOf g r) (rowOf g r ej) (colOf g r ei) c) :
    globalMax g f = globalMax (whole g) F := by
  have hw := isGreatest_max (g := whole g) Nat.one_pos (Nat.mul_pos hk hN) hn F
  refine (isGreatest_max hk hN hn f).unique ?_
  have e : {x | ∃ r < 6 * (g.k * g.k), ∃ ej < g.N, ∃ ei < g.N, ∃ c < g.n * g.n, x = f r ej ei c} =
      {x | ∃ r < 6 * (1 * 1), ∃ ej < g.k * g.N, ∃ ei < g.k * g.N, ∃ c < g.n * g.n, x = F r ej ei c} := ?_
  · rw [e]; exact hw
  ext x
  constructor
  · rintro ⟨r, hr, ej, hej, ei, hei, c, hc, rfl⟩
    have hp := placeOf_valid hr
    refine ⟨panelOf g r, hp.1, rowOf g r ej, ?_, colOf g r ei, ?_, c, hc, h r hr ej hej ei hei c hc⟩
    · have := hp.2.1; show (placeOf g.k r).row * g.N + ej < g.k * g.N; nlinarith
    · have := hp.2.2; show (placeOf g.k r).col * g.N + ei < g.k * g.N; nlinarith
  · rintro ⟨p, hp, R, hR, C, hC, c, hc, rfl⟩
    have hv : Valid g.k ⟨p, R / g.N, C / g.N⟩ := ⟨hp, (Nat.div_lt_iff_lt_mul hN).2 hR, (Nat.div_lt_iff_lt_mul hN).2 hC⟩
    refine ⟨enc g.k ⟨p, R / g.N, C / g.N⟩, enc_lt hv, R % g.N, Nat.mod_lt _ hN, C % g.N, Nat.mod_lt _ hN, c, hc, ?_⟩
    rw [h _ (enc_lt hv) _ (Nat.mod_lt _ hN) _ (Nat.mod_lt _ hN) c hc]
    unfold panelOf rowOf colOf
    rw [placeOf_enc hv, Nat.div_add_mod', Nat.div_add_mod']

variable {Q W : Field}

theorem hcov_whole (hn : 0 < g.n) {r ej ei : Nat} (hr : r < 6 * (g.k * g.k)) (hej : ej < g.N) (c : Nat) :
    hcov g r ej ei c = hcov (whole g) (panelOf g r) (rowOf g r ej) (colOf g r ei) c := by
  obtain ⟨a, b, d, _⟩ := C83_coordinates g hn hr hej (ei := ei) c
  unfold hcov
  rw [a, b, d]
  rfl

theorem metric_whole (hn : 0 < g.n) {r ej ei : Nat} (hr : r < 6 * (g.k * g.k)) (hej : ej < g.N) :
    elementMetric g r ej ei = elementMetric (whole g) (panelOf g r) (rowOf g r ej) (colOf g r ei) := by
  have e : ∀ c, hcov g r ej ei c = hcov (whole g) (panelOf g r) (rowOf g r ej) (colOf g r ei) c := fun c => hcov_whole hn hr hej c
  unfold elementMetric
  simp only [e]
  congr 1
  · funext c
    obtain ⟨a, b, d, _⟩ := C83_coordinates g hn hr hej (ei := ei) c
    unfold Grid.sqrtG
    rw [a, b, d]
    rfl
  · funext c
    obtain ⟨a, _, _, o⟩ := C83_coordinates g hn hr hej (ei := ei) c
    rw [a, o]
    rfl

theorem enstrophy_congr {n : Nat} {pts : Nat → ℝ} {m : Diagnostic.Metric2} {h u1 u2 h' u1' u2' : Nat → ℝ} (e0 : ∀ c < n * n, h c = h' c)
    (e1 : ∀ c < n * n, u1 c = u1' c) (e2 : ∀ c < n * n, u2 c = u2' c) {c : Nat} (hc : c < n * n) :
    Diagnostic.potentialEnstrophy n pts m h u1 u2 c = Diagnostic.potentialEnstrophy n pts m h' u1' u2' c := by
  have s : ∀ (f f' : Nat → ℝ) (M : Nat → Nat → ℝ), (∀ c < n * n, f c = f' c) → Dfr.vecmul (n * n) f M c = Dfr.vecmul (n * n) f' M c := by
    intro f f' M hf
    unfold Dfr.vecmul
    exact Finset.sum_congr rfl fun i hi => by rw [hf i (Finset.mem_range.1 hi)]
  unfold Diagnostic.potentialEnstrophy Diagnostic.relativeVorticity
  dsimp only
  rw [s (Diagnostic.u2Dual m u1 u2) (Diagnostic.u2Dual m u1' u2') _ fun c hc => by simp only [Diagnostic.u2Dual, e1 c hc, e2 c hc],
    s (Diagnostic.u1Dual m u1 u2) (Diagnostic.u1Dual m u1' u2') _ fun c hc => by simp only [Diagnostic.u1Dual, e1 c hc, e2 c hc], e0 c hc]

theorem integrals_whole (hn : 0 < g.n) {s S : Setup} (hw : s.w = S.w) (ht : HoldsGround g s.topo S.topo) (hQ : Holds g Q W) :
    integrals g s Q = integrals (whole g) S W := by
  unfold integrals
  rw [← hw]
  have i1 : globalIntegral g s.w (depth Q) = globalIntegral (whole g) s.w (depth W) :=
    integral_whole hn _ fun r hr ej hej ei hei c hc => hQ r hr ej hej ei hei 0 (by omega) c hc
  have i2 : globalIntegral g s.w (energy g s Q) = globalIntegral (whole g) s.w (energy (whole g) S W) := by
    refine integral_whole hn _ fun r hr ej hej ei hei c hc => ?_
    unfold energy
    rw [hQ r hr ej hej ei hei 0 (by omega) c hc, hQ r hr ej hej ei hei 1 (by omega) c hc, hQ r hr ej hej ei hei 2 (by omega) c hc, hcov_whole hn hr hej c]
    congr 1
    revert ht
    cases s.topo <;> cases S.topo <;> intro ht
    · rfl
    · exact ht.elim
    · exact ht.elim
    · exact congrArg some (ht.h r hr ej hej ei hei c hc)
  have i3 : globalIntegral g s.w (enstrophy g Q) = globalIntegral (whole g) s.w (enstrophy (whole g) W) := by
    refine integral_whole hn _ fun r hr ej hej ei hei c hc => ?_
    unfold enstrophy
    rw [metric_whole hn hr hej]
    have q := hQ r hr ej hej ei hei
    exact enstrophy_congr (n := g.n) (fun c hc => q 0 (by omega) c hc) (fun c hc => by rw [q 0 (by omega) c hc, q 1 (by omega) c hc])
      (fun c hc => by rw [q 0 (by omega) c hc, q 2 (by omega) c hc]) hc
  rw [i1, i2, i3]

theorem analytic_whole (hn : 0 < g.n) {s S : Setup} (hc : s.caseNumber = S.caseNumber) (hdt : s.dt = S.dt) (step : Nat) {r ej ei : Nat}
    (hr : r < 6 * (g.k * g.k)) (hej : ej < g.N) (c : Nat) :
    analytic g s step r ej ei c = analytic (whole g) S step (panelOf g r) (rowOf g r ej) (colOf g r ei) c := by
  obtain ⟨a, _, _, o⟩ := C83_coordinates g hn hr hej (ei := ei) c
  unfold analytic
  dsimp only
  rw [a, o, hc, hdt]
  rfl

theorem errors_whole (hk : 0 < g.k) (hN : 0 < g.N) (hn : 0 < g.n) {s S : Setup} (hw : s.w = S.w) (hc : s.caseNumber = S.caseNumber) (hdt : s.dt = S.dt)
    (hQ : Holds g Q W) (step : Nat) : errors g s Q step = errors (whole g) S W step := by
  have q := fun r hr ej hej ei hei => hQ r hr ej hej ei hei 0 (by omega)
  unfold errors
  dsimp only
  rw [← hw]
  congr 1
  · congr 1 <;> refine integral_whole hn _ fun r hr ej hej ei hei c hcc => ?_
    · rw [q r hr ej hej ei hei c hcc, analytic_whole hn hc hdt step hr hej c]
    · rw [analytic_whole hn hc hdt step hr hej c]
  congr 1
  · congr 1
    congr 1 <;> refine integral_whole hn _ fun r hr ej hej ei hei c hcc => ?_
    · rw [q r hr ej hej ei hei c hcc, analytic_whole hn hc hdt step hr hej c]
    · rw [analytic_whole hn hc hdt step hr hej c]
  · congr 1 <;> refine max_whole hk hN hn fun r hr ej hej ei hei c hcc => ?_
    · rw [q r hr ej hej ei hei c hcc, analytic_whole hn hc hdt step hr hej c]
    · rw [analytic_whole hn hc hdt step hr hej c]

/-- the same states at the same steps, cut into tiles -/
def HoldsRun (g : Grid) : List (Field × Nat) → List (Field × Nat) → Prop := List.Forall₂ fun x y => Holds g x.1 y.1 ∧ x.2 = y.2

theorem reports_whole (hk : 0 < g.k) (hN : 0 < g.N) (hn : 0 < g.n) {s S : Setup} (hw : s.w = S.w) (hc : s.caseNumber = S.caseNumber) (hdt : s.dt = S.dt)
    (ht : HoldsGround g s.topo S.topo) {xs ys : List (Field × Nat)} (h : HoldsRun g xs ys) (first : Option Three) :
    reports g s first xs = reports (whole g) S first ys := by
  induction h generalizing first with
  | nil => rfl
  | @cons x y xs ys h _ ih =>
    have e : block g s first x.1 x.2 = block (whole g) S first y.1 y.2 := by
      unfold block
      rw [integrals_whole hn hw ht h.1, errors_whole hk hN hn hw hc hdt h.1, hc, h.2]
    simp only [reports, e, ih]

/-- **C85** the printed statistics do not depend on the number of processes: two runs that hold the same states at the same steps, on two decompositions of
the same sphere, print the same numbers. -/
theorem C85_processes (hs : SameSphere g g') (hk : 0 < g.k) (hN : 0 < g.N) (hn : 0 < g.n) (hk' : 0 < g'.k) (hN' : 0 < g'.N) {s s' S : Setup}
    (h : s.w = S.w ∧ s.caseNumber = S.caseNumber ∧ s.dt = S.dt ∧ HoldsGround g s.topo S.topo)
    (h' : s'.w = S.w ∧ s'.caseNumber = S.caseNumber ∧ s'.dt = S.dt ∧ HoldsGround g' s'.topo S.topo)
    {xs xs' ys : List (Field × Nat)} (hx : HoldsRun g xs ys) (hx' : HoldsRun g' xs' ys) :
    reports g s none xs = reports g' s' none xs' := by
  rw [reports_whole hk hN hn h.1 h.2.1 h.2.2.1 h.2.2.2 hx, reports_whole hk' hN' (by rw [← hs.n]; exact hn) h'.1 h'.2.1 h'.2.2.1 h'.2.2.2 hx',
    whole_same hs]

/-! ## Reference of the differences -/

theorem reports_first (s : Setup) (hc : 2 ≤ s.caseNumber) (f : Three) (xs : List (Field × Nat)) :
    reports g s (some f) xs = xs.map fun x => ⟨none, if s.caseNumber ≤ 2 then some (errors g s x.1 x.2) else none,
      some (normalized (integrals g s x.1).1 f.1, normalized (integrals g s x.1).2.1 f.2.1, normalized (integrals g s x.1).2.2 f.2.2)⟩ := by
  induction xs with
  | nil => rfl
  | cons x xs ih => simp only [reports, block, hc, if_true, Option.getD_some, List.map_cons, ih, reduceCtorEq, and_false, if_false, Option.map_some]

/-- the numbers that would be printed for a state with given reference -/
noncomputable def driftFrom (g : Grid) (s : Setup) (first now : Field) : Three :=
  (normalized (integrals g s now).1 (integrals g s first).1, normalized (integrals g s now).2.1 (integrals g s first).2.1,
    normalized (integrals g s now).2.2 (integrals g s first).2.2)

/-- **C85** the integrals are printed once, for the state of the first block, and every normalized difference is relative to that state. -/
theorem C85_reference (s : Setup) (hc : 2 ≤ s.caseNumber) (x : Field × Nat) (xs : List (Field × Nat)) :
    (reports g s none (x :: xs)).map Report.initial = some (integrals g s x.1) :: xs.map (fun _ => none) ∧
    (reports g s none (x :: xs)).map Report.drift = (x :: xs).map fun y => some (driftFrom g s x.1 y.1) := by
  simp only [reports, block, hc, if_true, Option.getD_none, List.map_cons, reports_first s hc, List.map_map, and_self, Option.map_some]
  exact ⟨by simp [Function.comp_def], by simp [Function.comp_def, driftFrom]⟩

/-- **C85** what is printed in a block: the errors for the cases 1 and 2, which have an exact solution, and the differences from case 2 on. -/
theorem C85_printed (s : Setup) (first : Option Three) (x : Field × Nat) (xs : List (Field × Nat)) :
    (∀ rep ∈ reports g s first (x :: xs), (rep.errors.isSome ↔ s.caseNumber ≤ 2) ∧ (rep.drift.isSome ↔ 2 ≤ s.caseNumber)) ∧
    (s.caseNumber ≤ 2 → (reports g s first (x :: xs)).map Report.errors = (x :: xs).map fun y => some (errors g s y.1 y.2)) ∧
    (reports g s first (x :: xs)).length = xs.length + 1 := by
  have one : ∀ first (ys : List (Field × Nat)), (∀ rep ∈ reports g s first ys, (rep.errors.isSome ↔ s.caseNumber ≤ 2) ∧ (rep.drift.isSome ↔ 2 ≤ s.caseNumber)) ∧
      (s.caseNumber ≤ 2 → (reports g s first ys).map Report.errors = ys.map fun y => some (errors g s y.1 y.2)) ∧ (reports g s first ys).length = ys.length := by
    intro first ys
    induction ys generalizing first with
    | nil => simp [reports]
    | cons y ys ih =>
      obtain ⟨a, b, c⟩ := ih (block g s first y.1 y.2).1
      refine ⟨fun rep hrep => ?_, fun h => ?_, by simp [reports, c]⟩
      · rcases List.mem_cons.1 hrep with rfl | hrep
        · by_cases h2 : s.caseNumber ≤ 2 <;> by_cases h3 : 2 ≤ s.caseNumber <;> simp [block, h2, h3]
        · exact a rep hrep
      · rw [List.map_cons, ← b h]
        simp [reports, block, h]
  exact one first (x :: xs)

/-! ## Mass -/

theorem integral_eq_total (w : Nat → ℝ) (f : Scalar) : globalIntegral g w f = total g w f := by
  unfold globalIntegral localSum total Grid.size
  rw [pow_two]
  refine Finset.sum_congr rfl fun r _ => Finset.sum_congr rfl fun ej _ => Finset.sum_congr rfl fun ei _ => Finset.sum_congr rfl fun j _ =>
    Finset.sum_congr rfl fun i _ => by ring

theorem no_drift (s : Setup) (hc : 2 ≤ s.caseNumber) {Q : Nat → Field} (h : ∀ n, (integrals g s (Q (n + 1))).1 = (integrals g s (Q n)).1) (steps : List Nat) :
    ∀ rep ∈ reports g s none (steps.map fun n => (Q n, n)), ∃ d, rep.drift = some d ∧ d.1 = 0 := by
  have all : ∀ n, (integrals g s (Q n)).1 = (integrals g s (Q 0)).1 := by
    intro n
    induction n with
    | zero => rfl
    | succ n ih => rw [h, ih]
  cases steps with
  | nil => simp [reports]
  | cons n steps =>
    intro rep hrep
    have e := (C85_reference (g := g) s hc (Q n, n) (steps.map fun n => (Q n, n))).2
    have hm : rep.drift ∈ (reports g s none ((Q n, n) :: steps.map fun n => (Q n, n))).map Report.drift := List.mem_map_of_mem hrep
    rw [e, List.mem_map] at hm
    obtain ⟨y, hy, hd⟩ := hm
    refine ⟨_, hd.symm, ?_⟩
    obtain ⟨m, rfl⟩ : ∃ m, y = (Q m, m) := by
      rcases List.mem_cons.1 hy with rfl | hy
      · exact ⟨n, rfl⟩
      · obtain ⟨m, _, rfl⟩ := List.mem_map.1 hy
        exact ⟨m, rfl⟩
    simp only [driftFrom, normalized, all m, all n, sub_self, zero_div]

/-- **C85** no mass drift: a run whose steps add multiples of tendencies of states of positive depth, as the explicit methods do, prints the normalized
error 0 for mass in every block, whatever steps the statistics are printed for. -/
theorem C85_no_mass_drift (hk : 0 < g.k) (hN : 0 < g.N) (hn : 1 ≤ g.n) {xs ws : List ℝ} (h : Quad.IsGaussRule g.n xs ws) (hp : g.pts = Conservation.arr xs)
    (hR : g.radius ≠ 0) {t : Topography} (ht : OneTopography g t) (s : Setup) (hc : 2 ≤ s.caseNumber) (hw : s.w = Conservation.arr ws) (Q : Nat → Field)
    (m : Nat → Nat) (b : Nat → Nat → ℝ) (stage : Nat → Nat → Field) (hpos : ∀ n, ∀ l < m n, PositiveDepth g t (stage n l))
    (hstep : ∀ n r ej ei c, Q (n + 1) r ej ei 0 c = Q n r ej ei 0 c + ∑ l ∈ Finset.range (m n), b n l * rhs g t (stage n l) r ej ei 0 c)
    (steps : List Nat) : ∀ rep ∈ reports g s none (steps.map fun n => (Q n, n)), ∃ d, rep.drift = some d ∧ d.1 = 0 := by
  refine no_drift s hc (fun n => ?_) steps
  unfold integrals
  dsimp only
  rw [integral_eq_total, integral_eq_total, hw]
  have e : depth (Q (n + 1)) = fun r ej ei c => Q n r ej ei 0 c + ∑ l ∈ Finset.range (m n), b n l * rhs g t (stage n l) r ej ei 0 c := by
    funext r ej ei c
    exact hstep n r ej ei c
  rw [e]
  exact ShallowWater.C59_steps_keep_mass hk hN hn h hp hR ht (m n) (b n) (stage n) (hpos n)

theorem integral_add (w : Nat → ℝ) (f f' : Scalar) : globalIntegral g w (fun r ej ei c => f r ej ei c + f' r ej ei c) = globalIntegral g w f + globalIntegral g w f' := by
  unfold globalIntegral localSum
  simp only [← Finset.sum_add_distrib, add_mul]

/-- **C85** fails when fields are written: with a topography, NetCDF output and statistics at every step, and steps that conserve mass, block `i` reports the
normalized error `i B / (M + B)` for mass, where `M` is the mass and `B` the quadrature of the surface height.  It is positive from the second block on. -/
theorem C85_after_output_fails (s : Setup) (hc : 2 ≤ s.caseNumber) (t : Topography) (Y X : Nat → Field) (hX : ∀ n, X n = afterWrite t (Y n))
    (hcons : ∀ n, globalIntegral g s.w (depth (Y (n + 1))) = globalIntegral g s.w (depth (X n))) (n : Nat) :
    (reports g s none ((List.range n).map fun i => (X i, i))).map (fun rep => rep.drift.map Prod.fst) =
      (List.range n).map (fun i : Nat => some ((i : ℝ) * globalIntegral g s.w t.h / (globalIntegral g s.w (depth (Y 0)) + globalIntegral g s.w t.h))) ∧
    (0 < globalIntegral g s.w t.h → 0 ≤ globalIntegral g s.w (depth (Y 0)) → ∀ i : Nat, 0 < i →
      0 < i * globalIntegral g s.w t.h / (globalIntegral g s.w (depth (Y 0)) + globalIntegral g s.w t.h)) := by
  have one : ∀ i, globalIntegral g s.w (depth (X i)) = globalIntegral g s.w (depth (Y i)) + globalIntegral g s.w t.h := by
    intro i
    rw [← integral_add]
    congr 1
    funext r ej ei c
    simp [hX i, depth, afterWrite]
  have all : ∀ i : Nat, globalIntegral g s.w (depth (X i)) = globalIntegral g s.w (depth (Y 0)) + globalIntegral g s.w t.h + i * globalIntegral g s.w t.h := by
    intro i
    induction i with
    | zero => rw [one]; simp
    | succ i ih => rw [one, hcons, ih]; push_cast; ring
  constructor
  · cases n with
    | zero => rfl
    | succ n =>
      rw [List.range_succ_eq_map, List.map_cons]
      have e := (C85_reference (g := g) s hc (X 0, 0) (((List.range n).map Nat.succ).map fun i => (X i, i))).2
      have e' := congrArg (List.map (Option.map Prod.fst)) e
      rw [List.map_map] at e'
      refine Eq.trans e' ?_
      simp only [List.map_cons, List.map_map, Option.map_some, driftFrom, normalized, integrals, all, Nat.cast_zero, zero_mul, add_zero, sub_self, zero_div,
        List.cons.injEq, true_and, Function.comp_def, add_sub_cancel_left]
  · intro hB hM i hi
    have : (0 : ℝ) < i := by exact_mod_cast hi
    positivity

/-! ## Errors -/

theorem integral_half (hR : g.radius ≠ 0) (hx : ∀ l < g.n, |g.pts l| ≤ 1) {a : Nat → Nat → Nat → Nat → ℝ} (ha : AreaElements g a) (w : Nat → ℝ) (f : Scalar) :
    globalIntegral g w f = quadrature g w a f / 2 := (C85_integral_fails hR hx ha w f).1

/-- **C85** the errors printed for the test cases with an exact solution are the relative errors of the depth in the three norms: quadrature with the true area
element of `|h - H|` over that of `|H|`, the square root for the squares, and the greatest `|h - H|` over the greatest `H`. -/
theorem C85_errors (hk : 0 < g.k) (hN : 0 < g.N) (hn : 0 < g.n) (hR : g.radius ≠ 0) (hx : ∀ l < g.n, |g.pts l| ≤ 1) {a : Nat → Nat → Nat → Nat → ℝ}
    (ha : AreaElements g a) (s : Setup) (Q : Field) (step : Nat) :
    (errors g s Q step).1 = quadrature g s.w a (fun r ej ei c => |Q r ej ei 0 c - analytic g s step r ej ei c|) /
      quadrature g s.w a (fun r ej ei c => |analytic g s step r ej ei c|) ∧
    (errors g s Q step).2.1 = Real.sqrt (quadrature g s.w a (fun r ej ei c => (Q r ej ei 0 c - analytic g s step r ej ei c) ^ 2) /
      quadrature g s.w a (fun r ej ei c => analytic g s step r ej ei c ^ 2)) ∧
    ∃ m M, (errors g s Q step).2.2 = m / M ∧
      IsGreatest {x | ∃ r < 6 * (g.k * g.k), ∃ ej < g.N, ∃ ei < g.N, ∃ c < g.n * g.n, x = |Q r ej ei 0 c - analytic g s step r ej ei c|} m ∧
      IsGreatest {x | ∃ r < 6 * (g.k * g.k), ∃ ej < g.N, ∃ ei < g.N, ∃ c < g.n * g.n, x = analytic g s step r ej ei c} M := by
  unfold errors
  dsimp only
  refine ⟨?_, ?_, _, _, rfl, isGreatest_max hk hN hn _, isGreatest_max hk hN hn _⟩
  · rw [integral_half hR hx ha, integral_half hR hx ha, div_div_div_cancel_right₀ two_ne_zero]
  · rw [integral_half hR hx ha, integral_half hR hx ha, div_div_div_cancel_right₀ two_ne_zero]

theorem integral_zero_iff (hR : g.radius ≠ 0) (hN : 0 < g.N) (hn : 0 < g.n) (w : Nat → ℝ) (hw : ∀ l < g.n, 0 < w l) {f : Scalar}
    (hf : ∀ r ej ei c, 0 ≤ f r ej ei c) : globalIntegral g w f = 0 ↔ AllPoints g (fun r ej ei c => f r ej ei c = 0) := by
  have p : ∀ r < 6 * (g.k * g.k), ∀ ej ei, ∀ j < g.n, ∀ i < g.n,
      0 ≤ (f r ej ei (j * g.n + i) * g.sqrtG r (g.solXY r ej ei (j * g.n + i))) * (w j * w i) := fun r hr ej ei j hj i hi =>
    mul_nonneg (mul_nonneg (hf _ _ _ _) (sqrtG_pos hR hr hN _).le) (mul_pos (hw j hj) (hw i hi)).le
  have R := fun {m i : Nat} (h : i ∈ Finset.range m) => Finset.mem_range.1 h
  unfold globalIntegral localSum
  constructor
  · intro h r hr ej hej ei hei c hc
    have hj : c / g.n < g.n := (Nat.div_lt_iff_lt_mul hn).2 hc
    have hi : c % g.n < g.n := Nat.mod_lt _ hn
    have h1 := (Finset.sum_eq_zero_iff_of_nonneg fun r hr => Finset.sum_nonneg fun ej _ => Finset.sum_nonneg fun ei _ => Finset.sum_nonneg fun j hj =>
      Finset.sum_nonneg fun i hi => p r (R hr) ej ei j (R hj) i (R hi)).1 h r (Finset.mem_range.2 hr)
    have h2 := (Finset.sum_eq_zero_iff_of_nonneg fun ej _ => Finset.sum_nonneg fun ei _ => Finset.sum_nonneg fun j hj =>
      Finset.sum_nonneg fun i hi => p r hr ej ei j (R hj) i (R hi)).1 h1 ej (Finset.mem_range.2 hej)
    have h3 := (Finset.sum_eq_zero_iff_of_nonneg fun ei _ => Finset.sum_nonneg fun j hj =>
      Finset.sum_nonneg fun i hi => p r hr ej ei j (R hj) i (R hi)).1 h2 ei (Finset.mem_range.2 hei)
    have h4 := (Finset.sum_eq_zero_iff_of_nonneg fun j hj =>
      Finset.sum_nonneg fun i hi => p r hr ej ei j (R hj) i (R hi)).1 h3 (c / g.n) (Finset.mem_range.2 hj)
    have h5 := (Finset.sum_eq_zero_iff_of_nonneg fun i hi => p r hr ej ei (c / g.n) hj i (R hi)).1 h4 (c % g.n) (Finset.mem_range.2 hi)
    rw [Nat.div_add_mod'] at h5
    rcases mul_eq_zero.1 h5 with h6 | h6
    · exact (mul_eq_zero.1 h6).resolve_right (sqrtG_pos hR hr hN _).ne'
    · exact absurd h6 (mul_pos (hw _ hj) (hw _ hi)).ne'
  · intro h
    refine Finset.sum_eq_zero fun r hr => Finset.sum_eq_zero fun ej hej => Finset.sum_eq_zero fun ei hei => Finset.sum_eq_zero fun j hj =>
      Finset.sum_eq_zero fun i hi => ?_
    have hc : j * g.n + i < g.n * g.n := by have := R hj; have := R hi; nlinarith
    rw [h r (R hr) ej (R hej) ei (R hei) _ hc]
    ring

/-- **C85** each of the three printed errors is zero exactly when the depth is the exact solution at every solution point, provided the exact solution is not
zero everywhere (its greatest value, for the third). -/
theorem C85_errors_zero (hk : 0 < g.k) (hN : 0 < g.N) (hn : 0 < g.n) (hR : g.radius ≠ 0) (s : Setup) (hw : ∀ l < g.n, 0 < s.w l) (Q : Field) (step : Nat)
    (hpos : ∃ r < 6 * (g.k * g.k), ∃ ej < g.N, ∃ ei < g.N, ∃ c < g.n * g.n, 0 < analytic g s step r ej ei c) :
    ((errors g s Q step).1 = 0 ↔ AllPoints g (fun r ej ei c => Q r ej ei 0 c = analytic g s step r ej ei c)) ∧
    ((errors g s Q step).2.1 = 0 ↔ AllPoints g (fun r ej ei c => Q r ej ei 0 c = analytic g s step r ej ei c)) ∧
    ((errors g s Q step).2.2 = 0 ↔ AllPoints g (fun r ej ei c => Q r ej ei 0 c = analytic g s step r ej ei c)) := by
  obtain ⟨r0, hr0, ej0, hej0, ei0, hei0, c0, hc0, h0⟩ := hpos
  have z1 : globalIntegral g s.w (fun r ej ei c => |analytic g s step r ej ei c|) ≠ 0 := fun h => by
    have := (integral_zero_iff hR hN hn s.w hw fun _ _ _ _ => abs_nonneg _).1 h r0 hr0 ej0 hej0 ei0 hei0 c0 hc0
    exact h0.ne' (abs_eq_zero.1 this)
  have z2 : globalIntegral g s.w (fun r ej ei c => analytic g s step r ej ei c ^ 2) ≠ 0 := fun h => by
    have := (integral_zero_iff hR hN hn s.w hw fun _ _ _ _ => sq_nonneg _).1 h r0 hr0 ej0 hej0 ei0 hei0 c0 hc0
    exact h0.ne' (pow_eq_zero_iff two_ne_zero |>.1 this)
  have nn : ∀ f : Scalar, (∀ r ej ei c, 0 ≤ f r ej ei c) → 0 ≤ globalIntegral g s.w f := by
    intro f hf
    unfold globalIntegral localSum
    refine Finset.sum_nonneg fun r hr => Finset.sum_nonneg fun ej _ => Finset.sum_nonneg fun ei _ => Finset.sum_nonneg fun j hj => Finset.sum_nonneg fun i hi => ?_
    rw [Finset.mem_range] at hr hj hi
    exact mul_nonneg (mul_nonneg (hf _ _ _ _) (sqrtG_pos hR hr hN _).le) (mul_pos (hw j hj) (hw i hi)).le
  unfold errors
  dsimp only
  refine ⟨?_, ?_, ?_⟩
  · rw [div_eq_zero_iff, or_iff_left z1, integral_zero_iff hR hN hn s.w hw fun _ _ _ _ => abs_nonneg _]
    simp only [AllPoints, abs_eq_zero, sub_eq_zero]
  · rw [Real.sqrt_eq_zero (div_nonneg (nn _ fun _ _ _ _ => sq_nonneg _) (nn _ fun _ _ _ _ => sq_nonneg _)), div_eq_zero_iff, or_iff_left z2,
      integral_zero_iff hR hN hn s.w hw fun _ _ _ _ => sq_nonneg _]
    simp only [AllPoints, pow_eq_zero_iff two_ne_zero, sub_eq_zero]
  · have g1 := isGreatest_max hk hN hn (fun r ej ei c => |Q r ej ei 0 c - analytic g s step r ej ei c|)
    have g2 := isGreatest_max hk hN hn (analytic g s step)
    have z3 : globalMax g (analytic g s step) ≠ 0 :=
      (lt_of_lt_of_le h0 (g2.2 ⟨r0, hr0, ej0, hej0, ei0, hei0, c0, hc0, rfl⟩)).ne'
    rw [div_eq_zero_iff, or_iff_left z3]
    constructor
    · intro h r hr ej hej ei hei c hc
      have := g1.2 ⟨r, hr, ej, hej, ei, hei, c, hc, rfl⟩
      rw [h] at this
      exact sub_eq_zero.1 (abs_eq_zero.1 (le_antisymm this (abs_nonneg _)))
    · intro h
      obtain ⟨r, hr, ej, hej, ei, hei, c, hc, e⟩ := g1.1
      rw [e, h r hr ej hej ei hei c hc, sub_self, abs_zero]

/-- **C85** the cases 1 and 2 start at their exact solution: all three errors printed for the initial state at step 0 are zero. -/
theorem C85_exact_start (hk : 0 < g.k) (hN : 0 < g.N) (hn : 0 < g.n) (hR : g.radius ≠ 0) (s : Setup) (hc : s.caseNumber = 1 ∨ s.caseNumber = 2)
    (hw : ∀ l < g.n, 0 < s.w l)
    (hpos : ∃ r < 6 * (g.k * g.k), ∃ ej < g.N, ∃ ei < g.N, ∃ c < g.n * g.n, 0 < analytic g s 0 r ej ei c) :
    errors g s (initial g s.caseNumber) 0 = (0, 0, 0) := by
  have all : AllPoints g (fun r ej ei c => initial g s.caseNumber r ej ei 0 c = analytic g s 0 r ej ei c) := by
    intro r hr ej hej ei hei c hcc
    unfold initial analytic InitShallow.initState InitShallow.caseFields
    rcases hc with hc | hc <;> simp [hc]
  obtain ⟨h1, h2, h3⟩ := C85_errors_zero hk hN hn hR s hw (initial g s.caseNumber) 0 hpos
  exact Prod.ext (h1.2 all) (Prod.ext (h2.2 all) (h3.2 all))

/-! ## Concrete cases -/

/-- four Gauss points per direction, 3 × 3 elements per tile, 24 tiles, the Earth -/
def earth (k N : Nat) (xs : List ℝ) : Grid := ⟨k, N, 4, Conservation.arr xs, 6371220, 7.292e-5, fun _ => ⟨0, 0, 0⟩⟩

theorem inside {xs ws : List ℝ} (h : Quad.IsGaussRule 4 xs ws) : ∀ l < 4, |Conservation.arr xs l| ≤ 1 := by
  intro l hl
  unfold Conservation.arr
  rw [List.getD_eq_getElem _ _ (by rw [h.nodes_length]; exact hl), abs_le]
  have := h.inside _ (List.getElem_mem (l := xs) (n := l) (by rw [h.nodes_length]; exact hl))
  exact ⟨this.1.le, this.2.le⟩

theorem positive {xs ws : List ℝ} (h : Quad.IsGaussRule 4 xs ws) : ∀ l < 4, 0 < Conservation.arr ws l := by
  intro l hl
  unfold Conservation.arr
  rw [List.getD_eq_getElem _ _ (by rw [h.weights_length]; exact hl)]
  exact h.weights_pos _ (List.getElem_mem _)

/-- the integral of a field that varies over the Earth is off by a factor of two -/
example : ∃ (g : Grid) (ws : List ℝ) (a f : Nat → Nat → Nat → Nat → ℝ), g.k = 2 ∧ g.N = 3 ∧ g.n = 4 ∧ AreaElements g a ∧ f 0 0 0 0 ≠ f 3 1 2 7 ∧
    globalIntegral g (Conservation.arr ws) f ≠ quadrature g (Conservation.arr ws) a f := by
  obtain ⟨xs, ws, -, h⟩ := WxVerif.Props.Quadrature.C41_rule 4 (by omega) (by omega)
  have hx := inside h
  obtain ⟨a, ha⟩ := area_exists (g := earth 2 3 xs) hx
  refine ⟨earth 2 3 xs, ws, a, fun r ej ei c => 1 + r + ej * c, rfl, rfl, rfl, ha, by norm_num, ?_⟩
  refine (C85_integral_fails (g := earth 2 3 xs) (by norm_num [earth]) hx ha (Conservation.arr ws) (fun r ej ei c => 1 + r + ej * c)).2 (by simp [earth])
    (by simp [earth]) (by simp [earth]) (positive h) ?_
  intro r _ ej _ ei _ c _
  positivity

/-- on a mountain of 500 m, with the momentum of a wind -/
example : ∃ (xs : List ℝ) (s : Setup) (Q : Field) (t : Fin 2 → V3 ℝ), ground s 3 1 2 6 = 500 ∧ Q 3 1 2 1 6 ≠ 0 ∧
    energy (earth 2 3 xs) s Q 3 1 2 6 = columnEnergy gravity (Q 3 1 2 0 6) 500
      ((Q 3 1 2 1 6 / Q 3 1 2 0 6) • t 0 + (Q 3 1 2 2 6 / Q 3 1 2 0 6) • t 1) := by
  obtain ⟨xs, ws, -, h⟩ := WxVerif.Props.Quadrature.C41_rule 4 (by omega) (by omega)
  have hx := inside h
  obtain ⟨a, ha⟩ := area_exists (g := earth 2 3 xs) hx
  obtain ⟨t, ht, -⟩ := ha 3 (by simp [earth]) 1 (by simp [earth]) 2 (by simp [earth]) 1 (by simp [earth]) 2 (by simp [earth])
  let s : Setup := ⟨5, 900, Conservation.arr ws, some { Topography.none with h := fun _ _ _ _ => 500 }⟩
  let Q : Field := fun _ _ _ v _ => if v = 0 then 1000 else 0.01
  have e := C85_energy (g := earth 2 3 xs) s Q (r := 3) (ej := 1) (ei := 2) (j := 1) (i := 2) (by simp [earth]) (by simp [earth]) (by simp [earth])
    (by simp [earth]) (by simp [earth]) hx ht
  have n6 : 1 * (earth 2 3 xs).n + 2 = 6 := rfl
  have hg : ground s 3 1 2 6 = 500 := rfl
  rw [n6, hg] at e
  exact ⟨xs, s, Q, t, hg, by norm_num [Q], e⟩

/-- 24 processes with 3 × 3 elements and 6 processes with 6 × 6 print the same for the initial state of test case 2 -/
example (xs ws : List ℝ) : ∃ s : Setup, s.caseNumber = 2 ∧
    reports (earth 2 3 xs) s none [(initial (earth 2 3 xs) 2, 0)] = reports (earth 1 6 xs) s none [(initial (earth 1 6 xs) 2, 0)] := by
  let s : Setup := ⟨2, 900, Conservation.arr ws, none⟩
  have hs : SameSphere (earth 2 3 xs) (earth 1 6 xs) := ⟨rfl, rfl, rfl, rfl, rfl, rfl⟩
  have e := whole_same hs
  refine ⟨s, rfl, C85_processes (S := s) (ys := [(initial (whole (earth 2 3 xs)) 2, 0)]) hs (by simp [earth]) (by simp [earth]) (by simp [earth]) (by simp [earth])
    (by simp [earth]) ⟨rfl, rfl, rfl, trivial⟩ ⟨rfl, rfl, rfl, trivial⟩ ?_ ?_⟩
  · exact .cons ⟨C83_initial _ 2, rfl⟩ .nil
  · rw [e]
    exact .cons ⟨C83_initial _ 2, rfl⟩ .nil

/-- a step of the explicit Euler method from a state with wind, printed at the steps 0, 1 and 7 -/
example : ∃ (g : Grid) (s : Setup) (Q : Nat → Field), s.caseNumber = 2 ∧ Q 0 5 1 1 1 7 ≠ Q 0 5 1 1 1 8 ∧
    (∀ r ej ei c, Q 1 r ej ei 0 c = Q 0 r ej ei 0 c + 900 * rhs g Topography.none (Q 0) r ej ei 0 c) ∧
    ∀ rep ∈ reports g s none ([0, 1, 7].map fun n => (Q n, n)), ∃ d, rep.drift = some d ∧ d.1 = 0 := by
  obtain ⟨xs, ws, -, h⟩ := WxVerif.Props.Quadrature.C41_rule 4 (by omega) (by omega)
  let g := earth 2 3 xs
  let Q0 : Field := fun r ej ei v c => if v = 0 then 1000 else r + ej * c + ei
  let Q : Nat → Field := fun n r ej ei v c => if n = 0 then Q0 r ej ei v c else Q0 r ej ei v c + 900 * rhs g Topography.none Q0 r ej ei v c
  have ht : OneTopography g Topography.none := ⟨fun _ => 0, fun _ _ _ _ _ _ _ _ _ => ⟨rfl, rfl⟩⟩
  have hp : PositiveDepth g Topography.none Q0 :=
    ShallowWater.positiveDepth_uniform (g := g) (by simp [g, earth]) (h := h) rfl (H := 1000) (by norm_num) (by intros; simp [Q0])
  let s : Setup := ⟨2, 900, Conservation.arr ws, none⟩
  have q0 : Q 0 = Q0 := by funext r ej ei v c; simp [Q]
  refine ⟨g, s, Q, rfl, by norm_num [Q, Q0], fun r ej ei c => by rw [q0]; simp [Q], ?_⟩
  refine C85_no_mass_drift (g := g) (by simp [g, earth]) (by simp [g, earth]) (by simp [g, earth]) h rfl (by norm_num [g, earth]) ht s (by simp [s]) rfl Q
    (fun n => if n = 0 then 1 else 0) (fun _ _ => 900) (fun _ _ => Q0) (fun n l _ => hp) (fun n r ej ei c => ?_) _
  rcases Nat.eq_zero_or_pos n with rfl | hn
  · simp [Q]
  · simp [Q, Nat.pos_iff_ne_zero.1 hn]

/-- at rest, over ground of 500 m: nothing moves, yet the reported mass grows -/
example : ∃ (g : Grid) (s : Setup) (t : Topography) (Y X : Nat → Field), s.caseNumber = 5 ∧ (∀ n, X n = afterWrite t (Y n)) ∧ (∀ n, Y (n + 1) = X n) ∧
    0 < globalIntegral g s.w t.h ∧ 0 ≤ globalIntegral g s.w (depth (Y 0)) ∧
    ∃ d, 0 < d ∧ ((reports g s none ((List.range 2).map fun i => (X i, i))).map fun rep => rep.drift.map Prod.fst) = [some 0, some d] := by
  obtain ⟨xs, ws, -, h⟩ := WxVerif.Props.Quadrature.C41_rule 4 (by omega) (by omega)
  let g := earth 2 3 xs
  let t : Topography := { Topography.none with h := fun _ _ _ _ => 500 }
  let s : Setup := ⟨5, 900, Conservation.arr ws, some t⟩
  let Y : Nat → Field := fun n _ _ _ v _ => if v = 0 then 1000 + 500 * n else 0
  let X : Nat → Field := fun n => afterWrite t (Y n)
  have hY : ∀ n, Y (n + 1) = X n := by
    intro n
    funext r ej ei v c
    by_cases hv : v = 0
    · simp [Y, X, afterWrite, hv, t]; ring
    · simp [Y, X, afterWrite, hv]
  have pos : ∀ a : ℝ, 0 < a → 0 < globalIntegral g s.w (fun _ _ _ _ => a) := by
    intro a ha
    unfold globalIntegral localSum
    have ne : ∀ n : Nat, 0 < n → (Finset.range n).Nonempty := fun n hn => Finset.nonempty_range_iff.2 hn.ne'
    refine Finset.sum_pos (fun r hr => Finset.sum_pos (fun ej hej => Finset.sum_pos (fun ei hei => Finset.sum_pos (fun j hj =>
      Finset.sum_pos (fun i hi => ?_) (ne _ (by simp [g, earth]))) (ne _ (by simp [g, earth]))) (ne _ (by simp [g, earth]))) (ne _ (by simp [g, earth])))
        (ne _ (by simp [Grid.size, g, earth]))
    rw [Finset.mem_range] at hr hj hi
    exact mul_pos (mul_pos ha (sqrtG_pos (by norm_num [g, earth]) hr (by simp [g, earth]) _)) (mul_pos (positive h j hj) (positive h i hi))
  have hB : 0 < globalIntegral g s.w t.h := pos 500 (by norm_num)
  have hM : 0 ≤ globalIntegral g s.w (depth (Y 0)) := by
    have e : depth (Y 0) = fun _ _ _ _ => 1000 := by funext r ej ei c; simp [depth, Y]
    rw [e]
    exact (pos 1000 (by norm_num)).le
  obtain ⟨e, p⟩ := C85_after_output_fails (g := g) s (by simp [s]) t Y X (fun n => rfl) (fun n => by rw [hY n]) 2
  exact ⟨g, s, t, Y, X, rfl, fun n => rfl, hY, hB, hM, _, p hB hM 1 one_pos, by rw [e]; simp [List.range_succ]⟩

/-- the exact solution of test case 2 is positive on the Earth, so the errors of its initial state are well defined and zero -/
example : ∃ (xs ws : List ℝ) (s : Setup), s.caseNumber = 2 ∧ errors (earth 2 3 xs) s (initial (earth 2 3 xs) 2) 0 = (0, 0, 0) ∧
    0 < analytic (earth 2 3 xs) s 0 3 1 2 6 := by
  obtain ⟨xs, ws, -, h⟩ := WxVerif.Props.Quadrature.C41_rule 4 (by omega) (by omega)
  let s : Setup := ⟨2, 900, Conservation.arr ws, none⟩
  have hpos : 0 < analytic (earth 2 3 xs) s 0 3 1 2 6 := by
    unfold analytic
    simp only [s, show ¬(2 = 1) by decide, if_false]
    unfold InitShallow.heightCase2 InitShallow.dayInSecs gravity
    simp only [earth]
    generalize pointLat _ _ _ _ = l
    have h1 : Real.sin l ^ 2 ≤ 1 := Real.sin_sq_le_one l
    have h2 := Real.pi_gt_three
    have h3 := Real.pi_lt_d2
    have h4 : 0 ≤ Real.sin l ^ 2 := sq_nonneg _
    apply div_pos _ (by norm_num)
    set u : ℝ := 2 * pi * 6371220 / (12 * (24 * 3600)) with hu
    have h5 : 0 < u := by positivity
    have h6 : u < 39 := by rw [hu]; rw [div_lt_iff₀ (by norm_num)]; linarith
    have h7 : 6371220 * 7.292e-5 * u + 0.5 * u ^ 2 < 29400 := by nlinarith
    have h8 : 0 ≤ 6371220 * 7.292e-5 * u + 0.5 * u ^ 2 := by positivity
    nlinarith
  refine ⟨xs, ws, s, rfl, ?_, hpos⟩
  exact C85_exact_start (g := earth 2 3 xs) (by simp [earth]) (by simp [earth]) (by simp [earth]) (by norm_num [earth]) s (Or.inr rfl) (positive h)
    ⟨3, by simp [earth], 1, by simp [earth], 2, by simp [earth], 6, by simp [earth], hpos⟩

end WxVerif.Props.BlockStats
