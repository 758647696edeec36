import Verif.Props.ConvergenceSecond
import Verif.Props.ConvergenceAdaptive

/-!
# C90: splitting schemes and the Rosenbrock scheme
-/

namespace WxVerif.Props.Convergence

open Set Filter Topology BSeries SpecConvergence RootedTree WxVerif.Schemes UniformTaylor

universe u

variable {V : Type u} [NormedAddCommGroup V] [NormedSpace ℝ V]

/-- a scheme for `v' = g(v)` whose steps from states near the solution `y` of another equation agree with the Taylor polynomial of first degree
    up to a multiple of `h²` -/
def FirstOrderNear (s : V → ℝ → V) (g : V → V) (y : ℝ → V) (T : ℝ) : Prop :=
  ∃ c ρ h0 : ℝ, 0 ≤ c ∧ 0 < ρ ∧ 0 < h0 ∧ ∀ (t h : ℝ) (u : V), t ∈ Icc 0 T → ‖u - y t‖ ≤ ρ → 0 < h → h ≤ h0 →
    ‖s u h - (u + h • g u)‖ ≤ c * h ^ 2

/-- … with the polynomial of second degree up to a multiple of `h³` -/
def SecondOrderNear (s : V → ℝ → V) (g : V → V) (y : ℝ → V) (T : ℝ) : Prop :=
  ∃ c ρ h0 : ℝ, 0 ≤ c ∧ 0 < ρ ∧ 0 < h0 ∧ ∀ (t h : ℝ) (u : V), t ∈ Icc 0 T → ‖u - y t‖ ≤ ρ → 0 < h → h ≤ h0 →
    ‖s u h - (u + h • g u + (h ^ 2 / 2) • fderiv ℝ g u (g u))‖ ≤ c * h ^ 3

/-- the derivative is Lipschitz continuous near the solution -/
theorem fderiv_near {g : V → V} {y : ℝ → V} {T : ℝ} {f : V → V} {p : Nat} (hs : SmoothSolution f y T p)
    (hg : ∀ t ∈ Icc 0 T, ContDiffAt ℝ 2 g (y t)) : ∃ r M : ℝ, 0 < r ∧ 0 < M ∧ ∀ t ∈ Icc 0 T, ∀ u u' : V, ‖u - y t‖ ≤ r → ‖u' - y t‖ ≤ r →
      DifferentiableAt ℝ g u ∧ ‖fderiv ℝ g u - fderiv ℝ g u'‖ ≤ M * ‖u - u'‖ := by
  have hcont : ContinuousOn y (Icc 0 T) := fun t ht => (hs.solves t ht).continuousWithinAt
  have main := uniform_of_local (isCompact_Icc.image_of_continuousOn hcont)
    (fun x M => 0 < M ∧ ∀ u u' : V, ‖u - x‖ * M < 1 → ‖u' - x‖ * M < 1 →
      DifferentiableAt ℝ g u ∧ ‖fderiv ℝ g u - fderiv ℝ g u'‖ ≤ M * ‖u - u'‖) (by
    rintro z M M' ⟨h0, h1⟩ hM
    refine ⟨h0.trans_le hM, fun u u' hu hu' => ?_⟩
    obtain ⟨a, b⟩ := h1 u u' ((mul_le_mul_of_nonneg_left hM (norm_nonneg _)).trans_lt hu) ((mul_le_mul_of_nonneg_left hM (norm_nonneg _)).trans_lt hu')
    exact ⟨a, b.trans (mul_le_mul_of_nonneg_right hM (norm_nonneg _))⟩) (by
    rintro x ⟨t, ht, rfl⟩
    have hgx := hg t ht
    have hd : ContDiffAt ℝ 1 (fderiv ℝ g) (y t) := hgx.fderiv_right (by norm_num)
    obtain ⟨L, S, hS, hL⟩ := hd.exists_lipschitzOnWith
    obtain ⟨r1, r10, hr1⟩ := Metric.mem_nhds_iff.1 hS
    obtain ⟨r2, r20, hr2⟩ := Metric.eventually_nhds_iff.1 (hgx.eventually (by simp))
    set r := min r1 r2
    have r0 : 0 < r := lt_min r10 r20
    set M := 2 / r + L with hM
    have L0 : (0 : ℝ) ≤ L := L.2
    have p0 : 0 < 2 / r := by positivity
    have near : ∀ z u : V, ‖z - y t‖ < r / 2 → ‖u - z‖ * M < 1 → ‖u - y t‖ < r := by
      intro z u hz hu
      have h2 : ‖u - z‖ * (2 / r) < 1 := (mul_le_mul_of_nonneg_left (by rw [hM]; linarith) (norm_nonneg _)).trans_lt hu
      rw [mul_div_assoc', div_lt_one r0] at h2
      rw [show u - y t = (u - z) + (z - y t) by abel]
      exact (norm_add_le _ _).trans_lt (by linarith)
    refine ⟨r / 2, by positivity, M, fun z hz => ⟨by rw [hM]; linarith, fun u u' hu hu' => ?_⟩⟩
    have h3 := near z u hz hu
    have h4 := near z u' hz hu'
    refine ⟨(hr2 (y := u) (by rw [dist_eq_norm]; exact h3.trans_le (min_le_right _ _))).differentiableAt (by norm_num), ?_⟩
    have a := hL.dist_le_mul u (hr1 (by rw [Metric.mem_ball, dist_eq_norm]; exact h3.trans_le (min_le_left _ _))) u'
      (hr1 (by rw [Metric.mem_ball, dist_eq_norm]; exact h4.trans_le (min_le_left _ _)))
    rw [dist_eq_norm, dist_eq_norm] at a
    exact a.trans (mul_le_mul_of_nonneg_right (by rw [hM]; linarith) (norm_nonneg _)))
  obtain ⟨M, hM⟩ := main
  set M' := max M 1
  have M0 : 0 < M' := lt_of_lt_of_le one_pos (le_max_right _ _)
  have small : ∀ v : V, ‖v‖ ≤ 1 / (2 * M') → ‖v‖ * M < 1 := by
    intro v hv
    rw [le_div_iff₀ (by positivity)] at hv
    nlinarith [norm_nonneg v, mul_le_mul_of_nonneg_left (le_max_left M 1) (norm_nonneg v)]
  refine ⟨1 / (2 * M'), M', by positivity, M0, fun t ht u u' hu hu' => ?_⟩
  obtain ⟨q0, q⟩ := hM _ (mem_image_of_mem y ht)
  have := q u u' (small _ hu) (small _ hu')
  exact ⟨this.1, this.2.trans (mul_le_mul_of_nonneg_right (le_max_left _ _) (norm_nonneg _))⟩

/-- the Taylor polynomial of first degree at a state near the solution -/
theorem taylor_near {g : V → V} {y : ℝ → V} {T r M : ℝ} (h : ∀ t ∈ Icc 0 T, ∀ u u' : V, ‖u - y t‖ ≤ r → ‖u' - y t‖ ≤ r →
      DifferentiableAt ℝ g u ∧ ‖fderiv ℝ g u - fderiv ℝ g u'‖ ≤ M * ‖u - u'‖) (M0 : 0 ≤ M) {t : ℝ} (ht : t ∈ Icc 0 T) {u P : V}
    (hu : ‖u - y t‖ ≤ r) (hP : ‖u + P - y t‖ ≤ r) : ‖g (u + P) - g u - fderiv ℝ g u P‖ ≤ M * ‖P‖ * ‖P‖ := by
  have seg : ∀ w ∈ segment ℝ u (u + P), ‖w - y t‖ ≤ r ∧ ‖w - u‖ ≤ ‖P‖ := by
    intro w hw
    constructor
    · have := (convex_closedBall (y t) r).segment_subset (x := u) (y := u + P) (by simpa [dist_eq_norm] using hu) (by simpa [dist_eq_norm] using hP) hw
      simpa [dist_eq_norm] using this
    · have := (convex_closedBall u ‖P‖).segment_subset (x := u) (y := u + P) (by simp) (by simp) hw
      simpa [dist_eq_norm] using this
  have := (convex_segment (𝕜 := ℝ) u (u + P)).norm_image_sub_le_of_norm_hasFDerivWithin_le' (f := g) (f' := fderiv ℝ g)
    (φ := fderiv ℝ g u) (C := M * ‖P‖) (x := u) (y := u + P)
    (fun w hw => ((h t ht w u (seg w hw).1 hu).1.hasFDerivAt.hasFDerivWithinAt))
    (fun w hw => (h t ht w u (seg w hw).1 hu).2.trans (mul_le_mul_of_nonneg_left (seg w hw).2 M0))
    (left_mem_segment _ _ _) (right_mem_segment _ _ _)
  rwa [add_sub_cancel_left] at this

set_option maxHeartbeats 1000000 in
/-- a sub-step of a splitting scheme, from a state known to first order: the increment is known to second order -/
theorem inner_step {s : V → ℝ → V} {g : V → V} {y : ℝ → V} {T ρ L M N c h0 : ℝ} (n : Near g y T ρ L) (n2 : Near2 g y T ρ M) (M0 : 0 ≤ M) (N0 : 0 ≤ N)
    (nd : ∀ t ∈ Icc 0 T, ∀ u : V, ‖u - y t‖ ≤ ρ → ‖fderiv ℝ g u - fderiv ℝ g (y t)‖ ≤ N * ‖u - y t‖) (c0 : 0 ≤ c)
    (hsn : ∀ (t h : ℝ) (u : V), t ∈ Icc 0 T → ‖u - y t‖ ≤ ρ → 0 < h → h ≤ h0 →
      ‖s u h - (u + h • g u + (h ^ 2 / 2) • fderiv ℝ g u (g u))‖ ≤ c * h ^ 3) (k A : ℝ) (k0 : 0 ≤ k) (A0 : 0 ≤ A) :
    ∃ k' : ℝ, 0 ≤ k' ∧ ∀ (t h ε θ : ℝ) (w a : V), t ∈ Icc 0 T → 0 < h → h ≤ 1 → h ≤ h0 → 0 ≤ ε → ε ≤ 1 → 0 < θ → θ ≤ 1 → ‖a‖ ≤ A →
      h * A + k * (ε + h ^ 2) ≤ ρ → ‖w - (y t + h • a)‖ ≤ k * (ε + h ^ 2) →
      ‖s w (θ * h) - (w + (θ * h) • (g (y t) + h • fderiv ℝ g (y t) a + (θ * h / 2) • fderiv ℝ g (y t) (g (y t))))‖ ≤ h * (k' * (ε + h ^ 2)) ∧
      ‖s w (θ * h) - (y t + h • (a + θ • g (y t)))‖ ≤ k' * (ε + h ^ 2) := by
  have L0 := n.L0
  set K := c + M * (2 * A ^ 2 + 4 * k ^ 2) + M * k + (N * L + M * L) * (A + k) with hK
  have K0 : 0 ≤ K := by positivity
  refine ⟨K + k + M * A + M * L, by positivity, ?_⟩
  intro t h ε θ w a ht h0' h1 hh0 ε0 ε1 θ0 θ1 ha hρ hw
  set E := ε + h ^ 2 with hE
  have hsq : h ^ 2 ≤ 1 := by nlinarith
  have E0 : 0 ≤ E := by positivity
  have E2 : E ≤ 2 := by rw [hE]; linarith
  have hhE : h ^ 2 ≤ E := by rw [hE]; linarith
  have wy : ‖w - y t‖ ≤ h * A + k * E := by
    rw [show w - y t = (w - (y t + h • a)) + h • a by abel]
    refine (norm_add_le _ _).trans ?_
    rw [norm_smul, Real.norm_of_nonneg h0'.le]
    have := mul_le_mul_of_nonneg_left ha h0'.le
    linarith
  have wρ : ‖w - y t‖ ≤ ρ := wy.trans hρ
  have nw := norm_nonneg (w - y t)
  have hθ : 0 < θ * h := by positivity
  have hθh : θ * h ≤ h := by nlinarith
  set τ := θ * h with hτ
  have st := hsn t τ w ht wρ hθ (hθh.trans hh0)
  -- the value of the right-hand side
  set D := fderiv ℝ g (y t) with hD
  have e1 : ‖g w - g (y t) - h • D a‖ ≤ (M * (2 * A ^ 2 + 4 * k ^ 2) + M * k) * E := by
    have q := n2.diff t ht (w - y t) 0 (by linarith) (by simp; linarith)
    rw [add_zero, sub_zero, norm_zero, add_zero, show y t + (w - y t) = w by abel] at q
    have q2 : ‖D (w - (y t + h • a))‖ ≤ M * (k * E) := (ContinuousLinearMap.le_opNorm _ _).trans (mul_le_mul (n2.d t ht) hw (norm_nonneg _) M0)
    have e : g w - g (y t) - h • D a = (g w - g (y t) - D (w - y t)) + D (w - (y t + h • a)) := by
      simp only [map_sub, map_add, map_smul]; abel
    rw [e]
    refine (norm_add_le _ _).trans ?_
    have q3 : ‖w - y t‖ * ‖w - y t‖ ≤ (2 * A ^ 2 + 4 * k ^ 2) * E := by
      have : ‖w - y t‖ * ‖w - y t‖ ≤ (h * A + k * E) * (h * A + k * E) := mul_self_le_mul_self nw wy
      have i1 : (h * A + k * E) * (h * A + k * E) ≤ 2 * (h ^ 2 * A ^ 2) + 2 * (k ^ 2 * (E * E)) := by nlinarith [sq_nonneg (h * A - k * E)]
      have i2 : h ^ 2 * A ^ 2 ≤ E * A ^ 2 := mul_le_mul_of_nonneg_right hhE (by positivity)
      have i3 : k ^ 2 * (E * E) ≤ k ^ 2 * (2 * E) := mul_le_mul_of_nonneg_left (mul_le_mul_of_nonneg_right E2 E0) (by positivity)
      nlinarith
    have q4 := mul_le_mul_of_nonneg_left q3 M0
    nlinarith
  -- the derivative term
  have bw : ‖g w‖ ≤ L := n.bd' ht (by linarith)
  have lw : ‖g w - g (y t)‖ ≤ L * ‖w - y t‖ := n.lip' ht (by linarith) (by simp; linarith [n.ρ0])
  have e2 : h * ‖fderiv ℝ g w (g w) - D (g (y t))‖ ≤ (N * L + M * L) * ((A + k) * E) := by
    have e : fderiv ℝ g w (g w) - D (g (y t)) = (fderiv ℝ g w - D) (g w) + D (g w - g (y t)) := by
      rw [ContinuousLinearMap.sub_apply, map_sub]; abel
    have i1 : ‖(fderiv ℝ g w - D) (g w)‖ ≤ N * ‖w - y t‖ * L :=
      (ContinuousLinearMap.le_opNorm _ _).trans (mul_le_mul (nd t ht w wρ) bw (norm_nonneg _) (by positivity))
    have i2 : ‖D (g w - g (y t))‖ ≤ M * (L * ‖w - y t‖) := (ContinuousLinearMap.le_opNorm _ _).trans (mul_le_mul (n2.d t ht) lw (norm_nonneg _) M0)
    have i3 : ‖fderiv ℝ g w (g w) - D (g (y t))‖ ≤ (N * L + M * L) * ‖w - y t‖ := by
      rw [e]; exact (norm_add_le _ _).trans (by linarith)
    have i4 : h * ‖w - y t‖ ≤ (A + k) * E := by
      have j1 := mul_le_mul_of_nonneg_left wy h0'.le
      have j2 : h ^ 2 * A ≤ E * A := mul_le_mul_of_nonneg_right hhE A0
      have j3 : h * (k * E) ≤ 1 * (k * E) := mul_le_mul_of_nonneg_right h1 (by positivity)
      nlinarith
    calc h * ‖fderiv ℝ g w (g w) - D (g (y t))‖ ≤ h * ((N * L + M * L) * ‖w - y t‖) := mul_le_mul_of_nonneg_left i3 h0'.le
      _ = (N * L + M * L) * (h * ‖w - y t‖) := by ring
      _ ≤ _ := mul_le_mul_of_nonneg_left i4 (by positivity)
  have m1 : ‖s w τ - (w + τ • (g (y t) + h • D a + (τ / 2) • D (g (y t))))‖ ≤ h * (K * E) := by
    have e : s w τ - (w + τ • (g (y t) + h • D a + (τ / 2) • D (g (y t)))) =
        (s w τ - (w + τ • g w + (τ ^ 2 / 2) • fderiv ℝ g w (g w))) + τ • (g w - g (y t) - h • D a) +
          (τ ^ 2 / 2) • (fderiv ℝ g w (g w) - D (g (y t))) := by module
    rw [e]
    refine (norm_add₃_le).trans ?_
    rw [norm_smul, norm_smul, Real.norm_of_nonneg hθ.le, Real.norm_of_nonneg (by positivity : 0 ≤ τ ^ 2 / 2)]
    have j1 : c * τ ^ 3 ≤ h * (c * E) := by
      have : τ ^ 3 ≤ h * E := by
        calc τ ^ 3 ≤ h ^ 3 := pow_le_pow_left₀ hθ.le hθh 3
          _ = h * h ^ 2 := by ring
          _ ≤ h * E := mul_le_mul_of_nonneg_left hhE h0'.le
      nlinarith [mul_le_mul_of_nonneg_left this c0]
    have j2 : τ * ‖g w - g (y t) - h • D a‖ ≤ h * ((M * (2 * A ^ 2 + 4 * k ^ 2) + M * k) * E) := mul_le_mul hθh e1 (norm_nonneg _) h0'.le
    have j3 : τ ^ 2 / 2 * ‖fderiv ℝ g w (g w) - D (g (y t))‖ ≤ h * ((N * L + M * L) * ((A + k) * E)) := by
      have : τ ^ 2 / 2 ≤ h * h := by nlinarith
      calc τ ^ 2 / 2 * ‖fderiv ℝ g w (g w) - D (g (y t))‖ ≤ h * h * ‖fderiv ℝ g w (g w) - D (g (y t))‖ := mul_le_mul_of_nonneg_right this (norm_nonneg _)
        _ = h * (h * ‖fderiv ℝ g w (g w) - D (g (y t))‖) := by ring
        _ ≤ _ := mul_le_mul_of_nonneg_left e2 h0'.le
    rw [hK]
    nlinarith
  have KE : 0 ≤ K * E := by positivity
  refine ⟨m1.trans (mul_le_mul_of_nonneg_left (mul_le_mul_of_nonneg_right ?_ E0) h0'.le), ?_⟩
  · have : 0 ≤ M * A + M * L := by positivity
    linarith
  · have e : s w τ - (y t + h • (a + θ • g (y t))) = (s w τ - (w + τ • (g (y t) + h • D a + (τ / 2) • D (g (y t))))) + (w - (y t + h • a)) +
        (τ * h) • (D a) + (τ * (τ / 2)) • D (g (y t)) := by rw [hτ]; module
    rw [e]
    refine (norm_add₄_le).trans ?_
    rw [norm_smul, norm_smul, Real.norm_of_nonneg (by positivity : 0 ≤ τ * h), Real.norm_of_nonneg (by positivity : 0 ≤ τ * (τ / 2))]
    have b1 : ‖D a‖ ≤ M * A := (ContinuousLinearMap.le_opNorm _ _).trans (mul_le_mul (n2.d t ht) ha (norm_nonneg _) M0)
    have b2 : ‖D (g (y t))‖ ≤ M * L := (ContinuousLinearMap.le_opNorm _ _).trans
      (mul_le_mul (n2.d t ht) (n.bd' ht (by simp; linarith [n.ρ0])) (norm_nonneg _) M0)
    have c1 : τ * h * ‖D a‖ ≤ E * (M * A) := mul_le_mul ((by nlinarith : τ * h ≤ h ^ 2).trans hhE) b1 (norm_nonneg _) E0
    have c2 : τ * (τ / 2) * ‖D (g (y t))‖ ≤ E * (M * L) := mul_le_mul ((by nlinarith : τ * (τ / 2) ≤ h ^ 2).trans hhE) b2 (norm_nonneg _) E0
    have c3 : h * (K * E) ≤ 1 * (K * E) := mul_le_mul_of_nonneg_right h1 KE
    nlinarith

/-- the explicit Euler scheme is of first order near every solution -/
theorem euler1_first (g : V → V) (y : ℝ → V) (T : ℝ) : FirstOrderNear (euler1 g) g y T :=
  ⟨0, 1, 1, le_rfl, one_pos, one_pos, fun t h u _ _ _ _ => by simp [euler1]⟩

set_option maxHeartbeats 1000000 in
/-- the three-stage scheme is of second order near every solution -/
theorem tvdrk3_second {f g : V → V} {y : ℝ → V} {T : ℝ} {p : Nat} (hs : SmoothSolution f y T p) (hg : ∀ t ∈ Icc 0 T, ContDiffAt ℝ 2 g (y t)) :
    SecondOrderNear (tvdrk3 g) g y T := by
  obtain ⟨ρ, L, n⟩ := near_of_smooth hs (fun t ht => (hg t ht).of_le (by norm_num))
  obtain ⟨ρ2, M2, ρ20, M20, n2⟩ := near2_of_smooth hs hg
  obtain ⟨r, N, r0, N0, nd⟩ := fderiv_near hs hg
  have ρ0 := n.ρ0
  have L0 := n.L0
  set ρ' := min (min ρ r) ρ2 / 2 with hρ'
  have m0 : 0 < min (min ρ r) ρ2 := lt_min (lt_min ρ0 r0) ρ20
  have ρ'0 : 0 < ρ' := by rw [hρ']; linarith
  have l1 : 2 * ρ' ≤ ρ := by rw [hρ']; linarith [min_le_left (min ρ r) ρ2, min_le_left ρ r]
  have l2 : 2 * ρ' ≤ r := by rw [hρ']; linarith [min_le_left (min ρ r) ρ2, min_le_right ρ r]
  set B := M2 + N * r with hB
  have B0 : 0 ≤ B := by positivity
  refine ⟨N * L ^ 2 + B * L * L, ρ', min 1 (ρ' / (L + 1)), by positivity, ρ'0, lt_min one_pos (by positivity), ?_⟩
  intro t h u ht hu h0 hh
  have h1 : h ≤ 1 := hh.trans (min_le_left _ _)
  have hL : h * (L + 1) ≤ ρ' := (le_div_iff₀ (by linarith)).1 (hh.trans (min_le_right _ _))
  have hL' : h * L ≤ ρ' := by linarith
  have b1 : ‖g u‖ ≤ L := n.bd' ht (by linarith)
  set k1 := g u with hk1
  set P := h • k1 with hP
  have nP : ‖P‖ ≤ h * L := by
    rw [hP, norm_smul, Real.norm_of_nonneg h0.le]; exact mul_le_mul_of_nonneg_left b1 h0.le
  have uP : ‖u + P - y t‖ ≤ 2 * ρ' := by
    rw [show u + P - y t = (u - y t) + P by abel]; exact (norm_add_le _ _).trans (by linarith)
  set k2 := g (u + P) with hk2
  have b2 : ‖k2‖ ≤ L := n.bd' ht (by linarith)
  have d2 : ‖k2 - k1‖ ≤ L * (h * L) := by
    have := n.lip' ht (a := u + P) (b := u) (by linarith) (by linarith)
    rw [add_sub_cancel_left] at this
    exact this.trans (mul_le_mul_of_nonneg_left nP L0)
  set Q := (h / 4) • (k1 + k2) with hQ
  have nQ : ‖Q‖ ≤ h * L := by
    rw [hQ, norm_smul, Real.norm_of_nonneg (by linarith)]
    have : ‖k1 + k2‖ ≤ 2 * L := (norm_add_le _ _).trans (by linarith)
    have := mul_le_mul_of_nonneg_left this (by linarith : 0 ≤ h / 4)
    nlinarith
  have uQ : ‖u + Q - y t‖ ≤ 2 * ρ' := by
    rw [show u + Q - y t = (u - y t) + Q by abel]; exact (norm_add_le _ _).trans (by linarith)
  set k3 := g (u + Q) with hk3
  set D := fderiv ℝ g u with hD
  have nD : ‖D‖ ≤ B := by
    have i1 := (nd t ht u (y t) (by linarith) (by simp; linarith)).2
    have i2 := n2.d t ht
    have i3 := norm_add_le (D - fderiv ℝ g (y t)) (fderiv ℝ g (y t))
    rw [sub_add_cancel] at i3
    have i4 : N * ‖u - y t‖ ≤ N * r := mul_le_mul_of_nonneg_left (by linarith) N0.le
    rw [hB]; linarith
  have R2 := taylor_near nd N0.le ht (u := u) (P := P) (by linarith) (by linarith)
  have R3 := taylor_near nd N0.le ht (u := u) (P := Q) (by linarith) (by linarith)
  have hl2 : (h * L) * (h * L) = L ^ 2 * h ^ 2 := by ring
  have R2' : ‖k2 - k1 - D P‖ ≤ N * (L ^ 2 * h ^ 2) := by
    refine R2.trans ?_
    rw [mul_assoc, ← hl2]
    exact mul_le_mul_of_nonneg_left (mul_self_le_mul_self (norm_nonneg _) nP) N0.le
  have R3' : ‖k3 - k1 - D Q‖ ≤ N * (L ^ 2 * h ^ 2) := by
    refine R3.trans ?_
    rw [mul_assoc, ← hl2]
    exact mul_le_mul_of_nonneg_left (mul_self_le_mul_self (norm_nonneg _) nQ) N0.le
  have e : tvdrk3 g u h - (u + h • g u + (h ^ 2 / 2) • fderiv ℝ g u (g u)) =
      (h / 6) • (k2 - k1 - D P) + (2 * h / 3) • (k3 - k1 - D Q) + (h ^ 2 / 6) • D (k2 - k1) := by
    have t1 : tvdrk3 g u h = u + (h / 6) • k1 + (h / 6) • k2 + (2 * h / 3) • k3 := by
      have a1 : u + h • g u = u + P := rfl
      have a2 : (3 / 4 : ℝ) • u + (1 / 4 : ℝ) • (u + P) + ((1 / 4 : ℝ) * h) • k2 = u + Q := by rw [hP, hQ]; module
      simp only [tvdrk3]
      rw [a1, ← hk2, a2, ← hk3, hQ]
      module
    rw [t1, hP, hQ]
    simp only [map_sub, map_smul, map_add]
    module
  rw [e]
  refine (norm_add₃_le).trans ?_
  rw [norm_smul, norm_smul, norm_smul, Real.norm_of_nonneg (by positivity), Real.norm_of_nonneg (by positivity), Real.norm_of_nonneg (by positivity)]
  have j1 := mul_le_mul_of_nonneg_left R2' (by positivity : 0 ≤ h / 6)
  have j2 := mul_le_mul_of_nonneg_left R3' (by positivity : 0 ≤ 2 * h / 3)
  have j3 : ‖D (k2 - k1)‖ ≤ B * (L * (h * L)) := (ContinuousLinearMap.le_opNorm _ _).trans (mul_le_mul nD d2 (norm_nonneg _) B0)
  have j4 := mul_le_mul_of_nonneg_left j3 (by positivity : 0 ≤ h ^ 2 / 6)
  have j5 : 0 ≤ N * L ^ 2 * h ^ 3 := by positivity
  have j6 : 0 ≤ B * L * L * h ^ 3 := by positivity
  nlinarith

/-- a scheme whose steps agree with the explicit Euler step up to terms of second order and multiples of the error has order one -/
theorem first_order {f : V → V} {y : ℝ → V} {T : ℝ} (hs : SmoothSolution f y T 1) {r : ℝ} (r0 : 0 < r) :
    ∃ ρ : ℝ, 0 < ρ ∧ ρ ≤ r ∧ ∀ c : ℝ, 0 ≤ c → ∃ C δ : ℝ, 0 < δ ∧ δ ≤ ρ ∧ ∀ (h : ℝ) (step : V → ℝ → V), 0 < h → h ≤ δ →
      (∀ (t h' : ℝ) (u : V), 0 ≤ t → 0 < h' → h' ≤ h → t + h' ≤ T → ‖u - y t‖ ≤ ρ →
        ‖step u h' - (u + h' • f u)‖ ≤ h' * (c * (‖u - y t‖ + h'))) → RunsWithin step y T h (C * h) := by
  obtain ⟨ρ, L, near, ρr, H⟩ := stage_within_c le_rfl hs 1 1 r0
  have ρ0 := near.ρ0
  refine ⟨ρ, ρ0, ρr, fun c c0 => ?_⟩
  obtain ⟨C, δ, C0, δ0, δρ, H⟩ := H c c0
  refine ⟨C * (1 + c), δ / (1 + c), by positivity, (div_le_self δ0.le (by linarith)).trans δρ, ?_⟩
  intro h step h0 hδ hstep
  have a1 : h * (1 + c) ≤ δ := (le_div_iff₀ (by positivity)).1 hδ
  have := H (fun _ _ => 0) (fun _ => 1) 0 (c * h) h step (by simp) (by simp) (order_one (by simp)) (by positivity) h0 (by linarith) (by
    intro t h' u t0 h'0 h'h hT hu
    refine ⟨fun _ => h'⁻¹ • (step u h' - u), fun i _ => by simp [incr, ρ0.le], fun i _ => ?_, ?_⟩
    · simp only [incr, zero_smul, Finset.sum_const_zero, smul_zero, add_zero]
      have e : h'⁻¹ • (step u h' - u) - f u = h'⁻¹ • (step u h' - (u + h' • f u)) := by
        rw [show step u h' - (u + h' • f u) = (step u h' - u) - h' • f u by abel, smul_sub h'⁻¹ (step u h' - u), smul_smul,
          inv_mul_cancel₀ h'0.ne', one_smul]
      rw [e, norm_smul, norm_inv, Real.norm_of_nonneg h'0.le, inv_mul_le_iff₀ h'0]
      refine (hstep t h' u t0 h'0 h'h hT (by linarith)).trans (mul_le_mul_of_nonneg_left ?_ h'0.le)
      have := mul_le_mul_of_nonneg_left h'h c0
      linarith
    · simp only [Finset.sum_range_one, one_smul]
      rw [smul_smul, mul_inv_cancel₀ h'0.ne', one_smul]; abel)
  intro dt Q hdt hQ0 hQ n hn
  refine (this dt Q hdt hQ0 hQ n hn).trans (le_of_eq ?_)
  ring

set_option maxHeartbeats 1000000 in
/-- **C90 (Lie splitting).**  Two schemes of first order for the two parts of the equation, one after the other, have order one for the whole. -/
theorem C90_lie {f1 f2 : V → V} {y : ℝ → V} {T : ℝ} (hs : SmoothSolution (fun v => f1 v + f2 v) y T 1)
    (hf1 : ∀ t ∈ Icc 0 T, ContDiffAt ℝ 1 f1 (y t)) {s1 s2 : V → ℝ → V} (a1 : FirstOrderNear s1 f1 y T) (a2 : FirstOrderNear s2 f2 y T) :
    Converges (lie s1 s2) y T 1 := by
  obtain ⟨ρ1, L1, n1⟩ := near_of_smooth hs hf1
  obtain ⟨ρ2, L2, n2⟩ := near_of_smooth (g := f2) hs (by
    intro t ht
    have h1 : ContDiffAt ℝ 1 (fun v => f1 v + f2 v) (y t) := (hs.smooth t ht).of_le (by norm_num)
    have : f2 = fun v => (f1 v + f2 v) - f1 v := by funext v; simp
    rw [this]
    exact h1.sub (hf1 t ht))
  obtain ⟨c1, r1, d1, c10, r10, d10, A1⟩ := a1
  obtain ⟨c2, r2, d2, c20, r20, d20, A2⟩ := a2
  set ρ := min (min ρ1 ρ2) (min r1 r2) with hρ
  have ρ0 : 0 < ρ := lt_min (lt_min n1.ρ0 n2.ρ0) (lt_min r10 r20)
  have l1 : ρ ≤ ρ1 := (min_le_left _ _).trans (min_le_left _ _)
  have l2 : ρ ≤ ρ2 := (min_le_left _ _).trans (min_le_right _ _)
  have l3 : ρ ≤ r1 := (min_le_right _ _).trans (min_le_left _ _)
  have l4 : ρ ≤ r2 := (min_le_right _ _).trans (min_le_right _ _)
  have L10 := n1.L0
  have L20 := n2.L0
  obtain ⟨σ, σ0, σρ, H⟩ := first_order hs (r := ρ / 2) (by linarith)
  obtain ⟨C, δ, δ0, δσ, H⟩ := H (c1 + c2 + L2 * (L1 + c1)) (by positivity)
  refine ⟨C, min (min δ 1) (min (min d1 d2) (ρ / (2 * (L1 + c1 + 1)))), lt_min (lt_min δ0 one_pos) (lt_min (lt_min d10 d20) (by positivity)), ?_⟩
  intro h h0 hh
  have e1 : h ≤ δ := hh.trans ((min_le_left _ _).trans (min_le_left _ _))
  have e2 : h ≤ 1 := hh.trans ((min_le_left _ _).trans (min_le_right _ _))
  have e3 : h ≤ d1 := hh.trans ((min_le_right _ _).trans ((min_le_left _ _).trans (min_le_left _ _)))
  have e4 : h ≤ d2 := hh.trans ((min_le_right _ _).trans ((min_le_left _ _).trans (min_le_right _ _)))
  have e5 : h * (2 * (L1 + c1 + 1)) ≤ ρ := (le_div_iff₀ (by positivity)).1 (hh.trans ((min_le_right _ _).trans (min_le_right _ _)))
  rw [pow_one]
  refine H h (lie s1 s2) h0 e1 ?_
  intro t h' u t0 h'0 h'h hT hu
  have ht : t ∈ Icc 0 T := ⟨t0, by linarith⟩
  have st1 := A1 t h' u ht (by linarith) h'0 (by linarith)
  set w := s1 u h' with hw
  have b1 : ‖f1 u‖ ≤ L1 := n1.bd' ht (by linarith)
  have hsq : h' ^ 2 ≤ h' := by rw [sq]; nlinarith
  have wu : ‖w - u‖ ≤ h' * (L1 + c1) := by
    rw [show w - u = (w - (u + h' • f1 u)) + h' • f1 u by abel]
    refine (norm_add_le _ _).trans ?_
    rw [norm_smul, Real.norm_of_nonneg h'0.le]
    have := mul_le_mul_of_nonneg_left b1 h'0.le
    have := mul_le_mul_of_nonneg_left hsq c10
    linarith
  have wy : ‖w - y t‖ ≤ ρ := by
    rw [show w - y t = (w - u) + (u - y t) by abel]
    refine (norm_add_le _ _).trans ?_
    have := mul_le_mul_of_nonneg_right h'h (by positivity : 0 ≤ L1 + c1)
    linarith
  have st2 := A2 t h' w ht (by linarith) h'0 (by linarith)
  have lw : ‖f2 w - f2 u‖ ≤ L2 * (h' * (L1 + c1)) :=
    (n2.lip' ht (by linarith) (by linarith)).trans (mul_le_mul_of_nonneg_left wu L20)
  have e : lie s1 s2 u h' - (u + h' • (f1 u + f2 u)) = (s2 w h' - (w + h' • f2 w)) + (w - (u + h' • f1 u)) + h' • (f2 w - f2 u) := by
    simp only [lie, ← hw]; module
  rw [e]
  refine (norm_add₃_le).trans ?_
  rw [norm_smul, Real.norm_of_nonneg h'0.le]
  have := mul_le_mul_of_nonneg_left lw h'0.le
  have p0 : 0 ≤ h' * ((c1 + c2 + L2 * (L1 + c1)) * ‖u - y t‖) := by positivity
  nlinarith

set_option maxHeartbeats 1000000 in
/-- **C90 (Strang splitting).**  Two schemes of second order for the two parts of the equation have order two for the whole. -/
theorem C90_strang {f1 f2 : V → V} {y : ℝ → V} {T : ℝ} (hs : SmoothSolution (fun v => f1 v + f2 v) y T 2)
    (hf1 : ∀ t ∈ Icc 0 T, ContDiffAt ℝ 2 f1 (y t)) {s1 s2 : V → ℝ → V} (a1 : SecondOrderNear s1 f1 y T) (a2 : SecondOrderNear s2 f2 y T) :
    Converges (strang s1 s2) y T 2 := by
  have hf2 : ∀ t ∈ Icc 0 T, ContDiffAt ℝ 2 f2 (y t) := by
    intro t ht
    have h1 : ContDiffAt ℝ 2 (fun v => f1 v + f2 v) (y t) := by exact_mod_cast hs.smooth t ht
    have : f2 = fun v => (f1 v + f2 v) - f1 v := by funext v; simp
    rw [this]
    exact h1.sub (hf1 t ht)
  obtain ⟨ρ1, L1, n1⟩ := near_of_smooth hs (fun t ht => (hf1 t ht).of_le (by norm_num))
  obtain ⟨ρ2, L2, n2⟩ := near_of_smooth hs (fun t ht => (hf2 t ht).of_le (by norm_num))
  obtain ⟨ρ3, M1, ρ30, M10, m1⟩ := near2_of_smooth hs hf1
  obtain ⟨ρ4, M2, ρ40, M20, m2⟩ := near2_of_smooth hs hf2
  obtain ⟨ρ5, N1, ρ50, N10, q1⟩ := fderiv_near hs hf1
  obtain ⟨ρ6, N2, ρ60, N20, q2⟩ := fderiv_near hs hf2
  obtain ⟨c1, r1, d1, c10, r10, d10, A1⟩ := a1
  obtain ⟨c2, r2, d2, c20, r20, d20, A2⟩ := a2
  have L10 := n1.L0
  have L20 := n2.L0
  set S : List ℝ := [ρ1, ρ2, ρ3, ρ4, ρ5, ρ6, r1, r2] with hS
  obtain ⟨ρ, ρ0, hρ⟩ : ∃ ρ : ℝ, 0 < ρ ∧ ∀ x ∈ S, ρ ≤ x := by
    refine ⟨min (min (min ρ1 ρ2) (min ρ3 ρ4)) (min (min ρ5 ρ6) (min r1 r2)),
      lt_min (lt_min (lt_min n1.ρ0 n2.ρ0) (lt_min ρ30 ρ40)) (lt_min (lt_min ρ50 ρ60) (lt_min r10 r20)), ?_⟩
    simp [hS]
  simp only [hS, List.mem_cons, List.not_mem_nil, or_false, forall_eq_or_imp, forall_eq] at hρ
  obtain ⟨l1, l2, l3, l4, l5, l6, l7, l8⟩ := hρ
  have n1' := near_mono n1 ρ0 l1 le_rfl
  have n2' := near_mono n2 ρ0 l2 le_rfl
  have m1' := near2_mono m1 l3 le_rfl
  have m2' := near2_mono m2 l4 le_rfl
  have q1' : ∀ t ∈ Icc 0 T, ∀ u : V, ‖u - y t‖ ≤ ρ → ‖fderiv ℝ f1 u - fderiv ℝ f1 (y t)‖ ≤ N1 * ‖u - y t‖ :=
    fun t ht u hu => (q1 t ht u (y t) (hu.trans l5) (by simp; linarith)).2
  have q2' : ∀ t ∈ Icc 0 T, ∀ u : V, ‖u - y t‖ ≤ ρ → ‖fderiv ℝ f2 u - fderiv ℝ f2 (y t)‖ ≤ N2 * ‖u - y t‖ :=
    fun t ht u hu => (q2 t ht u (y t) (hu.trans l6) (by simp; linarith)).2
  have A1' : ∀ (t h : ℝ) (u : V), t ∈ Icc 0 T → ‖u - y t‖ ≤ ρ → 0 < h → h ≤ min d1 d2 →
      ‖s1 u h - (u + h • f1 u + (h ^ 2 / 2) • fderiv ℝ f1 u (f1 u))‖ ≤ c1 * h ^ 3 :=
    fun t h u ht hu h0 hh => A1 t h u ht (hu.trans l7) h0 (hh.trans (min_le_left _ _))
  have A2' : ∀ (t h : ℝ) (u : V), t ∈ Icc 0 T → ‖u - y t‖ ≤ ρ → 0 < h → h ≤ min d1 d2 →
      ‖s2 u h - (u + h • f2 u + (h ^ 2 / 2) • fderiv ℝ f2 u (f2 u))‖ ≤ c2 * h ^ 3 :=
    fun t h u ht hu h0 hh => A2 t h u ht (hu.trans l8) h0 (hh.trans (min_le_right _ _))
  obtain ⟨k1, k10, I1⟩ := inner_step n1' m1' M10.le N10.le q1' c10 A1' 1 0 zero_le_one le_rfl
  obtain ⟨k2, k20, I2⟩ := inner_step n2' m2' M20.le N20.le q2' c20 A2' k1 L1 k10 L10
  obtain ⟨k3, k30, I3⟩ := inner_step n1' m1' M10.le N10.le q1' c10 A1' k2 (L1 + L2) k20 (by positivity)
  set W := L1 + L2 + 2 * (1 + k1 + k2) with hW
  have W0 : 0 < W := by rw [hW]; linarith
  obtain ⟨σ, σ0, σr, H⟩ := second_order hs (r := min 1 (ρ / W)) (lt_min one_pos (by positivity))
  obtain ⟨C, δ, δ0, δσ, H⟩ := H (k1 + k2 + k3) (by positivity)
  refine ⟨C, min δ (min d1 d2), lt_min δ0 (lt_min d10 d20), ?_⟩
  intro h h0 hh
  have e1 : h ≤ δ := hh.trans (min_le_left _ _)
  have e2 : h ≤ min d1 d2 := hh.trans (min_le_right _ _)
  have := H 0 h (strang s1 s2) le_rfl h0 (by linarith) (by
    intro t h' u t0 h'0 h'h hT hu
    have ht : t ∈ Icc 0 T := ⟨t0, by linarith⟩
    have g1 : h' ≤ 1 := by linarith [σr.trans (min_le_left 1 (ρ / W))]
    have g2 : ‖u - y t‖ ≤ 1 := by linarith [σr.trans (min_le_left 1 (ρ / W))]
    have g3 : h' * W ≤ ρ := (le_div_iff₀ W0).1 (by linarith [σr.trans (min_le_right 1 (ρ / W))])
    have g4 : ‖u - y t‖ * W ≤ ρ := (le_div_iff₀ W0).1 (by linarith [σr.trans (min_le_right 1 (ρ / W))])
    have ε0 := norm_nonneg (u - y t)
    set ε := ‖u - y t‖ with hε
    have hsq : h' ^ 2 ≤ h' := by rw [sq]; nlinarith
    have hsq0 : 0 ≤ h' ^ 2 := by positivity
    have room : ∀ A k : ℝ, 0 ≤ k → A ≤ L1 + L2 → k ≤ 1 + k1 + k2 → h' * A + k * (ε + h' ^ 2) ≤ ρ := by
      intro A k k0 hA hk
      have i1 : k * (ε + h' ^ 2) ≤ (1 + k1 + k2) * (ε + h') := mul_le_mul hk (by linarith) (by positivity) (by positivity)
      have i2 : h' * A ≤ h' * (L1 + L2) := mul_le_mul_of_nonneg_left hA h'0.le
      have i3 : 0 ≤ ε * (L1 + L2) := by positivity
      rw [hW] at g3 g4
      nlinarith
    have hm : h' ≤ min d1 d2 := h'h.trans e2
    have st1 := I1 t h' ε (1 / 2) u 0 ht h'0 g1 hm ε0 g2 (by norm_num) (by norm_num) (by simp)
      (room 0 1 zero_le_one (by positivity) (by linarith)) (by
        rw [smul_zero, add_zero, ← hε]; linarith)
    set w1 := s1 u (1 / 2 * h') with hw1
    have by1 : ‖f1 (y t)‖ ≤ L1 := n1.bd' ht (by simp; linarith [n1.ρ0])
    have by2 : ‖f2 (y t)‖ ≤ L2 := n2.bd' ht (by simp; linarith [n2.ρ0])
    have half : ‖(0 : V) + (1 / 2 : ℝ) • f1 (y t)‖ ≤ L1 := by
      rw [zero_add, norm_smul, Real.norm_of_nonneg (by norm_num)]; linarith
    have st2 := I2 t h' ε 1 w1 ((0 : V) + (1 / 2 : ℝ) • f1 (y t)) ht h'0 g1 hm ε0 g2 one_pos le_rfl half
      (room L1 k1 k10 (by linarith) (by linarith)) st1.2
    set w2 := s2 w1 (1 * h') with hw2
    have st3 := I3 t h' ε (1 / 2) w2 ((0 : V) + (1 / 2 : ℝ) • f1 (y t) + (1 : ℝ) • f2 (y t)) ht h'0 g1 hm ε0 g2 (by norm_num) (by norm_num)
      ((norm_add_le _ _).trans (by rw [one_smul]; linarith)) (room (L1 + L2) k2 k20 le_rfl (by linarith)) st2.2
    have hst : strang s1 s2 u h' = s1 w2 (1 / 2 * h') := by
      rw [hw2, hw1, one_mul, strang, show h' / 2 = 1 / 2 * h' by ring]
    have hD : fderiv ℝ (fun v => f1 v + f2 v) (y t) = fderiv ℝ f1 (y t) + fderiv ℝ f2 (y t) :=
      fderiv_fun_add ((hf1 t ht).differentiableAt (by norm_num)) ((hf2 t ht).differentiableAt (by norm_num))
    rw [hst, hD]
    have e : s1 w2 (1 / 2 * h') - (u + h' • ((f1 (y t) + f2 (y t)) + (h' / 2) • (fderiv ℝ f1 (y t) + fderiv ℝ f2 (y t)) (f1 (y t) + f2 (y t)))) =
        (s1 w2 (1 / 2 * h') - (w2 + (1 / 2 * h') • (f1 (y t) + h' • fderiv ℝ f1 (y t) ((0 : V) + (1 / 2 : ℝ) • f1 (y t) + (1 : ℝ) • f2 (y t)) +
            (1 / 2 * h' / 2) • fderiv ℝ f1 (y t) (f1 (y t))))) +
        (w2 - (w1 + (1 * h') • (f2 (y t) + h' • fderiv ℝ f2 (y t) ((0 : V) + (1 / 2 : ℝ) • f1 (y t)) + (1 * h' / 2) • fderiv ℝ f2 (y t) (f2 (y t))))) +
        (w1 - (u + (1 / 2 * h') • (f1 (y t) + h' • fderiv ℝ f1 (y t) 0 + (1 / 2 * h' / 2) • fderiv ℝ f1 (y t) (f1 (y t))))) := by
      simp only [ContinuousLinearMap.add_apply, map_add, map_smul, map_zero]
      module
    rw [e]
    refine (norm_add₃_le).trans ?_
    have := st1.1
    have := st2.1
    have := st3.1
    linarith)
  simpa using this

/-- the equation of the Rosenbrock scheme has a solution near the present state -/
theorem ros2_solvable [CompleteSpace V] {f : V → V} {y : ℝ → V} {T ρ L Y : ℝ} (n : Near f y T ρ L) {t : ℝ} (ht : t ∈ Icc 0 T) {u : V} {eps h : ℝ}
    (hu : ‖u - y t‖ ≤ ρ / 2) (hY : ‖u‖ ≤ Y) (ρ1 : ρ ≤ 1) (eps0 : 0 < eps) (he : eps * (Y + 1) ≤ ρ / 2) (h0 : 0 < h) (hL : 4 * (h * L) ≤ ρ) :
    ∃ z, ‖z - u‖ ≤ ρ / 2 ∧ matvecRat eps f u h z = matvecRat eps f u h u + h • f u := by
  have ρ0 := n.ρ0
  have L0 := n.L0
  have L1 : h * L ≤ 1 / 4 := by linarith
  have near : ∀ P : V, ‖P‖ ≤ ρ → ‖u + eps • (u + P) - y t‖ ≤ 2 * ρ := by
    intro P hP
    rw [show u + eps • (u + P) - y t = (u - y t) + eps • (u + P) by abel]
    refine (norm_add_le _ _).trans ?_
    rw [norm_smul, Real.norm_of_nonneg eps0.le]
    have : ‖u + P‖ ≤ Y + 1 := (norm_add_le _ _).trans (by linarith)
    have := mul_le_mul_of_nonneg_left this eps0.le
    linarith
  set F : V → V := fun z => eps⁻¹ • (f (u + eps • z) - f (u + eps • u)) with hF
  have lipF : ∀ P Q : V, ‖P‖ ≤ ρ → ‖Q‖ ≤ ρ → ‖F (u + P) - F (u + Q)‖ ≤ L * ‖P - Q‖ := by
    intro P Q hP hQ
    have e : F (u + P) - F (u + Q) = eps⁻¹ • (f (u + eps • (u + P)) - f (u + eps • (u + Q))) := by simp only [hF]; module
    have := n.lip' ht (near P hP) (near Q hQ)
    rw [show u + eps • (u + P) - (u + eps • (u + Q)) = eps • (P - Q) by module, norm_smul, Real.norm_of_nonneg eps0.le] at this
    rw [e, norm_smul, norm_inv, Real.norm_of_nonneg eps0.le, inv_mul_le_iff₀ eps0]
    linarith
  have nF : Near F (fun _ => u) 0 (ρ / 2) L := by
    refine ⟨by linarith, L0, fun _ _ P Q hP hQ => lipF P Q (by linarith) (by linarith), fun _ _ P hP => ?_⟩
    have := lipF P 0 (by linarith) (by simp; linarith)
    have z : F (u + 0) = 0 := by simp [hF]
    rw [z, sub_zero, sub_zero] at this
    nlinarith
  obtain ⟨z, hz, ez⟩ := implicit_exists nF (t := 0) (by simp) (u := u) (w := u + h • f u) (by simp; linarith) (c := h / 2) (by
    rw [add_sub_cancel_left, norm_smul, Real.norm_of_nonneg h0.le, abs_of_nonneg (by linarith)]
    have := mul_le_mul_of_nonneg_left (n.bd' ht (a := u) (by linarith)) h0.le
    linarith) (by
    rw [abs_of_nonneg (by linarith)]
    linarith)
  refine ⟨z, hz, ?_⟩
  have e : z - (h / 2) • F z = u + h • f u := by
    nth_rw 1 [ez]; abel
  rw [matvecRat, matvecRat]
  have e2 : z - (1 / 2 : ℝ) • (h / eps) • (f (u + eps • z) - f u) = (z - (h / 2) • F z) - (1 / 2 : ℝ) • (h / eps) • (f (u + eps • u) - f u) := by
    simp only [hF]
    rw [div_eq_mul_inv h eps]
    module
  rw [e2, e]; abel

set_option maxHeartbeats 1000000 in
/-- **C90 (Rosenbrock).**  The linearly implicit scheme has order two, up to the increment of the finite difference and the tolerance of the linear
    solver.  The tolerance is relative to the state, not to the change over the step, so it counts divided by the smallest step. -/
theorem C90_ros2 [CompleteSpace V] {f : V → V} {y : ℝ → V} {T : ℝ} (hs : SmoothSolution f y T 2) :
    ∃ C δ ρ : ℝ, 0 < δ ∧ 0 < ρ ∧ ∀ h hmin eps tol : ℝ, 0 < hmin → hmin ≤ h → h ≤ δ → 0 < eps → eps ≤ δ → 0 ≤ tol → tol ≤ δ * hmin →
      ∀ linear, RelativeSolver ρ tol linear → ∀ (dt : Nat → ℝ) (Q : Nat → V), (∀ n, hmin ≤ dt n ∧ dt n ≤ h) → Q 0 = y 0 →
        (∀ n, Q (n + 1) = ros2 linear eps f (Q n) (dt n)) →
        ∀ n, time dt n ≤ T → ‖Q n - y (time dt n)‖ ≤ C * (h ^ 2 + eps + tol / hmin) := by
  have hcont : ContinuousOn y (Icc 0 T) := fun t ht => (hs.solves t ht).continuousWithinAt
  obtain ⟨Y0, hY0⟩ := isCompact_Icc.exists_bound_of_continuousOn hcont
  set Y := max Y0 0 + 1 with hYdef
  have Y1 : 1 ≤ Y := by rw [hYdef]; linarith [le_max_right Y0 0]
  obtain ⟨ρa, L, na⟩ := near_of_smooth hs (g := f) (fun t ht => (hs.smooth t ht).of_le (by norm_num))
  obtain ⟨ρb, M, ρb0, M0, nb⟩ := near2_of_smooth hs (g := f) (fun t ht => by exact_mod_cast hs.smooth t ht)
  set ρ := min (min ρa ρb) 1 with hρ
  have ρ0 : 0 < ρ := lt_min (lt_min na.ρ0 ρb0) one_pos
  have ρ1 : ρ ≤ 1 := min_le_right _ _
  have L0 := na.L0
  have n := near_mono na ρ0 ((min_le_left _ _).trans (min_le_left _ _)) le_rfl
  have n2 : Near2 f y T ρ M := near2_mono nb ((min_le_left _ _).trans (min_le_right ρa ρb)) (le_refl M)
  obtain ⟨σ, σ0, σρ, H⟩ := second_order hs (r := ρ / 2) (by linarith)
  set c := 2 * M * (L + 1) + M * (L * (L + 1)) + M * L + L with hc
  have c0 : 0 ≤ c := by positivity
  set c2 := (1 + M) * (Y + 1) * (L + 2) + 2 * M * (Y + 1) * (L + 1) with hc2
  have c20 : 0 < c2 := by positivity
  obtain ⟨C, δ, δ0, δσ, H⟩ := H c c0
  refine ⟨C * (1 + c2), min (min (δ / (3 * (1 + c2))) 1) (min (ρ / (2 * (Y + 1))) (min (ρ / (4 * (L + 1))) (1 / ((Y + 1) * (L + 2))))), ρ / 2,
    by positivity, by linarith, ?_⟩
  intro h hmin eps tol hm0 hmh hδ eps0 epsδ tol0 tolδ linear hlin dt Q hdt hQ0 hQ m hm
  have h0 : 0 < h := hm0.trans_le hmh
  set τ := tol / hmin with hτ
  have τ0 : 0 ≤ τ := by positivity
  have τδ := (div_le_iff₀ hm0).2 tolδ
  rw [← hτ] at τδ
  have t1 : ∀ x, x ≤ min (min (δ / (3 * (1 + c2))) 1) (min (ρ / (2 * (Y + 1))) (min (ρ / (4 * (L + 1))) (1 / ((Y + 1) * (L + 2))))) →
      x * (3 * (1 + c2)) ≤ δ ∧ x ≤ 1 ∧ x * (2 * (Y + 1)) ≤ ρ ∧ x * (4 * (L + 1)) ≤ ρ ∧ x * ((Y + 1) * (L + 2)) ≤ 1 := by
    intro x hx
    simp only [le_min_iff] at hx
    obtain ⟨⟨x1, x2⟩, x3, x4, x5⟩ := hx
    exact ⟨(le_div_iff₀ (by positivity)).1 x1, x2, (le_div_iff₀ (by positivity)).1 x3, (le_div_iff₀ (by positivity)).1 x4,
      (le_div_iff₀ (by positivity)).1 x5⟩
  obtain ⟨a1, a2, a3, a4, a5⟩ := t1 h hδ
  obtain ⟨b1, b2, b3, b4, b5⟩ := t1 eps epsδ
  obtain ⟨d1, d2, d3, d4, d5⟩ := t1 τ τδ
  -- steps below the smallest are made by an exact solver
  classical
  set exact : (V → V) → V → V → V := fun A b x0 => if g : ∃ z, ‖z - x0‖ ≤ ρ / 2 ∧ A z = b then g.choose else x0 with hex
  have hexact : ∀ (A : V → V) (b x0 : V), (∃ z, ‖z - x0‖ ≤ ρ / 2 ∧ A z = b) → ‖exact A b x0 - x0‖ ≤ ρ / 2 ∧ A (exact A b x0) = b := by
    intro A b x0 g
    simp only [hex, dif_pos g]
    exact g.choose_spec
  set step : V → ℝ → V := fun u h' => if hmin ≤ h' then ros2 linear eps f u h' else ros2 exact eps f u h' with hstep
  have := H (c2 * (eps + τ)) h step (by positivity) h0 (by nlinarith) (by
    intro t h' u t0 h'0 h'h hT hu
    have ht : t ∈ Icc 0 T := ⟨t0, by linarith⟩
    have hy : ‖y t‖ ≤ Y - 1 := (hY0 t ht).trans (by rw [hYdef]; linarith [le_max_left Y0 0])
    have huρ : ‖u - y t‖ ≤ ρ / 2 := hu.trans σρ
    have huY : ‖u‖ ≤ Y := by
      have := norm_add_le (u - y t) (y t)
      rw [sub_add_cancel] at this
      linarith
    have h'L : h' * (4 * (L + 1)) ≤ ρ := (mul_le_mul_of_nonneg_right h'h (by positivity)).trans a4
    have h'1 : h' ≤ 1 := h'h.trans a2
    have hLh : h' * L ≤ 1 / 4 := by nlinarith
    set A := matvecRat eps f u h' with hA
    set b := A u + h' • f u with hb
    have solv : ∃ z, ‖z - u‖ ≤ ρ / 2 ∧ A z = b := ros2_solvable n ht huρ huY ρ1 eps0 (by linarith) h'0 (by nlinarith)
    have fu : ‖f u‖ ≤ L := n.bd' ht (by linarith)
    have near : ∀ x : V, ‖x‖ ≤ Y + 1 → ‖(u - y t) + eps • x‖ ≤ ‖u - y t‖ + eps * (Y + 1) ∧ ‖(u - y t) + eps • x‖ ≤ 2 * ρ := by
      intro x hx
      have i1 := norm_add_le (u - y t) (eps • x)
      rw [norm_smul, Real.norm_of_nonneg eps0.le] at i1
      have := mul_le_mul_of_nonneg_left hx eps0.le
      constructor <;> linarith
    have bn : ‖b‖ ≤ (Y + 1) * (L + 2) := by
      have i1 : ‖f (u + eps • u) - f u‖ ≤ L * (eps * Y) := by
        have := n.lip' ht (a := u + eps • u) (b := u) (by
          rw [show u + eps • u - y t = (u - y t) + eps • u by abel]; exact (near u (by linarith)).2) (by linarith)
        rw [add_sub_cancel_left, norm_smul, Real.norm_of_nonneg eps0.le] at this
        exact this.trans (mul_le_mul_of_nonneg_left (mul_le_mul_of_nonneg_left huY eps0.le) L0)
      have i2 : ‖(1 / 2 : ℝ) • (h' / eps) • (f (u + eps • u) - f u)‖ ≤ h' * L * Y := by
        rw [norm_smul, norm_smul, Real.norm_of_nonneg (by norm_num), Real.norm_of_nonneg (by positivity)]
        have i3 : h' / eps * ‖f (u + eps • u) - f u‖ ≤ h' / eps * (L * (eps * Y)) := mul_le_mul_of_nonneg_left i1 (by positivity)
        have i4 : h' / eps * (L * (eps * Y)) = h' * L * Y := by field_simp
        have : 0 ≤ h' * L * Y := by positivity
        linarith
      have i5 : ‖h' • f u‖ ≤ h' * L := by
        rw [norm_smul, Real.norm_of_nonneg h'0.le]; exact mul_le_mul_of_nonneg_left fu h'0.le
      have i6 : ‖A u‖ ≤ ‖u‖ + h' * L * Y := (norm_sub_le _ _).trans (by linarith)
      have i7 := norm_add_le (A u) (h' • f u)
      have : h' * L * Y ≤ 1 / 4 * Y := mul_le_mul_of_nonneg_right hLh (by linarith)
      nlinarith
    -- what either solver returns
    obtain ⟨x, hx, x1, x2⟩ : ∃ x, step u h' = x ∧ ‖x - u‖ ≤ ρ / 2 ∧ ‖A x - b‖ ≤ h' * (τ * ((Y + 1) * (L + 2))) := by
      by_cases hc : hmin ≤ h'
      · refine ⟨ros2 linear eps f u h', by simp only [hstep, if_pos hc], ?_⟩
        obtain ⟨s1, s2⟩ := hlin A b u solv
        refine ⟨s1, s2.trans ?_⟩
        have e : tol = τ * hmin := by rw [hτ, div_mul_cancel₀ _ hm0.ne']
        have i1 : tol * ‖b‖ ≤ tol * ((Y + 1) * (L + 2)) := mul_le_mul_of_nonneg_left bn tol0
        have i2 : tol ≤ τ * h' := by rw [e]; exact mul_le_mul_of_nonneg_left hc τ0
        have i3 := mul_le_mul_of_nonneg_right i2 (by positivity : 0 ≤ (Y + 1) * (L + 2))
        linarith
      · refine ⟨ros2 exact eps f u h', by simp only [hstep, if_neg hc], ?_⟩
        obtain ⟨s1, s2⟩ := hexact A b u solv
        refine ⟨s1, ?_⟩
        have : A (ros2 exact eps f u h') - b = 0 := sub_eq_zero.2 s2
        rw [this, norm_zero]
        positivity
    rw [hx]
    set κ := τ * ((Y + 1) * (L + 2)) with hκ
    have κ0 : 0 ≤ κ := by positivity
    have ε0 := norm_nonneg (u - y t)
    set d := x - u with hd
    have xY : ‖x‖ ≤ Y + 1 := by
      have := norm_add_le (x - u) u
      rw [sub_add_cancel] at this
      linarith
    set D := fderiv ℝ f (y t) with hD
    set q := eps⁻¹ • (f (u + eps • x) - f (u + eps • u)) with hq
    have px := near x xY
    have pu := near u (by linarith)
    have ex : u + eps • x = y t + ((u - y t) + eps • x) := by abel
    have eu : u + eps • u = y t + ((u - y t) + eps • u) := by abel
    have ed : ((u - y t) + eps • x) - ((u - y t) + eps • u) = eps • d := by rw [hd]; module
    have qD : ‖q - D d‖ ≤ M * (2 * ‖u - y t‖ + 2 * (eps * (Y + 1))) * ‖d‖ := by
      have := n2.diff t ht _ _ px.2 pu.2
      rw [← ex, ← eu, ed, map_smul, norm_smul, Real.norm_of_nonneg eps0.le] at this
      have e : q - D d = eps⁻¹ • (f (u + eps • x) - f (u + eps • u) - eps • D d) := by
        rw [hq, smul_sub eps⁻¹ (f (u + eps • x) - f (u + eps • u)), smul_smul eps⁻¹ eps, inv_mul_cancel₀ eps0.ne', one_smul]
      rw [e, norm_smul, norm_inv, Real.norm_of_nonneg eps0.le, inv_mul_le_iff₀ eps0]
      refine this.trans ?_
      have i1 : M * (‖(u - y t) + eps • x‖ + ‖(u - y t) + eps • u‖) ≤ M * (2 * ‖u - y t‖ + 2 * (eps * (Y + 1))) :=
        mul_le_mul_of_nonneg_left (by linarith [px.1, pu.1]) M0.le
      have := mul_le_mul_of_nonneg_right i1 (by positivity : 0 ≤ eps * ‖d‖)
      linarith
    have qL : ‖q‖ ≤ L * ‖d‖ := by
      have := n.lip' ht (a := u + eps • x) (b := u + eps • u) (by
        rw [show u + eps • x - y t = (u - y t) + eps • x by abel]; exact px.2) (by
        rw [show u + eps • u - y t = (u - y t) + eps • u by abel]; exact pu.2)
      rw [show u + eps • x - (u + eps • u) = eps • d by rw [hd]; module, norm_smul, Real.norm_of_nonneg eps0.le] at this
      rw [hq, norm_smul, norm_inv, Real.norm_of_nonneg eps0.le, inv_mul_le_iff₀ eps0]
      linarith
    have res : A x - b = d - (h' / 2) • q - h' • f u := by
      rw [hb, hA, hq, hd, matvecRat, matvecRat, div_eq_mul_inv h' eps]
      module
    rw [res] at x2
    set ϱ := d - (h' / 2) • q - h' • f u with hϱ
    have nd0 := norm_nonneg d
    have half : ‖(h' / 2) • q‖ ≤ h' / 2 * (L * ‖d‖) := by
      rw [norm_smul, Real.norm_of_nonneg (by linarith)]; exact mul_le_mul_of_nonneg_left qL (by linarith)
    have κ1 : κ ≤ 1 := d5
    have dn : ‖d‖ ≤ 2 * (h' * (L + 1)) := by
      have i1 : d = ϱ + (h' / 2) • q + h' • f u := by rw [hϱ]; abel
      have i2 : ‖d‖ ≤ ‖ϱ‖ + ‖(h' / 2) • q‖ + ‖h' • f u‖ := by
        nth_rw 1 [i1]; exact norm_add₃_le
      have i3 : ‖h' • f u‖ ≤ h' * L := by
        rw [norm_smul, Real.norm_of_nonneg h'0.le]; exact mul_le_mul_of_nonneg_left fu h'0.le
      have i4 : h' * κ ≤ h' * 1 := mul_le_mul_of_nonneg_left κ1 h'0.le
      have i5 : h' / 2 * (L * ‖d‖) ≤ 1 / 8 * ‖d‖ := by
        have := mul_le_mul_of_nonneg_right hLh nd0
        linarith
      linarith
    have lu : ‖f u - f (y t)‖ ≤ L * ‖u - y t‖ := n.lip' ht (by linarith) (by simp; linarith)
    have dh : ‖d - h' • f (y t)‖ ≤ h' * κ + h' * (h' * (L * (L + 1))) + h' * (L * ‖u - y t‖) := by
      have i1 : d - h' • f (y t) = ϱ + (h' / 2) • q + h' • (f u - f (y t)) := by rw [hϱ]; module
      rw [i1]
      refine (norm_add₃_le).trans ?_
      have i2 : ‖h' • (f u - f (y t))‖ ≤ h' * (L * ‖u - y t‖) := by
        rw [norm_smul, Real.norm_of_nonneg h'0.le]; exact mul_le_mul_of_nonneg_left lu h'0.le
      have i3 : h' / 2 * (L * ‖d‖) ≤ h' * (h' * (L * (L + 1))) := by
        have := mul_le_mul_of_nonneg_left dn (by positivity : 0 ≤ h' / 2 * L)
        linarith
      linarith
    have e : x - (u + h' • (f (y t) + (h' / 2) • D (f (y t)))) =
        ϱ + (h' / 2) • (q - D d) + (h' / 2) • D (d - h' • f (y t)) + h' • (f u - f (y t)) := by
      simp only [hϱ, hd, map_sub, map_smul]; module
    rw [e]
    refine (norm_add₄_le).trans ?_
    rw [norm_smul, norm_smul, norm_smul, Real.norm_of_nonneg (by linarith : 0 ≤ h' / 2), Real.norm_of_nonneg h'0.le]
    have k1 : h' / 2 * ‖q - D d‖ ≤ h' * (2 * M * (L + 1) * ‖u - y t‖ + 2 * M * (Y + 1) * (L + 1) * eps) := by
      have i1 : M * (2 * ‖u - y t‖ + 2 * (eps * (Y + 1))) * ‖d‖ ≤ M * (2 * ‖u - y t‖ + 2 * (eps * (Y + 1))) * (2 * (L + 1)) := by
        refine mul_le_mul_of_nonneg_left (dn.trans ?_) (by positivity)
        have := mul_le_mul_of_nonneg_right h'1 (by positivity : 0 ≤ L + 1)
        linarith
      exact (mul_le_mul_of_nonneg_left (qD.trans i1) (by positivity : 0 ≤ h' / 2)).trans (le_of_eq (by ring))
    have k2 : h' / 2 * ‖D (d - h' • f (y t))‖ ≤ h' * (M * κ + M * (L * (L + 1)) * h' ^ 2 + M * L * ‖u - y t‖) := by
      have i1 : ‖D (d - h' • f (y t))‖ ≤ M * (h' * κ + h' * (h' * (L * (L + 1))) + h' * (L * ‖u - y t‖)) :=
        (ContinuousLinearMap.le_opNorm _ _).trans (mul_le_mul (n2.d t ht) dh (norm_nonneg _) M0.le)
      have i2 := mul_le_mul_of_nonneg_left i1 (by positivity : 0 ≤ h' / 2)
      have i3 : h' / 2 * (M * (h' * κ + h' * (h' * (L * (L + 1))) + h' * (L * ‖u - y t‖))) =
          h' * (M * (h' / 2 * κ + 1 / 2 * (L * (L + 1)) * h' ^ 2 + h' / 2 * (L * ‖u - y t‖))) := by ring
      rw [i3] at i2
      refine i2.trans (mul_le_mul_of_nonneg_left ?_ h'0.le)
      have j1 : h' / 2 * κ ≤ 1 * κ := mul_le_mul_of_nonneg_right (by linarith) κ0
      have j2 : 1 / 2 * (L * (L + 1)) * h' ^ 2 ≤ L * (L + 1) * h' ^ 2 := by
        have : 0 ≤ L * (L + 1) * h' ^ 2 := by positivity
        linarith
      have j3 : h' / 2 * (L * ‖u - y t‖) ≤ 1 * (L * ‖u - y t‖) := mul_le_mul_of_nonneg_right (by linarith) (by positivity)
      have := mul_le_mul_of_nonneg_left (add_le_add (add_le_add j1 j2) j3) M0.le
      linarith
    have k3 : h' * ‖f u - f (y t)‖ ≤ h' * (L * ‖u - y t‖) := mul_le_mul_of_nonneg_left lu h'0.le
    have z1 : 0 ≤ h' * ((2 * M * (L + 1) + M * L + L) * h' ^ 2) := by positivity
    have z2 : 0 ≤ h' * (M * (L * (L + 1)) * ‖u - y t‖) := by positivity
    have z3 : 0 ≤ h' * ((1 + M) * (Y + 1) * (L + 2) * eps) := by positivity
    have z4 : 0 ≤ h' * (2 * M * (Y + 1) * (L + 1) * τ) := by positivity
    have total : ‖ϱ‖ + h' / 2 * ‖q - D d‖ + h' / 2 * ‖D (d - h' • f (y t))‖ + h' * ‖f u - f (y t)‖ ≤
        h' * κ + h' * (2 * M * (L + 1) * ‖u - y t‖ + 2 * M * (Y + 1) * (L + 1) * eps) +
          h' * (M * κ + M * (L * (L + 1)) * h' ^ 2 + M * L * ‖u - y t‖) + h' * (L * ‖u - y t‖) := by linarith
    refine total.trans ?_
    rw [hc, hc2, hκ]
    linarith)
  have fin := this dt Q (fun i => ⟨hm0.trans_le (hdt i).1, (hdt i).2⟩) hQ0 (fun i => by simp only [hstep, if_pos (hdt i).1]; exact hQ i) m hm
  have X0 : 0 < h ^ 2 + c2 * (eps + τ) := by positivity
  have C0 : 0 ≤ C := by
    by_contra hC
    have := mul_neg_of_neg_of_pos (not_le.1 hC) X0
    linarith [norm_nonneg (Q m - y (time dt m))]
  refine fin.trans ?_
  rw [mul_assoc]
  refine mul_le_mul_of_nonneg_left ?_ C0
  have : 0 ≤ c2 * h ^ 2 := by positivity
  nlinarith

/-- **C90 (splitting of the schemes of the code).**  With the schemes of the code for the parts. -/
theorem C90_splitting_code {f1 f2 : V → V} {y : ℝ → V} {T : ℝ} (hs : SmoothSolution (fun v => f1 v + f2 v) y T 2)
    (hf1 : ∀ t ∈ Icc 0 T, ContDiffAt ℝ 2 f1 (y t)) :
    Converges (lie (euler1 f1) (euler1 f2)) y T 1 ∧ Converges (strang (tvdrk3 f1) (tvdrk3 f2)) y T 2 := by
  have hf2 : ∀ t ∈ Icc 0 T, ContDiffAt ℝ 2 f2 (y t) := by
    intro t ht
    have h1 : ContDiffAt ℝ 2 (fun v => f1 v + f2 v) (y t) := by exact_mod_cast hs.smooth t ht
    have : f2 = fun v => (f1 v + f2 v) - f1 v := by funext v; simp
    rw [this]
    exact h1.sub (hf1 t ht)
  exact ⟨C90_lie ⟨hs.solves, fun t ht => (hs.smooth t ht).of_le (by norm_num)⟩ (fun t ht => (hf1 t ht).of_le (by norm_num)) (euler1_first _ _ _)
      (euler1_first _ _ _),
    C90_strang hs hf1 (tvdrk3_second hs hf1) (tvdrk3_second hs hf2)⟩

/-- the hypotheses are met by `y' = y²`, split into `y² + y` and `-y`, and there are linear solvers of any tolerance -/
example : Converges (strang (tvdrk3 fun v : ℝ => v * v + v) (tvdrk3 fun v => -v)) (fun t => 1 / (2 - t)) 1 2 := by
  refine (C90_splitting_code (f1 := fun v : ℝ => v * v + v) (f2 := fun v => -v) ?_ fun t _ => ?_).2
  · have := square_solution 2
    refine ⟨fun t ht => ?_, fun t ht => ?_⟩
    · simpa using this.solves t ht
    · simpa using this.smooth t ht
  · exact ((contDiff_id.mul contDiff_id).add contDiff_id).contDiffAt

example (ρ tol : ℝ) (tol0 : 0 ≤ tol) : ∃ linear : (V → V) → V → V → V, RelativeSolver ρ tol linear := by
  classical
  refine ⟨fun A b x0 => if h : ∃ z, ‖z - x0‖ ≤ ρ ∧ A z = b then h.choose else x0, fun A b x0 h => ?_⟩
  simp only [dif_pos h]
  exact ⟨h.choose_spec.1, by rw [h.choose_spec.2]; simp; positivity⟩

end WxVerif.Props.Convergence
