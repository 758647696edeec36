import Verif.Props.ConvergenceMore

/-!
# C90: the Rosenbrock scheme and the splitting schemes have order two (and one)
-/

namespace WxVerif.Props.Convergence

open Set Filter Topology BSeries SpecConvergence RootedTree WxVerif.Schemes UniformTaylor

universe u

variable {V : Type u} [NormedAddCommGroup V] [NormedSpace ℝ V]

/-- the derivative is close to that on the compact set: differences of values near the set, uniformly -/
theorem uniform_second {g : V → V} {K : Set V} (hK : IsCompact K) (hg : ∀ x ∈ K, ContDiffAt ℝ 2 g x) :
    ∃ r M : ℝ, 0 < r ∧ 0 < M ∧ ∀ x ∈ K, ‖fderiv ℝ g x‖ ≤ M ∧ ∀ P P' : V, ‖P‖ ≤ r → ‖P'‖ ≤ r →
      ‖g (x + P) - g (x + P') - fderiv ℝ g x (P - P')‖ ≤ M * (‖P‖ + ‖P'‖) * ‖P - P'‖ := by
  have main := uniform_of_local hK (fun x M => 0 < M ∧ ‖fderiv ℝ g x‖ ≤ M ∧ ∀ P P' : V, ‖P‖ * M < 1 → ‖P'‖ * M < 1 →
      ‖g (x + P) - g (x + P') - fderiv ℝ g x (P - P')‖ ≤ M * (‖P‖ + ‖P'‖) * ‖P - P'‖) (by
    rintro z M M' ⟨h0, h1, h2⟩ hM
    have sm : ∀ P : V, ‖P‖ * M' < 1 → ‖P‖ * M < 1 := fun P hP => (mul_le_mul_of_nonneg_left hM (norm_nonneg P)).trans_lt hP
    refine ⟨h0.trans_le hM, h1.trans hM, fun P P' hP hP' => (h2 P P' (sm P hP) (sm P' hP')).trans ?_⟩
    exact mul_le_mul_of_nonneg_right (mul_le_mul_of_nonneg_right hM (by positivity)) (norm_nonneg _)) (by
    intro x hx
    have hgx := hg x hx
    have hd : ContDiffAt ℝ 1 (fderiv ℝ g) x := hgx.fderiv_right (by norm_num)
    obtain ⟨L, S, hS, hL⟩ := hd.exists_lipschitzOnWith
    obtain ⟨r1, r10, hr1⟩ := Metric.mem_nhds_iff.1 hS
    obtain ⟨r2, r20, hr2⟩ := Metric.eventually_nhds_iff.1 (hgx.eventually (by simp))
    have hb : ∀ᶠ z in 𝓝 x, ‖fderiv ℝ g z‖ < ‖fderiv ℝ g x‖ + 1 := hd.continuousAt.norm.eventually (gt_mem_nhds (by linarith))
    obtain ⟨r3, r30, hr3⟩ := Metric.eventually_nhds_iff.1 hb
    set r := min r1 (min r2 r3) with hr
    have r0 : 0 < r := lt_min r10 (lt_min r20 r30)
    set M := 2 / r + L + (‖fderiv ℝ g x‖ + 1) with hM
    have L0 : (0 : ℝ) ≤ L := L.2
    have n0 : 0 ≤ ‖fderiv ℝ g x‖ := norm_nonneg _
    have p0 : 0 < 2 / r := by positivity
    have M0 : 0 < M := by rw [hM]; linarith
    have near : ∀ z P : V, ‖z - x‖ < r / 2 → ‖P‖ * M < 1 → ‖z + P - x‖ < r := by
      intro z P hz hP
      have h1 : ‖P‖ * (2 / r) ≤ ‖P‖ * M := mul_le_mul_of_nonneg_left (by rw [hM]; linarith) (norm_nonneg _)
      have h2 : ‖P‖ * (2 / r) < 1 := lt_of_le_of_lt h1 hP
      have h3 : ‖P‖ < r / 2 := by
        rw [mul_div_assoc', div_lt_one r0] at h2; linarith
      calc ‖z + P - x‖ = ‖(z - x) + P‖ := by congr 1; abel
        _ ≤ ‖z - x‖ + ‖P‖ := norm_add_le _ _
        _ < r := by linarith
    refine ⟨r / 2, by positivity, M, fun z hz => ⟨M0, ?_, ?_⟩⟩
    · have := hr3 (y := z) (by
        rw [dist_eq_norm]
        have : r ≤ r3 := (min_le_right _ _).trans (min_le_right _ _)
        linarith)
      rw [hM]; linarith
    · intro P P' hP hP'
      have seg : ∀ w ∈ segment ℝ (z + P') (z + P), ‖w - x‖ < r ∧ ‖w - z‖ ≤ ‖P‖ + ‖P'‖ := by
        intro w hw
        constructor
        · have h1 : z + P' ∈ Metric.ball x r := by simpa [dist_eq_norm] using near z P' hz hP'
          have h2 : z + P ∈ Metric.ball x r := by simpa [dist_eq_norm] using near z P hz hP
          have := (convex_ball x r).segment_subset h1 h2 hw
          simpa [dist_eq_norm] using this
        · have h1 : z + P' ∈ Metric.closedBall z (‖P‖ + ‖P'‖) := by simp
          have h2 : z + P ∈ Metric.closedBall z (‖P‖ + ‖P'‖) := by simp
          have := (convex_closedBall z (‖P‖ + ‖P'‖)).segment_subset h1 h2 hw
          simpa [dist_eq_norm] using this
      have zx : z ∈ S := hr1 (by
        rw [Metric.mem_ball, dist_eq_norm]
        have : r ≤ r1 := min_le_left _ _
        linarith)
      have := (convex_segment (𝕜 := ℝ) (z + P') (z + P)).norm_image_sub_le_of_norm_hasFDerivWithin_le' (f := g) (f' := fderiv ℝ g)
        (φ := fderiv ℝ g z) (C := M * (‖P‖ + ‖P'‖)) (x := z + P') (y := z + P)
        (fun w hw => ((hr2 (y := w) (by
          rw [dist_eq_norm]; exact (seg w hw).1.trans_le ((min_le_right _ _).trans (min_le_left _ _)))).differentiableAt (by norm_num)).hasFDerivAt.hasFDerivWithinAt)
        (fun w hw => by
          have a := hL.dist_le_mul w (hr1 (by
            rw [Metric.mem_ball, dist_eq_norm]; exact (seg w hw).1.trans_le (min_le_left _ _))) z zx
          rw [dist_eq_norm, dist_eq_norm] at a
          refine a.trans ?_
          refine mul_le_mul (by rw [hM]; linarith) (seg w hw).2 (norm_nonneg _) M0.le)
        (left_mem_segment _ _ _) (right_mem_segment _ _ _)
      rw [show z + P - (z + P') = P - P' by abel] at this
      exact this)
  obtain ⟨M, hM⟩ := main
  set M' := max M 1
  have M0 : 0 < M' := lt_of_lt_of_le one_pos (le_max_right _ _)
  have small : ∀ x ∈ K, ∀ P : V, ‖P‖ ≤ 1 / (2 * M') → ‖P‖ * M < 1 := by
    intro x hx P hP
    have h0 := (hM x hx).1
    rw [le_div_iff₀ (by positivity)] at hP
    nlinarith [norm_nonneg P, mul_le_mul_of_nonneg_left (le_max_left M 1) (norm_nonneg P)]
  refine ⟨1 / (2 * M'), M', by positivity, M0, fun x hx => ⟨(hM x hx).2.1.trans (le_max_left _ _), fun P P' hP hP' => ?_⟩⟩
  refine ((hM x hx).2.2 P P' (small x hx P hP) (small x hx P' hP')).trans ?_
  exact mul_le_mul_of_nonneg_right (mul_le_mul_of_nonneg_right (le_max_left _ _) (by positivity)) (norm_nonneg _)

/-- what is known of the derivative near the solution -/
structure Near2 (g : V → V) (y : ℝ → V) (T ρ M : ℝ) : Prop where
  d : ∀ t ∈ Icc 0 T, ‖fderiv ℝ g (y t)‖ ≤ M
  diff : ∀ t ∈ Icc 0 T, ∀ P P' : V, ‖P‖ ≤ 2 * ρ → ‖P'‖ ≤ 2 * ρ →
    ‖g (y t + P) - g (y t + P') - fderiv ℝ g (y t) (P - P')‖ ≤ M * (‖P‖ + ‖P'‖) * ‖P - P'‖

theorem near2_of_smooth {f g : V → V} {y : ℝ → V} {T : ℝ} {p : Nat} (hs : SmoothSolution f y T p)
    (hg : ∀ t ∈ Icc 0 T, ContDiffAt ℝ 2 g (y t)) : ∃ ρ M, 0 < ρ ∧ 0 < M ∧ Near2 g y T ρ M := by
  have hcont : ContinuousOn y (Icc 0 T) := fun t ht => (hs.solves t ht).continuousWithinAt
  obtain ⟨r, M, r0, M0, h⟩ := uniform_second (isCompact_Icc.image_of_continuousOn hcont) (g := g) (by
    rintro x ⟨t, ht, rfl⟩
    exact hg t ht)
  exact ⟨r / 2, M, by linarith, M0, fun t ht => (h _ (mem_image_of_mem y ht)).1,
    fun t ht P P' hP hP' => (h _ (mem_image_of_mem y ht)).2 P P' (by linarith) (by linarith)⟩

theorem near2_mono {g : V → V} {y : ℝ → V} {T ρ M ρ' M' : ℝ} (n : Near2 g y T ρ M) (h1 : ρ' ≤ ρ) (h2 : M ≤ M') : Near2 g y T ρ' M' :=
  ⟨fun t ht => (n.d t ht).trans h2, fun t ht P P' hP hP' => (n.diff t ht P P' (by linarith) (by linarith)).trans
    (mul_le_mul_of_nonneg_right (mul_le_mul_of_nonneg_right h2 (by positivity)) (norm_nonneg _))⟩

set_option maxHeartbeats 1000000 in
/-- a scheme whose steps agree with the Taylor polynomial of degree two at the exact solution, up to terms of third order and multiples of the
error, has order two -/
theorem second_order {f : V → V} {y : ℝ → V} {T : ℝ} (hs : SmoothSolution f y T 2) {r : ℝ} (r0 : 0 < r) :
    ∃ ρ : ℝ, 0 < ρ ∧ ρ ≤ r ∧ ∀ c : ℝ, 0 ≤ c → ∃ C δ : ℝ, 0 < δ ∧ δ ≤ ρ ∧ ∀ (tol h : ℝ) (step : V → ℝ → V), 0 ≤ tol → 0 < h → h + tol ≤ δ →
      (∀ (t h' : ℝ) (u : V), 0 ≤ t → 0 < h' → h' ≤ h → t + h' ≤ T → ‖u - y t‖ ≤ ρ →
        ‖step u h' - (u + h' • (f (y t) + (h' / 2) • fderiv ℝ f (y t) (f (y t))))‖ ≤ h' * (c * (‖u - y t‖ + h' ^ 2) + tol)) →
      RunsWithin step y T h (C * (h ^ 2 + tol)) := by
  obtain ⟨ρ2, M, ρ20, M0, n2⟩ := near2_of_smooth hs (fun t ht => by exact_mod_cast hs.smooth t ht)
  obtain ⟨ρ, L, near, ρr, H⟩ := stage_within_c (by norm_num : 1 ≤ 2) hs 2 1 (lt_min (lt_min r0 ρ20) one_pos)
  have ρ0 := near.ρ0
  have L0 := near.L0
  have nn : Near2 f y T ρ M := near2_mono n2 (ρr.trans ((min_le_left _ _).trans (min_le_right _ _))) le_rfl
  have ρ1 : ρ ≤ 1 := ρr.trans (min_le_right _ _)
  refine ⟨ρ, ρ0, ρr.trans ((min_le_left _ _).trans (min_le_left _ _)), fun c c0 => ?_⟩
  -- constants of the residual
  set c1 := c + M * (4 + L * L) + M * (1 + L) with hc1
  have c10 : 0 ≤ c1 := by positivity
  obtain ⟨C, δ, C0, δ0, δρ, H⟩ := H c1 c10
  refine ⟨C * (1 + c1), min (δ / (2 * (1 + c1))) (min 1 (ρ / (L + 1))), lt_min (by positivity) (lt_min one_pos (by positivity)), ?_, ?_⟩
  · refine (min_le_left _ _).trans ((div_le_self δ0.le (by linarith)).trans δρ)
  intro tol h step tol0 h0 hδ hstep
  have a1 : (h + tol) * (2 * (1 + c1)) ≤ δ := (le_div_iff₀ (by positivity)).1 (hδ.trans (min_le_left _ _))
  have a2 : h ≤ 1 := le_trans (by linarith) (hδ.trans ((min_le_right _ _).trans (min_le_left _ _)))
  have a3 : h * (L + 1) ≤ ρ := (le_div_iff₀ (by linarith)).1 (le_trans (by linarith) (hδ.trans ((min_le_right _ _).trans (min_le_right _ _))))
  have h2 : h ^ 2 ≤ h := by rw [sq]; nlinarith
  have hh0 : 0 ≤ h ^ 2 := by positivity
  have total : h + 0 + (tol + c1 * h ^ 2) ≤ δ := by nlinarith
  have := H midA midB 0 (tol + c1 * h ^ 2) h step
    (by
      intro i _ j _
      unfold midA
      split_ifs <;> norm_num [abs_le])
    (by
      intro i _
      unfold midB
      split_ifs <;> norm_num [abs_le])
    (order_two (by simp [Finset.sum_range_succ, midB]) (by simp [Finset.sum_range_succ, midA, midB])) (by positivity) h0 total (by
    intro t h' u t0 h'0 h'h hT hu
    have ht : t ∈ Icc 0 T := ⟨t0, by linarith⟩
    have n0 := norm_nonneg (u - y t)
    have st := hstep t h' u t0 h'0 h'h hT (by linarith)
    have ub : ‖u - y t‖ ≤ 2 * ρ := by linarith
    have bf := near.bd' ht ub
    have lf : ‖f u - f (y t)‖ ≤ L * ‖u - y t‖ := near.lip' ht ub (by simp; linarith)
    have h'1 : h' ≤ 1 := by linarith
    have h'sq : h' ^ 2 ≤ h ^ 2 := pow_le_pow_left₀ h'0.le h'h 2
    have halfb : ‖(h' / 2) • f u‖ ≤ h' / 2 * L := by
      rw [norm_smul, Real.norm_of_nonneg (by linarith)]
      exact mul_le_mul_of_nonneg_left bf (by linarith)
    have hhL : h' / 2 * L ≤ ρ / 2 := by
      have := mul_le_mul_of_nonneg_right h'h L0
      linarith
    set P := (u - y t) + (h' / 2) • f u with hP
    have nP : ‖P‖ ≤ ‖u - y t‖ + h' / 2 * L := (norm_add_le _ _).trans (by linarith)
    have e1 := nn.diff t ht P 0 (by linarith) (by simp; linarith)
    rw [add_zero, sub_zero, norm_zero, add_zero, show y t + P = u + (h' / 2) • f u by rw [hP]; abel] at e1
    have e2 : ‖fderiv ℝ f (y t) (P - (h' / 2) • f (y t))‖ ≤ M * ((1 + L) * ‖u - y t‖) := by
      refine (ContinuousLinearMap.le_opNorm _ _).trans (mul_le_mul (nn.d t ht) ?_ (norm_nonneg _) M0.le)
      rw [show P - (h' / 2) • f (y t) = (u - y t) + (h' / 2) • (f u - f (y t)) by rw [hP]; module]
      refine (norm_add_le _ _).trans ?_
      rw [norm_smul, Real.norm_of_nonneg (by linarith)]
      have : h' / 2 * ‖f u - f (y t)‖ ≤ 1 * (L * ‖u - y t‖) := mul_le_mul (by linarith) lf (norm_nonneg _) zero_le_one
      linarith
    have e3 : M * ‖P‖ * ‖P‖ ≤ M * (4 + L * L) * (‖u - y t‖ + h ^ 2) := by
      have q1 : ‖P‖ * ‖P‖ ≤ (‖u - y t‖ + h' / 2 * L) * (‖u - y t‖ + h' / 2 * L) := mul_self_le_mul_self (norm_nonneg _) nP
      have q2 : (‖u - y t‖ + h' / 2 * L) * (‖u - y t‖ + h' / 2 * L) ≤ 2 * (‖u - y t‖ * ‖u - y t‖) + h' ^ 2 * (L * L) := by
        nlinarith [sq_nonneg (‖u - y t‖ - h' / 2 * L), sq_nonneg (h' * L)]
      have q3 : ‖u - y t‖ * ‖u - y t‖ ≤ ‖u - y t‖ := by nlinarith
      have q4 : h' ^ 2 * (L * L) ≤ h ^ 2 * (L * L) := mul_le_mul_of_nonneg_right h'sq (by positivity)
      have q5 : 0 ≤ L * L * ‖u - y t‖ := by positivity
      have q6 : ‖P‖ * ‖P‖ ≤ (4 + L * L) * (‖u - y t‖ + h ^ 2) := by nlinarith
      calc M * ‖P‖ * ‖P‖ = M * (‖P‖ * ‖P‖) := by ring
        _ ≤ M * ((4 + L * L) * (‖u - y t‖ + h ^ 2)) := mul_le_mul_of_nonneg_left q6 M0.le
        _ = _ := by ring
    -- the distance between the midpoint value and the Taylor polynomial
    have e4 : ‖(f (y t) + (h' / 2) • fderiv ℝ f (y t) (f (y t))) - f (u + (h' / 2) • f u)‖ ≤
        M * (4 + L * L) * (‖u - y t‖ + h ^ 2) + M * ((1 + L) * ‖u - y t‖) := by
      have : (f (y t) + (h' / 2) • fderiv ℝ f (y t) (f (y t))) - f (u + (h' / 2) • f u) =
          -(f (u + (h' / 2) • f u) - f (y t) - fderiv ℝ f (y t) P) - fderiv ℝ f (y t) (P - (h' / 2) • f (y t)) := by
        rw [map_sub, map_smul]; abel
      rw [this]
      refine (norm_sub_le _ _).trans ?_
      rw [norm_neg]
      linarith
    have inc1 : incr 2 midA h' (fun i => if i = 0 then f u else h'⁻¹ • (step u h' - u)) 1 = (h' / 2) • f u := by
      simp only [incr, midA, Finset.sum_range_succ, Finset.sum_range_zero, zero_add, if_pos, and_self, one_ne_zero, and_false, if_false, zero_smul,
        add_zero]
      module
    refine ⟨fun i => if i = 0 then f u else h'⁻¹ • (step u h' - u), fun i hi => ?_, fun i hi => ?_, ?_⟩
    · have : i = 0 ∨ i = 1 := by omega
      rcases this with rfl | rfl
      · simp [incr, midA, ρ0.le]
      · rw [inc1]; linarith
    · have : i = 0 ∨ i = 1 := by omega
      rcases this with rfl | rfl
      · simp [incr, midA]; positivity
      · rw [inc1]
        simp only [one_ne_zero, if_false]
        set w := f (y t) + (h' / 2) • fderiv ℝ f (y t) (f (y t)) with hw
        have e5 : ‖h'⁻¹ • (step u h' - u) - w‖ ≤ c * (‖u - y t‖ + h ^ 2) + tol := by
          have : h'⁻¹ • (step u h' - u) - w = h'⁻¹ • (step u h' - (u + h' • w)) := by
            rw [show step u h' - (u + h' • w) = (step u h' - u) - h' • w by abel, smul_sub h'⁻¹ (step u h' - u), smul_smul,
              inv_mul_cancel₀ h'0.ne', one_smul]
          rw [this, norm_smul, norm_inv, Real.norm_of_nonneg h'0.le, inv_mul_le_iff₀ h'0]
          refine st.trans (mul_le_mul_of_nonneg_left ?_ h'0.le)
          have := mul_le_mul_of_nonneg_left h'sq c0
          linarith
        have := norm_add_le (h'⁻¹ • (step u h' - u) - w) (w - f (u + (h' / 2) • f u))
        rw [sub_add_sub_cancel] at this
        have z1 : 0 ≤ M * (1 + L) * h ^ 2 := by positivity
        rw [hc1]
        nlinarith
    · simp only [Finset.sum_range_succ, Finset.sum_range_zero, midB, zero_ne_one, if_false, if_pos, one_ne_zero, zero_smul, one_smul, zero_add]
      rw [smul_smul, mul_inv_cancel₀ h'0.ne', one_smul]; abel)
  intro dt Q hdt hQ0 hQ n hn
  refine (this dt Q hdt hQ0 hQ n hn).trans ?_
  have : 0 ≤ C * c1 * tol := by positivity
  nlinarith

end WxVerif.Props.Convergence
