import Verif.Props.Convergence
import Verif.Props.Schemes

/-!
# C90: convergence of the schemes that treat parts of the equations in different ways, of the solver with step control, and BDF2
-/

namespace WxVerif.Props.Convergence

open Set BSeries SpecConvergence RootedTree WxVerif.Schemes UniformTaylor

universe u

variable {V : Type u} [NormedAddCommGroup V] [NormedSpace ℝ V]

theorem near_of_smooth {g f : V → V} {y : ℝ → V} {T : ℝ} {p : Nat} (hs : SmoothSolution f y T p)
    (hg : ∀ t ∈ Icc 0 T, ContDiffAt ℝ 1 g (y t)) : ∃ ρ L, Near g y T ρ L := by
  have hcont : ContinuousOn y (Icc 0 T) := fun t ht => (hs.solves t ht).continuousWithinAt
  obtain ⟨r, L, r0, L0, hLip, hBd, _, _⟩ := uniform_taylor (isCompact_Icc.image_of_continuousOn hcont) 0 (f := g) (by
    rintro x ⟨t, ht, rfl⟩
    exact_mod_cast hg t ht)
  exact ⟨r / 2, L, by linarith, L0.le, fun t ht P Q hP hQ => hLip _ (mem_image_of_mem y ht) P Q (by linarith) (by linarith),
    fun t ht P hP => hBd _ (mem_image_of_mem y ht) P (by linarith)⟩

theorem near_mono {g : V → V} {y : ℝ → V} {T ρ L ρ' L' : ℝ} (n : Near g y T ρ L) (h0 : 0 < ρ') (h1 : ρ' ≤ ρ) (h2 : L ≤ L') : Near g y T ρ' L' :=
  ⟨h0, n.L0.trans h2, fun t ht P Q hP hQ => (n.lip t ht P Q (by linarith) (by linarith)).trans (mul_le_mul_of_nonneg_right h2 (norm_nonneg _)),
    fun t ht P hP => (n.bd t ht P (by linarith)).trans h2⟩

/-- coefficients of the explicit midpoint rule -/
noncomputable def midA (i j : Nat) : ℝ := if i = 1 ∧ j = 0 then 1 / 2 else 0
noncomputable def midB (i : Nat) : ℝ := if i = 1 then 1 else 0

set_option maxHeartbeats 1000000 in
/-- **C90 (IMEX2).**  The scheme that treats one part of the equations implicitly has order two, up to the tolerance of the solver. -/
theorem C90_imex2 [CompleteSpace V] {fE fI : V → V} {y : ℝ → V} {T : ℝ} (hs : SmoothSolution (fun v => fE v + fI v) y T 2)
    (hE : ∀ t ∈ Icc 0 T, ContDiffAt ℝ 1 fE (y t)) : ConvergesWithSolver (fun newton => imex2 newton fE fI) y T 2 := by
  set f := fun v => fE v + fI v with hf
  obtain ⟨ρE, LE, nearE⟩ := near_of_smooth hs hE
  obtain ⟨ρI, LI, nearI⟩ := near_of_smooth (g := fI) hs (by
    intro t ht
    have h1 : ContDiffAt ℝ 1 f (y t) := (hs.smooth t ht).of_le (by norm_num)
    have : fI = fun v => f v - fE v := by funext v; simp [hf]
    rw [this]
    exact h1.sub (hE t ht))
  obtain ⟨C, δ, ρ, L, C0, δ0, near, δρ, ρr, H⟩ := stage_within (by norm_num) hs 2 1 (lt_min nearE.ρ0 nearI.ρ0)
  set M := L + LE + LI with hM
  have L0 := near.L0
  have LE0 := nearE.L0
  have LI0 := nearI.L0
  have ρ0 := near.ρ0
  have nf : Near f y T ρ M := near_mono near ρ0 le_rfl (by linarith)
  have nE : Near fE y T ρ M := near_mono nearE ρ0 (ρr.trans (min_le_left _ _)) (by linarith)
  have nI : Near fI y T ρ M := near_mono nearI ρ0 (ρr.trans (min_le_right _ _)) (by linarith)
  have M0 : 0 ≤ M := by positivity
  set D := M * (M * M + M + 1) with hD
  have D0 : 0 ≤ D := by positivity
  refine ⟨C * (1 + D), min (min (δ / (3 * (D + 1))) (ρ / (M + 1))) (min 1 (1 / (2 * (M + 1)))), ρ,
    lt_min (lt_min (by positivity) (by positivity)) (lt_min one_pos (by positivity)), ρ0, ?_⟩
  intro h tol h0 hh tol0 htol newton hn
  have a1 : h * (3 * (D + 1)) ≤ δ := (le_div_iff₀ (by linarith)).1 (hh.trans ((min_le_left _ _).trans (min_le_left _ _)))
  have a1' : tol * (3 * (D + 1)) ≤ δ := (le_div_iff₀ (by linarith)).1 (htol.trans ((min_le_left _ _).trans (min_le_left _ _)))
  have a2 : h * (M + 1) ≤ ρ := (le_div_iff₀ (by linarith)).1 (hh.trans ((min_le_left _ _).trans (min_le_right _ _)))
  have a3 : h ≤ 1 := hh.trans ((min_le_right _ _).trans (min_le_left _ _))
  have a4 : h * (2 * (M + 1)) ≤ 1 := (le_div_iff₀ (by linarith)).1 (hh.trans ((min_le_right _ _).trans (min_le_right _ _)))
  have h2 : h ^ 2 ≤ h := by rw [sq]; nlinarith
  have total : h + 0 + D * (h ^ 2 + tol) ≤ δ := by nlinarith
  have := H midA midB 0 (D * (h ^ 2 + tol)) h (imex2 newton fE fI)
    (by
      intro i _ j _
      unfold midA
      split_ifs <;> norm_num [abs_le])
    (by
      intro i _
      unfold midB
      split_ifs <;> norm_num [abs_le])
    (order_two (by simp [Finset.sum_range_succ, midB]) (by simp [Finset.sum_range_succ, midA, midB])) (by positivity) h0 total (by
    intro t h' u t0 h'0 h'h hT hu
    have ht : t ∈ Icc 0 T := ⟨t0, by linarith⟩
    have ub : ‖u - y t‖ ≤ 2 * ρ := by linarith
    have bE := nE.bd' ht ub
    have bf := nf.bd' ht ub
    set w := u + (h' / 2) • fE u with hw
    have h'M : h' * M ≤ h * M := mul_le_mul_of_nonneg_right h'h M0
    have wb : ‖w - u‖ ≤ h' / 2 * M := by
      rw [hw, add_sub_cancel_left, norm_smul, Real.norm_of_nonneg (by linarith)]
      exact mul_le_mul_of_nonneg_left bE (by linarith)
    obtain ⟨z, z1, z2⟩ := implicit_exists nI ht (u := u) (w := w) (by linarith) (c := h' / 2)
      (by rw [abs_of_pos (by linarith)]; linarith) (by rw [abs_of_pos (by linarith)]; linarith)
    obtain ⟨n1, n2⟩ := hn (fun v => v - (h' / 2) • fI v - w) u ⟨z, z1, by
      beta_reduce
      nth_rewrite 1 [z2]
      abel⟩
    beta_reduce at n2
    set Y := newton (fun v => v - (h' / 2) • fI v - w) u with hY
    have mY : ‖Y - y t‖ ≤ 2 * ρ := by
      rw [show Y - y t = (Y - u) + (u - y t) by abel]; exact (norm_add_le _ _).trans (by linarith)
    have bI := nI.bd' ht mY
    set e := Y - (h' / 2) • fI Y - w with he
    have Yu : Y - u = (h' / 2) • (fE u + fI Y) + e := by rw [he, hw]; module
    have dY : ‖Y - u‖ ≤ h * M + tol := by
      rw [Yu]
      refine (norm_add_le _ _).trans ?_
      rw [norm_smul, Real.norm_of_nonneg (by linarith)]
      have := mul_le_mul_of_nonneg_left ((norm_add_le (fE u) (fI Y)).trans (add_le_add bE bI)) (by linarith : 0 ≤ h' / 2)
      linarith
    have diff : Y - (u + (h' / 2) • f u) = (h' / 2) • (fI Y - fI u) + e := by
      rw [he, hw]; simp only [hf]; module
    have lI := nI.lip' ht mY ub
    have ndiff : ‖Y - (u + (h' / 2) • f u)‖ ≤ (M * M + M + 1) * (h ^ 2 + tol) := by
      rw [diff]
      refine (norm_add_le _ _).trans ?_
      rw [norm_smul, Real.norm_of_nonneg (by linarith)]
      have q1 : h' / 2 * ‖fI Y - fI u‖ ≤ h * (M * (h * M + tol)) := by
        refine mul_le_mul (by linarith) (lI.trans (mul_le_mul_of_nonneg_left dY M0)) (norm_nonneg _) h0.le
      have q2 : h * (M * (h * M + tol)) ≤ M * M * h ^ 2 + M * tol := by
        have : h * (M * tol) ≤ M * tol := by
          have : 0 ≤ M * tol := by positivity
          nlinarith
        nlinarith
      have q3 : 0 ≤ M * M * tol := by positivity
      have q4 : 0 ≤ M * h ^ 2 := by positivity
      have q5 : 0 ≤ h ^ 2 := by positivity
      nlinarith
    have mid : ‖u + (h' / 2) • f u - y t‖ ≤ 2 * ρ := by
      rw [show u + (h' / 2) • f u - y t = (u - y t) + (h' / 2) • f u by abel]
      refine (norm_add_le _ _).trans ?_
      rw [norm_smul, Real.norm_of_nonneg (by linarith)]
      have := mul_le_mul_of_nonneg_left bf (by linarith : 0 ≤ h' / 2)
      linarith
    have halfb : ‖(h' / 2) • f u‖ ≤ ρ := by
      rw [norm_smul, Real.norm_of_nonneg (by linarith)]
      have := mul_le_mul_of_nonneg_left bf (by linarith : 0 ≤ h' / 2)
      linarith
    have inc1 : incr 2 midA h' (fun i => if i = 0 then f u else f Y) 1 = (h' / 2) • f u := by
      simp only [incr, midA, Finset.sum_range_succ, Finset.sum_range_zero, zero_add, if_pos, and_self, one_ne_zero, and_false, if_false, zero_smul,
        add_zero]
      module
    refine ⟨fun i => if i = 0 then f u else f Y, fun i hi => ?_, fun i hi => ?_, ?_⟩
    · have : i = 0 ∨ i = 1 := by omega
      rcases this with rfl | rfl
      · simp [incr, midA, ρ0.le]
      · rw [inc1]; exact halfb
    · have : i = 0 ∨ i = 1 := by omega
      rcases this with rfl | rfl
      · simp [incr, midA]; positivity
      · rw [inc1]
        simp only [one_ne_zero, if_false]
        refine (nf.lip' ht mY mid).trans ?_
        rw [hD, mul_assoc]
        exact mul_le_mul_of_nonneg_left ndiff M0
    · simp only [imex2, Finset.sum_range_succ, Finset.sum_range_zero, midB, zero_ne_one, if_false, if_pos, one_ne_zero, zero_smul, one_smul, zero_add]
      rw [← hw, ← hY, add_comm (fI Y)])
  intro dt Q hdt hQ0 hQ n hn
  refine (this dt Q hdt hQ0 hQ n hn).trans ?_
  have : 0 ≤ C * tol := by positivity
  linarith

/-! ## BDF2 -/

/-- **C90 fails for BDF2**: with exact nonlinear solves and any positive number of sub-steps in the start-up, the run of `y' = 1` from zero
    with constant steps is late by at least half a step after every step, so it does not converge with order two. -/
theorem C90_bdf2_fails (newton : Newton ℝ) (hn : ExactNewton newton) (m : Nat) (m0 : 0 < m) :
    (∀ (h : ℝ) (q : Nat → Option ℝ × ℝ), 0 < h → q 0 = (none, 0) →
      (∀ k, q (k + 1) = bdf2 newton (fun _ => (1 : ℝ)) m (q k).1 (q k).2 h) → ∀ k ≥ 1, (q k).2 ≤ k * h - h / 2) ∧
    ¬ ∃ C h0 : ℝ, 0 < h0 ∧ ∀ h, 0 < h → h ≤ h0 → ∀ q : Nat → Option ℝ × ℝ, q 0 = (none, 0) →
      (∀ k, q (k + 1) = bdf2 newton (fun _ => (1 : ℝ)) m (q k).1 (q k).2 h) → ∀ k : Nat, k * h ≤ 1 → |(q k).2 - k * h| ≤ C * h ^ 2 := by
  have late : ∀ (h : ℝ) (q : Nat → Option ℝ × ℝ), 0 < h → q 0 = (none, 0) →
      (∀ k, q (k + 1) = bdf2 newton (fun _ => (1 : ℝ)) m (q k).1 (q k).2 h) → ∀ k ≥ 1, (q k).2 ≤ k * h - h / 2 := by
    intro h q h0 hq0 hq
    have key : ∀ k, ∃ a, (q (k + 1)).1 = some a ∧ (q (k + 1)).2 ≤ ((k + 1 : Nat) : ℝ) * h - h / 2 ∧ (q (k + 1)).2 ≤ a + h := by
      intro k
      induction k with
      | zero =>
        have h1 := (Schemes.C30_bdf2_start_fails newton hn m m0 (1 : ℝ) (0 : ℝ) h h0.ne' one_ne_zero).1
        refine ⟨0, by rw [hq, hq0]; rfl, ?_, ?_⟩
        · rw [hq, hq0, h1]; simp; linarith
        · rw [hq, hq0, h1]; simp; linarith
      | succ k ih =>
        obtain ⟨a, a1, a2, a3⟩ := ih
        set Q := (q (k + 1)).2 with hQ
        have hex : ∃ x : ℝ, x = (4 / 3 : ℝ) • Q - (1 / 3 : ℝ) • a + (2 / 3 * h) • (1 : ℝ) := ⟨_, rfl⟩
        obtain ⟨e1, e2⟩ := Schemes.C30_bdf2 newton hn (fun _ => (1 : ℝ)) m a Q h h0.ne' hex
        have e : q (k + 1 + 1) = bdf2 newton (fun _ => (1 : ℝ)) m (some a) Q h := by rw [hq, a1]
        refine ⟨Q, by rw [e, e1], ?_, ?_⟩
        · rw [e, e2]
          simp only [smul_eq_mul, mul_one]
          push_cast at a2 ⊢
          linarith
        · rw [e, e2]
          simp only [smul_eq_mul, mul_one]
          linarith
    intro k hk
    obtain ⟨j, rfl⟩ : ∃ j, k = j + 1 := ⟨k - 1, by omega⟩
    exact (key j).choose_spec.2.1
  refine ⟨late, ?_⟩
  rintro ⟨C, h0, h00, H⟩
  set h := min (min h0 1) (1 / (4 * (|C| + 1))) with hh
  have hpos : 0 < h := lt_min (lt_min h00 one_pos) (by positivity)
  have h1 : h ≤ h0 := (min_le_left _ _).trans (min_le_left _ _)
  have h2 : h ≤ 1 := (min_le_left _ _).trans (min_le_right _ _)
  have h3 : h * (4 * (|C| + 1)) ≤ 1 := (le_div_iff₀ (by positivity)).1 (min_le_right _ _)
  let q : Nat → Option ℝ × ℝ := fun k => Nat.rec (none, 0) (fun _ s => bdf2 newton (fun _ => (1 : ℝ)) m s.1 s.2 h) k
  have a := late h q hpos rfl (fun _ => rfl) 1 le_rfl
  have b := H h hpos h1 q rfl (fun _ => rfl) 1 (by simpa using h2)
  have c := (abs_le.1 b).1
  have := le_abs_self C
  have := abs_nonneg C
  simp only [Nat.cast_one, one_mul] at a c
  nlinarith

end WxVerif.Props.Convergence
