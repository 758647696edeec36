import Verif.Props.Accuracy
import Verif.Props.ConvergenceRosexp

/-!
# C93: runs with the splitting schemes, the implicit–explicit scheme and the Rosenbrock schemes
-/

namespace WxVerif.Props.Accuracy

open Set WxVerif.Sim Schedule SpecAccuracy SpecConvergence Multistep

universe u

variable {V : Type u} [NormedAddCommGroup V] [NormedSpace ℝ V]

/-- **C93** Runs with the splitting schemes over explicit steps, and with the implicit–explicit scheme, of an equation whose right-hand side is the sum of
two: Lie splitting of explicit Euler steps is accurate to first order, Strang splitting of steps of the third-order scheme to second order, and the
implicit–explicit scheme to second order up to the tolerance of its nonlinear solver. -/
theorem C93_split [CompleteSpace V] {P : Nat} {f1 f2 : (Fin P → V) → Fin P → V} {y : ℝ → Fin P → V} {tEnd : ℝ} (hT : 0 ≤ tEnd)
    (hs : SmoothSolution (fun v => f1 v + f2 v) y tEnd 2) (hf1 : ∀ t ∈ Icc 0 tEnd, ContDiffAt ℝ 2 f1 (y t)) :
    AccurateRuns (Schemes.lie (Schemes.euler1 f1) (Schemes.euler1 f2)) y tEnd 1 ∧
    AccurateRuns (Schemes.strang (Schemes.tvdrk3 f1) (Schemes.tvdrk3 f2)) y tEnd 2 ∧
    AccurateRunsWithSolver (fun newton => Schemes.imex2 newton f1 f2) y tEnd 2 := by
  obtain ⟨a, b⟩ := Convergence.C90_splitting_code hs hf1
  exact ⟨C93_one_step hT a, C93_one_step hT b,
    C93_with_solver hT (Convergence.C90_imex2 hs fun t ht => (hf1 t ht).of_le (by exact_mod_cast (by norm_num : 1 ≤ 2)))⟩

/-- all steps of the run, also the last one, which may be shortened, are at least `hmin` -/
def StepsAtLeast (tEnd dt hmin : ℝ) : Prop := hmin ≤ dt ∧ ∀ k : Nat, k * dt < tEnd → hmin ≤ tEnd - k * dt

theorem one_step_above {I : Type} {env : Env ℝ I V} {P : Nat} (hu : Undisturbed env P) {step : (Fin P → V) → ℝ → Fin P → V} (ho : OneStep env P step)
    {y : ℝ → Fin P → V} {tEnd dt hmin : ℝ} (hm : 0 < hmin) (hst : StepsAtLeast tEnd dt hmin) (hT : 0 ≤ tEnd) (i0 : I) {initialQ : Nat → V}
    (hi : whole P initialQ = y 0) (freqs : Freqs) {B : ℝ}
    (hB : ∀ (dts : Nat → ℝ) (Q : Nat → Fin P → V), (∀ n, hmin ≤ dts n ∧ dts n ≤ dt) → Q 0 = y 0 → (∀ n, Q (n + 1) = step (Q n) (dts n)) →
      ∀ n, time dts n ≤ tEnd → ‖Q n - y (time dts n)‖ ≤ B) : RunWithin env P i0 y tEnd dt initialQ freqs B := by
  have hdt : 0 < dt := lt_of_lt_of_le hm hst.1
  refine within hu hdt hT fun N σ hlt hge s0 hσ => ?_
  let q : Nat → Fin P → V := fun n => Nat.rec (y 0) (fun n v => step v (sizes tEnd dt n)) n
  have eq : ∀ n ≤ N, whole P (σ n).2 = q n := by
    intro n
    induction n with
    | zero => intro _; rw [s0]; exact hi
    | succ n ih =>
      intro hn
      rw [hσ n (by omega)]
      change whole P (env.integ (σ n).1 (σ n).2 (sizes tEnd dt n)).2.1 = step (q n) (sizes tEnd dt n)
      rw [ho, ih (by omega)]
  intro n hn
  rw [eq n hn]
  refine hB (sizes tEnd dt) q (fun k => ⟨?_, (sizes_pos hdt k).2⟩) rfl (fun _ => rfl) n ?_
  · rcases sizes_cases (tEnd := tEnd) (dt := dt) k with e | ⟨h1, -, e⟩ <;> rw [e]
    · exact hst.1
    · exact hst.2 k h1
  · rw [time_sizes hT hlt n hn]
    exact min_le_right _ _

/-- **C93** Runs with the Rosenbrock scheme are accurate to second order, up to the increment `eps` of the finite differences and the relative tolerance of
the linear solver divided by the smallest step. -/
theorem C93_ros2 [CompleteSpace V] {P : Nat} {f : (Fin P → V) → Fin P → V} {y : ℝ → Fin P → V} {tEnd : ℝ} (hT : 0 ≤ tEnd) (hs : SmoothSolution f y tEnd 2) :
    ∃ C δ ρ : ℝ, 0 < δ ∧ 0 < ρ ∧ ∀ dt hmin eps tol : ℝ, 0 < hmin → StepsAtLeast tEnd dt hmin → dt ≤ δ → 0 < eps → eps ≤ δ → 0 ≤ tol → tol ≤ δ * hmin →
      ∀ linear, RelativeSolver ρ tol linear → ∀ (I : Type) (env : Env ℝ I V) (i0 : I) (initialQ : Nat → V) (freqs : Freqs), Undisturbed env P →
        OneStep env P (Schemes.ros2 linear eps f) → whole P initialQ = y 0 → RunWithin env P i0 y tEnd dt initialQ freqs (C * (dt ^ 2 + eps + tol / hmin)) := by
  obtain ⟨C, δ, ρ, δ0, ρ0, H⟩ := Convergence.C90_ros2 hs
  exact ⟨C, δ, ρ, δ0, ρ0, fun dt hmin eps tol hm hst hd e0 e1 t0 t1 linear hl I env i0 initialQ freqs hu ho hi =>
    one_step_above hu ho hm hst hT i0 hi freqs (H dt hmin eps tol hm hst.1 hd e0 e1 t0 t1 linear hl)⟩

/-- **C93** The same for the Rosenbrock–exponential scheme, with the implicit part `fI` and an exponential solver of the same tolerance. -/
theorem C93_rosexp2 [CompleteSpace V] {P : Nat} {f fI : (Fin P → V) → Fin P → V} {y : ℝ → Fin P → V} {tEnd : ℝ} (hT : 0 ≤ tEnd) (hs : SmoothSolution f y tEnd 2)
    (hI : ∀ t ∈ Icc 0 tEnd, ContDiffAt ℝ 2 fI (y t)) :
    ∃ C δ ρ : ℝ, 0 < δ ∧ 0 < ρ ∧ ∀ dt hmin eps tol : ℝ, 0 < hmin → StepsAtLeast tEnd dt hmin → dt ≤ δ → 0 < eps → eps ≤ δ → 0 ≤ tol → tol ≤ δ * hmin →
      ∀ linear, RelativeSolver ρ tol linear → ∀ jF jI solver, SpecExponentialSolver.ExponentialSolver f fI y tEnd ρ tol jF jI solver →
      ∀ (I : Type) (env : Env ℝ I V) (i0 : I) (initialQ : Nat → V) (freqs : Freqs), Undisturbed env P → OneStep env P (Schemes.rosexp2 linear solver eps f fI jF jI) →
        whole P initialQ = y 0 → RunWithin env P i0 y tEnd dt initialQ freqs (C * (dt ^ 2 + eps + tol / hmin)) := by
  obtain ⟨C, δ, ρ, δ0, ρ0, H⟩ := Convergence.C90_rosexp2 hs hI
  exact ⟨C, δ, ρ, δ0, ρ0, fun dt hmin eps tol hm hst hd e0 e1 t0 t1 linear hl jF jI solver hp I env i0 initialQ freqs hu ho hi =>
    one_step_above hu ho hm hst hT i0 hi freqs (H dt hmin eps tol hm hst.1 hd e0 e1 t0 t1 linear hl jF jI solver hp)⟩

/-- **C93** The same for the partitioned Rosenbrock–exponential scheme; `eps` is the accuracy of the products with the Jacobian of the implicit part. -/
theorem C93_partrosexp2 [CompleteSpace V] {P : Nat} {f fI : (Fin P → V) → Fin P → V} {y : ℝ → Fin P → V} {tEnd : ℝ} (hT : 0 ≤ tEnd) (hs : SmoothSolution f y tEnd 2)
    (hI : ∀ t ∈ Icc 0 tEnd, ContDiffAt ℝ 2 fI (y t)) {near : ℝ} (hn : 0 < near) :
    ∃ C δ ρ R : ℝ, 0 < δ ∧ 0 < ρ ∧ ρ ≤ near ∧ 0 < R ∧ ∀ dt hmin eps tol : ℝ, 0 < hmin → StepsAtLeast tEnd dt hmin → dt ≤ δ → 0 ≤ eps → eps ≤ δ → 0 ≤ tol → tol ≤ δ * hmin →
      ∀ linear, RelativeSolver ρ tol linear → ∀ jF jI, SpecExponentialSolver.AccurateProducts fI y tEnd ρ R eps jI →
      ∀ solver, SpecExponentialSolver.ExponentialSolver f fI y tEnd ρ tol jF jI solver →
      ∀ (I : Type) (env : Env ℝ I V) (i0 : I) (initialQ : Nat → V) (freqs : Freqs), Undisturbed env P → OneStep env P (Schemes.partrosexp2 linear solver f fI jF jI) →
        whole P initialQ = y 0 → RunWithin env P i0 y tEnd dt initialQ freqs (C * (dt ^ 2 + eps + tol / hmin)) := by
  obtain ⟨C, δ, ρ, R, δ0, ρ0, ρn, R0, H⟩ := Convergence.C90_partrosexp2 hs hI hn
  exact ⟨C, δ, ρ, R, δ0, ρ0, ρn, R0, fun dt hmin eps tol hm hst hd e0 e1 t0 t1 linear hl jF jI hj solver hp I env i0 initialQ freqs hu ho hi =>
    one_step_above hu ho hm hst hT i0 hi freqs (H dt hmin eps tol hm hst.1 hd e0 e1 t0 t1 linear hl jF jI hj solver hp)⟩

/-- Six processes with `y' = y²`, split into `y² + y` and `-y`, and a step that does not divide the end time: the hypotheses are met. -/
example : SmoothSolution (fun (Q : Fin 6 → ℝ) => (fun r => Q r * Q r + Q r) + fun r => -Q r) (fun t _ => 1 / (2 - t)) 1 2 ∧
    (∀ t ∈ Icc (0 : ℝ) 1, ContDiffAt ℝ 2 (fun (Q : Fin 6 → ℝ) r => Q r * Q r + Q r) (fun _ => 1 / (2 - t))) ∧ StepsAtLeast 1 (3 / 10) (1 / 10) := by
  refine ⟨⟨fun t ht => ?_, fun t _ => ?_⟩, fun t _ => ?_, by norm_num, fun k hk => ?_⟩
  · refine hasDerivWithinAt_pi.2 fun r => ?_
    simpa using (Convergence.square_solution 3).solves t ht
  · exact ((contDiff_pi.2 fun r => ((contDiff_apply ℝ ℝ r).mul (contDiff_apply ℝ ℝ r)).add (contDiff_apply ℝ ℝ r)).add
      (contDiff_pi.2 fun r => (contDiff_apply ℝ ℝ r).neg)).contDiffAt
  · exact (contDiff_pi.2 fun r => ((contDiff_apply ℝ ℝ r).mul (contDiff_apply ℝ ℝ r)).add (contDiff_apply ℝ ℝ r)).contDiffAt
  · have a' : k < 4 := by
      by_contra hc
      have : (4 : ℝ) ≤ k := by exact_mod_cast not_lt.1 hc
      linarith
    have : (k : ℝ) ≤ 3 := by exact_mod_cast (by omega : k ≤ 3)
    linarith

/-- there are simulations that advance by these schemes -/
example (step : (Fin 6 → ℝ) → ℝ → Fin 6 → ℝ) : Undisturbed (plain (V := ℝ) 6 step) 6 ∧ OneStep (plain (V := ℝ) 6 step) 6 step := by
  refine ⟨⟨rfl, fun _ _ _ _ _ => rfl, fun _ => rfl, fun _ _ => rfl, fun _ _ => rfl, fun _ => rfl⟩, fun i Q dt => ?_⟩
  funext r; simp [whole, plain]

end WxVerif.Props.Accuracy
