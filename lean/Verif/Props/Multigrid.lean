/-
C50: smoothers and multigrid keep exact solutions and never worsen when guarded.
-/
import Verif.Model.Multigrid
import Verif.Spec.Multigrid
import Verif.Props.Krylov
import Verif.Props.Gmres

namespace WxVerif.Props.Multigrid

open WxVerif.Multigrid WxVerif.Krylov WxVerif.Spec.Iteration

/-! ## The smoothers -/

section pointwise
variable {ι : Type*}

/-- **C50** The Euler smoother keeps an exact solution, for every operator and every array of pseudo time steps. -/
theorem C50_rk1_exact (h : ι → ℝ) (A : (ι → ℝ) → ι → ℝ) : KeepsExact A (rk1 h A) := by
  intro b x hx
  simp [rk1, hx]

/-- **C50** It takes a missing guess for zero. -/
theorem C50_rk1_missing (h : ι → ℝ) (A : (ι → ℝ) → ι → ℝ) (hA : A 0 = 0) : MissingIsZero (rk1 h A) := by
  intro b
  simp [rk1, hA]

/-- **C50** It adds to the guess `h` times the residual. -/
theorem C50_rk1_correction (h : ι → ℝ) (A : (ι → ℝ) → ι → ℝ) (hA : A 0 = 0) : Correction A (rk1 h A) :=
  ⟨fun r => some (h * r), fun b x => by cases x <;> simp [rk1, value, hA]⟩

/-- **C50** The three-stage smoother keeps an exact solution. -/
theorem C50_rk3_exact (h : ι → ℝ) (A : (ι → ℝ) → ι → ℝ) : KeepsExact A (rk3 h A) := by
  intro b x hx
  simp [rk3, hx]

/-- **C50** It takes a missing guess for zero. -/
theorem C50_rk3_missing (h : ι → ℝ) (A : (ι → ℝ) → ι → ℝ) (hA : A 0 = 0) : MissingIsZero (rk3 h A) := by
  intro b
  simp [rk3, hA]

/-- **C50** For an additive operator its correction depends on the residual only. -/
theorem C50_rk3_correction (h : ι → ℝ) (A : (ι → ℝ) →+ (ι → ℝ)) : Correction A (rk3 h A) := by
  refine ⟨fun r => some (h * (r - A ((0.395 : ℝ) • (h * (r - A ((0.145 : ℝ) • (h * r))))))), fun b x => ?_⟩
  cases x with
  | none => simp [rk3, value]
  | some x =>
    simp only [rk3, value, Option.map_some, Option.getD_some, map_add]
    simp only [← sub_sub]

/-- the parts of the operator of the additive smoother add up to the operator of the linear system `x - dt/2 J x` -/
theorem ark_parts (Jf Jc : (ι → ℝ) → ι → ℝ) (dt : ℝ) (x : ι → ℝ) : aConv Jc dt x + aVisc Jf Jc dt x = x - (dt / 2) • Jf x := by
  unfold aConv aVisc
  rw [smul_sub, neg_div, neg_smul]
  abel

/-- **C50** The additive three-stage smoother keeps an exact solution of the system whose operator is the sum of its parts. -/
theorem C50_ark3_exact (h : ι → ℝ) (Jf Jc A : (ι → ℝ) → ι → ℝ) (dt : ℝ) :
    KeepsExact (fun x => x - (dt / 2) • Jf x) (ark3 h (aConv Jc dt) (aVisc Jf Jc dt) A) := by
  intro b x hx
  beta_reduce at hx
  rw [← ark_parts Jf Jc dt x] at hx
  have h0 : b - aConv Jc dt x + -aVisc Jf Jc dt x = 0 := by rw [← hx]; abel
  have h1 : (1 / 2 : ℝ) • -aVisc Jf Jc dt x + (1 - 1 / 2 : ℝ) • -aVisc Jf Jc dt x = -aVisc Jf Jc dt x := by
    rw [← add_smul]; norm_num
  simp only [ark3, h0, h1, mul_zero, smul_zero, add_zero]

/-- **C50** It takes a missing guess for zero. -/
theorem C50_ark3_missing (h : ι → ℝ) (Ac Av A : (ι → ℝ) → ι → ℝ) (hc : Ac 0 = 0) (hv : Av 0 = 0) : MissingIsZero (ark3 h Ac Av A) := by
  intro b
  simp [ark3, hc, hv]

/-- **C50** For additive parts its correction depends on the residual only. -/
theorem C50_ark3_correction (h : ι → ℝ) (Ac Av : (ι → ℝ) →+ (ι → ℝ)) (A : (ι → ℝ) → ι → ℝ) :
    Correction (fun x => Ac x + Av x) (ark3 h Ac Av A) := by
  refine ⟨fun r => ((ark3 h Ac Av A r none).map value), fun b x => ?_⟩
  cases x with
  | none => simp [ark3, value]
  | some x =>
    have half : ∀ z : ι → ℝ, (1 / 2 : ℝ) • z + (1 - 1 / 2 : ℝ) • z = z := by intro z; rw [← add_smul]; norm_num
    have k0 : b - Ac x + -Av x = b - (Ac x + Av x) := by abel
    have k1 : ∀ u : ι → ℝ, b - Ac (x + u) + ((1 / 2 : ℝ) • -Av (x + u) + (1 - 1 / 2 : ℝ) • -Av x) =
        b - (Ac x + Av x) - Ac u + (1 / 2 : ℝ) • -Av u := by
      intro u
      have := half (-Av x)
      rw [map_add, map_add, neg_add, smul_add]
      linear_combination (exp := 1) this
    have k2 : ∀ u w : ι → ℝ, b - Ac (x + w) + ((1 / 2 : ℝ) • -Av (x + w) + (1 - 1 / 2 : ℝ) • ((1 / 2 : ℝ) • -Av (x + u) + (1 - 1 / 2 : ℝ) • -Av x)) =
        b - (Ac x + Av x) - Ac w + ((1 / 2 : ℝ) • -Av w + (1 - 1 / 2 : ℝ) • ((1 / 2 : ℝ) • -Av u)) := by
      intro u w
      have := half (-Av x)
      have h2 : (1 / 2 : ℝ) • -Av (x + u) + (1 - 1 / 2 : ℝ) • -Av x = (1 / 2 : ℝ) • -Av u + -Av x := by
        rw [map_add, neg_add, smul_add]
        linear_combination (exp := 1) this
      rw [h2, map_add, map_add, neg_add, smul_add, smul_add]
      linear_combination (exp := 1) this
    simp only [ark3, value, Option.map_some, Option.getD_some]
    rw [k2, k1, k0]

end pointwise

section exponential
variable {W : Type*} [NormedAddCommGroup W] [InnerProductSpace ℝ W]

/-- **C50** The smoother that calls `kiops` keeps an exact solution, if `kiops` maps the zero vector to zero (see
`C50_kiops_zero`). -/
theorem C50_kiops_exact (kiops : (W → W) → W → Option W) (hk : ∀ J, kiops J 0 = some 0) (realDt dtFactor : ℝ) (A : W → W) :
    KeepsExact A (kiopsSmoother kiops realDt dtFactor A) := by
  intro b x hx
  simp [kiopsSmoother, hx, hk]

/-- **C50** It takes a missing guess for zero. -/
theorem C50_kiops_missing (kiops : (W → W) → W → Option W) (realDt dtFactor : ℝ) (A : W → W) (hA : A 0 = 0) :
    MissingIsZero (kiopsSmoother kiops realDt dtFactor A) := by
  intro b
  simp only [kiopsSmoother, hA, sub_zero, add_zero]

/-- **C50** Its correction depends on the residual only. -/
theorem C50_kiops_correction (kiops : (W → W) → W → Option W) (realDt dtFactor : ℝ) (A : W → W) (hA : A 0 = 0) :
    Correction A (kiopsSmoother kiops realDt dtFactor A) := by
  refine ⟨fun r => (kiops (fun v => (dtFactor * realDt / realDt) • (-A v)) (realDt⁻¹ • r)).map fun p => (dtFactor * realDt) • p,
    fun b x => ?_⟩
  cases x with
  | none =>
    simp only [kiopsSmoother, value, Option.map_map, Option.getD_none, hA, sub_zero]
    congr 1
    funext p
    simp [value]
  | some x =>
    simp only [kiopsSmoother, value, Option.map_map, Option.getD_some]
    congr 1
    funext p
    simp [value, add_comm]

/-- **C50** `kiops` does map the zero vector to zero: for a zero forcing vector (and the scaling factors 1) the first sub-step finds an
invariant space of size one and its update is zero. -/
theorem C50_kiops_zero (J : W → W) (hJ : J 0 = 0) (iop : Nat) (tol : ℝ) (htol : 0 < tol) (m : Nat) (hm : 1 ≤ m) (tau : ℝ) :
    let T : WithLp 2 (W × ℝ) → WithLp 2 (W × ℝ) := fun v => WithLp.toLp 2 (J v.fst + v.snd • (0 : W), 0)
    let v : WithLp 2 (W × ℝ) := WithLp.toLp 2 (0, 1)
    let s := kiopsRun T iop tol m v fresh
    s.happy = true ∧ s.j = 1 ∧ (kiopsUpdate tau v s).fst = 0 := by
  intro T v s
  have hT : ∀ c : ℝ, T (WithLp.toLp 2 (0, c)) = 0 := by intro c; simp only [T]; simp [hJ]
  have hv0 : ‖v‖⁻¹ • v = WithLp.toLp 2 ((0 : W), ‖v‖⁻¹) := by
    simp only [v]; rw [← WithLp.toLp_smul]; simp
  have hV : (begin false v (fresh : Mem (WithLp 2 (W × ℝ)))).V 0 = ‖v‖⁻¹ • v := by simp [begin, setV]
  have step : (kiopsStep T iop tol (begin false v fresh)).happy = true ∧ (kiopsStep T iop tol (begin false v fresh)).j = 1 ∧
      (kiopsStep T iop tol (begin false v fresh)).V 0 = ‖v‖⁻¹ • v := by
    have h0 : T ((begin false v (fresh : Mem (WithLp 2 (W × ℝ)))).V 0) = 0 := by rw [hV, hv0, hT]
    have hj : (begin false v (fresh : Mem (WithLp 2 (W × ℝ)))).j = 0 := rfl
    unfold kiopsStep
    simp only [hj, h0, inner_zero_right]
    have z : ∑ i ∈ Finset.Ico (0 + 1 - iop) (0 + 1), (if True ∧ 0 + 1 - iop ≤ i ∧ i < 0 + 1 then (0 : ℝ) else
        (begin false v (fresh : Mem (WithLp 2 (W × ℝ)))).H i 0) • (begin false v (fresh : Mem (WithLp 2 (W × ℝ)))).V i = 0 := by
      refine Finset.sum_eq_zero fun i hi => ?_
      rw [Finset.mem_Ico] at hi
      rw [if_pos ⟨trivial, hi.1, hi.2⟩, zero_smul]
    rw [z, sub_zero, norm_zero, if_pos htol]
    exact ⟨rfl, rfl, by rw [← hV]; rfl⟩
  have hs : s = kiopsStep T iop tol (begin false v fresh) := by
    obtain ⟨k, rfl⟩ : ∃ k, m = k + 1 := ⟨m - 1, by omega⟩
    simp only [s, kiopsRun]
    rw [krylovLoop, if_pos ⟨by simp [begin], rfl⟩]
    cases k with
    | zero => rw [krylovLoop]
    | succ k =>
      rw [krylovLoop, if_neg]
      rw [step.1]
      simp
  rw [← hs] at step
  refine ⟨step.1, step.2.1, ?_⟩
  unfold kiopsUpdate
  simp only
  have : ∀ k : Fin s.j, (NormedSpace.exp (tau • expArg s) k.castSucc 0 • s.V k).fst = 0 := by
    intro k
    have hk : (k : Nat) = 0 := by have := k.2; omega
    rw [hk, step.2.2, hv0]
    simp
  rw [WithLp.smul_fst]
  have e : (∑ k : Fin s.j, NormedSpace.exp (tau • expArg s) k.castSucc 0 • s.V k).fst =
      ∑ k : Fin s.j, (NormedSpace.exp (tau • expArg s) k.castSucc 0 • s.V k).fst := map_sum (WithLp.fstL 2 ℝ W ℝ) _ _
  rw [e, Finset.sum_eq_zero fun k _ => this k, smul_zero]

/-! ### The exponential smoother -/

/-- **C50** The guarded exponential smoother never returns a larger residual than it was given, whatever the Krylov process and the
exponential produced. -/
theorem C50_exp_guard (norm1 : W → ℝ) (niter : Nat) (target globalDt : ℝ) (A : W → W) (hA : A 0 = 0) (b : W) (x0 y : Option W)
    (h : expSmoother norm1 niter target globalDt A b x0 = some y) :
    ‖b - A (value y)‖ ≤ ‖b - A (value x0)‖ := by
  have hr : residualOf A b x0 = b - A (value x0) := by cases x0 <;> simp [residualOf, value, hA]
  unfold expSmoother at h
  simp only [Option.map_eq_some_iff] at h
  obtain ⟨d, -, h⟩ := h
  split_ifs at h with h2
  · subst h
    exact le_refl _
  · subst h
    rw [← hr]
    exact not_lt.1 h2

/-- **C50** It takes a missing guess for zero. -/
theorem C50_exp_missing (norm1 : W → ℝ) (niter : Nat) (target globalDt : ℝ) (A : W → W) (hA : A 0 = 0) :
    MissingIsZero (expSmoother norm1 niter target globalDt A) := by
  intro b
  simp only [expSmoother, residualOf, hA, sub_zero, Option.map_map]
  congr 1
  funext d
  simp [value]

/-- **C50** For an additive operator its correction depends on the residual only. -/
theorem C50_exp_correction (norm1 : W → ℝ) (niter : Nat) (target globalDt : ℝ) (A : W →+ W) :
    Correction A (expSmoother norm1 niter target globalDt A) := by
  refine ⟨fun r => (expSmoother norm1 niter target globalDt A r none).map value, fun b x => ?_⟩
  cases x with
  | none =>
    simp only [value, Option.getD_none, map_zero, sub_zero, zero_add, Option.map_map]
    rfl
  | some x =>
    simp only [expSmoother, residualOf, value, Option.getD_some, Option.getD_none, Option.map_map]
    congr 1
    funext d
    simp only [Function.comp]
    rw [map_add, add_comm (A d), ← sub_sub]
    by_cases hc : ‖b - A x - A d‖ > ‖b - A x‖
    · simp [value, if_pos hc, gt_iff_lt.1 hc]
    · simp [value, if_neg hc, not_lt.1 hc, add_comm]

/-- **C50** The scaling of the exponential smoother is undone: for a residual of norm `x` the factor of the residual and the start of the extra component are
inverse to each other, and the scaled residual has a norm between one half and one.  So the vectors from which the smoother builds its subspace are the
residual over the time step, whatever its size, and what repeated application of minus the operator over the time step makes of it: the derivatives of
the solution of `x' = (b - A x) / dt` at the guess. -/
theorem C50_exp_scale (x : ℝ) (A : W → W) (hA : A 0 = 0) (globalDt : ℝ) (u : W) :
    (expScale x).1 * (expScale x).2 = 1 ∧ (0 < x → 1 / 2 < (expScale x).1 * x ∧ (expScale x).1 * x ≤ 1) ∧
    ∀ k, (expMul A globalDt ((expScale x).1 • u))^[k + 1] (WithLp.toLp 2 (0, (expScale x).2)) =
      WithLp.toLp 2 ((fun w => -(globalDt⁻¹ • A w))^[k] u, 0) := by
  have h1 : (expScale x).1 * (expScale x).2 = 1 := by
    unfold expScale
    split_ifs
    · dsimp only
      rw [zpow_neg]
      exact inv_mul_cancel₀ (by positivity)
    · norm_num
  refine ⟨h1, fun hx => ?_, ?_⟩
  · unfold expScale
    rw [if_pos hx]
    dsimp only
    set ex := ⌈Real.logb 2 x⌉ with hex
    have p : (0 : ℝ) < 2 ^ ex := by positivity
    have hle : x ≤ 2 ^ ex := by
      have := (Real.logb_le_iff_le_rpow (by norm_num : (1 : ℝ) < 2) hx).1 (Int.le_ceil (Real.logb 2 x))
      rwa [Real.rpow_intCast] at this
    have hlt : 2 ^ ex / 2 < x := by
      have h := (Real.lt_logb_iff_rpow_lt (by norm_num : (1 : ℝ) < 2) hx).1 (show ((ex - 1 : ℤ) : ℝ) < Real.logb 2 x by
        have := Int.ceil_lt_add_one (Real.logb 2 x)
        push_cast
        linarith)
      rw [Real.rpow_intCast, zpow_sub_one₀ (by norm_num : (2 : ℝ) ≠ 0)] at h
      rwa [div_eq_mul_inv]
    rw [zpow_neg, inv_mul_eq_div]
    constructor
    · rw [lt_div_iff₀ p]; linarith
    · rw [div_le_one p]; exact hle
  · intro k
    induction k with
    | zero =>
      simp only [zero_add, Function.iterate_one, Function.iterate_zero, id_eq]
      unfold expMul
      simp only [WithLp.toLp_fst, WithLp.toLp_snd, hA, neg_zero, smul_zero, zero_add]
      rw [smul_smul, mul_comm, h1, one_smul]
    | succ k ih =>
      rw [Function.iterate_succ_apply', ih, Function.iterate_succ_apply' _ k]
      unfold expMul
      simp only [WithLp.toLp_fst, WithLp.toLp_snd, zero_smul, add_zero, smul_neg]

/-- **C50** The step in pseudo-time of the exponential smoother, times the largest eigenvalue of the projected operator, is the target that was configured,
and the correction is that step times the update of the projected problem over it. -/
theorem C50_exp_pseudo_time (norm1 : W → ℝ) (niter : Nat) (target globalDt : ℝ) (A : W → W) (r w : W)
    (h : expIncrement norm1 niter target globalDt A r = some w) :
    ∃ dt, dt * maxEig (n := (expRun norm1 niter globalDt A r).2.j + 1) (fun a b => (expRun norm1 niter globalDt A r).2.H a b) = target ∧
      w = dt • (kiopsUpdate dt (expRun norm1 niter globalDt A r).1 (expRun norm1 niter globalDt A r).2).fst := by
  unfold expIncrement at h
  dsimp only at h
  split_ifs at h with hρ
  refine ⟨_, div_mul_cancel₀ _ hρ, (Option.some.inj h).symm⟩

/-- the largest eigenvalue of the zero matrix is zero -/
theorem maxEig_zero (n : Nat) : maxEig (0 : Matrix (Fin n) (Fin n) ℝ) = 0 := by
  unfold maxEig
  rw [Matrix.map_zero _ (map_zero _), Matrix.charpoly_zero, Polynomial.roots_X_pow, Multiset.map_nsmul, Multiset.map_singleton,
    nnnorm_zero]
  have : ((Fintype.card (Fin n)) • ({0} : Multiset NNReal)).sup = 0 := by
    apply le_antisymm _ zero_le
    refine Multiset.sup_le.2 fun b hb => ?_
    have := Multiset.mem_of_mem_nsmul hb
    simp at this
    exact this.le
  rw [this]; rfl

/-- **C50 is violated** by the exponential smoother: given an exact solution (or no guess and a zero right-hand side) the projected matrix
is zero, the step size is a division by its spectral radius, and the result is not a number. -/
theorem C50_exp_exact_fails (norm1 : W → ℝ) (h1 : norm1 0 = 0) (niter : Nat) (target globalDt : ℝ) (A : W → W) (hA : A 0 = 0) (b : W)
    (x0 : Option W) (hx : A (value x0) = b) : expSmoother norm1 niter target globalDt A b x0 = none := by
  have hr : residualOf A b x0 = 0 := by cases x0 <;> simp_all [residualOf, value]
  unfold expSmoother
  simp only [hr]
  rw [Option.map_eq_none_iff]
  unfold expIncrement
  simp only
  rw [if_pos]
  have hH : (expRun norm1 niter globalDt A 0).2.H = fun _ _ => 0 := by
    unfold expRun
    simp only [smul_zero, h1, expScale, gt_iff_lt, lt_self_iff_false, if_false]
    cases niter with
    | zero => rw [krylovLoop]; rfl
    | succ k =>
      set v : WithLp 2 (W × ℝ) := WithLp.toLp 2 (0, 1) with hv
      set T := expMul A globalDt 0 with hT
      have hT0 : ∀ c : ℝ, T (WithLp.toLp 2 (0, c)) = 0 := by intro c; simp only [hT, expMul]; simp [hA]
      have hv0 : ‖v‖⁻¹ • v = WithLp.toLp 2 ((0 : W), ‖v‖⁻¹) := by
        simp only [hv]; rw [← WithLp.toLp_smul]; simp
      have hV : (begin true v (fresh : Mem (WithLp 2 (W × ℝ)))).V 0 = ‖v‖⁻¹ • v := by simp [begin, setV]
      have step : (expStep T 1e-10 (begin true v fresh)).happy = true ∧ (expStep T 1e-10 (begin true v fresh)).H = fun _ _ => 0 := by
        have h0 : T ((begin true v (fresh : Mem (WithLp 2 (W × ℝ)))).V 0) = 0 := by rw [hV, hv0, hT0]
        have hj : (begin true v (fresh : Mem (WithLp 2 (W × ℝ)))).j = 0 := rfl
        unfold expStep
        simp only [hj, h0, inner_zero_right]
        rw [if_pos]
        · refine ⟨rfl, ?_⟩
          funext a b
          simp [begin]
        · rw [if_neg]
          · norm_num
          · simp
      rw [krylovLoop, if_pos ⟨by simp [begin], rfl⟩]
      cases k with
      | zero => rw [krylovLoop, step.2]
      | succ k =>
        rw [krylovLoop, if_neg]
        · rw [step.2]
        · rw [step.1]; simp
  simp only [hH]
  exact maxEig_zero _

end exponential

/-! ## The cycle -/

section cycle
variable {E : Nat → Type*} [∀ l, AddCommGroup (E l)]

theorem smoothe_exact {F : Type*} (S : Smoother F) (A : F → F) (b x : F) (h : S A b (some x) = some (some x)) (n : Nat) :
    smoothe S A b n (some x) = some (some x) := by
  induction n with
  | zero => rfl
  | succ n ih => rw [smoothe, h]; exact ih

theorem smoothe_zero {F : Type*} [AddCommGroup F] (S : Smoother F) (A : F → F) (hA : A 0 = 0) (hk : KeepsExact A (S A))
    (hm : MissingIsZero (S A)) (n : Nat) (x : Option F) (hx : value x = 0) :
    ∃ y, smoothe S A 0 n x = some y ∧ value y = 0 := by
  induction n generalizing x with
  | zero => exact ⟨x, rfl, hx⟩
  | succ n ih =>
    have h0 : S A 0 (some 0) = some (some 0) := hk 0 0 hA
    have hS : ∃ z, S A 0 x = some z ∧ value z = 0 := by
      cases x with
      | none =>
        have := hm 0
        rw [h0] at this
        rw [Option.map_some, Option.map_eq_some_iff] at this
        obtain ⟨z, hz, hv⟩ := this
        exact ⟨z, hz, hv⟩
      | some x =>
        have : x = 0 := hx
        subst this
        exact ⟨some 0, h0, rfl⟩
    obtain ⟨z, hz, hv⟩ := hS
    obtain ⟨y, hy, hv'⟩ := ih z hv
    exact ⟨y, by rw [smoothe, hz]; exact hy, hv'⟩

theorem passes_zero {F : Type*} [AddCommGroup F] (f : Option F → Option (Option F))
    (hf : ∀ x : Option F, value x = 0 → f x = some (some 0)) (n : Nat) (hn : 1 ≤ n) (c : Option F) (hc : value c = 0) :
    passes f n c = some (some 0) := by
  induction n generalizing c with
  | zero => omega
  | succ n ih =>
    rw [passes, hf c hc]
    cases n with
    | zero => rfl
    | succ n => exact ih (by omega) (some 0) rfl

/-- what the levels have to satisfy: operators, restrictions and prolongations map zero to zero, and the smoothers keep exact solutions
and take a missing guess for zero -/
structure Sound (L : ∀ l, Level (E l) (E (l + 1))) : Prop where
  A0 : ∀ l, (L l).A 0 = 0
  restrict0 : ∀ l, (L l).restrict 0 = 0
  prolong0 : ∀ l, (L l).prolong 0 = 0
  pre : ∀ l, KeepsExact (L l).A ((L l).pre (L l).A)
  preMissing : ∀ l, MissingIsZero ((L l).pre (L l).A)
  post : ∀ l, KeepsExact (L l).A ((L l).post (L l).A)

/-- the result of the solver of the coarsest level for a zero right-hand side, if there is a solver, is zero -/
def SolverZero (solver : ∀ l, Option (E l → E l → Option (E l))) : Prop := ∀ l s, solver l = some s → ∀ x, s 0 x = some 0

theorem around_zero {F G : Type*} [AddCommGroup F] (lv : Level F G) (A0 : lv.A 0 = 0) (pre : KeepsExact lv.A (lv.pre lv.A))
    (preM : MissingIsZero (lv.pre lv.A)) (post : KeepsExact lv.A (lv.post lv.A)) (middle : F → F → Option F) (hm : middle 0 0 = some 0)
    (x : Option F) (hx : value x = 0) : around lv middle 0 x = some (some 0) := by
  obtain ⟨y, hy, hv⟩ := smoothe_zero lv.pre lv.A A0 pre preM lv.nPre x hx
  have hv' : y.getD 0 = 0 := hv
  unfold around
  rw [hy]
  simp only [Option.bind_some, hv', hm]
  exact smoothe_exact _ _ _ _ (post 0 0 A0) _

/-- **C50** A whole cycle with a zero right-hand side and no guess, or a zero guess, returns zero, at every depth; the solver of the
coarsest level only has to return zero for a zero right-hand side. -/
theorem C50_cycle_zero (L : ∀ l, Level (E l) (E (l + 1))) (hL : Sound L) (solver : ∀ l, Option (E l → E l → Option (E l)))
    (hs : SolverZero solver) (gamma : Nat) (hg : 1 ≤ gamma) (depth : Nat) :
    ∀ l (x : Option (E l)), value x = 0 → iterate L solver gamma depth l 0 x = some (some 0) := by
  induction depth with
  | zero =>
    intro l x hx
    rw [iterate]
    refine around_zero (L l) (hL.A0 l) (hL.pre l) (hL.preMissing l) (hL.post l) _ ?_ x hx
    unfold coarsest
    cases h : solver l with
    | none => rfl
    | some s => exact hs l s h 0
  | succ depth ih =>
    intro l x hx
    rw [iterate]
    refine around_zero (L l) (hL.A0 l) (hL.pre l) (hL.preMissing l) (hL.post l) _ ?_ x hx
    unfold correct
    simp only [hL.A0 l, sub_self, hL.restrict0 l]
    rw [passes_zero _ (ih (l + 1)) gamma hg none rfl]
    simp only [Option.bind_some, Option.map_some, hL.prolong0 l, add_zero]

/-- **C50** A whole multigrid cycle leaves an exact solution unchanged, for every number of levels and passes per level, if there is at
least one coarser level or no solver is used on the coarsest level.  Missing: a single level with the solver (see
`C50_single_level_fails`). -/
theorem C50_cycle_exact_partial (L : ∀ l, Level (E l) (E (l + 1))) (hL : Sound L) (solver : ∀ l, Option (E l → E l → Option (E l)))
    (hs : SolverZero solver) (gamma : Nat) (hg : 1 ≤ gamma) (depth : Nat) (l : Nat)
    (hd : solver l = none ∨ 1 ≤ depth) : KeepsExact (L l).A (iterate L solver gamma depth l) := by
  intro b x hx
  have hpre := smoothe_exact (L l).pre (L l).A b x (hL.pre l b x hx) (L l).nPre
  have hpost := smoothe_exact (L l).post (L l).A b x (hL.post l b x hx) (L l).nPost
  cases depth with
  | zero =>
    have hn : solver l = none := by rcases hd with h | h; exact h; omega
    rw [iterate, around, hpre, hn]
    simp only [Option.bind_some, Option.getD_some, coarsest]
    exact hpost
  | succ depth =>
    rw [iterate, around, hpre]
    simp only [Option.bind_some, Option.getD_some, correct, hx, sub_self, hL.restrict0 l]
    rw [passes_zero _ (fun y hy => C50_cycle_zero L hL solver hs gamma hg depth (l + 1) y hy) gamma hg none rfl]
    simp only [Option.bind_some, Option.map_some, hL.prolong0 l, add_zero]
    exact hpost

/-- **C50** The multigrid preconditioner maps the zero vector to zero. -/
theorem C50_apply_zero {D : Type*} [AddCommGroup D] (L : ∀ l, Level (E l) (E (l + 1))) (hL : Sound L)
    (solver : ∀ l, Option (E l → E l → Option (E l))) (hs : SolverZero solver) (numLevels : Nat)
    (toLevel : D → E 0) (back : E 0 → D) (ht : toLevel 0 = 0) (hb : back 0 = 0) : apply L solver numLevels toLevel back 0 none = some 0 := by
  unfold apply
  rw [ht, C50_cycle_zero L hL solver hs 1 (le_refl _) _ 0 none rfl]
  simp [hb]

/-- **C50** The multigrid preconditioner, as it is applied with the configured number of levels, returns an exact guess unchanged: with two
or more levels, whatever the coarsest solver does with a non-zero right-hand side, and with one level if no solver is used there. -/
theorem C50_apply_exact_partial {D : Type*} (L : ∀ l, Level (E l) (E (l + 1))) (hL : Sound L)
    (solver : ∀ l, Option (E l → E l → Option (E l))) (hs : SolverZero solver) (numLevels : Nat) (hn : solver 0 = none ∨ 2 ≤ numLevels)
    (toLevel : D → E 0) (back : E 0 → D) (vec : D) (x : E 0) (hx : (L 0).A x = toLevel vec) :
    apply L solver numLevels toLevel back vec (some x) = some (back x) := by
  unfold apply
  rw [C50_cycle_exact_partial L hL solver hs 1 (le_refl _) (numLevels - 1) 0 (hn.imp id fun h => by omega) _ x hx]
  rfl

theorem smoothe_correction {F : Type*} [AddCommGroup F] (S : Smoother F) (A : F →+ F) (hc : Correction A (S A)) (n : Nat) :
    Correction A (fun b x => smoothe S A b n x) := by
  induction n with
  | zero => exact ⟨fun _ => some 0, fun b x => by simp [smoothe]⟩
  | succ n ih =>
    obtain ⟨c, hc⟩ := hc
    obtain ⟨d, hd⟩ := ih
    refine ⟨fun r => (c r).bind fun e => (d (r - A e)).map fun f => e + f, fun b x => ?_⟩
    beta_reduce at hd
    simp only [smoothe]
    have h1 := hc b x
    cases hS : S A b x with
    | none =>
      rw [hS] at h1
      rw [Option.map_none] at h1
      have : c (b - A (value x)) = none := by
        rw [eq_comm, Option.map_eq_none_iff] at h1; exact h1
      simp [this]
    | some z =>
      rw [hS, Option.map_some, eq_comm, Option.map_eq_some_iff] at h1
      obtain ⟨e, he, hv⟩ := h1
      simp only [Option.bind_some, he, Option.map_map]
      rw [hd b z, ← hv, map_add, ← sub_sub]
      congr 1
      funext f
      simp [add_assoc]

theorem around_correction {F G : Type*} [AddCommGroup F] (lv : Level F G) (A : F →+ F) (hA : lv.A = A) (hpre : Correction A (lv.pre A))
    (hpost : Correction A (lv.post A)) (middle : F → F → Option F)
    (hm : ∃ m : F → Option F, ∀ b x, middle b x = (m (b - A x)).map fun e => x + e) : Correction A (around lv middle) := by
  obtain ⟨c, hc⟩ := smoothe_correction lv.pre A hpre lv.nPre
  obtain ⟨d, hd⟩ := smoothe_correction lv.post A hpost lv.nPost
  obtain ⟨m, hm⟩ := hm
  beta_reduce at hc hd
  refine ⟨fun r => (c r).bind fun e => (m (r - A e)).bind fun f => (d (r - A (e + f))).map fun g => e + f + g, fun b x => ?_⟩
  unfold around
  simp only [hA]
  have h1 := hc b x
  cases hS : smoothe lv.pre A b lv.nPre x with
  | none =>
    rw [hS, Option.map_none, eq_comm, Option.map_eq_none_iff] at h1
    simp [h1]
  | some z =>
    rw [hS, Option.map_some, eq_comm, Option.map_eq_some_iff] at h1
    obtain ⟨e, he, hv⟩ := h1
    have hv' : z.getD 0 = value x + e := hv.symm
    simp only [Option.bind_some, he, hv']
    rw [hm b (value x + e), map_add, ← sub_sub]
    cases hM : m (b - A (value x) - A e) with
    | none => simp
    | some f =>
      simp only [Option.map_some, Option.bind_some]
      rw [hd b (some (value x + e + f))]
      have : value (some (value x + e + f)) = value x + (e + f) := by simp [value, add_assoc]
      rw [this, map_add, ← sub_sub, Option.map_map]
      congr 1
      funext g
      simp [add_assoc]

/-- **C50** A whole cycle with a coarser level, or without a solver, returns the guess plus a correction that depends on the residual
only: the error of the result is a function of the error of the guess, whatever the right-hand side. -/
theorem C50_cycle_correction (L : ∀ l, Level (E l) (E (l + 1))) (solver : ∀ l, Option (E l → E l → Option (E l))) (gamma : Nat)
    (depth : Nat) (l : Nat) (A : E l →+ E l) (hA : (L l).A = A) (hpre : Correction A ((L l).pre A)) (hpost : Correction A ((L l).post A))
    (hd : solver l = none ∨ 1 ≤ depth) : Correction A (iterate L solver gamma depth l) := by
  cases depth with
  | zero =>
    have hn : solver l = none := by rcases hd with h | h; exact h; omega
    rw [iterate]
    refine around_correction (L l) A hA hpre hpost _ ⟨fun _ => some 0, fun b x => ?_⟩
    simp [hn, coarsest]
  | succ depth =>
    rw [iterate]
    refine around_correction (L l) A hA hpre hpost _
      ⟨fun r => (passes (iterate L solver gamma depth (l + 1) ((L l).restrict r)) gamma none).bind fun c => c.map (L l).prolong,
        fun b x => ?_⟩
    unfold correct
    simp only [hA, Option.map_bind]
    congr 1
    funext q
    simp only [Function.comp, Option.map_map]
    rfl

/-- **C50** With Runge-Kutta smoothers on every level, and operators, restrictions and prolongations that are linear, the levels satisfy
all hypotheses: cycles of any depth keep exact solutions. -/
theorem C50_runge_kutta_cycle {ι : Nat → Type*} (h : ∀ l, ι l → ℝ) (A : ∀ l, (ι l → ℝ) →ₗ[ℝ] (ι l → ℝ))
    (R : ∀ l, (ι l → ℝ) →ₗ[ℝ] (ι (l + 1) → ℝ)) (P : ∀ l, (ι (l + 1) → ℝ) →ₗ[ℝ] (ι l → ℝ)) (three : Bool) (nPre nPost gamma depth : Nat)
    (hg : 1 ≤ gamma) (l : Nat) :
    let S := fun l => if three then rk3 (h l) else rk1 (h l)
    KeepsExact (A l) (iterate (E := fun l => ι l → ℝ) (fun l => ⟨A l, S l, S l, R l, P l, nPre, nPost⟩) (fun _ => none) gamma depth l) := by
  intro S
  refine C50_cycle_exact_partial (E := fun l => ι l → ℝ) (fun l => ⟨A l, S l, S l, R l, P l, nPre, nPost⟩) ?_ (fun _ => none)
    (fun _ _ h => by simp at h) gamma hg depth l (Or.inl rfl)
  have hS : ∀ l, KeepsExact (A l) (S l (A l)) ∧ MissingIsZero (S l (A l)) := by
    intro l
    cases three
    · exact ⟨C50_rk1_exact _ _, C50_rk1_missing _ _ (map_zero _)⟩
    · exact ⟨C50_rk3_exact _ _, C50_rk3_missing _ _ (map_zero _)⟩
  exact ⟨fun l => map_zero _, fun l => map_zero _, fun l => map_zero _, fun l => (hS l).1, fun l => (hS l).2, fun l => (hS l).1⟩

/-- the cycle does something: one level down with an operator that is not the identity, the guess is changed -/
example : iterate (E := fun _ => Fin 1 → ℝ) (fun _ => ⟨fun x => 2 • x, rk1 1, rk1 1, id, id, 1, 0⟩) (fun _ => none) 1 0 0 1 (some 0) =
    some (some 1) := by
  simp [iterate, around, smoothe, rk1, coarsest]

/-- the solver of the coarsest level as the code calls it (`multigrid.py` 575–577): the default options of `fgmres`, the given tolerance
and `restart = 100` -/
noncomputable def coarseFgmres {W : Type*} [NormedAddCommGroup W] [InnerProductSpace ℝ W] (A : W →ₗ[ℝ] W) (tol : ℝ) (len maxiter : Nat)
    (cyc : W → W → Option (W × Nat)) (stag : W → W → Bool) (b x : W) : Option W :=
  (WxVerif.Gmres.fgmres A b x tol 100 len maxiter false cyc stag).map fun a => a.x

/-- **C50** `fgmres` meets the hypothesis on the solver of the coarsest level when the level has more than 100 degrees of freedom … -/
theorem C50_fgmres_zero {W : Type*} [NormedAddCommGroup W] [InnerProductSpace ℝ W] (A : W →ₗ[ℝ] W) (tol : ℝ) (len maxiter : Nat)
    (hl : 100 < len) (cyc : W → W → Option (W × Nat)) (stag : W → W → Bool) (x : W) :
    coarseFgmres A tol len maxiter cyc stag 0 x = some 0 := by
  unfold coarseFgmres WxVerif.Gmres.fgmres
  rw [if_neg (by omega), if_pos norm_zero]
  rfl

/-- … **but C50 is violated** by a single level with the solver (the mode `fv_only`, which also turns the smoothing off): given an exact
solution of a system with a right-hand side that is not zero, the cycle raises. -/
theorem C50_single_level_fails {W : Nat → Type*} [∀ l, NormedAddCommGroup (W l)] [∀ l, InnerProductSpace ℝ (W l)]
    (L : ∀ l, Level (W l) (W (l + 1))) (l : Nat) (A : W l →ₗ[ℝ] W l) (hA : (L l).A = A) (h0 : (L l).nPre = 0) (tol : ℝ) (len maxiter : Nat)
    (hm : 1 ≤ maxiter) (cyc : W l → W l → Option (W l × Nat)) (stag : W l → W l → Bool)
    (solver : ∀ l, Option (W l → W l → Option (W l))) (hs : solver l = some (coarseFgmres A tol len maxiter cyc stag)) (gamma : Nat)
    (b x : W l) (hb : b ≠ 0) (hx : A x = b) : iterate L solver gamma 0 l b (some x) = none := by
  rw [iterate, around, h0, hs]
  simp only [smoothe, Option.bind_some, Option.getD_some, coarsest, coarseFgmres]
  rw [WxVerif.Props.Gmres.C33_exact_guess_fails A b x hb hx tol 100 len maxiter hm false cyc stag]
  rfl

/-- **C50** Parameters given for some levels are extended to all levels by repeating the last one, and cut if there are too many. -/
theorem C50_extended_list {α : Type*} (old : List α) (target : Nat) (h : old ≠ [] ∨ target = 0) :
    ∃ new, extendedList old target = some new ∧ new.length = target ∧
      ∀ i < target, new[i]? = if i < old.length then old[i]? else old.getLast? := by
  unfold extendedList
  by_cases hl : old.length < target
  · have hne : old ≠ [] := by rcases h with h | h; exact h; omega
    rw [if_pos hl, List.getLast?_eq_some_getLast hne]
    refine ⟨_, rfl, by simp; omega, fun i hi => ?_⟩
    by_cases hc : i < old.length
    · rw [if_pos hc, List.getElem?_append_left hc]
    · rw [if_neg hc, List.getElem?_append_right (by omega), List.getElem?_replicate, if_pos (by omega)]
  · rw [if_neg hl]
    refine ⟨_, rfl, by simp; omega, fun i hi => ?_⟩
    rw [if_pos (by omega), List.getElem?_take, if_pos hi]

example : extendedList [2, 3] 4 = some [2, 3, 3, 3] ∧ extendedList [2, 3] 1 = some [2] := ⟨rfl, rfl⟩

end cycle

end WxVerif.Props.Multigrid
