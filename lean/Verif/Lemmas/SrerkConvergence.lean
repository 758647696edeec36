import Verif.Lemmas.EpiRun

/-!
# Lemmas for the convergence of the stiffness-resilient exponential Runge-Kutta integrators: one projection
-/

namespace WxVerif.SrerkConvergence

open Set SpecConvergence SpecEpiConvergence EpiConvergence

universe u

variable {V : Type u} [NormedAddCommGroup V] [NormedSpace ℝ V]

/-- the weight of the `l`-th power of the Jacobian applied to the `j`-th coefficient of the remainder, for a method with the coefficients `α` and the nodes `c` -/
noncomputable def weightC (α : Nat → Nat → ℝ) (c : Nat → ℝ) (N m l j : Nat) : ℝ :=
  ∑ row ∈ Finset.range N, ∑ i ∈ Finset.range m, α row i * (c i) ^ j / ((j.factorial : ℝ) * ((l + row).factorial : ℝ))

/-- with remainders that are polynomials, the truncated functions give a polynomial of the step -/
theorem polynomial_stepC (α : Nat → Nat → ℝ) (c : Nat → ℝ) {N : Nat} (hN : 2 ≤ N) (m p : Nat) (h : ℝ) (J : V →L[ℝ] V) (f : V) (a : Nat → V) :
    ∑ row ∈ Finset.range N, trunc p row h J (vecs α m f (fun i => ∑ j ∈ Finset.range p, ((c i * h) ^ j / (j.factorial : ℝ)) • a j) row) =
      trunc p 1 h J f + ∑ j ∈ Finset.range p, ∑ l ∈ Finset.range p, (h ^ (l + j) * weightC α c N m l j) • (J ^ l) (a j) := by
  unfold vecs
  simp only [map_add, Finset.sum_add_distrib]
  congr 1
  · have : ∀ row ∈ Finset.range N, trunc p row h J (if row = 1 then f else 0) = if row = 1 then trunc p 1 h J f else 0 := by
      intro row _
      split_ifs with e
      · rw [e]
      · rw [map_zero]
    rw [Finset.sum_congr rfl this, Finset.sum_ite_eq' (Finset.range N) 1, if_pos (Finset.mem_range.2 (by omega))]
  · have lhs : ∀ row, trunc p row h J (∑ i ∈ Finset.range m, α row i • ∑ j ∈ Finset.range p, ((c i * h) ^ j / (j.factorial : ℝ)) • a j) =
        ∑ j ∈ Finset.range p, ∑ l ∈ Finset.range p, ∑ i ∈ Finset.range m,
          (h ^ (l + j) * (α row i * (c i) ^ j / ((j.factorial : ℝ) * ((l + row).factorial : ℝ)))) • (J ^ l) (a j) := by
      intro row
      rw [map_sum]
      have : ∀ i ∈ Finset.range m, trunc p row h J (α row i • ∑ j ∈ Finset.range p, ((c i * h) ^ j / (j.factorial : ℝ)) • a j) =
          ∑ j ∈ Finset.range p, ∑ l ∈ Finset.range p,
            (h ^ (l + j) * (α row i * (c i) ^ j / ((j.factorial : ℝ) * ((l + row).factorial : ℝ)))) • (J ^ l) (a j) := by
        intro i _
        rw [map_smul, map_sum, Finset.smul_sum]
        refine Finset.sum_congr rfl fun j _ => ?_
        rw [map_smul, trunc_apply, Finset.smul_sum, Finset.smul_sum]
        refine Finset.sum_congr rfl fun l _ => ?_
        rw [smul_smul, smul_smul]
        congr 1
        rw [mul_pow, pow_add]
        field_simp
      rw [Finset.sum_congr rfl this, Finset.sum_comm]
      exact Finset.sum_congr rfl fun j _ => Finset.sum_comm
    simp only [lhs]
    rw [Finset.sum_comm]
    refine Finset.sum_congr rfl fun j _ => ?_
    rw [Finset.sum_comm]
    refine Finset.sum_congr rfl fun l _ => ?_
    simp only [weightC, Finset.mul_sum, Finset.sum_smul]

/-- the conditions for order `p` -/
def OrderConditionsC (α : Nat → Nat → ℝ) (c : Nat → ℝ) (N m p : Nat) : Prop :=
  ∀ l j, 2 ≤ j → l + j < p → weightC α c N m l j = 1 / ((l + j + 1).factorial : ℝ)

theorem consistentC {f : V → V} {y : ℝ → V} {T M : ℝ} {p : Nat} (hT : 0 < T) (hp : 1 ≤ p) (hs : SmoothSolution f y T p)
    (hM : ∀ t ∈ Icc 0 T, ‖fderiv ℝ f (y t)‖ ≤ M) (α : Nat → Nat → ℝ) (c : Nat → ℝ) {N : Nat} (hN : 2 ≤ N) (m : Nat) (oc : OrderConditionsC α c N m p) :
    ∃ C, 0 ≤ C ∧ ∀ t h : ℝ, 0 < h → h ≤ 1 → 0 ≤ t → t + h ≤ T → (∀ i < m, t + c i * h ∈ Icc 0 T) →
      ‖y t + h • ∑ row ∈ Finset.range N, trunc p row h (fderiv ℝ f (y t))
        (vecs α m (f (y t)) (fun i => (f (y (t + c i * h)) - f (y t)) - fderiv ℝ f (y t) (y (t + c i * h) - y t)) row) - y (t + h)‖ ≤
        C * h ^ (p + 1) := by
  obtain ⟨B, d, B0, hj⟩ := jets hT hs
  have M0 : 0 ≤ M := (norm_nonneg _).trans (hM 0 ⟨le_rfl, hT.le⟩)
  obtain ⟨R, hR⟩ : ∃ R : ℝ, ∀ row < N, ∀ i < m, |α row i| ≤ R := by
    refine ⟨∑ row ∈ Finset.range N, ∑ i ∈ Finset.range m, |α row i|, fun row hr i hi => ?_⟩
    refine (Finset.single_le_sum (f := fun i => |α row i|) (fun _ _ => abs_nonneg _) (Finset.mem_range.2 hi)).trans ?_
    exact Finset.single_le_sum (f := fun row => ∑ i ∈ Finset.range m, |α row i|) (fun _ _ => Finset.sum_nonneg fun _ _ => abs_nonneg _)
      (Finset.mem_range.2 hr)
  set R' := max R 0 with hR'
  have R0 : 0 ≤ R' := le_max_right _ _
  have hR : ∀ row < N, ∀ i < m, |α row i| ≤ R' := fun row hr i hi => (hR row hr i hi).trans (le_max_left _ _)
  obtain ⟨Rc, Rc0, hRc⟩ : ∃ Rc : ℝ, 0 ≤ Rc ∧ ∀ i < m, |c i| ≤ Rc :=
    ⟨∑ i ∈ Finset.range m, |c i|, Finset.sum_nonneg fun _ _ => abs_nonneg _,
      fun i hi => Finset.single_le_sum (f := fun i => |c i|) (fun _ _ => abs_nonneg _) (Finset.mem_range.2 hi)⟩
  set K := M + 1 with hK
  have K1 : 1 ≤ K := by linarith
  set A := B + M * B with hA
  have A0 : 0 ≤ A := by positivity
  set W := ∑ j ∈ Finset.range p, ∑ l ∈ Finset.range p, |weightC α c N m l j| with hW
  have W0 : 0 ≤ W := Finset.sum_nonneg fun _ _ => Finset.sum_nonneg fun _ _ => abs_nonneg _
  refine ⟨N * (p * K ^ p * (m * R' * (A * Rc ^ p))) + W * (K ^ p * A) + B, by positivity, fun t h h0 h1 t0 tT hcT => ?_⟩
  have ht : t ∈ Icc 0 T := ⟨by linarith, by linarith⟩
  set J := fderiv ℝ f (y t) with hJ
  have hJM : ‖J‖ ≤ M := hM t ht
  have hJK : ‖J‖ + 1 ≤ K := by linarith
  set a := coeffs J (fun j => d j t) with ha
  set r := fun i : Nat => (f (y (t + c i * h)) - f (y t)) - J (y (t + c i * h) - y t) with hr
  set r' := fun i : Nat => ∑ j ∈ Finset.range p, ((c i * h) ^ j / (j.factorial : ℝ)) • a j with hr'
  have d1 : d 1 t = f (y t) := jet_one hT hs hj ht
  -- the remainders are polynomials up to order `p`
  have res : ∀ i < m, ‖r i - r' i‖ ≤ A * Rc ^ p * h ^ p := by
    intro i hi
    have hx := hcT i hi
    have := remainder_expansion hT hp hs B0 hj ht hJM hx
    rw [add_sub_cancel_left] at this
    refine this.trans ?_
    rw [mul_assoc A, ← mul_pow]
    refine mul_le_mul_of_nonneg_left (pow_le_pow_left₀ (abs_nonneg _) ?_ p) A0
    rw [abs_mul, abs_of_pos h0]
    exact mul_le_mul_of_nonneg_right (hRc i hi) h0.le
  have e1 : ‖∑ row ∈ Finset.range N, trunc p row h J (vecs α m (f (y t)) r row) - ∑ row ∈ Finset.range N, trunc p row h J (vecs α m (f (y t)) r' row)‖ ≤
      N * (p * K ^ p * (m * R' * (A * Rc ^ p))) * h ^ p := by
    rw [← Finset.sum_sub_distrib]
    refine (norm_sum_le _ _).trans ?_
    have : ∀ row ∈ Finset.range N, ‖trunc p row h J (vecs α m (f (y t)) r row) - trunc p row h J (vecs α m (f (y t)) r' row)‖ ≤
        p * K ^ p * (m * R' * (A * Rc ^ p * h ^ p)) := by
      intro row hrow
      rw [← map_sub]
      refine (trunc_bound p row h0.le h1 hJK _).trans (mul_le_mul_of_nonneg_left ?_ (by positivity))
      simpa using vecs_bound hR (Finset.mem_range.1 hrow) (f (y t)) (f (y t)) r r' (by simp : _ ≤ (0 : ℝ)) res
    refine (Finset.sum_le_sum this).trans_eq ?_
    rw [Finset.sum_const, Finset.card_range, nsmul_eq_mul]
    ring
  -- the exact solution
  have ex := taylor_both B0 (p + 1) d hj.step (hj.bound (p + 1) le_rfl) t ht (t + h) ⟨by linarith [ht.1], tT⟩
  rw [add_sub_cancel_left, abs_of_pos h0, Finset.sum_range_succ', hj.zero, hj.zero] at ex
  simp only [pow_zero, Nat.factorial_zero, Nat.cast_one, div_one, one_smul] at ex
  have exsum : ∑ k ∈ Finset.range p, (h ^ (k + 1) / ((k + 1).factorial : ℝ)) • d (k + 1) t =
      h • trunc p 1 h J (f (y t)) + ∑ j ∈ Finset.range p, ∑ l ∈ Finset.range p,
        if l + j < p then (h ^ (l + j + 1) / ((l + j + 1).factorial : ℝ)) • (J ^ l) (a j) else 0 := by
    rw [← triangle p fun l j => (h ^ (l + j + 1) / ((l + j + 1).factorial : ℝ)) • (J ^ l) (a j), trunc_apply, Finset.smul_sum,
      ← Finset.sum_add_distrib]
    refine Finset.sum_congr rfl fun k _ => ?_
    rw [jet_recursion J (fun j => d j t) k, smul_add, Finset.smul_sum, d1, smul_smul]
    congr 1
    · congr 1; rw [pow_succ]; ring
    · refine Finset.sum_congr rfl fun j hj => ?_
      have : k - j + j = k := Nat.sub_add_cancel (by have := Finset.mem_range.1 hj; omega)
      rw [this]
  have num := polynomial_stepC α c hN m p h J (f (y t)) a
  -- the two polynomials agree up to the terms of degree `p`
  have low : a 0 = 0 ∧ a 1 = 0 := by
    constructor
    · simp [ha, coeffs]
    · have := jet_two (n := p - 1) hT hp hs (by rwa [show p - 1 + 2 = p + 1 by omega]) ht
      simp [ha, coeffs, this, hJ]
  have e2 : ‖h • ∑ row ∈ Finset.range N, trunc p row h J (vecs α m (f (y t)) r' row) -
      ∑ k ∈ Finset.range p, (h ^ (k + 1) / ((k + 1).factorial : ℝ)) • d (k + 1) t‖ ≤ W * (K ^ p * A) * h ^ (p + 1) := by
    rw [num, exsum, smul_add, add_sub_add_left_eq_sub, Finset.smul_sum, ← Finset.sum_sub_distrib]
    refine (norm_sum_le _ _).trans ?_
    rw [hW, Finset.sum_mul, Finset.sum_mul]
    refine Finset.sum_le_sum fun j hjp => ?_
    rw [Finset.smul_sum, ← Finset.sum_sub_distrib, Finset.sum_mul, Finset.sum_mul]
    refine (norm_sum_le _ _).trans (Finset.sum_le_sum fun l hl => ?_)
    have pos : 0 ≤ |weightC α c N m l j| * (K ^ p * A) * h ^ (p + 1) := by positivity
    have jp := Finset.mem_range.1 hjp
    by_cases h2 : j < 2
    · have : a j = 0 := by
        have : j = 0 ∨ j = 1 := by omega
        rcases this with rfl | rfl
        exacts [low.1, low.2]
      rw [this]
      simpa using pos
    · by_cases hlt : l + j < p
      · rw [if_pos hlt, oc l j (by omega) hlt, smul_smul,
          show h * (h ^ (l + j) * (1 / ((l + j + 1).factorial : ℝ))) = h ^ (l + j + 1) / ((l + j + 1).factorial : ℝ) by rw [pow_succ]; ring,
          sub_self, norm_zero]
        rw [oc l j (by omega) hlt] at pos
        exact pos
      · rw [if_neg hlt, sub_zero, smul_smul, norm_smul, Real.norm_eq_abs, ← mul_assoc, ← pow_succ', abs_mul, abs_of_nonneg (by positivity : 0 ≤ h ^ (l + j + 1))]
        have q1 : h ^ (l + j + 1) ≤ h ^ (p + 1) := pow_le_pow_of_le_one h0.le h1 (by omega)
        have q2 : ‖(J ^ l) (a j)‖ ≤ K ^ p * A := by
          refine (pow_bound (hJM.trans (by linarith : M ≤ K)) _ l).trans ?_
          refine mul_le_mul (pow_le_pow_right₀ K1 (Finset.mem_range.1 hl).le) ?_ (norm_nonneg _) (by positivity)
          exact coeffs_bound hJM B0 (hj.bound (j + 1) (by omega) t ht) (hj.bound j (by omega) t ht)
        calc h ^ (l + j + 1) * |weightC α c N m l j| * ‖(J ^ l) (a j)‖ ≤ h ^ (p + 1) * |weightC α c N m l j| * (K ^ p * A) := by gcongr
          _ = _ := by ring
  set S := ∑ row ∈ Finset.range N, trunc p row h J (vecs α m (f (y t)) r row)
  set S' := ∑ row ∈ Finset.range N, trunc p row h J (vecs α m (f (y t)) r' row)
  set E := ∑ k ∈ Finset.range p, (h ^ (k + 1) / ((k + 1).factorial : ℝ)) • d (k + 1) t
  have split : y t + h • S - y (t + h) = h • (S - S') + (h • S' - E) - (y (t + h) - (E + y t)) := by
    rw [smul_sub]; abel
  rw [split]
  have n1 : ‖h • (S - S')‖ ≤ N * (p * K ^ p * (m * R' * (A * Rc ^ p))) * h ^ (p + 1) := by
    rw [norm_smul, Real.norm_of_nonneg h0.le, pow_succ]
    have := mul_le_mul_of_nonneg_left e1 h0.le
    linarith
  refine (norm_sub_le _ _).trans ?_
  have := norm_add_le (h • (S - S')) (h • S' - E)
  rw [add_mul, add_mul]
  linarith

/-- one projection from a perturbed state, with perturbed remainders, by a perturbed solver -/
theorem perturbed_stage [CompleteSpace V] {f : V → V} {y : ℝ → V} {T ρ K : ℝ} {p : Nat} (hT : 0 < T) (hp : 1 ≤ p) (hs : SmoothSolution f y T p)
    (ρ0 : 0 < ρ) (K1 : 1 ≤ K) (n : NearE f y T ρ K) (α : Nat → Nat → ℝ) (c : Nat → ℝ) {N : Nat} (hN : 2 ≤ N) (m : Nat)
    (oc : OrderConditionsC α c N m p) {Bη : ℝ} (hBη : 0 ≤ Bη) :
    ∃ C, 0 ≤ C ∧ ∀ t h ε δ : ℝ, 0 < h → h ≤ 1 → 0 ≤ t → t + h ≤ T → (∀ i < m, t + c i * h ∈ Icc 0 T) →
      ε ≤ ρ → ∀ (u A : V) (r : Nat → V) (μ : ℝ), 0 ≤ μ → μ ≤ Bη → ‖u - y t‖ ≤ ε →
      (∀ i < m, ‖r i - ((f (y (t + c i * h)) - f (y t)) - fderiv ℝ f (y t) (y (t + c i * h) - y t))‖ ≤ μ) →
      ‖A - ∑ row ∈ Finset.range N, phi row (h • fderiv ℝ f u) (vecs α m (f u) r row)‖ ≤ δ →
      ‖u + h • A - y (t + h)‖ ≤ ‖u - y t‖ + h * (C * (ε + μ + h ^ p + δ)) := by
  obtain ⟨C0, C00, cons⟩ := consistentC hT hp hs (M := K) (fun t ht => by
    have := n.Jb t ht (y t) (by simpa using ρ0.le); linarith) α c hN m oc
  obtain ⟨Cφ, Cφ0, hφ⟩ := phi_trunc (V := V) p (K := K) (by linarith)
  obtain ⟨R, R0, hR⟩ : ∃ R : ℝ, 0 ≤ R ∧ ∀ row < N, ∀ i < m, |α row i| ≤ R := by
    refine ⟨∑ row ∈ Finset.range N, ∑ i ∈ Finset.range m, |α row i|, Finset.sum_nonneg fun _ _ => Finset.sum_nonneg fun _ _ => abs_nonneg _,
      fun row hr i hi => ?_⟩
    refine (Finset.single_le_sum (f := fun i => |α row i|) (fun _ _ => abs_nonneg _) (Finset.mem_range.2 hi)).trans ?_
    exact Finset.single_le_sum (f := fun row => ∑ i ∈ Finset.range m, |α row i|) (fun _ _ => Finset.sum_nonneg fun _ _ => abs_nonneg _)
      (Finset.mem_range.2 hr)
  set D := K + m * R with hD
  have D0 : 0 ≤ D := by positivity
  set W := K + m * R * (2 * K + K * (2 * K)) with hW
  have W0 : 0 ≤ W := by positivity
  set Vb := W + (1 + ρ + Bη) * D with hV
  have V0 : 0 ≤ Vb := by positivity
  set E := 1 + N * (Cφ * Vb) + N * (p * K ^ p * (D + K * W)) + C0 with hE
  have E0 : 0 ≤ E := by positivity
  refine ⟨E, E0, fun t h ε δ h0 h1 t0 tT htb hερ u A r μ μ0 μB hu rc hA => ?_⟩
  have ε0 : 0 ≤ ε := (norm_nonneg _).trans hu
  have δ0 : 0 ≤ δ := (norm_nonneg _).trans hA
  have ht : t ∈ Icc 0 T := ⟨t0, by linarith⟩
  have hyt : ‖y t - y t‖ ≤ ρ := by simpa using ρ0.le
  set J := fderiv ℝ f u with hJ
  set J0 := fderiv ℝ f (y t) with hJ0
  have Jb := n.Jb t ht u (hu.trans hερ)
  have J0b := n.Jb t ht (y t) hyt
  have JJ : ‖J - J0‖ ≤ K * ε := (n.Jlip t ht u (hu.trans hερ)).trans (mul_le_mul_of_nonneg_left hu (by linarith))
  set r0 := fun i : Nat => (f (y (t + c i * h)) - f (y t)) - J0 (y (t + c i * h) - y t) with hr0
  have r0b : ∀ i < m, ‖r0 i - 0‖ ≤ 2 * K + K * (2 * K) := by
    intro i hi
    rw [sub_zero]
    refine (norm_sub_le _ _).trans (add_le_add ((norm_sub_le _ _).trans (by linarith [n.fb t ht, n.fb _ (htb i hi)])) ?_)
    refine (ContinuousLinearMap.le_opNorm _ _).trans (mul_le_mul (by linarith) ((norm_sub_le _ _).trans (by linarith [n.yb t ht, n.yb _ (htb i hi)]))
      (norm_nonneg _) (by linarith))
  set v := vecs α m (f u) r with hv
  set w := vecs α m (f (y t)) r0 with hw
  have fu : ‖f u - f (y t)‖ ≤ K * (ε + μ) :=
    (n.lip t ht u (hu.trans hερ)).trans (mul_le_mul_of_nonneg_left (by linarith) (by linarith))
  have vw : ∀ row < N, ‖v row - w row‖ ≤ D * (ε + μ) := by
    intro row hrow
    refine (vecs_bound hR hrow (f u) (f (y t)) r r0 fu rc).trans ?_
    have : m * R * μ ≤ m * R * (ε + μ) := mul_le_mul_of_nonneg_left (by linarith) (by positivity)
    rw [hD]; linarith
  have wb : ∀ row < N, ‖w row‖ ≤ W := by
    intro row hrow
    have := vecs_bound hR hrow (f (y t)) 0 r0 (fun _ => 0) (a := K) (by rw [sub_zero]; exact n.fb t ht) r0b
    have z : vecs α m (0 : V) (fun _ => 0) row = 0 := by simp [vecs]
    rw [z, sub_zero] at this
    exact this
  have vb : ∀ row < N, ‖v row‖ ≤ Vb := by
    intro row hrow
    have h1 := norm_add_le (v row - w row) (w row)
    rw [sub_add_cancel] at h1
    have h2 := vw row hrow
    have h3 := wb row hrow
    have h4 : D * (ε + μ) ≤ D * (1 + ρ + Bη) := mul_le_mul_of_nonneg_left (by linarith) D0
    rw [hV]; linarith
  set η := ε + μ + h ^ p + δ with hη
  have hp0 : 0 ≤ h ^ p := by positivity
  -- the truncation
  have s2 : ‖∑ row ∈ Finset.range N, phi row (h • J) (v row) - ∑ row ∈ Finset.range N, trunc p row h J (v row)‖ ≤ N * (Cφ * Vb) * η := by
    rw [← Finset.sum_sub_distrib]
    refine (norm_sum_le _ _).trans ?_
    have : ∀ row ∈ Finset.range N, ‖phi row (h • J) (v row) - trunc p row h J (v row)‖ ≤ Cφ * Vb * η := by
      intro row hrow
      refine (hφ row h h0.le h1 J (by linarith) (v row)).trans ?_
      have b := vb row (Finset.mem_range.1 hrow)
      have : h ^ p ≤ η := by rw [hη]; linarith
      calc Cφ * h ^ p * ‖v row‖ ≤ Cφ * η * Vb := by gcongr
        _ = _ := by ring
    refine (Finset.sum_le_sum this).trans_eq ?_
    rw [Finset.sum_const, Finset.card_range, nsmul_eq_mul]
    ring
  -- the states
  have s3 : ‖∑ row ∈ Finset.range N, trunc p row h J (v row) - ∑ row ∈ Finset.range N, trunc p row h J0 (w row)‖ ≤
      N * (p * K ^ p * (D + K * W)) * η := by
    rw [← Finset.sum_sub_distrib]
    refine (norm_sum_le _ _).trans ?_
    have : ∀ row ∈ Finset.range N, ‖trunc p row h J (v row) - trunc p row h J0 (w row)‖ ≤ p * K ^ p * ((D + K * W) * η) := by
      intro row hrow
      have hrow := Finset.mem_range.1 hrow
      refine (trunc_diff p row h0.le h1 Jb J0b _ _).trans (mul_le_mul_of_nonneg_left ?_ (by positivity))
      have b1 := vw row hrow
      have b2 : ‖J - J0‖ * ‖w row‖ ≤ K * ε * W := mul_le_mul JJ (wb row hrow) (norm_nonneg _) (by positivity)
      have b3 : D * (ε + μ) ≤ D * η := mul_le_mul_of_nonneg_left (by rw [hη]; linarith) D0
      have b4 : K * W * ε ≤ K * W * η := mul_le_mul_of_nonneg_left (by rw [hη]; linarith) (by positivity)
      linarith
    refine (Finset.sum_le_sum this).trans_eq ?_
    rw [Finset.sum_const, Finset.card_range, nsmul_eq_mul]
    ring
  have s1 : ‖A - ∑ row ∈ Finset.range N, phi row (h • J) (v row)‖ ≤ 1 * η := hA.trans (by rw [hη]; linarith)
  have s4 := cons t h h0 h1 t0 tT htb
  set B := ∑ row ∈ Finset.range N, phi row (h • J) (v row)
  set G := ∑ row ∈ Finset.range N, trunc p row h J (v row)
  set H := ∑ row ∈ Finset.range N, trunc p row h J0 (w row)
  have split : u + h • A - y (t + h) = (u - y t) + h • ((A - B) + (B - G) + (G - H)) + (y t + h • H - y (t + h)) := by
    rw [show (A - B) + (B - G) + (G - H) = A - H by abel, smul_sub]
    abel
  rw [split]
  have s5 : ‖h • ((A - B) + (B - G) + (G - H))‖ ≤ h * (1 * η + N * (Cφ * Vb) * η + N * (p * K ^ p * (D + K * W)) * η) := by
    rw [norm_smul, Real.norm_of_nonneg h0.le]
    refine mul_le_mul_of_nonneg_left ?_ h0.le
    refine (norm_add_le _ _).trans (add_le_add ((norm_add_le _ _).trans (add_le_add s1 s2)) s3)
  have s6 : C0 * h ^ (p + 1) ≤ h * (C0 * η) := by
    rw [pow_succ]
    have : C0 * h ^ p ≤ C0 * η := mul_le_mul_of_nonneg_left (by rw [hη]; linarith) C00
    have := mul_le_mul_of_nonneg_left this h0.le
    linarith
  have n1 := norm_add_le ((u - y t) + h • ((A - B) + (B - G) + (G - H))) (y t + h • H - y (t + h))
  have n2 := norm_add_le (u - y t) (h • ((A - B) + (B - G) + (G - H)))
  have : h * (E * η) = h * (1 * η + N * (Cφ * Vb) * η + N * (p * K ^ p * (D + K * W)) * η) + h * (C0 * η) := by rw [hE]; ring
  linarith


end WxVerif.SrerkConvergence
