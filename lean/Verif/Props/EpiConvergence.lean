import Verif.Lemmas.EpiRun
import Mathlib.Tactic.IntervalCases
import Mathlib.Analysis.Calculus.Deriv.Prod

/-!
# C92: the runs of the exponential propagation integrators converge to the exact solution
-/

namespace WxVerif.Props.EpiConvergence

open Set SpecConvergence SpecEpiConvergence WxVerif.EpiConvergence WxVerif.Epi Multistep Props.Epi

universe u

variable {V : Type u} [NormedAddCommGroup V] [NormedSpace ℝ V]

theorem epi_conditions (order s : Nat) (cfg : Cfg ℝ) (h : epi order s = some cfg) :
    2 ≤ order ∧ 1 ≤ cfg.maxPhi ∧ cfg.nPrev = order - 2 ∧ OrderConditions (entry cfg) (cfg.maxPhi + 1) cfg.nPrev order := by
  have ho : order = 2 ∨ order = 3 ∨ order = 4 ∨ order = 5 ∨ order = 6 := by
    unfold epi at h
    match order with
    | 0 | 1 => simp [table] at h
    | 2 | 3 | 4 | 5 | 6 => simp
    | n + 7 => simp [table] at h
  rcases ho with rfl | rfl | rfl | rfl | rfl <;> (simp only [epi, table, Option.map_some, Option.some.injEq] at h; subst h) <;>
    refine ⟨by norm_num, by simp, by simp, ?_⟩ <;> intro l j h2 hl
  · omega
  all_goals
    have hj : j < 6 := by omega
    have hl6 : l < 6 := by omega
    interval_cases j <;> interval_cases l <;> first
      | omega
      | (simp [weight, entry, Finset.sum_range_succ, Nat.factorial]; norm_num)

theorem stiff_conditions (order s : Nat) (ho : 3 ≤ order) (cfg : Cfg ℝ) (h : epiStiff order s = some cfg) :
    1 ≤ cfg.maxPhi ∧ cfg.nPrev = order - 2 ∧ OrderConditions (entry cfg) (cfg.maxPhi + 1) cfg.nPrev 3 := by
  have hcfg := h
  unfold epiStiff at hcfg
  rw [if_neg (by omega)] at hcfg
  have e := Option.some.inj hcfg
  have n : cfg.nPrev = order - 2 := by rw [← e]; simp [stiffNodes]
  have mx : cfg.maxPhi = order := by rw [← e]; exact if_pos (by omega)
  have fi : cfg.first = 3 := by rw [← e]
  have deg : (1 : Polynomial ℝ).degree < cfg.nPrev := by
    rw [Polynomial.degree_one, n]
    exact_mod_cast (by omega : 0 < order - 2)
  refine ⟨by omega, n, fun l j h2 hl => ?_⟩
  obtain rfl : l = 0 := by omega
  obtain rfl : j = 2 := by omega
  have row : ∀ r ∈ Finset.range (cfg.maxPhi + 1), ∑ i ∈ Finset.range cfg.nPrev, entry cfg r i * (-((i : ℝ) + 1)) ^ 2 /
      (((2 : Nat).factorial : ℝ) * ((0 + r).factorial : ℝ)) = if r = 3 then 1 / 6 else 0 := by
    intro r hr
    have hr := Finset.mem_range.1 hr
    rw [← Finset.sum_div]
    by_cases h3 : 3 ≤ r
    · have := C26_stiff_partial order s cfg h (1 : Polynomial ℝ) deg (r - 3) (by omega)
      have e1 : ∀ i ∈ Finset.range cfg.nPrev, entry cfg r i * (-((i : ℝ) + 1)) ^ 2 =
          (cfg.A.getD (r - 3) []).getD i 0 * ((-((i : ℝ) + 1)) ^ 2 * (1 : Polynomial ℝ).eval (-((i : ℝ) + 1))) := by
        intro i _
        simp [entry, fi, h3]
      rw [Finset.sum_congr rfl e1, this, Polynomial.coeff_one]
      by_cases hr3 : r = 3
      · subst hr3
        norm_num [Nat.factorial]
      · rw [if_neg (by omega), if_neg hr3]
        simp
    · have : ∀ i ∈ Finset.range cfg.nPrev, entry cfg r i * (-((i : ℝ) + 1)) ^ 2 = 0 := by
        intro i _
        simp [entry, fi, h3]
      rw [Finset.sum_eq_zero this, zero_div, if_neg (by omega)]
  unfold weight
  rw [Finset.sum_congr rfl row, Finset.sum_ite_eq' (Finset.range (cfg.maxPhi + 1)) 3, if_pos (Finset.mem_range.2 (by omega))]
  norm_num [Nat.factorial]

/-! ## Convergence -/

/-- **C92** The states of a run of the exponential propagation integrator of order 2 to 6, started from the exact state, stay close to the exact
solution up to the time `T`: the error is at most a constant times `h^order`, plus `h³` for every call made by the start-up method, plus the
tolerance of the solvers; `h` is the largest step.  The steps may change, but two consecutive ones are equal or differ by more than the integrator's
threshold. -/
theorem C92_epi [CompleteSpace V] {f : V → V} {y : ℝ → V} {T : ℝ} (order substeps : Nat) (cfg : Cfg ℝ) (h : epi order substeps = some cfg)
    (hsub : 0 < substeps) (hs : SmoothSolution f y T order) :
    ∃ C h0 ρ : ℝ, 0 < h0 ∧ 0 < ρ ∧ ∀ h tol, 0 < h → h ≤ h0 → 0 ≤ tol → tol ≤ h0 → ∀ ext : Ext ℝ V, Accurate f y T ρ tol ext →
      ∀ dts : Nat → ℝ, (∀ n, 0 < dts n ∧ dts n ≤ h) → Stepwise dts → ∀ n, time dts n ≤ T →
        ∃ st Q, run cfg ext dts (y 0) n = some (st, Q) ∧ ‖Q - y (time dts n)‖ ≤ C * (h ^ order + starts dts (order - 2) n * h ^ 3 + tol) := by
  obtain ⟨ho, hN, hn, oc⟩ := epi_conditions order substeps cfg h
  obtain ⟨C, h0, ρ, a, b, H⟩ := run_converges ho hs cfg (epi_wellFormed order substeps hsub cfg h) hN oc
  rw [hn] at H
  exact ⟨C, h0, ρ, a, b, fun h tol h1 h2 h3 h4 ext hx dts hd sw => H h tol h1 h2 h3 h4 ext hx dts hd (Or.inr sw)⟩

/-- **C92** The method of order two keeps no history: its runs converge with order two for every sequence of steps. -/
theorem C92_epi2 [CompleteSpace V] {f : V → V} {y : ℝ → V} {T : ℝ} (substeps : Nat) (cfg : Cfg ℝ) (h : epi 2 substeps = some cfg)
    (hsub : 0 < substeps) (hs : SmoothSolution f y T 2) :
    ∃ C h0 ρ : ℝ, 0 < h0 ∧ 0 < ρ ∧ ∀ h tol, 0 < h → h ≤ h0 → 0 ≤ tol → tol ≤ h0 → ∀ ext : Ext ℝ V, Accurate f y T ρ tol ext →
      ∀ dts : Nat → ℝ, (∀ n, 0 < dts n ∧ dts n ≤ h) → ∀ n, time dts n ≤ T →
        ∃ st Q, run cfg ext dts (y 0) n = some (st, Q) ∧ ‖Q - y (time dts n)‖ ≤ C * (h ^ 2 + tol) := by
  obtain ⟨ho, hN, hn, oc⟩ := epi_conditions 2 substeps cfg h
  obtain ⟨C, h0, ρ, a, b, H⟩ := run_converges ho hs cfg (epi_wellFormed 2 substeps hsub cfg h) hN oc
  refine ⟨C, h0, ρ, a, b, fun h tol h1 h2 h3 h4 ext hx dts hd n hT => ?_⟩
  obtain ⟨st, Q, e, hQ⟩ := H h tol h1 h2 h3 h4 ext hx dts hd (Or.inl hn) n hT
  have : starts dts cfg.nPrev n = 0 := by
    classical
    unfold starts
    rw [hn, Finset.card_eq_zero, Finset.filter_eq_empty_iff]
    exact fun j _ hj => hj ⟨Nat.zero_le _, fun k h1 h2 => by omega⟩
  rw [this] at hQ
  exact ⟨st, Q, e, by simpa using hQ⟩

/-- with a constant step only the first `m` calls are made by the start-up method -/
theorem starts_const (h : ℝ) (m n : Nat) : starts (fun _ => h) m n ≤ m := by
  classical
  unfold starts
  refine (Finset.card_le_card (t := Finset.range m) fun j hj => ?_).trans_eq (Finset.card_range m)
  rw [Finset.mem_filter] at hj
  rw [Finset.mem_range]
  by_contra hlt
  refine hj.2 ⟨by omega, fun k h1 h2 hr => ?_⟩
  rcases hr with hr | ⟨-, hr⟩
  · omega
  · rw [sub_self, abs_zero] at hr
    norm_num at hr

/-- **C92** (partial: the order of the methods 4, 5 and 6 is lost, see `C92_order_fails`.)  With a constant step `h` the error of the runs of the
method of any order from 3 to 6 is at most a constant times `h³`, plus the tolerance of the solvers. -/
theorem C92_constant_partial [CompleteSpace V] {f : V → V} {y : ℝ → V} {T : ℝ} (order substeps : Nat) (ho : 3 ≤ order) (cfg : Cfg ℝ)
    (h : epi order substeps = some cfg) (hsub : 0 < substeps) (hs : SmoothSolution f y T order) :
    ∃ C h0 ρ : ℝ, 0 < h0 ∧ 0 < ρ ∧ ∀ h tol, 0 < h → h ≤ h0 → 0 ≤ tol → tol ≤ h0 → ∀ ext : Ext ℝ V, Accurate f y T ρ tol ext →
      ∀ n : Nat, n * h ≤ T → ∃ st Q, run cfg ext (fun _ => h) (y 0) n = some (st, Q) ∧ ‖Q - y (n * h)‖ ≤ C * (h ^ 3 + tol) := by
  obtain ⟨C, h0, ρ, a, b, H⟩ := C92_epi order substeps cfg h hsub hs
  refine ⟨|C| * (order + 1), min h0 1, ρ, lt_min a one_pos, b, fun h tol h1 h2 h3 h4 ext hx n hn => ?_⟩
  have te : time (fun _ => h) n = n * h := by simp [time]
  obtain ⟨st, Q, e, hQ⟩ := H h tol h1 (h2.trans (min_le_left _ _)) h3 (h4.trans (min_le_left _ _)) ext hx (fun _ => h) (fun _ => ⟨h1, le_rfl⟩)
    (fun _ => Or.inl rfl) n (by rw [te]; exact hn)
  rw [te] at hQ
  refine ⟨st, Q, e, hQ.trans ?_⟩
  have c : (starts (fun _ => h) (order - 2) n : ℝ) ≤ order := by exact_mod_cast (starts_const h (order - 2) n).trans (by omega)
  have c3 := mul_le_mul_of_nonneg_right c (by positivity : 0 ≤ h ^ 3)
  have hp : h ^ order ≤ h ^ 3 := pow_le_pow_of_le_one h1.le (h2.trans (min_le_right _ _)) ho
  have p0 : 0 ≤ h ^ order := by positivity
  have : h ^ order + starts (fun _ => h) (order - 2) n * h ^ 3 + tol ≤ (order + 1) * (h ^ 3 + tol) := by
    have : 0 ≤ (order : ℝ) * tol := by positivity
    linarith
  calc C * (h ^ order + starts (fun _ => h) (order - 2) n * h ^ 3 + tol) ≤ |C| * (h ^ order + starts (fun _ => h) (order - 2) n * h ^ 3 + tol) :=
        mul_le_mul_of_nonneg_right (le_abs_self C) (by positivity)
    _ ≤ |C| * ((order + 1) * (h ^ 3 + tol)) := mul_le_mul_of_nonneg_left this (abs_nonneg _)
    _ = _ := by ring

/-- **C92** (partial: order 3 whatever order is asked for, see `C92_order_fails`.)  The stiff variant of any order from 3 on converges with order
three for a constant step. -/
theorem C92_stiff_partial [CompleteSpace V] {f : V → V} {y : ℝ → V} {T : ℝ} (order substeps : Nat) (ho : 3 ≤ order) (cfg : Cfg ℝ)
    (h : epiStiff order substeps = some cfg) (hsub : 0 < substeps) (hs : SmoothSolution f y T 3) :
    ∃ C h0 ρ : ℝ, 0 < h0 ∧ 0 < ρ ∧ ∀ h tol, 0 < h → h ≤ h0 → 0 ≤ tol → tol ≤ h0 → ∀ ext : Ext ℝ V, Accurate f y T ρ tol ext →
      ∀ n : Nat, n * h ≤ T → ∃ st Q, run cfg ext (fun _ => h) (y 0) n = some (st, Q) ∧ ‖Q - y (n * h)‖ ≤ C * (h ^ 3 + tol) := by
  obtain ⟨hN, hn, oc⟩ := stiff_conditions order substeps ho cfg h
  obtain ⟨C, h0, ρ, a, b, H⟩ := run_converges (by norm_num) hs cfg (epiStiff_wellFormed order substeps hsub cfg h) hN oc
  refine ⟨|C| * (order + 1), h0, ρ, a, b, fun h tol h1 h2 h3 h4 ext hx n hn' => ?_⟩
  have te : time (fun _ => h) n = n * h := by simp [time]
  obtain ⟨st, Q, e, hQ⟩ := H h tol h1 h2 h3 h4 ext hx (fun _ => h) (fun _ => ⟨h1, le_rfl⟩) (Or.inr fun _ => Or.inl rfl) n (by rw [te]; exact hn')
  rw [te, hn] at hQ
  refine ⟨st, Q, e, hQ.trans ?_⟩
  have c : (starts (fun _ => h) (order - 2) n : ℝ) ≤ order := by exact_mod_cast (starts_const h (order - 2) n).trans (by omega)
  have c3 := mul_le_mul_of_nonneg_right c (by positivity : 0 ≤ h ^ 3)
  have : h ^ 3 + starts (fun _ => h) (order - 2) n * h ^ 3 + tol ≤ (order + 1) * (h ^ 3 + tol) := by
    have : 0 ≤ (order : ℝ) * tol := by positivity
    linarith
  calc C * (h ^ 3 + starts (fun _ => h) (order - 2) n * h ^ 3 + tol) ≤ |C| * (h ^ 3 + starts (fun _ => h) (order - 2) n * h ^ 3 + tol) :=
        mul_le_mul_of_nonneg_right (le_abs_self C) (by positivity)
    _ ≤ |C| * ((order + 1) * (h ^ 3 + tol)) := mul_le_mul_of_nonneg_left this (abs_nonneg _)
    _ = _ := by ring

/-! ## The start-up limits the order -/

/-- solvers without any error -/
noncomputable def exact (f : V → V) : Ext ℝ V where
  rhs := f
  jac Q v := fderiv ℝ f Q v
  phi Q dt vec := phiSum (dt • fderiv ℝ f Q) vec
  initStep Q dt := Q + dt • phiSum (dt • fderiv ℝ f Q) [0, f Q]

theorem exact_accurate (f : V → V) (y : ℝ → V) (T ρ : ℝ) : Accurate f y T ρ 0 (exact f) :=
  ⟨rfl, fun Q _ v => by simp [exact], fun Q _ dt _ _ vec => by simp [exact], fun _ _ => rfl⟩

/-- the problem `x' = 1`, `z' = x²` -/
def fEx (u : ℝ × ℝ) : ℝ × ℝ := (1, u.1 ^ 2)

noncomputable def yEx (t : ℝ) : ℝ × ℝ := (t, t ^ 3 / 3)

theorem fEx_deriv (u : ℝ × ℝ) :
    HasFDerivAt fEx ((0 : ℝ × ℝ →L[ℝ] ℝ).prod ((2 * u.1) • ContinuousLinearMap.fst ℝ ℝ ℝ)) u := by
  have h : HasFDerivAt (fun u : ℝ × ℝ => u.1 ^ 2) ((2 * u.1) • ContinuousLinearMap.fst ℝ ℝ ℝ) u := by
    exact ((hasFDerivAt_fst (𝕜 := ℝ) (p := u)).pow 2).congr_fderiv (by ext <;> simp)
  exact (hasFDerivAt_const (1 : ℝ) u).prodMk h

theorem jac_ex (u v : ℝ × ℝ) : fderiv ℝ fEx u v = (0, 2 * u.1 * v.1) := by
  rw [(fEx_deriv u).fderiv]
  simp

theorem smooth_ex (T : ℝ) (p : Nat) : SmoothSolution fEx yEx T p := by
  refine ⟨fun t _ => ?_, fun t _ => ?_⟩
  · have h2 : HasDerivAt (fun t : ℝ => t ^ 3 / 3) (t ^ 2) t := by
      exact ((hasDerivAt_pow 3 t).div_const 3).congr_deriv (by push_cast; ring)
    exact (HasDerivAt.prodMk (hasDerivAt_id t) h2).hasDerivWithinAt
  · exact (contDiff_const.prodMk (contDiff_fst.pow 2)).contDiffAt

theorem phi_ex (k : Nat) (h : ℝ) (u v : ℝ × ℝ) :
    phi k (h • fderiv ℝ fEx u) v = (v.1 / (k.factorial : ℝ), v.2 / (k.factorial : ℝ) + h * (2 * u.1 * v.1) / ((k + 1).factorial : ℝ)) := by
  unfold phi
  have one : (h • fderiv ℝ fEx u) v = (0, h * (2 * u.1 * v.1)) := by
    rw [ContinuousLinearMap.smul_apply, jac_ex]; simp
  have z : ∀ j ∉ Finset.range 2, ((j + k).factorial : ℝ)⁻¹ • ((h • fderiv ℝ fEx u) ^ j) v = 0 := by
    intro j hj
    obtain ⟨i, rfl⟩ : ∃ i, j = i + 2 := ⟨j - 2, by simp at hj; omega⟩
    have two : ((h • fderiv ℝ fEx u) ^ 2) v = 0 := by
      rw [pow_succ, pow_one, ContinuousLinearMap.mul_apply, one, ContinuousLinearMap.smul_apply, jac_ex]
      simp
    rw [pow_add, ContinuousLinearMap.mul_apply, two, map_zero, smul_zero]
  rw [tsum_eq_sum z, Finset.sum_range_succ, Finset.sum_range_succ, Finset.sum_range_zero, zero_add, pow_zero, pow_one, one, add_comm 1 k, zero_add]
  ext
  · simp [div_eq_inv_mul]
  · simp [div_eq_inv_mul]

theorem init_ex (h : ℝ) (u : ℝ × ℝ) : (exact fEx).initStep u h = (u.1 + h, u.2 + h * u.1 ^ 2 + h ^ 2 * u.1) := by
  simp only [exact, phiSum, List.length_cons, List.length_nil, Finset.sum_range_succ, Finset.sum_range_zero, zero_add, phi_ex]
  ext
  · simp [fEx]
  · simp [fEx, Nat.factorial]
    ring

theorem init_iter (δ : ℝ) (u : ℝ × ℝ) : ∀ k : Nat, (fun x => (exact fEx).initStep x δ)^[k] u =
    (u.1 + k * δ, u.2 + ((u.1 + k * δ) ^ 3 - u.1 ^ 3) / 3 - k * δ ^ 3 / 3)
  | 0 => by simp
  | k + 1 => by
    rw [Function.iterate_succ_apply', init_iter δ u k, init_ex]
    ext
    · simp; ring
    · simp; ring

/-- a regular step solves the example exactly -/
theorem regular_ex (cfg : Cfg ℝ) (hN : 1 ≤ cfg.maxPhi) (oc : OrderConditions (entry cfg) (cfg.maxPhi + 1) cfg.nPrev 3) (h : ℝ) (u : ℝ × ℝ)
    (P : Nat → ℝ × ℝ) (hP : ∀ i < cfg.nPrev, (P i).1 = u.1 - (i + 1) * h) :
    u + h • (exact fEx).phi u h (multistepVectors cfg (exact fEx) u P) = (u.1 + h, u.2 + ((u.1 + h) ^ 3 - u.1 ^ 3) / 3) := by
  have ve : multistepVectors cfg (exact fEx) u P = vecList (entry cfg) (cfg.maxPhi + 1) cfg.nPrev (fEx u)
      fun i => (fEx (P i) - fEx u) - fderiv ℝ fEx u (P i - u) := rfl
  have rem : ∀ i < cfg.nPrev, (fEx (P i) - fEx u) - fderiv ℝ fEx u (P i - u) = (0, ((i : ℝ) + 1) ^ 2 * h ^ 2) := by
    intro i hi
    rw [jac_ex]
    ext
    · simp [fEx]
    · simp [fEx, hP i hi]; ring
  have vec : ∀ row, vecs (entry cfg) cfg.nPrev (fEx u) (fun i => (fEx (P i) - fEx u) - fderiv ℝ fEx u (P i - u)) row =
      ((if row = 1 then 1 else 0), (if row = 1 then u.1 ^ 2 else 0) + h ^ 2 * ∑ i ∈ Finset.range cfg.nPrev, entry cfg row i * ((i : ℝ) + 1) ^ 2) := by
    intro row
    unfold vecs
    have : ∑ i ∈ Finset.range cfg.nPrev, entry cfg row i • ((fEx (P i) - fEx u) - fderiv ℝ fEx u (P i - u)) =
        (0, h ^ 2 * ∑ i ∈ Finset.range cfg.nPrev, entry cfg row i * ((i : ℝ) + 1) ^ 2) := by
      rw [Finset.sum_congr rfl fun i hi => by rw [rem i (Finset.mem_range.1 hi)], Finset.mul_sum]
      ext
      · simp [Prod.fst_sum]
      · simp only [Prod.snd_sum, Prod.smul_snd, smul_eq_mul]
        exact Finset.sum_congr rfl fun i _ => by ring
    rw [this]
    by_cases h1 : row = 1 <;> simp [h1, fEx]
  have cond := oc 0 2 le_rfl (by norm_num)
  have s1 : ∑ row ∈ Finset.range (cfg.maxPhi + 1), ((if row = 1 then (1 : ℝ) else 0) / (row.factorial : ℝ)) = 1 := by
    rw [Finset.sum_eq_single 1]
    · simp
    · intro b _ hb; simp [hb]
    · intro hb; simp at hb; omega
  have s2 : ∀ x : ℝ, ∑ row ∈ Finset.range (cfg.maxPhi + 1), (h * (2 * u.1 * (if row = 1 then (1 : ℝ) else 0)) / ((row + 1).factorial : ℝ)) = h * u.1 := by
    intro x
    rw [Finset.sum_eq_single 1]
    · norm_num [Nat.factorial]; ring
    · intro b _ hb; simp [hb]
    · intro hb; simp at hb; omega
  have s3 : ∑ row ∈ Finset.range (cfg.maxPhi + 1), ((if row = 1 then u.1 ^ 2 else 0) / (row.factorial : ℝ)) = u.1 ^ 2 := by
    rw [Finset.sum_eq_single 1]
    · simp
    · intro b _ hb; simp [hb]
    · intro hb; simp at hb; omega
  have s4 : ∑ row ∈ Finset.range (cfg.maxPhi + 1), (h ^ 2 * (∑ i ∈ Finset.range cfg.nPrev, entry cfg row i * ((i : ℝ) + 1) ^ 2) / (row.factorial : ℝ)) =
      h ^ 2 / 3 := by
    have : ∀ row ∈ Finset.range (cfg.maxPhi + 1), h ^ 2 * (∑ i ∈ Finset.range cfg.nPrev, entry cfg row i * ((i : ℝ) + 1) ^ 2) / (row.factorial : ℝ) =
        2 * h ^ 2 * ∑ i ∈ Finset.range cfg.nPrev, entry cfg row i * (-((i : ℝ) + 1)) ^ 2 / (((2 : Nat).factorial : ℝ) * ((0 + row).factorial : ℝ)) := by
      intro row _
      rw [Finset.mul_sum, Finset.mul_sum, Finset.sum_div]
      refine Finset.sum_congr rfl fun i _ => ?_
      rw [zero_add, show ((2 : Nat).factorial : ℝ) = 2 by norm_num [Nat.factorial]]
      field_simp
    rw [Finset.sum_congr rfl this, ← Finset.mul_sum]
    unfold weight at cond
    rw [cond]
    norm_num [Nat.factorial]
    ring
  have ph : (exact fEx).phi u h (multistepVectors cfg (exact fEx) u P) = (1, u.1 ^ 2 + h ^ 2 / 3 + h * u.1) := by
    rw [ve]
    change phiSum (h • fderiv ℝ fEx u) _ = _
    rw [phiSum_vecList]
    simp only [vec, phi_ex]
    ext
    · rw [Prod.fst_sum]; exact s1
    · rw [Prod.snd_sum]
      simp only [add_div, Finset.sum_add_distrib]
      rw [s3, s4, s2 0]
  rw [ph]
  ext
  · simp
  · simp; ring

/-- the whole run of the example with a constant step -/
theorem run_ex (cfg : Cfg ℝ) (wf : WellFormed cfg) (hN : 1 ≤ cfg.maxPhi) (oc : OrderConditions (entry cfg) (cfg.maxPhi + 1) cfg.nPrev 3) (h : ℝ) (n : Nat) :
    ∃ st, run cfg (exact fEx) (fun _ => h) (yEx 0) n =
      some (st, (n * h, (n * h) ^ 3 / 3 - (min n cfg.nPrev : Nat) * h ^ 3 / (3 * (cfg.substeps : ℝ) ^ 2))) := by
  obtain ⟨q, q0, hq, hrec⟩ := C24_multistep cfg wf (exact fEx) (fun _ => h) (yEx 0)
  have unint : ∀ n, Uninterrupted (fun _ : Nat => h) n cfg.nPrev ↔ cfg.nPrev ≤ n := by
    intro n
    refine ⟨fun hu => hu.1, fun hu => ⟨hu, fun j h1 h2 hr => ?_⟩⟩
    rcases hr with hr | ⟨-, hr⟩
    · omega
    · rw [sub_self, abs_zero] at hr
      norm_num at hr
  have s0 : (cfg.substeps : ℝ) ≠ 0 := by exact_mod_cast wf.sub.ne'
  have main : ∀ n, q n = (n * h, (n * h) ^ 3 / 3 - (min n cfg.nPrev : Nat) * h ^ 3 / (3 * (cfg.substeps : ℝ) ^ 2)) := by
    intro n
    induction n using Nat.strong_induction_on with
    | _ n ih =>
      match n with
      | 0 => rw [q0]; simp [yEx]
      | n + 1 =>
        have hn := ih n (by omega)
        by_cases hu : cfg.nPrev ≤ n
        · rw [(hrec n).1 ((unint n).2 hu), regular_ex cfg hN oc h (q n) (fun i => q (n - 1 - i)) (by
            intro i hi
            rw [ih (n - 1 - i) (by omega), hn]
            have : ((n - 1 - i : Nat) : ℝ) = n - (i + 1) := by
              rw [show n - 1 - i = n - (i + 1) by omega, Nat.cast_sub (by omega)]
              push_cast; ring
            rw [this]; ring), hn]
          rw [min_eq_right hu, min_eq_right (by omega : cfg.nPrev ≤ n + 1)]
          ext
          · simp; ring
          · simp; ring
        · rw [(hrec n).2 (fun h => hu ((unint n).1 h)), init_iter, hn]
          rw [min_eq_left (by omega), min_eq_left (by omega)]
          have e : (cfg.substeps : ℝ) * (h / cfg.substeps) = h := by field_simp
          ext
          · simp only [e]; push_cast; ring
          · simp only [e]
            push_cast
            field_simp
            ring
  obtain ⟨st, hst⟩ := hq n
  exact ⟨st, by rw [hst, main n]⟩

/-- **C92** (negation) The methods of order 4, 5 and 6 and the stiff variants of order 4 and more do not have the order in their name: the first
calls are made with the method of order two, and their error of third order stays.  On `x' = 1, z' = x²`, with solvers without any error and ten
start-up sub-steps, no constant `C` makes `C h⁴` a bound of the error at a fixed time. -/
theorem C92_order_fails (order : Nat) (ho : 4 ≤ order) (cfg : Cfg ℝ) (h : epi order 10 = some cfg ∨ epiStiff order 10 = some cfg) :
    SmoothSolution fEx yEx 1 order ∧ ∀ C h0 : ℝ, 0 < h0 → ∃ (h : ℝ) (n : Nat) (st : St ℝ (ℝ × ℝ)) (Q : ℝ × ℝ), 0 < h ∧ h ≤ h0 ∧ n * h = 1 ∧
      run cfg (exact fEx) (fun _ => h) (yEx 0) n = some (st, Q) ∧ ‖Q - yEx 1‖ = ((order : ℝ) - 2) * h ^ 3 / 300 ∧ C * h ^ 4 < ‖Q - yEx 1‖ := by
  have facts : WellFormed cfg ∧ 1 ≤ cfg.maxPhi ∧ cfg.nPrev = order - 2 ∧ cfg.substeps = 10 ∧ OrderConditions (entry cfg) (cfg.maxPhi + 1) cfg.nPrev 3 := by
    rcases h with h | h
    · obtain ⟨-, hN, hn, oc⟩ := epi_conditions order 10 cfg h
      refine ⟨epi_wellFormed order 10 (by norm_num) cfg h, hN, hn, ?_, fun l j h2 hl => oc l j h2 (by omega)⟩
      unfold epi at h
      obtain ⟨A, -, rfl⟩ := Option.map_eq_some_iff.1 h
      rfl
    · obtain ⟨hN, hn, oc⟩ := stiff_conditions order 10 (by omega) cfg h
      refine ⟨epiStiff_wellFormed order 10 (by norm_num) cfg h, hN, hn, ?_, oc⟩
      unfold epiStiff at h
      rw [if_neg (by omega)] at h
      rw [← Option.some.inj h]
  obtain ⟨wf, hN, hn, hsub, oc⟩ := facts
  refine ⟨smooth_ex 1 order, fun C h0 h00 => ?_⟩
  obtain ⟨k, hk⟩ := exists_nat_gt (max (1 / h0) (300 * |C|))
  set n := k + order with hnd
  have n0 : (0 : ℝ) < n := by
    have : (0 : ℝ) ≤ k := by positivity
    have : (4 : ℝ) ≤ order := by exact_mod_cast ho
    rw [hnd]; push_cast; linarith
  have kn : (k : ℝ) ≤ n := by rw [hnd]; push_cast; linarith [(Nat.cast_nonneg order : (0 : ℝ) ≤ order)]
  obtain ⟨st, hst⟩ := run_ex cfg wf hN oc (1 / n) n
  have one : (n : ℝ) * (1 / n) = 1 := by field_simp
  rw [one, min_eq_right (by omega), hn, hsub] at hst
  have cast : ((order - 2 : Nat) : ℝ) = order - 2 := by rw [Nat.cast_sub (by omega)]; norm_num
  have o2 : (2 : ℝ) ≤ order - 2 := by
    have : (4 : ℝ) ≤ order := by exact_mod_cast ho
    linarith
  have hpos : (0 : ℝ) < 1 / n := by positivity
  have err : ‖((1 : ℝ), (1 : ℝ) ^ 3 / 3 - ((order - 2 : Nat) : ℝ) * (1 / n) ^ 3 / (3 * ((10 : Nat) : ℝ) ^ 2)) - yEx 1‖ = ((order : ℝ) - 2) * (1 / (n : ℝ)) ^ 3 / 300 := by
    have : ((1 : ℝ), (1 : ℝ) ^ 3 / 3 - ((order - 2 : Nat) : ℝ) * (1 / n) ^ 3 / (3 * ((10 : Nat) : ℝ) ^ 2)) - yEx 1 =
        (0, -(((order : ℝ) - 2) * (1 / (n : ℝ)) ^ 3 / 300)) := by
      rw [cast]
      ext
      · simp [yEx]
      · simp [yEx]; ring
    rw [this, Prod.norm_mk, norm_zero, norm_neg, Real.norm_of_nonneg (by positivity), max_eq_right (by positivity)]
  refine ⟨1 / n, n, st, _, hpos, ?_, one, hst, err, ?_⟩
  · rw [div_le_iff₀ n0]
    have : 1 / h0 < n := (le_max_left _ _).trans_lt (hk.trans_le kn)
    rw [div_lt_iff₀ h00] at this
    linarith
  · rw [err]
    have a : 300 * |C| < n := (le_max_right _ _).trans_lt (hk.trans_le kn)
    have b : C * (1 / (n : ℝ)) < 1 / 300 := by
      rw [mul_one_div, div_lt_iff₀ n0]
      linarith [le_abs_self C]
    have c : 0 < (1 / (n : ℝ)) ^ 3 := by positivity
    calc C * (1 / (n : ℝ)) ^ 4 = C * (1 / (n : ℝ)) * (1 / (n : ℝ)) ^ 3 := by ring
      _ < 1 / 300 * (1 / (n : ℝ)) ^ 3 := mul_lt_mul_of_pos_right b c
      _ ≤ ((order : ℝ) - 2) * (1 / (n : ℝ)) ^ 3 / 300 := by nlinarith

/-- Non-vacuity: the integrators exist, the nonlinear example is smooth, its solvers can be exact, and a run with two different step sizes
is admitted and has start-up calls. -/
example : (∃ cfg : Cfg ℝ, epi 6 10 = some cfg) ∧ (∃ cfg : Cfg ℝ, epiStiff 5 10 = some cfg) ∧ SmoothSolution fEx yEx 1 6 ∧
    Accurate fEx yEx 1 1 0 (exact fEx) ∧ Stepwise (fun n => if n < 5 then (1 / 10 : ℝ) else 1 / 20) ∧
    0 < starts (fun n => if n < 5 then (1 / 10 : ℝ) else 1 / 20) 4 3 := by
  refine ⟨⟨_, rfl⟩, ⟨_, rfl⟩, smooth_ex 1 6, exact_accurate _ _ _ _, fun n => ?_, ?_⟩
  · by_cases h : n < 5
    · by_cases h' : n + 1 < 5
      · left; simp [h, h']
      · right; simp only [h, h', if_true, if_false]; norm_num [abs_of_pos]
    · left
      have : ¬ n + 1 < 5 := by omega
      simp [h, this]
  · classical
    unfold starts
    rw [Finset.card_pos]
    exact ⟨0, by
      rw [Finset.mem_filter]
      exact ⟨by simp, fun h => absurd h.1 (by norm_num)⟩⟩

end WxVerif.Props.EpiConvergence
