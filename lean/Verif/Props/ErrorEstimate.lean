import Verif.Spec.ErrorEstimate
import Verif.Props.ConvergenceAdaptive

/-!
# C27: what the solver with step control accepts
-/

namespace WxVerif.Props.ErrorEstimate

open WxVerif.RungeKutta WxVerif.Props.RungeKutta WxVerif.SpecErrorEstimate
open WxVerif.Props.Convergence (stageAt stages_eq stageAt_succ combine_range)

variable {V : Type*} [NormedAddCommGroup V] [NormedSpace ℝ V]

/-- the derivatives of the step, with the one at the end of the step -/
noncomputable def derivatives (p : Problem V) (s : Solver V) (h : ℝ) (i : Nat) : V :=
  if i < p.nStages then stageAt p s.t h s.y s.k0 i else p.f (s.t + h) (advance p s h)

theorem derivatives_lt (p : Problem V) (s : Solver V) (h : ℝ) {i : Nat} (hi : i < p.nStages) :
    derivatives p s h i = stageAt p s.t h s.y s.k0 i := if_pos hi

theorem stages_derivatives {p : Problem V} (n : 0 < p.nStages) (s : Solver V) (h : ℝ) :
    stages p s.t h s.y s.k0 (p.nStages - 1) = (List.range p.nStages).map (derivatives p s h) := by
  rw [stages_eq, Nat.sub_add_cancel n]
  exact List.map_congr_left fun i hi => (derivatives_lt p s h (List.mem_range.1 hi)).symm

theorem stageDerivatives {p : Problem V} (n : 0 < p.nStages) (s : Solver V) (h : ℝ) :
    StageDerivatives p s.t h s.y s.k0 (advance p s h) (derivatives p s h) := by
  refine ⟨?_, fun i hi hin => ?_, if_neg (lt_irrefl _)⟩
  · rw [derivatives_lt p s h n]; rfl
  · obtain ⟨i, rfl⟩ : ∃ k, i = k + 1 := ⟨i - 1, by omega⟩
    rw [derivatives_lt p s h hin, stageAt_succ]
    congr 3
    refine Finset.sum_congr rfl fun j hj => ?_
    rw [derivatives_lt p s h ((Finset.mem_range.1 hj).trans hin)]

theorem advance_eq {p : Problem V} (n : 0 < p.nStages) (s : Solver V) (h : ℝ) :
    advance p s h = solution h s.y p.B p.nStages (derivatives p s h) := by
  rw [advance, stages_derivatives n, combine_range, solution]

theorem errorOf_eq {p : Problem V} (n : 0 < p.nStages) (s : Solver V) (h : ℝ) :
    errorOf p s h = p.errNorm s.y (advance p s h)
      (h • ∑ i ∈ Finset.range (p.nStages + 1), p.E i • derivatives p s h i) := by
  have hl : derivatives p s h p.nStages = p.f (s.t + h) (advance p s h) := if_neg (lt_irrefl _)
  unfold errorOf
  dsimp only
  rw [stages_derivatives n]
  by_cases hf : fsal p
  · rw [if_pos hf, ← hl, ← combine_range, List.range_succ, List.map_append, List.map_cons, List.map_nil]
  · have h0 : p.E p.nStages = 0 := not_not.1 hf
    rw [if_neg hf, combine_range, Finset.sum_range_succ, h0, zero_smul, add_zero]

/-- **C27**: a step of the solver with step control is accepted on the estimate of its error. For every tableau,
    right-hand side, norm of the error and state of the solver: when a call does not fail, the new state is the
    one of the weights of the tableau, and the norm of the difference between it and the solution with the
    compared weights (the embedded solution) was below one. -/
theorem C27_error_estimate {p : Problem V} (g : Good p) (n : 0 < p.nStages) {s s' : Solver V} (r : Ready p s)
    (hM : ∀ M, p.maxStep = some M → minStep p s ≤ M) (h : Next p s s') (ok : s'.status ≠ .failed) :
    ∃ K, StageDerivatives p s.t (s'.t - s.t) s.y s.k0 s'.y K ∧
      s'.y = solution (s'.t - s.t) s.y p.B p.nStages K ∧
      ∃ e, e < 1 ∧ p.errNorm s.y s'.y (s'.y - solution (s'.t - s.t) s.y (compared p) (p.nStages + 1) K) = .fin e := by
  have a : Accepted p s s' := by
    obtain ⟨s'', h', a | f⟩ := C27_step g r hM
    · rwa [next_unique h h']
    · exact absurd (next_unique h h' ▸ f.status) ok
  obtain ⟨e, -, -, he, hE⟩ := a.error
  refine ⟨derivatives p s (s'.t - s.t), a.state ▸ stageDerivatives n s _, a.state.trans (advance_eq n s _), e, he, ?_⟩
  rw [errorOf_eq n, ← a.state] at hE
  rw [← hE]
  congr 1
  have hy : s'.y = s.y + (s'.t - s.t) • ∑ i ∈ Finset.range (p.nStages + 1),
      (if i < p.nStages then p.B i else 0) • derivatives p s (s'.t - s.t) i := by
    rw [Finset.sum_range_succ, if_neg (lt_irrefl _), zero_smul, add_zero,
      Finset.sum_congr rfl fun i hi => by rw [if_pos (Finset.mem_range.1 hi)]]
    exact a.state.trans (advance_eq n s _)
  conv_lhs => rw [hy]
  simp only [solution, compared, sub_smul, Finset.sum_sub_distrib, smul_sub]
  abel

/-- the solver `witness` of `C53_carried_derivative_fails` makes such a step -/
example : ∃ (p : Problem ℝ) (s s' : Solver ℝ), Good p ∧ Ready p s ∧ Next p s s' ∧ s'.status ≠ .failed := by
  obtain ⟨p, s, s', g, r, h, ok, -⟩ := C53_carried_derivative_fails
  exact ⟨p, s, s', g, r, h, ok⟩

/-- with the weights 1/2, 1/2 of Heun's method and the estimate against Euler's method, the compared weights are
    those of Euler's method -/
example (p : Problem ℝ) (h : p.nStages = 2) (hB : p.B = fun _ => 1 / 2)
    (hE : p.E = fun i => if i = 0 then -1 / 2 else if i = 1 then 1 / 2 else 0) :
    compared p 0 = 1 ∧ compared p 1 = 0 ∧ compared p 2 = 0 := by
  simp only [compared, h, hB, hE]
  norm_num

end WxVerif.Props.ErrorEstimate
