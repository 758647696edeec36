/-
C47: diagnosed vorticity of a potential flow vanishes (violated).
-/
import Verif.Model.Diagnostic
import Verif.Props.Operators

namespace WxVerif.Props.Diagnostic

open WxVerif.Dfr WxVerif.Diagnostic WxVerif.Props.Operators Polynomial

theorem derivX (n : Nat) (pts f : Nat → ℝ) {j i : Nat} (hj : j < n) (hi : i < n) :
    vecmul (n * n) f (derivativeX2 n (diffSolpt n pts)) (j * n + i) = ∑ a ∈ Finset.range n, diffSolpt n pts i a * f (j * n + a) := by
  have h := df1_2d_line pts f (fun _ => 0) hj hi
  have z : ∀ M : Nat → Nat → ℝ, vecmul (n + n) (fun _ => (0 : ℝ)) M (j * n + i) = 0 := by intro M; simp [vecmul]
  unfold df1_2d at h
  rw [z, add_zero] at h
  rw [h]
  simp [lineDeriv]

theorem derivY (n : Nat) (pts f : Nat → ℝ) {j i : Nat} (hi : i < n) :
    vecmul (n * n) f (derivativeY2 n (diffSolpt n pts)) (j * n + i) = ∑ a ∈ Finset.range n, diffSolpt n pts j a * f (a * n + i) := by
  have h := df2_2d_line (j := j) pts f (fun _ => 0) hi
  have z : ∀ M : Nat → Nat → ℝ, vecmul (n + n) (fun _ => (0 : ℝ)) M (j * n + i) = 0 := by intro M; simp [vecmul]
  unfold df2_2d at h
  rw [z, add_zero] at h
  rw [h]
  simp [lineDeriv]

/-- what the uncorrected differentiation matrix makes of a constant: not zero at some point, as soon as there are two points -/
theorem row_sum_ne (n : Nat) (hn : 2 ≤ n) (pts : Nat → ℝ) (hinj : Set.InjOn (extension n pts) (Finset.range (n + 2))) :
    ∃ i < n, ∑ a ∈ Finset.range n, diffSolpt n pts i a ≠ 0 := by
  have inj : ∀ a < n, ∀ b < n, pts a = pts b → a = b := by
    intro a ha b hb h
    have := hinj (x₁ := a + 1) (x₂ := b + 1) (by simp; omega) (by simp; omega) (by rw [extension_mid pts ha, extension_mid pts hb, h])
    omega
  have m1 : ∀ a < n, pts a ≠ -1 := by
    intro a ha h
    have := hinj (x₁ := a + 1) (x₂ := 0) (by simp; omega) (by simp) (by rw [extension_mid pts ha, extension_zero, h])
    omega
  have p1 : ∀ a < n, pts a ≠ 1 := by
    intro a ha h
    have := hinj (x₁ := a + 1) (x₂ := n + 1) (by simp; omega) (by simp) (by rw [extension_mid pts ha, extension_last, h])
    omega
  set W : ℝ[X] := Lagrange.nodal (Finset.range n) pts with hW
  have hW1 : W.eval 1 ≠ 0 := by
    rw [hW, Lagrange.eval_nodal, Finset.prod_ne_zero_iff]
    intro a ha
    exact sub_ne_zero.mpr (p1 a (Finset.mem_range.mp ha)).symm
  have hWm : W.eval (-1) ≠ 0 := by
    rw [hW, Lagrange.eval_nodal, Finset.prod_ne_zero_iff]
    intro a ha
    exact sub_ne_zero.mpr (m1 a (Finset.mem_range.mp ha)).symm
  set α : ℝ := ((-1 / W.eval 1) - (-1 / W.eval (-1))) / 2 with hα
  set β : ℝ := ((-1 / W.eval 1) + (-1 / W.eval (-1))) / 2 with hβ
  set A : ℝ[X] := C α * X + C β with hA
  set p : ℝ[X] := 1 + W * A with hp
  have hWd : W.natDegree = n := by rw [hW, Lagrange.natDegree_nodal, Finset.card_range]
  have hAd : A.natDegree ≤ 1 := by rw [hA]; exact natDegree_linear_le
  have hpd : p.degree < ((n + 2 : Nat) : WithBot Nat) := by
    have : p.natDegree ≤ n + 1 := by
      rw [hp]
      refine (natDegree_add_le _ _).trans (max_le (by simp) ?_)
      exact (natDegree_mul_le).trans (by omega)
    exact lt_of_le_of_lt degree_le_natDegree (by exact_mod_cast (by omega))
  have e0 : ∀ a < n, W.eval (pts a) = 0 := fun a ha => Lagrange.eval_nodal_at_node (Finset.mem_range.mpr ha)
  have ep : ∀ a < n, p.eval (pts a) = 1 := by intro a ha; simp [hp, e0 a ha]
  have ep1 : p.eval 1 = 0 := by
    have : A.eval 1 = -1 / W.eval 1 := by simp [hA, hα, hβ]; ring
    simp only [hp, eval_add, eval_one, eval_mul, this]
    field_simp; ring
  have epm : p.eval (-1) = 0 := by
    have : A.eval (-1) = -1 / W.eval (-1) := by simp [hA, hα, hβ]; ring
    simp only [hp, eval_add, eval_one, eval_mul, this]
    field_simp; ring
  have ed : ∀ a < n, (derivative p).eval (pts a) = (derivative W).eval (pts a) * A.eval (pts a) := by
    intro a ha
    simp [hp, e0 a ha]
  have hW' : ∀ a < n, (derivative W).eval (pts a) ≠ 0 := by
    intro a ha
    rw [hW, Lagrange.eval_nodal_derivative_eval_node_eq (Finset.mem_range.mpr ha), Lagrange.eval_nodal, Finset.prod_ne_zero_iff]
    intro b hb
    have hb' := Finset.mem_erase.mp hb
    exact sub_ne_zero.mpr fun h => hb'.1 (inj b (Finset.mem_range.mp hb'.2) a ha h.symm)
  by_contra hcon
  push Not at hcon
  have hz : ∀ a < n, A.eval (pts a) = 0 := by
    intro a ha
    have h1 := C42_corrected n pts hinj p hpd a ha
    rw [ep1, epm, mul_zero, mul_zero, add_zero, add_zero, ed a ha] at h1
    have h2 : ∑ j ∈ Finset.range n, diffSolpt n pts a j * p.eval (pts j) = ∑ j ∈ Finset.range n, diffSolpt n pts a j :=
      Finset.sum_congr rfl fun j hj => by rw [ep j (Finset.mem_range.mp hj), mul_one]
    rw [h2, hcon a ha] at h1
    exact (mul_eq_zero.mp h1.symm).resolve_left (hW' a ha)
  have h0 := hz 0 (by omega)
  have h1 := hz 1 (by omega)
  simp only [hA, eval_add, eval_mul, eval_C, eval_X] at h0 h1
  have hne : pts 0 ≠ pts 1 := fun h => by have := inj 0 (by omega) 1 (by omega) h; omega
  have hα0 : α = 0 := by
    have : α * (pts 0 - pts 1) = 0 := by linear_combination h0 - h1
    exact (mul_eq_zero.mp this).resolve_right (sub_ne_zero.mpr hne)
  have hβ0 : β = 0 := by rw [hα0] at h0; linarith
  have hc : p.eval 1 = 1 := by simp [hp, hA, hα0, hβ0]
  rw [ep1] at hc
  exact zero_ne_one hc

/-- **C47 is violated**, on every grid with at least two distinct points per element inside it and every metric: the flow whose
covariant components are the gradient of the potential `φ(x1, x2) = x1`, that is `(1, 0)`, has a diagnosed relative vorticity that is
not zero at some point. -/
theorem C47_fails (n : Nat) (hn : 2 ≤ n) (pts : Nat → ℝ) (hinj : Set.InjOn (extension n pts) (Finset.range (n + 2))) (m : Metric2)
    (hG : ∀ c, m.invSqrtG c ≠ 0) (u1 u2 : Nat → ℝ) (h1 : ∀ c, u1Dual m u1 u2 c = 1) (h2 : ∀ c, u2Dual m u1 u2 c = 0) :
    ∃ j < n, ∃ i < n, relativeVorticity n pts m u1 u2 (j * n + i) ≠ 0 := by
  obtain ⟨i, hi, hs⟩ := row_sum_ne n hn pts hinj
  refine ⟨0, by omega, i, hi, ?_⟩
  simp only [relativeVorticity]
  rw [derivX n pts _ (by omega) hi, derivY n pts _ hi]
  simp only [h1, h2, mul_one, mul_zero, Finset.sum_const_zero, sub_zero]
  exact mul_ne_zero (hG _) hs

/-- such a metric and flow exist, also with a metric that is not diagonal -/
example : ∃ (m : Metric2) (u1 u2 : Nat → ℝ), (∀ c, m.invSqrtG c ≠ 0) ∧ (∀ c, u1Dual m u1 u2 c = 1) ∧ (∀ c, u2Dual m u1 u2 c = 0) ∧
    m.Hcov 0 1 0 ≠ 0 :=
  ⟨⟨fun a b _ => if a = b then 2 else 1, fun _ => 1, fun _ => 0⟩, fun _ => 2 / 3, fun _ => -1 / 3, by
    simp [u1Dual, u2Dual]; norm_num⟩

/-- What the code computes: the first covariant component differentiated along the first direction minus the second one along the
second direction (the curl is the second along the first minus the first along the second), both without the interface correction
that makes the differentiation exact (C42). -/
theorem C47_components (n : Nat) (pts : Nat → ℝ) (m : Metric2) (u1 u2 : Nat → ℝ) (j i : Nat) (hj : j < n) (hi : i < n) :
    relativeVorticity n pts m u1 u2 (j * n + i) = m.invSqrtG (j * n + i) *
      (∑ a ∈ Finset.range n, diffSolpt n pts i a * u1Dual m u1 u2 (j * n + a) -
        ∑ a ∈ Finset.range n, diffSolpt n pts j a * u2Dual m u1 u2 (a * n + i)) := by
  simp only [relativeVorticity]
  rw [derivX n pts _ hj hi, derivY n pts _ hi]

/-- **C47** (part) A fluid at rest has no relative vorticity; its absolute vorticity is the Coriolis parameter, its potential
vorticity the Coriolis parameter divided by the depth.  Missing: all other potential flows (see `C47_fails`). -/
theorem C47_partial (n : Nat) (pts : Nat → ℝ) (m : Metric2) (h : Nat → ℝ) (c : Nat) :
    relativeVorticity n pts m (fun _ => 0) (fun _ => 0) c = 0 ∧ absoluteVorticity n pts m (fun _ => 0) (fun _ => 0) c = m.coriolis c ∧
      potentialVorticity n pts m h (fun _ => 0) (fun _ => 0) c = m.coriolis c / h c ∧
      potentialEnstrophy n pts m h (fun _ => 0) (fun _ => 0) c = m.coriolis c ^ 2 / (2 * h c) := by
  have : relativeVorticity n pts m (fun _ => 0) (fun _ => 0) c = 0 := by
    simp [relativeVorticity, u1Dual, u2Dual, vecmul]
  simp [absoluteVorticity, potentialVorticity, potentialEnstrophy, this]

end WxVerif.Props.Diagnostic
