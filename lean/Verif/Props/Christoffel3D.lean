import Verif.Model.Christoffel3D
import Mathlib.Algebra.BigOperators.Fin
import Mathlib.Tactic.Ring
import Mathlib.Tactic.LinearCombination
import Mathlib.Tactic.FieldSimp
import Mathlib.Tactic.FinCases

/-!
# C58: numerically computed Christoffel symbols keep a fluid of constant pressure at rest
-/

namespace WxVerif.Props.Christoffel3D

open WxVerif.Christoffel3D Matrix

/-- **C58.** The linear system states the identity of its comment:
`(√g h^ab),c = √g (h^ab Γ^d_cd − h^db Γ^a_dc − h^ad Γ^b_cd)`. -/
theorem C58_identity (s : ℝ) (h : Matrix (Fin 3) (Fin 3) ℝ) (g : Fin 3 → Matrix (Fin 3) (Fin 3) ℝ)
    (Γ : Fin 3 → Fin 3 → Fin 3 → ℝ) :
    Solves s h g Γ ↔ ∀ a b c, g c a b =
      s * (h a b * ∑ d, Γ d c d - ∑ d, h d b * Γ a d c - ∑ d, h a d * Γ b c d) := by
  have key : ∀ a b c, ∑ e, ∑ f, ∑ q, lhs s h a b c e f q * Γ e f q =
      s * (h a b * ∑ d, Γ d c d - ∑ d, h d b * Γ a d c - ∑ d, h a d * Γ b c d) := by
    intro a b c
    have one : ∀ (x : ℝ) (i j k : Fin 3), ∑ e, ∑ f, ∑ q, (if (e, f, q) = (i, j, k) then x else 0) * Γ e f q = x * Γ i j k := by
      intro x i j k
      rw [Finset.sum_eq_single i, Finset.sum_eq_single j, Finset.sum_eq_single k]
      · simp
      · intro q _ hq; simp [hq]
      · simp
      · intro f _ hf; apply Finset.sum_eq_zero; intro q _; simp [hf]
      · simp
      · intro e _ he; apply Finset.sum_eq_zero; intro f _; apply Finset.sum_eq_zero; intro q _; simp [he]
      · simp
    have : ∀ d : Fin 3, ∑ e, ∑ f, ∑ q, ((if (e, f, q) = (d, c, d) then s * h a b else 0)
        - (if (e, f, q) = (a, d, c) then s * h d b else 0)
        - (if (e, f, q) = (b, c, d) then s * h a d else 0)) * Γ e f q =
        s * h a b * Γ d c d - s * h d b * Γ a d c - s * h a d * Γ b c d := by
      intro d
      simp only [sub_mul, Finset.sum_sub_distrib, one]
    calc ∑ e, ∑ f, ∑ q, lhs s h a b c e f q * Γ e f q
        = ∑ d, ∑ e, ∑ f, ∑ q, ((if (e, f, q) = (d, c, d) then s * h a b else 0)
        - (if (e, f, q) = (a, d, c) then s * h d b else 0)
        - (if (e, f, q) = (b, c, d) then s * h a d else 0)) * Γ e f q := by
          simp only [lhs, Finset.sum_mul]
          symm
          rw [Finset.sum_comm]
          refine Finset.sum_congr rfl (fun e _ => ?_)
          rw [Finset.sum_comm]
          refine Finset.sum_congr rfl (fun f _ => ?_)
          rw [Finset.sum_comm]
      _ = _ := by rw [Finset.sum_congr rfl (fun d _ => this d)]; simp only [Fin.sum_univ_three]; ring
  constructor
  · intro hs a b c; rw [← key]; exact (hs a b c).symm
  · intro hs a b c; rw [key]; exact (hs a b c).symm

/-- **C58.** Any solution is symmetric in its lower indices, whatever the discrete derivatives. -/
theorem C58_torsion_free {s : ℝ} (hs : s ≠ 0) {h : Matrix (Fin 3) (Fin 3) ℝ} (hh : h.IsSymm) (hdet : IsUnit h.det)
    {g : Fin 3 → Matrix (Fin 3) (Fin 3) ℝ} (hg : ∀ c, (g c).IsSymm) {Γ : Fin 3 → Fin 3 → Fin 3 → ℝ}
    (hΓ : Solves s h g Γ) (a b c : Fin 3) : Γ a b c = Γ a c b := by
  rw [C58_identity] at hΓ
  have hsym : ∀ i j, h i j = h j i := fun i j => (hh.apply i j).symm
  -- raised torsion is symmetric in the first two indices
  have hU : ∀ a b c, ∑ d, h b d * (Γ a d c - Γ a c d) = ∑ d, h a d * (Γ b d c - Γ b c d) := by
    intro a b c
    have e1 := hΓ a b c
    have e2 := hΓ b a c
    have e3 : g c a b = g c b a := (hg c).apply b a
    have h4 : h a b = h b a := hsym a b
    have : s * (∑ d, h b d * (Γ a d c - Γ a c d)) = s * ∑ d, h a d * (Γ b d c - Γ b c d) := by
      simp only [Fin.sum_univ_three] at e1 e2 ⊢
      rw [hsym 0 b, hsym 1 b, hsym 2 b] at e1
      rw [hsym 0 a, hsym 1 a, hsym 2 a, ← h4] at e2
      linear_combination e1 - e2 - e3
    exact mul_left_cancel₀ hs this
  -- lowered torsion
  set k := h⁻¹ with hk
  have hkh : k * h = 1 := Matrix.nonsing_inv_mul _ hdet
  let T : Fin 3 → Fin 3 → Fin 3 → ℝ := fun a d c => Γ a d c - Γ a c d
  have hT : ∀ a d c, T a d c = -T a c d := fun a d c => by simp only [T]; ring
  let W : Fin 3 → Fin 3 → Fin 3 → ℝ := fun p d c => ∑ a, k p a * T a d c
  have hkh' : ∀ i j, ∑ x, k i x * h x j = if i = j then 1 else 0 := by
    intro i j
    have := congrFun (congrFun hkh i) j
    rw [Matrix.mul_apply, Matrix.one_apply] at this
    exact this
  -- lower the second index of U
  have hW : ∀ p d c, W p d c = ∑ a, ∑ b, k p a * k d b * ∑ e, h b e * T a e c := by
    intro p d c
    have : ∀ a, T a d c = ∑ b, k d b * ∑ e, h b e * T a e c := by
      intro a
      simp only [Finset.mul_sum]
      rw [Finset.sum_comm]
      have : ∀ e, ∑ b, k d b * (h b e * T a e c) = (if d = e then 1 else 0) * T a e c := by
        intro e; rw [← hkh' d e, Finset.sum_mul]; exact Finset.sum_congr rfl (fun b _ => by ring)
      simp only [this]
      simp
    simp only [W]
    apply Finset.sum_congr rfl
    intro a _
    rw [this a, Finset.mul_sum]
    exact Finset.sum_congr rfl (fun b _ => by ring)
  have hWs : ∀ p d c, W p d c = W d p c := by
    intro p d c
    rw [hW, hW, Finset.sum_comm]
    apply Finset.sum_congr rfl; intro b _
    apply Finset.sum_congr rfl; intro a _
    rw [hU a b c]
    ring
  have hWa : ∀ p d c, W p d c = -W p c d := by
    intro p d c
    simp only [W, ← Finset.sum_neg_distrib]
    exact Finset.sum_congr rfl (fun a _ => by rw [hT a d c]; ring)
  have hW0 : ∀ p d c, W p d c = 0 := by
    intro p d c
    have : W p d c = -W p d c := by
      calc W p d c = W d p c := hWs _ _ _
        _ = -W d c p := hWa _ _ _
        _ = -W c d p := by rw [hWs d c p]
        _ = W c p d := by rw [hWa c d p]; ring
        _ = W p c d := hWs _ _ _
        _ = -W p d c := hWa _ _ _
    linarith
  have hhk : h * k = 1 := Matrix.mul_nonsing_inv _ hdet
  have hhk' : ∀ i j, ∑ x, h i x * k x j = if i = j then 1 else 0 := by
    intro i j
    have := congrFun (congrFun hhk i) j
    rw [Matrix.mul_apply, Matrix.one_apply] at this
    exact this
  have hT0 : T a b c = 0 := by
    have : T a b c = ∑ p, h a p * W p b c := by
      simp only [W, Finset.mul_sum]
      rw [Finset.sum_comm]
      have : ∀ e, ∑ p, h a p * (k p e * T e b c) = (if a = e then 1 else 0) * T e b c := by
        intro e; rw [← hhk' a e, Finset.sum_mul]; exact Finset.sum_congr rfl (fun b _ => by ring)
      simp only [this]
      simp
    rw [this]; simp [hW0]
  simp only [T] at hT0
  linarith

/-- **C58.** The contracted identity: the discrete divergence of `√g h^{ac}` is minus the metric term. -/
theorem C58_divergence {s : ℝ} (hs : s ≠ 0) {h : Matrix (Fin 3) (Fin 3) ℝ} (hh : h.IsSymm) (hdet : IsUnit h.det)
    {g : Fin 3 → Matrix (Fin 3) (Fin 3) ℝ} (hg : ∀ c, (g c).IsSymm) {Γ : Fin 3 → Fin 3 → Fin 3 → ℝ}
    (hΓ : Solves s h g Γ) (a : Fin 3) : ∑ c, g c a c = -(s * ∑ b, ∑ c, h b c * Γ a b c) := by
  have ht := C58_torsion_free hs hh hdet hg hΓ
  rw [C58_identity] at hΓ
  have e : ∀ c, g c a c = s * (h a c * ∑ d, Γ d c d - ∑ d, h d c * Γ a d c - ∑ d, h a d * Γ c d c) := by
    intro c; rw [hΓ a c c]; congr 2; exact Finset.sum_congr rfl (fun d _ => by rw [ht c c d])
  simp only [e, Fin.sum_univ_three]
  ring

/-- **C58.** In three dimensions the system has at most one solution: its 27 × 27 matrix is regular (so the
linear solver does not fail), for every regular symmetric metric. -/
theorem C58_unique {s : ℝ} (hs : s ≠ 0) {h : Matrix (Fin 3) (Fin 3) ℝ} (hh : h.IsSymm) (hdet : IsUnit h.det)
    {g : Fin 3 → Matrix (Fin 3) (Fin 3) ℝ} {Γ Γ' : Fin 3 → Fin 3 → Fin 3 → ℝ}
    (hΓ : Solves s h g Γ) (hΓ' : Solves s h g Γ') : Γ = Γ' := by
  -- the difference solves the homogeneous system
  have hsym : ∀ i j, h i j = h j i := fun i j => (hh.apply i j).symm
  let Δ : Fin 3 → Fin 3 → Fin 3 → ℝ := fun a b c => Γ a b c - Γ' a b c
  have hΔ : Solves s h 0 Δ := by
    intro a b c
    have e1 := hΓ a b c
    have e2 := hΓ' a b c
    simp only [rhs] at e1 e2
    simp only [Δ, mul_sub, Finset.sum_sub_distrib, e1, e2, rhs, Pi.zero_apply, Matrix.zero_apply, sub_self]
  have ht := C58_torsion_free hs hh hdet (fun c => by simp [Matrix.IsSymm]) hΔ
  rw [C58_identity] at hΔ
  have h0 : ∀ a b c, h a b * ∑ d, Δ d c d = ∑ d, h b d * Δ a c d + ∑ d, h a d * Δ b c d := by
    intro a b c
    have e := hΔ a b c
    simp only [Pi.zero_apply, Matrix.zero_apply] at e
    have e' := (mul_eq_zero.mp e.symm).resolve_left hs
    have : ∑ d, h d b * Δ a d c = ∑ d, h b d * Δ a c d :=
      Finset.sum_congr rfl (fun d _ => by rw [hsym d b, ht a d c])
    rw [this] at e'
    linarith
  set k := h⁻¹ with hk
  have hkh : k * h = 1 := Matrix.nonsing_inv_mul _ hdet
  have hkh' : ∀ i j, ∑ x, k i x * h x j = if i = j then 1 else 0 := by
    intro i j
    have := congrFun (congrFun hkh i) j
    rw [Matrix.mul_apply, Matrix.one_apply] at this
    exact this
  -- contraction with the inverse: 3 S = 2 S
  have hS : ∀ c, ∑ d, Δ d c d = 0 := by
    intro c
    have e : ∑ a, ∑ b, k b a * (h a b * ∑ d, Δ d c d) =
        ∑ a, ∑ b, k b a * (∑ d, h b d * Δ a c d + ∑ d, h a d * Δ b c d) := by
      simp only [h0 _ _ c]
    have l : ∑ a, ∑ b, k b a * (h a b * ∑ d, Δ d c d) = 3 * ∑ d, Δ d c d := by
      rw [Finset.sum_comm]
      have : ∀ b, ∑ a, k b a * (h a b * ∑ d, Δ d c d) = ∑ d, Δ d c d := by
        intro b
        have := hkh' b b
        rw [if_pos rfl] at this
        calc ∑ a, k b a * (h a b * ∑ d, Δ d c d) = (∑ a, k b a * h a b) * ∑ d, Δ d c d := by
              rw [Finset.sum_mul]; exact Finset.sum_congr rfl (fun a _ => by ring)
          _ = _ := by rw [this, one_mul]
      simp only [this, Finset.sum_const, Finset.card_univ, Fintype.card_fin]
      simp
    have ksym : ∀ i j, k i j = k j i := by
      have : kᵀ = k := by rw [hk, Matrix.transpose_nonsing_inv, hh]
      intro i j
      exact congrFun (congrFun this j) i
    have r1 : ∑ a, ∑ b, k b a * ∑ d, h b d * Δ a c d = ∑ d, Δ d c d := by
      have : ∀ a, ∑ b, k b a * ∑ d, h b d * Δ a c d = Δ a c a := by
        intro a
        calc ∑ b, k b a * ∑ d, h b d * Δ a c d = ∑ d, (∑ b, k a b * h b d) * Δ a c d := by
              simp only [Finset.mul_sum, Finset.sum_mul]
              rw [Finset.sum_comm]
              exact Finset.sum_congr rfl (fun d _ => Finset.sum_congr rfl (fun b _ => by rw [ksym b a]; ring))
          _ = _ := by simp [hkh']
      simp only [this]
    have r2 : ∑ a, ∑ b, k b a * ∑ d, h a d * Δ b c d = ∑ d, Δ d c d := by
      rw [Finset.sum_comm]
      have : ∀ b, ∑ a, k b a * ∑ d, h a d * Δ b c d = Δ b c b := by
        intro b
        calc ∑ a, k b a * ∑ d, h a d * Δ b c d = ∑ d, (∑ a, k b a * h a d) * Δ b c d := by
              simp only [Finset.mul_sum, Finset.sum_mul]
              rw [Finset.sum_comm]
              exact Finset.sum_congr rfl (fun d _ => Finset.sum_congr rfl (fun a _ => by ring))
          _ = _ := by simp [hkh']
      simp only [this]
    simp only [mul_add, Finset.sum_add_distrib] at e
    rw [l] at e
    linarith
  -- so `h^{bd} Δ^a_{cd}` is antisymmetric in (a, b); lowered it is symmetric in (c, d): zero
  have hA : ∀ a b c, ∑ d, h b d * Δ a c d = -∑ d, h a d * Δ b c d := by
    intro a b c
    have e := h0 a b c
    rw [hS c, mul_zero] at e
    linarith
  let W : Fin 3 → Fin 3 → Fin 3 → ℝ := fun p d c => ∑ a, k p a * Δ a c d
  have hW : ∀ p d c, W p d c = ∑ a, ∑ b, k p a * k d b * ∑ e, h b e * Δ a c e := by
    intro p d c
    have : ∀ a, Δ a c d = ∑ b, k d b * ∑ e, h b e * Δ a c e := by
      intro a
      simp only [Finset.mul_sum]
      rw [Finset.sum_comm]
      have : ∀ e, ∑ b, k d b * (h b e * Δ a c e) = (if d = e then 1 else 0) * Δ a c e := by
        intro e; rw [← hkh' d e, Finset.sum_mul]; exact Finset.sum_congr rfl (fun b _ => by ring)
      simp only [this]
      simp
    simp only [W]
    apply Finset.sum_congr rfl
    intro a _
    rw [this a, Finset.mul_sum]
    exact Finset.sum_congr rfl (fun b _ => by ring)
  have hWa : ∀ p d c, W p d c = -W d p c := by
    intro p d c
    rw [hW, hW, Finset.sum_comm, ← Finset.sum_neg_distrib]
    apply Finset.sum_congr rfl; intro b _
    rw [← Finset.sum_neg_distrib]
    apply Finset.sum_congr rfl; intro a _
    rw [hA a b c]
    ring
  have hWs : ∀ p d c, W p d c = W p c d := by
    intro p d c
    simp only [W]
    exact Finset.sum_congr rfl (fun a _ => by rw [ht a c d])
  have hW0 : ∀ p d c, W p d c = 0 := by
    intro p d c
    have : W p d c = -W p d c := by
      calc W p d c = -W d p c := hWa _ _ _
        _ = -W d c p := by rw [hWs]
        _ = W c d p := by rw [hWa d c p]; ring
        _ = W c p d := hWs _ _ _
        _ = -W p c d := hWa _ _ _
        _ = -W p d c := by rw [hWs p c d]
    linarith
  have hhk : h * k = 1 := Matrix.mul_nonsing_inv _ hdet
  have hhk' : ∀ i j, ∑ x, h i x * k x j = if i = j then 1 else 0 := by
    intro i j
    have := congrFun (congrFun hhk i) j
    rw [Matrix.mul_apply, Matrix.one_apply] at this
    exact this
  funext a c d
  have : Δ a c d = ∑ p, h a p * W p d c := by
    simp only [W, Finset.mul_sum]
    rw [Finset.sum_comm]
    have : ∀ e, ∑ p, h a p * (k p e * Δ e c d) = (if a = e then 1 else 0) * Δ e c d := by
      intro e; rw [← hhk' a e, Finset.sum_mul]; exact Finset.sum_congr rfl (fun b _ => by ring)
    simp only [this]
    simp
  have z : Δ a c d = 0 := by rw [this]; simp [hW0]
  simp only [Δ] at z
  linarith

/-- The metric forcing is the full double sum, because the symbols are symmetric. -/
theorem forcing_eq {h Γ0 : Matrix (Fin 3) (Fin 3) ℝ} (hh : h.IsSymm) {Γ : Fin 3 → Fin 3 → Fin 3 → ℝ}
    (ht : ∀ a b c, Γ a b c = Γ a c b) (r : ℝ) (u : Fin 3 → ℝ) (p : ℝ) (a : Fin 3) :
    forcing h Γ0 Γ r u p a = 2 * r * ∑ b, Γ0 a b * u b + ∑ b, ∑ c, Γ a b c * (r * u b * u c + h b c * p) := by
  have h10 : h 1 0 = h 0 1 := hh.apply 0 1
  have h20 : h 2 0 = h 0 2 := hh.apply 0 2
  have h21 : h 2 1 = h 1 2 := hh.apply 1 2
  simp only [forcing, forcing1, Fin.sum_univ_three, ht a 1 0, ht a 2 0, ht a 2 1, h10, h20, h21]
  ring

/-- **C58.** A fluid at rest with constant pressure stays at rest: for every metric, rotation rate, density and
pressure, the momentum tendency without gravity is zero, when the symbols solve the code's linear system with
the same discrete derivative `D` as the flux divergence (linear, zero on constants). -/
theorem C58_rest {E : Type} [AddCommGroup E] [Module ℝ E] {D : Fin 3 → E →ₗ[ℝ] ℝ} {sh : Fin 3 → Fin 3 → E}
    (hsh : ∀ a b, sh a b = sh b a) {logp : E} (hlog : ∀ c, D c logp = 0)
    {s : ℝ} (hs : s ≠ 0) {h : Matrix (Fin 3) (Fin 3) ℝ} (hh : h.IsSymm) (hdet : IsUnit h.det) (Γ0 : Matrix (Fin 3) (Fin 3) ℝ)
    {Γ : Fin 3 → Fin 3 → Fin 3 → ℝ} (hΓ : Solves s h (fun c => Matrix.of fun a b => D c (sh a b)) Γ) (r p : ℝ) (a : Fin 3) :
    restTendency D sh logp s h Γ0 Γ r p a = 0 := by
  have hg : ∀ c, (Matrix.of fun a b => D c (sh a b)).IsSymm := by
    intro c; ext i j; simp only [Matrix.transpose_apply, Matrix.of_apply]; rw [hsh]
  have hd := C58_divergence hs hh hdet hg hΓ a
  have ht := C58_torsion_free hs hh hdet hg hΓ
  have hx : -(1 / s) * ∑ c, p * D c (sh a c) = forcing h Γ0 Γ r 0 p a := by
    rw [forcing_eq hh ht, ← Finset.mul_sum]
    simp only [Matrix.of_apply] at hd
    rw [hd]
    simp only [Pi.zero_apply, mul_zero, Finset.sum_const_zero, zero_add, Fin.sum_univ_three]
    field_simp
  unfold restTendency
  by_cases h2 : a = 2
  · rw [if_pos h2]
    simp only [hlog, mul_zero, add_zero]
    rw [hx, sub_self]
  · rw [if_neg h2]
    simp only [map_smul, smul_eq_mul]
    rw [hx, sub_self]

/-- The hypotheses are met by a metric that varies with the position (a conformal factor that grows in the
first direction). -/
example : ∃ (h : Matrix (Fin 3) (Fin 3) ℝ) (g : Fin 3 → Matrix (Fin 3) (Fin 3) ℝ) (Γ : Fin 3 → Fin 3 → Fin 3 → ℝ),
    h.IsSymm ∧ IsUnit h.det ∧ (∀ c, (g c).IsSymm) ∧ g ≠ 0 ∧ Solves 2 h g Γ := by
  -- conformal factor growing in the first direction: Γ^a_bc = δ^a_b φ_c + δ^a_c φ_b − δ_bc φ^a, φ = (1,0,0)
  refine ⟨1, fun c => if c = 0 then !![2, 0, 0; 0, 2, 0; 0, 0, 2] else 0,
    fun a b c => (if a = b ∧ c = 0 then 1 else 0) + (if a = c ∧ b = 0 then 1 else 0) - (if b = c ∧ a = 0 then 1 else 0),
    by simp [Matrix.IsSymm], by simp, ?_, ?_, ?_⟩
  · intro c
    by_cases hc : c = 0
    · simp only [if_pos hc]; ext i j; fin_cases i <;> fin_cases j <;> rfl
    · simp only [if_neg hc]; simp [Matrix.IsSymm]
  · intro h0
    have := congrFun (congrFun (congrFun h0 0) 0) 0
    simp at this
  · rw [C58_identity]
    intro a b c
    simp only [Fin.sum_univ_three]
    fin_cases a <;> fin_cases b <;> fin_cases c <;> simp [Matrix.one_apply] <;> norm_num

end WxVerif.Props.Christoffel3D
