import Verif.Lemmas.EpiConvergence
import Verif.Props.Epi

/-!
# Lemmas for the convergence of the exponential propagation integrators: perturbed steps and runs
-/

namespace WxVerif.EpiConvergence

open Set SpecConvergence SpecEpiConvergence Epi

universe u

variable {V : Type u} [NormedAddCommGroup V] [NormedSpace ℝ V]

/-- the remainders of perturbed states are close to those of the exact ones -/
theorem remainder_close {f : V → V} {y : ℝ → V} {T ρ K tol : ℝ} (ρ1 : ρ ≤ 1) (K1 : 1 ≤ K) (n : NearE f y T ρ K) (tol0 : 0 ≤ tol)
    {ext : Ext ℝ V} (hx : Accurate f y T ρ tol ext) {t t' ε : ℝ} (ht : t ∈ Icc 0 T) (ht' : t' ∈ Icc 0 T) (hε : ε ≤ ρ) {u P : V}
    (hu : ‖u - y t‖ ≤ ε) (hP : ‖P - y t'‖ ≤ ε) :
    ‖((f P - f u) - ext.jac u (P - u)) - ((f (y t') - f (y t)) - fderiv ℝ f (y t) (y t' - y t))‖ ≤ (4 * K + 2 * K ^ 2 + 3) * (ε + tol) := by
  have ε0 : 0 ≤ ε := (norm_nonneg _).trans hu
  have a1 := (n.lip t' ht' P (hP.trans hε)).trans (mul_le_mul_of_nonneg_left hP (by linarith))
  have a2 := (n.lip t ht u (hu.trans hε)).trans (mul_le_mul_of_nonneg_left hu (by linarith))
  have a3 := hx.jac u ⟨t, ht, hu.trans hε⟩ (P - u)
  have nJ : ‖fderiv ℝ f u‖ ≤ K := by linarith [n.Jb t ht u (hu.trans hε)]
  have a4 := (n.Jlip t ht u (hu.trans hε)).trans (mul_le_mul_of_nonneg_left hu (by linarith))
  have b1 : ‖(P - u) - (y t' - y t)‖ ≤ 2 * ε := by
    rw [show (P - u) - (y t' - y t) = (P - y t') - (u - y t) by abel]
    exact (norm_sub_le _ _).trans (by linarith)
  have b2 : ‖y t' - y t‖ ≤ 2 * K := (norm_sub_le _ _).trans (by linarith [n.yb t ht, n.yb t' ht'])
  have b3 : ‖P - u‖ ≤ 2 * K + 2 := by
    have := norm_add_le ((P - u) - (y t' - y t)) (y t' - y t)
    rw [sub_add_cancel] at this
    linarith
  have c1 : ‖fderiv ℝ f u ((P - u) - (y t' - y t))‖ ≤ K * (2 * ε) :=
    (ContinuousLinearMap.le_opNorm _ _).trans (mul_le_mul nJ b1 (norm_nonneg _) (by linarith))
  have c2 : ‖(fderiv ℝ f u - fderiv ℝ f (y t)) (y t' - y t)‖ ≤ K * ε * (2 * K) :=
    (ContinuousLinearMap.le_opNorm _ _).trans (mul_le_mul a4 b2 (norm_nonneg _) (by positivity))
  have c3 : tol * (1 + ‖P - u‖) ≤ tol * (2 * K + 3) := mul_le_mul_of_nonneg_left (by linarith) tol0
  have e : ((f P - f u) - ext.jac u (P - u)) - ((f (y t') - f (y t)) - fderiv ℝ f (y t) (y t' - y t)) =
      (f P - f (y t')) - (f u - f (y t)) - (ext.jac u (P - u) - fderiv ℝ f u (P - u)) - fderiv ℝ f u ((P - u) - (y t' - y t)) -
        (fderiv ℝ f u - fderiv ℝ f (y t)) (y t' - y t) := by
    rw [ContinuousLinearMap.sub_apply, map_sub (fderiv ℝ f u) (P - u)]
    abel
  rw [e]
  have n1 := norm_sub_le (f P - f (y t')) (f u - f (y t))
  have n2 := norm_sub_le ((f P - f (y t')) - (f u - f (y t))) (ext.jac u (P - u) - fderiv ℝ f u (P - u))
  have n3 := norm_sub_le ((f P - f (y t')) - (f u - f (y t)) - (ext.jac u (P - u) - fderiv ℝ f u (P - u))) (fderiv ℝ f u ((P - u) - (y t' - y t)))
  refine (norm_sub_le _ _).trans ?_
  nlinarith [mul_nonneg (by linarith : 0 ≤ K) tol0, mul_nonneg (sq_nonneg K) tol0]

theorem perturbed_step [CompleteSpace V] {f : V → V} {y : ℝ → V} {T ρ K : ℝ} {p : Nat} (hT : 0 < T) (hp : 1 ≤ p) (hs : SmoothSolution f y T p)
    (ρ0 : 0 < ρ) (ρ1 : ρ ≤ 1) (K1 : 1 ≤ K) (n : NearE f y T ρ K) (α : Nat → Nat → ℝ) {N : Nat} (hN : 2 ≤ N) (m : Nat) (oc : OrderConditions α N m p) :
    ∃ C, 0 ≤ C ∧ ∀ tol, 0 ≤ tol → tol ≤ 1 → ∀ ext : Ext ℝ V, Accurate f y T ρ tol ext → ∀ t h ε : ℝ, 0 < h → h ≤ 1 → 0 ≤ t - m * h → t + h ≤ T →
      ε ≤ ρ → ∀ (u : V) (P : Nat → V), ‖u - y t‖ ≤ ε → (∀ i < m, ‖P i - y (t - (i + 1) * h)‖ ≤ ε) →
      ‖u + h • ext.phi u h (vecList α N m (f u) fun i => (f (P i) - f u) - ext.jac u (P i - u)) - y (t + h)‖ ≤
        ‖u - y t‖ + h * (C * (ε + h ^ p + tol)) := by
  obtain ⟨C0, C00, cons⟩ := consistent hT hp hs (M := K) (fun t ht => by
    have := n.Jb t ht (y t) (by simpa using ρ0.le); linarith) α hN m oc
  obtain ⟨Cφ, Cφ0, hφ⟩ := phi_trunc (V := V) p (K := K) (by linarith)
  obtain ⟨R, R0, hR⟩ : ∃ R : ℝ, 0 ≤ R ∧ ∀ row < N, ∀ i < m, |α row i| ≤ R := by
    refine ⟨∑ row ∈ Finset.range N, ∑ i ∈ Finset.range m, |α row i|, Finset.sum_nonneg fun _ _ => Finset.sum_nonneg fun _ _ => abs_nonneg _,
      fun row hr i hi => ?_⟩
    refine (Finset.single_le_sum (f := fun i => |α row i|) (fun _ _ => abs_nonneg _) (Finset.mem_range.2 hi)).trans ?_
    exact Finset.single_le_sum (f := fun row => ∑ i ∈ Finset.range m, |α row i|) (fun _ _ => Finset.sum_nonneg fun _ _ => abs_nonneg _)
      (Finset.mem_range.2 hr)
  set c := 4 * K + 2 * K ^ 2 + 3 with hc
  have c0 : 0 ≤ c := by positivity
  set D := K + m * R * c with hD
  have D0 : 0 ≤ D := by positivity
  set W := K + m * R * (2 * K + K * (2 * K)) with hW
  have W0 : 0 ≤ W := by positivity
  set Vb := W + 2 * D with hV
  have V0 : 0 ≤ Vb := by positivity
  set E := (1 + N * Vb) + N * (Cφ * Vb) + N * (p * K ^ p * (D + K * W)) + C0 with hE
  have E0 : 0 ≤ E := by positivity
  refine ⟨E, E0, fun tol tol0 tol1 ext hx t h ε h0 h1 t0 tT hερ u P hu hP => ?_⟩
  have ε0 : 0 ≤ ε := (norm_nonneg _).trans hu
  have mh : 0 ≤ (m : ℝ) * h := by positivity
  have ht : t ∈ Icc 0 T := ⟨by linarith, by linarith⟩
  have htb : ∀ i < m, t - ((i : ℝ) + 1) * h ∈ Icc 0 T := by
    intro i hi
    have hi' : (i : ℝ) + 1 ≤ m := by exact_mod_cast hi
    have ih : ((i : ℝ) + 1) * h ≤ m * h := mul_le_mul_of_nonneg_right hi' h0.le
    have i0 : 0 ≤ ((i : ℝ) + 1) * h := by positivity
    exact ⟨by linarith, by linarith⟩
  have hyt : ‖y t - y t‖ ≤ ρ := by simpa using ρ0.le
  set J := fderiv ℝ f u with hJ
  set J0 := fderiv ℝ f (y t) with hJ0
  have Jb := n.Jb t ht u (hu.trans hερ)
  have J0b := n.Jb t ht (y t) hyt
  have JJ : ‖J - J0‖ ≤ K * ε := (n.Jlip t ht u (hu.trans hερ)).trans (mul_le_mul_of_nonneg_left hu (by linarith))
  set r := fun i : Nat => (f (P i) - f u) - ext.jac u (P i - u) with hr
  set r0 := fun i : Nat => (f (y (t - (i + 1) * h)) - f (y t)) - J0 (y (t - (i + 1) * h) - y t) with hr0
  have rc : ∀ i < m, ‖r i - r0 i‖ ≤ c * (ε + tol) := fun i hi => remainder_close ρ1 K1 n tol0 hx ht (htb i hi) hερ hu (hP i hi)
  have r0b : ∀ i < m, ‖r0 i - 0‖ ≤ 2 * K + K * (2 * K) := by
    intro i hi
    rw [sub_zero]
    refine (norm_sub_le _ _).trans (add_le_add ((norm_sub_le _ _).trans (by linarith [n.fb t ht, n.fb _ (htb i hi)])) ?_)
    refine (ContinuousLinearMap.le_opNorm _ _).trans (mul_le_mul (by linarith) ((norm_sub_le _ _).trans (by linarith [n.yb t ht, n.yb _ (htb i hi)]))
      (norm_nonneg _) (by linarith))
  set v := vecs α m (f u) r with hv
  set w := vecs α m (f (y t)) r0 with hw
  have fu : ‖f u - f (y t)‖ ≤ K * (ε + tol) :=
    (n.lip t ht u (hu.trans hερ)).trans (mul_le_mul_of_nonneg_left (by linarith) (by linarith))
  have vw : ∀ row < N, ‖v row - w row‖ ≤ D * (ε + tol) := by
    intro row hrow
    refine (vecs_bound hR hrow (f u) (f (y t)) r r0 fu rc).trans_eq ?_
    rw [hD]; ring
  have wb : ∀ row < N, ‖w row‖ ≤ W := by
    intro row hrow
    have := vecs_bound hR hrow (f (y t)) 0 r0 (fun _ => 0) (a := K) (by rw [sub_zero]; exact n.fb t ht) r0b
    have z : vecs α m (0 : V) (fun _ => 0) row = 0 := by simp [vecs]
    rw [z, sub_zero] at this
    exact this
  have vb : ∀ row < N, ‖v row‖ ≤ Vb := by
    intro row hrow
    have h1 := norm_add_le (v row - w row) (w row)
    rw [sub_add_cancel] at h1
    have h2 := vw row hrow
    have h3 := wb row hrow
    have h4 : D * (ε + tol) ≤ D * 2 := mul_le_mul_of_nonneg_left (by linarith) D0
    rw [hV]; linarith
  set η := ε + h ^ p + tol with hη
  have hp0 : 0 ≤ h ^ p := by positivity
  -- the solver
  have s1 : ‖ext.phi u h (vecList α N m (f u) r) - ∑ row ∈ Finset.range N, phi row (h • J) (v row)‖ ≤ (1 + N * Vb) * η := by
    have := hx.phi u ⟨t, ht, hu.trans hερ⟩ h h0 (by linarith [ht.1]) (vecList α N m (f u) r)
    rw [phiSum_vecList, sum_norm_vecList] at this
    refine this.trans ?_
    have q : ∑ row ∈ Finset.range N, ‖vecs α m (f u) r row‖ ≤ N * Vb := by
      refine (Finset.sum_le_sum fun row hrow => vb row (Finset.mem_range.1 hrow)).trans_eq ?_
      rw [Finset.sum_const, Finset.card_range, nsmul_eq_mul]
    have q2 : tol * (1 + ∑ row ∈ Finset.range N, ‖vecs α m (f u) r row‖) ≤ tol * (1 + N * Vb) := mul_le_mul_of_nonneg_left (by linarith) tol0
    have q3 : (1 + N * Vb) * tol ≤ (1 + N * Vb) * η := mul_le_mul_of_nonneg_left (by rw [hη]; linarith) (by positivity)
    linarith
  -- the truncation
  have s2 : ‖∑ row ∈ Finset.range N, phi row (h • J) (v row) - ∑ row ∈ Finset.range N, trunc p row h J (v row)‖ ≤ N * (Cφ * Vb) * η := by
    rw [← Finset.sum_sub_distrib]
    refine (norm_sum_le _ _).trans ?_
    have : ∀ row ∈ Finset.range N, ‖phi row (h • J) (v row) - trunc p row h J (v row)‖ ≤ Cφ * Vb * η := by
      intro row hrow
      refine (hφ row h h0.le h1 J (by linarith) (v row)).trans ?_
      have b := vb row (Finset.mem_range.1 hrow)
      have : h ^ p ≤ η := by rw [hη]; linarith
      calc Cφ * h ^ p * ‖v row‖ ≤ Cφ * η * Vb := by gcongr
        _ = _ := by ring
    refine (Finset.sum_le_sum this).trans_eq ?_
    rw [Finset.sum_const, Finset.card_range, nsmul_eq_mul]
    ring
  -- the states
  have s3 : ‖∑ row ∈ Finset.range N, trunc p row h J (v row) - ∑ row ∈ Finset.range N, trunc p row h J0 (w row)‖ ≤
      N * (p * K ^ p * (D + K * W)) * η := by
    rw [← Finset.sum_sub_distrib]
    refine (norm_sum_le _ _).trans ?_
    have : ∀ row ∈ Finset.range N, ‖trunc p row h J (v row) - trunc p row h J0 (w row)‖ ≤ p * K ^ p * ((D + K * W) * η) := by
      intro row hrow
      have hrow := Finset.mem_range.1 hrow
      refine (trunc_diff p row h0.le h1 Jb J0b _ _).trans (mul_le_mul_of_nonneg_left ?_ (by positivity))
      have b1 := vw row hrow
      have b2 : ‖J - J0‖ * ‖w row‖ ≤ K * ε * W := mul_le_mul JJ (wb row hrow) (norm_nonneg _) (by positivity)
      have b3 : D * (ε + tol) ≤ D * η := mul_le_mul_of_nonneg_left (by rw [hη]; linarith) D0
      have b4 : K * W * ε ≤ K * W * η := mul_le_mul_of_nonneg_left (by rw [hη]; linarith) (by positivity)
      linarith
    refine (Finset.sum_le_sum this).trans_eq ?_
    rw [Finset.sum_const, Finset.card_range, nsmul_eq_mul]
    ring
  have s4 := cons t h h0 h1 t0 tT
  set A := ext.phi u h (vecList α N m (f u) r)
  set B := ∑ row ∈ Finset.range N, phi row (h • J) (v row)
  set G := ∑ row ∈ Finset.range N, trunc p row h J (v row)
  set H := ∑ row ∈ Finset.range N, trunc p row h J0 (w row)
  have split : u + h • A - y (t + h) = (u - y t) + h • ((A - B) + (B - G) + (G - H)) + (y t + h • H - y (t + h)) := by
    rw [show (A - B) + (B - G) + (G - H) = A - H by abel, smul_sub]
    abel
  rw [split]
  have s5 : ‖h • ((A - B) + (B - G) + (G - H))‖ ≤ h * ((1 + N * Vb) * η + N * (Cφ * Vb) * η + N * (p * K ^ p * (D + K * W)) * η) := by
    rw [norm_smul, Real.norm_of_nonneg h0.le]
    refine mul_le_mul_of_nonneg_left ?_ h0.le
    refine (norm_add_le _ _).trans (add_le_add ((norm_add_le _ _).trans (add_le_add s1 s2)) s3)
  have s6 : C0 * h ^ (p + 1) ≤ h * (C0 * η) := by
    rw [pow_succ]
    have : C0 * h ^ p ≤ C0 * η := mul_le_mul_of_nonneg_left (by rw [hη]; linarith) C00
    have := mul_le_mul_of_nonneg_left this h0.le
    linarith
  have n1 := norm_add_le ((u - y t) + h • ((A - B) + (B - G) + (G - H))) (y t + h • H - y (t + h))
  have n2 := norm_add_le (u - y t) (h • ((A - B) + (B - G) + (G - H)))
  have : h * (E * η) = h * ((1 + N * Vb) * η + N * (Cφ * Vb) * η + N * (p * K ^ p * (D + K * W)) * η) + h * (C0 * η) := by rw [hE]; ring
  linarith

/-! ## The start-up -/

theorem start_step [CompleteSpace V] {f : V → V} {y : ℝ → V} {T ρ K : ℝ} (hT : 0 < T) (hs : SmoothSolution f y T 2)
    (ρ0 : 0 < ρ) (ρ1 : ρ ≤ 1) (K1 : 1 ≤ K) (n : NearE f y T ρ K) :
    ∃ C, 0 ≤ C ∧ ∀ tol, 0 ≤ tol → tol ≤ 1 → ∀ ext : Ext ℝ V, Accurate f y T ρ tol ext → ∀ t h : ℝ, 0 < h → h ≤ 1 → 0 ≤ t → t + h ≤ T →
      ∀ u : V, ‖u - y t‖ ≤ ρ → ‖ext.initStep u h - y (t + h)‖ ≤ ‖u - y t‖ + h * (C * (‖u - y t‖ + h ^ 2 + tol)) := by
  obtain ⟨C, C0, H⟩ := perturbed_step hT (by norm_num) hs ρ0 ρ1 K1 n (fun _ _ => 0) (N := 2) le_rfl 0 (fun l j h2 hl => by omega)
  refine ⟨C, C0, fun tol tol0 tol1 ext hx t h h0 h1 t0 tT u hu => ?_⟩
  have := H tol tol0 tol1 ext hx t h ‖u - y t‖ h0 h1 (by simpa using t0) tT hu u (fun _ => 0) le_rfl (fun i hi => by omega)
  have e : (vecList (fun _ _ => (0 : ℝ)) 2 0 (f u) fun i => (f 0 - f u) - ext.jac u (0 - u)) = [0, ext.rhs u] := by
    rw [hx.rhs]
    simp [vecList, vecs, List.range_succ]
  rw [e, ← hx.start] at this
  exact this

theorem startup [CompleteSpace V] {f : V → V} {y : ℝ → V} {T ρ K : ℝ} (hT : 0 < T) (hs : SmoothSolution f y T 2)
    (ρ0 : 0 < ρ) (ρ1 : ρ ≤ 1) (K1 : 1 ≤ K) (n : NearE f y T ρ K) :
    ∃ C, 0 ≤ C ∧ ∀ tol, 0 ≤ tol → tol ≤ 1 → ∀ ext : Ext ℝ V, Accurate f y T ρ tol ext → ∀ (s : Nat) (t h : ℝ), 0 < s → 0 < h → h ≤ 1 → 0 ≤ t → t + h ≤ T →
      ∀ u : V, C * (‖u - y t‖ + h ^ 2 + tol) ≤ ρ →
        ‖(fun x => ext.initStep x (h / s))^[s] u - y (t + h)‖ ≤ ‖u - y t‖ + h * (C * (‖u - y t‖ + h ^ 2 + tol)) := by
  obtain ⟨C, C0, H⟩ := start_step hT hs ρ0 ρ1 K1 n
  have x1 : 1 ≤ Real.exp C := Real.one_le_exp C0
  refine ⟨(C + 1) * Real.exp C, by positivity, fun tol tol0 tol1 ext hx s t h s0 h0 h1 t0 tT u hu => ?_⟩
  set δ := h / s with hδ
  have sr : (1 : ℝ) ≤ s := by exact_mod_cast s0
  have δ0 : 0 < δ := by positivity
  have sδ : s * δ = h := by rw [hδ]; field_simp
  have δh : δ ≤ h := by rw [← sδ]; nlinarith
  set η := h ^ 2 + tol with hη
  have η0 : 0 ≤ η := by positivity
  set e0 := ‖u - y t‖ with he0
  have e00 : 0 ≤ e0 := norm_nonneg _
  have grow : ∀ k ≤ s, (1 + δ * C) ^ k ≤ Real.exp (C * h) := by
    intro k hk
    have : 1 + δ * C ≤ Real.exp (δ * C) := by linarith [Real.add_one_le_exp (δ * C)]
    calc (1 + δ * C) ^ k ≤ Real.exp (δ * C) ^ k := pow_le_pow_left₀ (by positivity) this k
      _ = Real.exp (k * (δ * C)) := by rw [← Real.exp_nat_mul]
      _ ≤ Real.exp (C * h) := Real.exp_le_exp.2 (by
        have : (k : ℝ) ≤ s := by exact_mod_cast hk
        have : (k : ℝ) * (δ * C) ≤ s * (δ * C) := mul_le_mul_of_nonneg_right this (by positivity)
        rw [← sδ]; linarith)
  have xh : Real.exp (C * h) ≤ Real.exp C := Real.exp_le_exp.2 (by nlinarith)
  have small : Real.exp C * (e0 + η) ≤ ρ := by
    refine le_trans ?_ hu
    rw [hη, ← add_assoc]
    have : 0 ≤ C * Real.exp C * (e0 + h ^ 2 + tol) := by positivity
    linarith
  have key : ∀ k ≤ s, ‖(fun x => ext.initStep x δ)^[k] u - y (t + k * δ)‖ + η ≤ (1 + δ * C) ^ k * (e0 + η) := by
    intro k
    induction k with
    | zero => intro _; simp [he0]
    | succ k ih =>
      intro hk
      have ih := ih (by omega)
      rw [Function.iterate_succ_apply']
      set x := (fun x => ext.initStep x δ)^[k] u
      have kb : ((k : ℝ) + 1) * δ ≤ h := by
        rw [← sδ]
        exact mul_le_mul_of_nonneg_right (by exact_mod_cast hk) δ0.le
      have xb : ‖x - y (t + k * δ)‖ ≤ ρ := by
        have : (1 + δ * C) ^ k * (e0 + η) ≤ Real.exp C * (e0 + η) :=
          mul_le_mul_of_nonneg_right ((grow k (by omega)).trans xh) (by positivity)
        linarith
      have := H tol tol0 tol1 ext hx (t + k * δ) δ δ0 (by linarith) (by positivity) (by nlinarith) x xb
      rw [show t + k * δ + δ = t + ((k + 1 : Nat) : ℝ) * δ by push_cast; ring] at this
      have d2 : δ ^ 2 ≤ h ^ 2 := pow_le_pow_left₀ δ0.le δh 2
      have : δ * (C * (‖x - y (t + k * δ)‖ + δ ^ 2 + tol)) ≤ δ * (C * (‖x - y (t + k * δ)‖ + η)) := by
        refine mul_le_mul_of_nonneg_left (mul_le_mul_of_nonneg_left ?_ C0) δ0.le
        rw [hη]; linarith
      have m := mul_le_mul_of_nonneg_left ih (by positivity : 0 ≤ 1 + δ * C)
      rw [pow_succ']
      nlinarith
  have fin := key s le_rfl
  rw [sδ] at fin
  have g := grow s le_rfl
  have ex : Real.exp (C * h) ≤ 1 + C * h * Real.exp C := by
    have : 1 - C * h ≤ Real.exp (-(C * h)) := by linarith [Real.add_one_le_exp (-(C * h))]
    have := mul_le_mul_of_nonneg_right this (Real.exp_pos (C * h)).le
    rw [← Real.exp_add, neg_add_cancel, Real.exp_zero] at this
    have : C * h * Real.exp (C * h) ≤ C * h * Real.exp C := mul_le_mul_of_nonneg_left xh (by positivity)
    linarith
  have : (1 + δ * C) ^ s * (e0 + η) ≤ (1 + C * h * Real.exp C) * (e0 + η) := mul_le_mul_of_nonneg_right (g.trans ex) (by positivity)
  have pos : 0 ≤ h * (Real.exp C * (e0 + η)) := by positivity
  have : h * ((C + 1) * Real.exp C * (e0 + h ^ 2 + tol)) = C * h * Real.exp C * (e0 + η) + h * (Real.exp C * (e0 + η)) := by rw [hη]; ring
  linarith

/-! ## The run -/

open Multistep Props.Epi

theorem time_succ (dts : Nat → ℝ) (n : Nat) : time dts (n + 1) = time dts n + dts n := Finset.sum_range_succ _ _

theorem equal_steps {dts : Nat → ℝ} (pos : ∀ n, 0 < dts n) {n m : Nat} (sw : m = 0 ∨ Stepwise dts) (h : Uninterrupted dts n m) :
    ∀ i ≤ m, dts (n - i) = dts n ∧ time dts (n - i) = time dts n - i * dts n := by
  intro i
  induction i with
  | zero => intro _; simp
  | succ i ih =>
    intro hi
    obtain ⟨e, et⟩ := ih (by omega)
    have hr := h.2 (n - i) (by have := h.1; omega) (by omega)
    have hn : n - i = n - (i + 1) + 1 := by have := h.1; omega
    rw [hn] at hr
    have st : dts (n - (i + 1)) = dts (n - (i + 1) + 1) := by
      rcases sw.resolve_left (by omega) (n - (i + 1)) with e | e
      · exact e
      · exact absurd (Or.inr ⟨(pos _).ne', by simpa using e⟩) hr
    rw [← hn] at st
    have ts := time_succ dts (n - (i + 1))
    rw [← hn, et] at ts
    refine ⟨st.trans e, ?_⟩
    rw [st, e] at ts
    push_cast
    linarith

theorem time_nonneg {dts : Nat → ℝ} (pos : ∀ n, 0 < dts n) (n : Nat) : 0 ≤ time dts n := Finset.sum_nonneg fun i _ => (pos i).le

theorem time_mono {dts : Nat → ℝ} (pos : ∀ n, 0 < dts n) {n k : Nat} (h : n ≤ k) : time dts n ≤ time dts k :=
  Finset.sum_le_sum_of_subset_of_nonneg (Finset.range_mono h) fun i _ _ => (pos i).le

open Classical in
/-- what one call adds to the error -/
noncomputable def defect (dts : Nat → ℝ) (m p : Nat) (tol : ℝ) (k : Nat) : ℝ :=
  dts k * (if Uninterrupted dts k m then dts k ^ p + tol else dts k ^ 2 + tol)

theorem defects_le {dts : Nat → ℝ} {h tol : ℝ} (tol0 : 0 ≤ tol) (hd : ∀ n, 0 < dts n ∧ dts n ≤ h) (m p n : Nat) :
    ∑ k ∈ Finset.range n, defect dts m p tol k ≤ time dts n * (h ^ p + tol) + starts dts m n * h ^ 3 := by
  classical
  have h0 : 0 ≤ h := (hd 0).1.le.trans (hd 0).2
  have each : ∀ k, defect dts m p tol k ≤ dts k * (h ^ p + tol) + (if ¬ Uninterrupted dts k m then h ^ 3 else 0) := by
    intro k
    obtain ⟨d0, dh⟩ := hd k
    have hp : 0 ≤ h ^ p := by positivity
    unfold defect
    by_cases hu : Uninterrupted dts k m
    · simp only [hu, if_true, not_true, if_false, add_zero]
      exact mul_le_mul_of_nonneg_left (by linarith [pow_le_pow_left₀ d0.le dh p]) d0.le
    · simp only [hu, if_false, not_false_eq_true, if_true]
      have : dts k * dts k ^ 2 ≤ h ^ 3 := by
        rw [show dts k * dts k ^ 2 = dts k ^ 3 by ring]
        exact pow_le_pow_left₀ d0.le dh 3
      have : 0 ≤ dts k * h ^ p := by positivity
      linarith
  refine (Finset.sum_le_sum fun k _ => each k).trans_eq ?_
  rw [Finset.sum_add_distrib, ← Finset.sum_mul, ← Finset.sum_filter, Finset.sum_const, nsmul_eq_mul]
  unfold time starts
  congr!

theorem defects_small {dts : Nat → ℝ} {h tol : ℝ} (tol0 : 0 ≤ tol) (hd : ∀ n, 0 < dts n ∧ dts n ≤ h) (h1 : h ≤ 1) (m : Nat) {p : Nat} (hp : 2 ≤ p) (n : Nat) :
    ∑ k ∈ Finset.range n, defect dts m p tol k ≤ time dts n * (h ^ 2 + tol) := by
  unfold time
  rw [Finset.sum_mul]
  refine Finset.sum_le_sum fun k _ => ?_
  obtain ⟨d0, dh⟩ := hd k
  refine mul_le_mul_of_nonneg_left ?_ d0.le
  have a : dts k ^ 2 ≤ h ^ 2 := pow_le_pow_left₀ d0.le dh 2
  have b : dts k ^ p ≤ dts k ^ 2 := pow_le_pow_of_le_one d0.le (dh.trans h1) hp
  split_ifs <;> linarith

theorem defect_nonneg {dts : Nat → ℝ} {tol : ℝ} (tol0 : 0 ≤ tol) (pos : ∀ n, 0 < dts n) (m p k : Nat) : 0 ≤ defect dts m p tol k := by
  have := pos k
  unfold defect
  split_ifs <;> positivity

theorem run_converges [CompleteSpace V] {f : V → V} {y : ℝ → V} {T : ℝ} {p : Nat} (hp : 2 ≤ p) (hs : SmoothSolution f y T p)
    (cfg : Cfg ℝ) (wf : WellFormed cfg) (hN : 1 ≤ cfg.maxPhi) (oc : OrderConditions (entry cfg) (cfg.maxPhi + 1) cfg.nPrev p) :
    ∃ C h0 ρ : ℝ, 0 < h0 ∧ 0 < ρ ∧ ∀ h tol, 0 < h → h ≤ h0 → 0 ≤ tol → tol ≤ h0 → ∀ ext : Ext ℝ V, Accurate f y T ρ tol ext →
      ∀ dts : Nat → ℝ, (∀ n, 0 < dts n ∧ dts n ≤ h) → (cfg.nPrev = 0 ∨ Stepwise dts) → ∀ n, time dts n ≤ T →
        ∃ st Q, run cfg ext dts (y 0) n = some (st, Q) ∧ ‖Q - y (time dts n)‖ ≤ C * (h ^ p + starts dts cfg.nPrev n * h ^ 3 + tol) := by
  rcases le_or_gt T 0 with hT | hT
  · refine ⟨0, 1, 1, one_pos, one_pos, fun h tol _ _ _ _ ext _ dts hd _ n hn => ?_⟩
    have : n = 0 := by
      by_contra hne
      obtain ⟨k, rfl⟩ := Nat.exists_eq_succ_of_ne_zero hne
      have := time_nonneg (fun n => (hd n).1) k
      have := time_succ dts k
      have := (hd k).1
      linarith
    subst this
    exact ⟨init, y 0, rfl, by simp [time]⟩
  obtain ⟨ρ, K, ρ0, ρ1, K1, near⟩ := near_exists hp hs
  have hs2 : SmoothSolution f y T 2 := ⟨hs.solves, fun t ht => (hs.smooth t ht).of_le (by exact_mod_cast hp)⟩
  obtain ⟨C1, C10, reg⟩ := perturbed_step hT (by omega) hs ρ0 ρ1 K1 near (entry cfg) (N := cfg.maxPhi + 1) (by omega) cfg.nPrev oc
  obtain ⟨C2, C20, sta⟩ := startup hT hs2 ρ0 ρ1 K1 near
  set G := C1 + C2 + 1 with hG
  have G1 : 1 ≤ G := by linarith
  set X := G * (Real.exp (G * T) * G * T + 1) with hX
  have X0 : 0 < X := by positivity
  set h0 := min 1 (ρ / (2 * X)) with hh0
  have h00 : 0 < h0 := lt_min one_pos (by positivity)
  refine ⟨Real.exp (G * T) * G * (T + 1), h0, ρ, h00, ρ0, fun h tol hpos hh tol0 htol ext hx dts hd sw => ?_⟩
  have h1 : h ≤ 1 := hh.trans (min_le_left _ _)
  have tol1 : tol ≤ 1 := htol.trans (min_le_left _ _)
  have hXρ : X * (h ^ 2 + tol) ≤ ρ := by
    have a : h0 * (2 * X) ≤ ρ := (le_div_iff₀ (by positivity)).1 (min_le_right _ _)
    have b : h ^ 2 ≤ h := by nlinarith
    nlinarith
  have pos : ∀ n, 0 < dts n := fun n => (hd n).1
  obtain ⟨q, q0, hq, hrec⟩ := C24_multistep cfg wf ext dts (y 0)
  set bnd : Nat → ℝ := fun n => Real.exp (G * time dts n) * (G * ∑ k ∈ Finset.range n, defect dts cfg.nPrev p tol k) with hbnd
  have σ0 : ∀ n, 0 ≤ ∑ k ∈ Finset.range n, defect dts cfg.nPrev p tol k := fun n => Finset.sum_nonneg fun k _ => defect_nonneg tol0 pos _ _ k
  have bnd0 : ∀ n, 0 ≤ bnd n := fun n => mul_nonneg (Real.exp_pos _).le (mul_nonneg (by linarith) (σ0 n))
  have bsmall : ∀ n, time dts n ≤ T → G * (bnd n + (h ^ 2 + tol)) ≤ ρ := by
    intro n hn
    have a := defects_small tol0 hd h1 cfg.nPrev hp n
    have b : time dts n * (h ^ 2 + tol) ≤ T * (h ^ 2 + tol) := mul_le_mul_of_nonneg_right hn (by positivity)
    have c : Real.exp (G * time dts n) ≤ Real.exp (G * T) := Real.exp_le_exp.2 (mul_le_mul_of_nonneg_left hn (by linarith))
    have d : bnd n ≤ Real.exp (G * T) * (G * (T * (h ^ 2 + tol))) :=
      mul_le_mul c (mul_le_mul_of_nonneg_left (a.trans b) (by linarith)) (mul_nonneg (by linarith) (σ0 n)) (Real.exp_pos _).le
    refine le_trans ?_ hXρ
    have := mul_le_mul_of_nonneg_left d (by linarith : 0 ≤ G)
    rw [hX]
    linarith
  have grow : ∀ n, (1 + G * dts n) * bnd n + G * defect dts cfg.nPrev p tol n ≤ bnd (n + 1) := by
    intro n
    have e1 : 1 + G * dts n ≤ Real.exp (G * dts n) := by linarith [Real.add_one_le_exp (G * dts n)]
    have e2 : Real.exp (G * time dts (n + 1)) = Real.exp (G * dts n) * Real.exp (G * time dts n) := by
      rw [time_succ, mul_add, Real.exp_add, mul_comm]
    have e3 : 1 ≤ Real.exp (G * time dts (n + 1)) := Real.one_le_exp (mul_nonneg (by linarith) (time_nonneg pos _))
    have e4 : (1 + G * dts n) * bnd n ≤ Real.exp (G * dts n) * bnd n := mul_le_mul_of_nonneg_right e1 (bnd0 n)
    have dn := defect_nonneg tol0 pos cfg.nPrev p n
    have e5 : G * defect dts cfg.nPrev p tol n ≤ Real.exp (G * time dts (n + 1)) * (G * defect dts cfg.nPrev p tol n) :=
      le_mul_of_one_le_left (mul_nonneg (by linarith) dn) e3
    have e6 : bnd (n + 1) = Real.exp (G * dts n) * bnd n + Real.exp (G * time dts (n + 1)) * (G * defect dts cfg.nPrev p tol n) := by
      simp only [hbnd]
      rw [Finset.sum_range_succ, mul_add, mul_add, e2]
      ring
    linarith
  have mono : ∀ n, bnd n ≤ bnd (n + 1) := by
    intro n
    have := grow n
    have := mul_nonneg (mul_nonneg (by linarith : 0 ≤ G) (pos n).le) (bnd0 n)
    have := mul_nonneg (by linarith : 0 ≤ G) (defect_nonneg tol0 pos cfg.nPrev p n)
    linarith
  have main : ∀ n, time dts n ≤ T → ∀ k ≤ n, ‖q k - y (time dts k)‖ ≤ bnd n := by
    intro n
    induction n with
    | zero =>
      intro _ k hk
      have : k = 0 := by omega
      subst this
      rw [q0]
      simpa [time] using bnd0 0
    | succ n ih =>
      intro hn k hk
      have tn : time dts n + dts n ≤ T := by rw [← time_succ]; exact hn
      have hn' : time dts n ≤ T := by linarith [pos n]
      have ih := ih hn'
      rcases Nat.lt_or_ge k (n + 1) with hlt | hge
      · exact (ih k (by omega)).trans (mono n)
      have : k = n + 1 := by omega
      subst this
      have bs := bsmall n hn'
      have ηp : 0 ≤ h ^ 2 + tol := by positivity
      have bρ : bnd n ≤ ρ := by nlinarith [bnd0 n]
      refine le_trans ?_ (grow n)
      rw [time_succ]
      have dn1 : dts n ≤ 1 := (hd n).2.trans h1
      by_cases hu : Uninterrupted dts n cfg.nPrev
      · have es := equal_steps pos sw hu
        rw [(hrec n).1 hu]
        have := reg tol tol0 tol1 ext hx (time dts n) (dts n) (bnd n) (pos n) dn1
          (by rw [← (es cfg.nPrev le_rfl).2]; exact time_nonneg pos _) tn bρ (q n) (fun i => q (n - 1 - i)) (ih n le_rfl) (by
            intro i hi
            have e := (es (i + 1) hi).2
            push_cast at e
            rw [← e, show n - 1 - i = n - (i + 1) by omega]
            exact ih _ (by omega))
        have ve : multistepVectors cfg ext (q n) (fun i => q (n - 1 - i)) = vecList (entry cfg) (cfg.maxPhi + 1) cfg.nPrev (f (q n))
            fun i => (f (q (n - 1 - i)) - f (q n)) - ext.jac (q n) (q (n - 1 - i) - q n) := by
          rw [← hx.rhs]; rfl
        rw [ve]
        refine this.trans ?_
        have de : defect dts cfg.nPrev p tol n = dts n * (dts n ^ p + tol) := by simp [defect, hu]
        rw [de]
        have c1 : C1 * (bnd n + dts n ^ p + tol) ≤ G * (bnd n + dts n ^ p + tol) :=
          mul_le_mul_of_nonneg_right (by rw [hG]; linarith) (by have := pos n; have := bnd0 n; positivity)
        have := mul_le_mul_of_nonneg_left c1 (pos n).le
        linarith [ih n le_rfl]
      · rw [(hrec n).2 hu]
        have eb := ih n le_rfl
        have e0 := norm_nonneg (q n - y (time dts n))
        have d2 : dts n ^ 2 ≤ h ^ 2 := pow_le_pow_left₀ (pos n).le (hd n).2 2
        have sm : C2 * (‖q n - y (time dts n)‖ + dts n ^ 2 + tol) ≤ ρ := by
          refine le_trans ?_ bs
          have : C2 * (‖q n - y (time dts n)‖ + dts n ^ 2 + tol) ≤ G * (‖q n - y (time dts n)‖ + dts n ^ 2 + tol) :=
            mul_le_mul_of_nonneg_right (by rw [hG]; linarith) (by positivity)
          refine this.trans (mul_le_mul_of_nonneg_left ?_ (by linarith))
          linarith
        have := sta tol tol0 tol1 ext hx cfg.substeps (time dts n) (dts n) wf.sub (pos n) dn1 (time_nonneg pos n) tn (q n) sm
        refine this.trans ?_
        have de : defect dts cfg.nPrev p tol n = dts n * (dts n ^ 2 + tol) := by simp [defect, hu]
        rw [de]
        have c1 : C2 * (‖q n - y (time dts n)‖ + dts n ^ 2 + tol) ≤ G * (bnd n + dts n ^ 2 + tol) :=
          mul_le_mul (by rw [hG]; linarith) (by linarith) (by positivity) (by linarith)
        have := mul_le_mul_of_nonneg_left c1 (pos n).le
        linarith
  intro n hn
  obtain ⟨st, hst⟩ := hq n
  refine ⟨st, q n, hst, (main n hn n le_rfl).trans ?_⟩
  have a := defects_le tol0 hd cfg.nPrev p n
  have c : Real.exp (G * time dts n) ≤ Real.exp (G * T) := Real.exp_le_exp.2 (mul_le_mul_of_nonneg_left hn (by linarith))
  set s3 := (starts dts cfg.nPrev n : ℝ) * h ^ 3
  have s0 : 0 ≤ s3 := by positivity
  have hp0 : 0 ≤ h ^ p := by positivity
  have b : time dts n * (h ^ p + tol) + s3 ≤ (T + 1) * (h ^ p + s3 + tol) := by
    have := mul_le_mul_of_nonneg_right hn (by positivity : 0 ≤ h ^ p + tol)
    have : 0 ≤ T * s3 := by positivity
    linarith
  calc bnd n ≤ Real.exp (G * T) * (G * ((T + 1) * (h ^ p + s3 + tol))) :=
        mul_le_mul c (mul_le_mul_of_nonneg_left (a.trans b) (by linarith)) (mul_nonneg (by linarith) (σ0 n)) (Real.exp_pos _).le
    _ = _ := by ring

end WxVerif.EpiConvergence
