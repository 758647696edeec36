import Verif.Props.ConvergenceSplitting
import Verif.Lemmas.EpiConvergence
import Verif.Spec.ExponentialSolver

/-!
# C90: the Rosenbrock–exponential schemes
-/

namespace WxVerif.Props.Convergence

open Set Filter Topology BSeries SpecConvergence RootedTree WxVerif.Schemes UniformTaylor SpecExponentialSolver

universe u

variable {V : Type u} [NormedAddCommGroup V] [NormedSpace ℝ V]

/-- products with the Jacobian of `g` at states near the solution, up to `eps` -/
structure Products (jac : V → V → V) (g : V → V) (y : ℝ → V) (T ρ M Y eps : ℝ) : Prop where
  zero : ∀ t ∈ Icc 0 T, ∀ u, ‖u - y t‖ ≤ ρ / 2 → jac u 0 = 0
  diff : ∀ t ∈ Icc 0 T, ∀ u, ‖u - y t‖ ≤ ρ / 2 → ∀ x x' : V, ‖x‖ ≤ Y + 1 → ‖x'‖ ≤ Y + 1 →
    ‖jac u x - jac u x' - fderiv ℝ g (y t) (x - x')‖ ≤ M * (‖u - y t‖ + eps) * ‖x - x'‖

theorem Products.lip {jac : V → V → V} {g : V → V} {y : ℝ → V} {T ρ M Y eps : ℝ} (p : Products jac g y T ρ M Y eps) (hM : ∀ t ∈ Icc 0 T, ‖fderiv ℝ g (y t)‖ ≤ M)
    (M0 : 0 ≤ M) (ρ1 : ρ ≤ 1) (eps1 : eps ≤ 1) {t : ℝ} (ht : t ∈ Icc 0 T) {u : V} (hu : ‖u - y t‖ ≤ ρ / 2) {x x' : V} (hx : ‖x‖ ≤ Y + 1) (hx' : ‖x'‖ ≤ Y + 1) :
    ‖jac u x - jac u x'‖ ≤ 3 * M * ‖x - x'‖ := by
  have i1 := p.diff t ht u hu x x' hx hx'
  have i2 : ‖fderiv ℝ g (y t) (x - x')‖ ≤ M * ‖x - x'‖ := (ContinuousLinearMap.le_opNorm _ _).trans (mul_le_mul_of_nonneg_right (hM t ht) (norm_nonneg _))
  have i3 := norm_add_le (jac u x - jac u x' - fderiv ℝ g (y t) (x - x')) (fderiv ℝ g (y t) (x - x'))
  rw [sub_add_cancel] at i3
  have i4 : M * (‖u - y t‖ + eps) * ‖x - x'‖ ≤ M * 2 * ‖x - x'‖ :=
    mul_le_mul_of_nonneg_right (mul_le_mul_of_nonneg_left (by linarith) M0) (norm_nonneg _)
  linarith

/-- the equation of a linearly implicit scheme has a solution near the present state -/
theorem implicit_solvable [CompleteSpace V] {jac : V → V → V} {u g : V} {L Y ρ h K : ℝ} (L0 : 0 ≤ L) (ρ0 : 0 < ρ) (ρ1 : ρ ≤ 1) (h0 : 0 < h) (hY : ‖u‖ ≤ Y)
    (lip : ∀ x x' : V, ‖x‖ ≤ Y + 1 → ‖x'‖ ≤ Y + 1 → ‖jac u x - jac u x'‖ ≤ L * ‖x - x'‖) (hg : ‖g‖ ≤ K) (hh : h * (4 * (K + L + 1)) ≤ ρ) (K0 : 0 ≤ K) :
    ∃ z, ‖z - u‖ ≤ ρ / 2 ∧ z - (h / 2) • jac u z = u - (h / 2) • jac u u + h • g := by
  set F : V → V := fun z => jac u z - jac u u with hF
  have lipF : ∀ P Q : V, ‖P‖ ≤ ρ → ‖Q‖ ≤ ρ → ‖F (u + P) - F (u + Q)‖ ≤ L * ‖P - Q‖ := by
    intro P Q hP hQ
    have := lip (u + P) (u + Q) ((norm_add_le _ _).trans (by linarith)) ((norm_add_le _ _).trans (by linarith))
    rw [add_sub_add_left_eq_sub] at this
    simpa only [hF, sub_sub_sub_cancel_right] using this
  have nF : Near F (fun _ => u) 0 (ρ / 2) L := by
    refine ⟨by linarith, L0, fun _ _ P Q hP hQ => lipF P Q (by linarith) (by linarith), fun _ _ P hP => ?_⟩
    have := lipF P 0 (by linarith) (by simp; linarith)
    have z : F (u + 0) = 0 := by simp [hF]
    rw [z, sub_zero, sub_zero] at this
    nlinarith
  have hK : 0 ≤ h * K := by positivity
  have hL : 0 ≤ h * L := by positivity
  obtain ⟨z, hz, ez⟩ := implicit_exists nF (t := 0) (by simp) (u := u) (w := u + h • g) (by simp; linarith) (c := h / 2) (by
    rw [add_sub_cancel_left, norm_smul, Real.norm_of_nonneg h0.le, abs_of_nonneg (by linarith)]
    have := mul_le_mul_of_nonneg_left hg h0.le
    linarith) (by
    rw [abs_of_nonneg (by linarith)]
    linarith)
  refine ⟨z, hz, ?_⟩
  nth_rw 1 [ez]
  simp only [hF]
  module

set_option maxHeartbeats 2000000 in
/-- a linearly implicit scheme with the increment `G` has order two -/
theorem linearly_implicit [CompleteSpace V] {f fI : V → V} {y : ℝ → V} {T : ℝ} (hs : SmoothSolution f y T 2) {ρ L M Y cG : ℝ} (n : Near f y T ρ L) (ρ1 : ρ ≤ 1)
    (M0 : 0 ≤ M) (hMf : ∀ t ∈ Icc 0 T, ‖fderiv ℝ f (y t)‖ ≤ M) (hMI : ∀ t ∈ Icc 0 T, ‖fderiv ℝ fI (y t)‖ ≤ M) (Y1 : 1 ≤ Y) (hY : ∀ t ∈ Icc 0 T, ‖y t‖ ≤ Y - 1)
    (cG0 : 0 ≤ cG) :
    ∃ C δ : ℝ, 0 < δ ∧ ∀ h hmin eps tol η : ℝ, 0 < hmin → hmin ≤ h → h ≤ δ → 0 ≤ eps → eps ≤ δ → 0 ≤ tol → tol ≤ δ * hmin → 0 ≤ η → η ≤ δ →
      ∀ jac, Products jac fI y T ρ M Y eps → ∀ G : V → ℝ → V,
      (∀ t ∈ Icc 0 T, ∀ u, ‖u - y t‖ ≤ ρ / 2 → ∀ h', 0 < h' → h' ≤ h → t + h' ≤ T →
        ‖G u h' - (f u + (h' / 2) • (fderiv ℝ f (y t) - fderiv ℝ fI (y t)) (f (y t)))‖ ≤ cG * (‖u - y t‖ + h' ^ 2) + η) →
      ∀ linear, RelativeSolver (ρ / 2) tol linear → ∀ (dt : Nat → ℝ) (Q : Nat → V), (∀ n, hmin ≤ dt n ∧ dt n ≤ h) → Q 0 = y 0 →
        (∀ n, Q (n + 1) = linear (fun v => v - (dt n / 2) • jac (Q n) v) (Q n - (dt n / 2) • jac (Q n) (Q n) + dt n • G (Q n) (dt n)) (Q n)) →
        ∀ n, time dt n ≤ T → ‖Q n - y (time dt n)‖ ≤ C * (h ^ 2 + eps + tol / hmin + η) := by
  have L0 := n.L0
  have ρ0 := n.ρ0
  set K := L + M * L + 2 * cG + 1 with hK
  have K0 : 0 < K := by positivity
  set B := 2 * Y + 1 with hB
  have B0 : 0 < B := by linarith
  obtain ⟨σ, σ0, σρ, H⟩ := second_order hs (r := ρ / 2) (by linarith)
  set c := M * (K + 1) + M * (3 * M * (K + 1) + M * L + L + 2 * cG) + cG + L with hc
  have c0 : 0 ≤ c := by positivity
  set c2 := B + M * (K + 1) + M * B + M + 1 with hc2
  have c20 : 0 < c2 := by positivity
  obtain ⟨C, δ, δ0, δσ, H⟩ := H c c0
  refine ⟨C * (1 + c2), min (min (δ / (4 * (1 + c2))) 1) (min (ρ / (4 * (K + 3 * M + 1))) (1 / B)), by positivity, ?_⟩
  intro h hmin eps tol η hm0 hmh hδ eps0 epsδ tol0 tolδ η0 ηδ jac hj G hG linear hlin dt Q hdt hQ0 hQ m hm
  have h0 : 0 < h := hm0.trans_le hmh
  set τ := tol / hmin with hτ
  have τ0 : 0 ≤ τ := by positivity
  have τδ := (div_le_iff₀ hm0).2 tolδ
  rw [← hτ] at τδ
  have t1 : ∀ x, x ≤ min (min (δ / (4 * (1 + c2))) 1) (min (ρ / (4 * (K + 3 * M + 1))) (1 / B)) →
      x * (4 * (1 + c2)) ≤ δ ∧ x ≤ 1 ∧ x * (4 * (K + 3 * M + 1)) ≤ ρ ∧ x * B ≤ 1 := by
    intro x hx
    simp only [le_min_iff] at hx
    obtain ⟨⟨x1, x2⟩, x3, x4⟩ := hx
    exact ⟨(le_div_iff₀ (by positivity)).1 x1, x2, (le_div_iff₀ (by positivity)).1 x3, (le_div_iff₀ (by positivity)).1 x4⟩
  obtain ⟨a1, a2, a3, a4⟩ := t1 h hδ
  obtain ⟨b1, b2, b3, b4⟩ := t1 eps epsδ
  obtain ⟨d1, d2, d3, d4⟩ := t1 τ τδ
  obtain ⟨e1, e2, e3, e4⟩ := t1 η ηδ
  -- steps below the smallest are made by an exact solver
  classical
  set exact : (V → V) → V → V → V := fun A b x0 => if g : ∃ z, ‖z - x0‖ ≤ ρ / 2 ∧ A z = b then g.choose else x0 with hex
  have hexact : ∀ (A : V → V) (b x0 : V), (∃ z, ‖z - x0‖ ≤ ρ / 2 ∧ A z = b) → ‖exact A b x0 - x0‖ ≤ ρ / 2 ∧ A (exact A b x0) = b := by
    intro A b x0 g
    simp only [hex, dif_pos g]
    exact g.choose_spec
  set scheme : ((V → V) → V → V → V) → V → ℝ → V := fun lin u h' => lin (fun v => v - (h' / 2) • jac u v) (u - (h' / 2) • jac u u + h' • G u h') u with hscheme
  set step : V → ℝ → V := fun u h' => if hmin ≤ h' then scheme linear u h' else scheme exact u h' with hstep
  have main := H (c2 * (eps + τ + η)) h step (by positivity) h0 (by nlinarith) (by
    intro t h' u t0 h'0 h'h hT hu
    have ht : t ∈ Icc 0 T := ⟨t0, by linarith⟩
    have hy := hY t ht
    have huρ : ‖u - y t‖ ≤ ρ / 2 := hu.trans σρ
    have huY : ‖u‖ ≤ Y := by
      have := norm_add_le (u - y t) (y t)
      rw [sub_add_cancel] at this
      linarith
    have h'K : h' * (4 * (K + 3 * M + 1)) ≤ ρ := (mul_le_mul_of_nonneg_right h'h (by positivity)).trans a3
    have h'1 : h' ≤ 1 := h'h.trans a2
    have hK0 : 0 ≤ h' * K := by positivity
    have hM0 : 0 ≤ h' * M := by positivity
    have hLM : h' * (3 * M) ≤ 1 / 4 := by linarith
    have hKK : h' * K ≤ 1 / 4 := by linarith
    have ε0 := norm_nonneg (u - y t)
    have hsq : h' ^ 2 ≤ 1 := by nlinarith
    have hsq0 : 0 ≤ h' ^ 2 := by positivity
    have lip := fun x x' hx hx' => hj.lip hMI M0 ρ1 b2 ht huρ (x := x) (x' := x') hx hx'
    set g := G u h' with hg
    have gD := hG t ht u huρ h' h'0 h'h hT
    rw [← hg] at gD
    set D := fderiv ℝ f (y t) with hD
    set DI := fderiv ℝ fI (y t) with hDI
    have fy : ‖f (y t)‖ ≤ L := n.bd' ht (by simp; linarith)
    have DE : ‖(h' / 2) • (D - DI) (f (y t))‖ ≤ h' * (M * L) := by
      rw [norm_smul, Real.norm_of_nonneg (by linarith)]
      have i1 : ‖(D - DI) (f (y t))‖ ≤ (M + M) * L :=
        (ContinuousLinearMap.le_opNorm _ _).trans (mul_le_mul ((norm_sub_le _ _).trans (add_le_add (hMf t ht) (hMI t ht))) fy (norm_nonneg _) (by linarith))
      have := mul_le_mul_of_nonneg_left i1 (by linarith : 0 ≤ h' / 2)
      linarith
    have fu : ‖f u‖ ≤ L := n.bd' ht (by linarith)
    have lu : ‖f u - f (y t)‖ ≤ L * ‖u - y t‖ := n.lip' ht (by linarith) (by simp; linarith)
    have gf : ‖g - f (y t)‖ ≤ L * ‖u - y t‖ + h' * (M * L) + (cG * (‖u - y t‖ + h' ^ 2) + η) := by
      have e : g - f (y t) = (f u - f (y t)) + (h' / 2) • (D - DI) (f (y t)) + (g - (f u + (h' / 2) • (D - DI) (f (y t)))) := by abel
      rw [e]
      exact (norm_add₃_le).trans (by linarith)
    have gK : ‖g‖ ≤ K := by
      have e : g = f u + (h' / 2) • (D - DI) (f (y t)) + (g - (f u + (h' / 2) • (D - DI) (f (y t)))) := by abel
      have i1 : ‖g‖ ≤ ‖f u‖ + ‖(h' / 2) • (D - DI) (f (y t))‖ + ‖g - (f u + (h' / 2) • (D - DI) (f (y t)))‖ := by
        nth_rw 1 [e]; exact norm_add₃_le
      have i2 : cG * (‖u - y t‖ + h' ^ 2) ≤ cG * 2 := mul_le_mul_of_nonneg_left (by linarith) cG0
      have i3 : h' * (M * L) ≤ 1 * (M * L) := mul_le_mul_of_nonneg_right h'1 (by positivity)
      linarith
    set A : V → V := fun v => v - (h' / 2) • jac u v with hA
    set b := u - (h' / 2) • jac u u + h' • g with hb
    have solv : ∃ z, ‖z - u‖ ≤ ρ / 2 ∧ A z = b := implicit_solvable (L := 3 * M) (by positivity) ρ0 ρ1 h'0 huY lip gK h'K K0.le
    have i5 : ‖h' • g‖ ≤ h' * K := by
      rw [norm_smul, Real.norm_of_nonneg h'0.le]; exact mul_le_mul_of_nonneg_left gK h'0.le
    have bn : ‖b‖ ≤ B := by
      have i1 : ‖jac u u‖ ≤ 3 * M * Y := by
        have := lip u 0 (by linarith) (by simp; linarith)
        rw [hj.zero t ht u (by assumption), sub_zero, sub_zero] at this
        exact this.trans (mul_le_mul_of_nonneg_left huY (by positivity))
      have i2 : ‖(h' / 2) • jac u u‖ ≤ h' / 2 * (3 * M * Y) := by
        rw [norm_smul, Real.norm_of_nonneg (by linarith)]; exact mul_le_mul_of_nonneg_left i1 (by linarith)
      have i3 := norm_sub_le u ((h' / 2) • jac u u)
      have i4 := norm_add_le (u - (h' / 2) • jac u u) (h' • g)
      have i6 : h' * (3 * M) * Y ≤ 1 / 4 * Y := mul_le_mul_of_nonneg_right hLM (by linarith)
      linarith
    -- what either solver returns
    obtain ⟨x, hx, x1, x2⟩ : ∃ x, step u h' = x ∧ ‖x - u‖ ≤ ρ / 2 ∧ ‖A x - b‖ ≤ h' * (τ * B) := by
      by_cases hc : hmin ≤ h'
      · refine ⟨scheme linear u h', by simp only [hstep, if_pos hc], ?_⟩
        obtain ⟨s1, s2⟩ := hlin A b u solv
        refine ⟨s1, s2.trans ?_⟩
        have e : tol = τ * hmin := by rw [hτ, div_mul_cancel₀ _ hm0.ne']
        have i1 : tol * ‖b‖ ≤ tol * B := mul_le_mul_of_nonneg_left bn tol0
        have i2 : tol ≤ τ * h' := by rw [e]; exact mul_le_mul_of_nonneg_left hc τ0
        have i3 := mul_le_mul_of_nonneg_right i2 B0.le
        linarith
      · refine ⟨scheme exact u h', by simp only [hstep, if_neg hc], ?_⟩
        obtain ⟨s1, s2⟩ := hexact A b u solv
        refine ⟨s1, ?_⟩
        have : A (scheme exact u h') - b = 0 := sub_eq_zero.2 s2
        rw [this, norm_zero]
        positivity
    rw [hx]
    set κ := τ * B with hκ
    have κ0 : 0 ≤ κ := by positivity
    have κ1 : κ ≤ 1 := d4
    set d := x - u with hd
    have xY : ‖x‖ ≤ Y + 1 := by
      have := norm_add_le (x - u) u
      rw [sub_add_cancel] at this
      linarith
    set q := jac u x - jac u u with hq
    have qD : ‖q - DI d‖ ≤ M * (‖u - y t‖ + eps) * ‖d‖ := hj.diff t ht u huρ x u xY (by linarith)
    have qL : ‖q‖ ≤ 3 * M * ‖d‖ := lip x u xY (by linarith)
    have res : A x - b = d - (h' / 2) • q - h' • g := by
      simp only [hA, hb, hq, hd]
      module
    rw [res] at x2
    set ϱ := d - (h' / 2) • q - h' • g with hϱ
    have nd0 := norm_nonneg d
    have half : ‖(h' / 2) • q‖ ≤ h' / 2 * (3 * M * ‖d‖) := by
      rw [norm_smul, Real.norm_of_nonneg (by linarith)]; exact mul_le_mul_of_nonneg_left qL (by linarith)
    have dn : ‖d‖ ≤ 2 * (h' * (K + 1)) := by
      have i1 : d = ϱ + (h' / 2) • q + h' • g := by rw [hϱ]; abel
      have i2 : ‖d‖ ≤ ‖ϱ‖ + ‖(h' / 2) • q‖ + ‖h' • g‖ := by
        nth_rw 1 [i1]; exact norm_add₃_le
      have i4 : h' * κ ≤ h' * 1 := mul_le_mul_of_nonneg_left κ1 h'0.le
      have i6 : h' / 2 * (3 * M * ‖d‖) ≤ 1 / 8 * ‖d‖ := by
        have := mul_le_mul_of_nonneg_right hLM nd0
        linarith
      linarith
    have dh : ‖d - h' • f (y t)‖ ≤ h' * (κ + h' * (3 * M * (K + 1)) + (L * ‖u - y t‖ + h' * (M * L) + (cG * (‖u - y t‖ + h' ^ 2) + η))) := by
      have i1 : d - h' • f (y t) = ϱ + (h' / 2) • q + h' • (g - f (y t)) := by rw [hϱ]; module
      rw [i1]
      refine (norm_add₃_le).trans ?_
      have i2 : ‖h' • (g - f (y t))‖ ≤ h' * (L * ‖u - y t‖ + h' * (M * L) + (cG * (‖u - y t‖ + h' ^ 2) + η)) := by
        rw [norm_smul, Real.norm_of_nonneg h'0.le]; exact mul_le_mul_of_nonneg_left gf h'0.le
      have i3 : h' / 2 * (3 * M * ‖d‖) ≤ h' * (h' * (3 * M * (K + 1))) := by
        have := mul_le_mul_of_nonneg_left dn (by positivity : 0 ≤ h' / 2 * (3 * M))
        linarith
      linarith
    have e : x - (u + h' • (f (y t) + (h' / 2) • D (f (y t)))) =
        ϱ + (h' / 2) • (q - DI d) + (h' / 2) • DI (d - h' • f (y t)) + h' • ((g - (f u + (h' / 2) • (D - DI) (f (y t)))) + (f u - f (y t))) := by
      simp only [hϱ, hd, map_sub, map_smul, ContinuousLinearMap.sub_apply]; module
    rw [e]
    refine (norm_add₄_le).trans ?_
    rw [norm_smul, norm_smul, norm_smul, Real.norm_of_nonneg (by linarith : 0 ≤ h' / 2), Real.norm_of_nonneg h'0.le]
    have k1 : h' / 2 * ‖q - DI d‖ ≤ h' * (M * (K + 1) * (‖u - y t‖ + eps)) := by
      have i1 : M * (‖u - y t‖ + eps) * ‖d‖ ≤ M * (‖u - y t‖ + eps) * (2 * (1 * (K + 1))) := by
        refine mul_le_mul_of_nonneg_left (dn.trans ?_) (by positivity)
        have := mul_le_mul_of_nonneg_right h'1 (by positivity : 0 ≤ K + 1)
        linarith
      exact (mul_le_mul_of_nonneg_left (qD.trans i1) (by positivity : 0 ≤ h' / 2)).trans (le_of_eq (by ring))
    have k2 : h' / 2 * ‖DI (d - h' • f (y t))‖ ≤
        h' * (M * (κ + h' ^ 2 * (3 * M * (K + 1) + M * L + cG) + (L + cG) * ‖u - y t‖ + η)) := by
      have i1 : ‖DI (d - h' • f (y t))‖ ≤ M * (h' * (κ + h' * (3 * M * (K + 1)) + (L * ‖u - y t‖ + h' * (M * L) + (cG * (‖u - y t‖ + h' ^ 2) + η)))) :=
        (ContinuousLinearMap.le_opNorm _ _).trans (mul_le_mul (hMI t ht) dh (norm_nonneg _) M0)
      have i2 := mul_le_mul_of_nonneg_left i1 (by positivity : 0 ≤ h' / 2)
      refine i2.trans ?_
      have i3 : h' / 2 * (M * (h' * (κ + h' * (3 * M * (K + 1)) + (L * ‖u - y t‖ + h' * (M * L) + (cG * (‖u - y t‖ + h' ^ 2) + η))))) =
          h' * (M * (h' / 2 * (κ + (L + cG) * ‖u - y t‖ + cG * h' ^ 2 + η) + h' ^ 2 * ((3 * M * (K + 1) + M * L) / 2))) := by ring
      rw [i3]
      refine mul_le_mul_of_nonneg_left (mul_le_mul_of_nonneg_left ?_ M0) h'0.le
      have j1 : h' / 2 * (κ + (L + cG) * ‖u - y t‖ + cG * h' ^ 2 + η) ≤ 1 * (κ + (L + cG) * ‖u - y t‖ + cG * h' ^ 2 + η) :=
        mul_le_mul_of_nonneg_right (by linarith) (by positivity)
      have j2 : 0 ≤ h' ^ 2 * (3 * M * (K + 1) + M * L) := by positivity
      linarith
    have k3 : h' * ‖(g - (f u + (h' / 2) • (D - DI) (f (y t)))) + (f u - f (y t))‖ ≤ h' * (cG * (‖u - y t‖ + h' ^ 2) + η + L * ‖u - y t‖) :=
      mul_le_mul_of_nonneg_left ((norm_add_le _ _).trans (by linarith)) h'0.le
    have total : ‖ϱ‖ + h' / 2 * ‖q - DI d‖ + h' / 2 * ‖DI (d - h' • f (y t))‖ + h' * ‖(g - (f u + (h' / 2) • (D - DI) (f (y t)))) + (f u - f (y t))‖ ≤
        h' * (κ + M * (K + 1) * (‖u - y t‖ + eps) + M * (κ + h' ^ 2 * (3 * M * (K + 1) + M * L + cG) + (L + cG) * ‖u - y t‖ + η) +
          (cG * (‖u - y t‖ + h' ^ 2) + η + L * ‖u - y t‖)) := by linarith
    refine total.trans (mul_le_mul_of_nonneg_left ?_ h'0.le)
    have z1 : 0 ≤ (M * (K + 1) + M * (L + cG) + L) * h' ^ 2 := by positivity
    have z2 : 0 ≤ M * (3 * M * (K + 1) + M * L + cG) * ‖u - y t‖ := by positivity
    have z3 : 0 ≤ (B + M * B + M + 1) * eps := by positivity
    have z4 : 0 ≤ (M * (K + 1) + M + 1) * τ := by positivity
    have z5 : 0 ≤ (B + M * (K + 1) + M * B) * η := by positivity
    rw [hc, hc2, hκ]
    linarith)
  have fin := main dt Q (fun i => ⟨hm0.trans_le (hdt i).1, (hdt i).2⟩) hQ0 (fun i => by simp only [hstep, if_pos (hdt i).1]; exact hQ i) m hm
  have X0 : 0 < h ^ 2 + c2 * (eps + τ + η) := by positivity
  have C0 : 0 ≤ C := by
    by_contra hC
    have := mul_neg_of_neg_of_pos (not_le.1 hC) X0
    linarith [norm_nonneg (Q m - y (time dt m))]
  refine fin.trans ?_
  rw [mul_assoc]
  refine mul_le_mul_of_nonneg_left ?_ C0
  have : 0 ≤ c2 * h ^ 2 := by positivity
  nlinarith

/-- finite differences are such products -/
theorem fd_products {g : V → V} {y : ℝ → V} {T ρ M Y eps : ℝ} (n : Near2 g y T ρ M) (M0 : 0 ≤ M) (Y1 : 1 ≤ Y) (ρ0 : 0 < ρ) (eps0 : 0 < eps) (he : eps * (Y + 1) ≤ ρ) :
    Products (fun u v => eps⁻¹ • (g (u + eps • v) - g u)) g y T ρ (2 * M * (Y + 1)) Y eps := by
  refine ⟨fun _ _ u _ => by simp, fun t ht u hu x x' hx hx' => ?_⟩
  have near : ∀ x : V, ‖x‖ ≤ Y + 1 → ‖(u - y t) + eps • x‖ ≤ ‖u - y t‖ + eps * (Y + 1) := by
    intro x hx
    have i1 := norm_add_le (u - y t) (eps • x)
    rw [norm_smul, Real.norm_of_nonneg eps0.le] at i1
    have := mul_le_mul_of_nonneg_left hx eps0.le
    linarith
  have px := near x hx
  have px' := near x' hx'
  have := n.diff t ht ((u - y t) + eps • x) ((u - y t) + eps • x') (by linarith) (by linarith)
  have ed : ((u - y t) + eps • x) - ((u - y t) + eps • x') = eps • (x - x') := by module
  rw [show y t + ((u - y t) + eps • x) = u + eps • x by abel, show y t + ((u - y t) + eps • x') = u + eps • x' by abel, ed, map_smul, norm_smul,
    Real.norm_of_nonneg eps0.le] at this
  have e : eps⁻¹ • (g (u + eps • x) - g u) - eps⁻¹ • (g (u + eps • x') - g u) - fderiv ℝ g (y t) (x - x') =
      eps⁻¹ • (g (u + eps • x) - g (u + eps • x') - eps • fderiv ℝ g (y t) (x - x')) := by
    rw [smul_sub eps⁻¹ (g (u + eps • x) - g (u + eps • x')), smul_smul eps⁻¹ eps, inv_mul_cancel₀ eps0.ne', one_smul]
    module
  rw [e, norm_smul, norm_inv, Real.norm_of_nonneg eps0.le, inv_mul_le_iff₀ eps0]
  refine this.trans ?_
  have ε0 := norm_nonneg (u - y t)
  have i1 : M * (‖(u - y t) + eps • x‖ + ‖(u - y t) + eps • x'‖) ≤ 2 * M * (Y + 1) * (‖u - y t‖ + eps) := by
    have a : M * (‖(u - y t) + eps • x‖ + ‖(u - y t) + eps • x'‖) ≤ M * (2 * (‖u - y t‖ + eps * (Y + 1))) := mul_le_mul_of_nonneg_left (by linarith) M0
    have b : 0 ≤ M * (Y * ‖u - y t‖) := by positivity
    linarith
  have := mul_le_mul_of_nonneg_right i1 (by positivity : 0 ≤ eps * ‖x - x'‖)
  linarith

set_option maxHeartbeats 2000000 in
/-- both schemes: the implicit part enters the increment with the weight `α` on each side of the exponential -/
theorem rosexp_general [CompleteSpace V] {f fI : V → V} {y : ℝ → V} {T : ℝ} (hs : SmoothSolution f y T 2) (hI : ∀ t ∈ Icc 0 T, ContDiffAt ℝ 2 fI (y t))
    {α : ℝ} (α0 : 0 ≤ α) (α1 : α ≤ 1 / 2) {ρ1' : ℝ} (ρ10 : 0 < ρ1') :
    ∃ C δ ρ R : ℝ, 0 < δ ∧ 0 < ρ ∧ ρ ≤ ρ1' ∧ 0 < R ∧ ∀ h hmin eps tol : ℝ, 0 < hmin → hmin ≤ h → h ≤ δ → 0 ≤ eps → eps ≤ δ → 0 ≤ tol → tol ≤ δ * hmin →
      ∀ jac : V → V → V, ((0 < eps ∧ ∀ u v, jac u v = eps⁻¹ • (fI (u + eps • v) - fI u)) ∨ AccurateProducts fI y T ρ R eps jac) → ∀ jF jI,
      ∀ linear, RelativeSolver ρ tol linear → ∀ phi, ExponentialSolver f fI y T ρ tol jF jI phi →
      ∀ (dt : Nat → ℝ) (Q : Nat → V), (∀ n, hmin ≤ dt n ∧ dt n ≤ h) → Q 0 = y 0 →
        (∀ n, Q (n + 1) = linear (fun v => v - (dt n / 2) • jac (Q n) v) (Q n - (dt n / 2) • jac (Q n) (Q n) +
          dt n • (phi (fun v => matvecStep jF (Q n) (dt n) v - matvecStep jI (Q n) (dt n) v) (α • fI (Q n)) (f (Q n) - (2 * α) • fI (Q n)) + α • fI (Q n))) (Q n)) →
        ∀ n, time dt n ≤ T → ‖Q n - y (time dt n)‖ ≤ C * (h ^ 2 + eps + tol / hmin) := by
  have hcont : ContinuousOn y (Icc 0 T) := fun t ht => (hs.solves t ht).continuousWithinAt
  obtain ⟨Y0, hY0⟩ := isCompact_Icc.exists_bound_of_continuousOn hcont
  set Y := max Y0 0 + 1 with hYdef
  have Y1 : 1 ≤ Y := by rw [hYdef]; linarith [le_max_right Y0 0]
  have hY : ∀ t ∈ Icc 0 T, ‖y t‖ ≤ Y - 1 := fun t ht => (hY0 t ht).trans (by rw [hYdef]; linarith [le_max_left Y0 0])
  obtain ⟨ρ1, L1, n1⟩ := near_of_smooth hs (g := f) (fun t ht => (hs.smooth t ht).of_le (by norm_num))
  obtain ⟨ρ2, L2, n2⟩ := near_of_smooth hs (g := fI) (fun t ht => (hI t ht).of_le (by norm_num))
  obtain ⟨ρ3, M1, ρ30, M10, n3⟩ := near2_of_smooth hs (g := f) (fun t ht => by exact_mod_cast hs.smooth t ht)
  obtain ⟨ρ4, M2, ρ40, M20, n4⟩ := near2_of_smooth hs (g := fI) hI
  obtain ⟨ρ5, M3, ρ50, M30, n5⟩ := fderiv_near hs (g := f) (fun t ht => by exact_mod_cast hs.smooth t ht)
  obtain ⟨ρ6, M4, ρ60, M40, n6⟩ := fderiv_near hs (g := fI) hI
  set ρ := min (min (min ρ1 ρ2) (min ρ4 1)) (min (min ρ5 ρ6) ρ1') with hρ
  have ρ0 : 0 < ρ := lt_min (lt_min (lt_min n1.ρ0 n2.ρ0) (lt_min ρ40 one_pos)) (lt_min (lt_min ρ50 ρ60) ρ10)
  have r1 : ρ ≤ ρ1 := (min_le_left _ _).trans ((min_le_left _ _).trans (min_le_left _ _))
  have r2 : ρ ≤ ρ2 := (min_le_left _ _).trans ((min_le_left _ _).trans (min_le_right _ _))
  have r4 : ρ ≤ ρ4 := (min_le_left _ _).trans ((min_le_right _ _).trans (min_le_left _ _))
  have rr : ρ ≤ 1 := (min_le_left _ _).trans ((min_le_right _ _).trans (min_le_right _ _))
  have r5 : ρ ≤ ρ5 := (min_le_right _ _).trans ((min_le_left _ _).trans (min_le_left _ _))
  have r6 : ρ ≤ ρ6 := (min_le_right _ _).trans ((min_le_left _ _).trans (min_le_right _ _))
  have r7 : ρ ≤ ρ1' := (min_le_right _ _).trans (min_le_right _ _)
  set L := L1 + L2 with hL
  have L10 := n1.L0
  have L20 := n2.L0
  have L0 : 0 ≤ L := by rw [hL]; linarith
  have nf := near_mono n1 ρ0 r1 (show L1 ≤ L by rw [hL]; linarith)
  have nI := near_mono n2 ρ0 r2 (show L2 ≤ L by rw [hL]; linarith)
  set M := M1 + 2 * M2 * (Y + 1) + M4 + 1 with hM
  have M0 : 0 ≤ M := by positivity
  have hMf : ∀ t ∈ Icc 0 T, ‖fderiv ℝ f (y t)‖ ≤ M := fun t ht => (n3.d t ht).trans (by
    have : 0 ≤ 2 * M2 * (Y + 1) := by positivity
    linarith)
  have hMI : ∀ t ∈ Icc 0 T, ‖fderiv ℝ fI (y t)‖ ≤ M := fun t ht => (n4.d t ht).trans (by
    have : 0 ≤ M2 * Y := by positivity
    linarith)
  have nI2 : Near2 fI y T ρ M2 := near2_mono n4 r4 le_rfl
  set N := M3 + M4 with hN
  have N0 : 0 ≤ N := by positivity
  obtain ⟨Cφ, Cφ0, tr⟩ := WxVerif.EpiConvergence.phi_trunc (V := V) 2 (K := 2 * M + N) (by positivity)
  set cG := N * L + M * L + 3 * L * Cφ with hcG
  have cG0 : 0 ≤ cG := by positivity
  obtain ⟨C, δ, δ0, H⟩ := linearly_implicit (fI := fI) hs nf rr M0 hMf hMI Y1 hY cG0
  refine ⟨|C| * (2 + 3 * L), min (min (δ / (1 + 3 * L)) 1) (min δ (ρ / (Y + 1))), ρ / 2, Y + 1, by positivity, by linarith, by linarith, by linarith, ?_⟩
  intro h hmin eps tol hm0 hmh hδ eps0 epsδ tol0 tolδ jac hjac jF jI linear hlin phi hphi dt Q hdt hQ0 hQ m hm
  simp only [le_min_iff] at hδ epsδ
  obtain ⟨⟨-, h1⟩, h2, -⟩ := hδ
  obtain ⟨⟨-, -⟩, ep2, ep3⟩ := epsδ
  have h0 : 0 < h := hm0.trans_le hmh
  have he : eps * (Y + 1) ≤ ρ := (le_div_iff₀ (by positivity)).1 ep3
  have hmin1 : hmin ≤ 1 := hmh.trans h1
  have tδ : tol ≤ min (min (δ / (1 + 3 * L)) 1) (min δ (ρ / (Y + 1))) := tolδ.trans (mul_le_of_le_one_right (by positivity) hmin1)
  simp only [le_min_iff] at tδ
  have η1 : tol * (1 + 3 * L) ≤ δ := (le_div_iff₀ (by positivity)).1 tδ.1.1
  have tol2 : tol ≤ δ * hmin := tolδ.trans (mul_le_mul_of_nonneg_right ((min_le_right _ _).trans (min_le_left _ _)) hm0.le)
  have pr' : Products jac fI y T ρ M Y eps := by
    rcases hjac with ⟨eps0', hjac⟩ | hjac
    · have pr := fd_products nI2 M20.le Y1 ρ0 eps0' he
      refine ⟨fun _ _ u _ => by rw [hjac]; simp, fun t ht u hu x x' hx hx' => ?_⟩
      rw [hjac, hjac]
      refine (pr.diff t ht u hu x x' hx hx').trans ?_
      refine mul_le_mul_of_nonneg_right (mul_le_mul_of_nonneg_right ?_ (by positivity)) (norm_nonneg _)
      rw [hM]; linarith
    · refine ⟨fun t ht u hu => hjac.zero u ⟨t, ht, hu⟩, fun t ht u hu x x' hx hx' => ?_⟩
      have i1 := hjac.diff u ⟨t, ht, hu⟩ x x' hx hx'
      have i2 : ‖fderiv ℝ fI u - fderiv ℝ fI (y t)‖ ≤ M4 * ‖u - y t‖ := (n6 t ht u (y t) (by linarith) (by simp; linarith)).2
      have i3 : ‖(fderiv ℝ fI u - fderiv ℝ fI (y t)) (x - x')‖ ≤ M4 * ‖u - y t‖ * ‖x - x'‖ :=
        (ContinuousLinearMap.le_opNorm _ _).trans (mul_le_mul_of_nonneg_right i2 (norm_nonneg _))
      have e : jac u x - jac u x' - fderiv ℝ fI (y t) (x - x') =
          (jac u x - jac u x' - fderiv ℝ fI u (x - x')) + (fderiv ℝ fI u - fderiv ℝ fI (y t)) (x - x') := by
        rw [ContinuousLinearMap.sub_apply]; abel
      rw [e]
      refine (norm_add_le _ _).trans ?_
      have z0 := norm_nonneg (u - y t)
      have z1 : 0 ≤ M2 * (Y + 1) := by positivity
      have k : M4 * ‖u - y t‖ + eps ≤ M * (‖u - y t‖ + eps) := by
        have a1 : M4 * ‖u - y t‖ ≤ M * ‖u - y t‖ := mul_le_mul_of_nonneg_right (by rw [hM]; linarith) z0
        have a2 : 1 * eps ≤ M * eps := mul_le_mul_of_nonneg_right (by rw [hM]; linarith) eps0
        linarith
      have := mul_le_mul_of_nonneg_right k (norm_nonneg (x - x'))
      linarith
  have bound := H h hmin eps tol (tol * (1 + 3 * L)) hm0 hmh h2 eps0 ep2 tol0 tol2 (by positivity) η1 _ pr'
    (fun u h' => phi (fun v => matvecStep jF u h' v - matvecStep jI u h' v) (α • fI u) (f u - (2 * α) • fI u) + α • fI u) (by
      intro t ht u hu h' h'0 h'h hT
      have tT : h' ≤ T := by linarith [ht.1]
      have fu : ‖f u‖ ≤ L := nf.bd' ht (by linarith)
      have iu : ‖fI u‖ ≤ L := nI.bd' ht (by linarith)
      have fy : ‖f (y t)‖ ≤ L := nf.bd' ht (by simp; linarith)
      have lu : ‖f u - f (y t)‖ ≤ L * ‖u - y t‖ := nf.lip' ht (by linarith) (by simp; linarith)
      have ε0 := norm_nonneg (u - y t)
      have h'1 : h' ≤ 1 := h'h.trans h1
      set v0 := α • fI u with hv0
      set v1 := f u - (2 * α) • fI u with hv1
      have b0 : ‖v0‖ ≤ L := by
        rw [hv0, norm_smul, Real.norm_of_nonneg α0]
        have := mul_le_mul α1 iu (norm_nonneg _) (by norm_num)
        linarith
      have b1 : ‖v1‖ ≤ 2 * L := by
        have i1 := norm_sub_le (f u) ((2 * α) • fI u)
        rw [norm_smul, Real.norm_of_nonneg (by linarith)] at i1
        have := mul_le_mul (by linarith : 2 * α ≤ 1) iu (norm_nonneg _) (by norm_num)
        linarith
      set DE := fderiv ℝ f u - fderiv ℝ fI u with hDE
      set D0 := fderiv ℝ f (y t) - fderiv ℝ fI (y t) with hD0
      have dd : ‖DE - D0‖ ≤ N * ‖u - y t‖ := by
        have i1 := (n5 t ht u (y t) (by linarith) (by simp; linarith)).2
        have i2 := (n6 t ht u (y t) (by linarith) (by simp; linarith)).2
        have e : DE - D0 = (fderiv ℝ f u - fderiv ℝ f (y t)) - (fderiv ℝ fI u - fderiv ℝ fI (y t)) := by rw [hDE, hD0]; abel
        rw [e]
        exact (norm_sub_le _ _).trans (by rw [hN]; linarith)
      have d0 : ‖D0‖ ≤ 2 * M := (norm_sub_le _ _).trans (by linarith [hMf t ht, hMI t ht])
      have dE : ‖DE‖ ≤ 2 * M + N := by
        have := norm_add_le (DE - D0) D0
        rw [sub_add_cancel] at this
        have : N * ‖u - y t‖ ≤ N * 1 := mul_le_mul_of_nonneg_left (by linarith) N0
        linarith
      have ph := hphi u ⟨t, ht, hu⟩ h' h'0 tT v0 v1
      have s0 := tr 0 h' h'0.le h'1 DE dE v0
      have s1 := tr 1 h' h'0.le h'1 DE dE v1
      have q0 : WxVerif.EpiConvergence.trunc 2 0 h' DE v0 = v0 + h' • DE v0 := by
        rw [WxVerif.EpiConvergence.trunc_apply]; simp [Finset.sum_range_succ]
      have q1 : WxVerif.EpiConvergence.trunc 2 1 h' DE v1 = v1 + (h' / 2) • DE v1 := by
        rw [WxVerif.EpiConvergence.trunc_apply]; simp [Finset.sum_range_succ, Nat.factorial]; norm_num
      rw [q0] at s0
      rw [q1] at s1
      have sum : SpecEpiConvergence.phiSum (h' • DE) [v0, v1] = SpecEpiConvergence.phi 0 (h' • DE) v0 + SpecEpiConvergence.phi 1 (h' • DE) v1 := by
        simp [SpecEpiConvergence.phiSum, Finset.sum_range_succ]
      rw [sum] at ph
      set X := phi (fun v => matvecStep jF u h' v - matvecStep jI u h' v) v0 v1 with hX
      have vs : v0 + v1 + α • fI u = f u := by rw [hv0, hv1]; module
      have vh : h' • DE v0 + (h' / 2) • DE v1 = (h' / 2) • DE (f u) := by
        rw [hv0, hv1]; simp only [map_sub, map_smul]; module
      have e : X + α • fI u - (f u + (h' / 2) • D0 (f (y t))) =
          (X - (SpecEpiConvergence.phi 0 (h' • DE) v0 + SpecEpiConvergence.phi 1 (h' • DE) v1)) +
          (SpecEpiConvergence.phi 0 (h' • DE) v0 - (v0 + h' • DE v0)) + (SpecEpiConvergence.phi 1 (h' • DE) v1 - (v1 + (h' / 2) • DE v1)) +
          (h' / 2) • ((DE - D0) (f u) + D0 (f u - f (y t))) := by
        have e0 : (DE - D0) (f u) = DE (f u) - D0 (f u) := rfl
        rw [e0, map_sub D0, show (h' / 2) • (DE (f u) - D0 (f u) + (D0 (f u) - D0 (f (y t)))) = (h' / 2) • DE (f u) - (h' / 2) • D0 (f (y t)) by module,
          ← vh]
        have vs' : f u = v0 + v1 + α • fI u := vs.symm
        rw [vs']
        abel
      rw [e]
      refine (norm_add₄_le).trans ?_
      have k1 : ‖(h' / 2) • ((DE - D0) (f u) + D0 (f u - f (y t)))‖ ≤ (N * L + M * L) * ‖u - y t‖ := by
        rw [norm_smul, Real.norm_of_nonneg (by linarith)]
        have i1 : ‖(DE - D0) (f u)‖ ≤ N * ‖u - y t‖ * L := (ContinuousLinearMap.le_opNorm _ _).trans (mul_le_mul dd fu (norm_nonneg _) (by positivity))
        have i2 : ‖D0 (f u - f (y t))‖ ≤ 2 * M * (L * ‖u - y t‖) := (ContinuousLinearMap.le_opNorm _ _).trans (mul_le_mul d0 lu (norm_nonneg _) (by positivity))
        have i3 := (norm_add_le ((DE - D0) (f u)) (D0 (f u - f (y t)))).trans (add_le_add i1 i2)
        have i4 : h' / 2 * ‖(DE - D0) (f u) + D0 (f u - f (y t))‖ ≤ 1 / 2 * (N * ‖u - y t‖ * L + 2 * M * (L * ‖u - y t‖)) :=
          mul_le_mul (by linarith) i3 (norm_nonneg _) (by norm_num)
        have : 0 ≤ N * ‖u - y t‖ * L := by positivity
        linarith
      have hsq0 : 0 ≤ h' ^ 2 := by positivity
      have k2 : Cφ * h' ^ 2 * ‖v0‖ ≤ Cφ * h' ^ 2 * L := mul_le_mul_of_nonneg_left b0 (by positivity)
      have k3 : Cφ * h' ^ 2 * ‖v1‖ ≤ Cφ * h' ^ 2 * (2 * L) := mul_le_mul_of_nonneg_left b1 (by positivity)
      have k4 : tol * (1 + ‖v0‖ + ‖v1‖) ≤ tol * (1 + 3 * L) := mul_le_mul_of_nonneg_left (by linarith) tol0
      have z1 : 0 ≤ (N * L + M * L) * h' ^ 2 := by positivity
      have z2 : 0 ≤ 3 * L * Cφ * ‖u - y t‖ := by positivity
      rw [hcG]
      linarith) linear hlin dt Q hdt hQ0 hQ m hm
  refine bound.trans ((mul_le_mul_of_nonneg_right (le_abs_self C) (by positivity)).trans ?_)
  rw [mul_assoc]
  refine mul_le_mul_of_nonneg_left ?_ (abs_nonneg C)
  have tt : tol ≤ tol / hmin := (le_div_iff₀ hm0).2 (mul_le_of_le_one_right tol0 hmin1)
  have z1 : 0 ≤ (1 + 3 * L) * (h ^ 2 + eps) := by positivity
  have z2 := mul_le_mul_of_nonneg_right tt (by positivity : 0 ≤ 1 + 3 * L)
  linarith

/-- the operator of `matvec_rat` in terms of the difference quotient -/
theorem matvecRat_quotient (eps : ℝ) (fI : V → V) (u : V) (h : ℝ) (v : V) :
    matvecRat eps fI u h v = v - (h / 2) • (eps⁻¹ • (fI (u + eps • v) - fI u)) := by
  rw [matvecRat, smul_smul, smul_smul]
  congr 2
  ring

/-- **C90 (Rosenbrock–exponential scheme).**  The scheme that treats one part of the equations by a linearly implicit step and the rest by an exponential has
order two, up to the increment of the finite differences and the tolerances of its linear and exponential solvers, of which the first counts divided by the
smallest step.  The products `jF` and `jI` with the Jacobians enter through the exponential solver only. -/
theorem C90_rosexp2 [CompleteSpace V] {f fI : V → V} {y : ℝ → V} {T : ℝ} (hs : SmoothSolution f y T 2) (hI : ∀ t ∈ Icc 0 T, ContDiffAt ℝ 2 fI (y t)) :
    ∃ C δ ρ : ℝ, 0 < δ ∧ 0 < ρ ∧ ∀ h hmin eps tol : ℝ, 0 < hmin → hmin ≤ h → h ≤ δ → 0 < eps → eps ≤ δ → 0 ≤ tol → tol ≤ δ * hmin →
      ∀ linear, RelativeSolver ρ tol linear → ∀ jF jI phi, ExponentialSolver f fI y T ρ tol jF jI phi →
      ∀ (dt : Nat → ℝ) (Q : Nat → V), (∀ n, hmin ≤ dt n ∧ dt n ≤ h) → Q 0 = y 0 → (∀ n, Q (n + 1) = rosexp2 linear phi eps f fI jF jI (Q n) (dt n)) →
        ∀ n, time dt n ≤ T → ‖Q n - y (time dt n)‖ ≤ C * (h ^ 2 + eps + tol / hmin) := by
  obtain ⟨C, δ, ρ, _, δ0, ρ0, _, _, H⟩ := rosexp_general hs hI (α := 0) le_rfl (by norm_num) one_pos
  refine ⟨C, δ, ρ, δ0, ρ0, fun h hmin eps tol a1 a2 a3 a4 a5 a6 a7 linear hl jF jI phi hp dt Q hdt hQ0 hQ n hn =>
    H h hmin eps tol a1 a2 a3 a4.le a5 a6 a7 (fun u v => eps⁻¹ • (fI (u + eps • v) - fI u)) (Or.inl ⟨a4, fun _ _ => rfl⟩) jF jI linear hl phi hp dt Q hdt hQ0
      (fun k => ?_) n hn⟩
  rw [hQ k, rosexp2]
  simp only [matvecRat_quotient, zero_smul, mul_zero, sub_zero, add_zero]
  congr 1
  funext v
  rw [matvecRat_quotient]

/-- **C90 (partitioned Rosenbrock–exponential scheme).**  The same for the scheme that exponentiates half of the implicit part with the explicit one.  Here
`eps` is the accuracy of the products with the Jacobian of the implicit part (`C90_complex_step` for the complex step); all that is asked of the solvers and the
products concerns states close to the solution, as close as one likes. -/
theorem C90_partrosexp2 [CompleteSpace V] {f fI : V → V} {y : ℝ → V} {T : ℝ} (hs : SmoothSolution f y T 2) (hI : ∀ t ∈ Icc 0 T, ContDiffAt ℝ 2 fI (y t))
    {near : ℝ} (hn : 0 < near) :
    ∃ C δ ρ R : ℝ, 0 < δ ∧ 0 < ρ ∧ ρ ≤ near ∧ 0 < R ∧ ∀ h hmin eps tol : ℝ, 0 < hmin → hmin ≤ h → h ≤ δ → 0 ≤ eps → eps ≤ δ → 0 ≤ tol → tol ≤ δ * hmin →
      ∀ linear, RelativeSolver ρ tol linear → ∀ jF jI, AccurateProducts fI y T ρ R eps jI → ∀ phi, ExponentialSolver f fI y T ρ tol jF jI phi →
      ∀ (dt : Nat → ℝ) (Q : Nat → V), (∀ n, hmin ≤ dt n ∧ dt n ≤ h) → Q 0 = y 0 → (∀ n, Q (n + 1) = partrosexp2 linear phi f fI jF jI (Q n) (dt n)) →
        ∀ n, time dt n ≤ T → ‖Q n - y (time dt n)‖ ≤ C * (h ^ 2 + eps + tol / hmin) := by
  obtain ⟨C, δ, ρ, R, δ0, ρ0, ρn, R0, H⟩ := rosexp_general hs hI (α := 1 / 2) (by norm_num) le_rfl hn
  refine ⟨C, δ, ρ, R, δ0, ρ0, ρn, R0, fun h hmin eps tol a1 a2 a3 a4 a5 a6 a7 linear hl jF jI hj phi hp dt Q hdt hQ0 hQ n hn =>
    H h hmin eps tol a1 a2 a3 a4 a5 a6 a7 jI (Or.inr hj) jF jI linear hl phi hp dt Q hdt hQ0 (fun k => ?_) n hn⟩
  rw [hQ k, partrosexp2, show (2 * (1 / 2) : ℝ) = 1 by norm_num, one_smul]
  have e : ∀ v, (1 / 2 : ℝ) • matvecStep jI (Q k) (dt k) v = (dt k / 2) • jI (Q k) v := fun v => by
    rw [matvecStep, smul_smul]; congr 1; ring
  simp only [e]

/-- For `y' = y²` with `-y` as the implicit part, the exact products are accurate and there is an exact exponential solver. -/
example (ρ T R : ℝ) (y : ℝ → ℝ) : AccurateProducts (fun v : ℝ => -v) y T ρ R 0 (fun _ v => -v) ∧
    ∃ phi, ExponentialSolver (fun v : ℝ => v * v) (fun v => -v) y T ρ 0 (fun Q v => 2 * Q * v) (fun _ v => -v) phi := by
  have d2 : ∀ Q : ℝ, fderiv ℝ (fun v : ℝ => -v) Q = -ContinuousLinearMap.id ℝ ℝ := by
    intro Q
    ext
    simp
  refine ⟨⟨fun Q _ => by simp, fun Q _ v w _ _ => ?_⟩,
    fun J v0 v1 => SpecEpiConvergence.phiSum (J 1 • ContinuousLinearMap.id ℝ ℝ) [v0, v1], fun Q _ dt _ _ v0 v1 => ?_⟩
  · rw [d2]
    simp
    ring
  · have d1 : fderiv ℝ (fun v : ℝ => v * v) Q = (2 * Q) • ContinuousLinearMap.id ℝ ℝ := by
      ext
      rw [fderiv_fun_mul differentiableAt_id differentiableAt_id]
      simp
      ring
    have e : matvecStep (fun Q v : ℝ => 2 * Q * v) Q dt 1 - matvecStep (fun _ v : ℝ => -v) Q dt 1 = dt * (2 * Q + 1) := by
      simp only [matvecStep, smul_eq_mul]
      ring
    simp only [e, d1, d2, zero_mul]
    rw [show (dt * (2 * Q + 1)) • ContinuousLinearMap.id ℝ ℝ = dt • ((2 * Q) • ContinuousLinearMap.id ℝ ℝ - -ContinuousLinearMap.id ℝ ℝ) by module]
    simp

/-- and the other hypotheses are met by it up to the time one -/
example : SmoothSolution (fun v : ℝ => v * v) (fun t => 1 / (2 - t)) 1 2 ∧ ∀ t ∈ Icc (0 : ℝ) 1, ContDiffAt ℝ 2 (fun v : ℝ => -v) (1 / (2 - t)) :=
  ⟨square_solution 2, fun _ _ => contDiff_neg.contDiffAt⟩

end WxVerif.Props.Convergence
