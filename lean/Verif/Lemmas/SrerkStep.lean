import Verif.Lemmas.SrerkStages
import Verif.Lemmas.Convergence

/-!
# Lemmas for the convergence of the stiffness-resilient exponential Runge-Kutta integrators: whole steps
-/

namespace WxVerif.SrerkConvergence

open Set SpecConvergence SpecEpiConvergence EpiConvergence SpecSrerkConvergence
open WxVerif.Srerk
open WxVerif.Epi (alphaCoeff)

universe u

variable {V : Type u} [NormedAddCommGroup V] [NormedSpace ℝ V]

/-! ## The vectors of a projection -/

theorem alphaCoeff_length (c : List ℝ) : (alphaCoeff c).length = c.length := by simp [alphaCoeff]

theorem alphaCoeff_row (c : List ℝ) {k : Nat} (hk : k < c.length) : ((alphaCoeff c).getD k []).length = c.length := by
  have h : k < (alphaCoeff c).length := by rwa [alphaCoeff_length]
  rw [List.getD_eq_getElem _ _ h]
  simp [alphaCoeff]

theorem vec_rows (c : List ℝ) (F : V) (rz : List V) (hl : rz.length = c.length) :
    [0, F, 0] ++ matRows (alphaCoeff c) rz = vecList (rowCoeff c) (c.length + 3) c.length F (fun i => rz.getD i 0) := by
  have ml : (matRows (alphaCoeff c) rz).length = c.length := by simp [matRows, alphaCoeff_length]
  apply List.ext_getElem
  · simp [vecList, ml]
  intro k h1 h2
  have hk : k < c.length + 3 := by simpa [vecList] using h2
  simp only [vecList, List.getElem_map, List.getElem_range]
  rcases k with _ | _ | _ | k
  · simp [vecs, rowCoeff]
  · simp [vecs, rowCoeff]
  · simp [vecs, rowCoeff]
  · have hk' : k < c.length := by omega
    rw [List.getElem_append_right (by simp)]
    simp only [List.length_cons, List.length_nil]
    have : (matRows (alphaCoeff c) rz)[k + 1 + 1 + 1 - (0 + 1 + 1 + 1)]'(by rw [ml]; omega) =
        (List.zipWith (fun a r => a • r) ((alphaCoeff c).getD k []) rz).sum := by
      have hka : k < (alphaCoeff c).length := by rwa [alphaCoeff_length]
      have : (matRows (alphaCoeff c) rz)[k]'(by rw [ml]; omega) = (List.zipWith (fun a r => a • r) ((alphaCoeff c).getD k []) rz).sum := by
        rw [List.getD_eq_getElem _ _ hka]
        simp [matRows]
      exact this
    rw [this, Props.Srerk.zipWith_sum _ 0 0 _ _ (by rw [alphaCoeff_row c hk', hl]), hl]
    simp [vecs, rowCoeff]

theorem phiAt_vecList (τ : ℝ) (A : V →L[ℝ] V) (α : Nat → Nat → ℝ) (N m : Nat) (F : V) (r : Nat → V) :
    phiAt τ A (vecList α N m F r) = ∑ row ∈ Finset.range N, τ ^ row • phi row (τ • A) (vecs α m F r row) := by
  unfold phiAt vecList
  rw [List.length_map, List.length_range]
  refine Finset.sum_congr rfl fun k hk => ?_
  congr 2
  simp [List.getD, Finset.mem_range.1 hk]

theorem phiAt_first (τ : ℝ) (A : V →L[ℝ] V) (F : V) (r : Nat → V) :
    phiAt τ A [0, F] = ∑ row ∈ Finset.range 3, τ ^ row • phi row (τ • A) (vecs (rowCoeff []) 0 F r row) := by
  have zero : ∀ (k : Nat) (A : V →L[ℝ] V), phi k A 0 = 0 := fun k A => by simp [phi]
  simp [phiAt, Finset.sum_range_succ, vecs, zero]

/-- the vectors of a projection are bounded -/
theorem vec_bound {f : V → V} {y : ℝ → V} {T ρ K : ℝ} (ρ1 : ρ ≤ 1) (K1 : 1 ≤ K) (n : NearE f y T ρ K) (c : List ℝ) {Bη : ℝ} (hBη : 0 ≤ Bη) :
    ∃ Cv, 0 ≤ Cv ∧ ∀ t ∈ Icc 0 T, ∀ u, ‖u - y t‖ ≤ ρ → ∀ (r : Nat → V) (x : Nat → ℝ),
      (∀ i < c.length, x i ∈ Icc 0 T ∧ ‖r i - ((f (y (x i)) - f (y t)) - fderiv ℝ f (y t) (y (x i) - y t))‖ ≤ Bη) →
      ((vecList (rowCoeff c) (c.length + 3) c.length (f u) r).map norm).sum ≤ Cv := by
  obtain ⟨R, R0, hR⟩ : ∃ R : ℝ, 0 ≤ R ∧ ∀ row < c.length + 3, ∀ i < c.length, |rowCoeff c row i| ≤ R := by
    refine ⟨∑ row ∈ Finset.range (c.length + 3), ∑ i ∈ Finset.range c.length, |rowCoeff c row i|,
      Finset.sum_nonneg fun _ _ => Finset.sum_nonneg fun _ _ => abs_nonneg _, fun row hr i hi => ?_⟩
    refine (Finset.single_le_sum (f := fun i => |rowCoeff c row i|) (fun _ _ => abs_nonneg _) (Finset.mem_range.2 hi)).trans ?_
    exact Finset.single_le_sum (f := fun row => ∑ i ∈ Finset.range c.length, |rowCoeff c row i|)
      (fun _ _ => Finset.sum_nonneg fun _ _ => abs_nonneg _) (Finset.mem_range.2 hr)
  refine ⟨(c.length + 3 : Nat) * (2 * K + c.length * R * (Bη + (2 * K + K * (2 * K)))), by positivity, fun t ht u hu r x hr => ?_⟩
  rw [sum_norm_vecList]
  have each : ∀ row ∈ Finset.range (c.length + 3), ‖vecs (rowCoeff c) c.length (f u) r row‖ ≤
      2 * K + c.length * R * (Bη + (2 * K + K * (2 * K))) := by
    intro row hrow
    have fu : ‖f u - 0‖ ≤ 2 * K := by
      rw [sub_zero]
      have h1 := n.lip t ht u hu
      have h2 := n.fb t ht
      have h3 := norm_add_le (f u - f (y t)) (f (y t))
      rw [sub_add_cancel] at h3
      have : K * ‖u - y t‖ ≤ K * 1 := mul_le_mul_of_nonneg_left (hu.trans ρ1) (by linarith)
      linarith
    have rb : ∀ i < c.length, ‖r i - (fun _ => (0 : V)) i‖ ≤ Bη + (2 * K + K * (2 * K)) := by
      intro i hi
      obtain ⟨hx, hd⟩ := hr i hi
      set w := (f (y (x i)) - f (y t)) - fderiv ℝ f (y t) (y (x i) - y t)
      have hw : ‖w‖ ≤ 2 * K + K * (2 * K) := by
        have J0 : ‖fderiv ℝ f (y t)‖ ≤ K := by
          have := n.Jb t ht (y t) (by simpa using (norm_nonneg _).trans hu)
          linarith
        refine (norm_sub_le _ _).trans (add_le_add ((norm_sub_le _ _).trans (by linarith [n.fb t ht, n.fb _ hx])) ?_)
        exact (ContinuousLinearMap.le_opNorm _ _).trans (mul_le_mul J0 ((norm_sub_le _ _).trans (by linarith [n.yb t ht, n.yb _ hx]))
          (norm_nonneg _) (by linarith))
      have := norm_add_le (r i - w) w
      rw [sub_add_cancel] at this
      simp only [sub_zero]
      linarith
    have := vecs_bound hR (Finset.mem_range.1 hrow) (f u) 0 r (fun _ => 0) fu rb
    have z : vecs (rowCoeff c) c.length (0 : V) (fun _ => 0) row = 0 := by simp [vecs]
    rwa [z, sub_zero] at this
  refine (Finset.sum_le_sum each).trans_eq ?_
  rw [Finset.sum_const, Finset.card_range, nsmul_eq_mul]

/-! ## The stages -/

theorem list_uniform {P : ℝ → ℝ → Prop} (l : List ℝ) (h : ∀ τ ∈ l, ∃ C, 0 ≤ C ∧ ∀ C' ≥ C, P τ C') : ∃ C, 0 ≤ C ∧ ∀ τ ∈ l, P τ C := by
  have : ∃ C, 0 ≤ C ∧ ∀ τ ∈ l, ∀ C' ≥ C, P τ C' := by
    induction l with
    | nil => exact ⟨0, le_rfl, fun τ h => absurd h List.not_mem_nil⟩
    | cons a l ih =>
      obtain ⟨C1, C10, H1⟩ := h a List.mem_cons_self
      obtain ⟨C2, C20, H2⟩ := ih fun τ hτ => h τ (List.mem_cons_of_mem _ hτ)
      refine ⟨max C1 C2, C10.trans (le_max_left _ _), fun τ hτ C' hC' => ?_⟩
      rcases List.mem_cons.1 hτ with rfl | hτ
      · exact H1 C' ((le_max_left _ _).trans hC')
      · exact H2 τ hτ C' ((le_max_right _ _).trans hC')
  obtain ⟨C, C0, H⟩ := this
  exact ⟨C, C0, fun τ hτ => H τ hτ C le_rfl⟩

/-- the rows `z` of a projection at the nodes are within `‖u - y(t)‖ + h B` of the exact states -/
def StageWithin (y : ℝ → V) (t h : ℝ) (u : V) (nodes : List ℝ) (z : List V) (B : ℝ) : Prop :=
  z.length = nodes.length ∧ ∀ i < nodes.length, ‖u + h • z.getD i 0 - y (t + nodes.getD i 0 * h)‖ ≤ ‖u - y t‖ + h * B

theorem first_stage [CompleteSpace V] {f : V → V} {y : ℝ → V} {T ρ K : ℝ} (hT : 0 < T) (hs : SmoothSolution f y T 2) (ρ0 : 0 < ρ) (ρ1 : ρ ≤ 1) (K1 : 1 ≤ K)
    (n : NearE f y T ρ K) (nodes : List ℝ) (hn : ∀ x ∈ nodes, 0 < x ∧ x ≤ 1) :
    ∃ C, 0 ≤ C ∧ ∀ tol, 0 ≤ tol → ∀ ext : Srerk.Ext ℝ V, Accurate f y T ρ tol ext → ∀ t h : ℝ, 0 < h → h ≤ 1 → 0 ≤ t → t + h ≤ T →
      ∀ u, ‖u - y t‖ ≤ ρ → StageWithin y t h u nodes (ext.phi nodes u h [0, f u]) (C * (‖u - y t‖ + h ^ 2 + tol)) := by
  obtain ⟨C, C0, H⟩ := list_uniform nodes fun τ hτ => stage_row hT [] List.nodup_nil (fun x hx => absurd hx List.not_mem_nil) hs ρ0 K1 n
    (le_refl (0 : ℝ)) (hn τ hτ).1 (hn τ hτ).2
  refine ⟨C * (1 + 2 * K), by positivity, fun tol tol0 ext hx t h h0 h1 t0 tT u hu => ⟨hx.rows _ _ _ _, fun i hi => ?_⟩⟩
  have ht : t ∈ Icc 0 T := ⟨t0, by linarith⟩
  have mem : nodes.getD i 0 ∈ nodes := by rw [List.getD_eq_getElem _ _ hi]; exact List.getElem_mem hi
  have ha := hx.phi u ⟨t, ht, hu⟩ h h0 (by linarith) nodes hn [0, f u] i hi
  rw [phiAt_first _ _ _ (fun _ => 0)] at ha
  refine (H _ mem t h _ h0 h1 t0 tT u _ (fun _ => 0) 0 hu le_rfl le_rfl (fun i hi => absurd hi (by simp)) ha).trans (add_le_add le_rfl ?_)
  refine mul_le_mul_of_nonneg_left ?_ h0.le
  have fu : ‖f u‖ ≤ 2 * K := by
    have h1 := n.lip t ht u hu
    have h2 := n.fb t ht
    have h3 := norm_add_le (f u - f (y t)) (f (y t))
    rw [sub_add_cancel] at h3
    have : K * ‖u - y t‖ ≤ K * 1 := mul_le_mul_of_nonneg_left (hu.trans ρ1) (by linarith)
    linarith
  have e : (([0, f u] : List V).map norm).sum = ‖f u‖ := by simp
  rw [e, mul_assoc]
  refine mul_le_mul_of_nonneg_left ?_ C0
  simp only [List.length_nil, Nat.zero_add, add_zero]
  have q1 : tol * (1 + ‖f u‖) ≤ tol * (1 + 2 * K) := mul_le_mul_of_nonneg_left (by linarith) tol0
  have q2 : 0 ≤ K * (‖u - y t‖ + h ^ 2) := by positivity
  nlinarith

set_option maxHeartbeats 1000000 in
/-- one more projection raises the order by two, up to what the number of nodes of the last one allows -/
theorem next_stage [CompleteSpace V] {f : V → V} {y : ℝ → V} {T ρ K : ℝ} (hT : 0 < T) (prev : List ℝ) (hnd : prev.Nodup) (hp : ∀ x ∈ prev, 0 < x ∧ x ≤ 1)
    (hs : SmoothSolution f y T (prev.length + 2)) (ρ0 : 0 < ρ) (ρ1 : ρ ≤ 1) (K1 : 1 ≤ K) (n : NearS f y T ρ K) (nodes : List ℝ)
    (hn : ∀ x ∈ nodes, 0 < x ∧ x ≤ 1) (s : Nat) {C1 : ℝ} (C10 : 0 ≤ C1) :
    ∃ C h0, 0 ≤ C ∧ 0 < h0 ∧ ∀ tol, 0 ≤ tol → tol ≤ h0 → ∀ ext : Srerk.Ext ℝ V, Accurate f y T ρ tol ext → ∀ t h : ℝ, 0 < h → h ≤ h0 → 0 ≤ t → t + h ≤ T →
      ∀ u, ‖u - y t‖ ≤ h0 → ∀ z, StageWithin y t h u prev z (C1 * (‖u - y t‖ + h ^ s + tol)) →
      StageWithin y t h u nodes (project ext u h (f u) (alphaCoeff prev) nodes z) (C * (‖u - y t‖ + h ^ (min (s + 2) (prev.length + 2)) + tol)) := by
  have K0 : 0 < K := by linarith
  set Cr := 2 * K ^ 2 + 5 * K + 3 with hCr
  have Cr0 : 0 ≤ Cr := by positivity
  set Cm := Cr * (2 * (1 + C1) + C1 * (1 + C1) + C1 + C1 ^ 2 + 1) with hCm
  have Cm0 : 0 ≤ Cm := by positivity
  obtain ⟨Cv, Cv0, hv⟩ := vec_bound ρ1 K1 n.near prev (Bη := 3 * Cm) (by positivity)
  obtain ⟨C, C0, H⟩ := list_uniform nodes fun τ hτ => stage_row hT prev hnd hp hs ρ0 K1 n.near (Bη := 3 * Cm) (by positivity) (hn τ hτ).1 (hn τ hτ).2
  refine ⟨C * (1 + Cm + 1 + (1 + Cv)), min (min 1 (ρ / (1 + 3 * C1))) (ρ / K), by positivity, by positivity, ?_⟩
  intro tol tol0 tolh ext hx t h h0 hh t0 tT u hu z ⟨zl, hz⟩
  have hh1 : h ≤ 1 := hh.trans ((min_le_left _ _).trans (min_le_left _ _))
  have tol1 : tol ≤ 1 := tolh.trans ((min_le_left _ _).trans (min_le_left _ _))
  have u1 : ‖u - y t‖ ≤ 1 := hu.trans ((min_le_left _ _).trans (min_le_left _ _))
  have hhρ : h ≤ ρ / (1 + 3 * C1) := hh.trans ((min_le_left _ _).trans (min_le_right _ _))
  have uρ : ‖u - y t‖ ≤ ρ / (1 + 3 * C1) := hu.trans ((min_le_left _ _).trans (min_le_right _ _))
  have hKh : K * h ≤ ρ := by
    have := hh.trans (min_le_right _ _)
    rw [le_div_iff₀ K0] at this
    linarith
  set ε := ‖u - y t‖ with hε
  have ε0 : 0 ≤ ε := norm_nonneg _
  have hs1 : h ^ s ≤ 1 := pow_le_one₀ h0.le hh1
  have hs0 : 0 ≤ h ^ s := by positivity
  set e := ε + h * (C1 * (ε + h ^ s + tol)) with he
  have ερ : ε ≤ ρ := by
    refine uρ.trans (div_le_self ρ0.le (by linarith))
  have eρ : e ≤ ρ := by
    have q : h * (C1 * (ε + h ^ s + tol)) ≤ ρ / (1 + 3 * C1) * (C1 * 3) :=
      mul_le_mul hhρ (mul_le_mul_of_nonneg_left (by linarith) C10) (by positivity) (by positivity)
    have : ρ / (1 + 3 * C1) + ρ / (1 + 3 * C1) * (C1 * 3) = ρ := by field_simp
    linarith
  have e0 : 0 ≤ e := by positivity
  have ht : t ∈ Icc 0 T := ⟨t0, by linarith⟩
  have mem : ∀ i < prev.length, t + prev.getD i 0 * h ∈ Icc 0 T ∧ |t + prev.getD i 0 * h - t| ≤ h := by
    intro i hi
    have hm : prev.getD i 0 ∈ prev := by rw [List.getD_eq_getElem _ _ hi]; exact List.getElem_mem hi
    obtain ⟨a, b⟩ := hp _ hm
    have b1 : prev.getD i 0 * h ≤ 1 * h := mul_le_mul_of_nonneg_right b h0.le
    have b2 : 0 ≤ prev.getD i 0 * h := by positivity
    refine ⟨⟨by linarith, by linarith⟩, ?_⟩
    rw [add_sub_cancel_left, abs_of_nonneg b2]
    linarith
  set rz := (z.map fun v => u + h • v).map fun v => (ext.rhs v - f u) - ext.jac u (v - u) with hrz
  have rzl : rz.length = prev.length := by simp [hrz, zl]
  set μ := Cr * ((h + e) * e + ε + tol) with hμ
  have μ0 : 0 ≤ μ := by positivity
  have rem : ∀ i < prev.length, ‖rz.getD i 0 - ((f (y (t + prev.getD i 0 * h)) - f (y t)) - fderiv ℝ f (y t) (y (t + prev.getD i 0 * h) - y t))‖ ≤ μ := by
    intro i hi
    have hiz : i < z.length := by rw [zl]; exact hi
    have e1 : rz.getD i 0 = (f (u + h • z.getD i 0) - f u) - ext.jac u (u + h • z.getD i 0 - u) := by
      rw [List.getD_eq_getElem _ _ (by rw [rzl]; exact hi), List.getD_eq_getElem _ _ hiz]
      simp [hrz, hx.rhs]
    rw [e1]
    exact remainder_stage ρ1 K1 n tol0 ht (mem i hi).1 h0.le (mem i hi).2 hKh ερ eρ le_rfl (hz i hi) (hx.jac u ⟨t, ht, ερ⟩ _)
  -- the size of the remainders
  have hpow : h ^ (s + 1) ≤ 1 := pow_le_one₀ h0.le hh1
  have hpow2 : h ^ (s + 1) * h ^ (s + 1) ≤ h ^ (s + 2) := by
    rw [← pow_add]; exact pow_le_pow_of_le_one h0.le hh1 (by omega)
  set X := ε + tol with hX
  have X0 : 0 ≤ X := by positivity
  set Y := h ^ (s + 1) with hY
  have Y0 : 0 ≤ Y := by positivity
  have eX : e ≤ X * (1 + C1) + C1 * Y := by
    have : h * (C1 * (ε + h ^ s + tol)) = h * (C1 * X) + C1 * Y := by rw [hX, hY, pow_succ]; ring
    rw [he, this]
    have : h * (C1 * X) ≤ 1 * (C1 * X) := mul_le_mul_of_nonneg_right hh1 (by positivity)
    have : ε ≤ X := by linarith
    linarith
  have μX : μ ≤ Cm * (X + h ^ (s + 2)) := by
    have hY2 : h * Y = h ^ (s + 2) := by rw [hY]; ring
    have p1 : (h + e) * e ≤ (2 * (1 + C1) + C1 * (1 + C1)) * X + (C1 + C1 ^ 2) * h ^ (s + 2) := by
      have a1 : (h + e) * e ≤ (h + e) * (X * (1 + C1) + C1 * Y) := mul_le_mul_of_nonneg_left eX (by positivity)
      have a2 : (h + e) * (X * (1 + C1)) ≤ 2 * (X * (1 + C1)) := mul_le_mul_of_nonneg_right (by linarith) (by positivity)
      have a3 : e * (C1 * Y) ≤ (X * (1 + C1) + C1 * Y) * (C1 * Y) := mul_le_mul_of_nonneg_right eX (by positivity)
      have a4 : X * (1 + C1) * (C1 * Y) ≤ X * (1 + C1) * (C1 * 1) := by gcongr
      have a5 : C1 * Y * (C1 * Y) ≤ C1 ^ 2 * h ^ (s + 2) := by
        have := mul_le_mul_of_nonneg_left hpow2 (by positivity : 0 ≤ C1 ^ 2)
        linarith
      have a6 : h * (C1 * Y) = C1 * h ^ (s + 2) := by rw [← hY2]; ring
      linarith
    have hp2 : 0 ≤ h ^ (s + 2) := by positivity
    rw [hμ, hCm, mul_assoc]
    refine mul_le_mul_of_nonneg_left ?_ Cr0
    have c1 : 0 ≤ C1 * X := by positivity
    have c2 : 0 ≤ C1 ^ 2 * X := by positivity
    have c3 : 0 ≤ C1 * h ^ (s + 2) := by positivity
    have c4 : 0 ≤ C1 ^ 2 * h ^ (s + 2) := by positivity
    nlinarith
  have hq1 : h ^ (s + 2) ≤ 1 := pow_le_one₀ h0.le hh1
  have μB : μ ≤ 3 * Cm := by
    refine μX.trans ?_
    have : Cm * (X + h ^ (s + 2)) ≤ Cm * 3 := mul_le_mul_of_nonneg_left (by rw [hX]; linarith) Cm0
    linarith
  have vec : [0, f u, 0] ++ matRows (alphaCoeff prev) rz = vecList (rowCoeff prev) (prev.length + 3) prev.length (f u) (fun i => rz.getD i 0) :=
    vec_rows prev (f u) rz rzl
  have sumb := hv t ht u ερ (fun i => rz.getD i 0) (fun i => t + prev.getD i 0 * h) fun i hi => ⟨(mem i hi).1, (rem i hi).trans μB⟩
  refine ⟨hx.rows _ _ _ _, fun i hi => ?_⟩
  have memn : nodes.getD i 0 ∈ nodes := by rw [List.getD_eq_getElem _ _ hi]; exact List.getElem_mem hi
  have ha := hx.phi u ⟨t, ht, ερ⟩ h h0 (by linarith) nodes hn ([0, f u, 0] ++ matRows (alphaCoeff prev) rz) i hi
  rw [vec, phiAt_vecList] at ha
  have st := H _ memn t h _ h0 hh1 t0 tT u _ (fun i => rz.getD i 0) μ ερ μ0 μB rem ha
  have ep : project ext u h (f u) (alphaCoeff prev) nodes z =
      ext.phi nodes u h (vecList (rowCoeff prev) (prev.length + 3) prev.length (f u) fun i => rz.getD i 0) := by
    rw [← vec]; rfl
  rw [ep]
  refine st.trans (add_le_add le_rfl (mul_le_mul_of_nonneg_left ?_ h0.le))
  rw [mul_assoc]
  refine mul_le_mul_of_nonneg_left ?_ C0
  set hm := h ^ (min (s + 2) (prev.length + 2)) with hhm
  have m1 : h ^ (s + 2) ≤ hm := pow_le_pow_of_le_one h0.le hh1 (min_le_left _ _)
  have m2 : h ^ (prev.length + 2) ≤ hm := pow_le_pow_of_le_one h0.le hh1 (min_le_right _ _)
  have hm0 : 0 ≤ hm := by positivity
  have q1 : tol * (1 + ((vecList (rowCoeff prev) (prev.length + 3) prev.length (f u) fun i => rz.getD i 0).map norm).sum) ≤ tol * (1 + Cv) :=
    mul_le_mul_of_nonneg_left (by linarith) tol0
  have q2 : μ ≤ Cm * (ε + hm + tol) := μX.trans (mul_le_mul_of_nonneg_left (by rw [hX]; linarith) Cm0)
  have q3 : 0 ≤ Cv * (ε + hm) := by positivity
  have q4 : 0 ≤ ε + hm + tol := by positivity
  nlinarith

/-! ## A step -/

/-- the order that is reached by the remaining projections -/
def lastOrder : Nat → List ℝ → List (List ℝ) → Nat
  | s, _, [] => s
  | s, prev, nodes :: rest => lastOrder (min (s + 2) (prev.length + 2)) nodes rest

/-- the nodes of the last projection -/
def lastNodes : List ℝ → List (List ℝ) → List ℝ
  | prev, [] => prev
  | _, nodes :: rest => lastNodes nodes rest

theorem all_stages [CompleteSpace V] {f : V → V} {y : ℝ → V} {T ρ K : ℝ} {p : Nat} (hT : 0 < T) (hs : SmoothSolution f y T p) (ρ0 : 0 < ρ) (ρ1 : ρ ≤ 1)
    (K1 : 1 ≤ K) (n : NearS f y T ρ K) (rest : List (List ℝ)) : ∀ (prev : List ℝ), (∀ l ∈ prev :: rest, l.Nodup ∧ (∀ x ∈ l, 0 < x ∧ x ≤ 1) ∧ l.length + 2 ≤ p) →
    ∀ (s : Nat) (C1 : ℝ), 0 ≤ C1 →
    ∃ C h0, 0 ≤ C ∧ 0 < h0 ∧ ∀ tol, 0 ≤ tol → tol ≤ h0 → ∀ ext : Srerk.Ext ℝ V, Accurate f y T ρ tol ext → ∀ t h : ℝ, 0 < h → h ≤ h0 → 0 ≤ t → t + h ≤ T →
      ∀ u, ‖u - y t‖ ≤ h0 → ∀ z, StageWithin y t h u prev z (C1 * (‖u - y t‖ + h ^ s + tol)) →
      StageWithin y t h u (lastNodes prev rest) (projections ext u h (f u) prev rest z) (C * (‖u - y t‖ + h ^ (lastOrder s prev rest) + tol)) := by
  induction rest with
  | nil => exact fun prev _ s C1 C10 => ⟨C1, 1, C10, one_pos, fun tol _ _ ext _ t h _ _ _ _ u _ z hz => hz⟩
  | cons nodes rest ih =>
    intro prev hl s C1 C10
    obtain ⟨a1, a2, a3⟩ := hl prev List.mem_cons_self
    obtain ⟨-, b2, -⟩ := hl nodes (List.mem_cons_of_mem _ List.mem_cons_self)
    obtain ⟨C2, h1, C20, h10, H1⟩ := next_stage hT prev a1 a2 (smooth_mono a3 hs) ρ0 ρ1 K1 n nodes b2 s C10
    obtain ⟨C3, h2, C30, h20, H2⟩ := ih nodes (fun l h => hl l (List.mem_cons_of_mem _ h)) (min (s + 2) (prev.length + 2)) C2 C20
    refine ⟨C3, min h1 h2, C30, lt_min h10 h20, fun tol t0 t1 ext hx t h a b c d u hu z hz => ?_⟩
    have l1 : min h1 h2 ≤ h1 := min_le_left _ _
    have l2 : min h1 h2 ≤ h2 := min_le_right _ _
    exact H2 tol t0 (t1.trans l2) ext hx t h a (b.trans l2) c d u (hu.trans l2) _
      (H1 tol t0 (t1.trans l1) ext hx t h a (b.trans l1) c d u (hu.trans l1) z hz)

theorem whole_step [CompleteSpace V] {f : V → V} {y : ℝ → V} {T : ℝ} {p : Nat} (hT : 0 < T) (hp : 2 ≤ p) (hs : SmoothSolution f y T p)
    (c0 : List ℝ) (rest : List (List ℝ)) (hl : ∀ l ∈ c0 :: rest, l.Nodup ∧ (∀ x ∈ l, 0 < x ∧ x ≤ 1) ∧ l.length + 2 ≤ p) (hlast : lastNodes c0 rest = [1]) :
    ∃ C h0 ρ, 0 ≤ C ∧ 0 < h0 ∧ 0 < ρ ∧ ∀ tol, 0 ≤ tol → tol ≤ h0 → ∀ ext : Srerk.Ext ℝ V, Accurate f y T ρ tol ext → ∀ t h : ℝ, 0 < h → h ≤ h0 → 0 ≤ t → t + h ≤ T →
      ∀ u, ‖u - y t‖ ≤ h0 → ∃ q, step (c0 :: rest) ext u h = some q ∧
        ‖q - y (t + h)‖ ≤ ‖u - y t‖ + h * (C * (‖u - y t‖ + (h ^ (lastOrder 2 c0 rest) + tol))) := by
  obtain ⟨ρ, K, ρ0, ρ1, K1, n⟩ := nearS_exists hp hs
  obtain ⟨C1, C10, H1⟩ := first_stage hT (smooth_mono hp hs) ρ0 ρ1 K1 n.near c0 (hl c0 List.mem_cons_self).2.1
  obtain ⟨C2, h2, C20, h20, H2⟩ := all_stages hT hs ρ0 ρ1 K1 n rest c0 hl 2 C1 C10
  refine ⟨C2, min h2 (min 1 ρ), ρ, C20, lt_min h20 (lt_min one_pos ρ0), ρ0, fun tol t0 t1 ext hx t h a b c d u hu => ?_⟩
  have l1 : min h2 (min 1 ρ) ≤ h2 := min_le_left _ _
  have l2 : min h2 (min 1 ρ) ≤ 1 := (min_le_right _ _).trans (min_le_left _ _)
  have l3 : min h2 (min 1 ρ) ≤ ρ := (min_le_right _ _).trans (min_le_right _ _)
  obtain ⟨zl, hz⟩ := H2 tol t0 (t1.trans l1) ext hx t h a (b.trans l1) c d u (hu.trans l1) _ (H1 tol t0 ext hx t h a (b.trans l2) c d u (hu.trans l3))
  rw [hlast] at zl hz
  have e : projections ext u h (f u) c0 rest (ext.phi c0 u h [0, f u]) =
      [(projections ext u h (f u) c0 rest (ext.phi c0 u h [0, f u])).getD 0 0] := by
    generalize projections ext u h (f u) c0 rest (ext.phi c0 u h [0, f u]) = w at zl
    match w, zl with
    | [v], _ => rfl
  have h' := hz 0 (by simp)
  simp only [List.getD_cons_zero, one_mul] at h'
  set v := (projections ext u h (f u) c0 rest (ext.phi c0 u h [0, f u])).getD 0 0
  refine ⟨u + h • v, ?_, by rwa [← add_assoc]⟩
  show (match projections ext u h (ext.rhs u) c0 rest (ext.phi c0 u h [0, ext.rhs u]) with | [v] => some (u + h • v) | _ => none) = some (u + h • v)
  rw [hx.rhs, e]

end WxVerif.SrerkConvergence
