import Verif.Props.Krylov
import Verif.Model.KrylovCall

/-!
# The rows of a call of the exponential solver with several output times (C57)
-/

namespace WxVerif.Props.KrylovTimes

open WxVerif.Krylov WxVerif.Props.Krylov WxVerif.Props.Augmented

section inside
variable {W : Type*} [NormedAddCommGroup W] [InnerProductSpace ℝ W]

/-- if the matrix in memory represents the operator on an invariant Krylov space, the row for a time inside the sub-step is the exact exponential -/
theorem inside_exact [CompleteSpace W] (T : W →L[ℝ] W) (tau : ℝ) (v : W) (s : Mem W) (hj : 0 < s.j) (hv : v ≠ 0) (h0 : s.V 0 = ‖v‖⁻¹ • v)
    (hrel : ∀ i < s.j, T (s.V i) = ∑ k ∈ Finset.range s.j, s.H k i • s.V k) : inside tau v s = NormedSpace.exp (tau • T) v := by
  unfold inside
  dsimp only
  rw [dif_pos hj]
  set H : Matrix (Fin s.j) (Fin s.j) ℝ := fun a b => s.H a b with hH
  have key : ∀ n : Nat, ∑ k : Fin s.j, (H ^ n) k ⟨0, hj⟩ • s.V k = (T ^ n) (s.V 0) := by
    intro n
    induction n with
    | zero =>
      rw [Finset.sum_eq_single (⟨0, hj⟩ : Fin s.j)]
      · simp
      · intro b _ hb
        rw [pow_zero, Matrix.one_apply_ne hb, zero_smul]
      · simp
    | succ n ih =>
      rw [pow_succ' T, ContinuousLinearMap.mul_apply, ← ih, map_sum]
      simp only [pow_succ', Matrix.mul_apply, Finset.sum_smul]
      rw [Finset.sum_comm]
      refine Finset.sum_congr rfl fun b _ => ?_
      rw [map_smul, hrel b b.2, Finset.smul_sum, Finset.sum_range]
      refine Finset.sum_congr rfl fun k _ => ?_
      rw [smul_smul, mul_comm]
  have hn : ‖v‖ ≠ 0 := norm_ne_zero_iff.2 hv
  have h1 : HasSum (fun n : Nat => ∑ k : Fin s.j, ((tau ^ n / (n.factorial : ℝ)) * (H ^ n) k ⟨0, hj⟩) • s.V k)
      (∑ k : Fin s.j, NormedSpace.exp (tau • H) k ⟨0, hj⟩ • s.V k) :=
    hasSum_sum fun k _ => (matrix_exp_entry H tau k ⟨0, hj⟩).smul_const (s.V k)
  have h2 : HasSum (fun n : Nat => ∑ k : Fin s.j, ((tau ^ n / (n.factorial : ℝ)) * (H ^ n) k ⟨0, hj⟩) • s.V k)
      (NormedSpace.exp (tau • T) (s.V 0)) := by
    have := exp_apply_hasSum T tau (s.V 0)
    convert this using 2 with n
    rw [← key n, Finset.smul_sum]
    simp only [smul_smul]
  rw [h1.unique h2, h0, map_smul, smul_smul, mul_inv_cancel₀ hn, one_smul]

/-- the recurrence at a breakdown on a cleared matrix whose last vector vanishes -/
theorem breakdown_rel (T : W → W) (iop : Nat) (tol : ℝ) (htol : 0 < tol) (m : Nat) (v : W) (s0 : Mem W) (hclean : ∀ a b, s0.H a b = 0) (s : Mem W)
    (hs : kiopsRun T iop tol m v s0 = s) (hh : s.happy = true) (hexact : s.V s.j = 0) :
    0 < s.j ∧ s.V 0 = ‖v‖⁻¹ • v ∧ ∀ i < s.j, T (s.V i) = ∑ k ∈ Finset.range s.j, s.H k i • s.V k := by
  have h := kiopsRun_rel T iop tol htol m v s0
  rw [hs] at h
  obtain ⟨j, h1, h2, h3⟩ := h.last hh
  simp only [hclean, zero_smul, Finset.sum_const_zero, add_zero] at h3
  rw [h1] at hexact
  rw [hexact, add_zero] at h3
  refine ⟨by omega, h.v0, fun i hi => ?_⟩
  rcases Nat.lt_or_ge (i + 1) s.j with hi' | hi'
  · have := h.rel i (Or.inl hi')
    simp only [hclean, zero_smul, Finset.sum_const_zero, add_zero] at this
    rw [this, Finset.sum_subset (s₁ := Finset.range (i + 2)) (s₂ := Finset.range s.j)]
    · intro x hx; simp at hx ⊢; omega
    · intro x _ hx
      simp only [Finset.mem_range, not_lt] at hx
      rw [h.below _ _ (by omega), hclean, zero_smul]
  · have : i = j := by omega
    subst this
    rw [h1]; exact h3

/-- **C57** (`kiops`), output times inside a sub-step: when the Krylov space becomes invariant in a sub-step that finds the matrix cleared, the row stored for
    every time inside the sub-step is exactly the exponential of the operator on the start vector. -/
theorem C57_kiops_inside_partial [CompleteSpace W] (T : W →L[ℝ] W) (iop : Nat) (tol : ℝ) (htol : 0 < tol) (m : Nat) (v : W)
    (hv : v ≠ 0) (s0 : Mem W) (hclean : ∀ a b, s0.H a b = 0) (s : Mem W) (hs : kiopsRun T iop tol m v s0 = s)
    (hh : s.happy = true) (hexact : s.V s.j = 0) (tau : ℝ) : inside tau v s = NormedSpace.exp (tau • T) v := by
  obtain ⟨h1, h2, h3⟩ := breakdown_rel T iop tol htol m v s0 hclean s hs hh hexact
  exact inside_exact T tau v s h1 hv h2 h3

end inside

section whole
variable {V : Type*} [NormedAddCommGroup V] [NormedSpace ℝ V]

/-- augmented vectors with and without their scalar product -/
noncomputable def plain (p : Nat) : Aug V p ≃L[ℝ] V × (Fin p → ℝ) :=
  (WithLp.prodContinuousLinearEquiv 2 ℝ V (EuclideanSpace ℝ (Fin p))).trans
    ((ContinuousLinearEquiv.refl ℝ V).prodCongr (PiLp.continuousLinearEquiv 2 ℝ fun _ : Fin p => ℝ))

/-- the augmented product as a continuous linear map of that space -/
noncomputable def augE {p : Nat} (A : V →L[ℝ] V) (uf : Fin p → V) : Aug V p →L[ℝ] Aug V p :=
  (plain (V := V) p).symm.toContinuousLinearMap.comp ((augCLM A uf).comp (plain (V := V) p).toContinuousLinearMap)

theorem augE_pow {p : Nat} (A : V →L[ℝ] V) (uf : Fin p → V) (v : V × (Fin p → ℝ)) (n : Nat) :
    (augE A uf ^ n) ((plain p).symm v) = (plain p).symm ((augCLM A uf ^ n) v) := by
  induction n with
  | zero => rfl
  | succ n ih =>
    rw [pow_succ', ContinuousLinearMap.mul_apply, ih, pow_succ', ContinuousLinearMap.mul_apply]
    change (plain p).symm (augCLM A uf (plain p ((plain p).symm _))) = _
    rw [ContinuousLinearEquiv.apply_symm_apply]

theorem exp_augE [CompleteSpace V] {p : Nat} (A : V →L[ℝ] V) (uf : Fin p → V) (t : ℝ) (v : V × (Fin p → ℝ)) :
    NormedSpace.exp (t • augE A uf) ((plain p).symm v) = (plain p).symm (NormedSpace.exp (t • augCLM A uf) v) := by
  have h1 := exp_apply_hasSum (augE A uf) t ((plain p).symm v)
  have h2 := (exp_apply_hasSum (augCLM A uf) t v).mapL (plain (V := V) p).symm.toContinuousLinearMap
  refine h1.unique ?_
  have e : (fun n : Nat => (t ^ n / (n.factorial : ℝ)) • (augE A uf ^ n) ((plain p).symm v)) =
      fun n : Nat => (plain (V := V) p).symm.toContinuousLinearMap ((t ^ n / (n.factorial : ℝ)) • (augCLM A uf ^ n) v) := by
    funext n
    rw [augE_pow, map_smul]
    rfl
  rw [e]
  exact h2

end whole

section call
variable {V : Type*} [NormedAddCommGroup V] [InnerProductSpace ℝ V]

theorem augE_apply {p : Nat} (A : V →L[ℝ] V) (uf : Fin p → V) (w : Aug V p) : augE A uf w = augT A uf w := by
  change (plain p).symm (augCLM A uf (plain p w)) = _
  rw [augCLM_apply]
  rfl

theorem toAug_eq {p : Nat} (v : V × (Fin p → ℝ)) : toAug v = (plain p).symm v := rfl

end call

/-- **C57** (`kiops`), a whole call: if the first sub-step is accepted after a breakdown with an exactly invariant space and reaches the last output time, the
    rows of the result are exactly `Σ_j t^j φ_j(t A) u_j` at the output times `t`. -/
theorem C57_kiops_call_partial {ι : Type*} [Fintype ι] (A : EuclideanSpace ℝ ι →L[ℝ] EuclideanSpace ℝ ι) (p : Nat) (hp : 1 ≤ p)
    (u : Nat → EuclideanSpace ℝ ι) (iop : Nat) (tol : ℝ) (htol : 0 < tol) (control : List Seen → Option Move) (m : Nat) (passed : List ℝ) (last : ℝ)
    (c0 : control [] = some (.grow m)) (c1 : ∀ a, control [a] = some (.accept last last passed)) (c2 : ∀ a b, control [a, b] = none) (fuel : Nat)
    (hf : 2 ≤ fuel)
    (breakdown : let sc := scaleOf (normU p u)
      let s := kiopsRun (augT A (uFlip sc.1 p u)) iop tol m (toAug (startVec p (u 0) sc.2 0)) fresh
      s.happy = true ∧ s.V s.j = 0) :
    (call false A p u iop tol control fuel).1 = (passed ++ [last]).map (WxVerif.Spec.Krylov.phiSum p A u) := by
  obtain ⟨fuel, rfl⟩ : ∃ n, fuel = n + 2 := ⟨fuel - 2, by omega⟩
  obtain ⟨hh, he⟩ := breakdown
  set sc := scaleOf (normU p u) with hsc
  set v := toAug (startVec p (u 0) sc.2 0) with hv
  set s := kiopsRun (augT A (uFlip sc.1 p u)) iop tol m v fresh with hs
  have hsc1 : sc.1 * sc.2 = 1 := by
    rw [hsc]
    unfold scaleOf
    split
    · simp only [scale]; rw [← zpow_add₀ (by norm_num)]; simp
    · simp
  have hT : augT A (uFlip sc.1 p u) = augE A (uFlip sc.1 p u) := funext fun w => (augE_apply A _ w).symm
  have hv0 : v ≠ 0 := by
    intro h
    have h1 : (startVec p (u 0) sc.2 0).2 ⟨p - 1, by omega⟩ = 0 := by
      have := congrArg (fun w : Aug (EuclideanSpace ℝ ι) p => w.snd ⟨p - 1, by omega⟩) h
      exact this
    simp only [startVec] at h1
    rw [if_neg (by omega)] at h1
    rw [h1, mul_zero] at hsc1
    exact zero_ne_one hsc1
  have ex : ∀ t, (NormedSpace.exp (t • augE A (uFlip sc.1 p u)) v).fst = WxVerif.Spec.Krylov.phiSum p A u t := by
    intro t
    rw [hv, toAug_eq, exp_augE]
    exact C32_first_substep p hp A u sc.1 sc.2 hsc1 t
  have hin : ∀ t, (inside t v s).fst = WxVerif.Spec.Krylov.phiSum p A u t := by
    intro t
    rw [C57_kiops_inside_partial (augE A (uFlip sc.1 p u)) iop tol htol m v hv0 fresh (fun _ _ => rfl) s (by rw [hs, hT]) hh he t, ex]
  have hup : (kiopsUpdate last v s).fst = WxVerif.Spec.Krylov.phiSum p A u last := by
    rw [C57_kiops_breakdown_partial (augE A (uFlip sc.1 p u)) iop tol htol m v hv0 fresh (fun _ _ => rfl) s (by rw [hs, hT]) hh he last, ex]
  have hrun : krylovLoop (kiopsStep (augT A (uFlip sc.1 p u)) iop tol) m m (begin false v fresh) = s := rfl
  have hend : ∀ (log : List Seen) (rows : List (EuclideanSpace ℝ ι)) (s' : Mem (Aug (EuclideanSpace ℝ ι) p)) (v' : Aug (EuclideanSpace ℝ ι) p)
      (w : EuclideanSpace ℝ ι), control log = none →
      (adaptive false A (uFlip sc.1 p u) sc.2 iop tol control fuel log rows s' v' w).1 = rows ++ [w] := by
    intro log rows s' v' w h
    cases fuel with
    | zero => rfl
    | succ n => unfold adaptive; rw [h]
  unfold call
  dsimp only
  rw [← hsc, ← hv, show fuel + 2 = (fuel + 1) + 1 from rfl, adaptive, c0]
  simp only [Bool.false_eq_true, if_false, hrun, List.nil_append]
  rw [adaptive, c1]
  simp only [Bool.false_eq_true, if_false, List.nil_append]
  rw [List.singleton_append, hend _ _ _ _ _ (c2 _ _), hup, List.map_append]
  congr 1
  exact List.map_congr_left fun t _ => hin t

/-- a space that is complete after two vectors: `T e₀ = e₁`, `T e₁ = 0` -/
theorem two_vectors {W : Type*} [NormedAddCommGroup W] [InnerProductSpace ℝ W] (T : W → W) (tol : ℝ) (h0 : 0 < tol) (h1 : tol ≤ 1) (m : Nat) (v w : W)
    (hv : ‖v‖ = 1) (hw : ‖w‖ = 1) (hvw : inner ℝ v w = (0 : ℝ)) (hT : T v = w) (hT' : T w = 0) :
    let s := kiopsRun T 2 tol (m + 2) v fresh
    s.happy = true ∧ s.V s.j = 0 := by
  have e1 : ∀ s : Mem W, s.j = 0 → s.V 0 = v → s.happy = false →
      (kiopsStep T 2 tol s).happy = false ∧ (kiopsStep T 2 tol s).j = 1 ∧ (kiopsStep T 2 tol s).V 1 = w := by
    intro s hj hV hs
    unfold kiopsStep
    simp only [hj, hV, hT]
    have hz : w - ∑ i ∈ Finset.Ico (0 + 1 - 2) (0 + 1), (if True ∧ 0 + 1 - 2 ≤ i ∧ i < 0 + 1 then inner ℝ (s.V i) w else s.H i 0) • s.V i = w := by
      rw [Finset.sum_eq_zero, sub_zero]
      intro i hi
      have : i = 0 := by have := Finset.mem_Ico.1 hi; omega
      subst this
      rw [if_pos (by decide), hV, hvw, zero_smul]
    simp only [hz, hw, if_neg (not_lt.2 h1)]
    exact ⟨hs, trivial, by simp [setV]⟩
  have e2 : ∀ s : Mem W, s.j = 1 → s.V 1 = w → (kiopsStep T 2 tol s).happy = true ∧ (kiopsStep T 2 tol s).j = 2 ∧ (kiopsStep T 2 tol s).V 2 = 0 := by
    intro s hj hV
    unfold kiopsStep
    have z : ∀ i, inner ℝ (s.V i) (0 : W) = (0 : ℝ) := fun i => inner_zero_right _
    simp only [hj, hV, hT', z]
    have hs : (0 : W) - ∑ i ∈ Finset.Ico (1 + 1 - 2) (1 + 1), (if True ∧ 1 + 1 - 2 ≤ i ∧ i < 1 + 1 then (0 : ℝ) else s.H i 1) • s.V i = 0 := by
      rw [Finset.sum_eq_zero, sub_zero]
      intro i hi
      rw [if_pos ⟨trivial, (Finset.mem_Ico.1 hi).1, (Finset.mem_Ico.1 hi).2⟩, zero_smul]
    simp only [hs, norm_zero, if_pos h0]
    exact ⟨trivial, trivial, by simp [setV]⟩
  intro s
  obtain ⟨a', b', c'⟩ := e1 (begin false v fresh) rfl (by simp [begin, setV, hv]) rfl
  obtain ⟨a, b, c⟩ := e2 _ b' c'
  have hs : s = kiopsStep T 2 tol (kiopsStep T 2 tol (begin false v fresh)) := by
    change krylovLoop _ (m + 2) (m + 2) _ = _
    rw [krylovLoop, if_pos ⟨by change 0 < m + 2; omega, rfl⟩, krylovLoop, if_pos ⟨by rw [b']; omega, a'⟩]
    cases m with
    | zero => rfl
    | succ m => rw [krylovLoop, if_neg (by rw [a]; simp)]
  rw [hs, b]
  exact ⟨a, c⟩

/-- non-vacuity: `w' = 1` on one number, asked for at the times 1/4, 1/2 and 1: the second vector of the space is the last -/
example (control : List Seen → Option Move) (c0 : control [] = some (.grow 16)) (c1 : ∀ a, control [a] = some (.accept 1 1 [1 / 4, 1 / 2]))
    (c2 : ∀ a b, control [a, b] = none) :
    (call false (0 : EuclideanSpace ℝ (Fin 1) →L[ℝ] EuclideanSpace ℝ (Fin 1)) 1 (fun k => if k = 0 then 0 else !₂[1]) 2 (1 / 10000000) control 2).1 =
      ([1 / 4, 1 / 2] ++ [1] : List ℝ).map (WxVerif.Spec.Krylov.phiSum 1 0 (fun k => if k = 0 then 0 else !₂[1])) := by
  refine C57_kiops_call_partial (ι := Fin 1) _ 1 le_rfl _ 2 (1 / 10000000) (by norm_num) control 16 _ 1 c0 c1 c2 2 le_rfl ?_
  have hn : normU 1 (fun k => if k = 0 then 0 else (!₂[1] : EuclideanSpace ℝ (Fin 1))) = 1 := by
    simp [normU, sumNorm]
  have hsc : scaleOf 1 = (1, 1) := by simp [scaleOf, scale]
  rw [hn, hsc]
  dsimp only
  refine two_vectors _ _ (by norm_num) (by norm_num) 14 _ (toAug ((!₂[1] : EuclideanSpace ℝ (Fin 1)), fun _ : Fin 1 => (0 : ℝ))) ?_ ?_ ?_ ?_ ?_
  · rw [WithLp.prod_norm_eq_of_L2]; simp [toAug, startVec, EuclideanSpace.norm_eq]
  · rw [WithLp.prod_norm_eq_of_L2]; simp [toAug, EuclideanSpace.norm_eq]
  · simp [toAug, startVec, WithLp.prod_inner_apply, PiLp.inner_apply]
  · simp [toAug, startVec, augT, augMul, uFlip]
  · simp [toAug, augT, augMul, uFlip]
    rfl

end WxVerif.Props.KrylovTimes
