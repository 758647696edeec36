import Verif.Props.Augmented
import Mathlib.Analysis.InnerProductSpace.PiL2
import Mathlib.Analysis.SpecialFunctions.Exponential
import Mathlib.Tactic.Abel
import Mathlib.Tactic.Module

/-!
# The Krylov processes of the exponential solvers (C57)
-/

namespace WxVerif.Props.Krylov

open WxVerif.Krylov
open WxVerif.Props.Augmented (exp_apply_hasSum)

variable {W : Type*} [NormedAddCommGroup W] [InnerProductSpace ℝ W]

/-! ## The process of `kiops` -/

/-- what one sub-step of `kiops` establishes, when it starts from the matrix `H0` left in memory -/
structure KRel (T : W → W) (iop : Nat) (tol : ℝ) (v : W) (H0 : Nat → Nat → ℝ) (s : Mem W) : Prop where
  v0 : s.V 0 = ‖v‖⁻¹ • v
  frame : ∀ a b, s.j ≤ b → s.H a b = H0 a b
  below : ∀ a b, b + 1 < a → s.H a b = H0 a b
  above : ∀ a b, a < b + 1 - iop → s.H a b = H0 a b
  rel : ∀ i, i + 1 < s.j ∨ (i + 1 = s.j ∧ s.happy = false) →
    T (s.V i) + ∑ k ∈ Finset.range (i + 1 - iop), H0 k i • s.V k = ∑ k ∈ Finset.range (i + 2), s.H k i • s.V k
  last : s.happy = true → ∃ j, s.j = j + 1 ∧ ‖s.V (j + 1)‖ < tol ∧
    T (s.V j) + ∑ k ∈ Finset.range (j + 1 - iop), H0 k j • s.V k =
      ∑ k ∈ Finset.range (j + 1), s.H k j • s.V k + s.V (j + 1)

theorem setV_lt (V : Nat → W) (i : Nat) (x : W) (k : Nat) (h : k < i) : setV V i x k = V k := by
  simp [setV, show k ≠ i by omega]

theorem setV_self (V : Nat → W) (i : Nat) (x : W) : setV V i x i = x := by simp [setV]

theorem sum_setV (V : Nat → W) (i : Nat) (x : W) (n : Nat) (hn : n ≤ i) (c : Nat → ℝ) :
    ∑ k ∈ Finset.range n, c k • setV V i x k = ∑ k ∈ Finset.range n, c k • V k := by
  apply Finset.sum_congr rfl
  intro k hk
  rw [setV_lt _ _ _ _ (by have := Finset.mem_range.1 hk; omega)]

theorem sum_split (V : Nat → W) (n lo : Nat) (h : lo ≤ n) (c : Nat → ℝ) :
    ∑ k ∈ Finset.range n, c k • V k = ∑ k ∈ Finset.range lo, c k • V k + ∑ k ∈ Finset.Ico lo n, c k • V k := by
  rw [Finset.sum_range_add_sum_Ico _ h]

theorem kiopsStep_rel (T : W → W) (iop : Nat) (tol : ℝ) (htol : 0 < tol) (v : W) (H0 : Nat → Nat → ℝ) (s : Mem W)
    (h : KRel T iop tol v H0 s) (hh : s.happy = false) : KRel T iop tol v H0 (kiopsStep T iop tol s) := by
  have hlo : s.j + 1 - iop ≤ s.j + 1 := Nat.sub_le _ _
  set H1 : Nat → Nat → ℝ := fun a b => if b = s.j ∧ s.j + 1 - iop ≤ a ∧ a < s.j + 1 then inner ℝ (s.V a) (T (s.V s.j)) else s.H a b
    with hH1
  set v' : W := T (s.V s.j) - ∑ i ∈ Finset.Ico (s.j + 1 - iop) (s.j + 1), H1 i s.j • s.V i with hv'
  have hcol : ∀ b, b ≠ s.j → ∀ a, H1 a b = s.H a b := by
    intro b hb a; simp only [hH1]; rw [if_neg (by tauto)]
  have hbase : T (s.V s.j) + ∑ k ∈ Finset.range (s.j + 1 - iop), H0 k s.j • s.V k =
      ∑ k ∈ Finset.range (s.j + 1), H1 k s.j • s.V k + v' := by
    rw [sum_split _ _ _ hlo (fun k => H1 k s.j)]
    have : ∑ k ∈ Finset.range (s.j + 1 - iop), H1 k s.j • s.V k = ∑ k ∈ Finset.range (s.j + 1 - iop), H0 k s.j • s.V k := by
      apply Finset.sum_congr rfl
      intro k hk
      have hk' := Finset.mem_range.1 hk
      simp only [hH1]
      rw [if_neg (by omega), h.frame k s.j le_rfl]
    rw [this, hv']
    abel
  have hold : ∀ i, i + 1 ≤ s.j → ∀ x : W, ∀ H : Nat → Nat → ℝ, (∀ k, H k i = s.H k i) →
      T (setV s.V (s.j + 1) x i) + ∑ k ∈ Finset.range (i + 1 - iop), H0 k i • setV s.V (s.j + 1) x k =
        ∑ k ∈ Finset.range (i + 2), H k i • setV s.V (s.j + 1) x k := by
    intro i hi x H hH
    rw [setV_lt _ _ _ _ (by omega), sum_setV _ _ _ _ (by omega), sum_setV _ _ _ _ (by omega)]
    rw [h.rel i (by rcases Nat.lt_or_ge (i + 1) s.j with h1 | h1; exact Or.inl h1; exact Or.inr ⟨by omega, hh⟩)]
    simp only [hH]
  have hdef : kiopsStep T iop tol s = if ‖v'‖ < tol then { s with V := setV s.V (s.j + 1) v', H := H1, j := s.j + 1, happy := true }
      else { s with V := setV s.V (s.j + 1) (‖v'‖⁻¹ • v'), H := fun a b => if a = s.j + 1 ∧ b = s.j then ‖v'‖ else H1 a b,
                    j := s.j + 1 } := rfl
  rw [hdef]
  by_cases hn : ‖v'‖ < tol
  · rw [if_pos hn]
    refine ⟨?_, ?_, ?_, ?_, ?_, ?_⟩
    · simp only; rw [setV_lt _ _ _ _ (by omega), h.v0]
    · intro a b hb
      simp only [hH1] at hb ⊢
      rw [if_neg (by omega)]; exact h.frame a b (by omega)
    · intro a b hb
      simp only [hH1]
      rw [if_neg (by omega)]; exact h.below a b hb
    · intro a b hb
      simp only [hH1]
      rw [if_neg (by rintro ⟨rfl, h1, h2⟩; omega)]; exact h.above a b hb
    · intro i hi
      simp only at hi ⊢
      rcases hi with hi | ⟨_, hi⟩
      · exact hold i (by omega) v' H1 (fun k => hcol i (by omega) k)
      · exact absurd hi (by simp)
    · intro _
      refine ⟨s.j, rfl, ?_, ?_⟩
      · simp only; rw [setV_self]; exact hn
      · simp only
        rw [setV_self, setV_lt _ _ _ _ (by omega), sum_setV _ _ _ _ (by omega), sum_setV _ _ _ _ (by omega)]
        exact hbase
  · rw [if_neg hn]
    have hpos : ‖v'‖ ≠ 0 := by push Not at hn; linarith
    refine ⟨?_, ?_, ?_, ?_, ?_, ?_⟩
    · simp only; rw [setV_lt _ _ _ _ (by omega), h.v0]
    · intro a b hb
      simp only [hH1] at hb ⊢
      rw [if_neg (by omega), if_neg (by omega)]; exact h.frame a b (by omega)
    · intro a b hb
      simp only [hH1]
      rw [if_neg (by omega), if_neg (by omega)]; exact h.below a b hb
    · intro a b hb
      simp only [hH1]
      rw [if_neg (by omega), if_neg (by rintro ⟨rfl, h1, h2⟩; omega)]; exact h.above a b hb
    · intro i hi
      simp only at hi ⊢
      have hi' : i ≤ s.j := by omega
      rcases Nat.lt_or_ge i s.j with h1 | h1
      · refine hold i (by omega) _ (fun a b => if a = s.j + 1 ∧ b = s.j then ‖v'‖ else H1 a b) (fun k => ?_)
        rw [if_neg (by omega)]; exact hcol i (by omega) k
      · have hi2 : i = s.j := by omega
        subst hi2
        rw [setV_lt _ _ _ _ (by omega), sum_setV _ _ _ _ (by omega), Finset.sum_range_succ, setV_self,
          sum_setV _ _ _ _ (by omega), if_pos ⟨rfl, rfl⟩, smul_smul, mul_inv_cancel₀ hpos, one_smul]
        rw [hbase]
        congr 1
        apply Finset.sum_congr rfl
        intro k hk
        rw [if_neg (by have := Finset.mem_range.1 hk; omega)]
    · intro hx
      simp only at hx
      rw [hh] at hx
      exact absurd hx (by simp)

theorem begin_rel (T : W → W) (iop : Nat) (tol : ℝ) (v : W) (s : Mem W) :
    KRel T iop tol v s.H (begin false v s) := by
  refine ⟨by simp [begin, setV], fun a b _ => by simp [begin], fun a b _ => by simp [begin],
    fun a b _ => by simp [begin], ?_, ?_⟩
  · intro i hi
    simp only [begin] at hi
    omega
  · intro h; simp [begin] at h

theorem loop_rel (T : W → W) (iop : Nat) (tol : ℝ) (htol : 0 < tol) (v : W) (H0 : Nat → Nat → ℝ) (m fuel : Nat) :
    ∀ s, KRel T iop tol v H0 s → KRel T iop tol v H0 (krylovLoop (kiopsStep T iop tol) m fuel s) := by
  induction fuel with
  | zero => intro s h; exact h
  | succ n ih =>
    intro s h
    rw [krylovLoop]
    split_ifs with hc
    · exact ih _ (kiopsStep_rel T iop tol htol v H0 s h hc.2)
    · exact h

theorem kiopsRun_rel (T : W → W) (iop : Nat) (tol : ℝ) (htol : 0 < tol) (m : Nat) (v : W) (s : Mem W) :
    KRel T iop tol v s.H (kiopsRun T iop tol m v s) :=
  loop_rel T iop tol htol v s.H m m _ (begin_rel T iop tol v s)

theorem kiopsStep_j (T : W → W) (iop : Nat) (tol : ℝ) (s : Mem W) : (kiopsStep T iop tol s).j = s.j + 1 := by
  unfold kiopsStep
  simp only
  split_ifs <;> rfl

/-- the loop ends with the requested size or a breakdown -/
theorem loop_size (step : Mem W → Mem W) (hstep : ∀ s, (step s).j = s.j + 1) (m fuel : Nat) :
    ∀ s : Mem W, s.j ≤ m → m ≤ s.j + fuel →
      (krylovLoop step m fuel s).j ≤ m ∧ ((krylovLoop step m fuel s).happy = false → (krylovLoop step m fuel s).j = m) := by
  induction fuel with
  | zero => intro s h1 h2; exact ⟨h1, fun _ => by simp only [krylovLoop]; omega⟩
  | succ n ih =>
    intro s h1 h2
    rw [krylovLoop]
    split_ifs with hc
    · exact ih _ (by rw [hstep]; omega) (by rw [hstep]; omega)
    · refine ⟨h1, fun hf => ?_⟩
      push Not at hc
      by_contra hne
      exact hc (by omega) hf

/-- **C57** (`kiops`): in a sub-step that finds the matrix cleared, the Krylov process ends with `m` vectors or a
    breakdown; the matrix is upper Hessenberg with `iop` bands above, and on all vectors but the last one it represents the
    operator: `T V_i = Σ_k H[k, i] V_k`; at a breakdown what is missing in the last column is shorter than `tol`. -/
theorem C57_kiops_process (T : W → W) (iop : Nat) (tol : ℝ) (htol : 0 < tol) (m : Nat) (v : W) (s0 : Mem W)
    (hclean : ∀ a b, s0.H a b = 0) (s : Mem W) (hs : kiopsRun T iop tol m v s0 = s) :
    s.j ≤ m ∧ (s.happy = false → s.j = m) ∧ s.V 0 = ‖v‖⁻¹ • v ∧
    (∀ a b, b + 1 < a ∨ a + iop < b + 1 → s.H a b = 0) ∧
    (∀ i, i + 1 < s.j ∨ (i + 1 = s.j ∧ s.happy = false) → T (s.V i) = ∑ k ∈ Finset.range (i + 2), s.H k i • s.V k) ∧
    (s.happy = true → ∃ j, s.j = j + 1 ∧ ‖T (s.V j) - ∑ k ∈ Finset.range (j + 1), s.H k j • s.V k‖ < tol) := by
  have h := kiopsRun_rel T iop tol htol m v s0
  have hsz := loop_size (kiopsStep T iop tol) (kiopsStep_j T iop tol) m m (begin false v s0) (by simp [begin]) (by simp [begin])
  change (kiopsRun T iop tol m v s0).j ≤ m ∧ ((kiopsRun T iop tol m v s0).happy = false →
    (kiopsRun T iop tol m v s0).j = m) at hsz
  rw [hs] at h hsz
  refine ⟨hsz.1, hsz.2, h.v0, ?_, ?_, ?_⟩
  · intro a b hab
    rcases hab with h1 | h1
    · rw [h.below a b h1, hclean]
    · rw [h.above a b (by omega), hclean]
  · intro i hi
    have := h.rel i hi
    simpa [hclean] using this
  · intro hh
    obtain ⟨j, h1, h2, h3⟩ := h.last hh
    refine ⟨j, h1, ?_⟩
    simp only [hclean, zero_smul, Finset.sum_const_zero, add_zero] at h3
    rw [h3, add_sub_cancel_left]
    exact h2

/-! ## The update -/

section update

attribute [local instance] Matrix.linftyOpNormedRing Matrix.linftyOpNormedAlgebra

theorem matrix_exp_entry {n : Nat} (M : Matrix (Fin n) (Fin n) ℝ) (t : ℝ) (a b : Fin n) :
    HasSum (fun i : Nat => (t ^ i / (i.factorial : ℝ)) * (M ^ i) a b) (NormedSpace.exp (t • M) a b) := by
  have h := NormedSpace.exp_series_hasSum_exp' (𝕂 := ℝ) (t • M)
  have h2 := (Matrix.entryLinearMap ℝ ℝ a b).toContinuousLinearMap.hasSum h
  simp only [LinearMap.coe_toContinuousLinearMap', Matrix.entryLinearMap_apply, smul_pow, Matrix.smul_apply, smul_eq_mul] at h2
  have e : (fun i : Nat => (t ^ i / (i.factorial : ℝ)) * (M ^ i) a b) =
      fun i : Nat => ((i.factorial : ℝ))⁻¹ * (t ^ i * (M ^ i) a b) := by
    funext i
    rw [div_eq_inv_mul, mul_assoc]
  rw [e]
  exact h2

theorem exp_half_sq {n : Nat} (M : Matrix (Fin n) (Fin n) ℝ) (t : ℝ) :
    NormedSpace.exp ((t * (1 / 2)) • M) * NormedSpace.exp ((t * (1 / 2)) • M) = NormedSpace.exp (t • M) := by
  rw [← Matrix.exp_add_of_commute _ _ (Commute.refl _), ← add_smul]
  congr 2
  ring

end update

/-- the two ways of taking the exponential give the same update -/
theorem pmexUpdate_eq (tau : ℝ) (v : W) (s : Mem W) : pmexUpdate tau v s = kiopsUpdate tau v s := by
  unfold pmexUpdate kiopsUpdate
  simp only [exp_half_sq]

/-- if the matrix in memory represents the operator on an invariant Krylov space, the update is the exact exponential -/
theorem update_exact [CompleteSpace W] (T : W →L[ℝ] W) (tau : ℝ) (v : W) (s : Mem W) (hj : 0 < s.j) (hv : v ≠ 0)
    (h0 : s.V 0 = ‖v‖⁻¹ • v) (hb : ∀ b, b + 1 < s.j → s.H s.j b = 0)
    (hrel : ∀ i < s.j, T (s.V i) = ∑ k ∈ Finset.range s.j, s.H k i • s.V k) :
    kiopsUpdate tau v s = NormedSpace.exp (tau • T) v := by
  have hlast : ∀ b : Fin s.j, expArg s (Fin.last s.j) b.castSucc = 0 := by
    intro b
    have := b.2
    unfold expArg
    simp only [Fin.val_last, Fin.val_castSucc]
    rw [if_neg (by omega)]
    by_cases h1 : (b : Nat) + 1 = s.j
    · rw [if_pos ⟨trivial, h1⟩]
    · rw [if_neg (by tauto)]; exact hb b (by omega)
  have hin : ∀ a b : Fin s.j, expArg s a.castSucc b.castSucc = s.H a b := by
    intro a b
    have := a.2; have := b.2
    unfold expArg
    simp only [Fin.val_castSucc]
    rw [if_neg (by omega), if_neg (by omega)]
  have key : ∀ n : Nat, (expArg s ^ n) (Fin.last s.j) 0 = 0 ∧
      ∑ k : Fin s.j, (expArg s ^ n) k.castSucc 0 • s.V k = (T ^ n) (s.V 0) := by
    intro n
    induction n with
    | zero =>
      constructor
      · rw [pow_zero, Matrix.one_apply_ne]
        intro h
        have := congrArg Fin.val h
        simp at this
        omega
      · rw [Finset.sum_eq_single (⟨0, hj⟩ : Fin s.j)]
        · rw [pow_zero, show (⟨0, hj⟩ : Fin s.j).castSucc = 0 by ext; simp, Matrix.one_apply_eq]
          simp
        · intro b _ hb
          rw [pow_zero, Matrix.one_apply_ne, zero_smul]
          intro h
          apply hb
          ext
          have := congrArg Fin.val h
          simpa using this
        · simp
    | succ n ih =>
      obtain ⟨i1, i2⟩ := ih
      have hmul : ∀ a, (expArg s ^ (n + 1)) a 0 = ∑ b : Fin s.j, expArg s a b.castSucc * (expArg s ^ n) b.castSucc 0 := by
        intro a
        rw [pow_succ', Matrix.mul_apply, Fin.sum_univ_castSucc, i1, mul_zero, add_zero]
      constructor
      · rw [hmul]
        apply Finset.sum_eq_zero
        intro b _
        rw [hlast, zero_mul]
      · rw [pow_succ' T, ContinuousLinearMap.mul_apply, ← i2, map_sum]
        simp only [hmul, hin, Finset.sum_smul]
        rw [Finset.sum_comm]
        apply Finset.sum_congr rfl
        intro b _
        rw [map_smul, hrel b b.2, Finset.smul_sum, Finset.sum_range]
        apply Finset.sum_congr rfl
        intro k _
        rw [smul_smul, mul_comm]
  have hn : ‖v‖ ≠ 0 := norm_ne_zero_iff.2 hv
  have h1 : HasSum (fun n : Nat => ∑ k : Fin s.j, ((tau ^ n / (n.factorial : ℝ)) * (expArg s ^ n) k.castSucc 0) • s.V k)
      (∑ k : Fin s.j, NormedSpace.exp (tau • expArg s) k.castSucc 0 • s.V k) :=
    hasSum_sum fun k _ => (matrix_exp_entry (expArg s) tau k.castSucc 0).smul_const (s.V k)
  have h2 : HasSum (fun n : Nat => ∑ k : Fin s.j, ((tau ^ n / (n.factorial : ℝ)) * (expArg s ^ n) k.castSucc 0) • s.V k)
      (NormedSpace.exp (tau • T) (s.V 0)) := by
    have := exp_apply_hasSum T tau (s.V 0)
    convert this using 2 with n
    rw [← (key n).2, Finset.smul_sum]
    simp only [smul_smul]
  unfold kiopsUpdate
  simp only
  rw [h1.unique h2, h0, map_smul, smul_smul, mul_inv_cancel₀ hn, one_smul]

/-- **C57** (`kiops`): when the Krylov space becomes invariant in a sub-step that finds the matrix cleared (the first
    sub-step of every call), the update is exactly the exponential of the operator on the start vector. -/
theorem C57_kiops_breakdown_partial [CompleteSpace W] (T : W →L[ℝ] W) (iop : Nat) (tol : ℝ) (htol : 0 < tol) (m : Nat) (v : W)
    (hv : v ≠ 0) (s0 : Mem W) (hclean : ∀ a b, s0.H a b = 0) (s : Mem W) (hs : kiopsRun T iop tol m v s0 = s)
    (hh : s.happy = true) (hexact : s.V s.j = 0) (tau : ℝ) :
    kiopsUpdate tau v s = NormedSpace.exp (tau • T) v := by
  have h := kiopsRun_rel T iop tol htol m v s0
  rw [hs] at h
  obtain ⟨j, h1, h2, h3⟩ := h.last hh
  simp only [hclean, zero_smul, Finset.sum_const_zero, add_zero] at h3
  rw [h1] at hexact
  rw [hexact, add_zero] at h3
  refine update_exact T tau v s (by omega) hv h.v0 ?_ ?_
  · intro b hb; rw [h.below _ _ (by omega), hclean]
  · intro i hi
    rcases Nat.lt_or_ge (i + 1) s.j with hi' | hi'
    · have := h.rel i (Or.inl hi')
      simp only [hclean, zero_smul, Finset.sum_const_zero, add_zero] at this
      rw [this, Finset.sum_subset (s₁ := Finset.range (i + 2)) (s₂ := Finset.range s.j)]
      · intro x hx; simp at hx ⊢; omega
      · intro x _ hx
        simp only [Finset.mem_range, not_lt] at hx
        rw [h.below _ _ (by omega), hclean, zero_smul]
    · have : i = j := by omega
      subst this
      rw [h1]; exact h3

/-- **C57** (`kiops`), where it fails: after an accepted sub-step of size `j₁ ≥ iop`, the entry `H[0, j₁] = 1` that served the
    error estimate stays in memory.  In the next sub-step, as soon as the Krylov space is larger than `j₁`, column `j₁` of
    the matrix represents `T V + V_0` instead of `T V`, and the entry is 1 where the same sub-step on a cleared matrix
    has 0. -/
theorem C57_kiops_stale_fails (T : W → W) (iop : Nat) (tol : ℝ) (htol : 0 < tol) (hiop : 1 ≤ iop) (m₁ m₂ : Nat) (v₁ v₂ : W)
    (s₁ s₂ : Mem W) (h₁ : kiopsRun T iop tol m₁ v₁ fresh = s₁) (hj : iop ≤ s₁.j)
    (h₂ : kiopsRun T iop tol m₂ v₂ (accepted s₁) = s₂) (hlt : s₁.j + 1 < s₂.j) :
    s₂.H 0 s₁.j = 1 ∧ (kiopsRun T iop tol m₂ v₂ fresh).H 0 s₁.j = 0 ∧
    T (s₂.V s₁.j) + s₂.V 0 = ∑ k ∈ Finset.range (s₁.j + 2), s₂.H k s₁.j • s₂.V k := by
  have r₁ := kiopsRun_rel T iop tol htol m₁ v₁ fresh
  have r₂ := kiopsRun_rel T iop tol htol m₂ v₂ (accepted s₁)
  have r₃ := kiopsRun_rel T iop tol htol m₂ v₂ fresh
  rw [h₁] at r₁
  rw [h₂] at r₂
  refine ⟨?_, ?_, ?_⟩
  · rw [r₂.above 0 s₁.j (by omega)]; simp [accepted]
  · rw [r₃.above 0 s₁.j (by omega)]; simp [fresh]
  · rw [← r₂.rel s₁.j (Or.inl hlt)]
    congr 1
    rw [Finset.sum_eq_single 0]
    · simp [accepted]
    · intro k _ hk
      have : (accepted s₁).H k s₁.j = s₁.H k s₁.j := by simp [accepted, hk]
      rw [this, r₁.frame k s₁.j le_rfl]
      simp [fresh]
    · intro h; simp at h; omega

/-- a process that never breaks down: on an orthonormal chain `T e_i = e_{i+1}` the basis is the chain -/
theorem chain_run (T : W → W) (iop : Nat) (tol : ℝ) (e : Nat → W) (N : Nat) (htol : tol ≤ 1)
    (horth : ∀ i ≤ N, ∀ k ≤ N, inner ℝ (e i) (e k) = if i = k then (1 : ℝ) else 0) (hT : ∀ i < N, T (e i) = e (i + 1))
    (m : Nat) (hm : m ≤ N) (s : Mem W) : (kiopsRun T iop tol m (e 0) s).j = m := by
  have hnorm : ∀ i ≤ N, ‖e i‖ = 1 := by
    intro i hi
    have := horth i hi i hi
    rw [if_pos rfl, real_inner_self_eq_norm_sq] at this
    have h2 := norm_nonneg (e i)
    have h3 : (‖e i‖ - 1) * (‖e i‖ + 1) = 0 := by linear_combination this
    rcases mul_eq_zero.1 h3 with h4 | h4 <;> linarith
  have key : ∀ fuel (s : Mem W), s.happy = false → s.j + fuel ≤ N → (∀ i ≤ s.j, s.V i = e i) → s.j + fuel = m →
      (krylovLoop (kiopsStep T iop tol) m fuel s).j = m := by
    intro fuel
    induction fuel with
    | zero => intro s _ _ _ h; simpa [krylovLoop] using h
    | succ n ih =>
      intro s hh hN hV hjm
      rw [krylovLoop, if_pos ⟨by omega, hh⟩]
      have hTv : T (s.V s.j) = e (s.j + 1) := by rw [hV s.j le_rfl, hT s.j (by omega)]
      have hz : ∑ i ∈ Finset.Ico (s.j + 1 - iop) (s.j + 1), (if True ∧ s.j + 1 - iop ≤ i ∧ i < s.j + 1 then
          inner ℝ (s.V i) (e (s.j + 1)) else s.H i s.j) • s.V i = 0 := by
        apply Finset.sum_eq_zero
        intro i hi
        have hi' := Finset.mem_Ico.1 hi
        rw [if_pos ⟨trivial, hi'.1, hi'.2⟩, hV i (by omega), horth i (by omega) _ (by omega), if_neg (by omega), zero_smul]
      have hs : (kiopsStep T iop tol s).happy = false ∧ (kiopsStep T iop tol s).V = setV s.V (s.j + 1) (e (s.j + 1)) := by
        unfold kiopsStep
        simp only [hTv, hz, sub_zero, hnorm (s.j + 1) (by omega)]
        rw [if_neg (not_lt.2 htol)]
        simp [hh]
      apply ih
      · exact hs.1
      · rw [kiopsStep_j]; omega
      · intro i hi
        rw [kiopsStep_j] at hi
        rw [hs.2]
        rcases Nat.lt_or_ge i (s.j + 1) with h1 | h1
        · rw [setV_lt _ _ _ _ h1, hV i (by omega)]
        · have : i = s.j + 1 := by omega
          subst this; rw [setV_self]
      · rw [kiopsStep_j]; omega
  unfold kiopsRun
  apply key
  · simp [begin]
  · simp [begin]; omega
  · intro i hi
    simp only [begin] at hi ⊢
    have : i = 0 := by omega
    subst this
    simp [setV, hnorm 0 (by omega)]
  · simp [begin]

/-- non-vacuity of `C57_kiops_stale_fails`: on a chain of length 5, sub-steps of sizes 2 and 4 -/
example (tol : ℝ) (htol : tol ≤ 1) : ∃ (T : EuclideanSpace ℝ (Fin 5) → EuclideanSpace ℝ (Fin 5)) (v : EuclideanSpace ℝ (Fin 5)),
    2 ≤ (kiopsRun T 2 tol 2 v fresh).j ∧
    (kiopsRun T 2 tol 2 v fresh).j + 1 < (kiopsRun T 2 tol 4 v (accepted (kiopsRun T 2 tol 2 v fresh))).j := by
  let e : Nat → EuclideanSpace ℝ (Fin 5) := fun i => EuclideanSpace.single (Fin.ofNat 5 i) 1
  have horth : ∀ i ≤ 4, ∀ k ≤ 4, inner ℝ (e i) (e k) = if i = k then (1 : ℝ) else 0 := by
    intro i hi k hk
    simp only [e, EuclideanSpace.inner_single_left, EuclideanSpace.single_apply]
    have : (Fin.ofNat 5 k = Fin.ofNat 5 i) ↔ i = k := by
      rw [Fin.ext_iff]
      simp only [Fin.ofNat]
      omega
    by_cases h : i = k
    · subst h; simp
    · have h' : ¬ Fin.ofNat 5 k = Fin.ofNat 5 i := fun hh => h (this.1 hh)
      have h'' : ¬ Fin.ofNat 5 i = Fin.ofNat 5 k := fun hh => h' hh.symm
      rw [if_neg h]
      first
        | rw [if_neg h', mul_zero]
        | rw [if_neg h'', mul_zero]
  let T : EuclideanSpace ℝ (Fin 5) → EuclideanSpace ℝ (Fin 5) := fun x => ∑ i : Fin 4, x i.castSucc • e (i + 1)
  have hT : ∀ i < 4, T (e i) = e (i + 1) := by
    intro i hi
    simp only [T]
    rw [Finset.sum_eq_single (⟨i, hi⟩ : Fin 4)]
    · simp [e, Fin.ext_iff, Nat.mod_eq_of_lt (show i < 5 by omega)]
    · intro b _ hb
      have : e i b.castSucc = 0 := by
        simp only [e, EuclideanSpace.single_apply]
        rw [if_neg]
        intro h
        apply hb
        rw [Fin.ext_iff] at h ⊢
        simp only [Fin.ofNat, Fin.val_castSucc] at h
        simp only
        omega
      rw [this, zero_smul]
    · simp
  refine ⟨T, e 0, ?_, ?_⟩
  · rw [chain_run T 2 tol e 4 htol horth hT 2 (by omega)]
  · rw [chain_run T 2 tol e 4 htol horth hT 2 (by omega), chain_run T 2 tol e 4 htol horth hT 4 (by omega)]
    norm_num

end WxVerif.Props.Krylov
