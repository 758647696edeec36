import Verif.Props.Krylov

/-!
# The Krylov process of `pmex` (C57)
-/

namespace WxVerif.Props.Pmex

open WxVerif.Krylov
open WxVerif.Props.Krylov (setV_lt setV_self sum_setV update_exact pmexUpdate_eq loop_size)
open WxVerif.Props.Augmented (exp_apply_hasSum)

variable {W : Type*} [NormedAddCommGroup W] [InnerProductSpace ℝ W]

/-- the first `n` rows of the basis are orthonormal -/
def OrthoTo (V : Nat → W) (n : Nat) : Prop := ∀ i < n, ∀ k < n, inner ℝ (V i) (V k) = if i = k then (1 : ℝ) else 0

/-- what one sub-step of `pmex` establishes -/
structure PRel (T : W → W) (tol : ℝ) (v : W) (s : Mem W) : Prop where
  v0 : s.V 0 = ‖v‖⁻¹ • v
  N : ∀ a b, s.N a b = 0
  ortho : OrthoTo s.V (if s.happy then s.j else s.j + 1)
  frame : ∀ a b, s.j ≤ b → s.H a b = 0
  below : ∀ a b, b + 1 < a → s.H a b = 0
  rel : ∀ i, i + 1 < s.j ∨ (i + 1 = s.j ∧ s.happy = false) →
    T (s.V i) = ∑ k ∈ Finset.range (i + 2), s.H k i • s.V k
  last : s.happy = true → ∃ j, s.j = j + 1 ∧ ‖s.V (j + 1)‖ < tol ∧
    T (s.V j) = ∑ k ∈ Finset.range (j + 1), inner ℝ (s.V k) (T (s.V j)) • s.V k + s.V (j + 1) ∧ ∀ a, s.H a j = 0

theorem pmexMats_N (s : Mem W) (hN : ∀ a b, s.N a b = 0) (ho : OrthoTo s.V (s.j + 1)) (a b : Nat) :
    (pmexMats s (s.j + 1)).2.1 a b = 0 := by
  unfold pmexMats
  split_ifs with h
  · simp only [Nat.add_sub_cancel]
    split_ifs with h2
    · rw [ho a (by omega) s.j (by omega), if_neg (by omega), neg_zero]
    · exact hN a b
  · exact hN a b

theorem pmexSol_eq (N Minv : Nat → Nat → ℝ) (j : Nat) (g : Nat → ℝ) (hN : ∀ a b, N a b = 0) : pmexSol N Minv j g = g := by
  funext i
  unfold pmexSol
  simp [hN]

theorem proj_ortho (V : Nat → W) (n : Nat) (ho : OrthoTo V n) (v : W) (i : Nat) (hi : i < n) :
    inner ℝ (V i) (v - ∑ k ∈ Finset.range n, inner ℝ (V k) v • V k) = 0 := by
  rw [inner_sub_right, inner_sum]
  simp only [inner_smul_right]
  rw [Finset.sum_eq_single i]
  · rw [ho i hi i hi, if_pos rfl, mul_one, sub_self]
  · intro k hk hne
    rw [ho i hi k (Finset.mem_range.1 hk), if_neg (Ne.symm hne), mul_zero]
  · intro h; exact absurd (Finset.mem_range.2 hi) h

theorem proj_norm (V : Nat → W) (n : Nat) (ho : OrthoTo V n) (v : W) :
    ‖v - ∑ k ∈ Finset.range n, inner ℝ (V k) v • V k‖ ^ 2 =
      inner ℝ v v - ∑ k ∈ Finset.range n, (inner ℝ (V k) v : ℝ) ^ 2 := by
  rw [← real_inner_self_eq_norm_sq]
  conv_lhs => rw [inner_sub_left]
  have h0 : inner ℝ (∑ k ∈ Finset.range n, inner ℝ (V k) v • V k)
      (v - ∑ k ∈ Finset.range n, inner ℝ (V k) v • V k) = (0 : ℝ) := by
    rw [sum_inner]
    apply Finset.sum_eq_zero
    intro k hk
    rw [inner_smul_left, proj_ortho V n ho v k (Finset.mem_range.1 hk), mul_zero]
  rw [h0, sub_zero, inner_sub_right, inner_sum]
  congr 1
  apply Finset.sum_congr rfl
  intro k _
  rw [inner_smul_right, real_inner_comm v (V k)]
  ring

theorem pmexStep_rel (T : W → W) (tol : ℝ) (htol : 0 < tol) (v : W) (s : Mem W)
    (h : PRel T tol v s) (hh : s.happy = false) : PRel T tol v (pmexStep T tol s) := by
  have ho : OrthoTo s.V (s.j + 1) := by have := h.ortho; simpa [hh] using this
  have hN := pmexMats_N s h.N ho
  have hsol := fun g => pmexSol_eq (pmexMats s (s.j + 1)).2.1 (pmexMats s (s.j + 1)).2.2 (s.j + 1) g hN
  set g : Nat → ℝ := fun i => inner ℝ (s.V i) (T (s.V s.j)) with hg
  set v' : W := T (s.V s.j) - ∑ i ∈ Finset.range (s.j + 1), g i • s.V i with hv'
  have hbase : T (s.V s.j) = ∑ k ∈ Finset.range (s.j + 1), g k • s.V k + v' := by rw [hv']; abel
  have hnrm : (if inner ℝ (T (s.V s.j)) (T (s.V s.j)) < ∑ i ∈ Finset.range (s.j + 1), g i ^ 2 then ‖v'‖
      else Real.sqrt (inner ℝ (T (s.V s.j)) (T (s.V s.j)) - ∑ i ∈ Finset.range (s.j + 1), g i ^ 2)) = ‖v'‖ := by
    split_ifs
    · rfl
    · rw [← proj_norm s.V (s.j + 1) ho (T (s.V s.j))]
      exact Real.sqrt_sq (norm_nonneg _)
  have hperp : ∀ i < s.j + 1, inner ℝ (s.V i) v' = (0 : ℝ) := fun i hi => proj_ortho s.V (s.j + 1) ho _ i hi
  have hold : ∀ i, i + 1 ≤ s.j → ∀ x : W, ∀ H : Nat → Nat → ℝ, (∀ k, H k i = s.H k i) →
      T (setV s.V (s.j + 1) x i) = ∑ k ∈ Finset.range (i + 2), H k i • setV s.V (s.j + 1) x k := by
    intro i hi x H hH
    rw [setV_lt _ _ _ _ (by omega), sum_setV _ _ _ _ (by omega)]
    rw [h.rel i (by rcases Nat.lt_or_ge (i + 1) s.j with h1 | h1; exact Or.inl h1; exact Or.inr ⟨by omega, hh⟩)]
    simp only [hH]
  have hdef : pmexStep T tol s = if ‖v'‖ < tol then
        { s with M := (pmexMats s (s.j + 1)).1, N := (pmexMats s (s.j + 1)).2.1, Minv := (pmexMats s (s.j + 1)).2.2,
                 V := setV s.V (s.j + 1) v', j := s.j + 1, happy := true }
      else { s with M := (pmexMats s (s.j + 1)).1, N := (pmexMats s (s.j + 1)).2.1, Minv := (pmexMats s (s.j + 1)).2.2,
                    V := setV s.V (s.j + 1) (‖v'‖⁻¹ • v'),
                    H := fun a b => if b = s.j ∧ a < s.j + 1 then g a else if a = s.j + 1 ∧ b = s.j then ‖v'‖ else s.H a b,
                    j := s.j + 1 } := by
    have hnrm' := hnrm
    simp only [hg] at hnrm'
    unfold pmexStep
    simp only [hsol, ← hg, ← hv', hnrm']
  rw [hdef]
  by_cases hn : ‖v'‖ < tol
  · rw [if_pos hn]
    refine ⟨?_, hN, ?_, ?_, h.below, ?_, ?_⟩
    · simp only; rw [setV_lt _ _ _ _ (by omega), h.v0]
    · simp only [if_true]
      intro i hi k hk
      rw [setV_lt _ _ _ _ hi, setV_lt _ _ _ _ hk]
      exact ho i hi k hk
    · intro a b hb
      exact h.frame a b (by simp only at hb; omega)
    · intro i hi
      simp only at hi ⊢
      rcases hi with hi | ⟨_, hi⟩
      · exact hold i (by omega) v' s.H (fun k => rfl)
      · exact absurd hi (by simp)
    · intro _
      refine ⟨s.j, rfl, ?_, ?_, fun a => h.frame a s.j le_rfl⟩
      · simp only; rw [setV_self]; exact hn
      · simp only
        rw [setV_self, setV_lt _ _ _ _ (by omega)]
        refine hbase.trans ?_
        congr 1
        apply Finset.sum_congr rfl
        intro k hk
        rw [setV_lt _ _ _ _ (by have := Finset.mem_range.1 hk; omega)]
  · rw [if_neg hn]
    have hpos : ‖v'‖ ≠ 0 := by push Not at hn; linarith
    refine ⟨?_, hN, ?_, ?_, ?_, ?_, ?_⟩
    · simp only; rw [setV_lt _ _ _ _ (by omega), h.v0]
    · simp only [hh]
      intro i hi k hk
      have hi' : i < s.j + 1 + 1 := by simpa using hi
      have hk' : k < s.j + 1 + 1 := by simpa using hk
      rcases Nat.lt_or_ge i (s.j + 1) with i1 | i1
      · rcases Nat.lt_or_ge k (s.j + 1) with k1 | k1
        · rw [setV_lt _ _ _ _ i1, setV_lt _ _ _ _ k1]; exact ho i i1 k k1
        · have : k = s.j + 1 := by omega
          subst this
          rw [setV_lt _ _ _ _ i1, setV_self, inner_smul_right, hperp i i1, mul_zero, if_neg (by omega)]
      · have : i = s.j + 1 := by omega
        subst this
        rcases Nat.lt_or_ge k (s.j + 1) with k1 | k1
        · rw [setV_lt _ _ _ _ k1, setV_self, inner_smul_left, real_inner_comm, hperp k k1, mul_zero, if_neg (by omega)]
        · have : k = s.j + 1 := by omega
          subst this
          rw [setV_self, if_pos rfl, real_inner_self_eq_norm_sq, norm_smul, norm_inv, norm_norm, inv_mul_cancel₀ hpos,
            one_pow]
    · intro a b hb
      simp only at hb ⊢
      rw [if_neg (by omega), if_neg (by omega)]; exact h.frame a b (by omega)
    · intro a b hb
      simp only
      rw [if_neg (by omega), if_neg (by omega)]; exact h.below a b hb
    · intro i hi
      simp only at hi ⊢
      have hi' : i ≤ s.j := by omega
      rcases Nat.lt_or_ge i s.j with h1 | h1
      · refine hold i (by omega) _
          (fun a b => if b = s.j ∧ a < s.j + 1 then g a else if a = s.j + 1 ∧ b = s.j then ‖v'‖ else s.H a b) (fun k => ?_)
        rw [if_neg (by omega), if_neg (by omega)]
      · have hi2 : i = s.j := by omega
        subst hi2
        rw [setV_lt _ _ _ _ (by omega), Finset.sum_range_succ, setV_self,
          sum_setV _ _ _ _ (by omega), if_neg (by omega), if_pos ⟨rfl, rfl⟩, smul_smul, mul_inv_cancel₀ hpos, one_smul]
        refine hbase.trans ?_
        congr 1
        apply Finset.sum_congr rfl
        intro k hk
        rw [if_pos ⟨rfl, by have := Finset.mem_range.1 hk; omega⟩]
    · intro hx
      simp only at hx
      rw [hh] at hx
      exact absurd hx (by simp)

theorem pmexStep_j (T : W → W) (tol : ℝ) (s : Mem W) : (pmexStep T tol s).j = s.j + 1 := by
  unfold pmexStep
  simp only
  split_ifs <;> rfl

theorem begin_rel (T : W → W) (tol : ℝ) (v : W) (hv : v ≠ 0) (s : Mem W) (hN : ∀ a b, s.N a b = 0) :
    PRel T tol v (begin true v s) := by
  refine ⟨by simp [begin, setV], hN, ?_, fun a b _ => by simp [begin], fun a b _ => by simp [begin], ?_, ?_⟩
  · intro i hi k hk
    simp only [begin] at hi hk ⊢
    have hi' : i = 0 := by simpa using hi
    have hk' : k = 0 := by simpa using hk
    subst hi'; subst hk'
    have hpos : ‖v‖ ≠ 0 := norm_ne_zero_iff.2 hv
    rw [setV_self, if_pos rfl, real_inner_self_eq_norm_sq, norm_smul, norm_inv, norm_norm, inv_mul_cancel₀ hpos, one_pow]
  · intro i hi
    simp only [begin] at hi
    omega
  · intro h; simp [begin] at h

theorem loop_rel (T : W → W) (tol : ℝ) (htol : 0 < tol) (v : W) (m fuel : Nat) :
    ∀ s, PRel T tol v s → PRel T tol v (krylovLoop (pmexStep T tol) m fuel s) := by
  induction fuel with
  | zero => intro s h; exact h
  | succ n ih =>
    intro s h
    rw [krylovLoop]
    split_ifs with hc
    · exact ih _ (pmexStep_rel T tol htol v s h hc.2)
    · exact h

theorem pmexRun_rel (T : W → W) (tol : ℝ) (htol : 0 < tol) (m : Nat) (v : W) (hv : v ≠ 0) (s : Mem W) (hN : ∀ a b, s.N a b = 0) :
    PRel T tol v (pmexRun T tol m v s) :=
  loop_rel T tol htol v m m _ (begin_rel T tol v hv s hN)

/-- the memory before each sub-step of a call -/
inductive Reached (T : W → W) (tol : ℝ) : Mem W → Prop
  | fresh : Reached T tol fresh
  | next (s : Mem W) (m : Nat) (v : W) : v ≠ 0 → Reached T tol s → Reached T tol (accepted (pmexRun T tol m v s))

theorem reached_N (T : W → W) (tol : ℝ) (htol : 0 < tol) (s : Mem W) (h : Reached T tol s) : ∀ a b, s.N a b = 0 := by
  induction h with
  | fresh => intro a b; rfl
  | next s m v hv _ ih => intro a b; exact (pmexRun_rel T tol htol m v hv s ih).N a b

/-- **C57** (`pmex`): in every sub-step of every call, with every Krylov size, the basis is orthonormal, the Krylov process
    ends with `m` vectors or a breakdown, the matrix is upper Hessenberg, and it represents the operator on all vectors but
    the last one. -/
theorem C57_pmex_process (T : W → W) (tol : ℝ) (htol : 0 < tol) (m : Nat) (v : W) (hv : v ≠ 0) (s0 : Mem W)
    (hr : Reached T tol s0) (s : Mem W) (hs : pmexRun T tol m v s0 = s) :
    s.j ≤ m ∧ (s.happy = false → s.j = m) ∧ s.V 0 = ‖v‖⁻¹ • v ∧
    OrthoTo s.V (if s.happy then s.j else s.j + 1) ∧
    (∀ a b, b + 1 < a → s.H a b = 0) ∧
    (∀ i, i + 1 < s.j ∨ (i + 1 = s.j ∧ s.happy = false) → T (s.V i) = ∑ k ∈ Finset.range (i + 2), s.H k i • s.V k) := by
  have h := pmexRun_rel T tol htol m v hv s0 (reached_N T tol htol s0 hr)
  have hsz := loop_size (pmexStep T tol) (pmexStep_j T tol) m m (begin true v s0) (by simp [begin]) (by simp [begin])
  change (pmexRun T tol m v s0).j ≤ m ∧ ((pmexRun T tol m v s0).happy = false → (pmexRun T tol m v s0).j = m) at hsz
  rw [hs] at h hsz
  exact ⟨hsz.1, hsz.2, h.v0, h.ortho, h.below, h.rel⟩

/-- **C57** (`pmex`), where it fails, in general: at a breakdown the last column of the matrix is left at zero, although the
    operator on the last vector is its projection on the basis. -/
theorem C57_pmex_last_column_fails (T : W → W) (tol : ℝ) (htol : 0 < tol) (m : Nat) (v : W) (hv : v ≠ 0) (s0 : Mem W)
    (hr : Reached T tol s0) (s : Mem W) (hs : pmexRun T tol m v s0 = s) (hh : s.happy = true) :
    ∃ j, s.j = j + 1 ∧ (∀ a, s.H a j = 0) ∧
      ‖T (s.V j) - ∑ k ∈ Finset.range (j + 1), inner ℝ (s.V k) (T (s.V j)) • s.V k‖ < tol := by
  have h := pmexRun_rel T tol htol m v hv s0 (reached_N T tol htol s0 hr)
  rw [hs] at h
  obtain ⟨j, h1, h2, h3, h4⟩ := h.last hh
  refine ⟨j, h1, h4, ?_⟩
  rw [sub_eq_of_eq_add' h3]
  exact h2

/-! ## A wrong answer -/

/-- the augmented system of `w' = w`, `w(0) = 1`, with `u_1 = 0`: `T (x, y) = (x, 0)` -/
noncomputable def demoT : EuclideanSpace ℝ (Fin 2) →L[ℝ] EuclideanSpace ℝ (Fin 2) :=
  LinearMap.toContinuousLinearMap ((WithLp.linearEquiv 2 ℝ (Fin 2 → ℝ)).symm.toLinearMap ∘ₗ
    (Matrix.toLin' !![1, 0; 0, 0]) ∘ₗ (WithLp.linearEquiv 2 ℝ (Fin 2 → ℝ)).toLinearMap)

/-- what `pmex` exponentiates instead: `(x, y) ↦ ((x + y)/2, 0)` -/
noncomputable def wrongT : EuclideanSpace ℝ (Fin 2) →L[ℝ] EuclideanSpace ℝ (Fin 2) :=
  LinearMap.toContinuousLinearMap ((WithLp.linearEquiv 2 ℝ (Fin 2 → ℝ)).symm.toLinearMap ∘ₗ
    (Matrix.toLin' !![1 / 2, 1 / 2; 0, 0]) ∘ₗ (WithLp.linearEquiv 2 ℝ (Fin 2 → ℝ)).toLinearMap)

theorem demoT_apply (x y : ℝ) : demoT !₂[x, y] = !₂[x, 0] := by
  ext i; fin_cases i <;> simp [demoT]

theorem wrongT_apply (x y : ℝ) : wrongT !₂[x, y] = !₂[(x + y) / 2, 0] := by
  ext i; fin_cases i <;> simp [wrongT] <;> ring

theorem inner2 (a b c d : ℝ) : inner ℝ (!₂[a, b] : EuclideanSpace ℝ (Fin 2)) !₂[c, d] = a * c + b * d := by
  simp [PiLp.inner_apply, Fin.sum_univ_two]; ring

theorem demo_norm : ‖(!₂[1, 1] : EuclideanSpace ℝ (Fin 2))‖ ^ 2 = 2 := by
  rw [← real_inner_self_eq_norm_sq, inner2]; norm_num

/-- one pass of `pmex` on an orthonormal basis -/
theorem pmexStep_def (T : W → W) (tol : ℝ) (s : Mem W) (hN : ∀ a b, s.N a b = 0) (ho : OrthoTo s.V (s.j + 1)) (v' : W)
    (hv' : T (s.V s.j) - ∑ i ∈ Finset.range (s.j + 1), inner ℝ (s.V i) (T (s.V s.j)) • s.V i = v') :
    (pmexStep T tol s).happy = (if ‖v'‖ < tol then true else s.happy) ∧
    (pmexStep T tol s).V = (if ‖v'‖ < tol then setV s.V (s.j + 1) v' else setV s.V (s.j + 1) (‖v'‖⁻¹ • v')) ∧
    (pmexStep T tol s).H = (if ‖v'‖ < tol then s.H else fun a b => if b = s.j ∧ a < s.j + 1 then inner ℝ (s.V a) (T (s.V s.j))
      else if a = s.j + 1 ∧ b = s.j then ‖v'‖ else s.H a b) := by
  have hN := pmexMats_N s hN ho
  have hsol := fun g => pmexSol_eq (pmexMats s (s.j + 1)).2.1 (pmexMats s (s.j + 1)).2.2 (s.j + 1) g hN
  have hnrm : (if inner ℝ (T (s.V s.j)) (T (s.V s.j)) < ∑ i ∈ Finset.range (s.j + 1), (inner ℝ (s.V i) (T (s.V s.j)) : ℝ) ^ 2
      then ‖v'‖ else Real.sqrt (inner ℝ (T (s.V s.j)) (T (s.V s.j)) -
        ∑ i ∈ Finset.range (s.j + 1), (inner ℝ (s.V i) (T (s.V s.j)) : ℝ) ^ 2)) = ‖v'‖ := by
    split_ifs
    · rfl
    · rw [← proj_norm s.V (s.j + 1) ho (T (s.V s.j)), hv']
      exact Real.sqrt_sq (norm_nonneg _)
  unfold pmexStep
  simp only [hsol, hv', hnrm]
  by_cases h : ‖v'‖ < tol <;> simp [h]

theorem demo_run (tol : ℝ) (h0 : 0 < tol) (h1 : tol ≤ 1 / 2) (m : Nat) (hm : 2 ≤ m) (s : Mem (EuclideanSpace ℝ (Fin 2)))
    (hs : pmexRun demoT tol m !₂[1, 1] fresh = s) (tau : ℝ) :
    s.happy = true ∧ pmexUpdate tau !₂[1, 1] s = NormedSpace.exp (tau • wrongT) !₂[1, 1] := by
  set v : EuclideanSpace ℝ (Fin 2) := !₂[1, 1] with hv
  have hv0 : v ≠ 0 := by
    intro h
    have := demo_norm
    rw [← hv, h] at this
    simp at this
  set r : ℝ := ‖v‖⁻¹ with hr
  have hrr : r * r = 1 / 2 := by
    have := demo_norm
    rw [← hv] at this
    rw [hr, ← mul_inv, ← pow_two, this]; norm_num
  have gi1 : inner ℝ (!₂[r, r] : EuclideanSpace ℝ (Fin 2)) !₂[r, 0] = 1 / 2 := by rw [inner2]; linear_combination hrr
  have gi2 : inner ℝ (!₂[r, -r] : EuclideanSpace ℝ (Fin 2)) !₂[r, 0] = 1 / 2 := by rw [inner2]; linear_combination hrr
  have hb := begin_rel demoT tol v hv0 fresh (fun _ _ => rfl)
  have r1 := pmexStep_rel demoT tol h0 v _ hb (by simp [begin])
  set b := begin true v (fresh : Mem (EuclideanSpace ℝ (Fin 2))) with hbdef
  have bj : b.j = 0 := rfl
  have bV : b.V 0 = !₂[r, r] := by
    rw [hb.v0, ← hr]
    show r • (!₂[1, 1] : EuclideanSpace ℝ (Fin 2)) = _
    ext i; fin_cases i <;> simp
  have bT : demoT (b.V 0) = !₂[r, 0] := by rw [bV, demoT_apply]
  have d1 := pmexStep_def demoT tol b hb.N (by have := hb.ortho; simpa [hbdef, begin] using this) !₂[r / 2, -(r / 2)] (by
    rw [bj]
    simp only [zero_add, Finset.sum_range_one, bV, demoT_apply, gi1]
    ext i; fin_cases i <;> simp <;> ring)
  have n1 : ‖(!₂[r / 2, -(r / 2)] : EuclideanSpace ℝ (Fin 2))‖ = 1 / 2 := by
    have h : ‖(!₂[r / 2, -(r / 2)] : EuclideanSpace ℝ (Fin 2))‖ ^ 2 = (1 / 2) ^ 2 := by
      rw [← real_inner_self_eq_norm_sq, inner2]; linear_combination (1 / 2 : ℝ) * hrr
    exact (pow_left_inj₀ (norm_nonneg _) (by norm_num) (by norm_num)).1 h
  rw [n1] at d1
  have hnlt : ¬ (1 / 2 : ℝ) < tol := not_lt.2 h1
  simp only [hnlt, if_false, bj, zero_add] at d1
  obtain ⟨d1h, d1V, d1H⟩ := d1
  have d1h' : (pmexStep demoT tol b).happy = false := by rw [d1h]; rfl
  set s1 := pmexStep demoT tol b with hs1
  have j1 : s1.j = 1 := by rw [hs1, pmexStep_j, bj]
  have V10 : s1.V 0 = !₂[r, r] := by rw [d1V, setV_lt _ _ _ _ (by norm_num), bV]
  have V11 : s1.V 1 = !₂[r, -r] := by
    rw [d1V, setV_self]
    ext i; fin_cases i <;> simp <;> ring
  have T11 : demoT (s1.V 1) = !₂[r, 0] := by rw [V11, demoT_apply]
  have d2 := pmexStep_def demoT tol s1 r1.N (by have := r1.ortho; simpa [d1h'] using this) 0 (by
    rw [j1]
    simp only [Finset.sum_range_succ, Finset.sum_range_zero, zero_add, V10, V11, demoT_apply, gi1, gi2]
    ext i; fin_cases i <;> simp <;> ring)
  have r2 := pmexStep_rel demoT tol h0 v s1 r1 d1h'
  simp only [norm_zero, h0, if_true] at d2
  obtain ⟨d2h, d2V, d2H⟩ := d2
  set s2 := pmexStep demoT tol s1 with hs2
  have j2 : s2.j = 2 := by rw [hs2, pmexStep_j, j1]
  have hrun : s = s2 := by
    rw [← hs]
    obtain ⟨k, rfl⟩ : ∃ k, m = k + 2 := ⟨m - 2, by omega⟩
    unfold pmexRun
    rw [← hbdef]
    rw [krylovLoop, if_pos ⟨by rw [bj]; omega, rfl⟩, ← hs1, krylovLoop, if_pos ⟨by rw [j1]; omega, d1h'⟩, ← hs2]
    cases k with
    | zero => rfl
    | succ k => rw [krylovLoop, if_neg (by simp [d2h])]
  rw [hrun]
  refine ⟨d2h, ?_⟩
  rw [pmexUpdate_eq]
  have V20 : s2.V 0 = !₂[r, r] := by rw [d2V, setV_lt _ _ _ _ (by omega), V10]
  have V21 : s2.V 1 = !₂[r, -r] := by rw [d2V, setV_lt _ _ _ _ (by omega), V11]
  refine update_exact wrongT tau v s2 (by omega) hv0 r2.v0 (fun b hb => r2.below _ _ (by omega)) ?_
  intro i hi
  rw [j2] at hi ⊢
  simp only [Finset.sum_range_succ, Finset.sum_range_zero, zero_add, V20, V21, d2H, d1H]
  have hbH : ∀ a c, b.H a c = 0 := fun a c => by simp [hbdef, begin]
  have hi' : i = 0 ∨ i = 1 := by omega
  rcases hi' with rfl | rfl
  · rw [V20, wrongT_apply]
    simp only [bV, demoT_apply, gi1]
    ext i; fin_cases i <;> simp <;> ring
  · rw [V21, wrongT_apply]
    simp [hbH]

theorem exp_first (T : EuclideanSpace ℝ (Fin 2) →L[ℝ] EuclideanSpace ℝ (Fin 2)) (tau : ℝ) (v : EuclideanSpace ℝ (Fin 2)) :
    HasSum (fun n : Nat => (tau ^ n / (n.factorial : ℝ)) * ((T ^ n) v) 0) ((NormedSpace.exp (tau • T) v) 0) := by
  have h := (exp_apply_hasSum T tau v).mapL (EuclideanSpace.proj (0 : Fin 2))
  simpa using h

theorem demo_exact (tau : ℝ) : (NormedSpace.exp (tau • demoT) (!₂[1, 1] : EuclideanSpace ℝ (Fin 2))) 0 = Real.exp tau := by
  have hp : ∀ n, ((demoT ^ n) (!₂[1, 1] : EuclideanSpace ℝ (Fin 2))) 0 = 1 := by
    intro n
    cases n with
    | zero => simp
    | succ n =>
      have : ∀ n, (demoT ^ (n + 1)) (!₂[1, 1] : EuclideanSpace ℝ (Fin 2)) = !₂[1, 0] := by
        intro n
        induction n with
        | zero => rw [zero_add, pow_one, demoT_apply]
        | succ n ih => rw [pow_succ', ContinuousLinearMap.mul_apply, ih, demoT_apply]
      rw [this n]; simp
  have h := exp_first demoT tau !₂[1, 1]
  simp only [hp, mul_one] at h
  refine h.unique ?_
  rw [Real.exp_eq_exp_ℝ]
  exact NormedSpace.expSeries_div_hasSum_exp tau

theorem wrong_value (tau : ℝ) :
    (NormedSpace.exp (tau • wrongT) (!₂[1, 1] : EuclideanSpace ℝ (Fin 2))) 0 = 2 * Real.exp (tau / 2) - 1 := by
  have hp : ∀ n, ((wrongT ^ n) (!₂[1, 1] : EuclideanSpace ℝ (Fin 2))) 0 = 2 * (1 / 2) ^ n - if n = 0 then 1 else 0 := by
    intro n
    cases n with
    | zero => norm_num
    | succ n =>
      have : ∀ n, (wrongT ^ (n + 1)) (!₂[1, 1] : EuclideanSpace ℝ (Fin 2)) = !₂[(1 / 2) ^ n, 0] := by
        intro n
        induction n with
        | zero => rw [zero_add, pow_one, wrongT_apply]; norm_num
        | succ n ih => rw [pow_succ', ContinuousLinearMap.mul_apply, ih, wrongT_apply]; congr 2; ring_nf
      rw [this n]; simp; ring
  have h := exp_first wrongT tau !₂[1, 1]
  simp only [hp] at h
  refine h.unique ?_
  have h1 : HasSum (fun n : Nat => 2 * ((tau / 2) ^ n / (n.factorial : ℝ))) (2 * Real.exp (tau / 2)) := by
    rw [Real.exp_eq_exp_ℝ]
    exact (NormedSpace.expSeries_div_hasSum_exp (tau / 2)).mul_left 2
  have h2 := h1.sub (hasSum_ite_eq (0 : Nat) (1 : ℝ))
  have e : (fun n : Nat => tau ^ n / (n.factorial : ℝ) * (2 * (1 / 2) ^ n - if n = 0 then 1 else 0)) =
      fun n : Nat => 2 * ((tau / 2) ^ n / (n.factorial : ℝ)) - if n = 0 then 1 else 0 := by
    funext n
    by_cases hn : n = 0
    · subst hn; simp
    · simp only [hn, if_false, sub_zero, div_pow]
      ring
  rw [e]
  exact h2

/-- **C57** (`pmex`), a wrong answer: for `w' = w`, `w(0) = 1` and every final time `tau ≠ 0`, the process breaks down and the
    update is `2 exp(tau/2) - 1`, not `exp(tau)`. -/
theorem C57_pmex_breakdown_fails (tol : ℝ) (h0 : 0 < tol) (h1 : tol ≤ 1 / 2) (m : Nat) (hm : 2 ≤ m)
    (tau : ℝ) (ht : tau ≠ 0) :
    (pmexRun demoT tol m !₂[1, 1] fresh).happy = true ∧
    (pmexUpdate tau !₂[1, 1] (pmexRun demoT tol m !₂[1, 1] fresh)) 0 = 2 * Real.exp (tau / 2) - 1 ∧
    (NormedSpace.exp (tau • demoT) (!₂[1, 1] : EuclideanSpace ℝ (Fin 2))) 0 = Real.exp tau ∧
    (pmexUpdate tau !₂[1, 1] (pmexRun demoT tol m !₂[1, 1] fresh)) 0 ≠
      (NormedSpace.exp (tau • demoT) (!₂[1, 1] : EuclideanSpace ℝ (Fin 2))) 0 := by
  obtain ⟨a, b⟩ := demo_run tol h0 h1 m hm _ rfl tau
  refine ⟨a, by rw [b, wrong_value], demo_exact tau, ?_⟩
  rw [b, wrong_value, demo_exact]
  intro h
  have e : Real.exp tau = Real.exp (tau / 2) * Real.exp (tau / 2) := by rw [← Real.exp_add]; congr 1; ring
  rw [e] at h
  have h2 : (Real.exp (tau / 2) - 1) ^ 2 = 0 := by linear_combination -h
  have h3 : Real.exp (tau / 2) = 1 := by have := pow_eq_zero_iff (n := 2) (by norm_num) |>.1 h2; linarith
  rw [Real.exp_eq_one_iff] at h3
  apply ht
  linarith

/-- a second sub-step of `demoT`, after a first one that broke down: the hypotheses of `C57_pmex_process` are met -/
example : Reached demoT (1 / 4) (accepted (pmexRun demoT (1 / 4) 5 !₂[1, 1] fresh)) ∧
    (pmexRun demoT (1 / 4) 5 !₂[1, 1] fresh).happy = true := by
  have h0 : (!₂[1, 1] : EuclideanSpace ℝ (Fin 2)) ≠ 0 := by
    intro h; have := congrFun (congrArg WithLp.ofLp h) 0; simp at this
  exact ⟨.next _ 5 _ h0 .fresh, (C57_pmex_breakdown_fails (1 / 4) (by norm_num) (by norm_num) 5 (by norm_num) 1 one_ne_zero).1⟩

end WxVerif.Props.Pmex
