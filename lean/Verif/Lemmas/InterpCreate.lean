import Verif.Lemmas.InterpLinear

/-!
# Lemmas for C99: the operators of the object
-/

namespace WxVerif.Interpolation
open Matrix

/-- field `i` is a velocity -/
def Velocity (grid : String) (i : Nat) : Prop := grid = "cubed_sphere" ∧ (i = 1 ∨ i = 2)

variable {gauss : Nat → Nat → ℝ} {la : Linalg} {t1 t2 interp grid : String} {n m ndim : Nat} {b : Bool} {o d : Points} {E B R : Op}

theorem create_plain (ho : basisPoints gauss t1 n b = .ok o) (hd : basisPoints gauss t2 m b = .ok d)
    (hb : baseOps la t1 n m interp ndim o d = .ok (E, B)) (hg : grid ≠ "cubed_sphere") :
    create gauss la t1 n t2 m interp grid ndim b = .ok ⟨ndim, E, B, none⟩ := by
  unfold create
  rw [ho, hd]
  simp only [bind, Except.bind, hb, if_neg hg]

theorem create_cubed (ho : basisPoints gauss t1 n b = .ok o) (hd : basisPoints gauss t2 m b = .ok d)
    (hb : baseOps la t1 n m interp ndim o d = .ok (E, B)) (hg : grid = "cubed_sphere")
    (hr : reverseOf la n m (scale (velocityFactor t1 t2 n m ndim) E) = .ok R) :
    create gauss la t1 n t2 m interp grid ndim b = .ok ⟨ndim, E, B, some (scale (velocityFactor t1 t2 n m ndim) E, R)⟩ := by
  unfold create
  rw [ho, hd]
  simp only [bind, Except.bind, hb, if_pos hg, hr, Except.map]

theorem opFor_plain (it : Interpolator) (h : it.velocity = none) (rev : Bool) (i : Nat) : opFor it rev i = if rev then it.back else it.elem := by
  unfold opFor
  rw [h]

theorem opFor_cubed (it : Interpolator) {V W : Op} (h : it.velocity = some (V, W)) (rev : Bool) (i : Nat) :
    opFor it rev i = if i = 1 ∨ i = 2 then (if rev then W else V) else (if rev then it.back else it.elem) := by
  unfold opFor
  rw [h]

/-- everything about the object for Lagrange interpolation -/
theorem lagrange_create (hla : Exact la) (ho : basisPoints gauss t1 n b = .ok o) (hd : basisPoints gauss t2 m b = .ok d) (Do : Distinct o)
    (Dd : Distinct d) (hn : 0 < n) (hm : 0 < m) :
    ∃ it, create gauss la t1 n t2 m "lagrange" grid ndim b = .ok it ∧ it.ndim = ndim ∧
      (∀ i, ∃ (A' : Matrix (Fin (npts ndim d.count)) (Fin (npts ndim o.count)) ℝ) (B' : Matrix (Fin (npts ndim o.count)) (Fin (npts ndim d.count)) ℝ),
        opFor it false i = ⟨npts ndim d.count, npts ndim o.count, A'⟩ ∧ opFor it true i = ⟨npts ndim o.count, npts ndim d.count, B'⟩ ∧
        (o.count ≤ d.count → B' * A' = 1) ∧ (d.count ≤ o.count → A' * B' = 1)) ∧
      (∀ i, ¬ Velocity grid i → opFor it false i = tensor ndim (lagrangeTable o d) ∧ opFor it true i = tensor ndim (lagrangeTable d o)) ∧
      ∀ i, Velocity grid i → opFor it false i = scale (velocityFactor t1 t2 n m ndim) (tensor ndim (lagrangeTable o d)) := by
  have hb : baseOps la t1 n m "lagrange" ndim o d = .ok (tensor ndim (lagrangeTable o d), tensor ndim (lagrangeTable d o)) := rfl
  obtain ⟨A', B', hA, hB, hBA, hAB⟩ := tensor_mat ndim (lag o d) (lag d o)
  rw [← lagrangeTable_eq] at hA hB
  have hBA' : o.count ≤ d.count → B' * A' = 1 := fun h => hBA (lagrange_back Do Dd h)
  have hAB' : d.count ≤ o.count → A' * B' = 1 := fun h => hAB (lagrange_back Dd Do h)
  by_cases hg : grid = "cubed_sphere"
  · have hnm : m = n ↔ npts ndim d.count = npts ndim o.count := by
      rw [npts_inj, basis_count ho, basis_count hd]
      cases b <;> simp
    set c := velocityFactor t1 t2 n m ndim with hc
    have cpos : 0 < c := factor_pos hn hm
    have hs : scale c (tensor ndim (lagrangeTable o d)) = ⟨npts ndim d.count, npts ndim o.count, c • A'⟩ := by rw [hA]; rfl
    have hrev : ∃ X, reverseOf la n m (scale c (tensor ndim (lagrangeTable o d))) = .ok ⟨npts ndim o.count, npts ndim d.count, X⟩ ∧
        (o.count ≤ d.count → X * (c • A') = 1) ∧ (d.count ≤ o.count → (c • A') * X = 1) := by
      rw [hs]
      rcases Nat.le_total o.count d.count with h | h
      · obtain ⟨X, hX, h1⟩ := reverse_left hla hnm (A := c • A') (L := c⁻¹ • B')
          (by rw [Matrix.smul_mul, Matrix.mul_smul, smul_smul, inv_mul_cancel₀ cpos.ne', one_smul, hBA' h])
        refine ⟨X, hX, fun _ => h1, fun h' => ?_⟩
        obtain ⟨Y, hY, h2⟩ := reverse_right hla hnm (A := c • A') (R := c⁻¹ • B')
          (by rw [Matrix.smul_mul, Matrix.mul_smul, smul_smul, mul_inv_cancel₀ cpos.ne', one_smul, hAB' h'])
        rw [hX] at hY
        injection hY with hY
        injection hY with _ _ hY
        rw [hY]
        exact h2
      · obtain ⟨X, hX, h1⟩ := reverse_right hla hnm (A := c • A') (R := c⁻¹ • B')
          (by rw [Matrix.smul_mul, Matrix.mul_smul, smul_smul, mul_inv_cancel₀ cpos.ne', one_smul, hAB' h])
        refine ⟨X, hX, fun h' => ?_, fun _ => h1⟩
        obtain ⟨Y, hY, h2⟩ := reverse_left hla hnm (A := c • A') (L := c⁻¹ • B')
          (by rw [Matrix.smul_mul, Matrix.mul_smul, smul_smul, inv_mul_cancel₀ cpos.ne', one_smul, hBA' h'])
        rw [hX] at hY
        injection hY with hY
        injection hY with _ _ hY
        rw [hY]
        exact h2
    obtain ⟨X, hX, x1, x2⟩ := hrev
    refine ⟨_, create_cubed ho hd hb hg hX, rfl, ?_, ?_, ?_⟩
    · intro i
      rw [opFor_cubed _ rfl, opFor_cubed _ rfl]
      by_cases hi : i = 1 ∨ i = 2
      · rw [if_pos hi, if_pos hi]
        exact ⟨c • A', X, hs, rfl, x1, x2⟩
      · rw [if_neg hi, if_neg hi]
        exact ⟨A', B', hA, hB, hBA', hAB'⟩
    · intro i hi
      have hi' : ¬ (i = 1 ∨ i = 2) := fun h => hi ⟨hg, h⟩
      rw [opFor_cubed _ rfl, opFor_cubed _ rfl, if_neg hi', if_neg hi']
      exact ⟨rfl, rfl⟩
    · intro i hi
      rw [opFor_cubed _ rfl, if_pos hi.2]
      rfl
  · refine ⟨_, create_plain ho hd hb hg, rfl, ?_, ?_, ?_⟩
    · intro i
      rw [opFor_plain _ rfl, opFor_plain _ rfl]
      exact ⟨A', B', hA, hB, hBA', hAB'⟩
    · intro i _
      rw [opFor_plain _ rfl, opFor_plain _ rfl]
      exact ⟨rfl, rfl⟩
    · intro i hi
      exact absurd hi.1 hg

theorem applyOp_scale (c : ℝ) (A : Op) (v : Nat → Nat → ℝ) (e p : Nat) : applyOp (scale c A) v e p = c * applyOp A v e p := by
  unfold applyOp
  by_cases h : p < A.rows
  · rw [dif_pos h, dif_pos (show p < (scale c A).rows from h), Finset.mul_sum]
    refine Finset.sum_congr rfl fun q _ => ?_
    exact mul_assoc c (A.mat ⟨p, h⟩ q) (v e q)
  · rw [dif_neg h, dif_neg (show ¬ p < (scale c A).rows from h), mul_zero]

/-- a forward call -/
theorem call_forward {it : Interpolator} {F : Fields} (hn : it.ndim = 2 ∨ it.ndim = 3) (h : F.pts = (opFor it false 0).cols) :
    call it F false = .ok ⟨F.fields, F.elems, (opFor it false 0).rows, fun i e p => applyOp (opFor it false i) (F.val i) e p⟩ := by
  unfold call
  rw [if_pos hn]
  simp only [Bool.false_eq_true, if_false, Except.bind, h, if_true]

/-- a backward call with elements of the right size -/
theorem call_back {it : Interpolator} {F : Fields} (hn : it.ndim = 2 ∨ it.ndim = 3) (h : F.pts = (opFor it true 0).cols) (hp : 0 < F.pts) :
    ∃ F', Same F' F ∧ call it F true = .ok ⟨F'.fields, F'.elems, (opFor it true 0).rows, fun i e p => applyOp (opFor it true i) (F'.val i) e p⟩ := by
  obtain ⟨F', hF', s⟩ := regroup_self hp
  refine ⟨F', s, ?_⟩
  unfold call
  rw [if_pos hn]
  simp only [if_true]
  rw [← h, hF']
  simp only [Except.bind]
  rw [if_pos s.2.2.1]

end WxVerif.Interpolation
