import Verif.Props.KrylovProcesses

/-!
# What the loop of the solver with delayed re-orthogonalization computes (C76)
-/

namespace WxVerif.Props.KrylovLowSync

open WxVerif.Krylov.LowSync
open WxVerif.Krylov (setV)
open WxVerif.Spec.Arnoldi

variable {W : Type*} [AddCommGroup W] [Module ℝ W] {B : LinearMap.BilinForm ℝ W} {T : W →ₗ[ℝ] W} {v : W} {q : Nat → W}
  {h : Nat → Nat → ℝ} {m : Nat}

/-- the entries of the small matrix after `k` passes: all columns but the last are complete, the last lacks the norm of the next row -/
def InvH (h : Nat → Nat → ℝ) (k : Nat) (H : Nat → Nat → ℝ) : Prop :=
  (∀ b < k, ∀ a ≤ b, H a b = h a b) ∧ ∀ b, b + 1 < k → H (b + 1) b = h (b + 1) b

theorem dcgs2_matrix (hf : Factorization B T v q h m) (tol : ℝ) (k : Nat) (hk : k < m) (c : ℝ) (s s' : Mem W) (hi : InvD q k c tol s)
    (hcl : 0 < k → c = h k (k - 1)) (hH : InvH h k s.H) (hs' : dcgs2Step B T tol s = some s') : InvH h (k + 1) s'.H := by
  have hj := hi.j
  have hc := hi.pos
  have horth : ∀ i ≤ k, ∀ l ≤ k, B (q i) (q l) = if i = l then 1 else 0 := fun i h1 l h2 => hf.orth i (by omega) l (by omega)
  rcases Nat.eq_zero_or_pos k with h0 | h0
  · subst h0
    have hV : s.V 0 = q 0 := by rw [hi.last, hi.one rfl, one_smul]
    unfold dcgs2Step at hs'
    simp only at hs'
    rw [if_pos (Or.inl hj)] at hs'
    cases hs'
    refine ⟨fun b hb a ha => ?_, fun b hb => absurd hb (by omega)⟩
    have hb0 : b = 0 := by omega
    have ha0 : a = 0 := by omega
    subst hb0; subst ha0
    simp only [hj]
    rw [if_pos ⟨trivial, trivial⟩, hV]
    exact coef hf 0 hk 0 (by omega)
  · have hVk : s.V k = c • q k := hi.last
    have hr : ∀ i < k, B (s.V i) (s.V k) = 0 := by
      intro i hi'
      rw [hi.rows i hi', hVk, map_smul, horth i (by omega) k le_rfl, if_neg (by omega), smul_zero]
    have hrk : B (s.V k) (s.V k) = c ^ 2 := by
      rw [hVk, map_smul, map_smul, LinearMap.smul_apply, horth k le_rfl k le_rfl, if_pos rfl, smul_eq_mul, smul_eq_mul]; ring
    have e1 : ∑ i ∈ Finset.range k, B (s.V i) (s.V k) ^ 2 = 0 := by
      apply Finset.sum_eq_zero
      intro i hi'
      rw [hr i (Finset.mem_range.1 hi')]; norm_num
    have e3 : ∑ i ∈ Finset.range k, B (s.V i) (s.V k) * B (s.V i) (T (s.V k)) = 0 := by
      apply Finset.sum_eq_zero
      intro i hi'
      rw [hr i (Finset.mem_range.1 hi'), zero_mul]
    have hsq : Real.sqrt (c ^ 2) = c := Real.sqrt_sq hc.le
    have hgk : B (s.V k) (T (s.V k)) / c ^ 2 = B (q k) (T (q k)) := by
      rw [hVk, map_smul, map_smul, map_smul, LinearMap.smul_apply, smul_eq_mul, smul_eq_mul]
      field_simp
    have hgi : ∀ i < k, B (s.V i) (T (s.V k)) / c = B (q i) (T (q k)) := by
      intro i hi'
      rw [hVk, hi.rows i hi', map_smul, map_smul, smul_eq_mul]
      field_simp
    have e4 : ∀ F : Nat → ℝ, ∑ l ∈ Finset.range k, F l * B (s.V l) (s.V k) = 0 := by
      intro F
      apply Finset.sum_eq_zero
      intro i hi'
      rw [hr i (Finset.mem_range.1 hi'), mul_zero]
    unfold dcgs2Step at hs'
    simp only [hj] at hs'
    rw [if_neg (by rw [hi.normed]; simp; omega), e1, e3, hrk, sub_zero, sub_zero, if_neg (by have := pow_pos hc 2; linarith), hsq] at hs'
    cases hs'
    constructor
    · intro b hb a ha
      simp only
      rw [if_neg (by omega)]
      by_cases hbk : b = k
      · subst hbk
        rw [if_pos ⟨rfl, by omega⟩, e4, zero_div, sub_zero]
        by_cases hak : a < b
        · rw [if_pos hak, hgi a hak]; exact coef hf b hk a (by omega)
        · have : a = b := by omega
          subst this
          rw [if_neg hak, hgk]; exact coef hf a hk a (by omega)
      · rw [if_neg (by omega)]
        split_ifs with h1
        · rw [hr a h1.2, add_zero]; exact hH.1 b (by omega) a ha
        · exact hH.1 b (by omega) a ha
    · intro b hb
      simp only
      by_cases hbk : b + 1 = k
      · rw [if_pos ⟨hbk, by omega⟩, hcl h0, ← hbk]; rfl
      · rw [if_neg (by omega), if_neg (by omega), if_neg (by omega)]
        exact hH.2 b (by omega)

/-- **C76** (`dcgs2`, the part that holds): for a start vector of norm one and without a breakdown, the loop over the vectors computes the Arnoldi
factorization: its rows are the Arnoldi basis, the last one not yet divided by its norm, and the entries of the small matrix are those of the
factorization, up to the norm of the last row.  Missing is the end of the pass, which takes that norm from a wrong product (`C76_dcgs2_unit_fails`). -/
theorem C76_dcgs2_loop_partial (hf : Factorization B T v q h m) (hunit : B v v = 1) (tol : ℝ) (hs : ∀ j < m, tol ≤ h (j + 1) j)
    (m1 : Nat) (hm0 : 0 < m1) (hm1 : m1 ≤ m) (s0 : Mem W) :
    ∃ s, loop (dcgs2Step B T tol) m1 m1 (dcgs2Start B v s0) = some s ∧ s.j = m1 ∧ s.happy = false ∧
      (∀ i < m1, s.V i = q i) ∧ s.V m1 = h m1 (m1 - 1) • q m1 ∧
      (∀ b < m1, ∀ a ≤ b, s.H a b = h a b) ∧ ∀ b, b + 1 < m1 → s.H (b + 1) b = h (b + 1) b := by
  have h0 : InvD q 0 1 tol (dcgs2Start B v s0) := by
    refine { j := rfl, happy := rfl, normed := rfl, rows := fun i hi => absurd hi (by omega), last := ?_, pos := one_pos,
             large := fun h => absurd h (by omega), one := fun _ => rfl }
    have := hf.first
    rw [hunit, Real.sqrt_one] at this
    rw [← this]
    simp only [dcgs2Start, start]
    rw [setV_self]
  obtain ⟨s1, e1, c, i1, i2, i3⟩ := loop_inv (dcgs2Step B T tol) m1
    (fun l t => ∃ c, InvD q l c tol t ∧ (0 < l → c = h l (l - 1)) ∧ InvH h l t.H)
    (fun l t ht => ⟨ht.choose_spec.1.j, ht.choose_spec.1.happy⟩)
    (fun l hl t ht => by
      obtain ⟨c', i', j', k'⟩ := ht
      obtain ⟨t', e, i''⟩ := dcgs2_inv hf tol hs l (by omega) c' t i'
      exact ⟨t', e, _, i'', fun _ => rfl, dcgs2_matrix hf tol l (by omega) c' t t' i' j' k' e⟩) m1 0 (dcgs2Start B v s0)
    ⟨1, h0, fun h => absurd h (by omega), fun b hb => absurd hb (by omega), fun b hb => absurd hb (by omega)⟩ (Nat.zero_le _) (by omega)
  exact ⟨s1, e1, i1.j, i1.happy, i1.rows, by rw [i1.last, i2 hm0], i3.1, i3.2⟩

/-- the start vector of the chain has norm one -/
example (s0 : Mem (EuclideanSpace ℝ (Fin 5))) :
    ∃ s, loop (dcgs2Step (innerₗ _) chainMap (1 / 2)) 4 4 (dcgs2Start (innerₗ _) (chainVec 0) s0) = some s ∧ s.V 2 = chainVec 2 ∧ s.H 2 1 = 1 := by
  obtain ⟨s, e, -, -, h1, -, -, h2⟩ := C76_dcgs2_loop_partial (chain_factorization 4 le_rfl)
    (by rw [chain_orth 0 (by omega) 0 (by omega), if_pos rfl]) (1 / 2) (fun j _ => by norm_num) 4 (by omega) le_rfl s0
  exact ⟨s, e, h1 2 (by omega), by rw [h2 1 (by omega)]; rfl⟩

end WxVerif.Props.KrylovLowSync
