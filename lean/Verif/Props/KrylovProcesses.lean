import Verif.Props.KrylovIncomplete

/-!
# The exponential solvers with few global reductions on several processes (C76), and examples
-/

namespace WxVerif.Props.KrylovLowSync

open WxVerif.Krylov.LowSync
open WxVerif.Krylov (setV)
open WxVerif.Spec.Arnoldi

section forms
variable {E F : Type*} [AddCommGroup E] [Module ℝ E] [AddCommGroup F] [Module ℝ F]

theorem rowForm_apply (P : Nat) (Bx : LinearMap.BilinForm ℝ E) (Ba : LinearMap.BilinForm ℝ F) (x y : E × F) :
    rowForm P Bx Ba x y = Bx x.1 y.1 + P * Ba x.2 y.2 := by
  simp [rowForm]

/-- **C76**: the global sum of the products of whole rows, over `P` processes that all hold the augmented entries, counts these `P`
    times. -/
theorem C76_reduction (P : Nat) (bx : Nat → LinearMap.BilinForm ℝ E) (Ba : LinearMap.BilinForm ℝ F) (x y : E × F) :
    ∑ r ∈ Finset.range P, (bx r x.1 y.1 + Ba x.2 y.2) = rowForm P (∑ r ∈ Finset.range P, bx r) Ba x y := by
  rw [rowForm_apply, Finset.sum_add_distrib, Finset.sum_const, Finset.card_range, LinearMap.sum_apply, LinearMap.sum_apply, nsmul_eq_mul]

/-- the weighted form is an inner product: the theorems above hold on any number of processes, with that form -/
theorem C76_rowForm_inner (P : Nat) (hP : 1 ≤ P) (Bx : LinearMap.BilinForm ℝ E) (Ba : LinearMap.BilinForm ℝ F) (hx : IsInner Bx)
    (ha : IsInner Ba) : IsInner (rowForm P Bx Ba) := by
  have hP' : (0 : ℝ) < P := by exact_mod_cast hP
  refine ⟨fun x y => by rw [rowForm_apply, rowForm_apply, hx.symm, ha.symm], fun x hne => ?_⟩
  rw [rowForm_apply]
  by_cases h1 : x.1 = 0
  · have h2 : x.2 ≠ 0 := fun h2 => hne (Prod.ext h1 h2)
    rw [h1]
    have := mul_pos hP' (ha.pos _ h2)
    simpa using this
  · have := hx.pos _ h1
    have := mul_nonneg hP'.le (inner_nonneg ha x.2)
    linarith

end forms

/-- the update of a space of size one -/
theorem update_one {W : Type*} [AddCommGroup W] [Module ℝ W] (tau : ℝ) (s : Mem W) (hj : s.j = 1) :
    update tau s = s.beta • Real.exp (tau * s.H 0 0) • s.V 0 := by
  rcases s with ⟨V, H, mats, beta, j, happy, normed, est⟩
  simp only at hj
  subst hj
  set E := expArg (⟨V, H, mats, beta, 1, happy, normed, est⟩ : Mem W) with hE
  have e00 : E 0 0 = H 0 0 := by rw [hE]; simp [expArg]
  have e10 : E 1 0 = 0 := by rw [hE]; simp [expArg]
  have key : ∀ n : Nat, (E ^ n) 0 0 = H 0 0 ^ n ∧ (E ^ n) 1 0 = 0 := by
    intro n
    induction n with
    | zero => simp
    | succ n ih =>
      rw [pow_succ', Matrix.mul_apply, Matrix.mul_apply, Fin.sum_univ_two, Fin.sum_univ_two, ih.1, ih.2, e00, e10]
      constructor <;> ring
  have hF : NormedSpace.exp (tau • E) 0 0 = Real.exp (tau * H 0 0) := by
    have h1 := WxVerif.Props.Krylov.matrix_exp_entry E tau 0 0
    have h2 := NormedSpace.expSeries_div_hasSum_exp (𝔸 := ℝ) (tau * H 0 0)
    rw [← Real.exp_eq_exp_ℝ] at h2
    refine h1.unique ?_
    have e : (fun n : Nat => tau ^ n / (n.factorial : ℝ) * (E ^ n) 0 0) = fun n : Nat => (tau * H 0 0) ^ n / (n.factorial : ℝ) := by
      funext n
      rw [(key n).1, mul_pow]; ring
    rw [e]
    exact h2
  unfold update
  simp only [Finset.univ_unique, Fin.default_eq_zero, Finset.sum_singleton, ← hE]
  rw [show (Fin.castSucc (0 : Fin 1)) = 0 from rfl, hF]
  rfl

theorem holds_one {W : Type*} [AddCommGroup W] [Module ℝ W] {B : LinearMap.BilinForm ℝ W} {T : W → W} {v : W} {q : Nat → W}
    {h : Nat → Nat → ℝ} (hf : Factorization B T v q h 1) (s : Mem W) (hs : Holds B v q h 1 s) (tau : ℝ) :
    update tau s = Real.exp (tau * h 0 0) • v := by
  obtain ⟨h1, _, h3, h4, h5, _, _⟩ := hs
  rw [update_one tau s h1, h3, h4 0 (by omega), h5 0 0 (by omega) (by omega), smul_comm, ← hf.first]

/-- the product on the line -/
noncomputable def line : LinearMap.BilinForm ℝ ℝ := LinearMap.mul ℝ ℝ

theorem line_apply (x y : ℝ) : line x y = x * y := rfl

theorem line_inner : IsInner line := ⟨fun x y => by rw [line_apply, line_apply, mul_comm], fun x hx => by
  rw [line_apply]; exact mul_self_pos.2 hx⟩

/-- an augmented operator with one extra entry: the linear part is zero and the vector is one -/
noncomputable def push : ℝ × ℝ →ₗ[ℝ] ℝ × ℝ := (LinearMap.snd ℝ ℝ ℝ).prod 0

theorem push_apply (x : ℝ × ℝ) : push x = (x.2, 0) := rfl

/-- the Arnoldi factorization on `P` processes -/
theorem push_factorization (P : Nat) (hP : 1 ≤ P) :
    Factorization (rowForm P line line) push (1, 1)
      (fun i => if i = 0 then (Real.sqrt (1 + P))⁻¹ • (1, 1) else (Real.sqrt P * Real.sqrt (1 + P))⁻¹ • ((P : ℝ), -1))
      (fun i _ => if i = 0 then 1 / (1 + P) else Real.sqrt P / (1 + P)) 1 := by
  have hP' : (0 : ℝ) < P := by exact_mod_cast hP
  have h1 : (0 : ℝ) < 1 + P := by linarith
  have s1 := Real.sqrt_pos.2 hP'
  have s2 := Real.sqrt_pos.2 h1
  have r1 : Real.sqrt P * Real.sqrt P = P := Real.mul_self_sqrt hP'.le
  have r2 : Real.sqrt (1 + P) * Real.sqrt (1 + P) = 1 + P := Real.mul_self_sqrt h1.le
  have hb : rowForm P line line ((1 : ℝ), (1 : ℝ)) ((1 : ℝ), (1 : ℝ)) = 1 + P := by
    simp only [rowForm_apply, line_apply]; ring
  obtain ⟨a, ha⟩ : ∃ a, a = Real.sqrt P := ⟨_, rfl⟩
  obtain ⟨b, hbb⟩ : ∃ b, b = Real.sqrt (1 + P) := ⟨_, rfl⟩
  refine ⟨by rw [hb]; exact h1, ?_, ?_, ?_, ?_⟩
  · rw [hb, if_pos rfl, smul_smul, mul_inv_cancel₀ s2.ne', one_smul]
  · rw [← ha] at r1 s1 ⊢
    rw [← hbb] at r2 s2 ⊢
    intro i hi k hk
    have hi' : i = 0 ∨ i = 1 := by omega
    have hk' : k = 0 ∨ k = 1 := by omega
    rcases hi' with rfl | rfl <;> rcases hk' with rfl | rfl <;>
      simp only [if_true, one_ne_zero, zero_ne_one, if_false, rowForm_apply, line_apply, Prod.smul_fst, Prod.smul_snd, smul_eq_mul]
    · field_simp; nlinarith
    · field_simp; ring
    · field_simp; ring
    · field_simp
      have : a ^ 2 = P := by rw [sq, r1]
      have h3 : b ^ 2 = 1 + P := by rw [sq, r2]
      rw [this, h3]; ring
  · intro j hj
    have : j = 0 := by omega
    subst this
    rw [← ha] at r1 s1 ⊢
    rw [← hbb] at r2 s2 ⊢
    simp only [Finset.sum_range_succ, Finset.sum_range_zero, if_true, one_ne_zero, if_false, zero_add]
    rw [push_apply]
    ext
    · simp only [Prod.smul_snd, Prod.smul_fst, Prod.fst_add, smul_eq_mul]; field_simp
    · simp only [Prod.smul_snd, Prod.smul_fst, Prod.snd_add, smul_eq_mul]; field_simp; ring
  · intro j hj
    rw [if_neg (by omega)]
    positivity

/-- **C76**, what fails: with a space of given size, the answer of these solvers depends on the number of processes.  With one
    extra entry, a zero linear part and a space of size one it is `e^{τ/(1+P)}` times the start vector. -/
theorem C76_processes_fails (P : Nat) (hP : 1 ≤ P) (co : Corr) (tol : ℝ) (htol : tol ≤ Real.sqrt P / (1 + P)) (htol1 : tol ≤ 1)
    (mmax : Nat) (hmm : 1 ≤ mmax) (s0 : Mem (ℝ × ℝ)) (h0 : s0.mats = Mats.init) (tau : ℝ) :
    (oneSyncRun co (rowForm P line line) (rowForm P line line) push tol mmax [1] (1, 1) s0).map (update tau) =
      some (Real.exp (tau * (1 / (1 + P))) • (1, 1)) ∧
    (estSyncRun co (rowForm P line line) (rowForm P line line) push tol [1] (1, 1) s0).map (update tau) =
      some (Real.exp (tau * (1 / (1 + P))) • (1, 1)) := by
  have hP' : (1 : ℝ) ≤ P := by exact_mod_cast hP
  have hf := push_factorization P hP
  have hs : ∀ j < 1, tol ≤ (fun i (_ : Nat) => if i = 0 then 1 / (1 + (P : ℝ)) else Real.sqrt P / (1 + P)) (j + 1) j := by
    intro j _
    simp only [Nat.add_eq_zero_iff, one_ne_zero, and_false, if_false]
    exact htol
  have hb : rowForm P line line ((1 : ℝ), (1 : ℝ)) ((1 : ℝ), (1 : ℝ)) = 1 + P := by
    simp only [rowForm_apply, line_apply]; ring
  obtain ⟨s1, e1, _, g1⟩ := C76_one_reduction hf co tol htol1 (by
    rw [hb]
    refine le_trans htol1 ?_
    rw [Real.one_le_sqrt]; linarith) hs mmax hmm [1] (by simp) rfl s0 h0
  obtain ⟨s2, e2, _, g2⟩ := C76_one_reduction_estimate hf co tol hs [1] (by simp) rfl s0 h0
  rw [e1, e2]
  exact ⟨congrArg some (holds_one hf s1 g1 tau), congrArg some (holds_one hf s2 g2 tau)⟩

/-- two numbers of processes give two different answers -/
example (tau : ℝ) (ht : tau ≠ 0) : Real.exp (tau * (1 / (1 + (1 : Nat)))) ≠ Real.exp (tau * (1 / (1 + (2 : Nat)))) := by
  intro h
  have := Real.exp_injective h
  push_cast at this
  apply ht
  linarith

/-- an augmented operator with two extra entries, on these entries alone -/
noncomputable def shift2 : ℝ × (ℝ × ℝ) →ₗ[ℝ] ℝ × (ℝ × ℝ) :=
  (0 : ℝ × (ℝ × ℝ) →ₗ[ℝ] ℝ).prod (((LinearMap.snd ℝ ℝ ℝ).prod 0).comp (LinearMap.snd ℝ ℝ (ℝ × ℝ)))

theorem shift2_apply (x : ℝ × (ℝ × ℝ)) : shift2 x = (0, (x.2.2, 0)) := rfl

/-- **C76**, what fails (`kiops_nest`): its products count the extra entries once per process and its norms once.  On two processes it
    finds a breakdown that does not exist at the first vector: whatever the size of the space, the answer is `e^τ v`, although the
    exponential of the operator on `v = (0, 1, 1)` is `(0, 1 + τ, 1)`. -/
theorem C76_kiops_nest_processes_fails (tol : ℝ) (htol : 0 < tol) (m : Nat) (hm : 0 < m) (s0 : Mem (ℝ × (ℝ × ℝ))) (tau : ℝ) :
    (nestRun (rowForm 2 line (rowForm 1 line line)) (rowForm 1 line (rowForm 1 line line)) shift2 2 tol [m] (0, (1, 1)) s0).map (update tau) =
      some (Real.exp tau • (0, (1, 1))) := by
  have r2 : Real.sqrt 2 * Real.sqrt 2 = 2 := Real.mul_self_sqrt (by norm_num)
  have s2 : Real.sqrt 2 ≠ 0 := (Real.sqrt_pos.2 (by norm_num)).ne'
  have hb : Real.sqrt (rowForm 1 line (rowForm 1 line line) ((0 : ℝ), ((1 : ℝ), (1 : ℝ))) (0, (1, 1))) = Real.sqrt 2 := by
    congr 1
    simp only [rowForm_apply, line_apply]; norm_num
  obtain ⟨b, hbb⟩ : ∃ b, b = Real.sqrt 2 := ⟨_, rfl⟩
  rw [← hbb] at r2 s2 hb
  obtain ⟨n, rfl⟩ : ∃ n, m = n + 1 := ⟨m - 1, by omega⟩
  obtain ⟨t, ht⟩ : ∃ t, t = startNormed (rowForm 1 line (rowForm 1 line line)) ((0 : ℝ), ((1 : ℝ), (1 : ℝ))) s0 := ⟨_, rfl⟩
  have hj : t.j = 0 := by rw [ht]; rfl
  have hh : t.happy = false := by rw [ht]; rfl
  have hV : t.V 0 = (0, (b⁻¹, b⁻¹)) := by
    rw [ht]
    simp only [startNormed, hb]
    rw [setV_self]
    ext <;> simp
  have hbeta : t.beta = b := by rw [ht]; simp only [startNormed, hb]
  have h1 : rowForm 2 line (rowForm 1 line line) (t.V 0) (shift2 (t.V 0)) = 1 := by
    rw [shift2_apply, hV]
    simp only [rowForm_apply, line_apply]
    field_simp
    push_cast
    nlinarith
  have h2 : rowForm 2 line (rowForm 1 line line) (shift2 (t.V 0)) (shift2 (t.V 0)) = 1 := by
    rw [shift2_apply, hV]
    simp only [rowForm_apply, line_apply]
    field_simp
    push_cast
    nlinarith
  have e : ∃ t', nestStep (rowForm 2 line (rowForm 1 line line)) (rowForm 1 line (rowForm 1 line line)) shift2 2 tol t = some t' ∧
      t'.happy = true ∧ t'.j = 1 ∧ t'.H 0 0 = 1 ∧ t'.beta = b ∧ t'.V 0 = t.V 0 := by
    refine ⟨{ t with
      V := setV t.V 1 (shift2 (t.V 0) - t.V 0), j := 1, happy := true,
      H := fun a c => if c = 0 ∧ a < 1 then rowForm 2 line (rowForm 1 line line) (t.V a) (shift2 (t.V 0)) else t.H a c }, ?_, rfl, rfl, ?_,
      hbeta, ?_⟩
    · unfold nestStep
      simp only [hj]
      rw [if_neg (by omega)]
      simp only [Nat.reduceSub, Nat.zero_add, Nat.Ico_succ_singleton, Finset.sum_singleton, h1, h2, zero_le, true_and, zero_lt_one,
        and_self, if_true, one_pow, lt_irrefl, if_false, sub_self, Real.sqrt_zero, if_pos htol, one_smul]
    · simp [h1]
    · exact setV_lt t.V 1 (shift2 (t.V 0) - t.V 0) 0 (by omega)
  obtain ⟨t', e1, e2, e3, e4, e5, e6⟩ := e
  unfold nestRun
  rw [sizes, ← ht, loop, if_pos ⟨by omega, hh⟩, e1]
  simp only [Option.bind_some]
  rw [loop_stop _ _ _ _ (Or.inr e2), Option.map_some, update_one tau t' e3, e4, e5, e6, hV, mul_one]
  congr 1
  ext <;> simp
  · field_simp
  · field_simp

/-- **C76**, what fails (`cwy_1s`, `pmex_1s`): the vectors are computed with one reduction form and the last one of a pass is normalized
    with another one, which counts the extra entries once per process.  The last row is a multiple of the unit vector, and the entry of
    the matrix below the diagonal, which the error estimate reads, is multiplied by the same factor. -/
theorem C76_mixed_norm_fails {W : Type*} [AddCommGroup W] [Module ℝ W] {B : LinearMap.BilinForm ℝ W} {T : W →ₗ[ℝ] W} {v : W}
    {q : Nat → W} {h : Nat → Nat → ℝ} {m : Nat} (hf : Factorization B T v q h m) (Bf : LinearMap.BilinForm ℝ W) (co : Corr) (tol : ℝ)
    (htol1 : tol ≤ 1) (hb : tol ≤ Real.sqrt (B v v)) (hs : ∀ j < m, tol ≤ h (j + 1) j) (mmax : Nat) (hmm : m ≤ mmax) (hm : 0 < m)
    (hq : 0 < Bf (q m) (q m)) (s0 : Mem W) (h0 : s0.mats = Mats.init) :
    ∃ s, oneSyncRun co B Bf T tol mmax [m] v s0 = some s ∧ s.V m = (Real.sqrt (Bf (q m) (q m)))⁻¹ • q m ∧
      s.H m (m - 1) = h m (m - 1) * Real.sqrt (Bf (q m) (q m)) ∧ B (s.V m) (s.V m) = 1 / Bf (q m) (q m) := by
  obtain ⟨s1, e1, c1, i1⟩ := loop_inv (oneSyncStep co B T tol mmax) m
    (fun l t => ∃ c, Inv q h (Real.sqrt (B v v)) l c t ∧ (0 < l → t.normed = false))
    (fun l t ht => ⟨ht.choose_spec.1.j, ht.choose_spec.1.happy⟩)
    (fun l hl t ht => by
      obtain ⟨c', i', _⟩ := ht
      obtain ⟨t', e, i''⟩ := oneSync_inv hf co tol mmax hmm htol1 hb hs l (by omega) c' t i'
      refine ⟨t', e, _, i'', fun _ => ?_⟩
      by_contra hne
      have hne' : t'.normed = true := by cases hx : t'.normed <;> simp_all
      unfold oneSyncStep at e
      rw [Option.map_eq_some_iff] at e
      obtain ⟨p, _, e⟩ := e
      have hh := i''.happy
      by_cases hp : p.nrm < tol
      · simp only [if_pos hp] at e; rw [← e] at hh; simp at hh
      · simp only [if_neg hp] at e; rw [← e] at hne'; simp at hne')
    m 0 { start v s0 with est := 0 } ⟨Real.sqrt (B v v), { start_inv hf s0 h0 with }, fun h => absurd h (by omega)⟩ (Nat.zero_le _) (by omega)
  obtain ⟨i1, hn⟩ := i1
  have hc : c1 = h m (m - 1) := i1.lag (hn hm) hm
  have hnrm : Real.sqrt (Bf (s1.V m) (s1.V m)) = c1 * Real.sqrt (Bf (q m) (q m)) := by
    rw [i1.last, map_smul, map_smul, LinearMap.smul_apply, smul_eq_mul, smul_eq_mul, ← mul_assoc, Real.sqrt_mul (mul_self_nonneg _),
      Real.sqrt_mul_self i1.pos.le]
  have hpos := i1.pos
  have hsq := Real.sqrt_pos.2 hq
  have hV : (c1 * Real.sqrt (Bf (q m) (q m)))⁻¹ • s1.V m = (Real.sqrt (Bf (q m) (q m)))⁻¹ • q m := by
    rw [i1.last, smul_smul]
    congr 1
    field_simp
  refine ⟨{ s1 with
    V := setV s1.V m ((c1 * Real.sqrt (Bf (q m) (q m)))⁻¹ • s1.V m),
    H := fun a b => if a = m ∧ b = m - 1 then c1 * Real.sqrt (Bf (q m) (q m)) else s1.H a b, normed := true }, ?_, ?_, ?_, ?_⟩
  · unfold oneSyncRun
    rw [sizes]
    unfold pass
    rw [e1]
    simp only [Option.bind_some, finish, i1.happy, Bool.false_eq_true, if_false, hnrm]
    rw [if_neg (by positivity)]
  · simp only
    rw [setV_self, hV]
  · simp only
    rw [if_pos ⟨trivial, trivial⟩, hc]
  · simp only
    rw [setV_self, hV, map_smul, map_smul, LinearMap.smul_apply, hf.orth m le_rfl m le_rfl, if_pos rfl, smul_eq_mul, smul_eq_mul, mul_one,
      ← mul_inv, Real.mul_self_sqrt hq.le, one_div]

/-- with more than one process the two forms differ on the last row of the example above -/
example : ∃ (P : Nat) (q : Nat → ℝ × ℝ) (h : Nat → Nat → ℝ), Factorization (rowForm 1 line line) push (1, 1) q h 1 ∧
    0 < rowForm P line line (q 1) (q 1) ∧ rowForm P line line (q 1) (q 1) ≠ 1 := by
  refine ⟨2, _, _, push_factorization 1 le_rfl, ?_, ?_⟩ <;>
  · simp only [one_ne_zero, if_false, rowForm_apply, line_apply, Prod.smul_fst, Prod.smul_snd, smul_eq_mul]
    have h2 : Real.sqrt (1 + ((1 : Nat) : ℝ)) ^ 2 = 2 := by rw [Real.sq_sqrt (by positivity)]; norm_num
    have h1 : Real.sqrt ((1 : Nat) : ℝ) = 1 := by norm_num
    rw [h1]
    have hp : 0 < Real.sqrt (1 + ((1 : Nat) : ℝ)) := Real.sqrt_pos.2 (by positivity)
    generalize Real.sqrt (1 + ((1 : Nat) : ℝ)) = b at *
    field_simp
    push_cast
    try rw [h2]
    norm_num

/-! ## Examples: a chain -/

/-- the chain `e₀ → e₁ → e₂ → e₃ → e₄ → 0` -/
noncomputable def chainMap : EuclideanSpace ℝ (Fin 5) →ₗ[ℝ] EuclideanSpace ℝ (Fin 5) :=
  (PiLp.basisFun 2 ℝ (Fin 5)).constr ℝ fun i => if h : (i : Nat) + 1 < 5 then EuclideanSpace.single ⟨i + 1, h⟩ 1 else 0

noncomputable def chainVec (i : Nat) : EuclideanSpace ℝ (Fin 5) := if h : i < 5 then EuclideanSpace.single ⟨i, h⟩ 1 else 0

theorem chainMap_vec (i : Nat) : chainMap (chainVec i) = chainVec (i + 1) := by
  unfold chainVec
  by_cases h : i < 5
  · rw [dif_pos h]
    have : (EuclideanSpace.single (⟨i, h⟩ : Fin 5) (1 : ℝ)) = PiLp.basisFun 2 ℝ (Fin 5) ⟨i, h⟩ := by simp
    rw [this, chainMap, Module.Basis.constr_basis]
  · rw [dif_neg h, dif_neg (by omega), map_zero]

theorem chain_orth (i : Nat) (hi : i ≤ 4) (k : Nat) (hk : k ≤ 4) :
    (innerₗ (EuclideanSpace ℝ (Fin 5))) (chainVec i) (chainVec k) = if i = k then 1 else 0 := by
  rw [innerₗ_apply_apply]
  unfold chainVec
  rw [dif_pos (by omega), dif_pos (by omega)]
  rw [EuclideanSpace.inner_single_left, EuclideanSpace.single_apply]
  simp only [Fin.mk.injEq]
  by_cases h : i = k
  · subst h; simp
  · simp [h, Ne.symm h]

/-- the Arnoldi factorization of the chain, of every size up to 4, with entries one below the diagonal -/
theorem chain_factorization (m : Nat) (hm : m ≤ 4) : Factorization (innerₗ (EuclideanSpace ℝ (Fin 5))) chainMap (chainVec 0) chainVec
    (fun a b => if a = b + 1 then 1 else 0) m := by
  have hb : (innerₗ (EuclideanSpace ℝ (Fin 5))) (chainVec 0) (chainVec 0) = 1 := by rw [chain_orth 0 (by omega) 0 (by omega), if_pos rfl]
  refine ⟨by rw [hb]; exact one_pos, by rw [hb, Real.sqrt_one, one_smul], fun i hi k hk => chain_orth i (by omega) k (by omega), ?_, ?_⟩
  · intro j hj
    rw [chainMap_vec, Finset.sum_eq_single (j + 1)]
    · rw [if_pos rfl, one_smul]
    · intro b _ hb; rw [if_neg hb, zero_smul]
    · intro hn; exact absurd (Finset.mem_range.2 (by omega)) hn
  · intro j _; rw [if_pos rfl]; exact one_pos

/-- non-vacuity of `C76_one_reduction`, `C76_one_reduction_estimate` and `C76_estimate`: the chain, with the sizes 2 and 4 -/
example (co : Corr) : (∃ s, oneSyncRun co (innerₗ _) (innerₗ _) chainMap (1 / 2) 64 [2, 4] (chainVec 0) fresh = some s ∧ s.j = 4) ∧
    (∃ s, estSyncRun co (innerₗ _) (innerₗ _) chainMap (1 / 2) [2, 4] (chainVec 0) fresh = some s ∧ s.j = 4) ∧
    (∃ s, normEstRun co (innerₗ _) chainMap (1 / 2) [2, 4] (chainVec 0) fresh = some s ∧ s.j = 4) := by
  have hf := chain_factorization 4 le_rfl
  have hs : ∀ j < 4, (1 / 2 : ℝ) ≤ (fun a b => if a = b + 1 then (1 : ℝ) else 0) (j + 1) j := by intro j _; norm_num
  have hb : (innerₗ (EuclideanSpace ℝ (Fin 5))) (chainVec 0) (chainVec 0) = 1 := by rw [chain_orth 0 (by omega) 0 (by omega), if_pos rfl]
  obtain ⟨s1, e1, _, g1⟩ := C76_one_reduction hf co (1 / 2) (by norm_num) (by rw [hb, Real.sqrt_one]; norm_num) hs 64 (by omega) [2, 4]
    (by simp) rfl fresh rfl
  obtain ⟨s2, e2, _, g2⟩ := C76_one_reduction_estimate hf co (1 / 2) hs [2, 4] (by simp) rfl fresh rfl
  obtain ⟨s3, e3, _, g3⟩ := C76_estimate innerX hf co (1 / 2) hs [2, 4] (by simp) rfl fresh rfl
  exact ⟨⟨s1, e1, g1.1⟩, ⟨s2, e2, g2.1⟩, ⟨s3, e3, g3.1⟩⟩

/-- non-vacuity of the theorems on the breakdown: the chain ends after five vectors -/
example : Factorization (innerₗ (EuclideanSpace ℝ (Fin 5))) chainMap (chainVec 0) chainVec (fun a b => if a = b + 1 then 1 else 0) 4 ∧
    chainMap (chainVec 4) = ∑ i ∈ Finset.range (4 + 1), (0 : ℝ) • chainVec i := by
  refine ⟨chain_factorization 4 le_rfl, ?_⟩
  rw [chainMap_vec]
  simp [chainVec]

/-- non-vacuity of `C76_dcgs2_unit_fails`: the start vector of the chain has norm one -/
example (s0 : Mem (EuclideanSpace ℝ (Fin 5))) : dcgs2Run (innerₗ _) chainMap (1 / 2) [4] (chainVec 0) s0 = none :=
  C76_dcgs2_unit_fails (chain_factorization 4 le_rfl) (by rw [chain_orth 0 (by omega) 0 (by omega), if_pos rfl]) (1 / 2)
    (fun j _ => by norm_num) 4 (by omega) le_rfl [] s0

/-- non-vacuity of `C76_dcgs2_scale_fails`: on the line, from the start vector one half -/
example (tol : ℝ) : ∃ s, dcgs2Run line LinearMap.id tol [1] (1 / 2) fresh = some s := by
  have hstep : dcgs2Step line LinearMap.id tol (dcgs2Start line (1 / 2) fresh) = some { dcgs2Start line (1 / 2) fresh with
      V := setV (setV (fun _ => 0) 0 (1 / 2)) 1 (3 / 8), H := fun a b => if a = 0 ∧ b = 0 then 1 / 4 else 0, j := 1, normed := false } := by
    unfold dcgs2Step
    simp only [dcgs2Start, start, fresh, true_or, if_true, LinearMap.id_apply, setV_self, line_apply, Nat.zero_add, smul_eq_mul]
    norm_num
  unfold dcgs2Run
  rw [sizes, loop, if_pos ⟨by simp [dcgs2Start, start], rfl⟩, hstep]
  simp only [Option.bind_some, loop, dcgs2Finish, dcgs2Start, start, Bool.false_eq_true, if_false, Finset.sum_range_one, setV_self, line_apply]
  rw [setV_lt _ _ _ _ (by omega), setV_self]
  norm_num

/-! ## `pmex` is the Gauss-Seidel form of the solver with an estimated norm -/

section pm
variable {X : Type*} [NormedAddCommGroup X] [InnerProductSpace ℝ X]

/-- the memory of `pmex` -/
def toP (s : Mem X) : WxVerif.Krylov.Mem X where
  V := s.V
  H := s.H
  M := s.mats.M
  N := s.mats.N
  Minv := s.mats.Minv
  j := s.j
  happy := s.happy

theorem pm_step (T : X →ₗ[ℝ] X) (tol : ℝ) (s : Mem X) :
    ∃ s', normEstStep .pm (innerₗ X) T tol s = some s' ∧ toP s' = WxVerif.Krylov.pmexStep T tol (toP s) := by
  set r : Nat → ℝ := fun i => inner ℝ (s.V i) (s.V s.j) with hr
  set g : Nat → ℝ := fun i => inner ℝ (s.V i) (T (s.V s.j)) with hg
  have hm : WxVerif.Krylov.pmexMats (toP s) (s.j + 1) = ((correct .pm s.mats (s.j + 1) r g).1.M, (correct .pm s.mats (s.j + 1) r g).1.N,
      (correct .pm s.mats (s.j + 1) r g).1.Minv) := by
    unfold WxVerif.Krylov.pmexMats correct
    simp only [toP, Nat.add_sub_cancel]
    by_cases h1 : 1 < s.j + 1
    · rw [if_pos h1]
      simp only [h1, true_and]
      rfl
    · rw [if_neg h1]
      simp only [h1, false_and, if_false]
  have hc2 : (correct .pm s.mats (s.j + 1) r g).2 = WxVerif.Krylov.pmexSol (correct .pm s.mats (s.j + 1) r g).1.N
      (correct .pm s.mats (s.j + 1) r g).1.Minv (s.j + 1) g := rfl
  have e : normEstStep .pm (innerₗ X) T tol s =
      (let p := correct .pm s.mats (s.j + 1) r g
       let v' := T (s.V s.j) - ∑ i ∈ Finset.range (s.j + 1), p.2 i • s.V i
       let sumSq := ∑ i ∈ Finset.range (s.j + 1), g i ^ 2
       let nrm := if inner ℝ (T (s.V s.j)) (T (s.V s.j)) < sumSq then Real.sqrt (inner ℝ v' v')
         else Real.sqrt (inner ℝ (T (s.V s.j)) (T (s.V s.j)) - sumSq)
       let s' := { s with mats := p.1, j := s.j + 1 }
       if nrm < tol then some { s' with V := setV s.V (s.j + 1) v', happy := true }
       else some { s' with V := setV s.V (s.j + 1) (nrm⁻¹ • v'),
                           H := fun a b => if b = s.j ∧ a < s.j + 1 then p.2 a else if a = s.j + 1 ∧ b = s.j then nrm else s.H a b }) := by
    unfold normEstStep
    simp only [reduceCtorEq, and_false, if_false, innerₗ_apply_apply]
    rfl
  have hsq : ∀ x : X, Real.sqrt (inner ℝ x x) = ‖x‖ := fun x => by
    rw [real_inner_self_eq_norm_sq]; exact Real.sqrt_sq (norm_nonneg _)
  have e2 : WxVerif.Krylov.pmexStep T tol (toP s) =
      (let p := correct .pm s.mats (s.j + 1) r g
       let v' := T (s.V s.j) - ∑ i ∈ Finset.range (s.j + 1), p.2 i • s.V i
       let sumSq := ∑ i ∈ Finset.range (s.j + 1), g i ^ 2
       let nrm := if inner ℝ (T (s.V s.j)) (T (s.V s.j)) < sumSq then ‖v'‖
         else Real.sqrt (inner ℝ (T (s.V s.j)) (T (s.V s.j)) - sumSq)
       let s' := { s with mats := p.1, j := s.j + 1 }
       if nrm < tol then toP { s' with V := setV s.V (s.j + 1) v', happy := true }
       else toP { s' with V := setV s.V (s.j + 1) (nrm⁻¹ • v'),
                          H := fun a b => if b = s.j ∧ a < s.j + 1 then p.2 a else if a = s.j + 1 ∧ b = s.j then nrm else s.H a b }) := by
    unfold WxVerif.Krylov.pmexStep
    simp only
    rw [show (toP s).j = s.j from rfl, hm]
    rfl
  rw [e, e2]
  simp only [hsq]
  split_ifs <;> exact ⟨_, rfl, rfl⟩

theorem pm_loop (T : X →ₗ[ℝ] X) (tol : ℝ) (m fuel : Nat) : ∀ s : Mem X,
    ∃ s', loop (normEstStep .pm (innerₗ X) T tol) m fuel s = some s' ∧
      toP s' = WxVerif.Krylov.krylovLoop (WxVerif.Krylov.pmexStep T tol) m fuel (toP s) := by
  induction fuel with
  | zero => intro s; exact ⟨s, rfl, rfl⟩
  | succ n ih =>
    intro s
    unfold loop WxVerif.Krylov.krylovLoop
    by_cases hc : s.j < m ∧ s.happy = false
    · rw [if_pos hc, if_pos (show (toP s).j < m ∧ (toP s).happy = false from hc)]
      obtain ⟨s1, e1, e2⟩ := pm_step T tol s
      obtain ⟨s2, f1, f2⟩ := ih s1
      exact ⟨s2, by rw [e1]; exact f1, by rw [f2, e2]⟩
    · rw [if_neg hc, if_neg (show ¬ ((toP s).j < m ∧ (toP s).happy = false) from hc)]
      exact ⟨s, rfl, rfl⟩

/-- if the factorization exists, with entries above the tolerance, `pmex` does not break down -/
theorem pmex_no_breakdown {T : X →ₗ[ℝ] X} {v : X} {q : Nat → X} {h : Nat → Nat → ℝ} {m : Nat} (hf : Factorization (innerₗ X) T v q h m)
    (tol : ℝ) (hs : ∀ j < m, tol ≤ h (j + 1) j) (hm : 0 < m) : (WxVerif.Krylov.pmexRun T tol m v WxVerif.Krylov.fresh).happy = false := by
  obtain ⟨s, e1, _, g⟩ := C76_estimate innerX hf .pm tol hs [m] (by simpa using hm) rfl fresh rfl
  obtain ⟨s', f1, f2⟩ := pm_loop T tol m m (startNormed (innerₗ X) v fresh)
  have hss : s = s' := by
    unfold normEstRun at e1
    rw [sizes, f1] at e1
    exact (Option.some.inj e1).symm
  have hb : Real.sqrt ((innerₗ X) v v) = ‖v‖ := by
    rw [innerₗ_apply_apply, real_inner_self_eq_norm_sq]; exact Real.sqrt_sq (norm_nonneg _)
  have hst : toP (startNormed (innerₗ X) v fresh) = WxVerif.Krylov.begin true v WxVerif.Krylov.fresh := by
    simp only [toP, startNormed, hb, fresh, WxVerif.Krylov.begin, WxVerif.Krylov.fresh, Mats.init, if_true]
  rw [hst] at f2
  change toP s' = WxVerif.Krylov.pmexRun T tol m v WxVerif.Krylov.fresh at f2
  rw [← f2, ← hss]
  exact g.2.1

/-- non-vacuity of `C76_same_update`: the chain, with four vectors -/
example : (WxVerif.Krylov.pmexRun chainMap (1 / 2) 4 (chainVec 0) WxVerif.Krylov.fresh).happy = false ∧ (1 / 2 : ℝ) ≤ ‖chainVec 0‖ := by
  refine ⟨pmex_no_breakdown (chain_factorization 4 le_rfl) (1 / 2) (fun j _ => by norm_num) (by omega), ?_⟩
  unfold chainVec
  rw [dif_pos (by omega)]
  simp
  norm_num

end pm

end WxVerif.Props.KrylovLowSync
