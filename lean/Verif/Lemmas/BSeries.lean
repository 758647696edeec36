import Verif.Lemmas.UniformTaylor
import Verif.Spec.RootedTree
import Mathlib.Analysis.Asymptotics.Lemmas
import Mathlib.Algebra.BigOperators.Fin
import Mathlib.Data.Fintype.BigOperators
import Mathlib.Data.Fintype.Sigma
import Mathlib.Data.Fintype.Pi

/-!
# Expansions in elementary differentials, along a solution and for Runge-Kutta stages

Both the exact solution and the stages of a Runge-Kutta step are "kinds" of slopes `K` and increments `Z` with `K ≈ f (y t + Z)` and `Z`
obtained from `K` by a linear rule.  All kinds have the same expansion, up to the coefficients that the rule gives to each tree.
-/

namespace WxVerif.BSeries

open Set Filter Topology Asymptotics UniformTaylor RootedTree

universe u

variable {V : Type u} [NormedAddCommGroup V] [NormedSpace ℝ V]

theorem size_pos : ∀ t : Tree, 0 < t.size
  | .leaf => Nat.one_pos
  | .graft a b => by have := size_pos a; simp only [Tree.size]; omega

theorem branch_pos : ∀ t : Tree, 0 < t.branchDensity
  | .leaf => Nat.one_pos
  | .graft a b => by
    have := branch_pos a; have := branch_pos b; have := size_pos b
    simp only [Tree.branchDensity]; positivity

/-- the tree with the given branches -/
def comb : (m : Nat) → (Fin m → Tree) → Tree
  | 0, _ => .leaf
  | m + 1, r => .graft (comb m fun i => r i.castSucc) (r (Fin.last m))

theorem comb_size : ∀ (m : Nat) (r : Fin m → Tree), (comb m r).size = 1 + ∑ i, (r i).size
  | 0, _ => by simp [comb, Tree.size]
  | m + 1, r => by rw [comb, Tree.size, comb_size m, Fin.sum_univ_castSucc, add_assoc]

/-- a kind of slopes and increments -/
structure Kind (f : V → V) (y : ℝ → V) (T : ℝ) where
  W : Type u
  S : Set W
  t : W → ℝ
  h : W → ℝ
  ε : W → ℝ
  K : W → V
  Z : W → V
  Φ : Tree → W → ℝ
  Ψ : Tree → W → ℝ
  tmem : ∀ w ∈ S, t w ∈ Icc 0 T
  ε0 : ∀ w ∈ S, 0 ≤ ε w
  ε1 : ∀ w ∈ S, ε w ≤ 1
  leaf : ∀ w ∈ S, Φ .leaf w = 1
  graft : ∀ w ∈ S, ∀ a b, Φ (.graft a b) w = Φ a w * Ψ b w
  boundΨ : ∀ τ, ∃ C : ℝ, ∀ w ∈ S, |Ψ τ w| ≤ C
  boundK : K =O[𝓟 S ⊓ comap h (𝓝[>] 0)] (fun _ => (1 : ℝ))
  close : (fun w => K w - f (y (t w) + Z w)) =O[𝓟 S ⊓ comap h (𝓝[>] 0)] ε
  rule : ∀ (κ : Type) [Fintype κ] (τ : κ → Tree) (F : κ → ℝ → V) (q : Nat),
    (fun w => K w - ∑ a, (h w ^ ((τ a).size - 1) * Φ (τ a) w) • F a (t w)) =O[𝓟 S ⊓ comap h (𝓝[>] 0)] (fun w => h w ^ q + ε w) →
    (fun w => Z w - ∑ a, (h w ^ (τ a).size * Ψ (τ a) w) • F a (t w)) =O[𝓟 S ⊓ comap h (𝓝[>] 0)] (fun w => h w * (h w ^ q + ε w))

namespace Kind

variable {f : V → V} {y : ℝ → V} {T : ℝ} (k : Kind f y T)

/-- small steps -/
def ℓ : Filter k.W := 𝓟 k.S ⊓ comap k.h (𝓝[>] 0)

theorem ev_S : ∀ᶠ w in k.ℓ, w ∈ k.S := mem_inf_of_left (mem_principal_self _)

theorem h_tendsto : Tendsto k.h k.ℓ (𝓝[>] 0) := tendsto_comap.mono_left inf_le_right

theorem ev_h0 : ∀ᶠ w in k.ℓ, 0 < k.h w := k.h_tendsto.eventually self_mem_nhdsWithin

theorem ev_h (c : ℝ) (hc : 0 < c) : ∀ᶠ w in k.ℓ, k.h w < c :=
  k.h_tendsto.eventually (mem_nhdsWithin_of_mem_nhds (Iio_mem_nhds hc))

theorem comb_Φ (w : k.W) (hw : w ∈ k.S) : ∀ (m : Nat) (r : Fin m → Tree), k.Φ (comb m r) w = ∏ i, k.Ψ (r i) w
  | 0, _ => by simp [comb, k.leaf w hw]
  | m + 1, r => by rw [comb, k.graft w hw, comb_Φ w hw m, Fin.prod_univ_castSucc]

theorem h_pow_le (n : Nat) (hn : 1 ≤ n) : (fun w => k.h w ^ n) =O[k.ℓ] k.h := by
  refine IsBigO.of_bound 1 ?_
  filter_upwards [k.ev_h0, k.ev_h 1 one_pos] with w h0 h1
  rw [Real.norm_of_nonneg (by positivity), Real.norm_of_nonneg h0.le, one_mul]
  calc k.h w ^ n ≤ k.h w ^ 1 := pow_le_pow_of_le_one h0.le h1.le hn
    _ = k.h w := pow_one _

theorem Ψ_bounded (τ : Tree) : k.Ψ τ =O[k.ℓ] (fun _ => (1 : ℝ)) := by
  obtain ⟨C, hC⟩ := k.boundΨ τ
  refine IsBigO.of_bound C ?_
  filter_upwards [k.ev_S] with w hw
  simpa using hC w hw

end Kind

/-- the expansion of the slopes, the same for all kinds -/
theorem expansion {f : V → V} {y : ℝ → V} {T : ℝ} (hK : IsCompact (y '' Icc 0 T)) (p : Nat)
    (hf : ∀ x ∈ y '' Icc 0 T, ContDiffAt ℝ (p : WithTop ℕ∞) f x) (q : Nat) (hq : q ≤ p) :
    ∃ (κ : Type) (_ : Fintype κ) (τ : κ → Tree) (F : κ → ℝ → V), (∀ a, ∃ C : ℝ, ∀ t ∈ Icc 0 T, ‖F a t‖ ≤ C) ∧
      ∀ k : Kind f y T, (fun w => k.K w - ∑ a, (k.h w ^ ((τ a).size - 1) * k.Φ (τ a) w) • F a (k.t w)) =O[k.ℓ]
        (fun w => k.h w ^ q + k.ε w) := by
  induction q with
  | zero =>
    refine ⟨Empty, inferInstance, Empty.elim, Empty.elim, fun a => a.elim, fun k => ?_⟩
    simp only [Finset.univ_eq_empty, Finset.sum_empty, sub_zero, pow_zero]
    refine k.boundK.trans (IsBigO.of_bound 1 ?_)
    change ∀ᶠ w in k.ℓ, _
    filter_upwards [k.ev_S] with w hw
    have := k.ε0 w hw
    rw [norm_one, Real.norm_of_nonneg (by linarith)]
    linarith
  | succ q ih =>
    obtain ⟨κ, _, τ, F, hF, hexp⟩ := ih (by omega)
    obtain ⟨r, M, r0, M0, hLip, hBd, hTay, hDer⟩ := uniform_taylor hK q (fun x hx => (hf x hx).of_le (by exact_mod_cast hq))
    refine ⟨Σ m : Fin (q + 1), (Fin m → κ), inferInstance, fun a => comb a.1 fun i => τ (a.2 i),
      fun a t => (1 / ((a.1 : Nat).factorial : ℝ)) • iteratedFDeriv ℝ a.1 f (y t) (fun i => F (a.2 i) t), ?_, ?_⟩
    · rintro ⟨m, s⟩
      choose C hC using hF
      refine ⟨(1 / ((m : Nat).factorial : ℝ)) * (M * ∏ i, C (s i)), fun t ht => ?_⟩
      rw [norm_smul, Real.norm_of_nonneg (by positivity)]
      refine mul_le_mul_of_nonneg_left ?_ (by positivity)
      refine (ContinuousMultilinearMap.le_opNorm _ _).trans ?_
      refine mul_le_mul (hDer m (by omega) _ (mem_image_of_mem y ht)) (Finset.prod_le_prod (fun _ _ => norm_nonneg _) fun i _ => hC (s i) t ht)
        (by positivity) M0.le
    · intro k
      set P : k.W → V := fun w => ∑ a, (k.h w ^ (τ a).size * k.Ψ (τ a) w) • F a (k.t w) with hPdef
      have hZP : (fun w => k.Z w - P w) =O[k.ℓ] (fun w => k.h w * (k.h w ^ q + k.ε w)) := k.rule κ τ F q (hexp k)
      have hP : P =O[k.ℓ] k.h := by
        have part : ∀ a ∈ (Finset.univ : Finset κ), (fun w => (k.h w ^ (τ a).size * k.Ψ (τ a) w) • F a (k.t w)) =O[k.ℓ] k.h := ?_
        · exact IsBigO.fun_sum part
        intro a _
        have h1 : (fun w => k.h w ^ (τ a).size * k.Ψ (τ a) w) =O[k.ℓ] (fun w => k.h w * 1) :=
          (k.h_pow_le _ (size_pos _)).mul (k.Ψ_bounded _)
        have h2 : (fun w => F a (k.t w)) =O[k.ℓ] (fun _ => (1 : ℝ)) := by
          obtain ⟨C, hC⟩ := hF a
          refine IsBigO.of_bound C ?_
          filter_upwards [k.ev_S] with w hw
          simpa using hC _ (k.tmem w hw)
        simpa using h1.smul h2
      have hE : (fun w => k.h w * (k.h w ^ q + k.ε w)) =O[k.ℓ] k.h := by
        refine IsBigO.of_bound 2 ?_
        filter_upwards [k.ev_S, k.ev_h0, k.ev_h 1 one_pos] with w hw h0 h1
        have e0 := k.ε0 w hw
        have e1 := k.ε1 w hw
        have hq1 : k.h w ^ q ≤ 1 := pow_le_one₀ h0.le h1.le
        rw [Real.norm_of_nonneg (by positivity), Real.norm_of_nonneg h0.le]
        nlinarith
      have hZ : k.Z =O[k.ℓ] k.h := by
        have := (hZP.trans hE).add hP
        simpa using this
      have h00 : Tendsto k.h k.ℓ (𝓝 0) := k.h_tendsto.mono_right nhdsWithin_le_nhds
      have evZ : ∀ᶠ w in k.ℓ, ‖k.Z w‖ ≤ r := by
        have := (hZ.trans_tendsto h00).norm
        rw [norm_zero] at this
        filter_upwards [this.eventually (gt_mem_nhds r0)] with w hw using hw.le
      have evP : ∀ᶠ w in k.ℓ, ‖P w‖ ≤ r := by
        have := (hP.trans_tendsto h00).norm
        rw [norm_zero] at this
        filter_upwards [this.eventually (gt_mem_nhds r0)] with w hw using hw.le
      -- the four parts of the error
      have p1 : (fun w => k.K w - f (y (k.t w) + k.Z w)) =O[k.ℓ] (fun w => k.h w ^ (q + 1) + k.ε w) := by
        refine k.close.trans (IsBigO.of_bound 1 ?_)
        change ∀ᶠ w in k.ℓ, _
        filter_upwards [k.ev_S, k.ev_h0] with w hw h0
        have e0 := k.ε0 w hw
        have : 0 ≤ k.h w ^ (q + 1) := by positivity
        rw [Real.norm_of_nonneg e0, Real.norm_of_nonneg (by positivity)]
        linarith
      have p2 : (fun w => f (y (k.t w) + k.Z w) - f (y (k.t w) + P w)) =O[k.ℓ] (fun w => k.h w ^ (q + 1) + k.ε w) := by
        have a1 : (fun w => f (y (k.t w) + k.Z w) - f (y (k.t w) + P w)) =O[k.ℓ] (fun w => k.Z w - P w) := by
          refine IsBigO.of_bound M ?_
          filter_upwards [k.ev_S, evZ, evP] with w hw hz hp
          exact hLip _ (mem_image_of_mem y (k.tmem w hw)) _ _ hz hp
        refine (a1.trans hZP).trans (IsBigO.of_bound 1 ?_)
        filter_upwards [k.ev_S, k.ev_h0, k.ev_h 1 one_pos] with w hw h0 h1
        have e0 := k.ε0 w hw
        rw [Real.norm_of_nonneg (by positivity), Real.norm_of_nonneg (by positivity), one_mul, mul_add, pow_succ']
        nlinarith
      have p3 : (fun w => f (y (k.t w) + P w) - taylorPoly f q (y (k.t w)) (P w)) =O[k.ℓ] (fun w => k.h w ^ (q + 1) + k.ε w) := by
        have a1 : (fun w => f (y (k.t w) + P w) - taylorPoly f q (y (k.t w)) (P w)) =O[k.ℓ] (fun w => ‖P w‖ ^ (q + 1)) := by
          refine IsBigO.of_bound M ?_
          filter_upwards [k.ev_S, evP] with w hw hp
          rw [Real.norm_of_nonneg (by positivity)]
          exact hTay _ (mem_image_of_mem y (k.tmem w hw)) _ hp
        have a2 : (fun w => ‖P w‖ ^ (q + 1)) =O[k.ℓ] (fun w => k.h w ^ (q + 1)) := hP.norm_left.pow (q + 1)
        refine (a1.trans a2).trans (IsBigO.of_bound 1 ?_)
        filter_upwards [k.ev_S, k.ev_h0] with w hw h0
        have e0 := k.ε0 w hw
        have : 0 ≤ k.h w ^ (q + 1) := by positivity
        rw [Real.norm_of_nonneg this, Real.norm_of_nonneg (by positivity)]
        linarith
      have p4 : ∀ᶠ w in k.ℓ, taylorPoly f q (y (k.t w)) (P w) = ∑ a : (Σ m : Fin (q + 1), (Fin m → κ)),
          (k.h w ^ ((comb a.1 fun i => τ (a.2 i)).size - 1) * k.Φ (comb a.1 fun i => τ (a.2 i)) w) •
            ((1 / ((a.1 : Nat).factorial : ℝ)) • iteratedFDeriv ℝ a.1 f (y (k.t w)) (fun i => F (a.2 i) (k.t w))) := by
        filter_upwards [k.ev_S] with w hw
        rw [taylorPoly, Finset.sum_range, Fintype.sum_sigma]
        refine Finset.sum_congr rfl fun m _ => ?_
        rw [hPdef]
        beta_reduce
        rw [ContinuousMultilinearMap.map_sum, Finset.smul_sum]
        refine Finset.sum_congr rfl fun s _ => ?_
        rw [ContinuousMultilinearMap.map_smul_univ, k.comb_Φ w hw, comb_size, Nat.add_sub_cancel_left, Finset.prod_mul_distrib,
          Finset.prod_pow_eq_pow_sum, smul_comm]
      have total := ((p1.add p2).add p3)
      refine total.congr' ?_ EventuallyEq.rfl
      filter_upwards [p4] with w hw
      rw [← hw]
      abel

/-- both the increments of a kind and those of another have the expansion, with their own coefficients -/
theorem increments {f : V → V} {y : ℝ → V} {T : ℝ} (hK : IsCompact (y '' Icc 0 T)) (p : Nat)
    (hf : ∀ x ∈ y '' Icc 0 T, ContDiffAt ℝ (p : WithTop ℕ∞) f x) :
    ∃ (κ : Type) (_ : Fintype κ) (τ : κ → Tree) (F : κ → ℝ → V), (∀ a, ∃ C : ℝ, ∀ t ∈ Icc 0 T, ‖F a t‖ ≤ C) ∧
      ∀ k : Kind f y T, (fun w => k.K w - ∑ a, (k.h w ^ ((τ a).size - 1) * k.Φ (τ a) w) • F a (k.t w)) =O[k.ℓ]
          (fun w => k.h w ^ p + k.ε w) ∧
        (fun w => k.Z w - ∑ a, (k.h w ^ (τ a).size * k.Ψ (τ a) w) • F a (k.t w)) =O[k.ℓ]
          (fun w => k.h w * (k.h w ^ p + k.ε w)) := by
  obtain ⟨κ, _, τ, F, hF, he⟩ := expansion hK p hf p le_rfl
  exact ⟨κ, inferInstance, τ, F, hF, fun k => ⟨he k, k.rule κ τ F p (he k)⟩⟩

end WxVerif.BSeries
