import Verif.Lemmas.Reorder
import Verif.Spec.ProcessCount
import Verif.Props.Decomposition3D
import Verif.Props.Gmres

/-!
# Implicit and exponential runs do not depend on the number of processes (C84)
-/

namespace WxVerif.Props.ProcessCount

open WxVerif WxVerif.Topology WxVerif.Cube WxVerif.Krylov WxVerif.Gmres WxVerif.Calls WxVerif.Naturality WxVerif.Reorder
open WxVerif.Spec.Decomposition WxVerif.Spec.ProcessCount WxVerif.Props.Decomposition
open WxVerif.ShallowWater (Grid Field Topography)
open WxVerif.EulerSphere (Atm Field3 Floor ForcingData)

/-! ## The solvers -/

section Solvers

variable {ι ι' : Type*} [Fintype ι] [Fintype ι'] (e : ι ≃ ι')

/-- **C84**, exponential solvers: whichever way the entries of the vectors are shared out among the processes (`e`), a call of `kiops` or `pmex` on the same
data makes the same decisions and finds the same solutions at all the output times. -/
theorem C84_exponential_solver {A : EuclideanSpace ℝ ι → EuclideanSpace ℝ ι} {A' : EuclideanSpace ℝ ι' → EuclideanSpace ℝ ι'}
    (hA : ∀ w w', (∀ i, w' (e i) = w i) → ∀ i, A' w' (e i) = A w i) (pm : Bool) (p : Nat) (u : Nat → EuclideanSpace ℝ ι)
    (u' : Nat → EuclideanSpace ℝ ι') (hu : ∀ k i, u' k (e i) = u k i) (iop : Nat) (tol : ℝ) (control : List Seen → Option Move) (fuel : Nat) :
    List.Forall₂ (fun w' w => ∀ i, w' (e i) = w i) (call pm A' p u' iop tol control fuel).1 (call pm A p u iop tol control fuel).1 ∧
    (call pm A' p u' iop tol control fuel).2 = (call pm A p u iop tol control fuel).2 := by
  have hL : ∀ w w', (∀ i, w' (e i) = w i) → w' = reorder e w := by
    intro w w' h
    ext i
    rw [reorder_symm, ← h, e.apply_symm_apply]
  have h1 : ∀ w, A' (reorder e w) = reorder e (A w) := fun w => hL _ _ (hA w _ (reorder_apply e w))
  have h2 : u' = fun k => reorder e (u k) := funext fun k => hL _ _ (hu k)
  rw [h2, call_map h1]
  exact ⟨List.forall₂_map_left_iff.2 (List.forall₂_same.2 fun w _ i => reorder_apply e w i), rfl⟩

/-- along a run of FGMRES no process finds that its part of the solution has stopped changing -/
def Quiet {P W : Type*} [NormedAddCommGroup W] [InnerProductSpace ℝ W] (A : W → W) (b : W) (tolRel : ℝ) (cyc : W → W → Option (W × Nat))
    (stag : P → W → W → Prop) : Nat → W → Prop
  | 0, _ => True
  | n + 1, x => b - A x ≠ 0 → ∀ u, cyc x (b - A x) = some u →
    (∀ q, ¬ stag q u.1 (x + u.1)) ∧ (tolRel ≤ ‖b - A (x + u.1)‖ → Quiet A b tolRel cyc stag n (x + u.1))

/-- the two calls raise both, or end with the same solution, norm of the residual, number of iterations and flag on all the processes of both -/
def SameAnswer {P P' : Type*} (L : EuclideanSpace ℝ ι → EuclideanSpace ℝ ι') : Together P (EuclideanSpace ℝ ι) → Together P' (EuclideanSpace ℝ ι') → Prop
  | .answers a, .answers a' => ∀ q q', a' q' = ⟨L (a q).x, (a q).normR, (a q).niter, (a q).flag⟩
  | .raised, .raised => True
  | _, _ => False

variable {e}

theorem outerAll_map {P P' : Type*} [Nonempty P] [Nonempty P'] {A : EuclideanSpace ℝ ι → EuclideanSpace ℝ ι} {A' : EuclideanSpace ℝ ι' → EuclideanSpace ℝ ι'}
    (hA : ∀ w, A' (reorder e w) = reorder e (A w)) (b : EuclideanSpace ℝ ι) (tolRel : ℝ)
    {cyc : EuclideanSpace ℝ ι → EuclideanSpace ℝ ι → Option (EuclideanSpace ℝ ι × Nat)}
    {cyc' : EuclideanSpace ℝ ι' → EuclideanSpace ℝ ι' → Option (EuclideanSpace ℝ ι' × Nat)}
    (hc : ∀ x r, cyc' (reorder e x) (reorder e r) = (cyc x r).map fun u => (reorder e u.1, u.2))
    (stag : P → EuclideanSpace ℝ ι → EuclideanSpace ℝ ι → Prop) (stag' : P' → EuclideanSpace ℝ ι' → EuclideanSpace ℝ ι' → Prop) :
    ∀ (n niter : Nat) (x : EuclideanSpace ℝ ι), Quiet A b tolRel cyc stag n x → Quiet A' (reorder e b) tolRel cyc' stag' n (reorder e x) →
      SameAnswer (reorder e) (outerAll A b tolRel cyc stag n niter x) (outerAll A' (reorder e b) tolRel cyc' stag' n niter (reorder e x)) := by
  have hb : ∀ x, reorder e b - A' (reorder e x) = reorder e (b - A x) := fun x => by rw [hA, map_sub]
  intro n
  induction n with
  | zero =>
    intro niter x _ _ q q'
    simp only [hb, LinearIsometry.norm_map]
  | succ n ih =>
    intro niter x hq hq'
    unfold outerAll
    rw [hb, LinearIsometry.norm_map, hc]
    by_cases h0 : ‖b - A x‖ = 0
    · rw [if_pos h0, if_pos h0]; trivial
    rw [if_neg h0, if_neg h0]
    cases hu : cyc x (b - A x) with
    | none => trivial
    | some u =>
      have q1 := hq (norm_ne_zero_iff.1 h0) u hu
      have q2 := hq' (by rw [hb, ← norm_ne_zero_iff, LinearIsometry.norm_map]; exact h0) (reorder e u.1, u.2) (by rw [hb, hc, hu]; rfl)
      dsimp only [Option.map_some] at q2 ⊢
      rw [← map_add] at q2 ⊢
      rw [hb, LinearIsometry.norm_map] at q2 ⊢
      have n1 : ¬ ∀ q, stag q u.1 (x + u.1) := fun h => q1.1 (Classical.arbitrary P) (h _)
      have n2 : ¬ ∀ q, stag' q (reorder e u.1) (reorder e (x + u.1)) := fun h => q2.1 (Classical.arbitrary P') (h _)
      by_cases ht : ‖b - A (x + u.1)‖ < tolRel
      · rw [if_pos (Or.inl ht), if_pos (Or.inl ht)]
        intro q q'
        beta_reduce
        rw [if_neg (q1.1 q), if_neg (q2.1 q')]
      · rw [if_neg (not_or.2 ⟨ht, n1⟩), if_neg (not_or.2 ⟨ht, n2⟩), if_pos q1.1, if_pos q2.1]
        exact ih _ _ (q1.2 (not_lt.1 ht)) (q2.2 (not_lt.1 ht))

/-- **C84**, FGMRES, partial: if on both sides every process holds more entries than a cycle has vectors and no process finds stagnation, the two calls end
alike: the same exception, or the same solution, residual, number of iterations and flag on all processes.  Without the hypothesis on stagnation the
claim is false: `C84_stagnation_fails`, `C84_flags_fails`. -/
theorem C84_fgmres_partial {P P' : Type*} [Nonempty P] [Nonempty P'] {A M : EuclideanSpace ℝ ι → EuclideanSpace ℝ ι}
    {A' M' : EuclideanSpace ℝ ι' → EuclideanSpace ℝ ι'} (hA : ∀ w, A' (reorder e w) = reorder e (A w)) (hM : ∀ w, M' (reorder e w) = reorder e (M w))
    (own : ι → P) (own' : ι' → P') (b x0 : EuclideanSpace ℝ ι) (tol : ℝ) (restart len len' maxiter : Nat) (hl : restart < len) (hl' : restart < len')
    (hegedus : Bool) (tri : Nat → Small → Option (Nat → ℝ)) :
    let x := if hegedus then rescale A b x0 else x0
    let cyc := runCycle A M (tol * ‖b‖) restart tri
    let cyc' := runCycle A' M' (tol * ‖b‖) restart tri
    let stag := fun q (u x : EuclideanSpace ℝ ι) => stagnates (fun i => own i = q) u x
    let stag' := fun q (u x : EuclideanSpace ℝ ι') => stagnates (fun i => own' i = q) u x
    Quiet A b (tol * ‖b‖) cyc stag maxiter x → Quiet A' (reorder e b) (tol * ‖b‖) cyc' stag' maxiter (reorder e x) →
    SameAnswer (reorder e) (fgmresAll A b x0 tol restart len maxiter hegedus cyc stag)
      (fgmresAll A' (reorder e b) (reorder e x0) tol restart len' maxiter hegedus cyc' stag') := by
  intro x cyc cyc' stag stag' hq hq'
  unfold fgmresAll
  rw [if_neg (show ¬ len ≤ restart by omega), if_neg (show ¬ len' ≤ restart by omega), LinearIsometry.norm_map]
  by_cases hb : ‖b‖ = 0
  · rw [if_pos hb, if_pos hb]
    intro q q'
    simp only [map_zero]
  · rw [if_neg hb, if_neg hb]
    have hx : (if hegedus = true then rescale A' (reorder e b) (reorder e x0) else reorder e x0) = reorder e x := by
      rw [Isometry.rescale_map hA]
      cases hegedus <;> rfl
    rw [hx]
    exact outerAll_map hA b _ (fun x r => Isometry.runCycle_map hA hM _ restart tri x r) stag stag' maxiter 0 x hq hq'

/-- **C84**: on a single process a call of FGMRES never waits. -/
theorem C84_one_process {W P : Type*} [NormedAddCommGroup W] [InnerProductSpace ℝ W] [Subsingleton P] (A : W → W) (b x0 : W) (tol : ℝ) (restart len maxiter : Nat) (hegedus : Bool)
    (cyc : W → W → Option (W × Nat)) (stag : P → W → W → Prop) : fgmresAll A b x0 tol restart len maxiter hegedus cyc stag ≠ .stuck := by
  have : ∀ n niter x, outerAll A b (tol * ‖b‖) cyc stag n niter x ≠ .stuck := by
    intro n
    induction n with
    | zero => intro niter x h; cases h
    | succ n ih =>
      intro niter x
      unfold outerAll
      by_cases h0 : ‖b - A x‖ = 0
      · rw [if_pos h0]; simp
      rw [if_neg h0]
      cases cyc x (b - A x) with
      | none => simp
      | some u =>
        dsimp only
        split_ifs with h1 h2 h3
        · simp
        · exact ih _ _
        · simp
        · exfalso
          push Not at h1 h2
          obtain ⟨q, hq⟩ := h2
          obtain ⟨q', hq'⟩ := h1.2
          exact hq' (Subsingleton.elim q q' ▸ hq)
  unfold fgmresAll
  split_ifs <;> first | exact this _ _ _ | simp

/-- **C84**, the length of a cycle: with so many processes that one holds no more entries than a cycle has vectors, FGMRES raises, for every system; with
fewer processes it does not raise for that reason. -/
theorem C84_restart_fails {W P : Type*} [NormedAddCommGroup W] [InnerProductSpace ℝ W] (A : W → W) (b x0 : W) (hb : b ≠ 0) (tol : ℝ)
    (restart len len' maxiter : Nat) (hl : len ≤ restart) (hl' : restart < len') (hegedus : Bool) (cyc : W → W → Option (W × Nat)) (stag : P → W → W → Prop) :
    fgmresAll A b x0 tol restart len maxiter hegedus cyc stag = .raised ∧
    fgmresAll A b x0 tol restart len' maxiter hegedus cyc stag =
      outerAll A b (tol * ‖b‖) cyc stag maxiter 0 (if hegedus then rescale A b x0 else x0) := by
  unfold fgmresAll
  rw [if_pos hl, if_neg (by omega), if_neg (norm_ne_zero_iff.2 hb)]
  exact ⟨rfl, rfl⟩

/-- **C84**, the linear systems of the Newton solver: no process waits for another that has left, and all have the same solution. -/
theorem C84_newton_system {P : Type*} (o : Inner) (len : Nat) (stag : P → EuclideanSpace ℝ ι → EuclideanSpace ℝ ι → Prop)
    (F : EuclideanSpace ℝ ι → EuclideanSpace ℝ ι) (x f : EuclideanSpace ℝ ι) (tol : ℝ) :
    jacobianSolve o len stag F x f tol = .raised ∨ ∃ a, jacobianSolve o len stag F x f tol = .answers a ∧ ∀ q q', (a q).x = (a q').x := by
  unfold jacobianSolve fgmresAll
  dsimp only
  rw [if_neg (show ¬ false = true by simp)]
  split_ifs
  · exact Or.inl rfl
  · exact Or.inr ⟨_, rfl, fun _ _ => rfl⟩
  · rcases together_one (Newton.jacobianProduct F norm (o.rdiff * max 1 (infNorm x) / max 1 (infNorm f)) x f) f (tol * ‖f‖)
      (runCycle (Newton.jacobianProduct F norm (o.rdiff * max 1 (infNorm x) / max 1 (infNorm f)) x f) id (tol * ‖f‖) o.restart o.tri) stag 0 0
      with ⟨a, ha, u, _, _, hx⟩ | ⟨hr, _⟩
    · exact Or.inr ⟨a, ha, fun q q' => by rw [(hx q).1, (hx q').1]⟩
    · exact Or.inl hr

end Solvers

/-! ## FGMRES with stagnation on one process -/

section Witness

/-- the system matrix `diag(1, 1, 1, 2)` -/
noncomputable def wA : EuclideanSpace ℝ (Fin 4) →ₗ[ℝ] EuclideanSpace ℝ (Fin 4) where
  toFun x := !₂[x 0, x 1, x 2, 2 * x 3]
  map_add' x y := by ext i; fin_cases i <;> simp [mul_add]
  map_smul' c x := by ext i; fin_cases i <;> simp [mul_left_comm]

noncomputable def wb : EuclideanSpace ℝ (Fin 4) := !₂[1, 1, 1, 1]
noncomputable def wx : EuclideanSpace ℝ (Fin 4) := !₂[1, 1, 0, 0]
noncomputable def wr : EuclideanSpace ℝ (Fin 4) := !₂[0, 0, 1, 1]

/-- the first two entries belong to process 0, the others to process 1 -/
def wown (i : Fin 4) : Fin 2 := if i.val < 2 then 0 else 1

def wstag (q : Fin 2) (u x : EuclideanSpace ℝ (Fin 4)) : Prop := stagnates (fun i => wown i = q) u x

theorem wb_sub : wb - wA wx = wr := by
  ext i
  fin_cases i <;> simp [wb, wA, wx, wr]

theorem w_after (c : ℝ) : wb - wA (wx + c • wr) = !₂[0, 0, 1 - c, 1 - 2 * c] := by
  ext i
  fin_cases i <;> simp [wb, wA, wx, wr]

theorem wb_norm : ‖wb‖ = 2 := by
  rw [EuclideanSpace.norm_eq]
  rw [show (∑ i : Fin 4, ‖wb i‖ ^ 2) = 2 ^ 2 by rw [Fin.sum_univ_four]; simp [wb]; norm_num, Real.sqrt_sq (by norm_num)]

theorem w_norm (c : ℝ) : ‖wb - wA (wx + c • wr)‖ = Real.sqrt (5 * (c - 3 / 5) ^ 2 + 1 / 5) := by
  rw [w_after, EuclideanSpace.norm_eq, Fin.sum_univ_four]
  congr 1
  simp [sq_abs]
  ring

theorem wr_ne : wr ≠ 0 := by
  intro h
  have := congrArg (fun x : EuclideanSpace ℝ (Fin 4) => x 2) h
  simp [wr] at this

theorem runCycle_one {W : Type*} [NormedAddCommGroup W] [InnerProductSpace ℝ W] (A : W → W) (tolRel : ℝ) (tri : Nat → Small → Option (Nat → ℝ)) (x r : W) :
    runCycle A id tolRel 1 tri x r = (tri 0 (cycle A id tolRel 1 r).2.2).map fun y => ((y 0 * ‖r‖⁻¹) • r, 1) := by
  have h1 : (cycle A id tolRel 1 r).1 = 0 := by
    unfold cycle innerLoop
    simp [innerLoop]
  have h2 : (cycle A id tolRel 1 r).2.1.Z 0 = ‖r‖⁻¹ • r := by
    unfold cycle innerLoop
    simp only [Nat.sub_self, Nat.lt_irrefl, false_and, if_false]
    simp [innerLoop, extend, ortho, startCycle, upd]
  unfold runCycle
  dsimp only
  rw [h1]
  unfold update
  rw [h1]
  simp only [zero_add, Finset.range_one, Finset.sum_singleton, h2, smul_smul]

theorem w_zero (c : ℝ) : wstag 0 (c • wr) (wx + c • wr) := by
  refine ⟨⟨0, by simp [wown], by simp [wx, wr]⟩, fun i hi _ => ?_⟩
  fin_cases i
  · simp [wr]; norm_num
  · simp [wr]; norm_num
  · simp [wown] at hi
  · simp [wown] at hi

theorem w_one (c : ℝ) : ¬ wstag 1 (c • wr) (wx + c • wr) := by
  rintro ⟨⟨i, hi, hx⟩, h⟩
  have := h i hi hx
  fin_cases i
  · simp [wown] at hi
  · simp [wown] at hi
  · simp [wx, wr] at hx this
    rw [div_self hx] at this
    norm_num at this
  · simp [wx, wr] at hx this
    rw [div_self hx] at this
    norm_num at this

/-- **C84** fails for FGMRES: two processes with two entries each, cycles of one vector.  Process 0 finds that its part of the solution does not change and
leaves with flag −1; process 1 goes on and waits.  This holds for every solution of the small problem, every tolerance up to 1/5 and every limit of at
least two passes, and cannot happen on one process (`C84_one_process`). -/
theorem C84_stagnation_fails (tol : ℝ) (ht : tol ≤ 1 / 5) (ht0 : 0 < tol) (maxiter : Nat) (hm : 2 ≤ maxiter) (tri : Nat → Small → Option (Nat → ℝ))
    (hy : (tri 0 (cycle wA id (tol * ‖wb‖) 1 wr).2.2).isSome) :
    fgmresAll wA wb wx tol 1 2 maxiter false (runCycle wA id (tol * ‖wb‖) 1 tri) wstag = .stuck := by
  obtain ⟨y, hy⟩ := Option.isSome_iff_exists.1 hy
  obtain ⟨n, rfl⟩ : ∃ n, maxiter = n + 2 := ⟨maxiter - 2, by omega⟩
  unfold fgmresAll
  rw [if_neg (by norm_num), if_neg (by rw [wb_norm]; norm_num), if_neg (by simp)]
  unfold outerAll
  rw [wb_sub, if_neg (norm_ne_zero_iff.2 wr_ne), runCycle_one, hy]
  dsimp only [Option.map_some]
  set c := y 0 * ‖wr‖⁻¹
  have hn : ¬ ‖wb - wA (wx + c • wr)‖ < tol * ‖wb‖ := by
    rw [not_lt, wb_norm, w_norm]
    apply Real.le_sqrt_of_sq_le
    nlinarith [sq_nonneg (c - 3 / 5)]
  rw [if_neg (not_or.2 ⟨hn, fun h => w_one c (h 1)⟩), if_neg (fun h => h 0 (w_zero c)), if_neg (by omega)]

/-- **C84** fails for the flag: when the same system is solved to the accuracy asked for, process 0 reports −1 and process 1 reports 0, with the same
solution and the same norm of the residual. -/
theorem C84_flags_fails (maxiter : Nat) (hm : 1 ≤ maxiter) (tri : Nat → Small → Option (Nat → ℝ)) (y : Nat → ℝ)
    (hy : tri 0 (cycle wA id (1 / 4 * ‖wb‖) 1 wr).2.2 = some y) (hs : Solves 0 (cycle wA id (1 / 4 * ‖wb‖) 1 wr).2.2 y) :
    ∃ a, fgmresAll wA wb wx (1 / 4) 1 2 maxiter false (runCycle wA id (1 / 4 * ‖wb‖) 1 tri) wstag = .answers a ∧
      (a 0).flag = -1 ∧ (a 1).flag = 0 ∧ (a 0).x = (a 1).x ∧ (a 0).normR < 1 / 4 * ‖wb‖ := by
  obtain ⟨n, rfl⟩ : ∃ n, maxiter = n + 1 := ⟨maxiter - 1, by omega⟩
  have h0 : 0 < 1 / 4 * ‖wb‖ := by rw [wb_norm]; norm_num
  have hc1 : (cycle wA id (1 / 4 * ‖wb‖) 1 wr).1 = 0 := by
    unfold cycle innerLoop
    simp [innerLoop]
  have hmin := Gmres.C33_krylov_minimum wA LinearMap.id wr wr_ne (1 / 4 * ‖wb‖) h0 1 le_rfl _ rfl y (by rw [show (⇑(LinearMap.id : EuclideanSpace ℝ (Fin 4) →ₗ[ℝ] _)) = id from rfl, hc1]; exact hs)
    (fun _ => 3 / 5)
  have hr := runCycle_one wA (1 / 4 * ‖wb‖) tri wx wr
  rw [hy, Option.map_some] at hr
  set c := y 0 * ‖wr‖⁻¹
  have hup : update (cycle wA id (1 / 4 * ‖wb‖) 1 wr) y = c • wr := by
    have : runCycle wA id (1 / 4 * ‖wb‖) 1 tri wx wr = some (update (cycle wA id (1 / 4 * ‖wb‖) 1 wr) y, 1) := by
      unfold runCycle
      dsimp only
      rw [hc1, hy, Option.map_some]
    rw [hr, Option.some_inj, Prod.mk.injEq] at this
    exact this.1.symm
  have hw : ∀ d : ℝ, wr - wA (d • wr) = wb - wA (wx + d • wr) := by
    intro d
    rw [map_add, ← sub_sub, wb_sub]
  have hn : ‖wb - wA (wx + c • wr)‖ < 1 / 4 * ‖wb‖ := by
    rw [show (⇑(LinearMap.id : EuclideanSpace ℝ (Fin 4) →ₗ[ℝ] _)) = id from rfl, hup, hc1] at hmin
    simp only [zero_add, Finset.range_one, Finset.sum_singleton, pow_zero, Module.End.one_apply, id_eq] at hmin
    rw [hw, hw] at hmin
    refine lt_of_le_of_lt hmin ?_
    rw [w_norm, wb_norm, Real.sqrt_lt' (by norm_num)]
    norm_num
  unfold fgmresAll
  rw [if_neg (by norm_num), if_neg (by rw [wb_norm]; norm_num), if_neg (by simp)]
  unfold outerAll
  rw [wb_sub, if_neg (norm_ne_zero_iff.2 wr_ne), hr]
  dsimp only
  rw [if_pos (Or.inl hn)]
  exact ⟨_, rfl, if_pos (w_zero c), if_neg (w_one c), rfl, hn⟩

/-- non-vacuity: the small problem of the witness has a solution -/
example : ∃ y, Solves 0 (cycle wA id (1 / 4 * ‖wb‖) 1 wr).2.2 y := by
  have h0 : 0 < 1 / 4 * ‖wb‖ := by rw [wb_norm]; norm_num
  have hc1 : (cycle wA id (1 / 4 * ‖wb‖) 1 wr).1 = 0 := by
    unfold cycle innerLoop
    simp [innerLoop]
  have hi : Function.Injective wA := by
    intro x y h
    ext i
    have := congrArg (fun x : EuclideanSpace ℝ (Fin 4) => x i) h
    fin_cases i <;> simpa [wA] using this
  have := Gmres.C33_solvable wA LinearMap.id hi Function.injective_id wr wr_ne (1 / 4 * ‖wb‖) h0 1 le_rfl
  rw [show (⇑(LinearMap.id : EuclideanSpace ℝ (Fin 4) →ₗ[ℝ] _)) = id from rfl, hc1] at this
  exact this

/-- non-vacuity of `C84_fgmres_partial`: the same system from the zero vector; no process finds stagnation in the first pass, whatever the small problem gives -/
example (tolRel : ℝ) (tri : Nat → Small → Option (Nat → ℝ)) : Quiet wA wb tolRel (runCycle wA id tolRel 1 tri) wstag 1 0 := by
  intro _ u hu
  refine ⟨fun q => ?_, fun _ => trivial⟩
  rw [runCycle_one, map_zero, sub_zero] at hu
  obtain ⟨y, -, rfl⟩ := Option.map_eq_some_iff.1 hu
  rintro ⟨⟨i, hi, hx⟩, h⟩
  have := h i hi hx
  simp only [zero_add] at hx this
  rw [div_self hx] at this
  norm_num at this

end Witness

/-! ## The shallow-water model -/

section Shallow

variable {g g' : Grid}

/-- same panel, row and column mean the same process and element -/
theorem element_unique (g : Grid) {r r' ej ej' ei ei' : Nat} (hj : ej < g.N) (hj' : ej' < g.N) (hi : ei < g.N) (hi' : ei' < g.N)
    (h1 : panelOf g r = panelOf g r') (h2 : rowOf g r ej = rowOf g r' ej') (h3 : colOf g r ei = colOf g r' ei') : r = r' ∧ ej = ej' ∧ ei = ei' := by
  have split : ∀ {a b i j : Nat}, i < g.N → j < g.N → a * g.N + i = b * g.N + j → a = b ∧ i = j := by
    intro a b i j hi hj h
    have hN : 0 < g.N := Nat.lt_of_le_of_lt (Nat.zero_le _) hi
    have e1 : (a * g.N + i) / g.N = a := by
      rw [Nat.mul_comm, Nat.mul_add_div hN, Nat.div_eq_of_lt hi, Nat.add_zero]
    have e2 : (b * g.N + j) / g.N = b := by
      rw [Nat.mul_comm, Nat.mul_add_div hN, Nat.div_eq_of_lt hj, Nat.add_zero]
    have hab : a = b := by rw [← e1, ← e2, h]
    subst hab
    exact ⟨rfl, by omega⟩
  obtain ⟨a1, a2⟩ := split hj hj' h2
  obtain ⟨b1, b2⟩ := split hi hi' h3
  refine ⟨?_, a2, b2⟩
  have : placeOf g.k r = placeOf g.k r' := by
    have x1 : (placeOf g.k r).panel = (placeOf g.k r').panel := h1
    revert x1 a1 b1
    generalize placeOf g.k r = p
    generalize placeOf g.k r' = p'
    cases p; cases p'
    simp only
    rintro rfl rfl rfl
    rfl
  rw [← enc_placeOf (k := g.k) (rank := r), this, enc_placeOf]

/-- the place, on six processes, of a number held by a tile -/
def place (g : Grid) (i : Points g) : Points (whole g) :=
  have hp := placeOf_valid i.1.2
  (⟨panelOf g i.1, by simpa [whole, panelOf] using hp.1⟩,
   ⟨rowOf g i.1 i.2.1, Decomposition.whole_lt hp.2.1 i.2.1.2⟩,
   ⟨colOf g i.1 i.2.2.1, Decomposition.whole_lt hp.2.2 i.2.2.1.2⟩, i.2.2.2.1, i.2.2.2.2)

theorem place_injective (g : Grid) : Function.Injective (place g) := by
  rintro ⟨r, ej, ei, v, c⟩ ⟨r', ej', ei', v', c'⟩ h
  have h1 : panelOf g r = panelOf g r' := congrArg (fun i : Points (whole g) => (i.1 : Nat)) h
  have h2 : rowOf g r ej = rowOf g r' ej' := congrArg (fun i : Points (whole g) => (i.2.1 : Nat)) h
  have h3 : colOf g r ei = colOf g r' ei' := congrArg (fun i : Points (whole g) => (i.2.2.1 : Nat)) h
  have h4 : v = v' := congrArg (fun i : Points (whole g) => i.2.2.2.1) h
  have h5 : c = c' := congrArg (fun i : Points (whole g) => i.2.2.2.2) h
  obtain ⟨a, b, d⟩ := element_unique g ej.2 ej'.2 ei.2 ei'.2 h1 h2 h3
  rw [Fin.ext a, Fin.ext b, Fin.ext d, h4, h5]

theorem card_points (g : Grid) : Fintype.card (Points g) = 6 * (g.k * g.k) * (g.N * (g.N * (3 * (g.n * g.n)))) := by
  simp only [Points, Fintype.card_prod, Fintype.card_fin]

noncomputable def placeEquiv (g : Grid) : Points g ≃ Points (whole g) :=
  Equiv.ofBijective (place g) ((Fintype.bijective_iff_injective_and_card _).2 ⟨place_injective g, by
    rw [card_points, card_points]
    simp only [whole]
    ring⟩)

theorem samePoint_place (g : Grid) (i : Points g) : SamePoint g (whole g) i (placeEquiv g i) := by
  change SamePoint g (whole g) i (place g i)
  refine ⟨⟨?_, ?_, ?_⟩, rfl, rfl⟩ <;>
    simp [place, panelOf, rowOf, colOf, placeOf, whole, Nat.mod_one]

theorem samePoint_unique {i : Points g} {a b : Points g'} (h1 : SamePoint g g' i a) (h2 : SamePoint g g' i b) : a = b := by
  obtain ⟨r, ej, ei, v, c⟩ := a
  obtain ⟨r', ej', ei', v', c'⟩ := b
  obtain ⟨⟨a1, a2, a3⟩, a4, a5⟩ := h1
  obtain ⟨⟨b1, b2, b3⟩, b4, b5⟩ := h2
  simp only at a1 a2 a3 a4 a5 b1 b2 b3 b4 b5
  obtain ⟨x, y, z⟩ := element_unique g' ej.2 ej'.2 ei.2 ei'.2 (a1.symm.trans b1) (a2.symm.trans b2) (a3.symm.trans b3)
  rw [Fin.ext x, Fin.ext y, Fin.ext z, Fin.ext (a4.symm.trans b4), Fin.ext (a5.symm.trans b5)]

theorem exists_place (g' : Grid) (G : Grid) (h : whole g' = G) : ∃ e : Points g' ≃ Points G, ∀ i, SamePoint g' G i (e i) := by
  subst h
  exact ⟨placeEquiv g', samePoint_place g'⟩

/-- the numbers of two decompositions of one sphere correspond -/
theorem exists_points (hs : SameSphere g g') : ∃ e : Points g ≃ Points g', ∀ i, SamePoint g g' i (e i) := by
  obtain ⟨e1, h1⟩ := exists_place g (whole g) rfl
  obtain ⟨e2, h2⟩ := exists_place g' (whole g) (whole_same hs).symm
  refine ⟨e1.trans e2.symm, fun i => ?_⟩
  have a := h1 i
  have b := h2 (e2.symm (e1 i))
  rw [e2.apply_symm_apply] at b
  exact ⟨⟨a.1.1.trans b.1.1.symm, a.1.2.1.trans b.1.2.1.symm, a.1.2.2.trans b.1.2.2.symm⟩, a.2.1.trans b.2.1.symm, a.2.2.trans b.2.2.symm⟩

theorem sameState_iff {e : Points g ≃ Points g'} (he : ∀ i, SamePoint g g' i (e i)) (q : State g) (q' : State g') : SameState g g' q q' ↔ q' = reorder e q := by
  constructor
  · intro h
    ext i
    rw [reorder_symm]
    have := he (e.symm i)
    rw [e.apply_symm_apply] at this
    exact (h _ _ this).symm
  · rintro rfl i i' h
    rw [samePoint_unique h (he i), reorder_apply]

theorem holds_toField (G : Grid) (hG : whole g = G) (q : State g) (W : State G) (h : SameState g G q W) : Holds g (toField g q) (toField G W) := by
  subst hG
  intro r hr ej hj ei hi v hv c hc
  unfold toField
  have hp := placeOf_valid hr
  have hr1 : panelOf g r < 6 * ((whole g).k * (whole g).k) := by simpa [whole, panelOf] using hp.1
  have hj1 : rowOf g r ej < (whole g).N := Decomposition.whole_lt hp.2.1 hj
  have hi1 : colOf g r ei < (whole g).N := Decomposition.whole_lt hp.2.2 hi
  have hv1 : v < 3 := by omega
  have hc1 : c < (whole g).n * (whole g).n := hc
  rw [dif_pos ⟨hr, hj, hi, hv1, hc⟩, dif_pos ⟨hr1, hj1, hi1, hv1, hc1⟩]
  exact h _ _ (samePoint_place g (⟨r, hr⟩, ⟨ej, hj⟩, ⟨ei, hi⟩, ⟨v, hv1⟩, ⟨c, hc⟩))

/-- the right-hand sides correspond -/
theorem tendency_map (hs : SameSphere g g') {e : Points g ≃ Points g'} (he : ∀ i, SamePoint g g' i (e i)) {t t' T : Topography} (ht : HoldsTopo g t T)
    (ht' : HoldsTopo g' t' T) (q : State g) : tendency g' t' (reorder e q) = reorder e (tendency g t q) := by
  obtain ⟨e2, h2⟩ := exists_place g' (whole g) (whole_same hs).symm
  have hW : SameState g' (whole g) (reorder e q) (reorder e2 (reorder e q)) := by
    intro i i' h
    have : i' = e2 i := by
      have := h2 i
      exact samePoint_unique h this
    rw [this, reorder_apply]
  have hW1 : SameState g (whole g) q (reorder e2 (reorder e q)) := by
    intro i i' h
    rw [← reorder_apply e q i]
    have a := he i
    exact hW _ _ ⟨⟨a.1.1.symm.trans h.1.1, a.1.2.1.symm.trans h.1.2.1, a.1.2.2.symm.trans h.1.2.2⟩, a.2.1.symm.trans h.2.1, a.2.2.symm.trans h.2.2⟩
  have r1 := C83_shallow_water g ht (holds_toField _ rfl _ _ hW1)
  have r2 := C83_shallow_water g' ht' (holds_toField _ (whole_same hs).symm _ _ hW)
  rw [← whole_same hs] at r2
  refine (sameState_iff he (tendency g t q) _).1 ?_
  rintro ⟨r, ej, ei, v, c⟩ ⟨r', ej', ei', v', c'⟩ ⟨h, hv, hc⟩
  simp only at h hv hc
  change ShallowWater.rhs g t (toField g q) r ej ei v c = ShallowWater.rhs g' t' (toField g' (reorder e q)) r' ej' ei' v' c'
  rw [← hv, ← hc]
  exact agree hs r1 r2 r.2 ej.2 ei.2 r'.2 ej'.2 ei'.2 (by have := v.2; omega) c.2 h

/-- two runs that have both stopped with an exception, or have reached states `a` and `a'` with `R a a'` -/
def Both {α α' : Type*} (R : α → α' → Prop) : Option α → Option α' → Prop
  | some a, some a' => R a a'
  | none, none => True
  | _, _ => False

/-- **C84**, exponential integrators: a run of any EPI method of the shallow-water model with `kiops` or `pmex`, from the same state on two numbers of processes:
after every step the same state, and the same sizes of the Krylov space, matrices and norms seen by the step control of all the calls. -/
theorem C84_epi (hs : SameSphere g g') {t t' T : Topography} (ht : HoldsTopo g t T) (ht' : HoldsTopo g' t' T) (cfg : Epi.Cfg ℝ) (o : Expo)
    (control : List (List Seen) → List Seen → Option Move) (start : List Seen → Option Move) (dts : Nat → ℝ) (q : State g) (q' : State g')
    (same : SameState g g' q q') (n : Nat) :
    Both (fun s s' => SameState g g' s.1.2 s'.1.2 ∧ s.2 = s'.2)
      (epiRun cfg o control start (tendency g t) dts q n) (epiRun cfg o control start (tendency g' t') dts q' n) := by
  obtain ⟨e, he⟩ := exists_points hs
  rw [(sameState_iff he q q').1 same, epiRun_map (tendency_map hs he ht ht')]
  cases epiRun cfg o control start (tendency g t) dts q n with
  | none => trivial
  | some s => exact ⟨(sameState_iff he _ _).2 rfl, rfl⟩

/-- **C84**, exponential Runge–Kutta integrators: a run of any SRERK method of the shallow-water model with `kiops` or `pmex`, from the same state on two
numbers of processes: after every step the same state and the same things seen by the control of all the calls. -/
theorem C84_srerk (hs : SameSphere g g') {t t' T : Topography} (ht : HoldsTopo g t T) (ht' : HoldsTopo g' t' T) (c : List (List ℝ)) (o : Expo)
    (control : List ℝ → List (List Seen) → List Seen → Option Move) (dts : Nat → ℝ) (q : State g) (q' : State g') (same : SameState g g' q q') (n : Nat) :
    Both (fun s s' => SameState g g' s.1 s'.1 ∧ s.2 = s'.2)
      (srerkRun c o control (tendency g t) dts q n) (srerkRun c o control (tendency g' t') dts q' n) := by
  obtain ⟨e, he⟩ := exists_points hs
  rw [(sameState_iff he q q').1 same, srerkRun_map (tendency_map hs he ht ht')]
  cases srerkRun c o control (tendency g t) dts q n with
  | none => trivial
  | some s => exact ⟨(sameState_iff he _ _).2 rfl, rfl⟩

/-- **C84**, the exponential Runge–Kutta step of these runs is the step of the scheme of C56 and C101 with the rows of the solver -/
theorem C84_srerk_step {ι : Type*} [Fintype ι] (c : List (List ℝ)) (o : Expo) (control : List ℝ → List Seen → Option Move)
    (rhs : EuclideanSpace ℝ ι → EuclideanSpace ℝ ι) (log : List (List Seen)) (Q : EuclideanSpace ℝ ι) (dt : ℝ) :
    (srerkStep c o (fun nodes _ => control nodes) rhs log Q dt).map Prod.fst =
      Srerk.step c ⟨rhs, fun Q v => product o rhs Q 1 v, fun nodes Q dt vec => (phiCall o (control nodes) rhs Q dt vec).1⟩ Q dt := by
  have hp : ∀ (rest : List (List ℝ)) (prev : List ℝ) (s : List (EuclideanSpace ℝ ι) × List (List Seen)),
      (srerkProjections o (fun nodes _ => control nodes) rhs Q dt prev rest s).1 =
        Srerk.projections ⟨rhs, fun Q v => product o rhs Q 1 v, fun nodes Q dt vec => (phiCall o (control nodes) rhs Q dt vec).1⟩ Q dt (rhs Q) prev rest s.1 := by
    intro rest
    induction rest with
    | nil => intros; rfl
    | cons nodes rest ih => intro prev s; exact ih _ _
  cases c with
  | nil => rfl
  | cons c0 rest =>
    unfold srerkStep Srerk.step
    dsimp only
    rw [← hp rest c0 ((phiCall o (control c0) rhs Q dt [0, rhs Q]).1, log ++ [(phiCall o (control c0) rhs Q dt [0, rhs Q]).2])]
    generalize srerkProjections o _ rhs Q dt c0 rest _ = r
    obtain ⟨rows, log'⟩ := r
    match rows with
    | [] => rfl
    | [v] => rfl
    | _ :: _ :: _ => rfl

/-- **C84**, implicit integrators: any number of steps of the backward Euler, Crank–Nicolson and singly diagonally implicit schemes and of the two-step
backward differentiation formula, with the Newton-Krylov solver, from the same state on two numbers of processes whose parts are longer than a cycle of the
linear solver: the same state on every process of both. -/
theorem C84_implicit (hs : SameSphere g g') {t t' T : Topography} (ht : HoldsTopo g t T) (ht' : HoldsTopo g' t' T) {P P' : Type*} (p : P) (p' : P') (o : Inner)
    (len len' : Nat) (hl : o.restart < len) (hl' : o.restart < len') (stag : P → State g → State g → Prop) (stag' : P' → State g' → State g' → Prop)
    (search : Option (ℝ → Newton.Search ℝ)) (tol : Newton.Tols ℝ) (maxiter : Nat) (dt gamma : ℝ) (substeps m : Nat) (q : State g) (q' : State g')
    (same : SameState g g' q q') :
    let N := newton o len stag p search tol maxiter
    let N' := newton o len' stag' p' search tol maxiter
    let f := tendency g t
    let f' := tendency g' t'
    SameState g g' ((fun q => Schemes.backwardEuler N f q dt)^[m] q) ((fun q => Schemes.backwardEuler N' f' q dt)^[m] q') ∧
    SameState g g' ((fun q => Schemes.crankNicolson N f q dt)^[m] q) ((fun q => Schemes.crankNicolson N' f' q dt)^[m] q') ∧
    SameState g g' ((fun q => Schemes.sdirk N gamma f q dt)^[m] q) ((fun q => Schemes.sdirk N' gamma f' q dt)^[m] q') ∧
    SameState g g' ((fun s : Option (State g) × State g => Schemes.bdf2 N f substeps s.1 s.2 dt)^[m] (none, q)).2
      ((fun s : Option (State g') × State g' => Schemes.bdf2 N' f' substeps s.1 s.2 dt)^[m] (none, q')).2 := by
  intro N N' f f'
  obtain ⟨e, he⟩ := exists_points hs
  have hr : ∀ w, f' (reorder e w) = reorder e (f w) := tendency_map hs he ht ht'
  have hn : RelatedNewton (reorder e).toLinearMap N N' := newton_map p p' o len len' hl hl' stag stag' search tol maxiter
  have it : ∀ (S : State g → State g) (S' : State g' → State g'), (∀ q, S' (reorder e q) = reorder e (S q)) → SameState g g' (S^[m] q) (S'^[m] q') := by
    intro S S' h
    rw [(sameState_iff he q q').1 same, sameState_iff he]
    exact ((Function.Semiconj.iterate_right (f := reorder e) (fun q => (h q).symm) m) q).symm
  refine ⟨it _ _ fun q => ?_, it _ _ fun q => ?_, it _ _ fun q => ?_, ?_⟩
  · exact backwardEuler_map (L := (reorder e).toLinearMap) hr hn q dt
  · exact crankNicolson_map (L := (reorder e).toLinearMap) hr hn q dt
  · exact sdirk_map (L := (reorder e).toLinearMap) hr hn gamma q dt
  · rw [(sameState_iff he q q').1 same, sameState_iff he]
    have := (Function.Semiconj.iterate_right (f := fun s : Option (State g) × State g => (s.1.map (reorder e), reorder e s.2))
      (ga := fun s : Option (State g) × State g => Schemes.bdf2 N f substeps s.1 s.2 dt)
      (gb := fun s : Option (State g') × State g' => Schemes.bdf2 N' f' substeps s.1 s.2 dt)
      (fun s => (bdf2_map (L := (reorder e).toLinearMap) hr hn substeps s.1 s.2 dt).symm) m) (none, q)
    exact (congrArg Prod.snd this).symm

/-- the initial state of a test case is the same on any number of processes -/
theorem C84_initial (hs : SameSphere g g') (case : Nat) : SameState g g' (ofField g (initial g case)) (ofField g' (initial g' case)) := by
  rintro ⟨r, ej, ei, v, c⟩ ⟨r', ej', ei', v', c'⟩ ⟨h, hv, hc⟩
  simp only at h hv hc
  change initial g case r ej ei v c = initial g' case r' ej' ei' v' c'
  rw [← hv, ← hc]
  have h2 := C83_initial g' case
  rw [← whole_same hs] at h2
  exact agree hs (C83_initial g case) h2 r.2 ej.2 ei.2 r'.2 ej'.2 ei'.2 (by have := v.2; omega) c.2 h

/-- non-vacuity: EPI of order 4 from the flow over the mountain, on six processes with 4 × 4 elements and on twenty-four with 2 × 2 -/
example (pts : Nat → ℝ) (or : Nat → Sphere.Orientation) (cfg : Epi.Cfg ℝ) (_ : Epi.epi 4 1 = some cfg) (o : Expo)
    (control : List (List Seen) → List Seen → Option Move) (start : List Seen → Option Move) (n : Nat) :
    let g : Grid := ⟨1, 4, 3, pts, 6371220, 7.292e-5, or⟩
    let g' : Grid := ⟨2, 2, 3, pts, 6371220, 7.292e-5, or⟩
    Both (fun s s' => SameState g g' s.1.2 s'.1.2 ∧ s.2 = s'.2)
      (epiRun cfg o control start (tendency g (InitShallow.topography5 g)) (fun _ => 900) (ofField g (initial g 5)) n)
      (epiRun cfg o control start (tendency g' (InitShallow.topography5 g')) (fun _ => 900) (ofField g' (initial g' 5)) n) := by
  intro g g'
  have hs : SameSphere g g' := ⟨rfl, rfl, rfl, rfl, rfl, rfl⟩
  have ht' := C83_topography g' (Nat.succ_pos 2)
  rw [← whole_same hs] at ht'
  exact C84_epi hs (C83_topography g (Nat.succ_pos 2)) ht' cfg o control start _ _ _ (C84_initial hs 5) n

/-- non-vacuity: the exponential Runge–Kutta method with two projections from the flow over the mountain, on six and on twenty-four processes, with the
complex step -/
example (pts : Nat → ℝ) (or : Nat → Sphere.Orientation) (control : List ℝ → List (List Seen) → List Seen → Option Move) (n : Nat) :
    let g : Grid := ⟨1, 4, 3, pts, 6371220, 7.292e-5, or⟩
    let g' : Grid := ⟨2, 2, 3, pts, 6371220, 7.292e-5, or⟩
    Both (fun s s' => SameState g g' s.1 s'.1 ∧ s.2 = s'.2)
      (srerkRun [[3 / 4], [1]] ⟨false, 2, 1e-7, 1000, none⟩ control (tendency g (InitShallow.topography5 g)) (fun _ => 900) (ofField g (initial g 5)) n)
      (srerkRun [[3 / 4], [1]] ⟨false, 2, 1e-7, 1000, none⟩ control (tendency g' (InitShallow.topography5 g')) (fun _ => 900) (ofField g' (initial g' 5)) n) := by
  intro g g'
  have hs : SameSphere g g' := ⟨rfl, rfl, rfl, rfl, rfl, rfl⟩
  have ht' := C83_topography g' (Nat.succ_pos 2)
  rw [← whole_same hs] at ht'
  exact C84_srerk hs (C83_topography g (Nat.succ_pos 2)) ht' _ _ control _ _ _ (C84_initial hs 5) n

/-- the parts of the two decompositions of the example are longer than a cycle of the linear solver of the implicit schemes (30): 4 · 4 · 3 · 9 and
2 · 2 · 3 · 9 numbers -/
example : 30 < 4 * 4 * 3 * 9 ∧ 30 < 2 * 2 * 3 * 9 := by decide

end Shallow

end WxVerif.Props.ProcessCount
