import Verif.Props.InvariantCalls3D
import Verif.Model.Ros2Call

/-!
# C64 and C65: runs of the implicit integrators together with the Newton-Krylov solver
-/

namespace WxVerif.Props.InvariantNewton

open WxVerif.Gmres WxVerif.Calls WxVerif.Schemes WxVerif.Spec.Invariants WxVerif.Props.Invariants

section subspace
variable {W : Type*} [NormedAddCommGroup W] [InnerProductSpace ℝ W] (U : Submodule ℝ W)

/-- the outer loop on all processes only adds vectors of the subspace -/
theorem outerAll_keeps {P : Type*} (A : W → W) (b x0 : W) (tolRel : ℝ) (cyc : W → W → Option (W × Nat)) (stag : P → W → W → Prop)
    (hcyc : ∀ x r u, r ∈ U → cyc x r = some u → u.1 ∈ U) (hr : ∀ x, x - x0 ∈ U → b - A x ∈ U) (n : Nat) :
    ∀ (niter : Nat) (x : W) (a : P → Answer W), x - x0 ∈ U → outerAll A b tolRel cyc stag n niter x = .answers a → ∀ q, (a q).x - x0 ∈ U := by
  induction n with
  | zero =>
    intro niter x a hx he q
    simp only [outerAll, Together.answers.injEq] at he
    subst he; exact hx
  | succ n ih =>
    intro niter x a hx he q
    rw [outerAll] at he
    split at he
    · cases he
    · split at he
      · cases he
      · rename_i u hu
        have hx' : x + u.1 - x0 ∈ U := by
          rw [add_sub_right_comm]
          exact U.add_mem hx (hcyc _ _ _ (hr x hx) hu)
        dsimp only at he
        split at he
        · cases he; exact hx'
        · split at he
          · exact ih _ _ _ hx' he q
          · split at he
            · cases he; exact hx'
            · cases he

/-- **C64** FGMRES on all processes: if the operator and the preconditioner map a subspace into itself and the residuals of all vectors that differ from the
first guess by an element of it are in it, then the answer of every process differs from the first guess by an element of the subspace. -/
theorem C64_fgmres_all {P : Type*} (A D : W → W) (hA : ∀ v ∈ U, A v ∈ U) (hD : ∀ v ∈ U, D v ∈ U) (b x0 : W) (hr : ∀ x, x - x0 ∈ U → b - A x ∈ U)
    (tol : ℝ) (restart len maxiter : Nat) (tri : Nat → Small → Option (Nat → ℝ)) (stag : P → W → W → Prop) (hb : b ≠ 0) (a : P → Answer W)
    (h : fgmresAll A b x0 tol restart len maxiter false (runCycle A D (tol * ‖b‖) restart tri) stag = .answers a) (q : P) :
    (a q).x - x0 ∈ U := by
  unfold fgmresAll at h
  split at h
  · cases h
  · rw [if_neg (by simpa using hb)] at h
    refine outerAll_keeps U A b x0 _ _ stag ?_ hr maxiter 0 x0 a (by simp) (by simpa using h) q
    intro x r u hr' hu
    simp only [runCycle, Option.map_eq_some_iff] at hu
    obtain ⟨y, _, rfl⟩ := hu
    exact cycle_keeps U A D hA hD _ _ r hr' y

end subspace

section solver
variable {ι : Type} [Fintype ι] {E : Type*} [AddCommGroup E] [Module ℝ E] (M : EuclideanSpace ℝ ι →ₗ[ℝ] E)

/-- **C64** The Newton-Krylov solver as the implicit integrators call it, with its finite-difference Jacobian, its restarted linear solver on all processes,
its line search and its forcing term: if the residual has no content of `M` at the states with the content of the first guess, the answer has the content of
the first guess — converged or not. -/
theorem C64_newton_krylov {P : Type*} (o : Inner) (len : Nat) (stag : P → EuclideanSpace ℝ ι → EuclideanSpace ℝ ι → Prop) (q : P)
    (search : Option (ℝ → Newton.Search ℝ)) (tol : Newton.Tols ℝ) (maxiter : Nat) :
    SolverKeeps M (newton o len stag q search tol maxiter) := by
  intro F x0 hF
  unfold newton
  cases h : Newton.newtonKrylov ⟨F, norm, infNorm, fun x f tol => solutionOf q (jacobianSolve o len stag F x f tol), search, tol⟩ x0 maxiter with
  | none => rfl
  | some a =>
    refine C64_newton _ x0 hF ?_ maxiter a h
    intro x b t hx hb
    show M (solutionOf q (jacobianSolve o len stag F x b t)) = 0
    by_cases hb0 : b = 0
    · subst hb0
      unfold jacobianSolve fgmresAll solutionOf
      dsimp only
      split
      · rename_i h; split at h
        · cases h
        · simp at h; subst h; simp
      · simp
    · cases hs : jacobianSolve o len stag F x b t with
      | raised => simp [solutionOf]
      | stuck => simp [solutionOf]
      | answers a =>
        have hA : ∀ v ∈ LinearMap.ker M, Newton.jacobianProduct F norm (o.rdiff * max 1 (infNorm x) / max 1 (infNorm b)) x b v ∈ LinearMap.ker M := by
          intro v hv
          rw [LinearMap.mem_ker] at hv ⊢
          unfold Newton.jacobianProduct
          split
          · simp [hv]
          · rw [map_smul, map_sub, hb, hF _ (by rw [map_add, map_smul, hv, smul_zero, add_zero, hx])]
            simp
        have := C64_fgmres_all (LinearMap.ker M) _ id hA (fun _ h => h) b 0
          (fun x hx => (LinearMap.ker M).sub_mem (by rw [LinearMap.mem_ker]; exact hb) (hA x (by simpa using hx))) t o.restart len 1 o.tri stag hb0 a hs q
        simpa [solutionOf] using this

/-- the state after `n` steps of lengths `dts 0`, `dts 1`, … -/
noncomputable def after {V : Type*} (step : V → ℝ → V) (dts : Nat → ℝ) (Q0 : V) : Nat → V
  | 0 => Q0
  | n + 1 => step (after step dts Q0 n) (dts n)

variable {M} in
theorem after_keeps {step : EuclideanSpace ℝ ι → ℝ → EuclideanSpace ℝ ι} (h : ∀ dt, Keeps M fun Q => step Q dt) (dts : Nat → ℝ)
    (Q0 : EuclideanSpace ℝ ι) (n : Nat) : M (after step dts Q0 n) = M Q0 := by
  induction n with
  | zero => rfl
  | succ n ih => exact (h (dts n) _).trans ih

/-- **C64** Whole runs of the implicit integrators with this solver: steps of any lengths, any number of them.  After every step each conserved linear
quantity has its first value, on every process. -/
theorem C64_implicit_run {P : Type*} (o : Inner) (len : Nat) (stag : P → EuclideanSpace ℝ ι → EuclideanSpace ℝ ι → Prop) (q : P)
    (search : Option (ℝ → Newton.Search ℝ)) (tol : Newton.Tols ℝ) (maxiter : Nat) {rhs : EuclideanSpace ℝ ι → EuclideanSpace ℝ ι}
    (h : ∀ Q, M (rhs Q) = 0) (gamma : ℝ) (substeps : Nat) (dts : Nat → ℝ) (Q0 : EuclideanSpace ℝ ι) (n : Nat) :
    let N := newton o len stag q search tol maxiter
    M (after (fun Q dt => backwardEuler N rhs Q dt) dts Q0 n) = M Q0 ∧
    M (after (fun Q dt => crankNicolson N rhs Q dt) dts Q0 n) = M Q0 ∧
    M (after (fun Q dt => sdirk N gamma rhs Q dt) dts Q0 n) = M Q0 ∧
    M (bdf2Run N rhs substeps dts Q0 n).2 = M Q0 := by
  intro N
  have hN : SolverKeeps M N := C64_newton_krylov M o len stag q search tol maxiter
  exact ⟨after_keeps (fun dt => (C64_implicit hN h gamma dt).1) dts Q0 n, after_keeps (fun dt => (C64_implicit hN h gamma dt).2.1) dts Q0 n,
    after_keeps (fun dt => (C64_implicit hN h gamma dt).2.2) dts Q0 n, C64_bdf2_run hN h substeps dts Q0 n⟩

/-- **C64** A step of Ros2 with its linear solver keeps every conserved linear quantity, converged or not, also when the right-hand side of its system is zero
and the solver answers with the zero vector instead of the first guess. -/
theorem C64_ros2_step {P : Type*} (eps tol : ℝ) (restart len maxiter : Nat) (tri : Nat → Small → Option (Nat → ℝ))
    {D : EuclideanSpace ℝ ι → EuclideanSpace ℝ ι} (hD : ∀ v, M v = 0 → M (D v) = 0)
    (stag : P → EuclideanSpace ℝ ι → EuclideanSpace ℝ ι → Prop) (q : P) {rhs : EuclideanSpace ℝ ι → EuclideanSpace ℝ ι} (h : ∀ Q, M (rhs Q) = 0)
    (Q : EuclideanSpace ℝ ι) (dt : ℝ) (Q' : EuclideanSpace ℝ ι)
    (hs : ros2Step eps tol restart len maxiter tri D stag q rhs Q dt = some Q') : M Q' = M Q := by
  have hA : ∀ v, M (matvecRat eps rhs Q dt v) = M v := fun v => (matvec_keeps h eps dt Q v).2
  have hb : M (matvecRat eps rhs Q dt Q + dt • rhs Q) = M Q := by rw [map_add, hA, map_smul, h, smul_zero, add_zero]
  unfold ros2Step at hs
  dsimp only at hs
  split at hs
  · rename_i a ha
    cases hs
    by_cases hb0 : matvecRat eps rhs Q dt Q + dt • rhs Q = 0
    · rw [hb0] at ha hb
      unfold fgmresAll at ha
      split at ha
      · cases ha
      · simp at ha; subst ha; simpa using hb
    · have := C64_fgmres_all (LinearMap.ker M) (matvecRat eps rhs Q dt) D (fun v hv => by rw [LinearMap.mem_ker] at hv ⊢; rw [hA, hv])
        (fun v hv => by rw [LinearMap.mem_ker] at hv ⊢; exact hD v hv) _ Q
        (fun x hx => by
          rw [LinearMap.mem_ker] at hx ⊢
          rw [map_sub, hb, hA, ← neg_sub, ← map_sub, hx, neg_zero]) tol restart len maxiter tri stag hb0 a ha q
      rw [LinearMap.mem_ker, map_sub, sub_eq_zero] at this
      exact this
  · cases hs

/-- with one cycle and no stagnation the solver answers whenever the state is not stationary -/
theorem ros2Step_some {P : Type*} (eps tol : ℝ) {restart len : Nat} (hl : restart < len) (y : Nat → ℝ) (D : EuclideanSpace ℝ ι → EuclideanSpace ℝ ι) (q : P)
    (rhs : EuclideanSpace ℝ ι → EuclideanSpace ℝ ι) (Q : EuclideanSpace ℝ ι) (dt : ℝ) (hr : dt • rhs Q ≠ 0) :
    ∃ Q', ros2Step eps tol restart len 1 (fun _ _ => some y) D (fun _ _ _ => False) q rhs Q dt = some Q' := by
  unfold ros2Step fgmresAll
  dsimp only
  rw [if_neg (by omega)]
  split
  · exact ⟨_, rfl⟩
  · rename_i h
    exfalso
    split at h
    · exact h _ rfl
    · haveI : Nonempty P := ⟨q⟩
      rw [if_neg (by simp), outerAll, if_neg (by rw [norm_eq_zero, add_sub_cancel_left]; exact hr)] at h
      simp only [runCycle, Option.map_some, outerAll] at h
      split at h
      · exact h _ rfl
      · rw [if_pos (by intro q; exact not_false)] at h
        exact h _ rfl

/-- non-vacuity: two cells that exchange their contents, on two processes; the sum is kept and not zero, the state is not stationary -/
example : ∃ (M : EuclideanSpace ℝ (Fin 2) →ₗ[ℝ] ℝ) (rhs : EuclideanSpace ℝ (Fin 2) → EuclideanSpace ℝ (Fin 2)) (Q Q' : EuclideanSpace ℝ (Fin 2)),
    (∀ Q, M (rhs Q) = 0) ∧ M Q = 1 ∧ rhs Q ≠ 0 ∧
      ros2Step 1e-8 1e-7 20 21 1 (fun _ _ => some fun _ => 1) id (fun (_ : Fin 2) _ _ => False) 1 rhs Q 300 = some Q' ∧ M Q' = 1 := by
  let M : EuclideanSpace ℝ (Fin 2) →ₗ[ℝ] ℝ :=
    (LinearMap.proj (R := ℝ) (φ := fun _ : Fin 2 => ℝ) 0 + LinearMap.proj (R := ℝ) (φ := fun _ : Fin 2 => ℝ) 1).comp (WithLp.linearEquiv 2 ℝ (Fin 2 → ℝ)).toLinearMap
  let rhs : EuclideanSpace ℝ (Fin 2) → EuclideanSpace ℝ (Fin 2) := fun Q => WithLp.toLp 2 ![Q 1 - Q 0 ^ 2, Q 0 ^ 2 - Q 1]
  let Q : EuclideanSpace ℝ (Fin 2) := WithLp.toLp 2 ![1, 0]
  have hM : ∀ Q, M (rhs Q) = 0 := fun Q => by simp [M, rhs]
  have hQ : M Q = 1 := by simp [M, Q]
  have h0 : rhs Q ≠ 0 := fun h => by
    have := congrArg (fun v : EuclideanSpace ℝ (Fin 2) => v 0) h
    simp [rhs, Q] at this
  obtain ⟨Q', h⟩ := ros2Step_some 1e-8 1e-7 (show 20 < 21 by norm_num) (fun _ => 1) id (1 : Fin 2) rhs Q 300 (smul_ne_zero (by norm_num) h0)
  exact ⟨M, rhs, Q, Q', hM, hQ, h0, h, (C64_ros2_step M _ _ _ _ _ _ (fun _ h => h) _ _ hM Q 300 Q' h).trans hQ⟩

/-- **C64** Whole runs of Ros2 with its linear solver. -/
theorem C64_ros2_run {P : Type*} (eps tol : ℝ) (restart len maxiter : Nat) (tri : Nat → Small → Option (Nat → ℝ))
    {D : EuclideanSpace ℝ ι → EuclideanSpace ℝ ι} (hD : ∀ v, M v = 0 → M (D v) = 0)
    (stag : P → EuclideanSpace ℝ ι → EuclideanSpace ℝ ι → Prop) (q : P) {rhs : EuclideanSpace ℝ ι → EuclideanSpace ℝ ι} (h : ∀ Q, M (rhs Q) = 0)
    (dts : Nat → ℝ) (Q0 : EuclideanSpace ℝ ι) (n : Nat) (Q : EuclideanSpace ℝ ι)
    (hs : after (fun s dt => s.bind fun Q => ros2Step eps tol restart len maxiter tri D stag q rhs Q dt) dts (some Q0) n = some Q) : M Q = M Q0 := by
  induction n generalizing Q with
  | zero => cases hs; rfl
  | succ n ih =>
    rw [after, Option.bind_eq_some_iff] at hs
    obtain ⟨Q1, h1, h2⟩ := hs
    rw [C64_ros2_step M eps tol restart len maxiter tri hD stag q h Q1 (dts n) Q h2, ih Q1 h1]

end solver

section atmosphere
open WxVerif.EulerSphere WxVerif.Quad WxVerif.Spec.ProcessCount WxVerif.Props.Conservation WxVerif.Props.InvariantCalls3D

variable {g : Atm} {f : Floor} {F : ForcingData}

/-- **C65** Whole runs of the 3D model with an implicit integrator and the Newton-Krylov solver: steps of any lengths, any tolerances, line search and numbers
of iterations, converged or not, any number of processes.  The total mass and the total of density times potential temperature stay those of the first state. -/
theorem C65_implicit_run (hk : 0 < g.k) (hN : 0 < g.N) (hn : 1 ≤ g.n) (hz : 0 < g.nz) {xs ws : List ℝ} (h : IsGaussRule g.n xs ws)
    (hp : g.pts = arr xs) (hR : g.radius ≠ 0) (ht : OneFloor g f) (hs : SensibleFloor g f) {P : Type*} (o : Inner) (len : Nat)
    (stag : P → State3 g → State3 g → Prop) (p : P) (search : Option (ℝ → Newton.Search ℝ)) (tol : Newton.Tols ℝ) (maxiter : Nat) (gamma : ℝ) (substeps : Nat)
    (dts : Nat → ℝ) (Q0 : State3 g) (n : Nat) (v : Nat) (hv : v = 0 ∨ v = 4) :
    let N := newton o len stag p search tol maxiter
    let R := tendency3 g f F
    let tot := fun Q : State3 g => total g f (arr ws) (fun r ek ej ei c => toField3 g Q r ek ej ei v c)
    tot (after (fun Q dt => backwardEuler N R Q dt) dts Q0 n) = tot Q0 ∧
    tot (after (fun Q dt => crankNicolson N R Q dt) dts Q0 n) = tot Q0 ∧
    tot (after (fun Q dt => sdirk N gamma R Q dt) dts Q0 n) = tot Q0 ∧
    tot (bdf2Run N R substeps dts Q0 n).2 = tot Q0 :=
  C64_implicit_run (totalState g f (arr ws) v).toLinearMap o len stag p search tol maxiter
    (fun q => totalState_tendency hk hN hn hz h hp hR ht hs hv q) gamma substeps dts Q0 n

/-- **C65** The same for Ros2 with FGMRES, without preconditioner. -/
theorem C65_ros2_run (hk : 0 < g.k) (hN : 0 < g.N) (hn : 1 ≤ g.n) (hz : 0 < g.nz) {xs ws : List ℝ} (h : IsGaussRule g.n xs ws)
    (hp : g.pts = arr xs) (hR : g.radius ≠ 0) (ht : OneFloor g f) (hs : SensibleFloor g f) {P : Type*} (eps tol : ℝ) (restart len maxiter : Nat)
    (tri : Nat → Small → Option (Nat → ℝ)) (stag : P → State3 g → State3 g → Prop) (p : P) (dts : Nat → ℝ) (Q0 : State3 g) (n : Nat) (Q : State3 g)
    (hrun : after (fun s dt => s.bind fun Q => ros2Step eps tol restart len maxiter tri id stag p (tendency3 g f F) Q dt) dts (some Q0) n = some Q)
    (v : Nat) (hv : v = 0 ∨ v = 4) :
    total g f (arr ws) (fun r ek ej ei c => toField3 g Q r ek ej ei v c) =
      total g f (arr ws) (fun r ek ej ei c => toField3 g Q0 r ek ej ei v c) :=
  C64_ros2_run (totalState g f (arr ws) v).toLinearMap eps tol restart len maxiter tri (fun _ h => h) stag p
    (fun q => totalState_tendency hk hN hn hz h hp hR ht hs hv q) dts Q0 n Q hrun

/-- non-vacuity: 24 processes, 3 × 3 elements and 5 levels per tile, 4 points per side, an atmosphere of 30 km over a flat floor; any state, one
hundred steps of backward Euler of 300 s -/
example (F : ForcingData) (tri : Nat → Small → Option (Nat → ℝ)) :
    ∃ (g : Atm) (f : Floor) (ws : List ℝ), g.k = 2 ∧ g.N = 3 ∧ g.n = 4 ∧ g.nz = 5 ∧ ∀ (stag : Fin 24 → State3 g → State3 g → Prop) (tol : Newton.Tols ℝ)
      (Q0 : State3 g) (p : Fin 24),
      total g f (arr ws) (fun r ek ej ei c => toField3 g
          (after (fun Q dt => backwardEuler (newton ⟨1e-7, 20, tri⟩ 3600 stag p none tol 10) (tendency3 g f F) Q dt) (fun _ => 300) Q0 100) r ek ej ei 0 c) =
        total g f (arr ws) (fun r ek ej ei c => toField3 g Q0 r ek ej ei 0 c) := by
  obtain ⟨xs, ws, hr, h⟩ := WxVerif.Props.Quadrature.C41_rule 4 (by omega) (by omega)
  let g : Atm := ⟨⟨2, 3, 4, arr xs, 6371220, 7.29212e-5, fun _ => ⟨0, 0, 0⟩⟩, 5, 30000, true, 21⟩
  refine ⟨g, EulerSphere.floorOf g fun _ => 0, ws, rfl, rfl, rfl, rfl, fun stag tol Q0 p => ?_⟩
  refine (C65_implicit_run (g := g) (by simp [g]) (by simp [g]) (by simp [g]) (by simp [g]) h rfl (by norm_num [g])
    (EulerSphere.oneFloor_of g _) ?_ _ _ stag p none tol 10 0 0 _ Q0 100 0 (Or.inl rfl)).1
  intro r _ ej _ ei _ c _
  exact ⟨by show (0 : ℝ) < 30000; norm_num, by show -(6371220 : ℝ) < 0; norm_num⟩

end atmosphere

end WxVerif.Props.InvariantNewton
