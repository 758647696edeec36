import Verif.Spec.Invariants
import Verif.Model.Schemes
import Verif.Model.Newton
import Verif.Model.Gmres
import Verif.Model.KrylovCall
import Verif.Model.Srerk
import Verif.Model.RungeKutta
import Verif.Props.Epi
import Verif.Props.EulerCartesian
import Mathlib.Analysis.Calculus.FDeriv.Comp
import Mathlib.Analysis.Calculus.FDeriv.Linear
import Mathlib.Tactic.NormNum

/-!
# C64: every integrator keeps a conserved linear quantity, whatever its inner solvers do
-/

namespace WxVerif.Props.Invariants

open WxVerif.Spec.Invariants

section general
variable {K V E : Type*} [Field K] [AddCommGroup V] [Module K V] [AddCommGroup E] [Module K E] {M : V →ₗ[K] E}

open WxVerif.Schemes

/-- **C64** The explicit one-step methods. -/
theorem C64_explicit [CharZero K] {rhs : V → V} (h : ConservedBy M rhs) (dt : K) :
    Keeps M (fun Q => euler1 rhs Q dt) ∧ Keeps M (fun Q => tvdrk3 rhs Q dt) := by
  refine ⟨fun Q => ?_, fun Q => ?_⟩
  · simp [euler1, h Q]
  · simp only [tvdrk3, map_add, map_smul, h Q, h (Q + dt • rhs Q), h ((3 / 4 : K) • Q + _ + _), smul_zero, add_zero]
    rw [← add_smul, show (3 / 4 : K) + 1 / 4 = 1 by norm_num, one_smul, ← add_smul, show (1 / 3 : K) + 2 / 3 = 1 by norm_num, one_smul]

/-- **C64** Backward Euler, Crank–Nicolson, the diagonally implicit and the mixed method.  The mixed method keeps the quantity
if the sum of its two parts conserves it. -/
theorem C64_implicit {newton : Newton V} (hn : SolverKeeps M newton) {rhs : V → V} (h : ConservedBy M rhs) (g dt : K) :
    Keeps M (fun Q => backwardEuler newton rhs Q dt) ∧ Keeps M (fun Q => crankNicolson newton rhs Q dt) ∧
      Keeps M (fun Q => sdirk newton g rhs Q dt) := by
  refine ⟨fun Q => ?_, fun Q => ?_, fun Q => ?_⟩
  · exact hn _ _ fun x hx => by simp [h x, hx]
  · exact hn _ _ fun x hx => by simp [h x, h Q, hx]
  · simp [sdirk, h _]

theorem C64_imex {newton : Newton V} {rhsExp rhsImp : V → V} (h : ConservedBy M fun q => rhsImp q + rhsExp q) (dt : K) :
    Keeps M (fun Q => imex2 newton rhsExp rhsImp Q dt) := by
  intro Q
  simp only [imex2]
  rw [map_add, map_smul]
  rw [h _, smul_zero, add_zero]

/-- **C64** The two-step method: a state and its predecessor with the same value of `M` give a state with that value; the first
step, without predecessor, keeps it too. -/
theorem C64_bdf2 [CharZero K] {newton : Newton V} (hn : SolverKeeps M newton) {rhs : V → V} (h : ConservedBy M rhs) (substeps : Nat)
    (Qprev : Option V) (Q : V) (hQ : ∀ p ∈ Qprev, M p = M Q) (dt : K) :
    M (bdf2 newton rhs substeps Qprev Q dt).2 = M Q ∧ ∀ p ∈ (bdf2 newton rhs substeps Qprev Q dt).1, M p = M Q := by
  cases Qprev with
  | none =>
    refine ⟨?_, by simp [bdf2]⟩
    simp only [bdf2]
    have key : ∀ (d : K) (n : Nat) (q : V), M (bdf2Start newton rhs d n q) = M q := by
      intro d n
      induction n with
      | zero => intro q; rfl
      | succ n ih =>
        intro q
        rw [bdf2Start, ih]
        exact hn _ _ fun x hx => by simp [h x, hx]
    exact key _ _ _
  | some p =>
    have hp := hQ p rfl
    refine ⟨?_, by simp [bdf2]⟩
    simp only [bdf2]
    refine hn _ _ fun x hx => ?_
    simp only [map_sub, map_smul, map_add, h x, hx, hp, smul_zero, sub_zero]
    rw [show M Q - (4 / 3 : K) • M Q + (1 / 3 : K) • M Q = ((1 : K) - 4 / 3 + 1 / 3) • M Q by rw [add_smul, sub_smul, one_smul]]
    norm_num

/-- a whole run of the two-step method -/
def bdf2Run (newton : Newton V) (rhs : V → V) (substeps : Nat) (dts : Nat → K) (Q0 : V) : Nat → Option V × V
  | 0 => (none, Q0)
  | n + 1 => bdf2 newton rhs substeps (bdf2Run newton rhs substeps dts Q0 n).1 (bdf2Run newton rhs substeps dts Q0 n).2 (dts n)

theorem C64_bdf2_run [CharZero K] {newton : Newton V} (hn : SolverKeeps M newton) {rhs : V → V} (h : ConservedBy M rhs) (substeps : Nat)
    (dts : Nat → K) (Q0 : V) (n : Nat) : M (bdf2Run newton rhs substeps dts Q0 n).2 = M Q0 := by
  have key : M (bdf2Run newton rhs substeps dts Q0 n).2 = M Q0 ∧ ∀ p ∈ (bdf2Run newton rhs substeps dts Q0 n).1, M p = M Q0 := by
    induction n with
    | zero => simp [bdf2Run]
    | succ n ih =>
      obtain ⟨a, b⟩ := C64_bdf2 hn h substeps (bdf2Run newton rhs substeps dts Q0 n).1 (bdf2Run newton rhs substeps dts Q0 n).2
        (fun p hp => by rw [ih.2 p hp, ih.1]) (dts n)
      exact ⟨by rw [bdf2Run, a, ih.1], fun p hp => by rw [b p hp, ih.1]⟩
  exact key.1

/-- the finite-difference products of the Jacobian add nothing to `M` -/
theorem matvec_keeps {rhs : V → V} (h : ConservedBy M rhs) (eps dt : K) (Q v : V) :
    M (matvecFun eps rhs Q dt v) = 0 ∧ M (matvecRat eps rhs Q dt v) = M v := by
  simp [matvecFun, matvecRat, h _]

/-- **C64** The Rosenbrock method, for every linear solver that searches in a Krylov space (`LinearKeeps`, see
`C64_fgmres`), whatever its tolerance. -/
theorem C64_ros2 {linear : Linear V} (hl : LinearKeeps M linear) {rhs : V → V} (h : ConservedBy M rhs) (eps dt : K) :
    Keeps M (fun Q => ros2 linear eps rhs Q dt) := by
  intro Q
  refine hl _ _ _ (fun v hv => by rw [(matvec_keeps h eps dt Q v).2, hv]) fun x hx => ?_
  rw [map_sub, map_add, (matvec_keeps h eps dt Q Q).2, (matvec_keeps h eps dt Q x).2, map_smul, h Q, hx]
  simp

/-- **C64** The two exponential Rosenbrock methods; `phi` answers with a vector free of `M` when its operator and its vectors
are (see `C64_krylov`).  The products with the Jacobians are free of `M`, too: the imaginary part of a right-hand side that conserves `M` on complex states. -/
theorem C64_rosexp2 {linear : Linear V} (hl : LinearKeeps M linear) {phi : Phi V}
    (hphi : ∀ J v0 v1, (∀ v, M (J v) = 0) → M v0 = 0 → M v1 = 0 → M (phi J v0 v1) = 0)
    {rhsFull rhsImp : V → V} (h : ConservedBy M rhsFull) (hi : ConservedBy M rhsImp) {jFull jImp : V → V → V} (hj : ∀ Q, ConservedBy M (jFull Q))
    (hji : ∀ Q, ConservedBy M (jImp Q)) (eps dt : K) :
    Keeps M (fun Q => rosexp2 linear phi eps rhsFull rhsImp jFull jImp Q dt) ∧ Keeps M (fun Q => partrosexp2 linear phi rhsFull rhsImp jFull jImp Q dt) := by
  have hJ : ∀ Q v, M (matvecStep jFull Q dt v - matvecStep jImp Q dt v) = 0 := by
    intro Q v
    rw [matvecStep, matvecStep, map_sub, map_smul, map_smul, hj Q v, hji Q v, sub_self]
  refine ⟨fun Q => ?_, fun Q => ?_⟩
  · refine hl _ _ _ (fun v hv => by rw [(matvec_keeps hi eps dt Q v).2, hv]) fun x hx => ?_
    rw [map_sub, map_add, (matvec_keeps hi eps dt Q Q).2, (matvec_keeps hi eps dt Q x).2, map_smul,
      hphi _ _ _ (hJ Q) (map_zero M) (h Q), hx]
    simp
  · have hA : ∀ v, M (v - (1 / 2 : K) • matvecStep jImp Q dt v) = M v := by
      intro v; rw [matvecStep, map_sub, map_smul, map_smul, hji Q v]; simp
    refine hl _ _ _ (fun v hv => by rw [hA, hv]) fun x hx => ?_
    rw [map_sub, map_add, hA, hA, map_smul, map_add, map_smul, hi Q, hx,
      hphi _ _ _ (hJ Q) (by rw [map_smul, hi Q, smul_zero]) (by rw [map_sub, h Q, hi Q, sub_zero])]
    simp

/-- **C64** Splitting: both parts keep the quantity, so do their compositions. -/
theorem C64_splitting {s1 s2 : V → K → V} (h1 : ∀ q d, M (s1 q d) = M q) (h2 : ∀ q d, M (s2 q d) = M q) (dt : K) :
    Keeps M (fun Q => lie s1 s2 Q dt) ∧ Keeps M (fun Q => strang s1 s2 Q dt) := by
  refine ⟨fun Q => ?_, fun Q => ?_⟩ <;> simp [lie, strang, h1, h2]

end general

/-! ## Explicit Runge–Kutta with step size control -/

section rk
variable {V E : Type*} [AddCommGroup V] [Module ℝ V] [AddCommGroup E] [Module ℝ E] {M : V →ₗ[ℝ] E}
open WxVerif.RungeKutta

theorem map_combine (w : Nat → ℝ) (L : List V) (hL : ∀ v ∈ L, M v = 0) : M (combineK w L) = 0 := by
  unfold combineK
  rw [map_list_sum]
  apply List.sum_eq_zero
  intro x hx
  simp only [List.mem_map] at hx
  obtain ⟨y, ⟨⟨v, i⟩, hq, rfl⟩, rfl⟩ := hx
  have hm : v ∈ L := List.fst_mem_of_mem_zipIdx hq
  simp [hL v hm]

theorem stages_keep (p : Problem V) (hf : ∀ t y, M (p.f t y) = 0) (t h : ℝ) (y k0 : V) (hk : M k0 = 0) (n : Nat) :
    ∀ v ∈ stages p t h y k0 n, M v = 0 := by
  induction n with
  | zero => simp [stages, hk]
  | succ n ih =>
    intro v hv
    simp only [stages, List.mem_append, List.mem_singleton] at hv
    rcases hv with hv | rfl
    · exact ih v hv
    · exact hf _ _

theorem advance_keeps (p : Problem V) (hf : ∀ t y, M (p.f t y) = 0) (s : Solver V) (hk : M s.k0 = 0) (h : ℝ) :
    M (advance p s h) = M s.y := by
  unfold advance
  rw [map_add, map_smul, map_combine _ _ (stages_keep p hf _ _ _ _ hk _), smul_zero, add_zero]

theorem attempt_keeps (p : Problem V) (hf : ∀ t y, M (p.f t y) = 0) (s : Solver V) (hk : M s.k0 = 0) (sc : Bool) (hPrev minStep : ℝ)
    (fuel : Nat) : ∀ (rej : Bool) (h : ℝ) {hU hN y k e sc'}, attempt p s sc hPrev minStep fuel rej h = .accept hU hN y k e sc' →
      M y = M s.y ∧ M k = 0 := by
  induction fuel with
  | zero => intro rej h hU hN y k e sc' he; simp [attempt] at he
  | succ n ih =>
    intro rej h hU hN y k e sc' he
    rw [attempt] at he
    split at he
    · simp at he
    · split at he
      · simp at he
      · split at he
        · split at he
          · simp at he
          · injection he with _ _ hy hk'
            subst hy hk'
            refine ⟨advance_keeps p hf s hk _, ?_⟩
            unfold lastDerivative
            split <;> exact hf _ _
        · simp only at he
          split at he
          · simp at he
          · exact ih _ _ he

/-- **C64** Every accepted step of the embedded Runge–Kutta solver — for every tableau, step size, error estimate and number
of rejected attempts — keeps the quantity, and so does the derivative carried to the next step. -/
theorem C64_runge_kutta (p : Problem V) (hf : ∀ t y, M (p.f t y) = 0) (fuel : Nat) (s s' : Solver V) (hk : M s.k0 = 0)
    (h : step p fuel s = .ok s') : M s'.y = M s.y ∧ M s'.k0 = 0 := by
  unfold step at h
  split at h
  · simp at h
  · split at h
    · injection h with h; subst h; exact ⟨rfl, hk⟩
    · simp only at h
      split at h
      · simp at h
      · simp at h
      · injection h with h; subst h; exact ⟨rfl, hk⟩
      · rename_i he
        injection h with h; subst h
        exact attempt_keeps p hf s hk _ _ _ _ _ _ he

/-- states of the solver reached from its construction -/
inductive Reached (p : Problem V) (t0 : ℝ) (y0 : V) : Solver V → Prop where
  | start {firstStep s} : construct p t0 y0 firstStep = some s → Reached p t0 y0 s
  | next {fuel s s'} : Reached p t0 y0 s → step p fuel s = .ok s' → Reached p t0 y0 s'

theorem C64_runge_kutta_run (p : Problem V) (hf : ∀ t y, M (p.f t y) = 0) (t0 : ℝ) (y0 : V) (s : Solver V) (hr : Reached p t0 y0 s) :
    M s.y = M y0 := by
  have key : M s.y = M y0 ∧ M s.k0 = 0 := by
    induction hr with
    | start h =>
      unfold construct at h
      split at h
      · simp at h
      · split at h
        · simp at h
        · injection h with h; subst h; exact ⟨rfl, hf _ _⟩
    | next _ h ih =>
      obtain ⟨a, b⟩ := C64_runge_kutta p hf _ _ _ ih.2 h
      exact ⟨a.trans ih.1, b⟩
  exact key.1

end rk

/-! ## Newton–Krylov -/

section newton
variable {K V E : Type*} [Field K] [LinearOrder K] [IsStrictOrderedRing K] [AddCommGroup V] [Module K V] [AddCommGroup E] [Module K E]
  {M : V →ₗ[K] E}
open WxVerif.Newton

/-- the remembered function value of the line search is that of some point of the line -/
theorem runSearch_memo (F : V → V) (norm : V → K) (x dx : V) (P : V → Prop) (hP : ∀ s : K, P (F (x + s • dx))) (p : Search K) :
    ∀ m : Memo K V, P m.Fx → P (runSearch F norm x dx p m).2.Fx := by
  induction p with
  | done s => intro m hm; exact hm
  | ask s store next ih =>
    intro m hm
    simp only [runSearch]
    apply ih
    unfold phi
    split
    · exact hm
    · dsimp only
      split
      · exact hP s
      · exact hm

theorem newPoint_keeps (p : Solver K V) (x Fx dx : V) (m0 : E) (hF : ∀ x, M x = m0 → M (p.F x) = 0) (hx : M x = m0) (hFx : M Fx = 0)
    (hd : M dx = 0) : M (newPoint p x Fx dx).1 = m0 ∧ M (newPoint p x Fx dx).2.1 = 0 := by
  have hs : ∀ s : K, M (x + s • dx) = m0 := fun s => by rw [map_add, map_smul, hd, smul_zero, add_zero, hx]
  unfold newPoint
  cases p.search with
  | none =>
    have h1 : M (x + dx) = m0 := by simpa using hs 1
    exact ⟨h1, hF _ h1⟩
  | some search =>
    refine ⟨hs _, ?_⟩
    simp only [lineSearch]
    split
    · exact runSearch_memo p.F p.norm x dx (fun v => M v = 0) (fun s => hF _ (hs s)) _ _ hFx
    · exact hF _ (hs _)

theorem loop_keeps (p : Solver K V) (m0 : E) (hF : ∀ x, M x = m0 → M (p.F x) = 0)
    (hsol : ∀ x b tol, M x = m0 → M b = 0 → M (p.solve x b tol) = 0) (n : Nat) :
    ∀ (it : Nat) (st : State K V), M st.x = m0 → M st.Fx = 0 → M (loop p n it st).1.x = m0 := by
  induction n with
  | zero => intro it st h1 h2; exact h1
  | succ n ih =>
    intro it st h1 h2
    rw [loop]
    split
    · exact h1
    · have hd : M (-p.solve (observe p st).x (observe p st).Fx (innerTol (observe p st).eta (observe p st).FxNorm)) = 0 := by
        rw [map_neg, hsol (observe p st).x (observe p st).Fx _ h1 h2, neg_zero]
      have := newPoint_keeps p (observe p st).x (observe p st).Fx _ m0 hF h1 h2 hd
      exact ih _ _ this.1 this.2

/-- **C64** The Newton–Krylov solver: whatever the tolerances, the line search and the number of iterations — converged or not —
its answer has the value of `M` of the first guess, if the residual of such vectors is free of `M` and the inner solver answers
right-hand sides free of `M` with corrections free of `M` (see `C64_fgmres`). -/
theorem C64_newton (p : Solver K V) (x0 : V) (hF : ∀ x, M x = M x0 → M (p.F x) = 0)
    (hsol : ∀ x b tol, M x = M x0 → M b = 0 → M (p.solve x b tol) = 0) (maxiter : Nat) (a : Answer K V)
    (h : newtonKrylov p x0 maxiter = some a) : M a.x = M x0 := by
  unfold newtonKrylov at h
  split at h
  · simp at h
  · injection h with h; subst h
    exact loop_keeps p (M x0) hF hsol maxiter 0 (start p x0) rfl (hF x0 rfl)

/-- the finite-difference Jacobian of the residual keeps vectors free of `M` -/
theorem C64_newton_operator (F : V → V) (norm : V → K) (omega : K) (x0 : V) (m0 : E) (hF : ∀ x, M x = m0 → M (F x) = 0)
    (hx : M x0 = m0) (v : V) (hv : M v = 0) : M (jacobianProduct F norm omega x0 (F x0) v) = 0 := by
  unfold jacobianProduct
  split
  · simp [hv]
  · rw [map_smul, map_sub, hF x0 hx, hF _ (by rw [map_add, map_smul, hv, smul_zero, add_zero, hx])]
    simp

end newton

/-! ## FGMRES and the Krylov exponential solvers: everything stays in a subspace -/

section krylov
variable {W : Type*} [NormedAddCommGroup W] [InnerProductSpace ℝ W] (U : Submodule ℝ W)

open WxVerif.Gmres in
theorem ortho_keeps (k : Nat) (s : Arr W) (hV : ∀ i, s.V i ∈ U) : (∀ i, (ortho k s).1.V i ∈ U) ∧ (ortho k s).1.Z = s.Z := by
  have hq : ∀ c : Nat → ℝ, ∑ i ∈ Finset.range k, c i • s.V i ∈ U := fun c => U.sum_mem fun i _ => U.smul_mem _ (hV i)
  unfold ortho
  split
  · refine ⟨fun i => ?_, rfl⟩
    simp only [upd]
    have q1 := U.sub_mem (hV k) (hq fun i => inner ℝ (s.V i) (s.V k))
    split
    · exact U.smul_mem _ (U.sub_mem (U.sub_mem (hV _) (hq _)) (U.smul_mem _ (U.smul_mem _ q1)))
    · split
      · exact U.smul_mem _ q1
      · exact hV i
  · refine ⟨fun i => ?_, rfl⟩
    simp only [upd]
    split
    · exact U.smul_mem _ (U.sub_mem (hV _) (U.smul_mem _ (U.smul_mem _ (hV _))))
    · split
      · exact U.smul_mem _ (hV _)
      · exact hV i

open WxVerif.Gmres in
theorem cycle_keeps (A P : W → W) (hA : ∀ v ∈ U, A v ∈ U) (hP : ∀ v ∈ U, P v ∈ U) (tolRel : ℝ) (restart : Nat) (r : W) (hr : r ∈ U)
    (y : Nat → ℝ) : Gmres.update (cycle A P tolRel restart r) y ∈ U := by
  have loop : ∀ (left inn : Nat) (s : Arr W × ℝ) (t : Small), (∀ i, s.1.V i ∈ U) → (∀ i, s.1.Z i ∈ U) →
      ∀ i, (innerLoop A P tolRel restart left inn s t).2.1.Z i ∈ U := by
    intro left
    induction left with
    | zero => intro inn s t _ hZ i; exact hZ i
    | succ left ih =>
      intro inn s t hV hZ
      have hz : P (s.1.V (inn + 1)) ∈ U := hP _ (hV _)
      have hV' : ∀ i, ({ s.1 with Z := upd s.1.Z (inn + 1) (P (s.1.V (inn + 1))), V := upd s.1.V (inn + 2) (s.2 • A (s.2⁻¹ • P (s.1.V (inn + 1)))) } : Arr W).V i ∈ U := by
        intro i
        simp only [upd]
        split
        · exact U.smul_mem _ (hA _ (U.smul_mem _ hz))
        · exact hV i
      obtain ⟨o1, o2⟩ := ortho_keeps U (inn + 1) _ hV'
      have hZ' : ∀ i, (extend A P inn s).1.1.Z i ∈ U := by
        intro i
        have e : ∀ i, (ortho (inn + 1) ({ s.1 with Z := upd s.1.Z (inn + 1) (P (s.1.V (inn + 1))), V := upd s.1.V (inn + 2) (s.2 • A (s.2⁻¹ • P (s.1.V (inn + 1)))) } : Arr W)).1.Z i ∈ U := by
          intro i
          rw [o2]
          simp only [upd]
          split
          · exact hz
          · exact hZ i
        simp only [extend, upd]
        split
        · exact U.smul_mem _ (e _)
        · exact e i
      have hVe : ∀ i, (extend A P inn s).1.1.V i ∈ U := fun i => o1 i
      intro i
      rw [innerLoop]
      split
      · exact hZ' i
      · exact ih _ _ _ hVe hZ' i
  have hv : ‖r‖⁻¹ • r ∈ U := U.smul_mem _ hr
  have hV0 : ∀ v ∈ U, ∀ i, ({ V := upd (upd (fun _ => 0) 0 v) 1 (A (P v)), Z := upd (fun _ => 0) 0 (P v), R := fun _ _ => 0, K := fun _ _ => 0, T := fun _ _ => 0 } : Arr W).V i ∈ U := by
    intro v hv i
    simp only [upd]
    split
    · exact hA _ (hP _ hv)
    · split
      · exact hv
      · exact U.zero_mem
  obtain ⟨o1, o2⟩ := ortho_keeps U 0 _ (hV0 _ hv)
  unfold Gmres.update
  refine U.sum_mem fun k _ => U.smul_mem _ ?_
  refine loop restart 0 (startCycle A P r) _ o1 (fun i => ?_) k
  show (ortho 0 _).1.Z i ∈ U
  rw [o2]
  simp only [upd]
  split
  · exact hP _ hv
  · exact U.zero_mem

/-- **C64** FGMRES: if the operator and the preconditioner map a subspace into itself and the residuals of all vectors that
differ from the first guess by an element of it are in it, then the answer differs from the first guess by an element of the
subspace — for every tolerance, restart length, solution `y` of the small systems, and whether it converged or not. -/
theorem C64_fgmres (A P : W → W) (hA : ∀ v ∈ U, A v ∈ U) (hP : ∀ v ∈ U, P v ∈ U) (b x0 : W) (hr : ∀ x, x - x0 ∈ U → b - A x ∈ U)
    (tol : ℝ) (restart len maxiter : Nat) (small : W → Nat → ℝ) (count : W → Nat) (stag : W → W → Bool) (hb : b ≠ 0)
    (ans : Gmres.Answer W)
    (h : Gmres.fgmres A b x0 tol restart len maxiter false
      (fun _ r => some (Gmres.update (Gmres.cycle A P (tol * ‖b‖) restart r) (small r), count r)) stag = some ans) :
    ans.x - x0 ∈ U := by
  have loop : ∀ (n niter : Nat) (x : W), x - x0 ∈ U →
      Gmres.outer A b (tol * ‖b‖) (fun _ r => some (Gmres.update (Gmres.cycle A P (tol * ‖b‖) restart r) (small r), count r)) stag n niter x = some ans →
      ans.x - x0 ∈ U := by
    intro n
    induction n with
    | zero =>
      intro niter x hx he
      simp only [Gmres.outer, Option.some.injEq] at he
      subst he; exact hx
    | succ n ih =>
      intro niter x hx he
      rw [Gmres.outer] at he
      split at he
      · simp at he
      · simp only [Option.bind_some] at he
        have hx' : x + Gmres.update (Gmres.cycle A P (tol * ‖b‖) restart (b - A x)) (small (b - A x)) - x0 ∈ U := by
          rw [add_sub_right_comm]
          exact U.add_mem hx (cycle_keeps U A P hA hP _ _ _ (hr x hx) _)
        split at he
        · simp only [Option.some.injEq] at he; subst he; exact hx'
        · split at he
          · simp only [Option.some.injEq] at he; subst he; exact hx'
          · exact ih _ _ hx' he
  unfold Gmres.fgmres at h
  split at h
  · simp at h
  · rw [if_neg (by simpa using hb)] at h
    exact loop _ _ _ (by simp) h

open WxVerif.Krylov in
theorem kiopsStep_keeps (T : W → W) (hT : ∀ v ∈ U, T v ∈ U) (iop : Nat) (tol : ℝ) (s : Mem W) (hV : ∀ i ≤ s.j, s.V i ∈ U) :
    ∀ i ≤ (kiopsStep T iop tol s).j, (kiopsStep T iop tol s).V i ∈ U := by
  have hs : ∀ c : Nat → ℝ, T (s.V s.j) - ∑ i ∈ Finset.Ico (s.j + 1 - iop) (s.j + 1), c i • s.V i ∈ U := fun c =>
    U.sub_mem (hT _ (hV _ le_rfl)) (U.sum_mem fun i hi => U.smul_mem _ (hV i (by have := (Finset.mem_Ico.1 hi).2; omega)))
  intro i hi
  unfold kiopsStep at hi ⊢
  dsimp only at hi ⊢
  split at hi
  · rename_i h
    rw [if_pos h]
    simp only [setV]
    split
    · exact hs _
    · exact hV i (by simp at hi; omega)
  · rename_i h
    rw [if_neg h]
    simp only [setV]
    split
    · exact U.smul_mem _ (hs _)
    · exact hV i (by simp at hi; omega)

open WxVerif.Krylov in
theorem pmexStep_keeps (T : W → W) (hT : ∀ v ∈ U, T v ∈ U) (tol : ℝ) (s : Mem W) (hV : ∀ i ≤ s.j, s.V i ∈ U) :
    ∀ i ≤ (pmexStep T tol s).j, (pmexStep T tol s).V i ∈ U := by
  have hs : ∀ c : Nat → ℝ, T (s.V s.j) - ∑ i ∈ Finset.range (s.j + 1), c i • s.V i ∈ U := fun c =>
    U.sub_mem (hT _ (hV _ le_rfl)) (U.sum_mem fun i hi => U.smul_mem _ (hV i (by have := Finset.mem_range.1 hi; omega)))
  intro i hi
  unfold pmexStep at hi ⊢
  dsimp only at hi ⊢
  generalize (if inner ℝ (T (s.V s.j)) (T (s.V s.j)) < ∑ i ∈ Finset.range (s.j + 1), inner ℝ (s.V i) (T (s.V s.j)) ^ 2 then _ else _ : ℝ) = nrm at hi ⊢
  split at hi
  · rename_i h
    rw [if_pos h]
    simp only [setV]
    split
    · exact hs _
    · exact hV i (by simp at hi; omega)
  · rename_i h
    rw [if_neg h]
    simp only [setV]
    split
    · exact U.smul_mem _ (hs _)
    · exact hV i (by simp at hi; omega)

open WxVerif.Krylov in
theorem krylovLoop_keeps (step : Mem W → Mem W) (hstep : ∀ s, (∀ i ≤ s.j, s.V i ∈ U) → ∀ i ≤ (step s).j, (step s).V i ∈ U) (m fuel : Nat) :
    ∀ s, (∀ i ≤ s.j, s.V i ∈ U) → ∀ i ≤ (krylovLoop step m fuel s).j, (krylovLoop step m fuel s).V i ∈ U := by
  induction fuel with
  | zero => intro s h; exact h
  | succ n ih =>
    intro s h
    rw [krylovLoop]
    split
    · exact ih _ (hstep s h)
    · exact h

open WxVerif.Krylov in
/-- **C64** A sub-step of the two Krylov exponential solvers stays in every subspace that contains its start and is mapped into
itself by the operator — for every size of the space, tolerance, and content of the arrays of the earlier sub-steps. -/
theorem C64_krylov (T : W → W) (hT : ∀ v ∈ U, T v ∈ U) (iop : Nat) (tol tau : ℝ) (m : Nat) (v : W) (hv : v ∈ U) (s : Mem W) :
    kiopsUpdate tau v (kiopsRun T iop tol m v s) ∈ U ∧ pmexUpdate tau v (pmexRun T tol m v s) ∈ U := by
  have hb : ∀ c, ∀ i ≤ (begin c v s).j, (begin c v s).V i ∈ U := by
    intro c i hi
    simp only [begin, nonpos_iff_eq_zero] at hi
    subst hi
    simp only [begin, setV, if_true]
    exact U.smul_mem _ hv
  constructor
  · unfold kiopsUpdate
    refine U.smul_mem _ (U.sum_mem fun k _ => U.smul_mem _ ?_)
    exact krylovLoop_keeps U _ (kiopsStep_keeps U T hT iop tol) m m _ (hb _) _ k.2.le
  · unfold pmexUpdate
    refine U.smul_mem _ (U.sum_mem fun k _ => U.smul_mem _ ?_)
    exact krylovLoop_keeps U _ (pmexStep_keeps U T hT tol) m m _ (hb _) _ k.2.le

end krylov

/-! ## A whole call of the exponential solvers -/

section call
variable {V E : Type*} [NormedAddCommGroup V] [InnerProductSpace ℝ V] [AddCommGroup E] [Module ℝ E] {M : V →ₗ[ℝ] E}
open WxVerif.Krylov

/-- the vectors whose first part is free of `M` -/
def freeOf (M : V →ₗ[ℝ] E) (p : Nat) : Submodule ℝ (Aug V p) where
  carrier := {w | M w.fst = 0}
  add_mem' := by intro a b ha hb; simp only [Set.mem_setOf_eq] at *; rw [WithLp.add_fst, map_add, ha, hb, add_zero]
  zero_mem' := by simp
  smul_mem' := by intro c a ha; simp only [Set.mem_setOf_eq] at *; rw [WithLp.smul_fst, map_smul, ha, smul_zero]

/-- **C64** A call of either exponential solver, with any sub-steps, sizes and tolerances, returns a vector free of `M`, if its
start and its vectors are and the operator produces only such vectors. -/
theorem C64_exponential_solver {p : Nat} (pm : Bool) (A : V → V) (hA : ∀ v, M (A v) = 0) (uf : Fin p → V) (hu : ∀ k, M (uf k) = 0)
    (mu : ℝ) (iop : Nat) (tol : ℝ) (subs : List (ℝ × ℝ × Nat)) :
    ∀ (s : Mem (Aug V p)) (w : V), M w = 0 → M (solverRun pm A uf mu iop tol subs s w) = 0 := by
  induction subs with
  | nil => intro s w hw; exact hw
  | cons a rest ih =>
    obtain ⟨tau, now, m⟩ := a
    intro s w hw
    have hT : ∀ v ∈ freeOf M p, augT A uf v ∈ freeOf M p := by
      intro v _
      show M (A v.fst + ∑ k, v.snd k • uf k) = 0
      rw [map_add, hA, map_sum, zero_add]
      exact Finset.sum_eq_zero fun k _ => by rw [map_smul, hu, smul_zero]
    have hv : toAug (startVec p w mu now) ∈ freeOf M p := hw
    have key := C64_krylov (freeOf M p) (augT A uf) hT iop tol tau m _ hv s
    simp only [solverRun]
    apply ih
    cases pm
    · exact key.1
    · exact key.2

end call

/-! ## The multistep and the stiffness-resilient exponential methods -/

section epi
variable {K V E : Type*} [Field K] [AddCommGroup V] [Module K V] [AddCommGroup E] [Module K E] {M : V →ₗ[K] E}
open WxVerif.Epi

theorem addColumn_free (r : V) (hr : M r = 0) (col : List K) : ∀ (vec : List V) (k : Nat) (out : List V), (∀ v ∈ vec, M v = 0) →
    addColumn r vec k col = some out → ∀ v ∈ out, M v = 0 := by
  induction col with
  | nil => intro vec k out hv h; simp only [addColumn, Option.some.injEq] at h; subst h; exact hv
  | cons a as ih =>
    intro vec k out hv h
    simp only [addColumn, addAt] at h
    cases hk : vec[k]? with
    | none => simp [hk] at h
    | some x =>
      simp only [hk, Option.bind_some] at h
      refine ih _ _ _ ?_ h
      intro v hm
      rcases List.mem_or_eq_of_mem_set hm with hm | rfl
      · exact hv v hm
      · rw [map_add, map_smul, hr, smul_zero, add_zero]
        exact hv x (List.mem_of_getElem? hk)

theorem fill_free (cfg : Cfg K) (ext : Ext K V) (hJ : ∀ Q v, M (ext.jac Q v) = 0) (st : St K V) (hst : ∀ v ∈ st.prevRhs, M v = 0)
    (Q f : V) (hf : M f = 0) (n : Nat) : ∀ (i : Nat) (vec out : List V), (∀ v ∈ vec, M v = 0) →
    fill cfg ext st Q f i n vec = some out → ∀ v ∈ out, M v = 0 := by
  induction n with
  | zero => intro i vec out hv h; simp only [fill, Option.some.injEq] at h; subst h; exact hv
  | succ n ih =>
    intro i vec out hv h
    simp only [fill] at h
    cases hq : st.prevQ[i]? with
    | none => simp [hq] at h
    | some pq =>
      cases hr : st.prevRhs[i]? with
      | none => simp [hq, hr] at h
      | some pr =>
        cases hc : column cfg.A i with
        | none => simp [hq, hr, hc] at h
        | some col =>
          simp only [hq, hr, hc, Option.bind_some] at h
          have hrem : M (pr - f - ext.jac Q (pq - Q)) = 0 := by
            rw [map_sub, map_sub, hJ, hf, hst pr (List.mem_of_getElem? hr)]; simp
          cases ha : addColumn (pr - f - ext.jac Q (pq - Q)) vec cfg.first col with
          | none => simp [ha] at h
          | some vec' =>
            simp only [ha, Option.bind_some] at h
            exact ih _ _ _ (addColumn_free _ hrem col _ _ _ hv ha) h

/-- one step of an EPI method keeps `M`, and its memory keeps holding only vectors free of `M` -/
theorem epi_step_keeps [LinearOrder K] (cfg : Cfg K) (ext : Ext K V) (hf : ConservedBy M ext.rhs) (hJ : ∀ Q v, M (ext.jac Q v) = 0)
    (hphi : ∀ Q dt vec, (∀ v ∈ vec, M v = 0) → M (ext.phi Q dt vec) = 0) (hi : ∀ Q dt, M (ext.initStep Q dt) = M Q)
    (st : St K V) (Q : V) (dt : K) (st' : St K V) (Q' : V) (hst : ∀ v ∈ st.prevRhs, M v = 0) (h : Epi.step cfg ext st Q dt = some (st', Q')) :
    M Q' = M Q ∧ ∀ v ∈ st'.prevRhs, M v = 0 := by
  have hc : ∀ v ∈ (checkDt st dt).prevRhs, M v = 0 := by
    unfold checkDt
    split
    · simp
    · exact hst
  simp only [Epi.step] at h
  split at h
  · split at h
    · simp at h
    · simp only [Option.some.injEq, Prod.mk.injEq] at h
      obtain ⟨rfl, rfl⟩ := h
      refine ⟨?_, ?_⟩
      · have loop : ∀ (d : K) (m : Nat) (q : V), M (substepLoop ext.initStep d m q) = M q := by
          intro d m
          induction m with
          | zero => intro q; rfl
          | succ m ih => intro q; rw [substepLoop, ih, hi]
        exact loop _ _ _
      · intro v hv
        rcases List.mem_cons.1 hv with rfl | hv
        · exact hf Q
        · exact hc v hv
  · split at h
    · simp at h
    · rename_i vec hvec
      simp only [Option.some.injEq, Prod.mk.injEq] at h
      obtain ⟨rfl, rfl⟩ := h
      have h0 : ∀ v ∈ vec0 cfg (ext.rhs Q), M v = 0 := by
        intro v hv
        rcases List.mem_or_eq_of_mem_set hv with hv | rfl
        · rw [List.eq_of_mem_replicate hv, map_zero]
        · exact hf Q
      refine ⟨?_, ?_⟩
      · rw [map_add, map_smul, hphi _ _ _ (fill_free cfg ext hJ _ hc Q _ (hf Q) _ _ _ _ h0 hvec), smul_zero, add_zero]
      · split
        · intro v hv
          rcases List.mem_cons.1 hv with rfl | hv
          · exact hf Q
          · exact hc v (List.mem_of_mem_dropLast hv)
        · exact hc

/-- **C64** The EPI methods, of every order and for every sequence of steps (constant or not): every state of the run has the
value of `M` of the first state. -/
theorem C64_epi [LinearOrder K] (cfg : Cfg K) (ext : Ext K V) (hf : ConservedBy M ext.rhs) (hJ : ∀ Q v, M (ext.jac Q v) = 0)
    (hphi : ∀ Q dt vec, (∀ v ∈ vec, M v = 0) → M (ext.phi Q dt vec) = 0) (hi : ∀ Q dt, M (ext.initStep Q dt) = M Q)
    (dts : Nat → K) (Q0 : V) (n : Nat) (st : St K V) (Q : V) (h : run cfg ext dts Q0 n = some (st, Q)) : M Q = M Q0 := by
  have key : ∀ n st Q, run cfg ext dts Q0 n = some (st, Q) → M Q = M Q0 ∧ ∀ v ∈ st.prevRhs, M v = 0 := by
    intro n
    induction n with
    | zero =>
      intro st Q h
      simp only [run, Option.some.injEq, Prod.mk.injEq] at h
      obtain ⟨rfl, rfl⟩ := h
      exact ⟨rfl, by simp [init]⟩
    | succ n ih =>
      intro st' Q' h
      rw [run] at h
      cases hr : run cfg ext dts Q0 n with
      | none => simp [hr] at h
      | some p =>
        obtain ⟨st, Q⟩ := p
        simp only [hr] at h
        obtain ⟨a, b⟩ := epi_step_keeps cfg ext hf hJ hphi hi st Q _ _ _ (ih st Q hr).2 h
        exact ⟨a.trans (ih st Q hr).1, b⟩
  exact (key n st Q h).1

/-- **C64** The stiffness-resilient exponential Runge–Kutta methods, for every set of nodes. -/
theorem C64_srerk (c : List (List K)) (ext : Srerk.Ext K V) (hf : ConservedBy M ext.rhs) (hJ : ∀ Q v, M (ext.jac Q v) = 0)
    (hphi : ∀ nodes Q dt vec, (∀ v ∈ vec, M v = 0) → ∀ r ∈ ext.phi nodes Q dt vec, M r = 0) (Q Q' : V) (dt : K)
    (h : Srerk.step c ext Q dt = some Q') : M Q' = M Q := by
  have proj : ∀ (alpha : List (List K)) (nodes : List K) (z : List V),
      ∀ r ∈ Srerk.project ext Q dt (ext.rhs Q) alpha nodes z, M r = 0 := by
    intro alpha nodes z
    apply hphi
    intro v hv
    have hrz : ∀ r ∈ (z.map fun v => Q + dt • v).map (fun v => (ext.rhs v - ext.rhs Q) - ext.jac Q (v - Q)), M r = 0 := by
      intro r hr
      obtain ⟨y, _, rfl⟩ := List.mem_map.1 hr
      rw [map_sub, map_sub, hf, hf, hJ]; simp
    rcases List.mem_append.1 hv with hv | hv
    · simp only [List.mem_cons, List.not_mem_nil, or_false] at hv
      rcases hv with rfl | rfl | rfl
      · exact map_zero M
      · exact hf Q
      · exact map_zero M
    · obtain ⟨row, _, rfl⟩ := List.mem_map.1 hv
      have zs : ∀ (row : List K) (rz : List V), (∀ r ∈ rz, M r = 0) → M (List.zipWith (fun a r => a • r) row rz).sum = 0 := by
        intro row
        induction row with
        | nil => intro rz _; simp
        | cons a row ih =>
          intro rz hrz
          cases rz with
          | nil => simp
          | cons r rz =>
            simp only [List.zipWith_cons_cons, List.sum_cons, map_add, map_smul]
            rw [hrz r (by simp), ih rz fun x hx => hrz x (by simp [hx])]
            simp
      exact zs row _ hrz
  have loop : ∀ (rest : List (List K)) (prev : List K) (z : List V), (∀ r ∈ z, M r = 0) →
      ∀ r ∈ Srerk.projections ext Q dt (ext.rhs Q) prev rest z, M r = 0 := by
    intro rest
    induction rest with
    | nil => intro prev z hz; exact hz
    | cons nodes rest ih => intro prev z _; exact ih _ _ (proj _ _ _)
  cases c with
  | nil => simp [Srerk.step] at h
  | cons c0 rest =>
    simp only [Srerk.step] at h
    have hz := loop rest c0 (ext.phi c0 Q dt [0, ext.rhs Q]) (hphi _ _ _ _ (by
      intro v hv
      simp only [List.mem_cons, List.not_mem_nil, or_false] at hv
      rcases hv with rfl | rfl
      · exact map_zero M
      · exact hf Q))
    split at h
    · rename_i v hv
      simp only [Option.some.injEq] at h
      subst h
      rw [map_add, map_smul, hz v (by rw [hv]; simp), smul_zero, add_zero]
    · simp at h

end epi

/-- the derivative of a conserving right-hand side produces only vectors free of `M` -/
theorem C64_jacobian {V E : Type*} [NormedAddCommGroup V] [NormedSpace ℝ V] [NormedAddCommGroup E] [NormedSpace ℝ E] (M : V →L[ℝ] E)
    (rhs : V → V) (h : ∀ q, M (rhs q) = 0) (Q : V) (hd : DifferentiableAt ℝ rhs Q) (v : V) : M (fderiv ℝ rhs Q v) = 0 := by
  have e : fderiv ℝ (fun q => M (rhs q)) Q = M.comp (fderiv ℝ rhs Q) := (M.hasFDerivAt.comp Q hd.hasFDerivAt).fderiv
  have z : (fun q => M (rhs q)) = fun _ => 0 := funext h
  rw [z] at e
  have := congrArg (fun L => L v) e
  simpa using this.symm

/-! ## The Cartesian model -/

section cartesian
open WxVerif.EulerCartesian WxVerif.Spec.CartesianBudget WxVerif.Quad WxVerif.Props.Conservation

/-- total mass (`v = 0`) or total of `ρθ` (`v = 3`), as a linear quantity of the state -/
noncomputable def totalMap (n nx nz : Nat) (ws : Nat → ℝ) (Δx1 Δx3 : ℝ) (v : Nat) : EulerCartesian.Arr →ₗ[ℝ] ℝ where
  toFun q := total n nx nz ws Δx1 Δx3 (q v)
  map_add' a b := by simp [total, mul_add, Finset.sum_add_distrib]
  map_smul' c a := by
    simp only [total, Pi.smul_apply, smul_eq_mul, RingHom.id_apply, Finset.mul_sum]
    refine Finset.sum_congr rfl fun _ _ => Finset.sum_congr rfl fun _ _ => Finset.sum_congr rfl fun _ _ => Finset.sum_congr rfl fun _ _ => ?_
    ring

/-- **C64** The right-hand side of the Cartesian model conserves total mass and total `ρθ`, so that all the theorems of this file
apply to it. -/
theorem C64_cartesian {n : Nat} (hn : 1 ≤ n) {xs ws : List ℝ} (hq : IsGaussRule n xs ws) (nx nz : Nat) (hx : 0 < nx) (hz : 0 < nz)
    (Δx1 Δx3 : ℝ) (h1 : Δx1 ≠ 0) (h3 : Δx3 ≠ 0) (mem : EulerCartesian.Mem) (v : Nat) (hv : v = 0 ∨ v = 3) :
    ConservedBy (totalMap n nx nz (arr ws) Δx1 Δx3 v) (fun q => (call n nx nz (arr xs) Δx1 Δx3 mem q).2) :=
  fun q => EulerCartesian.C63_conserved hn hq nx nz hx hz Δx1 Δx3 h1 h3 mem q v hv

/-- a run of the Cartesian model with the third-order explicit method: the total mass after any number of steps is the first one -/
theorem C64_cartesian_run {n : Nat} (hn : 1 ≤ n) {xs ws : List ℝ} (hq : IsGaussRule n xs ws) (nx nz : Nat) (hx : 0 < nx) (hz : 0 < nz)
    (Δx1 Δx3 : ℝ) (h1 : Δx1 ≠ 0) (h3 : Δx3 ≠ 0) (dt : ℝ) (q : EulerCartesian.Arr) (steps : Nat) :
    total n nx nz (arr ws) Δx1 Δx3
        ((fun Q => Schemes.tvdrk3 (fun q => (call n nx nz (arr xs) Δx1 Δx3 none q).2) Q dt)^[steps] q 0) =
      total n nx nz (arr ws) Δx1 Δx3 (q 0) := by
  induction steps generalizing q with
  | zero => rfl
  | succ k ih =>
    rw [Function.iterate_succ_apply, ih]
    exact (C64_explicit (C64_cartesian hn hq nx nz hx hz Δx1 Δx3 h1 h3 none 0 (Or.inl rfl)) dt).2 q

end cartesian

/-! ## The hypotheses can be met -/

/-- an exchange between two reservoirs, with a nonlinear rate -/
def exchange (q : ℝ × ℝ) : ℝ × ℝ := (q.2 - q.1 ^ 2, q.1 ^ 2 - q.2)

/-- the content of the two reservoirs -/
def content : (ℝ × ℝ) →ₗ[ℝ] ℝ := LinearMap.fst ℝ ℝ ℝ + LinearMap.snd ℝ ℝ ℝ

example : ConservedBy content exchange ∧ exchange (2, 1) ≠ 0 := by
  refine ⟨fun q => ?_, ?_⟩
  · simp [content, exchange]
  · intro h
    have := congrArg Prod.fst h
    norm_num [exchange] at this

/-- one Picard step is a nonlinear solver that keeps the content, and one Richardson step a linear one -/
example : SolverKeeps content (fun F x0 => x0 - F x0) ∧ LinearKeeps content (fun A b x0 => x0 + (b - A x0)) :=
  ⟨fun F x0 h => by rw [map_sub, h x0 rfl, sub_zero], fun A b x0 _ h => by rw [map_add, h x0 rfl, add_zero]⟩

/-- the derivative of the exchange and a solver that adds up its vectors meet the hypotheses of the exponential methods -/
example : (∀ Q v : ℝ × ℝ, content (v.2 - 2 * Q.1 * v.1, 2 * Q.1 * v.1 - v.2) = 0) ∧
    ∀ vec : List (ℝ × ℝ), (∀ v ∈ vec, content v = 0) → content vec.sum = 0 := by
  refine ⟨fun Q v => by simp [content], fun vec h => ?_⟩
  rw [map_list_sum]
  exact List.sum_eq_zero fun x hx => by obtain ⟨v, hv, rfl⟩ := List.mem_map.1 hx; exact h v hv

/-- a conserving right-hand side is needed: one that does not conserve changes the content in one explicit step -/
example : content (Schemes.euler1 (fun q : ℝ × ℝ => (q.1, 0)) (1, 0) (1 : ℝ)) ≠ content (1, 0) := by
  norm_num [content, Schemes.euler1]

end WxVerif.Props.Invariants
