import Verif.Props.Invariants
import Verif.Model.Calls

/-!
# C64: runs of the exponential integrators together with their solvers
-/

namespace WxVerif.Props.InvariantCalls

open WxVerif.Krylov WxVerif.Calls WxVerif.Spec.Invariants WxVerif.Props.Invariants

section solver
variable {V E : Type*} [NormedAddCommGroup V] [InnerProductSpace ℝ V] [AddCommGroup E] [Module ℝ E] {M : V →ₗ[ℝ] E}

theorem adaptive_free {p : Nat} (pm : Bool) (A : V → V) (hA : ∀ v, M (A v) = 0) (uf : Fin p → V) (hu : ∀ k, M (uf k) = 0)
    (mu : ℝ) (iop : Nat) (tol : ℝ) (control : List Seen → Option Move) (fuel : Nat) :
    ∀ (log : List Seen) (rows : List V) (s : Mem (Aug V p)) (v : Aug V p) (w : V), (∀ r ∈ rows, M r = 0) →
      (∀ i ≤ s.j, s.V i ∈ freeOf M p) → M w = 0 →
      ∀ r ∈ (adaptive pm A uf mu iop tol control fuel log rows s v w).1, M r = 0 := by
  have hT : ∀ v ∈ freeOf M p, augT A uf v ∈ freeOf M p := by
    intro v _
    show M (A v.fst + ∑ k, v.snd k • uf k) = 0
    rw [map_add, hA, map_sum, zero_add]
    exact Finset.sum_eq_zero fun k _ => by rw [map_smul, hu, smul_zero]
  have stop : ∀ (rows : List V) (w : V), (∀ r ∈ rows, M r = 0) → M w = 0 → ∀ r ∈ rows ++ [w], M r = 0 := by
    intro rows w hr hw r hm
    rcases List.mem_append.1 hm with hm | hm
    · exact hr r hm
    · rw [List.mem_singleton.1 hm]; exact hw
  induction fuel with
  | zero => intro log rows s v w hr _ hw; exact stop rows w hr hw
  | succ n ih =>
    intro log rows s v w hr hs hw
    rw [adaptive]
    split
    · exact stop rows w hr hw
    · rename_i m _
      refine ih _ _ _ _ _ hr ?_ hw
      apply krylovLoop_keeps (freeOf M p) _ _ m m s hs
      intro s hs
      cases pm
      · exact kiopsStep_keeps _ _ hT iop tol s hs
      · exact pmexStep_keeps _ _ hT tol s hs
    · rename_i tau now passed _
      have hw' : M ((if pm then pmexUpdate tau v s else kiopsUpdate tau v s).fst) = 0 := by
        cases pm
        · show kiopsUpdate tau v s ∈ freeOf M p
          unfold kiopsUpdate
          exact Submodule.smul_mem _ _ (Submodule.sum_mem _ fun k _ => Submodule.smul_mem _ _ (hs _ k.2.le))
        · show pmexUpdate tau v s ∈ freeOf M p
          unfold pmexUpdate
          exact Submodule.smul_mem _ _ (Submodule.sum_mem _ fun k _ => Submodule.smul_mem _ _ (hs _ k.2.le))
      refine ih _ _ _ _ _ ?_ ?_ hw'
      · intro r hm
        rcases List.mem_append.1 hm with hm | hm
        · exact hr r hm
        · obtain ⟨t, _, rfl⟩ := List.mem_map.1 hm
          show inside t v s ∈ freeOf M p
          unfold inside
          dsimp only
          split
          · exact Submodule.smul_mem _ _ (Submodule.sum_mem _ fun k _ => Submodule.smul_mem _ _ (hs _ k.2.le))
          · exact Submodule.zero_mem _
      · intro i hi
        simp only [begin, nonpos_iff_eq_zero] at hi
        subst hi
        simp only [begin, setV, if_true]
        exact Submodule.smul_mem _ _ hw'

end solver

section runs
variable {ι : Type*} [Fintype ι] {E : Type*} [NormedAddCommGroup E] [NormedSpace ℝ E] (M : EuclideanSpace ℝ ι →L[ℝ] E)

/-- **C64** A call of either exponential solver, with any output times and any decisions of its control: every row it returns is free
of `M`, if the rows it is given are and the operator produces only such vectors. -/
theorem C64_solver_rows (pm : Bool) (A : EuclideanSpace ℝ ι → EuclideanSpace ℝ ι) (hA : ∀ v, M (A v) = 0) (p : Nat)
    (u : Nat → EuclideanSpace ℝ ι) (hu : ∀ i ≤ p, M (u i) = 0) (iop : Nat) (tol : ℝ) (control : List Seen → Option Move) (fuel : Nat) :
    ∀ r ∈ (call pm A p u iop tol control fuel).1, M r = 0 := by
  have key := adaptive_free (M := M.toLinearMap) (p := p) pm A hA (uFlip (scaleOf (normU p u)).1 p u)
    (fun k => by
      show M (_ • u (p - k)) = 0
      rw [map_smul, hu _ (Nat.sub_le _ _), smul_zero])
    (scaleOf (normU p u)).2 iop tol control fuel [] []
    (begin pm (toAug (startVec p (u 0) (scaleOf (normU p u)).2 0)) fresh) (toAug (startVec p (u 0) (scaleOf (normU p u)).2 0)) (u 0)
    (by simp)
    (by
      intro i hi
      simp only [begin, nonpos_iff_eq_zero] at hi
      subst hi
      simp only [begin, setV, if_true]
      exact Submodule.smul_mem _ _ (show M (u 0) = 0 from hu 0 (Nat.zero_le _)))
    (hu 0 (Nat.zero_le _))
  exact key

variable {rhs : EuclideanSpace ℝ ι → EuclideanSpace ℝ ι}

/-- the Jacobian products, by finite differences or by the complex step, are free of `M` -/
theorem product_free (o : Expo) (h : ∀ q, M (rhs q) = 0) (hd : o.eps = none → Differentiable ℝ rhs) (Q : EuclideanSpace ℝ ι) (dt : ℝ)
    (v : EuclideanSpace ℝ ι) : M (product o rhs Q dt v) = 0 := by
  unfold product
  cases he : o.eps with
  | some eps =>
    show M (Schemes.matvecFun eps rhs Q dt v) = 0
    unfold Schemes.matvecFun
    rw [map_smul, map_sub, h, h, sub_zero, smul_zero]
  | none =>
    show M (dt • fderiv ℝ rhs Q v) = 0
    rw [map_smul, C64_jacobian M rhs h Q (hd he Q), smul_zero]

theorem phiCall_free (o : Expo) (h : ∀ q, M (rhs q) = 0) (hd : o.eps = none → Differentiable ℝ rhs) (control : List Seen → Option Move)
    (Q : EuclideanSpace ℝ ι) (dt : ℝ) (vec : List (EuclideanSpace ℝ ι)) (hv : ∀ v ∈ vec, M v = 0) :
    ∀ r ∈ (phiCall o control rhs Q dt vec).1, M r = 0 := by
  apply C64_solver_rows M _ _ (product_free M o h hd Q dt)
  intro i _
  rw [List.getD_eq_getElem?_getD]
  cases hi : vec[i]? with
  | none => exact map_zero M
  | some v => exact hv v (List.mem_of_getElem? hi)

theorem last_free (rows : List (EuclideanSpace ℝ ι)) (h : ∀ r ∈ rows, M r = 0) : M (rows.getLastD 0) = 0 := by
  rw [List.getLastD_eq_getLast?]
  cases hl : rows.getLast? with
  | none => exact map_zero M
  | some v => exact h v (List.mem_of_getLast? hl)

/-- **C64** Whole runs of the EPI integrators with their solver: every configuration and order, every sequence of steps, every tolerance and
every decision of the step control (which may use all it has seen), Jacobian products by differences or by the derivative.  A linear
quantity that the right-hand side conserves has its first value after every step. -/
theorem C64_epi_run (cfg : Epi.Cfg ℝ) (o : Expo) (control : List (List Seen) → List Seen → Option Move) (start : List Seen → Option Move)
    (h : ∀ q, M (rhs q) = 0) (hd : o.eps = none → Differentiable ℝ rhs) (dts : Nat → ℝ) (Q0 : EuclideanSpace ℝ ι) (n : Nat)
    (st : Epi.St ℝ (EuclideanSpace ℝ ι)) (Q : EuclideanSpace ℝ ι) (log : List (List Seen))
    (hrun : epiRun cfg o control start rhs dts Q0 n = some ((st, Q), log)) : M Q = M Q0 := by
  have key : ∀ n st Q log, epiRun cfg o control start rhs dts Q0 n = some ((st, Q), log) →
      M Q = M Q0 ∧ ∀ v ∈ st.prevRhs, M v = 0 := by
    intro n
    induction n with
    | zero =>
      intro st Q log h
      simp only [epiRun, Option.some.injEq, Prod.mk.injEq] at h
      obtain ⟨⟨rfl, rfl⟩, -⟩ := h
      exact ⟨rfl, by simp [Epi.init]⟩
    | succ n ih =>
      intro st Q log hr
      rw [epiRun] at hr
      cases hp : epiRun cfg o control start rhs dts Q0 n with
      | none => simp [hp] at hr
      | some s =>
        obtain ⟨⟨st0, Qn⟩, lg⟩ := s
        rw [hp, Option.bind_some] at hr
        obtain ⟨r, hstep, hr⟩ := Option.map_eq_some_iff.1 hr
        simp only [Prod.mk.injEq] at hr
        obtain ⟨rfl, -⟩ := hr
        have hcall := fun ctl => phiCall_free M (rhs := rhs) o h hd ctl
        obtain ⟨h1, h2⟩ := epi_step_keeps (M := M.toLinearMap) cfg (exponential o (control lg) start rhs) h
          (fun Q v => product_free M o h hd Q 1 v)
          (fun Q dt vec hv => last_free M _ (hcall _ Q dt vec hv))
          (fun Q dt => by
            show M (Q + dt • (phiCall o start rhs Q dt [0, rhs Q]).1.getLastD 0) = M Q
            rw [map_add, map_smul, last_free M _ (hcall _ Q dt _ _), smul_zero, add_zero]
            intro v hv
            simp only [List.mem_cons, List.not_mem_nil, or_false] at hv
            rcases hv with rfl | rfl
            · exact map_zero M
            · exact h Q)
          st0 Qn (dts n) st Q (ih st0 Qn lg hp).2 hstep
        exact ⟨Eq.trans h1 (ih st0 Qn lg hp).1, h2⟩
  exact (key n st Q log hrun).1

theorem rows_free (row : List ℝ) : ∀ rz : List (EuclideanSpace ℝ ι), (∀ r ∈ rz, M r = 0) →
    M (List.zipWith (fun a r => a • r) row rz).sum = 0 := by
  induction row with
  | nil => intro rz _; simp
  | cons a row ih =>
    intro rz hrz
    cases rz with
    | nil => simp
    | cons r rz =>
      simp only [List.zipWith_cons_cons, List.sum_cons, map_add, map_smul]
      rw [hrz r (by simp), ih rz fun x hx => hrz x (by simp [hx])]
      simp

/-- **C64** Whole runs of the SRERK integrators with their solver, whose calls have several output times: the same, for every set of nodes. -/
theorem C64_srerk_run (c : List (List ℝ)) (o : Expo) (control : List ℝ → List (List Seen) → List Seen → Option Move)
    (h : ∀ q, M (rhs q) = 0) (hd : o.eps = none → Differentiable ℝ rhs) (dts : Nat → ℝ) (Q0 : EuclideanSpace ℝ ι) (n : Nat)
    (Q : EuclideanSpace ℝ ι) (log : List (List Seen)) (hrun : srerkRun c o control rhs dts Q0 n = some (Q, log)) : M Q = M Q0 := by
  have proj : ∀ (Q : EuclideanSpace ℝ ι) (dt : ℝ) (rest : List (List ℝ)) (prev : List ℝ) (s : List (EuclideanSpace ℝ ι) × List (List Seen)),
      (∀ r ∈ s.1, M r = 0) → ∀ r ∈ (srerkProjections o control rhs Q dt prev rest s).1, M r = 0 := by
    intro Q dt rest
    induction rest with
    | nil => intro prev s hs; exact hs
    | cons nodes rest ih =>
      intro prev s hs
      rw [srerkProjections]
      apply ih
      apply phiCall_free M o h hd
      intro v hv
      rcases List.mem_append.1 hv with hv | hv
      · simp only [List.mem_cons, List.not_mem_nil, or_false] at hv
        rcases hv with rfl | rfl | rfl
        · exact map_zero M
        · exact h Q
        · exact map_zero M
      · obtain ⟨row, _, rfl⟩ := List.mem_map.1 hv
        apply rows_free
        intro r hr
        obtain ⟨y, _, rfl⟩ := List.mem_map.1 hr
        rw [map_sub, map_sub, h, h, product_free M o h hd]
        simp
  have one : ∀ (lg : List (List Seen)) (Q Q' : EuclideanSpace ℝ ι) (dt : ℝ) (lg' : List (List Seen)),
      srerkStep c o control rhs lg Q dt = some (Q', lg') → M Q' = M Q := by
    intro lg Q Q' dt lg' hs
    unfold srerkStep at hs
    cases c with
    | nil => simp at hs
    | cons c0 rest =>
      dsimp only at hs
      have hz := proj Q dt rest c0 (((phiCall o (control c0 lg) rhs Q dt [0, rhs Q]).1), lg ++ [(phiCall o (control c0 lg) rhs Q dt [0, rhs Q]).2])
        (phiCall_free M o h hd _ Q dt _ (by
          intro v hv
          simp only [List.mem_cons, List.not_mem_nil, or_false] at hv
          rcases hv with rfl | rfl
          · exact map_zero M
          · exact h Q))
      split at hs
      · rename_i v _ hv
        rw [hv] at hz
        simp only [Option.some.injEq, Prod.mk.injEq] at hs
        rw [← hs.1, map_add, map_smul, hz v (by simp), smul_zero, add_zero]
      · simp at hs
  induction n generalizing Q log with
  | zero =>
    simp only [srerkRun, Option.some.injEq, Prod.mk.injEq] at hrun
    rw [hrun.1]
  | succ n ih =>
    rw [srerkRun] at hrun
    cases hp : srerkRun c o control rhs dts Q0 n with
    | none => simp [hp] at hrun
    | some s =>
      rw [hp, Option.bind_some] at hrun
      rw [one _ _ _ _ _ hrun]
      exact ih s.1 s.2 hp

/-- a method without memory never raises, so its runs are covered for every number of steps -/
theorem epiRun_some {cfg : Epi.Cfg ℝ} (hcfg : cfg.nPrev = 0) (o : Expo) (control : List (List Seen) → List Seen → Option Move)
    (start : List Seen → Option Move) (dts : Nat → ℝ) (Q0 : EuclideanSpace ℝ ι) (n : Nat) :
    ∃ st Q log, epiRun cfg o control start rhs dts Q0 n = some ((st, Q), log) := by
  induction n with
  | zero => exact ⟨_, _, _, rfl⟩
  | succ n ih =>
    obtain ⟨st, Q, log, h⟩ := ih
    have hs : ∀ ext, Epi.step cfg ext st Q (dts n) =
        some (Epi.checkDt st (dts n), Q + dts n • ext.phi Q (dts n) (Epi.vec0 cfg (ext.rhs Q))) := by
      intro ext
      simp [Epi.step, hcfg, Epi.fill]
    rw [epiRun, h, Option.bind_some, hs]
    exact ⟨_, _, _, rfl⟩

end runs

/-- two cells that exchange mass: what one loses the other gains -/
noncomputable def exchange (q : EuclideanSpace ℝ (Fin 2)) : EuclideanSpace ℝ (Fin 2) :=
  WithLp.toLp 2 ![q 1 ^ 2 - q 0, q 0 - q 1 ^ 2]

/-- their total -/
noncomputable def massOf : EuclideanSpace ℝ (Fin 2) →L[ℝ] ℝ := EuclideanSpace.proj 0 + EuclideanSpace.proj 1

/-- non-vacuity: the exponential Euler method (EPI 2) with either solver, any control and one hundred steps of length 1/2 -/
example (control : List (List Seen) → List Seen → Option Move) (start : List Seen → Option Move) :
    ∃ st Q log, epiRun ⟨[[]], 0, 1, 2, 1⟩ ⟨true, 2, 1e-7, 1000, some 1e-8⟩ control start exchange (fun _ => 1 / 2)
      (WithLp.toLp 2 ![1, 2]) 100 = some ((st, Q), log) ∧ massOf Q = 3 := by
  have h : ∀ q, massOf (exchange q) = 0 := by
    intro q
    simp [massOf, exchange]
  obtain ⟨st, Q, log, hr⟩ := epiRun_some (rhs := exchange) (cfg := ⟨[[]], 0, 1, 2, 1⟩) rfl ⟨true, 2, 1e-7, 1000, some 1e-8⟩ control start (fun _ => 1 / 2)
    (WithLp.toLp 2 ![1, 2]) 100
  refine ⟨st, Q, log, hr, ?_⟩
  rw [C64_epi_run massOf _ _ _ _ h (by intro h; cases h) _ _ _ _ _ _ hr]
  norm_num [massOf]

end WxVerif.Props.InvariantCalls
