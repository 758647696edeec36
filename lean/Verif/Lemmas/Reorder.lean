import Verif.Lemmas.Naturality
import Mathlib.Analysis.Calculus.FDeriv.Equiv

/-!
# The solvers on a vector whose entries are stored in another order
-/

namespace WxVerif.Reorder

open WxVerif WxVerif.Krylov WxVerif.Gmres WxVerif.Calls WxVerif.Isometry WxVerif.Naturality

variable {ι ι' : Type*} [Fintype ι] [Fintype ι'] (e : ι ≃ ι')

/-- the same vector with its entries stored at other places -/
noncomputable def reorder : EuclideanSpace ℝ ι →ₗᵢ[ℝ] EuclideanSpace ℝ ι' := (LinearIsometryEquiv.piLpCongrLeft 2 ℝ ℝ e).toLinearIsometry

theorem reorder_apply (x : EuclideanSpace ℝ ι) (i : ι) : reorder e x (e i) = x i := by
  simp [reorder, LinearIsometryEquiv.piLpCongrLeft_apply]

theorem reorder_symm (x : EuclideanSpace ℝ ι) (i : ι') : reorder e x i = x (e.symm i) := by
  rw [← reorder_apply e x (e.symm i), e.apply_symm_apply]

theorem sumNorm_map (x : EuclideanSpace ℝ ι) : sumNorm (reorder e x) = sumNorm x := by
  unfold sumNorm
  rw [← Equiv.sum_comp e]
  simp only [reorder_apply]

theorem infNorm_map (x : EuclideanSpace ℝ ι) : infNorm (reorder e x) = infNorm x := by
  unfold infNorm
  refine le_antisymm ((pi_norm_le_iff_of_nonneg (norm_nonneg _)).2 fun i => ?_) ((pi_norm_le_iff_of_nonneg (norm_nonneg _)).2 fun i => ?_)
  · rw [reorder_symm]
    exact norm_le_pi_norm (WithLp.ofLp x) _
  · rw [← reorder_apply e x i]
    exact norm_le_pi_norm (WithLp.ofLp (reorder e x)) _

theorem normU_map (p : Nat) (u : Nat → EuclideanSpace ℝ ι) : normU p (fun i => reorder e (u i)) = normU p u := by
  unfold normU
  simp only [sumNorm_map]

variable {e}

theorem call_map {A : EuclideanSpace ℝ ι → EuclideanSpace ℝ ι} {A' : EuclideanSpace ℝ ι' → EuclideanSpace ℝ ι'}
    (hA : ∀ w, A' (reorder e w) = reorder e (A w)) (pm : Bool) (p : Nat) (u : Nat → EuclideanSpace ℝ ι) (iop : Nat) (tol : ℝ)
    (control : List Seen → Option Move) (fuel : Nat) :
    call pm A' p (fun i => reorder e (u i)) iop tol control fuel =
      ((call pm A p u iop tol control fuel).1.map (reorder e), (call pm A p u iop tol control fuel).2) := by
  unfold call
  dsimp only
  rw [normU_map]
  rw [start_map (reorder e)]
  have hb : begin pm (aug (reorder e) p (toAug (startVec p (u 0) (scaleOf (normU p u)).2 0))) fresh =
      mapMem (aug (reorder e) p) (begin pm (toAug (startVec p (u 0) (scaleOf (normU p u)).2 0)) fresh) := by
    rw [← begin_map, mapMem_fresh]
  rw [hb]
  exact adaptive_map hA (fun k => by simp only [uFlip, map_smul]) pm _ iop tol control fuel [] [] _ _ _

/-- the derivative of the reordered function -/
theorem fderiv_map {rhs : EuclideanSpace ℝ ι → EuclideanSpace ℝ ι} {rhs' : EuclideanSpace ℝ ι' → EuclideanSpace ℝ ι'}
    (hr : ∀ w, rhs' (reorder e w) = reorder e (rhs w)) (Q v : EuclideanSpace ℝ ι) :
    fderiv ℝ rhs' (reorder e Q) (reorder e v) = reorder e (fderiv ℝ rhs Q v) := by
  let E : EuclideanSpace ℝ ι ≃L[ℝ] EuclideanSpace ℝ ι' := (LinearIsometryEquiv.piLpCongrLeft 2 ℝ ℝ e).toContinuousLinearEquiv
  have hE : ∀ w, E w = reorder e w := fun _ => rfl
  have h : rhs' ∘ E = E ∘ rhs := funext fun w => by simp only [Function.comp_apply, hE, hr]
  have h1 := E.comp_right_fderiv (f := rhs') (x := Q)
  have h2 := E.comp_fderiv (f := rhs) (x := Q)
  rw [h, h2] at h1
  have := congrArg (fun T : EuclideanSpace ℝ ι →L[ℝ] EuclideanSpace ℝ ι' => T v) h1
  exact this.symm

theorem product_map {rhs : EuclideanSpace ℝ ι → EuclideanSpace ℝ ι} {rhs' : EuclideanSpace ℝ ι' → EuclideanSpace ℝ ι'}
    (hr : ∀ w, rhs' (reorder e w) = reorder e (rhs w)) (o : Expo) (Q : EuclideanSpace ℝ ι) (dt : ℝ) (v : EuclideanSpace ℝ ι) :
    product o rhs' (reorder e Q) dt (reorder e v) = reorder e (product o rhs Q dt v) := by
  unfold product
  cases o.eps with
  | none => rw [map_smul, ← fderiv_map hr]
  | some eps => exact matvecFun_map (L := (reorder e).toLinearMap) hr eps Q dt v

theorem last_map (rows : List (EuclideanSpace ℝ ι)) : (rows.map (reorder e)).getLastD 0 = reorder e (rows.getLastD 0) := by
  rw [List.getLastD_eq_getLast?, List.getLast?_map, List.getLastD_eq_getLast?]
  cases rows.getLast? <;> simp

theorem phiCall_map {rhs : EuclideanSpace ℝ ι → EuclideanSpace ℝ ι} {rhs' : EuclideanSpace ℝ ι' → EuclideanSpace ℝ ι'}
    (hr : ∀ w, rhs' (reorder e w) = reorder e (rhs w)) (o : Expo) (control : List Seen → Option Move) (Q : EuclideanSpace ℝ ι) (dt : ℝ)
    (vec : List (EuclideanSpace ℝ ι)) :
    phiCall o control rhs' (reorder e Q) dt (vec.map (reorder e)) = ((phiCall o control rhs Q dt vec).1.map (reorder e), (phiCall o control rhs Q dt vec).2) := by
  unfold phiCall
  rw [List.length_map]
  have : (fun i => (vec.map (reorder e)).getD i 0) = fun i => reorder e (vec.getD i 0) := by
    funext i
    have h := List.getD_map (l := vec) (d := 0) (n := i) (reorder e)
    rwa [map_zero] at h
  rw [this]
  exact call_map (fun w => product_map hr o Q dt w) ..

theorem exponential_map {rhs : EuclideanSpace ℝ ι → EuclideanSpace ℝ ι} {rhs' : EuclideanSpace ℝ ι' → EuclideanSpace ℝ ι'}
    (hr : ∀ w, rhs' (reorder e w) = reorder e (rhs w)) (o : Expo) (control start : List Seen → Option Move) :
    Related (reorder e).toLinearMap (exponential o control start rhs) (exponential o control start rhs') where
  rhs := hr
  jac q v := product_map hr o q 1 v
  phi q dt vec := by
    have h := congrArg (fun r => r.1.getLastD 0) (phiCall_map hr o control q dt vec)
    exact h.trans (last_map _)
  initStep q dt := by
    have h := phiCall_map hr o start q dt [0, rhs q]
    rw [List.map_cons, List.map_cons, List.map_nil, map_zero, ← hr] at h
    change reorder e q + dt • (phiCall o start rhs' (reorder e q) dt [0, rhs' (reorder e q)]).1.getLastD 0 = reorder e (q + dt • (phiCall o start rhs q dt [0, rhs q]).1.getLastD 0)
    rw [h, last_map, map_add, map_smul]

theorem seenBy_map {rhs : EuclideanSpace ℝ ι → EuclideanSpace ℝ ι} {rhs' : EuclideanSpace ℝ ι' → EuclideanSpace ℝ ι'}
    (hr : ∀ w, rhs' (reorder e w) = reorder e (rhs w)) (cfg : Epi.Cfg ℝ) (o : Expo) (control start : List Seen → Option Move)
    (st : Epi.St ℝ (EuclideanSpace ℝ ι)) (Q : EuclideanSpace ℝ ι) (dt : ℝ) :
    seenBy cfg o control start rhs' (mapSt (reorder e).toLinearMap st) (reorder e Q) dt = seenBy cfg o control start rhs st Q dt := by
  unfold seenBy
  rw [checkDt_map]
  generalize Epi.checkDt st dt = s
  dsimp only
  have hl : (mapSt (reorder e).toLinearMap s).prevQ.length = s.prevQ.length := List.length_map ..
  have hf := fill_map (exponential_map hr o control start) cfg s Q (rhs Q) cfg.nPrev 0 (Epi.vec0 cfg (rhs Q))
  rw [← vec0_map] at hf
  change Epi.fill cfg _ _ (reorder e Q) (reorder e (rhs Q)) 0 cfg.nPrev (Epi.vec0 cfg (reorder e (rhs Q))) = _ at hf
  rw [hl, hr, hf]
  split
  · rfl
  · cases Epi.fill cfg (exponential o control start rhs) s Q (rhs Q) 0 cfg.nPrev (Epi.vec0 cfg (rhs Q)) with
    | none => rfl
    | some vec => exact congrArg Prod.snd (phiCall_map hr o control Q dt vec)

theorem epiRun_map {rhs : EuclideanSpace ℝ ι → EuclideanSpace ℝ ι} {rhs' : EuclideanSpace ℝ ι' → EuclideanSpace ℝ ι'}
    (hr : ∀ w, rhs' (reorder e w) = reorder e (rhs w)) (cfg : Epi.Cfg ℝ) (o : Expo) (control : List (List Seen) → List Seen → Option Move)
    (start : List Seen → Option Move) (dts : Nat → ℝ) (Q0 : EuclideanSpace ℝ ι) (n : Nat) :
    epiRun cfg o control start rhs' dts (reorder e Q0) n =
      (epiRun cfg o control start rhs dts Q0 n).map fun s => ((mapSt (reorder e).toLinearMap s.1.1, reorder e s.1.2), s.2) := by
  induction n with
  | zero => rfl
  | succ n ih =>
    unfold epiRun
    rw [ih]
    cases epiRun cfg o control start rhs dts Q0 n with
    | none => rfl
    | some s =>
      simp only [Option.map_some, Option.bind_some]
      have h := step_map (exponential_map hr o (control s.2) start) cfg s.1.1 s.1.2 (dts n)
      change Epi.step cfg _ _ (reorder e s.1.2) (dts n) = _ at h
      rw [h, seenBy_map hr]
      cases Epi.step cfg (exponential o (control s.2) start rhs) s.1.1 s.1.2 (dts n) <;> rfl

theorem srerkProjections_map {rhs : EuclideanSpace ℝ ι → EuclideanSpace ℝ ι} {rhs' : EuclideanSpace ℝ ι' → EuclideanSpace ℝ ι'}
    (hr : ∀ w, rhs' (reorder e w) = reorder e (rhs w)) (o : Expo) (control : List ℝ → List (List Seen) → List Seen → Option Move)
    (Q : EuclideanSpace ℝ ι) (dt : ℝ) : ∀ (c : List (List ℝ)) (prev : List ℝ) (s : List (EuclideanSpace ℝ ι) × List (List Seen)),
    srerkProjections o control rhs' (reorder e Q) dt prev c (s.1.map (reorder e), s.2) =
      ((srerkProjections o control rhs Q dt prev c s).1.map (reorder e), (srerkProjections o control rhs Q dt prev c s).2) := by
  intro c
  induction c with
  | nil => intros; rfl
  | cons nodes rest ih =>
    intro prev s
    unfold srerkProjections
    dsimp only
    have hz : (((s.1.map (reorder e)).map fun v => reorder e Q + dt • v).map fun v =>
          (rhs' v - rhs' (reorder e Q)) - product o rhs' (reorder e Q) 1 (v - reorder e Q)) =
        ((s.1.map fun v => Q + dt • v).map fun v => (rhs v - rhs Q) - product o rhs Q 1 (v - Q)).map (reorder e) := by
      simp only [List.map_map]
      refine List.map_congr_left fun v _ => ?_
      simp only [Function.comp_apply]
      rw [← map_smul, ← map_add, hr, hr, ← map_sub, ← map_sub, product_map hr, ← map_sub]
    have hv : [0, rhs' (reorder e Q), 0] = [0, rhs Q, 0].map (reorder e) := by simp [hr]
    have hm := matRows_map (L := (reorder e).toLinearMap) (Epi.alphaCoeff prev)
      ((s.1.map fun v => Q + dt • v).map fun v => (rhs v - rhs Q) - product o rhs Q 1 (v - Q))
    change Srerk.matRows _ (List.map (reorder e) _) = List.map (reorder e) _ at hm
    rw [hz, hm, hv, ← List.map_append, phiCall_map hr]
    generalize phiCall o (control nodes s.2) rhs Q dt _ = r
    exact ih nodes (r.1, s.2 ++ [r.2])

theorem srerkStep_map {rhs : EuclideanSpace ℝ ι → EuclideanSpace ℝ ι} {rhs' : EuclideanSpace ℝ ι' → EuclideanSpace ℝ ι'}
    (hr : ∀ w, rhs' (reorder e w) = reorder e (rhs w)) (c : List (List ℝ)) (o : Expo) (control : List ℝ → List (List Seen) → List Seen → Option Move)
    (log : List (List Seen)) (Q : EuclideanSpace ℝ ι) (dt : ℝ) :
    srerkStep c o control rhs' log (reorder e Q) dt = (srerkStep c o control rhs log Q dt).map fun s => (reorder e s.1, s.2) := by
  unfold srerkStep
  cases c with
  | nil => rfl
  | cons c0 rest =>
    dsimp only
    have hv : [0, rhs' (reorder e Q)] = [0, rhs Q].map (reorder e) := by simp [hr]
    rw [hv, phiCall_map hr]
    dsimp only
    have := srerkProjections_map hr o control Q dt rest c0 ((phiCall o (control c0 log) rhs Q dt [0, rhs Q]).1,
      log ++ [(phiCall o (control c0 log) rhs Q dt [0, rhs Q]).2])
    dsimp only at this
    rw [this]
    generalize srerkProjections o control rhs Q dt c0 rest _ = r
    obtain ⟨rows, log'⟩ := r
    match rows with
    | [] => rfl
    | [v] => simp
    | _ :: _ :: _ => rfl

theorem srerkRun_map {rhs : EuclideanSpace ℝ ι → EuclideanSpace ℝ ι} {rhs' : EuclideanSpace ℝ ι' → EuclideanSpace ℝ ι'}
    (hr : ∀ w, rhs' (reorder e w) = reorder e (rhs w)) (c : List (List ℝ)) (o : Expo) (control : List ℝ → List (List Seen) → List Seen → Option Move)
    (dts : Nat → ℝ) (Q0 : EuclideanSpace ℝ ι) (n : Nat) :
    srerkRun c o control rhs' dts (reorder e Q0) n = (srerkRun c o control rhs dts Q0 n).map fun s => (reorder e s.1, s.2) := by
  induction n with
  | zero => rfl
  | succ n ih =>
    unfold srerkRun
    rw [ih]
    cases srerkRun c o control rhs dts Q0 n with
    | none => rfl
    | some s => exact srerkStep_map hr c o control s.2 s.1 (dts n)

/-! ## FGMRES and Newton -/

theorem together_one {P W : Type*} [NormedAddCommGroup W] [InnerProductSpace ℝ W] (A : W → W) (b : W) (tolRel : ℝ) (cyc : W → W → Option (W × Nat))
    (stag : P → W → W → Prop) (niter : Nat) (x : W) :
    (∃ a : P → Gmres.Answer W, outerAll A b tolRel cyc stag 1 niter x = .answers a ∧
      ∃ u, ‖b - A x‖ ≠ 0 ∧ cyc x (b - A x) = some u ∧ ∀ q, (a q).x = x + u.1 ∧ (a q).niter = niter + u.2) ∨
    (outerAll A b tolRel cyc stag 1 niter x = .raised ∧ (‖b - A x‖ = 0 ∨ cyc x (b - A x) = none)) := by
  unfold outerAll
  by_cases h0 : ‖b - A x‖ = 0
  · rw [if_pos h0]; exact Or.inr ⟨rfl, Or.inl h0⟩
  · rw [if_neg h0]
    cases hc : cyc x (b - A x) with
    | none => exact Or.inr ⟨rfl, Or.inr rfl⟩
    | some u =>
      left
      dsimp only
      rw [if_pos rfl]
      split_ifs
      · exact ⟨_, rfl, u, h0, rfl, fun q => ⟨rfl, rfl⟩⟩
      · exact ⟨_, rfl, u, h0, rfl, fun q => ⟨rfl, rfl⟩⟩
      · exact ⟨_, rfl, u, h0, rfl, fun q => ⟨rfl, rfl⟩⟩

theorem jacobianProduct_map {F : EuclideanSpace ℝ ι → EuclideanSpace ℝ ι} {F' : EuclideanSpace ℝ ι' → EuclideanSpace ℝ ι'}
    (hF : ∀ w, F' (reorder e w) = reorder e (F w)) (omega : ℝ) (x f v : EuclideanSpace ℝ ι) :
    Newton.jacobianProduct F' norm omega (reorder e x) (reorder e f) (reorder e v) = reorder e (Newton.jacobianProduct F norm omega x f v) := by
  unfold Newton.jacobianProduct
  rw [LinearIsometry.norm_map, ← map_smul, ← map_smul, ← map_add, hF, ← map_sub, ← map_smul]
  split <;> rfl

theorem jacobianSolve_map {P P' : Type*} (q : P) (q' : P') {F : EuclideanSpace ℝ ι → EuclideanSpace ℝ ι} {F' : EuclideanSpace ℝ ι' → EuclideanSpace ℝ ι'}
    (hF : ∀ w, F' (reorder e w) = reorder e (F w)) (o : Inner) (len len' : Nat) (hlen : o.restart < len) (hlen' : o.restart < len')
    (stag : P → EuclideanSpace ℝ ι → EuclideanSpace ℝ ι → Prop) (stag' : P' → EuclideanSpace ℝ ι' → EuclideanSpace ℝ ι' → Prop)
    (x f : EuclideanSpace ℝ ι) (tol : ℝ) :
    solutionOf q' (jacobianSolve o len' stag' F' (reorder e x) (reorder e f) tol) = reorder e (solutionOf q (jacobianSolve o len stag F x f tol)) := by
  unfold jacobianSolve
  rw [infNorm_map, infNorm_map, LinearIsometry.norm_map]
  have hA := jacobianProduct_map hF (o.rdiff * max 1 (infNorm x) / max 1 (infNorm f)) x f
  generalize hA1 : Newton.jacobianProduct F norm (o.rdiff * max 1 (infNorm x) / max 1 (infNorm f)) x f = A at hA
  generalize hA2 : Newton.jacobianProduct F' norm (o.rdiff * max 1 (infNorm x) / max 1 (infNorm f)) (reorder e x) (reorder e f) = A' at hA
  dsimp only
  unfold fgmresAll
  rw [if_neg (show ¬ len' ≤ o.restart by omega), if_neg (show ¬ len ≤ o.restart by omega), LinearIsometry.norm_map]
  by_cases hf : ‖f‖ = 0
  · rw [if_pos hf, if_pos hf]
    exact (map_zero _).symm
  rw [if_neg hf, if_neg hf, if_neg (by simp), if_neg (by simp)]
  have h0 : reorder e f - A' 0 = reorder e (f - A 0) := by rw [map_sub, ← hA, map_zero]
  have hc := runCycle_map (M := id) (M' := id) hA (fun _ => rfl) (tol * ‖f‖) o.restart o.tri 0 (f - A 0)
  rw [map_zero, ← h0] at hc
  rcases together_one A f (tol * ‖f‖) (runCycle A id (tol * ‖f‖) o.restart o.tri) stag 0 0 with ⟨a, ha, u, hu0, hu, hx⟩ | ⟨hr, hw⟩
  · rcases together_one A' (reorder e f) (tol * ‖f‖) (runCycle A' id (tol * ‖f‖) o.restart o.tri) stag' 0 0 with ⟨a', ha', u', hu0', hu', hx'⟩ | ⟨hr', hw'⟩
    · rw [ha, ha']
      change (a' q').x = reorder e (a q).x
      rw [(hx q).1, (hx' q').1, zero_add, zero_add]
      rw [hc, hu, Option.map_some, Option.some_inj] at hu'
      rw [← hu']
    · exfalso
      rcases hw' with h | h
      · rw [h0, LinearIsometry.norm_map] at h
        exact hu0 h
      · rw [hc, hu] at h
        exact absurd h (by simp)
  · rcases together_one A' (reorder e f) (tol * ‖f‖) (runCycle A' id (tol * ‖f‖) o.restart o.tri) stag' 0 0 with ⟨a', ha', u', hu0', hu', hx'⟩ | ⟨hr', hw'⟩
    · exfalso
      rcases hw with h | h
      · rw [h0, LinearIsometry.norm_map] at hu0'
        exact hu0' h
      · rw [hc, h] at hu'
        exact absurd hu' (by simp)
    · rw [hr, hr']
      exact (map_zero _).symm

theorem newton_map {P P' : Type*} (q : P) (q' : P') (o : Inner) (len len' : Nat) (hlen : o.restart < len) (hlen' : o.restart < len')
    (stag : P → EuclideanSpace ℝ ι → EuclideanSpace ℝ ι → Prop) (stag' : P' → EuclideanSpace ℝ ι' → EuclideanSpace ℝ ι' → Prop)
    (search : Option (ℝ → Newton.Search ℝ)) (tol : Newton.Tols ℝ) (maxiter : Nat) :
    RelatedNewton (reorder e).toLinearMap (newton o len stag q search tol maxiter) (newton o len' stag' q' search tol maxiter) := by
  intro F F' hF x
  unfold newton
  have hp : RelatedSolver (reorder e).toLinearMap
      ⟨F, norm, infNorm, fun x f tol => solutionOf q (jacobianSolve o len stag F x f tol), search, tol⟩
      ⟨F', norm, infNorm, fun x f tol => solutionOf q' (jacobianSolve o len' stag' F' x f tol), search, tol⟩ :=
    ⟨hF, fun x => (reorder e).norm_map x, infNorm_map e, fun x f tol => jacobianSolve_map q q' hF o len len' hlen hlen' stag stag' x f tol, rfl, rfl⟩
  rw [newtonKrylov_map hp]
  cases Newton.newtonKrylov (⟨F, norm, infNorm, fun x f tol => solutionOf q (jacobianSolve o len stag F x f tol), search, tol⟩ : Newton.Solver ℝ (EuclideanSpace ℝ ι)) x maxiter <;> rfl

end WxVerif.Reorder
