import Verif.Model.KrylovCall
import Verif.Model.Gmres

/-!
# The Krylov solvers and linear isometries

The solvers see the vectors only through sums, multiples, inner products and the operator.  So a linear isometry that takes one operator to another takes
every array of the one computation to that of the other.
-/

namespace WxVerif.Isometry

section krylov
open WxVerif.Krylov
variable {W W' : Type*} [NormedAddCommGroup W] [InnerProductSpace ℝ W] [NormedAddCommGroup W'] [InnerProductSpace ℝ W'] (L : W →ₗᵢ[ℝ] W')

/-- the arrays with the vectors mapped -/
def mapMem (s : Krylov.Mem W) : Krylov.Mem W' := ⟨fun i => L (s.V i), s.H, s.M, s.N, s.Minv, s.j, s.happy⟩

theorem mapMem_fresh : mapMem L fresh = fresh := by
  simp [mapMem, fresh]

theorem setV_map (V : Nat → W) (i : Nat) (v : W) : setV (fun k => L (V k)) i (L v) = fun k => L (setV V i v k) := by
  funext k
  unfold setV
  split <;> rfl

variable {L} {T : W → W} {T' : W' → W'} (hT : ∀ w, T' (L w) = L (T w))
include hT

theorem kiopsStep_map (iop : Nat) (tol : ℝ) (s : Krylov.Mem W) : kiopsStep T' iop tol (mapMem L s) = mapMem L (kiopsStep T iop tol s) := by
  unfold kiopsStep
  simp only [mapMem, hT, LinearIsometry.inner_map_map, ← map_smul, ← map_sum, ← map_sub, LinearIsometry.norm_map, setV_map]
  split <;> rfl

theorem pmexMats_map (s : Krylov.Mem W) (j : Nat) : pmexMats (mapMem L s) j = pmexMats s j := by
  unfold pmexMats
  simp only [mapMem, LinearIsometry.inner_map_map]

theorem pmexStep_map (tol : ℝ) (s : Krylov.Mem W) : pmexStep T' tol (mapMem L s) = mapMem L (pmexStep T tol s) := by
  unfold pmexStep
  dsimp only
  simp only [pmexMats_map hT]
  simp only [mapMem, hT, LinearIsometry.inner_map_map, ← map_smul, ← map_sum, ← map_sub, LinearIsometry.norm_map, setV_map]
  split_ifs <;> rfl

omit hT in
theorem loop_map {step : Krylov.Mem W → Krylov.Mem W} {step' : Krylov.Mem W' → Krylov.Mem W'} (h : ∀ s, step' (mapMem L s) = mapMem L (step s)) (m : Nat) :
    ∀ (fuel : Nat) (s : Krylov.Mem W), krylovLoop step' m fuel (mapMem L s) = mapMem L (krylovLoop step m fuel s) := by
  intro fuel
  induction fuel with
  | zero => intro s; rfl
  | succ fuel ih =>
    intro s
    simp only [krylovLoop, h, ih]
    change (if s.j < m ∧ s.happy = false then _ else _) = _
    split <;> rfl

omit hT in
theorem begin_map (clear : Bool) (v : W) (s : Krylov.Mem W) : begin clear (L v) (mapMem L s) = mapMem L (begin clear v s) := by
  unfold begin
  simp only [mapMem, LinearIsometry.norm_map, ← map_smul, setV_map]

omit hT in
theorem accepted_map (s : Krylov.Mem W) : accepted (mapMem L s) = mapMem L (accepted s) := rfl

omit hT in
theorem kiopsUpdate_map (tau : ℝ) (v : W) (s : Krylov.Mem W) : kiopsUpdate tau (L v) (mapMem L s) = L (kiopsUpdate tau v s) := by
  unfold kiopsUpdate
  rw [map_smul, map_sum, LinearIsometry.norm_map]
  simp only [map_smul]
  rfl

omit hT in
theorem inside_map (tau : ℝ) (v : W) (s : Krylov.Mem W) : inside tau (L v) (mapMem L s) = L (inside tau v s) := by
  unfold inside
  by_cases h : 0 < s.j
  · have h' : 0 < (mapMem L s).j := h
    rw [dif_pos h, dif_pos h', map_smul, map_sum, LinearIsometry.norm_map]
    simp only [map_smul]
    rfl
  · have h' : ¬ 0 < (mapMem L s).j := h
    rw [dif_neg h, dif_neg h', map_zero]

omit hT in
theorem pmexUpdate_map (tau : ℝ) (v : W) (s : Krylov.Mem W) : pmexUpdate tau (L v) (mapMem L s) = L (pmexUpdate tau v s) := by
  unfold pmexUpdate
  rw [map_smul, map_sum, LinearIsometry.norm_map]
  simp only [map_smul]
  rfl

end krylov

section call
open WxVerif.Krylov
variable {V V' : Type*} [NormedAddCommGroup V] [InnerProductSpace ℝ V] [NormedAddCommGroup V'] [InnerProductSpace ℝ V'] (L : V →ₗᵢ[ℝ] V')

/-- the isometry on augmented vectors: the extra entries stay -/
noncomputable def aug (p : Nat) : Aug V p →ₗᵢ[ℝ] Aug V' p where
  toFun w := WithLp.toLp 2 (L w.fst, w.snd)
  map_add' x y := by
    change WithLp.toLp 2 (L (x.fst + y.fst), x.snd + y.snd) = WithLp.toLp 2 (L x.fst + L y.fst, x.snd + y.snd)
    rw [map_add]
  map_smul' c x := by
    change WithLp.toLp 2 (L (c • x.fst), c • x.snd) = WithLp.toLp 2 (c • L x.fst, c • x.snd)
    rw [map_smul]
  norm_map' x := by
    rw [WithLp.prod_norm_eq_of_L2, WithLp.prod_norm_eq_of_L2]
    simp

theorem toAug_map {p : Nat} (v : V × (Fin p → ℝ)) : toAug (L v.1, v.2) = aug L p (toAug v) := rfl

theorem start_map (p : Nat) (w : V) (mu now : ℝ) : toAug (startVec p (L w) mu now) = aug L p (toAug (startVec p w mu now)) := rfl

variable {L} {A : V → V} {A' : V' → V'} (hA : ∀ w, A' (L w) = L (A w)) {p : Nat} {uf : Fin p → V} {uf' : Fin p → V'} (hu : ∀ k, uf' k = L (uf k))
include hA hu

theorem augT_map (w : Aug V p) : augT A' uf' (aug L p w) = aug L p (augT A uf w) := by
  rw [augT, augT, ← toAug_map]
  congr 1
  simp only [augMul, aug, map_add, map_sum, map_smul, ← hu, ← hA]
  rfl

theorem adaptive_map (pm : Bool) (mu : ℝ) (iop : Nat) (tol : ℝ) (control : List Seen → Option Move) :
    ∀ (fuel : Nat) (log : List Seen) (rows : List V) (s : Krylov.Mem (Aug V p)) (v : Aug V p) (w : V),
      adaptive pm A' uf' mu iop tol control fuel log (rows.map L) (mapMem (aug L p) s) (aug L p v) (L w) =
        ((adaptive pm A uf mu iop tol control fuel log rows s v w).1.map L, (adaptive pm A uf mu iop tol control fuel log rows s v w).2) := by
  intro fuel
  induction fuel with
  | zero => intro log rows s v w; simp [adaptive]
  | succ fuel ih =>
    intro log rows s v w
    unfold adaptive
    rcases control log with _ | (m | ⟨tau, now, passed⟩)
    · simp
    · dsimp only
      have e : krylovLoop (if pm = true then pmexStep (augT A' uf') tol else kiopsStep (augT A' uf') iop tol) m m (mapMem (aug L p) s) =
          mapMem (aug L p) (krylovLoop (if pm = true then pmexStep (augT A uf) tol else kiopsStep (augT A uf) iop tol) m m s) := by
        refine loop_map (fun s => ?_) m m s
        cases pm
        · exact kiopsStep_map (augT_map hA hu) iop tol s
        · exact pmexStep_map (augT_map hA hu) tol s
      rw [e, LinearIsometry.norm_map]
      exact ih _ _ _ _ _
    · dsimp only
      have e : (if pm = true then pmexUpdate tau (aug L p v) (mapMem (aug L p) s) else kiopsUpdate tau (aug L p v) (mapMem (aug L p) s)).fst =
          L (if pm = true then pmexUpdate tau v s else kiopsUpdate tau v s).fst := by
        cases pm
        · exact congrArg WithLp.fst (kiopsUpdate_map (L := aug L p) tau v s)
        · exact congrArg WithLp.fst (pmexUpdate_map (L := aug L p) tau v s)
      have e2 : (passed.map fun t => (inside t (aug L p v) (mapMem (aug L p) s)).fst) = (passed.map fun t => (inside t v s).fst).map L := by
        rw [List.map_map]
        exact List.map_congr_left fun t _ => congrArg WithLp.fst (inside_map (L := aug L p) t v s)
      rw [e, e2, start_map, LinearIsometry.norm_map, accepted_map, begin_map, ← List.map_append]
      exact ih _ _ _ _ _

end call

section gmres
open WxVerif.Gmres
variable {W W' : Type*} [NormedAddCommGroup W] [InnerProductSpace ℝ W] [NormedAddCommGroup W'] [InnerProductSpace ℝ W'] (L : W →ₗᵢ[ℝ] W')

/-- the arrays of a cycle with the vectors mapped -/
def mapArr (s : Arr W) : Arr W' := ⟨fun i => L (s.V i), fun i => L (s.Z i), s.R, s.K, s.T⟩

theorem upd_map (f : Nat → W) (i : Nat) (v : W) : upd (fun k => L (f k)) i (L v) = fun k => L (upd f i v k) := by
  funext k
  unfold upd
  split <;> rfl

theorem ortho_map (k : Nat) (s : Arr W) : ortho k (mapArr L s) = (mapArr L (ortho k s).1, (ortho k s).2) := by
  have push : ∀ (f : Nat → W) (i : Nat) (v : W), (fun k => L (upd f i v k)) = upd (fun k => L (f k)) i (L v) := fun f i v => (upd_map L f i v).symm
  unfold ortho
  by_cases h : 0 < k
  · simp only [mapArr, LinearIsometry.inner_map_map, if_pos h, push, map_smul, map_sum, map_sub]
  · simp only [mapArr, LinearIsometry.inner_map_map, if_neg h, push, map_smul, map_sub]

variable {L} {A : W → W} {A' : W' → W'} (hA : ∀ w, A' (L w) = L (A w)) {M : W → W} {M' : W' → W'} (hM : ∀ w, M' (L w) = L (M w))
include hA hM

theorem startCycle_map (r : W) : startCycle A' M' (L r) = (mapArr L (startCycle A M r).1, (startCycle A M r).2) := by
  unfold startCycle
  rw [← ortho_map]
  congr 1
  simp only [mapArr, LinearIsometry.norm_map, ← map_smul, hM, hA]
  have z : (fun _ : Nat => (0 : W')) = fun k => L ((fun _ => (0 : W)) k) := by simp
  simp only [z, upd_map]

theorem extend_map (inn : Nat) (s : Arr W × ℝ) :
    extend A' M' inn (mapArr L s.1, s.2) = ((mapArr L (extend A M inn s).1.1, (extend A M inn s).1.2), (extend A M inn s).2) := by
  unfold extend
  have e : ({ mapArr L s.1 with
        Z := upd (mapArr L s.1).Z (inn + 1) (M' ((mapArr L s.1).V (inn + 1)))
        V := upd (mapArr L s.1).V (inn + 2) (s.2 • A' (s.2⁻¹ • M' ((mapArr L s.1).V (inn + 1)))) } : Arr W') =
      mapArr L { s.1 with
        Z := upd s.1.Z (inn + 1) (M (s.1.V (inn + 1)))
        V := upd s.1.V (inn + 2) (s.2 • A (s.2⁻¹ • M (s.1.V (inn + 1)))) } := by
    simp only [mapArr, hM, hA, ← map_smul, upd_map]
  dsimp only
  rw [e, ortho_map]
  simp only [mapArr, ← map_smul, upd_map]

theorem innerLoop_map (tolRel : ℝ) (restart : Nat) : ∀ (left inn : Nat) (s : Arr W × ℝ) (t : Small),
    innerLoop A' M' tolRel restart left inn (mapArr L s.1, s.2) t =
      ((innerLoop A M tolRel restart left inn s t).1, mapArr L (innerLoop A M tolRel restart left inn s t).2.1,
        (innerLoop A M tolRel restart left inn s t).2.2) := by
  intro left
  induction left with
  | zero => intros; rfl
  | succ left ih =>
    intro inn s t
    simp only [innerLoop, extend_map hA hM]
    by_cases h : inn < restart - 1 ∧ |(givens inn (extend A M inn s).2 t).g (inn + 1)| < tolRel
    · rw [if_pos h, if_pos h]
    · rw [if_neg h, if_neg h]
      exact ih _ _ _

theorem cycle_map (tolRel : ℝ) (restart : Nat) (r : W) :
    cycle A' M' tolRel restart (L r) =
      ((cycle A M tolRel restart r).1, mapArr L (cycle A M tolRel restart r).2.1, (cycle A M tolRel restart r).2.2) := by
  unfold cycle
  rw [startCycle_map hA hM, LinearIsometry.norm_map]
  exact innerLoop_map hA hM _ _ _ _ _ _

theorem runCycle_map (tolRel : ℝ) (restart : Nat) (tri : Nat → Small → Option (Nat → ℝ)) (x r : W) :
    runCycle A' M' tolRel restart tri (L x) (L r) = (runCycle A M tolRel restart tri x r).map fun u => (L u.1, u.2) := by
  unfold runCycle
  rw [cycle_map hA hM]
  dsimp only
  rw [Option.map_map]
  congr 1
  funext y
  simp only [update, mapArr, Function.comp, map_sum, map_smul]

omit hM in
theorem rescale_map (b x0 : W) : rescale A' (L b) (L x0) = L (rescale A b x0) := by
  unfold rescale
  simp only [hA, LinearIsometry.inner_map_map, ← map_smul]
  split <;> rfl

end gmres

end WxVerif.Isometry
