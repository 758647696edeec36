import Verif.Lemmas.Isometry
import Verif.Model.Calls
import Verif.Model.Srerk
import Mathlib.Data.List.GetD

/-!
# Steps and solvers commute with a linear map that commutes with the right-hand side
-/

namespace WxVerif.Naturality

open WxVerif

section Linear

variable {V V' : Type*} [AddCommGroup V] [Module ℝ V] [AddCommGroup V'] [Module ℝ V'] {L : V →ₗ[ℝ] V'}

theorem matvecFun_map {rhs : V → V} {rhs' : V' → V'} (hr : ∀ q, rhs' (L q) = L (rhs q)) (eps : ℝ) (Q : V) (dt : ℝ) (v : V) :
    Schemes.matvecFun eps rhs' (L Q) dt (L v) = L (Schemes.matvecFun eps rhs Q dt v) := by
  unfold Schemes.matvecFun
  rw [← map_smul, ← map_add, hr, hr, ← map_sub, ← map_smul]

theorem matvecRat_map {rhs : V → V} {rhs' : V' → V'} (hr : ∀ q, rhs' (L q) = L (rhs q)) (eps : ℝ) (Q : V) (dt : ℝ) (v : V) :
    Schemes.matvecRat eps rhs' (L Q) dt (L v) = L (Schemes.matvecRat eps rhs Q dt v) := by
  have h := matvecFun_map hr eps Q dt v
  unfold Schemes.matvecFun at h
  rw [Schemes.matvecRat, Schemes.matvecRat, h, ← map_smul, ← map_sub]

/-- the state of the integrator with the vectors mapped -/
def mapSt (L : V →ₗ[ℝ] V') (s : Epi.St ℝ V) : Epi.St ℝ V' := ⟨s.prevQ.map L, s.prevRhs.map L, s.dt⟩

theorem addAt_map (vec : List V) (k : Nat) (x : V) : Epi.addAt (vec.map L) k (L x) = (Epi.addAt vec k x).map (List.map L) := by
  unfold Epi.addAt
  rw [List.getElem?_map]
  cases vec[k]? with
  | none => rfl
  | some v => simp

theorem addColumn_map (r : V) : ∀ (as : List ℝ) (vec : List V) (k : Nat),
    Epi.addColumn (L r) (vec.map L) k as = (Epi.addColumn r vec k as).map (List.map L) := by
  intro as
  induction as with
  | nil => intro vec k; rfl
  | cons a as ih =>
    intro vec k
    unfold Epi.addColumn
    rw [← map_smul, addAt_map]
    cases Epi.addAt vec k (a • r) with
    | none => rfl
    | some v => exact ih v (k + 1)

theorem substepLoop_map {f : V → ℝ → V} {f' : V' → ℝ → V'} (h : ∀ q dt, f' (L q) dt = L (f q dt)) (dt : ℝ) : ∀ (n : Nat) (Q : V),
    Epi.substepLoop f' dt n (L Q) = L (Epi.substepLoop f dt n Q) := by
  intro n
  induction n with
  | zero => intro Q; rfl
  | succ n ih => intro Q; unfold Epi.substepLoop; rw [h, ih]

theorem vec0_map (cfg : Epi.Cfg ℝ) (f : V) : Epi.vec0 cfg (L f) = (Epi.vec0 cfg f).map L := by
  unfold Epi.vec0
  rw [List.map_set, List.map_replicate, map_zero]

theorem checkDt_map (st : Epi.St ℝ V) (dt : ℝ) : Epi.checkDt (mapSt L st) dt = mapSt L (Epi.checkDt st dt) := by
  unfold Epi.checkDt mapSt
  dsimp only
  split <;> rfl

/-- two sets of external functions of an EPI step related by `L` -/
structure Related (L : V →ₗ[ℝ] V') (e : Epi.Ext ℝ V) (e' : Epi.Ext ℝ V') : Prop where
  rhs : ∀ q, e'.rhs (L q) = L (e.rhs q)
  jac : ∀ q v, e'.jac (L q) (L v) = L (e.jac q v)
  phi : ∀ q dt vec, e'.phi (L q) dt (vec.map L) = L (e.phi q dt vec)
  initStep : ∀ q dt, e'.initStep (L q) dt = L (e.initStep q dt)

variable {e : Epi.Ext ℝ V} {e' : Epi.Ext ℝ V'} (he : Related L e e')
include he

theorem fill_map (cfg : Epi.Cfg ℝ) (st : Epi.St ℝ V) (Q f : V) : ∀ (n i : Nat) (vec : List V),
    Epi.fill cfg e' (mapSt L st) (L Q) (L f) i n (vec.map L) = (Epi.fill cfg e st Q f i n vec).map (List.map L) := by
  intro n
  induction n with
  | zero => intro i vec; rfl
  | succ n ih =>
    intro i vec
    unfold Epi.fill
    simp only [mapSt, List.getElem?_map]
    cases st.prevQ[i]? with
    | none => rfl
    | some pq =>
      cases st.prevRhs[i]? with
      | none => rfl
      | some pr =>
        simp only [Option.map_some, Option.bind_some]
        cases Epi.column cfg.A i with
        | none => rfl
        | some col =>
          simp only [Option.bind_some]
          rw [← map_sub, ← map_sub, he.jac, ← map_sub, addColumn_map]
          cases Epi.addColumn (pr - f - e.jac Q (pq - Q)) vec cfg.first col with
          | none => rfl
          | some v => exact ih (i + 1) v

theorem step_map (cfg : Epi.Cfg ℝ) (st : Epi.St ℝ V) (Q : V) (dt : ℝ) :
    Epi.step cfg e' (mapSt L st) (L Q) dt = (Epi.step cfg e st Q dt).map fun r => (mapSt L r.1, L r.2) := by
  unfold Epi.step
  rw [checkDt_map]
  generalize Epi.checkDt st dt = s
  dsimp only
  have hl : (mapSt L s).prevQ.length = s.prevQ.length := List.length_map ..
  rw [hl, he.rhs, vec0_map, fill_map he]
  split
  · split
    · rfl
    · rw [substepLoop_map he.initStep]
      rfl
  · cases Epi.fill cfg e s Q (e.rhs Q) 0 cfg.nPrev (Epi.vec0 cfg (e.rhs Q)) with
    | none => rfl
    | some vec =>
      simp only [Option.map_some]
      rw [he.phi, ← map_smul, ← map_add]
      congr 2
      split
      · simp [mapSt]
      · rfl

end Linear

section Newton

variable {V V' : Type*} [AddCommGroup V] [Module ℝ V] [AddCommGroup V'] [Module ℝ V'] {L : V →ₗ[ℝ] V'}

/-- two sets of functions of the Newton solver related by `L` -/
structure RelatedSolver (L : V →ₗ[ℝ] V') (p : Newton.Solver ℝ V) (p' : Newton.Solver ℝ V') : Prop where
  F : ∀ x, p'.F (L x) = L (p.F x)
  norm : ∀ x, p'.norm (L x) = p.norm x
  normInf : ∀ x, p'.normInf (L x) = p.normInf x
  solve : ∀ x f tol, p'.solve (L x) (L f) tol = L (p.solve x f tol)
  search : p'.search = p.search
  tol : p'.tol = p.tol

variable {p : Newton.Solver ℝ V} {p' : Newton.Solver ℝ V'} (hp : RelatedSolver L p p')
include hp

theorem runSearch_map (x dx : V) : ∀ (s : Newton.Search ℝ) (m : Newton.Memo ℝ V),
    Newton.runSearch p'.F p'.norm (L x) (L dx) s ⟨m.s, L m.Fx, m.phi⟩ =
      ((Newton.runSearch p.F p.norm x dx s m).1, ⟨(Newton.runSearch p.F p.norm x dx s m).2.s, L (Newton.runSearch p.F p.norm x dx s m).2.Fx,
        (Newton.runSearch p.F p.norm x dx s m).2.phi⟩) := by
  intro s
  induction s with
  | done s => intro m; rfl
  | ask s store next ih =>
    intro m
    have hphi : Newton.phi p'.F p'.norm (L x) (L dx) ⟨m.s, L m.Fx, m.phi⟩ s store =
        ((Newton.phi p.F p.norm x dx m s store).1, ⟨(Newton.phi p.F p.norm x dx m s store).2.s, L (Newton.phi p.F p.norm x dx m s store).2.Fx,
          (Newton.phi p.F p.norm x dx m s store).2.phi⟩) := by
      unfold Newton.phi
      dsimp only
      rw [← map_smul, ← map_add, hp.F, hp.norm]
      by_cases h : s = m.s
      · rw [if_pos h, if_pos h]
      · rw [if_neg h, if_neg h]
        cases store <;> rfl
    unfold Newton.runSearch
    rw [hphi]
    exact ih _ _

theorem newPoint_map (x Fx dx : V) : Newton.newPoint p' (L x) (L Fx) (L dx) =
    (L (Newton.newPoint p x Fx dx).1, L (Newton.newPoint p x Fx dx).2.1, (Newton.newPoint p x Fx dx).2.2) := by
  unfold Newton.newPoint
  rw [hp.search]
  cases p.search with
  | none => simp only [← map_add, hp.F, hp.norm]
  | some search =>
    dsimp only
    unfold Newton.lineSearch
    dsimp only
    rw [hp.norm, runSearch_map hp x dx (search (p.norm Fx ^ 2)) ⟨0, Fx, p.norm Fx ^ 2⟩]
    simp only [← map_smul, ← map_add, hp.F]
    split <;> simp only [hp.norm]

/-- the variables of the loop with the vectors mapped -/
def mapState (L : V →ₗ[ℝ] V') (s : Newton.State ℝ V) : Newton.State ℝ V' := ⟨L s.x, L s.Fx, s.dxNorm, s.FxNorm, s.eta, s.f0Norm, s.residuals⟩

theorem update_map (st : Newton.State ℝ V) : Newton.update p' (mapState L st) = mapState L (Newton.update p st) := by
  unfold Newton.update
  simp only [mapState, hp.solve, ← map_neg, newPoint_map hp, hp.normInf]

theorem observe_map (st : Newton.State ℝ V) : Newton.observe p' (mapState L st) = mapState L (Newton.observe p st) := by
  unfold Newton.observe
  simp only [mapState, hp.normInf]

theorem test_map (st : Newton.State ℝ V) : Newton.test p' (mapState L st) = Newton.test p st := by
  unfold Newton.test
  simp only [mapState, hp.normInf, hp.tol]

theorem newtonLoop_map : ∀ (n it : Nat) (st : Newton.State ℝ V),
    Newton.loop p' n it (mapState L st) = (mapState L (Newton.loop p n it st).1, (Newton.loop p n it st).2) := by
  intro n
  induction n with
  | zero => intro it st; rfl
  | succ n ih =>
    intro it st
    unfold Newton.loop
    rw [observe_map hp, test_map hp, update_map hp, ih]
    split <;> rfl

theorem newtonKrylov_map (x0 : V) (maxiter : Nat) :
    Newton.newtonKrylov p' (L x0) maxiter = (Newton.newtonKrylov p x0 maxiter).map fun a => ⟨L a.x, a.iterations, a.residuals⟩ := by
  unfold Newton.newtonKrylov
  split
  · rfl
  · have : Newton.start p' (L x0) = mapState L (Newton.start p x0) := by
      simp only [Newton.start, mapState, hp.F, hp.norm]
    rw [this, newtonLoop_map hp]
    rfl

end Newton

section Schemes

variable {V V' : Type*} [AddCommGroup V] [Module ℝ V] [AddCommGroup V'] [Module ℝ V'] {L : V →ₗ[ℝ] V'}

/-- two nonlinear solvers that find related zeros of related functions -/
def RelatedNewton (L : V →ₗ[ℝ] V') (newton : Schemes.Newton V) (newton' : Schemes.Newton V') : Prop :=
  ∀ F F', (∀ x, F' (L x) = L (F x)) → ∀ x, newton' F' (L x) = L (newton F x)

variable {rhs : V → V} {rhs' : V' → V'} (hr : ∀ q, rhs' (L q) = L (rhs q)) {newton : Schemes.Newton V} {newton' : Schemes.Newton V'}
  (hn : RelatedNewton L newton newton')
include hr hn

theorem backwardEuler_map (Q : V) (dt : ℝ) : Schemes.backwardEuler newton' rhs' (L Q) dt = L (Schemes.backwardEuler newton rhs Q dt) :=
  hn _ _ (fun x => by rw [hr]; simp only [map_sub, map_smul]) Q

theorem crankNicolson_map (Q : V) (dt : ℝ) : Schemes.crankNicolson newton' rhs' (L Q) dt = L (Schemes.crankNicolson newton rhs Q dt) :=
  hn _ _ (fun x => by rw [hr, hr]; simp only [map_sub, map_smul, map_add]) Q

theorem bdf2Start_map (initDt : ℝ) : ∀ (n : Nat) (Q : V), Schemes.bdf2Start newton' rhs' initDt n (L Q) = L (Schemes.bdf2Start newton rhs initDt n Q) := by
  intro n
  induction n with
  | zero => intro Q; rfl
  | succ n ih =>
    intro Q
    unfold Schemes.bdf2Start
    rw [hn (fun Qp => initDt⁻¹ • (Qp - Q) - (1 / 2 : ℝ) • rhs Qp) _ (fun x => by rw [hr]; simp only [map_sub, map_smul]) Q, ih]

theorem bdf2_map (substeps : Nat) (Qprev : Option V) (Q : V) (dt : ℝ) : Schemes.bdf2 newton' rhs' substeps (Qprev.map L) (L Q) dt =
    ((Schemes.bdf2 newton rhs substeps Qprev Q dt).1.map L, L (Schemes.bdf2 newton rhs substeps Qprev Q dt).2) := by
  cases Qprev with
  | none => simp only [Schemes.bdf2, Option.map_none, bdf2Start_map hr hn, Option.map_some]
  | some Qp =>
    simp only [Schemes.bdf2, Option.map_some]
    rw [hn (fun Qn => dt⁻¹ • (Qn - (4 / 3 : ℝ) • Q + (1 / 3 : ℝ) • Qp) - (2 / 3 : ℝ) • rhs Qn) _
      (fun x => by rw [hr]; simp only [map_sub, map_smul, map_add]) Q]

theorem sdirk_map (g : ℝ) (Q : V) (dt : ℝ) : Schemes.sdirk newton' g rhs' (L Q) dt = L (Schemes.sdirk newton g rhs Q dt) := by
  unfold Schemes.sdirk
  dsimp only
  rw [hn (fun Q1 => dt⁻¹ • (Q1 - Q) - g • rhs Q1) _ (fun x => by rw [hr]; simp only [map_sub, map_smul]) Q, hr]
  rw [hn (fun Q2 => dt⁻¹ • (Q2 - Q) - (1 - 2 * g) • rhs (newton (fun Q1 => dt⁻¹ • (Q1 - Q) - g • rhs Q1) Q) - g • rhs Q2) _
    (fun x => by rw [hr]; simp only [map_sub, map_smul]) Q, hr]
  simp only [map_add, map_smul]

theorem imex2_map {rhsE : V → V} {rhsE' : V' → V'} (hE : ∀ q, rhsE' (L q) = L (rhsE q)) (Q : V) (dt : ℝ) :
    Schemes.imex2 newton' rhsE' rhs' (L Q) dt = L (Schemes.imex2 newton rhsE rhs Q dt) := by
  unfold Schemes.imex2
  dsimp only
  rw [hn (fun v => v - (dt / 2) • rhs v - (Q + (dt / 2) • rhsE Q)) _ (fun x => by rw [hr, hE]; simp only [map_sub, map_smul, map_add]) Q, hr, hE]
  simp only [map_add, map_smul]

end Schemes

section Rosenbrock

variable {V V' : Type*} [AddCommGroup V] [Module ℝ V] [AddCommGroup V'] [Module ℝ V'] {L : V →ₗ[ℝ] V'}

/-- two linear solvers that find related solutions of related systems -/
def RelatedLinear (L : V →ₗ[ℝ] V') (linear : Schemes.Linear V) (linear' : Schemes.Linear V') : Prop :=
  ∀ A A', (∀ x, A' (L x) = L (A x)) → ∀ b x, linear' A' (L b) (L x) = L (linear A b x)

/-- two exponential solvers with related results for related operators -/
def RelatedPhi (L : V →ₗ[ℝ] V') (phi : Schemes.Phi V) (phi' : Schemes.Phi V') : Prop :=
  ∀ A A', (∀ x, A' (L x) = L (A x)) → ∀ a b, phi' A' (L a) (L b) = L (phi A a b)

variable {rhs : V → V} {rhs' : V' → V'} (hr : ∀ q, rhs' (L q) = L (rhs q)) {linear : Schemes.Linear V} {linear' : Schemes.Linear V'}
  (hl : RelatedLinear L linear linear')
include hr hl

theorem ros2_map (eps : ℝ) (Q : V) (dt : ℝ) : Schemes.ros2 linear' eps rhs' (L Q) dt = L (Schemes.ros2 linear eps rhs Q dt) := by
  unfold Schemes.ros2
  dsimp only
  rw [matvecRat_map hr, hr, ← map_smul, ← map_add]
  exact hl _ _ (fun x => matvecRat_map hr eps Q dt x) _ _

variable {rhsI : V → V} {rhsI' : V' → V'} (hI : ∀ q, rhsI' (L q) = L (rhsI q)) {phi : Schemes.Phi V} {phi' : Schemes.Phi V'} (hp : RelatedPhi L phi phi')
include hI hp

variable {jF jI : V → V → V} {jF' jI' : V' → V' → V'} (hjF : ∀ q v, jF' (L q) (L v) = L (jF q v)) (hjI : ∀ q v, jI' (L q) (L v) = L (jI q v))
include hjF hjI

theorem rosexp2_map (eps : ℝ) (Q : V) (dt : ℝ) :
    Schemes.rosexp2 linear' phi' eps rhs' rhsI' jF' jI' (L Q) dt = L (Schemes.rosexp2 linear phi eps rhs rhsI jF jI Q dt) := by
  unfold Schemes.rosexp2
  dsimp only
  rw [matvecRat_map hI, hr, ← map_zero L,
    hp (fun v => Schemes.matvecStep jF Q dt v - Schemes.matvecStep jI Q dt v) _
      (fun x => by simp only [Schemes.matvecStep, hjF, hjI, map_sub, map_smul]), ← map_smul, ← map_add]
  exact hl _ _ (fun x => matvecRat_map hI eps Q dt x) _ _

theorem partrosexp2_map (Q : V) (dt : ℝ) :
    Schemes.partrosexp2 linear' phi' rhs' rhsI' jF' jI' (L Q) dt = L (Schemes.partrosexp2 linear phi rhs rhsI jF jI Q dt) := by
  unfold Schemes.partrosexp2
  dsimp only
  have e1 : (1 / 2 : ℝ) • L (rhsI Q) = L ((1 / 2 : ℝ) • rhsI Q) := (map_smul L _ _).symm
  have e2 : L (rhs Q) - L (rhsI Q) = L (rhs Q - rhsI Q) := (map_sub L _ _).symm
  have e3 : ∀ v, Schemes.matvecStep jI' (L Q) dt (L v) = L (Schemes.matvecStep jI Q dt v) := fun v => by rw [Schemes.matvecStep, hjI, Schemes.matvecStep, map_smul]
  rw [e3, hr, hI, e1, e2,
    hp (fun v => Schemes.matvecStep jF Q dt v - Schemes.matvecStep jI Q dt v) _
      (fun x => by simp only [Schemes.matvecStep, hjF, hjI, map_sub, map_smul]), ← map_add, ← map_smul, ← map_smul, ← map_sub, ← map_add]
  exact hl _ _ (fun x => by rw [e3, map_sub, map_smul]) _ _

end Rosenbrock

section Srerk

variable {V V' : Type*} [AddCommGroup V] [Module ℝ V] [AddCommGroup V'] [Module ℝ V'] {L : V →ₗ[ℝ] V'}

/-- two sets of external functions of an SRERK step related by `L` -/
structure RelatedStages (L : V →ₗ[ℝ] V') (e : Srerk.Ext ℝ V) (e' : Srerk.Ext ℝ V') : Prop where
  rhs : ∀ q, e'.rhs (L q) = L (e.rhs q)
  jac : ∀ q v, e'.jac (L q) (L v) = L (e.jac q v)
  phi : ∀ nodes q dt vec, e'.phi nodes (L q) dt (vec.map L) = (e.phi nodes q dt vec).map L

variable {e : Srerk.Ext ℝ V} {e' : Srerk.Ext ℝ V'} (he : RelatedStages L e e')
include he

omit he in
theorem matRows_map (alpha : List (List ℝ)) (rz : List V) : Srerk.matRows alpha (rz.map L) = (Srerk.matRows alpha rz).map L := by
  unfold Srerk.matRows
  rw [List.map_map]
  refine List.map_congr_left fun row hrow => ?_
  rw [Function.comp_apply, map_list_sum]
  congr 1
  clear hrow
  induction row generalizing rz with
  | nil => rfl
  | cons a row ih =>
    cases rz with
    | nil => rfl
    | cons r rz =>
      have := ih rz
      simp only [List.map_cons, List.zipWith_cons_cons, map_smul]
      rw [this]

theorem project_map (Q : V) (dt : ℝ) (f : V) (alpha : List (List ℝ)) (nodes : List ℝ) (z : List V) :
    Srerk.project e' (L Q) dt (L f) alpha nodes (z.map L) = (Srerk.project e Q dt f alpha nodes z).map L := by
  unfold Srerk.project
  dsimp only
  rw [← he.phi, List.map_append, ← matRows_map]
  have h0 : [0, L f, 0] = [0, f, 0].map L := by simp
  rw [h0]
  congr 3
  simp only [List.map_map]
  refine List.map_congr_left fun v _ => ?_
  simp only [Function.comp_apply]
  rw [← map_smul, ← map_add, he.rhs, ← map_sub, ← map_sub, he.jac, ← map_sub]

theorem projections_map (Q : V) (dt : ℝ) (f : V) : ∀ (c : List (List ℝ)) (prev : List ℝ) (z : List V),
    Srerk.projections e' (L Q) dt (L f) prev c (z.map L) = (Srerk.projections e Q dt f prev c z).map L := by
  intro c
  induction c with
  | nil => intro prev z; rfl
  | cons nodes rest ih =>
    intro prev z
    unfold Srerk.projections
    rw [project_map he, ih]

theorem srerk_map (c : List (List ℝ)) (Q : V) (dt : ℝ) : Srerk.step c e' (L Q) dt = (Srerk.step c e Q dt).map L := by
  unfold Srerk.step
  cases c with
  | nil => rfl
  | cons c0 rest =>
    dsimp only
    have h0 : [0, e'.rhs (L Q)] = [0, e.rhs Q].map L := by simp [he.rhs]
    rw [h0, he.phi, he.rhs, projections_map he]
    match Srerk.projections e Q dt (e.rhs Q) c0 rest (e.phi c0 Q dt [0, e.rhs Q]) with
    | [] => rfl
    | [v] => simp
    | _ :: _ :: _ => rfl

end Srerk

end WxVerif.Naturality
