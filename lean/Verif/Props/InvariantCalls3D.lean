import Verif.Props.InvariantCalls
import Verif.Props.EulerSphere
import Verif.Spec.ProcessCount
import Mathlib.Topology.Algebra.Module.FiniteDimension

/-!
# C65: mass and potential temperature in runs of the 3D model with the exponential integrators
-/

namespace WxVerif.Props.InvariantCalls3D

open WxVerif.EulerSphere WxVerif.Krylov WxVerif.Calls WxVerif.Quad WxVerif.Spec.ProcessCount WxVerif.Props.Conservation
open WxVerif.Props.EulerSphere (totalMap total_lin C65_conserved_by_rhs)
open WxVerif.Props.InvariantCalls

variable {g : Atm} {f : Floor} {F : ForcingData}

/-- the arrays of a state, as a linear map -/
noncomputable def fieldMap (g : Atm) : State3 g →ₗ[ℝ] Field3 where
  toFun := toField3 g
  map_add' := by
    intro p q
    funext r ek ej ei v c
    simp only [toField3, Pi.add_apply]
    split <;> simp
  map_smul' := by
    intro a q
    funext r ek ej ei v c
    simp only [toField3, Pi.smul_apply, RingHom.id_apply]
    split <;> simp

/-- the total of variable `v` of a state -/
noncomputable def totalState (g : Atm) (f : Floor) (w : Nat → ℝ) (v : Nat) : State3 g →L[ℝ] ℝ :=
  LinearMap.toContinuousLinearMap ((totalMap g f w v).comp (fieldMap g))

theorem totalState_apply (w : Nat → ℝ) (v : Nat) (q : State3 g) :
    totalState g f w v q = total g f w (fun r ek ej ei c => toField3 g q r ek ej ei v c) := rfl

/-- the right-hand side on states has zero totals -/
theorem totalState_tendency (hk : 0 < g.k) (hN : 0 < g.N) (hn : 1 ≤ g.n) (hz : 0 < g.nz) {xs ws : List ℝ} (h : IsGaussRule g.n xs ws)
    (hp : g.pts = arr xs) (hR : g.radius ≠ 0) (ht : OneFloor g f) (hs : SensibleFloor g f) {v : Nat} (hv : v = 0 ∨ v = 4) (q : State3 g) :
    totalState g f (arr ws) v (tendency3 g f F q) = 0 := by
  rw [totalState_apply]
  have e := C65_conserved_by_rhs (F := F) hk hN hn hz h hp hR ht hs v hv (toField3 g q)
  rw [← e]
  show total g f (arr ws) _ = total g f (arr ws) _
  unfold total
  refine Finset.sum_congr rfl fun r hr => Finset.sum_congr rfl fun ek hek => Finset.sum_congr rfl fun ej hej =>
    Finset.sum_congr rfl fun ei hei => Finset.sum_congr rfl fun k hk => Finset.sum_congr rfl fun j hj => Finset.sum_congr rfl fun i hi => ?_
  rw [Finset.mem_range] at hr hek hej hei hk hj hi
  have hc : (k * g.n + j) * g.n + i < g.n * g.n * g.n := by
    have h1 : k * g.n + j + 1 ≤ g.n * g.n := by nlinarith
    nlinarith
  have : toField3 g (tendency3 g f F q) r ek ej ei v ((k * g.n + j) * g.n + i) =
      rhs g f (toField3 g q) F r ek ej ei v ((k * g.n + j) * g.n + i) := by
    unfold toField3
    rw [dif_pos ⟨by rw [← pow_two]; exact hr, hek, hej, hei, by omega, hc⟩]
    rfl
  show _ * (_ * toField3 g (tendency3 g f F q) r ek ej ei v ((k * g.n + j) * g.n + i)) =
    _ * (_ * rhs g f (toField3 g q) F r ek ej ei v ((k * g.n + j) * g.n + i))
  rw [this]

/-- **C65** Whole runs of the 3D model with an EPI integrator and its exponential solver: any configuration, any sequence of steps, any
decisions of the step control, Jacobian products by differences, any number of processes.  After every step the total mass and the total of
density times potential temperature are those of the first state. -/
theorem C65_epi_run (hk : 0 < g.k) (hN : 0 < g.N) (hn : 1 ≤ g.n) (hz : 0 < g.nz) {xs ws : List ℝ} (h : IsGaussRule g.n xs ws)
    (hp : g.pts = arr xs) (hR : g.radius ≠ 0) (ht : OneFloor g f) (hs : SensibleFloor g f) (cfg : Epi.Cfg ℝ) (o : Expo) {eps : ℝ}
    (ho : o.eps = some eps) (control : List (List Seen) → List Seen → Option Move) (start : List Seen → Option Move) (dts : Nat → ℝ)
    (Q0 : State3 g) (n : Nat) (st : Epi.St ℝ (State3 g)) (Q : State3 g) (log : List (List Seen))
    (hrun : epiRun cfg o control start (tendency3 g f F) dts Q0 n = some ((st, Q), log)) (v : Nat) (hv : v = 0 ∨ v = 4) :
    total g f (arr ws) (fun r ek ej ei c => toField3 g Q r ek ej ei v c) =
      total g f (arr ws) (fun r ek ej ei c => toField3 g Q0 r ek ej ei v c) :=
  C64_epi_run (totalState g f (arr ws) v) cfg o control start (fun q => totalState_tendency hk hN hn hz h hp hR ht hs hv q)
    (by rw [ho]; intro h; cases h) dts Q0 n st Q log hrun

/-- **C65** The same for the SRERK integrators, whose solver calls have several output times. -/
theorem C65_srerk_run (hk : 0 < g.k) (hN : 0 < g.N) (hn : 1 ≤ g.n) (hz : 0 < g.nz) {xs ws : List ℝ} (h : IsGaussRule g.n xs ws)
    (hp : g.pts = arr xs) (hR : g.radius ≠ 0) (ht : OneFloor g f) (hs : SensibleFloor g f) (c : List (List ℝ)) (o : Expo) {eps : ℝ}
    (ho : o.eps = some eps) (control : List ℝ → List (List Seen) → List Seen → Option Move) (dts : Nat → ℝ)
    (Q0 : State3 g) (n : Nat) (Q : State3 g) (log : List (List Seen))
    (hrun : srerkRun c o control (tendency3 g f F) dts Q0 n = some (Q, log)) (v : Nat) (hv : v = 0 ∨ v = 4) :
    total g f (arr ws) (fun r ek ej ei c => toField3 g Q r ek ej ei v c) =
      total g f (arr ws) (fun r ek ej ei c => toField3 g Q0 r ek ej ei v c) :=
  C64_srerk_run (totalState g f (arr ws) v) c o control (fun q => totalState_tendency hk hN hn hz h hp hR ht hs hv q)
    (by rw [ho]; intro h; cases h) dts Q0 n Q log hrun

/-- non-vacuity: 24 processes, 3 × 3 elements and 5 levels per tile, 4 points per side, an atmosphere of 30 km over a flat floor; any state, one
hundred steps of EPI 2 of 300 s -/
example (F : ForcingData) (control : List (List Seen) → List Seen → Option Move) (start : List Seen → Option Move) :
    ∃ (g : Atm) (f : Floor) (ws : List ℝ), g.k = 2 ∧ g.N = 3 ∧ g.n = 4 ∧ g.nz = 5 ∧ ∀ Q0 : State3 g,
      ∃ st Q log, epiRun ⟨[[]], 0, 1, 2, 1⟩ ⟨false, 2, 1e-7, 1000, some 1e-8⟩ control start (tendency3 g f F) (fun _ => 300) Q0 100 = some ((st, Q), log) ∧
        total g f (arr ws) (fun r ek ej ei c => toField3 g Q r ek ej ei 0 c) =
          total g f (arr ws) (fun r ek ej ei c => toField3 g Q0 r ek ej ei 0 c) := by
  obtain ⟨xs, ws, hr, h⟩ := WxVerif.Props.Quadrature.C41_rule 4 (by omega) (by omega)
  let g : Atm := ⟨⟨2, 3, 4, arr xs, 6371220, 7.29212e-5, fun _ => ⟨0, 0, 0⟩⟩, 5, 30000, true, 21⟩
  refine ⟨g, EulerSphere.floorOf g fun _ => 0, ws, rfl, rfl, rfl, rfl, fun Q0 => ?_⟩
  obtain ⟨st, Q, log, hrun⟩ := epiRun_some (rhs := tendency3 g (EulerSphere.floorOf g fun _ => 0) F) (cfg := ⟨[[]], 0, 1, 2, 1⟩) rfl
    ⟨false, 2, 1e-7, 1000, some 1e-8⟩ control start (fun _ => 300) Q0 100
  refine ⟨st, Q, log, hrun, C65_epi_run (g := g) (by simp [g]) (by simp [g]) (by simp [g]) (by simp [g]) h rfl (by norm_num [g])
    (EulerSphere.oneFloor_of g _) ?_ _ _ rfl _ _ _ _ _ _ _ _ hrun 0 (Or.inl rfl)⟩
  intro r _ ej _ ei _ c _
  exact ⟨by show (0 : ℝ) < 30000; norm_num, by show -(6371220 : ℝ) < 0; norm_num⟩

end WxVerif.Props.InvariantCalls3D
