import Verif.Props.ProcessCount3D
import Verif.Props.InvariantNewton

/-!
# C84: runs of Ros2 with its linear solver on two numbers of processes
-/

namespace WxVerif.Props.ProcessCountRos2

open WxVerif WxVerif.Gmres WxVerif.Calls WxVerif.Schemes WxVerif.Reorder WxVerif.Spec.Decomposition WxVerif.Spec.ProcessCount
open WxVerif.Props.ProcessCount WxVerif.Props.InvariantNewton
open WxVerif.ShallowWater (Grid Topography)
open WxVerif.EulerSphere (Atm Floor ForcingData)

/-- the settings of the linear solver of Ros2 -/
structure Settings where
  eps : ℝ
  tol : ℝ
  restart : Nat
  maxiter : Nat
  tri : Nat → Small → Option (Nat → ℝ)

section generic
variable {ι ι' : Type} [Fintype ι] [Fintype ι']

/-- a run of Ros2 seen by process `p`, each process holding `len` of the entries and testing those that it owns for stagnation -/
noncomputable def run {P : Type*} (o : Settings) (len : Nat) (own : ι → P) (p : P) (rhs : EuclideanSpace ℝ ι → EuclideanSpace ℝ ι) (dts : Nat → ℝ)
    (Q0 : EuclideanSpace ℝ ι) (n : Nat) : Option (EuclideanSpace ℝ ι) :=
  after (fun s dt => s.bind fun Q => ros2Step o.eps o.tol o.restart len o.maxiter o.tri id
    (fun q (u x : EuclideanSpace ℝ ι) => stagnates (fun i => own i = q) u x) p rhs Q dt) dts (some Q0) n

/-- in the linear system of the step of length `dt` from `Q` no process finds that its part of the solution has stopped changing -/
def QuietStep {P : Type*} (o : Settings) (own : ι → P) (rhs : EuclideanSpace ℝ ι → EuclideanSpace ℝ ι) (Q : EuclideanSpace ℝ ι) (dt : ℝ) : Prop :=
  let A := matvecRat o.eps rhs Q dt
  let b := A Q + dt • rhs Q
  Quiet A b (o.tol * ‖b‖) (runCycle A id (o.tol * ‖b‖) o.restart o.tri) (fun q (u x : EuclideanSpace ℝ ι) => stagnates (fun i => own i = q) u x) o.maxiter Q

variable {e : ι ≃ ι'}

theorem step_map {P P' : Type*} (o : Settings) {len len' : Nat} (hl : o.restart < len) (hl' : o.restart < len') (own : ι → P) (own' : ι' → P') (p : P) (p' : P')
    {rhs : EuclideanSpace ℝ ι → EuclideanSpace ℝ ι} {rhs' : EuclideanSpace ℝ ι' → EuclideanSpace ℝ ι'} (hr : ∀ w, rhs' (reorder e w) = reorder e (rhs w))
    (Q : EuclideanSpace ℝ ι) (dt : ℝ) (hq : QuietStep o own rhs Q dt) (hq' : QuietStep o own' rhs' (reorder e Q) dt) :
    ros2Step o.eps o.tol o.restart len' o.maxiter o.tri id (fun q (u x : EuclideanSpace ℝ ι') => stagnates (fun i => own' i = q) u x) p' rhs' (reorder e Q) dt =
      (ros2Step o.eps o.tol o.restart len o.maxiter o.tri id (fun q (u x : EuclideanSpace ℝ ι) => stagnates (fun i => own i = q) u x) p rhs Q dt).map (reorder e) := by
  have hA : ∀ w, matvecRat o.eps rhs' (reorder e Q) dt (reorder e w) = reorder e (matvecRat o.eps rhs Q dt w) := by
    intro w
    unfold matvecRat
    rw [← map_smul, ← map_add, hr, hr, ← map_sub, ← map_smul, ← map_smul, ← map_sub]
  have hb : matvecRat o.eps rhs' (reorder e Q) dt (reorder e Q) + dt • rhs' (reorder e Q) = reorder e (matvecRat o.eps rhs Q dt Q + dt • rhs Q) := by
    rw [hA, hr, ← map_smul, ← map_add]
  unfold QuietStep at hq hq'
  dsimp only at hq hq'
  rw [hb, LinearIsometry.norm_map] at hq'
  haveI : Nonempty P := ⟨p⟩
  haveI : Nonempty P' := ⟨p'⟩
  have key := C84_fgmres_partial (e := e) (M := id) (M' := id) hA (fun _ => rfl) own own' (matvecRat o.eps rhs Q dt Q + dt • rhs Q) Q o.tol o.restart len len'
    o.maxiter hl hl' false o.tri hq hq'
  unfold ros2Step
  dsimp only
  rw [hb, LinearIsometry.norm_map]
  revert key
  generalize fgmresAll (matvecRat o.eps rhs Q dt) _ _ _ _ _ _ _ _ _ = T
  generalize fgmresAll (matvecRat o.eps rhs' (reorder e Q) dt) _ _ _ _ _ _ _ _ _ = T'
  intro key
  cases T <;> cases T' <;> simp only [SameAnswer] at key
  · exact congrArg (fun a => some a.x) (key p p')
  · rfl

theorem run_map {P P' : Type*} (o : Settings) {len len' : Nat} (hl : o.restart < len) (hl' : o.restart < len') (own : ι → P) (own' : ι' → P') (p : P) (p' : P')
    {rhs : EuclideanSpace ℝ ι → EuclideanSpace ℝ ι} {rhs' : EuclideanSpace ℝ ι' → EuclideanSpace ℝ ι'} (hr : ∀ w, rhs' (reorder e w) = reorder e (rhs w))
    (dts : Nat → ℝ) (Q0 : EuclideanSpace ℝ ι) (n : Nat)
    (hq : ∀ k < n, ∀ Q, run o len own p rhs dts Q0 k = some Q → QuietStep o own rhs Q (dts k))
    (hq' : ∀ k < n, ∀ Q, run o len' own' p' rhs' dts (reorder e Q0) k = some Q → QuietStep o own' rhs' Q (dts k)) :
    run o len' own' p' rhs' dts (reorder e Q0) n = (run o len own p rhs dts Q0 n).map (reorder e) := by
  induction n with
  | zero => rfl
  | succ n ih =>
    have ih := ih (fun k hk => hq k (by omega)) (fun k hk => hq' k (by omega))
    show (run o len' own' p' rhs' dts (reorder e Q0) n).bind _ = ((run o len own p rhs dts Q0 n).bind _).map _
    have hqn := hq n (by omega)
    have hqn' := hq' n (by omega)
    rw [ih] at hqn' ⊢
    cases h : run o len own p rhs dts Q0 n with
    | none => rfl
    | some Q =>
      rw [h] at hqn'
      exact step_map o hl hl' own own' p p' hr Q (dts n) (hqn Q h) (hqn' _ rfl)

end generic

/-- **C84**, Ros2 with FGMRES: from the same state on two numbers of processes whose parts are longer than a cycle of the linear solver, after any number of
steps both runs have raised or have the same state on every process — as long as no process finds its part of a solution stagnant, see
`C84_stagnation_fails`. -/
theorem C84_ros2_partial {g g' : Grid} (hs : SameSphere g g') {t t' T : Topography} (ht : HoldsTopo g t T) (ht' : HoldsTopo g' t' T) {P P' : Type*}
    (p : P) (p' : P') (o : Settings) {len len' : Nat} (hl : o.restart < len) (hl' : o.restart < len') (own : Points g → P) (own' : Points g' → P')
    (dts : Nat → ℝ) (q : State g) (q' : State g') (same : SameState g g' q q') (n : Nat)
    (hq : ∀ k < n, ∀ Q, run o len own p (tendency g t) dts q k = some Q → QuietStep o own (tendency g t) Q (dts k))
    (hq' : ∀ k < n, ∀ Q, run o len' own' p' (tendency g' t') dts q' k = some Q → QuietStep o own' (tendency g' t') Q (dts k)) :
    Both (SameState g g') (run o len own p (tendency g t) dts q n) (run o len' own' p' (tendency g' t') dts q' n) := by
  obtain ⟨e, he⟩ := exists_points hs
  obtain rfl := (sameState_iff he q q').1 same
  rw [run_map o hl hl' own own' p p' (tendency_map hs he ht ht') dts q n hq hq']
  cases run o len own p (tendency g t) dts q n with
  | none => trivial
  | some Q => exact (sameState_iff he _ _).2 rfl

/-- **C84** The same in 3D. -/
theorem C84_euler_ros2_partial {g g' : Atm} (hg : whole3 g = whole3 g') {f f' fl : Floor} (hf : HoldsFloor g f fl) (hf' : HoldsFloor g' f' fl)
    {F F' Fo : ForcingData} (hF : HoldsForcing g F Fo) (hF' : HoldsForcing g' F' Fo) {P P' : Type*}
    (p : P) (p' : P') (o : Settings) {len len' : Nat} (hl : o.restart < len) (hl' : o.restart < len') (own : Points3 g → P) (own' : Points3 g' → P')
    (dts : Nat → ℝ) (q : State3 g) (q' : State3 g') (same : SameState3 g g' q q') (n : Nat)
    (hq : ∀ k < n, ∀ Q, run o len own p (tendency3 g f F) dts q k = some Q → QuietStep o own (tendency3 g f F) Q (dts k))
    (hq' : ∀ k < n, ∀ Q, run o len' own' p' (tendency3 g' f' F') dts q' k = some Q → QuietStep o own' (tendency3 g' f' F') Q (dts k)) :
    Both (SameState3 g g') (run o len own p (tendency3 g f F) dts q n) (run o len' own' p' (tendency3 g' f' F') dts q' n) := by
  obtain ⟨e, he⟩ := ProcessCount3D.exists_points hg
  obtain rfl := (ProcessCount3D.sameState_iff he q q').1 same
  rw [run_map o hl hl' own own' p p' (ProcessCount3D.tendency_map hg he hf hf' hF hF') dts q n hq hq']
  cases run o len own p (tendency3 g f F) dts q n with
  | none => trivial
  | some Q => exact (ProcessCount3D.sameState_iff he _ _).2 rfl

/-- no process finds stagnation in a single pass from the zero vector, whatever the right-hand side and the small problem give -/
theorem quiet_zero {ι : Type} [Fintype ι] {P : Type*} (o : Settings) (h1 : o.maxiter = 1) (own : ι → P) (rhs : EuclideanSpace ℝ ι → EuclideanSpace ℝ ι) (dt : ℝ) :
    QuietStep o own rhs 0 dt := by
  unfold QuietStep
  dsimp only
  rw [h1]
  intro _ u hu
  refine ⟨fun q => ?_, fun _ => trivial⟩
  rintro ⟨⟨i, hi, hx⟩, h⟩
  have := h i hi hx
  simp only [zero_add] at hx this
  rw [div_self hx] at this
  norm_num at this

/-- non-vacuity: one step with one pass of the linear solver in 3D, from the zero vector, cut for six processes with 6 × 6 × 4 elements and for fifty-four with
2 × 2 × 4, over any floor; a cycle has 20 vectors and the parts have 5760 and 640 numbers with 2 points per side -/
example (a : Atm) (hn : 0 < a.n) (ζ : Nat → ℝ × ℝ → ℝ) (Fo : ForcingData) (tri : Nat → Small → Option (Nat → ℝ)) :
    let g : Atm := { a with k := 1, N := 6, nz := 4 }
    let g' : Atm := { a with k := 3, N := 2, nz := 4 }
    ∀ (own : Points3 g → Fin 6) (own' : Points3 g' → Fin 54) (p : Fin 6) (p' : Fin 54),
    Both (SameState3 g g')
      (run ⟨1e-8, 1e-7, 20, 1, tri⟩ 5760 own p (tendency3 g (Decomposition3D.floorOf g ζ) (Decomposition3D.cutForcing g Fo)) (fun _ => 300) (0 : State3 g) 1)
      (run ⟨1e-8, 1e-7, 20, 1, tri⟩ 640 own' p' (tendency3 g' (Decomposition3D.floorOf g' ζ) (Decomposition3D.cutForcing g' Fo)) (fun _ => 300) (0 : State3 g') 1) := by
  intro g g' own own' p p'
  refine C84_euler_ros2_partial (g := g) (g' := g') rfl (Decomposition3D.C83_floor g hn ζ) (Decomposition3D.C83_floor g' hn ζ) (Decomposition3D.cutForcing_holds g Fo)
    (Decomposition3D.cutForcing_holds g' Fo) p p' _ (by norm_num) (by norm_num) own own' _ _ _ (fun _ _ _ => rfl) 1 ?_ ?_
  all_goals
    intro k hk Q hQ
    obtain rfl : k = 0 := by omega
    cases hQ
    exact quiet_zero _ rfl _ _ _

end WxVerif.Props.ProcessCountRos2
