/-
C78: what the output files show of the solution — fields, positions, times.
-/
import Verif.Model.WriteResult
import Verif.Model.ShallowWater
import Verif.Spec.OutputFile
import Verif.Lemmas.Simulation
import Verif.Lemmas.Topology
import Verif.Props.Winds
import Verif.Props.Metric3D
import Mathlib.Data.Real.Archimedean

namespace WxVerif.Props.OutputFile

open WxVerif.Sim WxVerif.WriteResult WxVerif.Gather WxVerif.Topology WxVerif.Sphere WxVerif.Spec.OutputFile WxVerif.Schedule
open WxVerif.Cube WxVerif.GlobalField
open WxVerif.Props.Winds (OffPole C39_roundtrip_wind)
open WxVerif.Props.Metric3D (NonDegenerate C39_roundtrip_3d_partial)

private theorem stored_shows {k t : Nat} (hk : 1 ≤ k) (f : Nat → Field) : Shows k t (stored (6 * k ^ 2) t f) f := by
  intro r hr j hj i hi
  have e2 : k ^ 2 = k * k := pow_two k
  rw [e2] at hr ⊢
  unfold stored valueAt
  rw [gatherCube_blocks hk f (fun r => block t (f r)) (fun r _ => rfl)]
  obtain ⟨hp, hrow, hcol⟩ := placeOf_valid hr
  have ht : 0 < t := by omega
  simp only [Option.bind_some, List.getElem?_map, List.getElem?_range hp, Option.map_some]
  have hb : ∀ a b c : Nat, a < k → b < t → a * t + b < k * t := by
    intro a b _ ha hb
    calc a * t + b < a * t + t := by omega
      _ = (a + 1) * t := by ring
      _ ≤ k * t := Nat.mul_le_mul_right t ha
  rw [entry_ofFn _ (hb _ _ 0 hrow hj) (hb _ _ 0 hcol hi)]
  have d1 : ∀ a b : Nat, b < t → (a * t + b) / t = a := fun a b h => by
    rw [Nat.add_comm, Nat.add_mul_div_right _ _ ht, Nat.div_eq_of_lt h, Nat.zero_add]
  have d2 : ∀ a b : Nat, b < t → (a * t + b) % t = b := fun a b h => by
    rw [Nat.add_comm, Nat.add_mul_mod_self_right, Nat.mod_eq_of_lt h]
  rw [d1 _ _ hj, d1 _ _ hi, d2 _ _ hj, d2 _ _ hi]
  congr 2
  have := enc_placeOf (k := k) (rank := r)
  unfold enc at this
  omega

private theorem shows_congr {k t : Nat} {F : Option (List (List (List ℝ)))} {f g : Nat → Field} (h : Shows k t F f)
    (hfg : ∀ r < 6 * k ^ 2, ∀ j < t, ∀ i < t, f r j i = g r j i) : Shows k t F g :=
  fun r hr j hj i hi => by rw [← hfg r hr j hj i hi]; exact h r hr j hj i hi

/-! ## Fields -/

/-- The grid data of a point off the poles, with the cosine of its own latitude -/
def PointOk (T : Tools) (r l j i : Nat) : Prop :=
  let p := T.point r l j i
  0 < p.R ∧ p.dx ≠ 0 ∧ p.dy ≠ 0 ∧ OffPole (cart (T.orient r) p.R p.X p.Y) ∧
    T.coslat r j i = Real.cos (pointLat (T.orient r) p.R p.X p.Y)

/-- The shallow-water state with depth `h`, eastward wind `u` and northward wind `v` on tile `r` -/
noncomputable def swState (T : Tools) (r : Nat) (h u v : Field) : Field × Field × Field :=
  let c (j i : Nat) := let p := T.point r 0 j i; wind2contra (T.orient r) p.R p.dx p.dy (T.coslat r j i) p.X p.Y (u j i) (v j i)
  (h, fun j i => h j i * (c j i).1, fun j i => h j i * (c j i).2)

private theorem wind_linear (T : Tools) (r j i : Nat) (s a b : ℝ) :
    wind T r j i (s * a) (s * b) = (s * (wind T r j i a b).1, s * (wind T r j i a b).2) := by
  simp only [wind, contra2wind, Prod.mk.injEq]
  constructor <;> ring

private theorem vars_h (size t : Nat) (T : Tools) (c : Int) (topo : Nat → Option Field) (id : Nat) (dt : ℝ) (st : Nat → Field × Field × Field) :
    (recordSw size t T c topo id dt st).vars.lookup "h" = some (stored size t fun r => writtenHeight (topo r) (st r).1) := by
  simp [recordSw, netcdfSw, List.lookup]

private theorem vars_uv (size t : Nat) (T : Tools) (c : Int) (hc : 2 ≤ c) (topo : Nat → Option Field) (id : Nat) (dt : ℝ)
    (st : Nat → Field × Field × Field) :
    let u1 (r : Nat) : Field := fun j i => (st r).2.1 j i / writtenHeight (topo r) (st r).1 j i
    let u2 (r : Nat) : Field := fun j i => (st r).2.2 j i / writtenHeight (topo r) (st r).1 j i
    let vars := (recordSw size t T c topo id dt st).vars
    vars.lookup "U" = some (stored size t fun r j i => (wind T r j i (u1 r j i) (u2 r j i)).1) ∧
    vars.lookup "V" = some (stored size t fun r j i => (wind T r j i (u1 r j i) (u2 r j i)).2) ∧
    vars.lookup "RV" = some (stored size t fun r => T.vort r (u1 r) (u2 r)) ∧
    vars.lookup "PV" = some (stored size t fun r j i =>
      (T.vort r (u1 r) (u2 r) j i + T.coriolis r j i) / writtenHeight (topo r) (st r).1 j i) := by
  simp [recordSw, netcdfSw, List.lookup, hc]

/-- **C78.** The netCDF output of shallow water without topography shows the solution: where the state was set from a depth and physical
winds, on any number of tiles, the file shows that depth and those winds at every point (off the poles), and from the second test case on
the relative and the potential vorticity of the velocity. -/
theorem C78_shallow_water_fields (k t : Nat) (hk : 1 ≤ k) (T : Tools) (caseNumber : Int) (hc : 2 ≤ caseNumber) (stepId : Nat) (dt : ℝ)
    (h u v : Nat → Field) (hok : ∀ r < 6 * k ^ 2, ∀ j < t, ∀ i < t, PointOk T r 0 j i) (hpos : ∀ r j i, h r j i ≠ 0) :
    let vars := (recordSw (6 * k ^ 2) t T caseNumber (fun _ => none) stepId dt fun r => swState T r (h r) (u r) (v r)).vars
    let c (r j i : Nat) := let p := T.point r 0 j i; wind2contra (T.orient r) p.R p.dx p.dy (T.coslat r j i) p.X p.Y (u r j i) (v r j i)
    let vorticity (r : Nat) : Field := T.vort r (fun j i => (c r j i).1) (fun j i => (c r j i).2)
    ShowsAs k t vars "h" h ∧ ShowsAs k t vars "U" u ∧ ShowsAs k t vars "V" v ∧ ShowsAs k t vars "RV" vorticity ∧
      ShowsAs k t vars "PV" fun r j i => (vorticity r j i + T.coriolis r j i) / h r j i := by
  intro vars c vorticity
  obtain ⟨e1, e2, e3, e4⟩ := vars_uv (6 * k ^ 2) t T caseNumber hc (fun _ => none) stepId dt fun r => swState T r (h r) (u r) (v r)
  have q1 : ∀ r j i, (swState T r (h r) (u r) (v r)).2.1 j i / writtenHeight none (h r) j i = (c r j i).1 := fun r j i => by
    simp only [swState, writtenHeight, c]
    exact mul_div_cancel_left₀ _ (hpos r j i)
  have q2 : ∀ r j i, (swState T r (h r) (u r) (v r)).2.2 j i / writtenHeight none (h r) j i = (c r j i).2 := fun r j i => by
    simp only [swState, writtenHeight, c]
    exact mul_div_cancel_left₀ _ (hpos r j i)
  have e0 : ∀ r, (swState T r (h r) (u r) (v r)).1 = h r := fun r => rfl
  simp only [e0, q1, q2] at e1 e2 e3 e4
  have hw : ∀ r < 6 * k ^ 2, ∀ j < t, ∀ i < t, wind T r j i (c r j i).1 (c r j i).2 = (u r j i, v r j i) := by
    intro r hr j hj i hi
    obtain ⟨h1, h2, h3, h4, h5⟩ := hok r hr j hj i hi
    have := C39_roundtrip_wind (T.orient r) h1 h2 h3 h4 h1.ne' (u r j i) (v r j i)
    simp only [wind, c]
    rw [h5]
    exact this
  refine ⟨⟨_, vars_h _ _ _ _ _ _ _ _, ?_⟩, ⟨_, e1, ?_⟩, ⟨_, e2, ?_⟩, ⟨_, e3, ?_⟩, ⟨_, e4, ?_⟩⟩
  · exact stored_shows hk _
  · exact shows_congr (stored_shows hk _) fun r hr j hj i hi => by rw [hw r hr j hj i hi]
  · exact shows_congr (stored_shows hk _) fun r hr j hj i hi => by rw [hw r hr j hj i hi]
  · exact stored_shows hk _
  · exact stored_shows hk _

/-- **C78** (negated) Over a mountain the variable `h`, called "fluid height", is the height of the surface, and the winds are not those of
the solution: they are divided by the height of the surface instead of the depth, so that the file shows the winds times
`h / (h + mountain)`. -/
theorem C78_topography_winds_fails (k t : Nat) (hk : 1 ≤ k) (T : Tools) (caseNumber : Int) (hc : 2 ≤ caseNumber) (stepId : Nat) (dt : ℝ)
    (h u v hs : Nat → Field) (hok : ∀ r < 6 * k ^ 2, ∀ j < t, ∀ i < t, PointOk T r 0 j i) :
    let vars := (recordSw (6 * k ^ 2) t T caseNumber (fun r => some (hs r)) stepId dt fun r => swState T r (h r) (u r) (v r)).vars
    ShowsAs k t vars "h" (fun r j i => h r j i + hs r j i) ∧
      ShowsAs k t vars "U" (fun r j i => h r j i / (h r j i + hs r j i) * u r j i) ∧
      ShowsAs k t vars "V" (fun r j i => h r j i / (h r j i + hs r j i) * v r j i) := by
  intro vars
  obtain ⟨e1, e2, -, -⟩ := vars_uv (6 * k ^ 2) t T caseNumber hc (fun r => some (hs r)) stepId dt fun r => swState T r (h r) (u r) (v r)
  have hw : ∀ r < 6 * k ^ 2, ∀ j < t, ∀ i < t,
      wind T r j i ((swState T r (h r) (u r) (v r)).2.1 j i / writtenHeight (some (hs r)) (swState T r (h r) (u r) (v r)).1 j i)
        ((swState T r (h r) (u r) (v r)).2.2 j i / writtenHeight (some (hs r)) (swState T r (h r) (u r) (v r)).1 j i) =
      (h r j i / (h r j i + hs r j i) * u r j i, h r j i / (h r j i + hs r j i) * v r j i) := by
    intro r hr j hj i hi
    obtain ⟨h1, h2, h3, h4, h5⟩ := hok r hr j hj i hi
    have hrt := C39_roundtrip_wind (T.orient r) h1 h2 h3 h4 h1.ne' (u r j i) (v r j i)
    simp only [swState, writtenHeight]
    rw [mul_div_right_comm, mul_div_right_comm, wind_linear]
    simp only [wind]
    rw [h5, hrt]
  refine ⟨⟨_, vars_h _ _ _ _ _ _ _ _, stored_shows hk _⟩, ⟨_, e1, ?_⟩, ⟨_, e2, ?_⟩⟩
  · exact shows_congr (stored_shows hk _) fun r hr j hj i hi => by rw [hw r hr j hj i hi]
  · exact shows_congr (stored_shows hk _) fun r hr j hj i hi => by rw [hw r hr j hj i hi]

/-- The variables of the 3D equations with density, physical winds, potential temperature and tracers given, on tile `r` -/
noncomputable def eulerState (T : Tools) (r : Nat) (rho u v w theta : Nat → Field) (tracer : Nat → Nat → Field) (var l : Nat) : Field :=
  fun j i =>
    let c := wind2contra3 (T.orient r) (T.coslat r j i) (T.point r l j i) (u l j i) (v l j i) (w l j i)
    rho l j i * (match var with | 0 => 1 | 1 => c.1 | 2 => c.2.1 | 3 => c.2.2 | 4 => theta l j i | n + 5 => tracer n l j i)

/-- **C78.** The netCDF output of the 3D equations shows the solution: density, winds, potential temperature, pressure
`p0 (ρ θ R / p0)^(cp/cv)` and, in test cases 11 and 12, the tracers — at every point off the poles where the coordinate surfaces are level
(elsewhere a state set from winds does not have those winds, C39). -/
theorem C78_euler_fields (k t : Nat) (hk : 1 ≤ k) (T : Tools) (caseNumber : Int) (stepId : Nat) (dt : ℝ)
    (rho u v w theta : Nat → Nat → Field) (tracer : Nat → Nat → Nat → Field) (hpos : ∀ r l j i, rho r l j i ≠ 0)
    (hok : ∀ r < 6 * k ^ 2, ∀ l, ∀ j < t, ∀ i < t, PointOk T r l j i ∧ NonDegenerate (T.point r l j i) ∧ (T.point r l j i).dRdx1 = 0 ∧
      (T.point r l j i).dRdx2 = 0) :
    let vars := (recordEuler (6 * k ^ 2) t T caseNumber stepId dt fun r =>
      eulerState T r (rho r) (u r) (v r) (w r) (theta r) (tracer r)).2
    ShowsLevels k t vars "rho" rho ∧ ShowsLevels k t vars "U" u ∧ ShowsLevels k t vars "V" v ∧ ShowsLevels k t vars "W" w ∧
      ShowsLevels k t vars "theta" theta ∧
      ShowsLevels k t vars "P" (fun r l j i => Flux.p0 * (rho r l j i * theta r l j i * Flux.Rd / Flux.p0) ^ (Flux.cpd / Flux.cvd)) ∧
      (caseNumber = 11 ∨ caseNumber = 12 → ShowsLevels k t vars "q1" fun r => tracer r 0) ∧
      (caseNumber = 11 → ShowsLevels k t vars "q2" (fun r => tracer r 1) ∧ ShowsLevels k t vars "q3" (fun r => tracer r 2) ∧
        ShowsLevels k t vars "q4" fun r => tracer r 3) ∧
      (caseNumber ≠ 11 → caseNumber ≠ 12 → vars.lookup "q1" = none) := by
  intro vars
  have hq : ∀ r v' l j i, eulerState T r (rho r) (u r) (v r) (w r) (theta r) (tracer r) v' l j i /
      eulerState T r (rho r) (u r) (v r) (w r) (theta r) (tracer r) 0 l j i =
      eulerState T r (rho r) (u r) (v r) (w r) (theta r) (tracer r) v' l j i / rho r l j i := fun r v' l j i => by
    simp [eulerState]
  have hq2 : ∀ r l j i (x : ℝ), rho r l j i * x / rho r l j i = x := fun r l j i x => mul_div_cancel_left₀ _ (hpos r l j i)
  have hw : ∀ r < 6 * k ^ 2, ∀ l, ∀ j < t, ∀ i < t,
      contra2wind3 (T.orient r) (T.coslat r j i) (T.point r l j i)
        (eulerState T r (rho r) (u r) (v r) (w r) (theta r) (tracer r) 1 l j i / rho r l j i)
        (eulerState T r (rho r) (u r) (v r) (w r) (theta r) (tracer r) 2 l j i / rho r l j i)
        (eulerState T r (rho r) (u r) (v r) (w r) (theta r) (tracer r) 3 l j i / rho r l j i) = (u r l j i, v r l j i, w r l j i) := by
    intro r hr l j hj i hi
    obtain ⟨⟨h1, -, -, h4, h5⟩, hnd, hf1, hf2⟩ := hok r hr l j hj i hi
    have := (C39_roundtrip_3d_partial (T.orient r) hnd h1 hf1 hf2 h4 (u r l j i) (v r l j i) (w r l j i)).1
    simp only [eulerState, hq2]
    rw [h5]
    exact this
  have hr0 : ∀ r l j i, eulerState T r (rho r) (u r) (v r) (w r) (theta r) (tracer r) 0 l j i = rho r l j i := fun r l j i => by
    simp [eulerState]
  refine ⟨⟨_, by simp [vars, recordEuler, netcdfEuler, List.lookup]; rfl, fun l => ?_⟩,
    ⟨_, by simp [vars, recordEuler, netcdfEuler, List.lookup]; rfl, fun l => ?_⟩,
    ⟨_, by simp [vars, recordEuler, netcdfEuler, List.lookup]; rfl, fun l => ?_⟩,
    ⟨_, by simp [vars, recordEuler, netcdfEuler, List.lookup]; rfl, fun l => ?_⟩,
    ⟨_, by simp [vars, recordEuler, netcdfEuler, List.lookup]; rfl, fun l => ?_⟩,
    ⟨_, by simp [vars, recordEuler, netcdfEuler, List.lookup]; rfl, fun l => ?_⟩,
    fun hc => ⟨_, by simp [vars, recordEuler, netcdfEuler, List.lookup, hc]; rfl, fun l => ?_⟩,
    fun hc => ⟨⟨_, by simp [vars, recordEuler, netcdfEuler, List.lookup, hc]; rfl, fun l => ?_⟩,
      ⟨_, by simp [vars, recordEuler, netcdfEuler, List.lookup, hc]; rfl, fun l => ?_⟩,
      ⟨_, by simp [vars, recordEuler, netcdfEuler, List.lookup, hc]; rfl, fun l => ?_⟩⟩,
    fun hc hc' => by simp [vars, recordEuler, netcdfEuler, List.lookup, hc, hc']⟩
  · exact shows_congr (stored_shows hk _) fun r hr j hj i hi => hr0 r l j i
  · exact shows_congr (stored_shows hk _) fun r hr j hj i hi => by simp only [hr0]; rw [hw r hr l j hj i hi]
  · exact shows_congr (stored_shows hk _) fun r hr j hj i hi => by simp only [hr0]; rw [hw r hr l j hj i hi]
  · exact shows_congr (stored_shows hk _) fun r hr j hj i hi => by simp only [hr0]; rw [hw r hr l j hj i hi]
  · exact shows_congr (stored_shows hk _) fun r hr j hj i hi => by simp only [hr0]; exact hq2 r l j i _
  · exact shows_congr (stored_shows hk _) fun r hr j hj i hi => by simp only [eulerState]
  · exact shows_congr (stored_shows hk _) fun r hr j hj i hi => by simp only [hr0]; exact hq2 r l j i _
  · exact shows_congr (stored_shows hk _) fun r hr j hj i hi => by simp only [hr0]; exact hq2 r l j i _
  · exact shows_congr (stored_shows hk _) fun r hr j hj i hi => by simp only [hr0]; exact hq2 r l j i _
  · exact shows_congr (stored_shows hk _) fun r hr j hj i hi => by simp only [hr0]; exact hq2 r l j i _

/-- the hypotheses on the points are met on the whole sphere of any size by a grid whose points are all at the middle of panel 0 -/
noncomputable def exTools : Tools where
  orient := fun _ => ⟨0, 0, 0⟩
  point := fun _ _ _ _ => ⟨1, 0, 0, 0, 0, 1, 1, 1, 1⟩
  coslat := fun _ _ _ => Real.cos (pointLat ⟨0, 0, 0⟩ 1 0 0)
  vort := fun _ u1 _ => u1
  coriolis := fun _ _ _ => 1

example (r l j i : Nat) : PointOk exTools r l j i ∧ NonDegenerate (exTools.point r l j i) ∧ (exTools.point r l j i).dRdx1 = 0 ∧
    (exTools.point r l j i).dRdx2 = 0 := by
  refine ⟨⟨by norm_num [exTools], by norm_num [exTools], by norm_num [exTools], ?_, rfl⟩, ?_, rfl, rfl⟩
  · left
    simp [exTools, cart, delta, delta2]
  · simp [NonDegenerate, exTools]

/-! ## Positions -/

/-- **C78.** The longitudes and latitudes in the file are those of the points whose values are at the same place of the other variables, in
degrees. -/
theorem C78_positions (k t : Nat) (hk : 1 ≤ k) (x1 x2 : Nat → Nat → ℝ) (lon lat : Nat → Field) :
    Shows k t (axes (6 * k ^ 2) t x1 x2 lon lat).lons (fun r j i => lon r j i * 180 / Real.pi) ∧
      Shows k t (axes (6 * k ^ 2) t x1 x2 lon lat).lats (fun r j i => lat r j i * 180 / Real.pi) :=
  ⟨stored_shows hk _, stored_shows hk _⟩

private theorem line_get {t k : Nat} (f : Nat → Nat → ℝ) {c i : Nat} (hc : c < k) (hi : i < t) :
    (((List.range k).map fun r => (List.range t).map (f r)).flatten)[c * t + i]? = some (f c i) := by
  have h := range_flatMap_block k t f
  rw [← List.flatMap_def, h]
  have ht : 0 < t := by omega
  have hlt : c * t + i < k * t := by
    calc c * t + i < c * t + t := by omega
      _ = (c + 1) * t := by ring
      _ ≤ k * t := Nat.mul_le_mul_right t hc
  rw [List.getElem?_map, List.getElem?_range hlt, Option.map_some, Nat.add_comm, Nat.add_mul_div_right _ _ ht, Nat.div_eq_of_lt hi,
    Nat.zero_add, Nat.add_mul_mod_self_right, Nat.mod_eq_of_lt hi]

private theorem gatherPanelLine_get {k t : Nat} (hk : 1 ≤ k) (x : Nat → Nat → ℝ) {c i : Nat} (hc : c < k) (hi : i < t) :
    (gatherPanelLine (6 * k ^ 2) t x)[c * t + i]? = some (x c i) := by
  have e2 : k ^ 2 = k * k := pow_two k
  unfold gatherPanelLine
  rw [e2, panelComm_sq (by norm_num : 0 < 6), numLines_sq]
  simp only [Nat.zero_mul, Nat.zero_add, List.map_id', List.length_range]
  by_cases h1 : k * k = 1
  · have hk1 : k = 1 := by nlinarith
    subst hk1
    obtain rfl : c = 0 := by omega
    simp [hi]
  · simp only [if_neg h1]
    rw [List.take_range, min_eq_left (Nat.le_mul_self k)]
    exact line_get x hc hi

/-- **C78.** The axis variables of the file, on the grid of the shallow-water model with `k × k` tiles of `N × N` elements per panel: entry
`c t + i` of `Xdim` is the first panel coordinate of column `c t + i` of the panel, and entry `c t + i` of `Ydim` the second panel
coordinate of row `i` — of the first row of tiles, whatever `c`. -/
theorem C78_axes (g : ShallowWater.Grid) (hk : 1 ≤ g.k) (lon lat : Nat → Field) (c i : Nat) (hc : c < g.k) (hi : i < g.N * g.n) :
    let a := axes (6 * g.k ^ 2) (g.N * g.n) g.x1 g.x2 lon lat
    a.Xdim[c * (g.N * g.n) + i]? = some (g.x1 c i) ∧ a.Ydim[c * (g.N * g.n) + i]? = some (g.x2 0 i) := by
  intro a
  refine ⟨gatherPanelLine_get hk _ hc hi, ?_⟩
  rw [show a.Ydim = gatherPanelLine (6 * g.k ^ 2) (g.N * g.n) g.x2 from rfl, gatherPanelLine_get hk _ hc hi]
  congr 1
  have h6 : c < 6 * (g.k * g.k) := by nlinarith
  have h0 : 0 < 6 * (g.k * g.k) := by nlinarith
  have e : ∀ r < g.k, myRow (6 * (g.k * g.k)) r = 0 := by
    intro r hr
    have hr6 : r < 6 * (g.k * g.k) := by nlinarith
    rw [(my_eq (k := g.k) hr6).2.1]
    unfold placeOf
    have hlt : r < g.k * g.k := by nlinarith
    simp only
    rw [Nat.mod_eq_of_lt hlt, Nat.div_eq_of_lt hr]
  have hsize : g.size = 6 * (g.k * g.k) := by
    unfold ShallowWater.Grid.size
    first | rfl | ring
  unfold ShallowWater.Grid.x2 ShallowWater.Grid.delta2 ShallowWater.Grid.start2
  rw [hsize, e c hc, e 0 (by omega)]

/-- The point in row `a` and column `b` of a panel has the coordinates the axes of the file give to the place `(a, b)` of its variables: the
first dimension of the variables is called `Xdim`, the second `Ydim`. -/
def AxesMatch (g : ShallowWater.Grid) (a : Axes) : Prop :=
  ∀ r < 6 * g.k ^ 2, ∀ j < g.N * g.n, ∀ i < g.N * g.n,
    a.Xdim[(placeOf g.k r).row * (g.N * g.n) + j]? = some (g.x1 r i) ∧ a.Ydim[(placeOf g.k r).col * (g.N * g.n) + i]? = some (g.x2 r j)

/-- **C78** (negated) The axes do not belong to the dimensions they are attached to: `Xdim` holds the coordinate that varies along the second
dimension of the variables and `Ydim` the one that varies along the first.  Whenever two points of a tile have different coordinates the file
gives a wrong position. -/
theorem C78_axes_fails (g : ShallowWater.Grid) (hk : 1 ≤ g.k) (lon lat : Nat → Field) (i i' : Nat) (hi : i < g.N * g.n)
    (hi' : i' < g.N * g.n) (hne : g.x1 0 i ≠ g.x1 0 i') : ¬ AxesMatch g (axes (6 * g.k ^ 2) (g.N * g.n) g.x1 g.x2 lon lat) := by
  intro h
  have h0 : 0 < 6 * g.k ^ 2 := by positivity
  have h1 := (h 0 h0 i hi i hi).1
  have h2 := (h 0 h0 i hi i' hi').1
  rw [h1] at h2
  exact hne (Option.some.inj h2)

/-- **C78** (negated) Even read the other way round, `Ydim` is wrong on more than one tile per panel side: its entries repeat those of the
first row of tiles instead of going on to the north. -/
theorem C78_second_axis_fails (g : ShallowWater.Grid) (hk : 2 ≤ g.k) (lon lat : Nat → Field) (i : Nat) (hi : i < g.N * g.n) :
    let a := axes (6 * g.k ^ 2) (g.N * g.n) g.x1 g.x2 lon lat
    a.Ydim[1 * (g.N * g.n) + i]? = a.Ydim[0 * (g.N * g.n) + i]? ∧ a.Ydim[1 * (g.N * g.n) + i]? ≠ some (g.x2 g.k i) ∧
      (placeOf g.k g.k).row = 1 := by
  intro a
  have h1 := (C78_axes g (by omega) lon lat 1 i (by omega) hi).2
  have h0 := (C78_axes g (by omega) lon lat 0 i (by omega) hi).2
  have hrow : (placeOf g.k g.k).row = 1 := by
    unfold placeOf
    have hlt : g.k < g.k * g.k := by nlinarith
    simp only
    rw [Nat.mod_eq_of_lt hlt, Nat.div_self (by omega)]
  refine ⟨by rw [h1, h0], ?_, hrow⟩
  rw [h1]
  intro e
  have e := Option.some.inj e
  have hk6 : g.k < 6 * (g.k * g.k) := by nlinarith
  have h06 : 0 < 6 * (g.k * g.k) := by nlinarith
  have hsize : g.size = 6 * (g.k * g.k) := by
    unfold ShallowWater.Grid.size
    first | rfl | ring
  unfold ShallowWater.Grid.x2 ShallowWater.Grid.delta2 ShallowWater.Grid.start2 at e
  rw [hsize, (my_eq (k := g.k) hk6).2.1, (my_eq (k := g.k) h06).2.1, hrow] at e
  have hd : 0 < g.deltaPanel := by
    unfold ShallowWater.Grid.deltaPanel
    have := Real.pi_pos
    have hkr : (0 : ℝ) < g.k := by exact_mod_cast (by omega : 0 < g.k)
    apply div_pos _ hkr
    linarith
  have hz : (placeOf g.k 0).row = 0 := by simp [placeOf]
  rw [hz] at e
  have hdel : ∀ s : ℝ, ((s + g.deltaPanel) - s) = g.deltaPanel := fun s => by ring
  rw [hdel, hdel] at e
  unfold elementCoord at e
  push_cast at e
  linarith

/-- two points per element, one element: the points of a row have different coordinates -/
example : let g : ShallowWater.Grid := ⟨1, 1, 2, fun c => if c = 0 then -1 / 2 else 1 / 2, 1, 0, fun _ => ⟨0, 0, 0⟩⟩
    1 ≤ g.k ∧ 0 < g.N * g.n ∧ 1 < g.N * g.n ∧ g.x1 0 0 ≠ g.x1 0 1 := by
  refine ⟨le_rfl, by norm_num, by norm_num, ?_⟩
  have := Real.pi_pos
  simp only [ShallowWater.Grid.x1, elementCoord, ShallowWater.Grid.delta1, ShallowWater.Grid.start1, ShallowWater.Grid.deltaPanel]
  norm_num
  linarith

/-! ## Times and records -/

/-- The value of `config.dt` when step `id` of a run from step `s0` is output -/
noncomputable def dtAt (tEnd dt : ℝ) (s0 id : Nat) : ℝ := if id = s0 then dt else stepSize tEnd dt (id - 1)

private theorem writes_eq {I : Type*} (env : Env ℝ I Local) (cfg : Config ℝ Local) (a : Nat) (iq : I × (Nat → Local)) (m : Nat)
    {β : Type*} (e : Event ℝ Local → Option β) (G : Nat → ℝ → (Nat → Local) → β) (hw : ∀ id dt Q, e (.write id dt Q) = some (G id dt Q))
    (hs : ∀ id Q, e (.saveState id Q) = none) (hb : ∀ id Q, e (.blockStats id Q) = none) :
    (stepEvents env cfg a iq m).filterMap e =
      ((List.range' (a + 1) m).filter fun id : Nat => decide (0 < cfg.freqs.output ∧ cfg.freqs.output ∣ (id : Int))).map fun id =>
        G id (stepSize cfg.tEnd cfg.dt (id - 1))
          (advance env cfg.tEnd cfg.dt (id - 1) (traj env cfg.freqs cfg.tEnd cfg.dt a iq (id - 1 - a))).2 := by
  have hd : ∀ (id : Nat) (g : Int), (g > 0 ∧ (id : Int) % g = 0) ↔ (0 < g ∧ g ∣ (id : Int)) := fun id g =>
    and_congr Iff.rfl ⟨Int.dvd_of_emod_eq_zero, Int.emod_eq_zero_of_dvd⟩
  have hos : ∀ (dt : ℝ) (Q : Nat → Local) (id : Nat),
      (outputStep env cfg.freqs dt Q id).filterMap e =
        if decide (0 < cfg.freqs.output ∧ cfg.freqs.output ∣ (id : Int)) then [G id dt Q] else [] := by
    intro dt Q id
    unfold outputStep
    simp only [hd, decide_eq_true_eq, List.filterMap_append]
    by_cases h1 : 0 < cfg.freqs.output ∧ cfg.freqs.output ∣ (id : Int) <;> by_cases h2 : 0 < cfg.freqs.save ∧ cfg.freqs.save ∣ (id : Int) <;>
    by_cases h3 : 0 < cfg.freqs.stat ∧ cfg.freqs.stat ∣ (id : Int) <;> simp [h1, h2, h3, hw, hs, hb]
  have hr : List.range' (a + 1) m = (List.range m).map (fun j => a + j + 1) := by
    rw [List.range'_eq_map_range]
    apply List.map_congr_left
    intro j _
    omega
  rw [hr, List.filter_map, List.map_map]
  unfold stepEvents
  rw [List.filterMap_flatMap]
  induction List.range m with
  | nil => simp
  | cons x xs ih =>
    rw [List.flatMap_cons, hos, ih, List.filter_cons]
    simp only [Function.comp, Nat.add_sub_cancel, Nat.add_sub_cancel_left]
    split <;> simp

private theorem records_any {I β : Type*} (env : Env ℝ I Local) (cfg : Config ℝ Local) (i0 : I) (hdt : 0 < cfg.dt)
    (hnf : ∀ i Q dt, (∀ p, p < env.size → (env.integ i Q dt).2.2 p = 0) ∧
      (∀ p, p < env.size → env.hasNaN (env.filters dt (env.integ i Q dt).2.1 p) = false))
    (e : Event ℝ Local → Option β) (rcd : Nat → ℝ → (Nat → Local) → β) (e1 : ∀ id dt Q, e (.write id dt Q) = some (rcd id dt Q))
    (e2 : ∀ id Q, e (.saveState id Q) = none) (e3 : ∀ id Q, e (.blockStats id Q) = none) (e4 : e .finalize = none) :
    let N := (⌈cfg.tEnd / cfg.dt⌉ - cfg.startingStep).toNat
    ∀ fuel, N < fuel → ∃ (s' : State ℝ I Local) (solution : Nat → Nat → Local),
      run env cfg fuel (init env cfg i0) = (s', some .stop) ∧
      s'.events.filterMap e = (due cfg.freqs.output cfg.startingStep N).map (fun id =>
        rcd id (dtAt cfg.tEnd cfg.dt cfg.startingStep id) (solution id)) ∧
      solution cfg.startingStep = cfg.initialQ ∧
      s'.Q = if 0 < cfg.freqs.output ∧ cfg.freqs.output ∣ ((cfg.startingStep + N : Nat) : Int) then
        env.written (solution (cfg.startingStep + N)) else solution (cfg.startingStep + N) := by
  intro N fuel hfuel
  obtain ⟨s', hr, hq, hev⟩ := run_noFailure (env := env) hnf cfg i0 hdt fuel hfuel
  have hd : ∀ (id : Nat) (g : Int), (g > 0 ∧ (id : Int) % g = 0) ↔ (0 < g ∧ g ∣ (id : Int)) := fun id g =>
    and_congr Iff.rfl ⟨Int.dvd_of_emod_eq_zero, Int.emod_eq_zero_of_dvd⟩
  refine ⟨s', fun id => if id = cfg.startingStep then cfg.initialQ else
    (advance env cfg.tEnd cfg.dt (id - 1) (traj env cfg.freqs cfg.tEnd cfg.dt cfg.startingStep (i0, initialArray env cfg)
      (id - 1 - cfg.startingStep))).2, hr, ?_, by simp, ?_⟩
  · rw [hev, List.filterMap_append, List.filterMap_append]
    rw [writes_eq env cfg cfg.startingStep (i0, initialArray env cfg) _ e rcd e1 e2 e3]
    unfold due
    rw [List.range'_succ, List.filter_cons]
    have hmap : ∀ l : List Nat, (∀ id ∈ l, id ≠ cfg.startingStep) →
        l.map (fun id => rcd id (stepSize cfg.tEnd cfg.dt (id - 1))
          (advance env cfg.tEnd cfg.dt (id - 1) (traj env cfg.freqs cfg.tEnd cfg.dt cfg.startingStep (i0, initialArray env cfg)
            (id - 1 - cfg.startingStep))).2) =
        l.map (fun id => rcd id (dtAt cfg.tEnd cfg.dt cfg.startingStep id)
          (if id = cfg.startingStep then cfg.initialQ else
            (advance env cfg.tEnd cfg.dt (id - 1) (traj env cfg.freqs cfg.tEnd cfg.dt cfg.startingStep (i0, initialArray env cfg)
              (id - 1 - cfg.startingStep))).2)) := by
      intro l hl
      apply List.map_congr_left
      intro id hid
      simp only [dtAt, if_neg (hl id hid)]
    rw [hmap _ (by
      intro id hid
      have := List.mem_range'_1.1 (List.mem_filter.1 hid).1
      omega)]
    unfold outputStep
    simp only [hd, List.filterMap_append]
    by_cases h1 : 0 < cfg.freqs.output ∧ cfg.freqs.output ∣ (cfg.startingStep : Int) <;>
      by_cases h2 : 0 < cfg.freqs.save ∧ cfg.freqs.save ∣ (cfg.startingStep : Int) <;>
      by_cases h3 : 0 < cfg.freqs.stat ∧ cfg.freqs.stat ∣ (cfg.startingStep : Int) <;> simp [h1, h2, h3, dtAt, N, e1, e2, e3, e4]
  · rw [hq]
    change (traj env cfg.freqs cfg.tEnd cfg.dt cfg.startingStep (i0, initialArray env cfg) N).2 = _
    rcases hN : N with _ | n
    · simp [traj, initialArray, afterOutput, hd]
    · simp only [traj, next, afterOutput, hd]
      have hne : cfg.startingStep + (n + 1) ≠ cfg.startingStep := by omega
      simp only [if_neg hne]
      rw [show cfg.startingStep + (n + 1) - 1 - cfg.startingStep = n by omega, show cfg.startingStep + (n + 1) - 1 = cfg.startingStep + n by omega]
      rfl

/-- **C78.** When nothing fails, the file of a run contains exactly one record for each step at which output was due, in order, made from the
solution of that step: the first from the initial state, and the last from the solution the run ends with (as it was before the output).
The time in the record is the step number times the size of that step. -/
theorem C78_records {I : Type*} (env : Env ℝ I Local) (cfg : Config ℝ Local) (i0 : I) (hdt : 0 < cfg.dt)
    (hnf : ∀ i Q dt, (∀ p, p < env.size → (env.integ i Q dt).2.2 p = 0) ∧
      (∀ p, p < env.size → env.hasNaN (env.filters dt (env.integ i Q dt).2.1 p) = false))
    (size t : Nat) (T : Tools) (caseNumber : Int) (topo : Nat → Option Field) (old : List Record) :
    let N := (⌈cfg.tEnd / cfg.dt⌉ - cfg.startingStep).toNat
    ∀ fuel, N < fuel → ∃ (s' : State ℝ I Local) (solution : Nat → Nat → Local),
      run env cfg fuel (init env cfg i0) = (s', some .stop) ∧
      fileAfter size t T caseNumber topo old s'.events = (due cfg.freqs.output cfg.startingStep N).map (fun id =>
        recordSw size t T caseNumber topo id (dtAt cfg.tEnd cfg.dt cfg.startingStep id) fun r => (solution id r).fields) ∧
      solution cfg.startingStep = cfg.initialQ ∧
      s'.Q = if 0 < cfg.freqs.output ∧ cfg.freqs.output ∣ ((cfg.startingStep + N : Nat) : Int) then
        env.written (solution (cfg.startingStep + N)) else solution (cfg.startingStep + N) := by
  intro N fuel hfuel
  obtain ⟨s', sol, hr, hev, h0, hq⟩ := records_any env cfg i0 hdt hnf (ofWrite _)
    (fun id dt Q => recordSw size t T caseNumber topo id dt fun r => (Q r).fields) (fun _ _ _ => rfl) (fun _ _ => rfl) (fun _ _ => rfl) rfl
    fuel hfuel
  exact ⟨s', sol, hr, by rw [fileAfter, openFile, List.nil_append]; exact hev, h0, hq⟩

/-- **C78.** The fst output of shallow water: a run that does not fail adds to the file one record for every step at which output is due, in
order, with its step number, showing the depth of the fluid of the solution at that step, and keeps what the file contained before (so the
records of a run continue those of the run it was restarted from). -/
theorem C78_fst_records {I : Type*} (env : Env ℝ I Local) (cfg : Config ℝ Local) (i0 : I) (hdt : 0 < cfg.dt)
    (hnf : ∀ i Q dt, (∀ p, p < env.size → (env.integ i Q dt).2.2 p = 0) ∧
      (∀ p, p < env.size → env.hasNaN (env.filters dt (env.integ i Q dt).2.1 p) = false))
    (k t : Nat) (hk : 1 ≤ k) (old : List FstRecord) :
    let N := (⌈cfg.tEnd / cfg.dt⌉ - cfg.startingStep).toNat
    ∀ fuel, N < fuel → ∃ (s' : State ℝ I Local) (solution : Nat → Nat → Local) (new : Nat → FstRecord),
      run env cfg fuel (init env cfg i0) = (s', some .stop) ∧
      fstAfter (6 * k ^ 2) t old s'.events = old ++ (due cfg.freqs.output cfg.startingStep N).map new ∧
      (∀ id, (new id).name = "h" ∧ (new id).npas = id ∧ Shows k t (new id).data fun r => (solution id r).fields.1) ∧
      solution cfg.startingStep = cfg.initialQ ∧
      s'.Q = if 0 < cfg.freqs.output ∧ cfg.freqs.output ∣ ((cfg.startingStep + N : Nat) : Int) then
        env.written (solution (cfg.startingStep + N)) else solution (cfg.startingStep + N) := by
  intro N fuel hfuel
  obtain ⟨s', sol, hr, hev, h0, hq⟩ := records_any env cfg i0 hdt hnf (ofWrite _)
    (fun id dt Q => recordFst (6 * k ^ 2) t id dt fun r => (Q r).fields) (fun _ _ _ => rfl) (fun _ _ => rfl) (fun _ _ => rfl) rfl fuel hfuel
  exact ⟨s', sol, fun id => recordFst (6 * k ^ 2) t id (dtAt cfg.tEnd cfg.dt cfg.startingStep id) fun r => (sol id r).fields, hr,
    by rw [fstAfter, List.append_cancel_left_eq]; exact hev, fun id => ⟨rfl, rfl, stored_shows hk _⟩, h0, hq⟩

/-- **C78.** The time of an fst record is its step number times its step size.  It is the step number times the actual step exactly if the step
is a whole number of seconds (or the step number is 0): the fraction of a second is cut off. -/
theorem C78_fst_time (size t id : Nat) (dt : ℝ) (hdt : 0 < dt) (st : Nat → Field × Field × Field) :
    let r := recordFst size t id dt st
    ((r.npas : ℝ) * r.deet = id * dt ↔ id = 0 ∨ ∃ n : Nat, dt = n) ∧ (r.npas : ℝ) * r.deet ≤ id * dt ∧
      (dt < 1 → (r.npas : ℝ) * r.deet = 0) := by
  intro r
  have hd : r.deet = ⌊dt⌋ := if_pos hdt.le
  have hn : r.npas = id := rfl
  rw [hd, hn]
  refine ⟨⟨fun h => ?_, ?_⟩, mul_le_mul_of_nonneg_left (Int.floor_le dt) (Nat.cast_nonneg id), fun h => ?_⟩
  · rcases Nat.eq_zero_or_pos id with h0 | h0
    · exact Or.inl h0
    · have h1 := mul_left_cancel₀ (Nat.cast_ne_zero.2 h0.ne') h
      refine Or.inr ⟨⌊dt⌋.toNat, ?_⟩
      have h2 : ((⌊dt⌋.toNat : ℤ) : ℝ) = (⌊dt⌋ : ℝ) := by rw [Int.toNat_of_nonneg (Int.floor_nonneg.2 hdt.le)]
      rw [Int.cast_natCast, h1] at h2
      exact h2.symm
  · rintro (rfl | ⟨n, rfl⟩)
    · simp
    · simp
  · rw [Int.floor_eq_zero_iff.2 ⟨hdt.le, h⟩]
    simp

/-- **C78.** As long as the steps have their full size, the time in a record is the simulated time in seconds. -/
theorem C78_times_partial (tEnd dt : ℝ) (hdt : 0 < dt) (s0 id : Nat) (hid : s0 ≤ id) (h : id * dt ≤ tEnd) (size t : Nat) (T : Tools)
    (caseNumber : Int) (topo : Nat → Option Field) (st : Nat → Field × Field × Field) :
    (recordSw size t T caseNumber topo id (dtAt tEnd dt s0 id) st).time = timeAfter tEnd dt id := by
  change (id : ℝ) * dtAt tEnd dt s0 id = _
  have h0 : timeAfter tEnd dt id = id * dt := min_eq_left h
  unfold dtAt
  split
  · rw [h0]
  · obtain ⟨n, rfl⟩ : ∃ n, id = n + 1 := ⟨id - 1, by omega⟩
    have h1 : timeAfter tEnd dt n = n * dt := by
      apply min_eq_left
      push_cast at h
      linarith
    rw [Nat.add_sub_cancel, stepSize, h0, h1]
    push_cast
    ring

/-- **C78** (negated) When the run ends with a shortened step (the end time is not a multiple of the step), the record of that step carries a
wrong time, smaller than the end time: the step number is multiplied by the size of the shortened step.  It can even be smaller than the
time of the record before. -/
theorem C78_last_time_fails (tEnd dt : ℝ) (s0 n : Nat) (hs : s0 ≤ n) (hn : 1 ≤ n) (h1 : n * dt < tEnd)
    (h2 : tEnd < (n + 1 : Nat) * dt) (size t : Nat) (T : Tools) (caseNumber : Int) (topo : Nat → Option Field)
    (st : Nat → Field × Field × Field) :
    let time := (recordSw size t T caseNumber topo (n + 1) (dtAt tEnd dt s0 (n + 1)) st).time
    time = (n + 1) * (tEnd - n * dt) ∧ time < tEnd ∧ timeAfter tEnd dt (n + 1) = tEnd ∧
      ((n + 1) * tEnd < n * (n + 2) * dt → time < n * dt) := by
  intro time
  have ht1 : timeAfter tEnd dt (n + 1) = tEnd := min_eq_right h2.le
  have ht0 : timeAfter tEnd dt n = n * dt := min_eq_left h1.le
  have e : time = (n + 1) * (tEnd - n * dt) := by
    change ((n + 1 : Nat) : ℝ) * dtAt tEnd dt s0 (n + 1) = _
    unfold dtAt
    rw [if_neg (by omega), Nat.add_sub_cancel, stepSize, ht1, ht0]
    push_cast
    ring
  have hn' : (1 : ℝ) ≤ n := by exact_mod_cast hn
  push_cast at h2
  refine ⟨e, ?_, ht1, ?_⟩
  · rw [e]
    nlinarith
  · intro h
    rw [e]
    nlinarith

/-- steps of 1, end at 5/2: the third record carries the time 3/2, less than that of the second -/
example : (2 : ℕ) * (1 : ℝ) < 5 / 2 ∧ (5 : ℝ) / 2 < (2 + 1 : ℕ) * 1 ∧ ((2 : ℕ) + 1) * ((5 : ℝ) / 2) < (2 : ℕ) * ((2 : ℕ) + 2) * 1 := by
  norm_num

/-- seconds in a unit of time -/
noncomputable def seconds : TimeUnit → ℝ | .seconds => 1 | .hours => 3600

/-- **C78** (negated) The times are in seconds but the file says that they are in hours: read as the file says, every time but 0 is 3600
times too large. -/
theorem C78_time_unit_fails (tEnd dt : ℝ) (hdt : 0 < dt) (s0 id : Nat) (hid : s0 ≤ id) (h : id * dt ≤ tEnd) (hpos : 0 < id) (size t : Nat)
    (T : Tools) (caseNumber : Int) (topo : Nat → Option Field) (st : Nat → Field × Field × Field) :
    let time := (recordSw size t T caseNumber topo id (dtAt tEnd dt s0 id) st).time
    time * seconds timeUnits = 3600 * timeAfter tEnd dt id ∧ time * seconds timeUnits ≠ timeAfter tEnd dt id := by
  intro time
  have e : time = timeAfter tEnd dt id := C78_times_partial tEnd dt hdt s0 id hid h size t T caseNumber topo st
  have hp : 0 < timeAfter tEnd dt id := by
    rw [timeAfter, min_eq_left h]
    have : (0 : ℝ) < id := by exact_mod_cast hpos
    positivity
  have e2 : time * seconds timeUnits = 3600 * timeAfter tEnd dt id := by
    rw [e, timeUnits, seconds]
    ring
  refine ⟨e2, ?_⟩
  rw [e2]
  intro h
  linarith

/-- **C78** (negated) A restarted run does not add to the file of the run it continues: whatever the file contained, its records are lost. -/
theorem C78_restart_fails (size t : Nat) (T : Tools) (caseNumber : Int) (topo : Nat → Option Field) (old : List Record)
    (events : List (Event ℝ Local)) (x : Record) (hx : x ∈ old)
    (hnew : ∀ id dt Q, Event.write id dt Q ∈ events → x.time < id * dt) :
    x ∉ fileAfter size t T caseNumber topo old events := by
  intro hmem
  unfold fileAfter openFile at hmem
  rw [List.nil_append, List.mem_filterMap] at hmem
  obtain ⟨e, he, hx'⟩ := hmem
  cases e with
  | write id dt Q =>
    simp only [ofWrite, Option.some.injEq] at hx'
    have h1 := hnew id dt Q he
    rw [← hx'] at h1
    exact lt_irrefl _ h1
  | saveState => simp [ofWrite] at hx'
  | blockStats => simp [ofWrite] at hx'
  | finalize => simp [ofWrite] at hx'

/-! ## Who writes, and the plane -/

/-- **C78** (negated) A simulation on some of the processes only: the file is opened by process 0 of the whole program or by nobody, and the
opening waits for every process of the program. -/
theorem C78_communicator_fails (world : Nat) (members : List Nat) :
    (0 ∉ members → openers members = []) ∧ (waitedFor world members = [] ↔ ∀ p < world, p ∈ members) := by
  constructor
  · intro h
    unfold openers
    rw [List.filter_eq_nil_iff]
    intro p hp
    have : p ≠ 0 := by
      rintro rfl
      exact h hp
    simp [Mpi.executes, Mpi.shouldSkip, this]
  · unfold waitedFor
    rw [List.filter_eq_nil_iff]
    simp

/-- the second half of twelve processes -/
example : 0 ∉ List.range' 6 6 ∧ waitedFor 12 (List.range' 6 6) = [0, 1, 2, 3, 4, 5] := by decide

/-- **C78.** On the plane an image of the potential temperature is made for every documented test case but case 0. -/
theorem C78_plane_image (c : Int) (hc : c ≠ 0) (hc4 : c ≤ 4) (rho theta : Field) (q : Nat → Field) (h0 : q 0 = rho)
    (h3 : q 3 = fun j i => rho j i * theta j i) (hrho : ∀ j i, rho j i ≠ 0) :
    ∃ lo hi : ℝ, lo < hi ∧ cartesianImage c q = some (theta, lo, hi) := by
  have e : (fun j i => q 3 j i / q 0 j i) = theta := by
    funext j i
    rw [h0, h3]
    exact mul_div_cancel_left₀ _ (hrho j i)
  unfold cartesianImage
  simp only [e, if_neg hc]
  by_cases h2 : c ≤ 2
  · exact ⟨303.1, 303.7, by norm_num, by simp [h2]⟩
  · by_cases h3 : c = 3
    · exact ⟨303.0, 303.7, by norm_num, by simp [h3]⟩
    · have h4 : c = 4 := by omega
      exact ⟨290, 300, by norm_num, by simp [h4]⟩

/-- **C78** (negated) For a number above 4, which the plane accepts as a test case (C73), no image is made at all; and for case 0 the image
labelled "w (m/s)" shows the vertical momentum. -/
theorem C78_plane_image_fails (q : Nat → Field) :
    (∀ c : Int, 4 < c → cartesianImage c q = none) ∧ (∃ lo hi : ℝ, cartesianImage 0 q = some (q 2, lo, hi)) := by
  constructor
  · intro c hc
    unfold cartesianImage
    rw [if_neg (by omega), if_neg (by omega), if_neg (by omega), if_neg (by omega)]
  · exact ⟨-1, 1, by simp [cartesianImage]⟩

end WxVerif.Props.OutputFile
