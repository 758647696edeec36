import Verif.Spec.MaxPrinciple
import Verif.Props.MaxPrinciple
import Verif.Props.ShallowWater

/-!
# C89, shallow water: with one solution point per element the depth stays positive
-/

namespace WxVerif.Props.MaxPrincipleShallow

open WxVerif.Dfr WxVerif.Flux WxVerif.Quad WxVerif.ShallowWater WxVerif.Topology WxVerif.Cube
open WxVerif.Props.Conservation WxVerif.Props.ShallowWater WxVerif.Spec.MaxPrinciple
open WxVerif.Props.MaxPrinciple (weight_one extrap_one step_exists)

theorem phi_le {hl hr : ℝ} (h1 : 0 < hl) (h2 : 0 < hr) (vl vr : ℝ) :
    phi hl vl hr vr ≤ leaving hl (vl / hl) (Real.sqrt (gravity * hl)) := by
  simp only [phi, leaving]
  have hal : 0 < Real.sqrt (gravity * hl) := Real.sqrt_pos.mpr (mul_pos gravity_pos h1)
  have har : 0 < Real.sqrt (gravity * hr) := Real.sqrt_pos.mpr (mul_pos gravity_pos h2)
  set al := Real.sqrt (gravity * hl)
  set ar := Real.sqrt (gravity * hr)
  set M : ℝ := 0.25 * ((vl / (hl * al) + 1) ^ 2 - (vr / (hr * ar) - 1) ^ 2) with hM
  have a : max 0 M ≤ 1 / 4 * (vl / (hl * al) + 1) ^ 2 := by
    apply max_le
    · positivity
    · rw [hM]; nlinarith [sq_nonneg (vr / (hr * ar) - 1)]
  have b : min 0 M * ar * hr ≤ 0 := by
    have := min_le_left 0 M
    have : min 0 M * (ar * hr) ≤ 0 := mul_nonpos_of_nonpos_of_nonneg this (by positivity)
    linarith
  have c := mul_le_mul_of_nonneg_right a (mul_pos hal h1).le
  have d : vl / hl / al = vl / (hl * al) := by field_simp
  rw [d]
  linarith

theorem leaving_scale {h v a c : ℝ} (hc : 0 < c) (ha : 0 < a) : c * leaving h (v / c) a = leaving h v (a * c) := by
  unfold leaving
  field_simp

/-- both bounds for the mass flux `√G c φ` through a face -/
theorem face_bounds {G c hl hr : ℝ} (hG : 0 < G) (hc : 0 < c) (h1 : 0 < hl) (h2 : 0 < hr) (vl vr : ℝ) :
    G * c * phi hl (vl / c) hr (vr / c) ≤ G * leaving hl (vl / hl) (Real.sqrt (gravity * hl) * c) ∧
    -(G * c * phi hl (vl / c) hr (vr / c)) ≤ G * leaving hr (-vr / hr) (Real.sqrt (gravity * hr) * c) := by
  have a1 : 0 < Real.sqrt (gravity * hl) := Real.sqrt_pos.mpr (mul_pos gravity_pos h1)
  have a2 : 0 < Real.sqrt (gravity * hr) := Real.sqrt_pos.mpr (mul_pos gravity_pos h2)
  rw [← leaving_scale hc a1, ← leaving_scale hc a2]
  have k1 := phi_le h1 h2 (vl / c) (vr / c)
  have k2 := phi_le h2 h1 (-(vr / c)) (-(vl / c))
  rw [phi_antisymm, ← neg_div, div_right_comm] at k2
  rw [div_right_comm] at k1
  constructor
  · have := mul_le_mul_of_nonneg_left k1 (mul_pos hG hc).le
    linarith
  · have := mul_le_mul_of_nonneg_left k2 (mul_pos hG hc).le
    linarith

theorem face_I (l r : SideSW) (hl : 0 < l.var 0) (hr : 0 < r.var 0) (hH : 0 < l.H 0 0) (e : r.H 0 0 = l.H 0 0) (hG : 0 < l.sqrtG) :
    (ausmSWI l r).1 0 ≤ l.sqrtG * leaving (l.var 0) (l.var 1 / l.var 0) (Real.sqrt (gravity * l.var 0 * l.H 0 0)) ∧
    -(ausmSWI l r).1 0 ≤ l.sqrtG * leaving (r.var 0) (-(r.var 1) / r.var 0) (Real.sqrt (gravity * r.var 0 * l.H 0 0)) := by
  rw [ausmI_mass l r hl hr hH e, sqrt_split hl, sqrt_split hr]
  exact face_bounds hG (Real.sqrt_pos.mpr hH) hl hr _ _

theorem face_J (l r : SideSW) (hl : 0 < l.var 0) (hr : 0 < r.var 0) (hH : 0 < l.H 1 1) (e : r.H 1 1 = l.H 1 1) (hG : 0 < l.sqrtG) :
    (ausmJ l r).1 0 ≤ l.sqrtG * leaving (l.var 0) (l.var 2 / l.var 0) (Real.sqrt (gravity * l.var 0 * l.H 1 1)) ∧
    -(ausmJ l r).2 0 ≤ l.sqrtG * leaving (r.var 0) (-(r.var 2) / r.var 0) (Real.sqrt (gravity * r.var 0 * l.H 1 1)) := by
  rw [(ausmJ_mass l r hl hr hH e).2, (ausmJ_mass l r hl hr hH e).1, sqrt_split hl, sqrt_split hr]
  exact face_bounds hG (Real.sqrt_pos.mpr hH) hl hr _ _

variable {g : Grid} {t : Topography} {Q : Field}

/-- depth at side `s` of an element along x1: the surface is level inside the element -/
def depthI (t : Topography) (Q : Field) (r ej ei : Nat) (s : Bool) : ℝ := Q r ej ei 0 0 + t.h r ej ei 0 - t.itfI r ej (ei + 1) s 0
/-- and along x2 -/
def depthJ (t : Topography) (Q : Field) (r ej ei : Nat) (s : Bool) : ℝ := Q r ej ei 0 0 + t.h r ej ei 0 - t.itfJ r (ej + 1) ei s 0

/-- the most an element can lose in one unit of time through side `s` along x1 -/
noncomputable def lossI (g : Grid) (t : Topography) (Q : Field) (r ej ei : Nat) (s : Bool) : ℝ :=
  let xy := g.itfXY1 r ej (ei + 1) s 0
  g.sqrtG r xy * leaving (depthI t Q r ej ei s) ((if s then Q r ej ei 1 0 else -(Q r ej ei 1 0)) / depthI t Q r ej ei s)
    (Real.sqrt (gravity * depthI t Q r ej ei s * g.H r xy 0 0))

/-- and along x2 -/
noncomputable def lossJ (g : Grid) (t : Topography) (Q : Field) (r ej ei : Nat) (s : Bool) : ℝ :=
  let xy := g.itfXY2 r (ej + 1) ei s 0
  g.sqrtG r xy * leaving (depthJ t Q r ej ei s) ((if s then Q r ej ei 2 0 else -(Q r ej ei 2 0)) / depthJ t Q r ej ei s)
    (Real.sqrt (gravity * depthJ t Q r ej ei s * g.H r xy 1 1))

/-- the depth at the four sides of all elements is positive -/
def WetSides (g : Grid) (t : Topography) (Q : Field) : Prop :=
  ∀ r < 6 * g.k ^ 2, ∀ ej < g.N, ∀ ei < g.N, ∀ s, 0 < depthI t Q r ej ei s ∧ 0 < depthJ t Q r ej ei s

/-- no element can lose its content in time `dt`; elements have two units of length in each direction -/
def LimitedSW (g : Grid) (t : Topography) (dt : ℝ) (Q : Field) : Prop :=
  ∀ r < 6 * g.k ^ 2, ∀ ej < g.N, ∀ ei < g.N,
    dt * (lossI g t Q r ej ei true + lossI g t Q r ej ei false + lossJ g t Q r ej ei true + lossJ g t Q r ej ei false) <
      2 * g.sqrtG r (g.solXY r ej ei 0) * Q r ej ei 0 0

theorem extrap_cell (hn : g.n = 1) (r ej ei v : Nat) (s : Bool) :
    extrapI g t Q r ej ei v (node g.n s 0) = unpacked t Q r ej ei v 0 ∧ extrapJ g t Q r ej ei v (node g.n s 0) = unpacked t Q r ej ei v 0 := by
  unfold extrapI extrapJ
  rw [hn]
  exact extrap_one g.pts _ _ (by cases s <;> simp [node])

theorem var_cell (hn : g.n = 1) {r ej ei : Nat} (hj : ej < g.N) (hi : ei < g.N) (s : Bool) :
    varI g t Q r ej (ei + 1) s 0 0 = depthI t Q r ej ei s ∧ varJ g t Q r (ej + 1) ei s 0 0 = depthJ t Q r ej ei s ∧
    varI g t Q r ej (ei + 1) s 0 1 = Q r ej ei 1 0 ∧ varJ g t Q r (ej + 1) ei s 0 2 = Q r ej ei 2 0 := by
  have a : 1 ≤ ei + 1 ∧ ei + 1 ≤ g.N := by omega
  have b : 1 ≤ ej + 1 ∧ ej + 1 ≤ g.N := by omega
  simp only [varI, varJ, if_pos a, if_pos b, Nat.add_sub_cancel, (extrap_cell hn r ej ei _ s).1, (extrap_cell hn r ej ei _ s).2, unpacked,
    depthI, depthJ, if_true, one_ne_zero, two_ne_zero, if_false, and_self]

theorem positive_of_wet (hn : g.n = 1) (hw : WetSides g t Q) : PositiveDepth g t Q := by
  intro r hr e he p h1 h2 s l hl
  have : l = 0 := by omega
  subst this
  obtain ⟨p, rfl⟩ : ∃ p', p = p' + 1 := ⟨p - 1, by omega⟩
  rw [(var_cell hn he (by omega) s).1, (var_cell hn (by omega : p < g.N) he s).2.1]
  exact ⟨(hw r hr e he p (by omega) s).1, (hw r hr p (by omega) e he s).2⟩

theorem sym_one {xs ws : List ℝ} (hn : g.n = 1) (h : IsGaussRule 1 xs ws) (hp : g.pts = arr xs) :
    ∀ i < g.n, g.pts (g.n - 1 - i) = -g.pts i := by
  intro i hi
  have hi0 : i = 0 := by omega
  obtain ⟨x, hx⟩ := List.length_eq_one_iff.1 h.nodes_length
  have hm := h.mirror
  rw [hx] at hm
  simp only [List.reverse_singleton, List.map_cons, List.map_nil, List.cons.injEq, and_true] at hm
  rw [hi0, hn, hp, hx]
  simpa [arr] using hm

/-- the depth is positive on both sides of every face, also in the halo -/
theorem faces_wet {xs ws : List ℝ} (hk : 0 < g.k) (hN : 0 < g.N) (hn : g.n = 1) (h : IsGaussRule 1 xs ws) (hp : g.pts = arr xs)
    (ht : OneTopography g t) (hw : WetSides g t Q) {r : Nat} (hr : r < 6 * g.k ^ 2) {e : Nat} (he : e < g.N) (p : Nat) (s : Bool)
    (hf : AtFace g.N p s) : 0 < varI g t Q r e p s 0 0 ∧ 0 < varJ g t Q r p e s 0 0 := by
  have hpos := positive_of_wet hn hw
  have hn0 : 0 < g.n := by omega
  by_cases hin : 1 ≤ p ∧ p ≤ g.N
  · exact hpos r hr e he p hin.1 hin.2 s 0 hn0
  · have hv := placeOf_valid (k := g.k) (rank := r) (by rw [← pow_two]; exact hr)
    have hrr : enc g.k (placeOf g.k r) = r := enc_placeOf
    have hie : e < g.N * g.n := by rw [hn]; omega
    have halo : ∀ d : Side, 0 < received g t Q r d 0 e - topoHalo g t r d e := by
      intro d
      have rh := received_h (t := t) (Q := Q) hv d hie
      obtain ⟨t1, t2⟩ := topo_facing hk hN hn0 (sym_one hn h hp) ht hv d hie
      rw [hrr] at rh t1 t2
      rw [rh, t1, ← t2]
      have hlt := enc_lt (nbrPlace_valid hv d)
      rw [← pow_two] at hlt
      exact own_pos hN hn0 hpos hlt _ (mirrored_lt _ hie)
    have e1 : e / g.n = e := by rw [hn, Nat.div_one]
    have e2 : e % g.n = 0 := by rw [hn, Nat.mod_one]
    have e3 : e * g.n + 0 = e := by rw [hn]; omega
    cases s
    · have hp' : p = g.N + 1 := by simp [AtFace] at hf; omega
      subst hp'
      have a := halo .east
      have b := halo .north
      simp only [topoHalo, e1, e2] at a b
      simp only [varI, varJ, if_neg hin, e3, Nat.add_one_ne_zero, false_and, if_false, and_self, if_true]
      exact ⟨a, b⟩
    · have hp' : p = 0 := by simp [AtFace] at hf; omega
      subst hp'
      have a := halo .west
      have b := halo .south
      simp only [topoHalo, e1, e2] at a b
      simp only [varI, varJ, if_neg hin, e3, and_self, if_true]
      exact ⟨a, b⟩

/-- the tendency of the depth of an element is the balance of the fluxes through its four sides -/
theorem tendency_one {xs ws : List ℝ} (hk : 0 < g.k) (hN : 0 < g.N) (hn : g.n = 1) (h : IsGaussRule 1 xs ws) (hp : g.pts = arr xs)
    (hR : g.radius ≠ 0) (r ej ei : Nat) :
    2 * g.sqrtG r (g.solXY r ej ei 0) * rhs g t Q r ej ei 0 0 =
      -(fluxI g t Q r ej (ei + 1) true 0 0 - fluxI g t Q r ej (ei + 1) false 0 0)
      - (fluxJ g t Q r (ej + 1) ei true 0 0 - fluxJ g t Q r (ej + 1) ei false 0 0) := by
  have key := C43_budget_2d le_rfl h 1 1 one_pos one_pos (fun _ _ c => g.sqrtG r (g.solXY r ej ei c))
    (fun _ _ c => pointwiseSW 0 (solSide g Q r ej ei c) 0) (fun _ _ c => pointwiseSW 1 (solSide g Q r ej ei c) 0)
    (fun _ _ m => fluxI g t Q r ej (ei + 1) (decide (1 ≤ m)) (m % 1) 0)
    (fun _ _ m => fluxJ g t Q r (ej + 1) ei (decide (1 ≤ m)) (m % 1) 0)
    (fun _ _ c => (Grid.sqrtG_pos hk hN hR r _).ne') (by omega) (by omega)
  simp only [Finset.range_one, Finset.sum_singleton, elemSum2, weight_one h, zero_mul, zero_add, Nat.mod_one] at key
  have hz : forcing g t Q r ej ei 0 0 = 0 := by simp [forcing, forcingAt]
  simp only [rhs, hz, sub_zero, hp, hn, Nat.mod_one]
  simp only [show decide (1 ≤ 1 + 0) = true from rfl, show decide (1 ≤ 0) = false from rfl] at key
  linarith

/-- **C89**, shallow water, one step of Euler1 with one solution point per element on all tiles: the depth of every element stays
    positive if it cannot lose its content in the step, over any topography under which the depth at the element sides is positive. -/
theorem C89_shallow_step {xs ws : List ℝ} (hk : 0 < g.k) (hN : 0 < g.N) (hn : g.n = 1) (h : IsGaussRule 1 xs ws) (hp : g.pts = arr xs)
    (hR : g.radius ≠ 0) (ht : OneTopography g t) (hw : WetSides g t Q) (dt : ℝ) (hdt : 0 ≤ dt) (hl : LimitedSW g t dt Q)
    {r ej ei : Nat} (hr : r < 6 * g.k ^ 2) (hj : ej < g.N) (hi : ei < g.N) :
    0 < Schemes.euler1 (fun Q => rhs g t Q) Q dt r ej ei 0 0 := by
  have e : Schemes.euler1 (fun Q => rhs g t Q) Q dt r ej ei 0 0 = Q r ej ei 0 0 + dt * rhs g t Q r ej ei 0 0 := rfl
  rw [e]
  have hG := Grid.sqrtG_pos hk hN hR r (g.solXY r ej ei 0)
  have T := tendency_one (t := t) (Q := Q) hk hN hn h hp hR r ej ei
  have L := hl r hr ej hj ei hi
  have wet := fun e he p s hf => faces_wet hk hN hn h hp ht hw hr (e := e) he p s hf
  have aT : AtFace g.N (ei + 1) true := by simp [AtFace]; omega
  have aF : AtFace g.N (ei + 1) false := by simp [AtFace]; omega
  have aT' : AtFace g.N ei true := by simp [AtFace]; omega
  have aF' : AtFace g.N (ei + 1 + 1) false := by simp [AtFace]; omega
  have bT : AtFace g.N (ej + 1) true := by simp [AtFace]; omega
  have bF : AtFace g.N (ej + 1) false := by simp [AtFace]; omega
  have bT' : AtFace g.N ej true := by simp [AtFace]; omega
  have bF' : AtFace g.N (ej + 1 + 1) false := by simp [AtFace]; omega
  have vT := var_cell (t := t) (Q := Q) (r := r) hn hj hi true
  have vF := var_cell (t := t) (Q := Q) (r := r) hn hj hi false
  have E : fluxI g t Q r ej (ei + 1) true 0 0 ≤ lossI g t Q r ej ei true := by
    have := (face_I (sideI g t Q r ej (ei + 1) true 0) (sideI g t Q r ej (ei + 1 + 1) false 0) (wet ej hj _ _ aT).1 (wet ej hj _ _ aF').1
      (Grid.H_pos hk hN hR _ _ 0) rfl (Grid.sqrtG_pos hk hN hR _ _)).1
    simp only [fluxI, faces]
    rw [if_pos (by omega)]
    simp only [sideI, vT.1, vT.2.2.1] at this
    simp only [lossI, if_true]
    exact this
  have W : -fluxI g t Q r ej (ei + 1) false 0 0 ≤ lossI g t Q r ej ei false := by
    have := (face_I (sideI g t Q r ej ei true 0) (sideI g t Q r ej (ei + 1) false 0) (wet ej hj _ _ aT').1 (wet ej hj _ _ aF).1
      (Grid.H_pos hk hN hR _ _ 0) rfl (Grid.sqrtG_pos hk hN hR _ _)).2
    simp only [fluxI, faces]
    rw [if_pos (by omega), Nat.add_sub_cancel]
    simp only [sideI, vF.1, vF.2.2.1] at this
    simp only [lossI, Bool.false_eq_true, if_false]
    exact this
  have N : fluxJ g t Q r (ej + 1) ei true 0 0 ≤ lossJ g t Q r ej ei true := by
    have := (face_J (sideJ g t Q r (ej + 1) ei true 0) (sideJ g t Q r (ej + 1 + 1) ei false 0) (wet ei hi _ _ bT).2 (wet ei hi _ _ bF').2
      (Grid.H_pos hk hN hR _ _ 1) rfl (Grid.sqrtG_pos hk hN hR _ _)).1
    simp only [fluxJ, faces]
    rw [if_pos (by omega)]
    simp only [sideJ, vT.2.1, vT.2.2.2] at this
    simp only [lossJ, if_true]
    exact this
  have S : -fluxJ g t Q r (ej + 1) ei false 0 0 ≤ lossJ g t Q r ej ei false := by
    have := (face_J (sideJ g t Q r ej ei true 0) (sideJ g t Q r (ej + 1) ei false 0) (wet ei hi _ _ bT').2 (wet ei hi _ _ bF).2
      (Grid.H_pos hk hN hR _ _ 1) rfl (Grid.sqrtG_pos hk hN hR _ _)).2
    simp only [fluxJ, faces]
    rw [if_pos (by omega), Nat.add_sub_cancel]
    simp only [sideJ, vF.2.1, vF.2.2.2] at this
    simp only [lossJ, Bool.false_eq_true, if_false]
    exact this
  have K : -(dt * (lossI g t Q r ej ei true + lossI g t Q r ej ei false + lossJ g t Q r ej ei true + lossJ g t Q r ej ei false)) ≤
      dt * (2 * g.sqrtG r (g.solXY r ej ei 0) * rhs g t Q r ej ei 0 0) := by
    rw [T, ← mul_neg]
    exact mul_le_mul_of_nonneg_left (by linarith) hdt
  have : 0 < 2 * g.sqrtG r (g.solXY r ej ei 0) * (Q r ej ei 0 0 + dt * rhs g t Q r ej ei 0 0) := by linarith
  exact (mul_pos_iff_of_pos_left (by positivity)).1 this

/-- without topography the depth at the sides is the depth of the element -/
theorem wet_none (hpos : ∀ r < 6 * g.k ^ 2, ∀ ej < g.N, ∀ ei < g.N, 0 < Q r ej ei 0 0) : WetSides g Topography.none Q := by
  intro r hr ej hj ei hi s
  simp only [depthI, depthJ, Topography.none, add_zero, sub_zero, and_self]
  exact hpos r hr ej hj ei hi

/-- **C89**, whole runs without topography: the depth stays positive, for every sequence of step sizes such that no element can lose its
    content in a step. -/
theorem C89_shallow_run {xs ws : List ℝ} (hk : 0 < g.k) (hN : 0 < g.N) (hn : g.n = 1) (h : IsGaussRule 1 xs ws) (hp : g.pts = arr xs)
    (hR : g.radius ≠ 0) (Q : Nat → Field) (dt : Nat → ℝ) (hdt : ∀ i, 0 ≤ dt i)
    (hrun : ∀ i, Q (i + 1) = Schemes.euler1 (fun Q => rhs g Topography.none Q) (Q i) (dt i))
    (hpos : ∀ r < 6 * g.k ^ 2, ∀ ej < g.N, ∀ ei < g.N, 0 < Q 0 r ej ei 0 0)
    (hl : ∀ i, LimitedSW g Topography.none (dt i) (Q i)) (i : Nat) :
    ∀ r < 6 * g.k ^ 2, ∀ ej < g.N, ∀ ei < g.N, 0 < Q i r ej ei 0 0 := by
  induction i with
  | zero => exact hpos
  | succ i ih =>
    intro r hr ej hj ei hi
    rw [hrun]
    exact C89_shallow_step hk hN hn h hp hR ⟨fun _ => 0, fun _ _ _ _ _ _ _ _ _ => ⟨rfl, rfl⟩⟩ (wet_none ih) (dt i) (hdt i) (hl i) hr hj hi

/-- **C89**, whole runs over any topography: the depth stays positive as long as the water covers the sides of the elements, for every sequence of
    step sizes such that no element can lose its content in a step. -/
theorem C89_shallow_run_topography_partial {xs ws : List ℝ} (hk : 0 < g.k) (hN : 0 < g.N) (hn : g.n = 1) (h : IsGaussRule 1 xs ws) (hp : g.pts = arr xs)
    (hR : g.radius ≠ 0) (ht : OneTopography g t) (Q : Nat → Field) (dt : Nat → ℝ) (hdt : ∀ i, 0 ≤ dt i)
    (hrun : ∀ i, Q (i + 1) = Schemes.euler1 (fun Q => rhs g t Q) (Q i) (dt i))
    (hw : ∀ i, WetSides g t (Q i)) (hl : ∀ i, LimitedSW g t (dt i) (Q i)) (i : Nat) :
    ∀ r < 6 * g.k ^ 2, ∀ ej < g.N, ∀ ei < g.N, 0 < Q (i + 1) r ej ei 0 0 := by
  intro r hr ej hj ei hi
  rw [hrun]
  exact C89_shallow_step hk hN hn h hp hR ht (hw i) (dt i) (hdt i) (hl i) hr hj hi

/-- **C89**, whole runs over a topography that does not rise from the middle of an element to its sides: the depth stays positive when it is
    positive at the start, for every sequence of step sizes such that no element can lose its content in a step. -/
theorem C89_shallow_run_falling {xs ws : List ℝ} (hk : 0 < g.k) (hN : 0 < g.N) (hn : g.n = 1) (h : IsGaussRule 1 xs ws) (hp : g.pts = arr xs)
    (hR : g.radius ≠ 0) (ht : OneTopography g t)
    (hf : ∀ r < 6 * g.k ^ 2, ∀ ej < g.N, ∀ ei < g.N, ∀ s, t.itfI r ej (ei + 1) s 0 ≤ t.h r ej ei 0 ∧ t.itfJ r (ej + 1) ei s 0 ≤ t.h r ej ei 0)
    (Q : Nat → Field) (dt : Nat → ℝ) (hdt : ∀ i, 0 ≤ dt i)
    (hrun : ∀ i, Q (i + 1) = Schemes.euler1 (fun Q => rhs g t Q) (Q i) (dt i))
    (hpos : ∀ r < 6 * g.k ^ 2, ∀ ej < g.N, ∀ ei < g.N, 0 < Q 0 r ej ei 0 0)
    (hl : ∀ i, LimitedSW g t (dt i) (Q i)) (i : Nat) :
    ∀ r < 6 * g.k ^ 2, ∀ ej < g.N, ∀ ei < g.N, 0 < Q i r ej ei 0 0 := by
  induction i with
  | zero => exact hpos
  | succ i ih =>
    intro r hr ej hj ei hi
    rw [hrun]
    refine C89_shallow_step hk hN hn h hp hR ht ?_ (dt i) (hdt i) (hl i) hr hj hi
    intro r hr ej hj ei hi s
    have h1 := ih r hr ej hj ei hi
    have h2 := hf r hr ej hj ei hi s
    unfold depthI depthJ
    constructor <;> linarith [h2.1, h2.2]

/-- a bed that is one metre high in the middle of every element and zero on all sides: the hypotheses about the topography are met -/
example (g : Grid) : OneTopography g ⟨fun _ _ _ _ => 1, fun _ _ _ _ _ => 0, fun _ _ _ _ _ => 0, fun _ _ _ _ => 0, fun _ _ _ _ => 0⟩ ∧ (0 : ℝ) ≤ 1 :=
  ⟨⟨fun _ => 0, fun _ _ _ _ _ _ _ _ _ => ⟨rfl, rfl⟩⟩, by norm_num⟩

/-- **C89** Such steps exist: for every state with positive depth there is a positive step size with which no element can lose its
    content. -/
theorem C89_shallow_possible (hk : 0 < g.k) (hN : 0 < g.N) (hR : g.radius ≠ 0) (t : Topography) (Q : Field)
    (hpos : ∀ r < 6 * g.k ^ 2, ∀ ej < g.N, ∀ ei < g.N, 0 < Q r ej ei 0 0) : ∃ dt : ℝ, 0 < dt ∧ LimitedSW g t dt Q := by
  obtain ⟨dt, h0, h⟩ := step_exists ((Finset.range (6 * g.k ^ 2)) ×ˢ (Finset.range g.N) ×ˢ (Finset.range g.N))
    (fun c => lossI g t Q c.1 c.2.1 c.2.2 true + lossI g t Q c.1 c.2.1 c.2.2 false + lossJ g t Q c.1 c.2.1 c.2.2 true +
      lossJ g t Q c.1 c.2.1 c.2.2 false) (fun c => 2 * g.sqrtG c.1 (g.solXY c.1 c.2.1 c.2.2 0) * Q c.1 c.2.1 c.2.2 0 0) (by
      rintro ⟨r, ej, ei⟩ hc
      simp only [Finset.mem_product, Finset.mem_range] at hc
      have := Grid.sqrtG_pos hk hN hR r (g.solXY r ej ei 0)
      have := hpos r hc.1 ej hc.2.1 ei hc.2.2
      positivity)
  exact ⟨dt, h0, fun r hr ej hj ei hi => h ⟨r, ej, ei⟩ (by simp [hr, hj, hi])⟩

/-- **C89** Such runs exist: every state with positive depth over such a topography is the start of a run in which every step has positive
    length and no element can lose its content. -/
theorem C89_shallow_runs_exist {xs ws : List ℝ} (hk : 0 < g.k) (hN : 0 < g.N) (hn : g.n = 1) (h : IsGaussRule 1 xs ws) (hp : g.pts = arr xs)
    (hR : g.radius ≠ 0) (ht : OneTopography g t)
    (hf : ∀ r < 6 * g.k ^ 2, ∀ ej < g.N, ∀ ei < g.N, ∀ s, t.itfI r ej (ei + 1) s 0 ≤ t.h r ej ei 0 ∧ t.itfJ r (ej + 1) ei s 0 ≤ t.h r ej ei 0)
    (Q0 : Field) (hpos : ∀ r < 6 * g.k ^ 2, ∀ ej < g.N, ∀ ei < g.N, 0 < Q0 r ej ei 0 0) :
    ∃ (Q : Nat → Field) (dt : Nat → ℝ), Q 0 = Q0 ∧ (∀ i, 0 < dt i) ∧
      (∀ i, Q (i + 1) = Schemes.euler1 (fun Q => rhs g t Q) (Q i) (dt i)) ∧ ∀ i, LimitedSW g t (dt i) (Q i) := by
  let S := {Q : Field // ∀ r < 6 * g.k ^ 2, ∀ ej < g.N, ∀ ei < g.N, 0 < Q r ej ei 0 0}
  have ex : ∀ q : S, ∃ dt : ℝ, 0 < dt ∧ LimitedSW g t dt q.1 := fun q => C89_shallow_possible hk hN hR t q.1 q.2
  choose len l0 l1 using ex
  let next : S → S := fun q => ⟨Schemes.euler1 (fun Q => rhs g t Q) q.1 (len q), by
    intro r hr ej hj ei hi
    refine C89_shallow_step hk hN hn h hp hR ht ?_ _ (l0 q).le (l1 q) hr hj hi
    intro r hr ej hj ei hi s
    have h1 := q.2 r hr ej hj ei hi
    have h2 := hf r hr ej hj ei hi s
    unfold depthI depthJ
    constructor <;> linarith [h2.1, h2.2]⟩
  refine ⟨fun i => (next^[i] ⟨Q0, hpos⟩).1, fun i => len (next^[i] ⟨Q0, hpos⟩), rfl, fun i => l0 _, ?_, fun i => l1 _⟩
  intro i
  show (next^[i + 1] ⟨Q0, hpos⟩).1 = _
  rw [Function.iterate_succ_apply']

end WxVerif.Props.MaxPrincipleShallow
