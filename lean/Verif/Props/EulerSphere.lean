import Verif.Lemmas.EulerSphere
import Verif.Props.Flux
import Verif.Props.ShallowWater
import Verif.Props.Invariants

/-!
# C65: the 3D Euler model conserves mass and potential temperature over the whole atmosphere
-/

namespace WxVerif.Props.EulerSphere

open WxVerif.EulerSphere WxVerif.Topology WxVerif.Sphere WxVerif.Dfr WxVerif.Flux WxVerif.Cube WxVerif.Quad
open WxVerif.ShallowWater (Grid node sgn backSide_back backFlip_back mirrored_lt mirrored_mirrored)
open WxVerif.ShallowWater.Grid (itfIndex)
open WxVerif.Props.Conservation
open WxVerif.Props.ShallowWater (sides mem_sides sum_sides weights_mirror)

variable {g : Atm} {f : Floor} {Q : Field3} {F : ForcingData}

/-- tendency of density and of potential temperature: the flux divergence alone -/
theorem rhs_scalar (hadv : advectionOnly g = false) {v : Nat} (hv : v = 0 ∨ v = 4) (r ek ej ei c : Nat) :
    rhs g f Q F r ek ej ei v c = rhsSphere3d g.n g.pts (fun c => 1 / sqrtG g f r ek ej ei c)
      (pointFlux g f Q 0 r ek ej ei v) (pointFlux g f Q 1 r ek ej ei v) (pointFlux g f Q 2 r ek ej ei v)
      (ofSides g fun m s => (fluxI g f Q r ek ej m ei s).flux v) (ofSides g fun m s => (fluxJ g f Q r ek ei m ej s).flux v)
      (ofSides g fun m s => (fluxK g f Q r ej ei m ek s).flux v) c := by
  have h1 : ¬(1 ≤ v ∧ v ≤ 3) := by omega
  simp only [rhs, hadv, Bool.false_eq_true, false_and, if_false, divergence, forcing, h1, show v ≠ 3 by omega, sub_zero]

/-- budget of one tile -/
theorem tile_budget (hk : 0 < g.k) (hN : 0 < g.N) (hn : 1 ≤ g.n) (hz : 0 < g.nz) {xs ws : List ℝ} (h : IsGaussRule g.n xs ws) (hp : g.pts = arr xs)
    (hR : g.radius ≠ 0) (hs : SensibleFloor g f) (hadv : advectionOnly g = false) {v : Nat} (hv : v = 0 ∨ v = 4) {r : Nat} (hr : r < 6 * g.k ^ 2) :
    ∑ ek ∈ Finset.range g.nz, ∑ ej ∈ Finset.range g.N, ∑ ei ∈ Finset.range g.N,
      ∑ k ∈ Finset.range g.n, ∑ j ∈ Finset.range g.n, ∑ i ∈ Finset.range g.n, arr ws k * arr ws j * arr ws i *
        (sqrtG g f r ek ej ei ((k * g.n + j) * g.n + i) * rhs g f Q F r ek ej ei v ((k * g.n + j) * g.n + i)) =
      -∑ d ∈ sides, ∑ ek ∈ Finset.range g.nz, ∑ a ∈ Finset.range g.n, ∑ i ∈ Finset.range (g.N * g.n),
        arr ws a * arr ws (i % g.n) * outflux g f Q v ek a r d i := by
  classical
  let G : Nat → Nat → Nat → Nat → ℝ := fun ek ej ei c => if sqrtG g f r ek ej ei c = 0 then 1 else sqrtG g f r ek ej ei c
  have hG0 : ∀ ek ej ei c, G ek ej ei c ≠ 0 := by
    intro ek ej ei c
    simp only [G]
    split
    · exact one_ne_zero
    · assumption
  have key := WxVerif.Props.Flux.C46_tile_budget hn h g.nz g.N g.N hz hN hN (advectionOnly g) G
    (fun ek ej ei => pointFlux g f Q 0 r ek ej ei v) (fun ek ej ei => pointFlux g f Q 1 r ek ej ei v) (fun ek ej ei => pointFlux g f Q 2 r ek ej ei v)
    hG0
    (fun ek ej m p s => rootG3 (ptI g f r ek ej (itfIndex p s) m)) (fun ek ei m p s => rootG3 (ptJ g f r ek (itfIndex p s) ei m))
    (fun ej ei m p s => rootG3 (ptK g f r (itfIndex p s) ej ei m))
    (fun ek ej m p s => ent3 (Hcontra3 (ptI g f r ek ej (itfIndex p s) m))) (fun ek ei m p s => ent3 (Hcontra3 (ptJ g f r ek (itfIndex p s) ei m)))
    (fun ej ei m p s => ent3 (Hcontra3 (ptK g f r (itfIndex p s) ej ei m)))
    (fun _ _ _ _ _ => rfl) (fun _ _ _ _ _ => rfl) (fun _ _ => ⟨fun _ => 0, 0, 0⟩)
    (fun ek ej m e s v => qI g Q r ek ej e v (node (g.n * g.n) s m)) (fun ek ei m e s v => qJ g Q r ek e ei v (node (g.n * g.n) s m))
    (fun ej ei m e s v => qK g Q r e ej ei v (node (g.n * g.n) s m))
    (fun ek ej m v => received g Q ek (m / g.n) r .west v (ej * g.n + m % g.n)) (fun ek ej m v => received g Q ek (m / g.n) r .east v (ej * g.n + m % g.n))
    (fun ek ei m v => received g Q ek (m / g.n) r .south v (ei * g.n + m % g.n)) (fun ek ei m v => received g Q ek (m / g.n) r .north v (ei * g.n + m % g.n))
    v (by omega)
  simp only at key
  have lhs : ∑ ek ∈ Finset.range g.nz, ∑ ej ∈ Finset.range g.N, ∑ ei ∈ Finset.range g.N,
      ∑ k ∈ Finset.range g.n, ∑ j ∈ Finset.range g.n, ∑ i ∈ Finset.range g.n, arr ws k * arr ws j * arr ws i *
        (sqrtG g f r ek ej ei ((k * g.n + j) * g.n + i) * rhs g f Q F r ek ej ei v ((k * g.n + j) * g.n + i)) =
      ∑ ek ∈ Finset.range g.nz, ∑ ej ∈ Finset.range g.N, ∑ ei ∈ Finset.range g.N, elemSum3 g.n (arr ws) (fun c => G ek ej ei c *
        rhsSphere3d g.n (arr xs) (fun c => 1 / G ek ej ei c) (pointFlux g f Q 0 r ek ej ei v) (pointFlux g f Q 1 r ek ej ei v)
          (pointFlux g f Q 2 r ek ej ei v)
          (ofSides g fun m s => (fluxI g f Q r ek ej m ei s).flux v) (ofSides g fun m s => (fluxJ g f Q r ek ei m ej s).flux v)
          (ofSides g fun m s => (fluxK g f Q r ej ei m ek s).flux v) c) := by
    refine Finset.sum_congr rfl fun ek hek => Finset.sum_congr rfl fun ej hej => Finset.sum_congr rfl fun ei hei =>
      Finset.sum_congr rfl fun k hk' => Finset.sum_congr rfl fun j hj => Finset.sum_congr rfl fun i hi => ?_
    have hpos := sqrtG_pos hk hN hn h hp hz hR hs hr (Finset.mem_range.mp hek) (Finset.mem_range.mp hej) (Finset.mem_range.mp hei)
      (Finset.mem_range.mp hk') (Finset.mem_range.mp hj) (Finset.mem_range.mp hi)
    have hGe : G ek ej ei ((k * g.n + j) * g.n + i) = sqrtG g f r ek ej ei ((k * g.n + j) * g.n + i) := by
      simp only [G]; rw [if_neg hpos.ne']
    rw [rhs_scalar hadv hv]
    unfold rhsSphere3d
    simp only [hGe, hp]
  rw [lhs]
  refine (Eq.trans ?_ key).trans ?_
  · rfl
  rw [sum_sides]
  have hi : ∀ (F : Nat → Bool → ℝ) (l : Nat), l < g.n * g.n →
      WxVerif.Props.Flux.itfEntry (g.n * g.n) F l = F l false ∧ WxVerif.Props.Flux.itfEntry (g.n * g.n) F (g.n * g.n + l) = F l true := by
    intro F l hl
    simp [WxVerif.Props.Flux.itfEntry, hl]
  have comb : ∀ (A : Nat → Nat → Nat → Bool → ℝ) (S T : Nat → Nat → Nat → ℝ),
      (∀ ek a e, ∀ b < g.n, S ek a (e * g.n + b) = -1 * A ek e (a * g.n + b) false) →
      (∀ ek a e, ∀ b < g.n, T ek a (e * g.n + b) = 1 * A ek e (a * g.n + b) true) →
      ∑ ek ∈ Finset.range g.nz, ∑ e ∈ Finset.range g.N, ∑ l ∈ Finset.range (g.n * g.n), arr ws (l / g.n) * arr ws (l % g.n) *
          (A ek e l true - A ek e l false) =
        (∑ ek ∈ Finset.range g.nz, ∑ a ∈ Finset.range g.n, ∑ i ∈ Finset.range (g.N * g.n), arr ws a * arr ws (i % g.n) * S ek a i) +
        ∑ ek ∈ Finset.range g.nz, ∑ a ∈ Finset.range g.n, ∑ i ∈ Finset.range (g.N * g.n), arr ws a * arr ws (i % g.n) * T ek a i := by
    intro A S T hS hT
    rw [← Finset.sum_add_distrib]
    apply Finset.sum_congr rfl
    intro ek _
    rw [← Finset.sum_add_distrib]
    simp only [sum_range_mul g.N g.n, sum_range_mul g.n g.n]
    rw [Finset.sum_comm]
    apply Finset.sum_congr rfl
    intro a _
    rw [← Finset.sum_add_distrib]
    apply Finset.sum_congr rfl
    intro e _
    rw [← Finset.sum_add_distrib]
    apply Finset.sum_congr rfl
    intro b hb
    have hb' := Finset.mem_range.mp hb
    rw [hS ek a e b hb', hT ek a e b hb', div_of hb', mod_of hb', mod_of hb']
    ring
  have we := comb (fun ek e l s => (fluxI g f Q r ek e l (if s then g.N - 1 else 0) s).flux v)
    (fun ek a i => outflux g f Q v ek a r .west i) (fun ek a i => outflux g f Q v ek a r .east i)
    (fun ek a e b hb => by simp only [outflux, sgn, div_of hb, mod_of hb]; rfl) (fun ek a e b hb => by simp only [outflux, sgn, div_of hb, mod_of hb]; rfl)
  have sn := comb (fun ek e l s => (fluxJ g f Q r ek e l (if s then g.N - 1 else 0) s).flux v)
    (fun ek a i => outflux g f Q v ek a r .south i) (fun ek a i => outflux g f Q v ek a r .north i)
    (fun ek a e b hb => by simp only [outflux, sgn, div_of hb, mod_of hb]; rfl) (fun ek a e b hb => by simp only [outflux, sgn, div_of hb, mod_of hb]; rfl)
  rw [add_assoc, ← we, ← sn, add_comm]
  congr 1
  congr 1
  · refine Finset.sum_congr rfl fun ek _ => Finset.sum_congr rfl fun e _ => Finset.sum_congr rfl fun l hl => ?_
    have hl' := Finset.mem_range.mp hl
    rw [(hi _ l hl').1, (hi _ l hl').2]
    rfl
  · refine Finset.sum_congr rfl fun ek _ => Finset.sum_congr rfl fun e _ => Finset.sum_congr rfl fun l hl => ?_
    have hl' := Finset.mem_range.mp hl
    rw [(hi _ l hl').1, (hi _ l hl').2]
    rfl

theorem total_rhs (hk : 0 < g.k) (hN : 0 < g.N) (hn : 1 ≤ g.n) (hz : 0 < g.nz) {xs ws : List ℝ} (h : IsGaussRule g.n xs ws)
    (hp : g.pts = arr xs) (hR : g.radius ≠ 0) (ht : OneFloor g f) (hs : SensibleFloor g f) {v : Nat} (hv : v = 0 ∨ v = 4) :
    total g f (arr ws) (fun r ek ej ei c => rhs g f Q F r ek ej ei v c) = 0 := by
  rcases Bool.eq_false_or_eq_true (advectionOnly g) with hadv | hadv
  · unfold total
    have : ∀ r ek ej ei c, rhs g f Q F r ek ej ei v c = 0 := by
      intro r ek ej ei c
      simp only [rhs, hadv, true_and]
      rw [if_pos (by omega)]
    simp [this]
  have hl := h.nodes_length
  have hlw := h.weights_length
  have hsym : ∀ i < g.n, g.pts (g.n - 1 - i) = -g.pts i := by
    intro i hi
    have hm : xs.reverse[i]? = (xs.map fun x => -x)[i]? := by rw [h.mirror]
    rw [List.getElem?_reverse (by omega), List.getElem?_map, hl, List.getElem?_eq_getElem (by omega), List.getElem?_eq_getElem (by omega)] at hm
    rw [hp]
    unfold arr
    rw [List.getD_eq_getElem _ _ (by omega), List.getD_eq_getElem _ _ (by omega)]
    simpa using hm
  have hw : ∀ i < g.n, arr ws (g.n - 1 - i) = arr ws i := by
    intro i hi
    have hm : ws.reverse[i]? = ws[i]? := by rw [h.weights_mirror]
    rw [List.getElem?_reverse (by omega), hlw, List.getElem?_eq_getElem (by omega), List.getElem?_eq_getElem (by omega)] at hm
    unfold arr
    rw [List.getD_eq_getElem _ _ (by omega), List.getD_eq_getElem _ _ (by omega)]
    simpa using hm
  unfold total
  rw [Finset.sum_congr rfl fun r hr => tile_budget (Q := Q) (F := F) hk hN hn hz h hp hR hs hadv hv (Finset.mem_range.mp hr),
    Finset.sum_neg_distrib, neg_eq_zero]
  simp only [Finset.sum_sigma']
  apply Finset.sum_involution (fun (x : (_ : Nat) × (_ : Side) × (_ : Nat) × (_ : Nat) × Nat) _ =>
    ⟨enc g.k (nbrPlace g.k (placeOf g.k x.1) x.2.1), backSide g.k (placeOf g.k x.1) x.2.1, x.2.2.1, x.2.2.2.1,
      mirrored (backFlip g.k (placeOf g.k x.1) x.2.1) (g.N * g.n) x.2.2.2.2⟩)
  · rintro ⟨r, d, ek, a, i⟩ hx
    simp only [Finset.mem_sigma, Finset.mem_range] at hx
    obtain ⟨hr, -, hek, ha, hi⟩ := hx
    rw [pow_two] at hr
    have hv' := placeOf_valid hr
    have hre := enc_placeOf (k := g.k) (rank := r)
    generalize placeOf g.k r = pl at hv' hre
    subst hre
    simp only
    rw [weights_mirror hn hw _ hi, ← mul_add, facing_fluxes hk hN hn hsym ht hv ek a hv' d hi, mul_zero]
  · rintro ⟨r, d, ek, a, i⟩ hx _ e
    simp only [Finset.mem_sigma, Finset.mem_range] at hx
    obtain ⟨hr, -, -⟩ := hx
    rw [pow_two] at hr
    have hv' := placeOf_valid hr
    have e1 := congrArg Sigma.fst e
    simp only at e1
    have := congrArg (placeOf g.k) e1
    rw [placeOf_enc (nbrPlace_valid hv' d)] at this
    exact nbrPlace_ne_self hv' d this
  · rintro ⟨r, d, ek, a, i⟩ hx
    simp only [Finset.mem_sigma, Finset.mem_range] at hx ⊢
    obtain ⟨hr, -, hek, ha, hi⟩ := hx
    rw [pow_two] at hr
    have hv' := placeOf_valid hr
    refine ⟨by rw [pow_two]; exact enc_lt (nbrPlace_valid hv' d), mem_sides _, hek, ha, mirrored_lt _ hi⟩
  · rintro ⟨r, d, ek, a, i⟩ hx
    simp only [Finset.mem_sigma, Finset.mem_range] at hx
    obtain ⟨hr, -, hek, ha, hi⟩ := hx
    rw [pow_two] at hr
    have hv' := placeOf_valid hr
    have hq := nbrPlace_valid hv' d
    simp only [placeOf_enc hq, nbrPlace_back hv', backSide_back hv', backFlip_back hv', mirrored_mirrored _ hi, enc_placeOf]

/-- **C65** For every state, every number of processes `6 k²`, every number of elements and levels, every Gauss rule and every floor, deep
or shallow, with or without Rayleigh damping, the integral over the atmosphere of the density tendency is exactly zero. -/
theorem C65_mass_conserved (hk : 0 < g.k) (hN : 0 < g.N) (hn : 1 ≤ g.n) (hz : 0 < g.nz) {xs ws : List ℝ} (h : IsGaussRule g.n xs ws)
    (hp : g.pts = arr xs) (hR : g.radius ≠ 0) (ht : OneFloor g f) (hs : SensibleFloor g f) :
    total g f (arr ws) (fun r ek ej ei c => rhs g f Q F r ek ej ei 0 c) = 0 :=
  total_rhs hk hN hn hz h hp hR ht hs (Or.inl rfl)

/-- **C65** So is the integral of the tendency of density times potential temperature. -/
theorem C65_theta_conserved (hk : 0 < g.k) (hN : 0 < g.N) (hn : 1 ≤ g.n) (hz : 0 < g.nz) {xs ws : List ℝ} (h : IsGaussRule g.n xs ws)
    (hp : g.pts = arr xs) (hR : g.radius ≠ 0) (ht : OneFloor g f) (hs : SensibleFloor g f) :
    total g f (arr ws) (fun r ek ej ei c => rhs g f Q F r ek ej ei 4 c) = 0 :=
  total_rhs hk hN hn hz h hp hR ht hs (Or.inr rfl)

theorem total_lin (w : Nat → ℝ) (p q : Nat → Nat → Nat → Nat → Nat → ℝ) (β : ℝ) :
    total g f w (fun r ek ej ei c => p r ek ej ei c + β * q r ek ej ei c) = total g f w p + β * total g f w q := by
  unfold total
  simp only [Finset.mul_sum, ← Finset.sum_add_distrib]
  refine Finset.sum_congr rfl fun _ _ => Finset.sum_congr rfl fun _ _ => Finset.sum_congr rfl fun _ _ =>
    Finset.sum_congr rfl fun _ _ => Finset.sum_congr rfl fun _ _ => Finset.sum_congr rfl fun _ _ => Finset.sum_congr rfl fun _ _ => ?_
  ring

/-- **C65** Hence every time integrator whose result is the state plus any combination of tendencies of states keeps the total mass and the
total of density times potential temperature exactly. -/
theorem C65_steps_keep_totals (hk : 0 < g.k) (hN : 0 < g.N) (hn : 1 ≤ g.n) (hz : 0 < g.nz) {xs ws : List ℝ} (h : IsGaussRule g.n xs ws)
    (hp : g.pts = arr xs) (hR : g.radius ≠ 0) (ht : OneFloor g f) (hs : SensibleFloor g f) (m : Nat) (b : Nat → ℝ) (stage : Nat → Field3)
    (v : Nat) (hv : v = 0 ∨ v = 4) :
    total g f (arr ws) (fun r ek ej ei c => Q r ek ej ei v c + ∑ s ∈ Finset.range m, b s * rhs g f (stage s) F r ek ej ei v c) =
      total g f (arr ws) (fun r ek ej ei c => Q r ek ej ei v c) := by
  induction m with
  | zero => simp
  | succ m ih =>
    rw [← ih]
    simp only [Finset.sum_range_succ, ← add_assoc]
    rw [total_lin, total_rhs hk hN hn hz h hp hR ht hs hv, mul_zero, add_zero]

/-- the total of variable `v` over the atmosphere as a linear quantity of the state -/
noncomputable def totalMap (g : Atm) (f : Floor) (w : Nat → ℝ) (v : Nat) : Field3 →ₗ[ℝ] ℝ where
  toFun Q := total g f w fun r ek ej ei c => Q r ek ej ei v c
  map_add' p q := by
    have := total_lin (g := g) (f := f) w (fun r ek ej ei c => p r ek ej ei v c) (fun r ek ej ei c => q r ek ej ei v c) 1
    simp only [one_mul] at this
    exact this
  map_smul' β q := by
    have := total_lin (g := g) (f := f) w (fun _ _ _ _ _ => 0) (fun r ek ej ei c => q r ek ej ei v c) β
    have z : total g f w (fun _ _ _ _ _ => 0) = 0 := by unfold total; simp
    simp only [zero_add, z] at this
    exact this

open WxVerif.Spec.Invariants in
/-- **C65** The two totals are linear quantities conserved by the right-hand side for every state, which is what C64 asks for: all the
integrators covered there keep them. -/
theorem C65_conserved_by_rhs (hk : 0 < g.k) (hN : 0 < g.N) (hn : 1 ≤ g.n) (hz : 0 < g.nz) {xs ws : List ℝ} (h : IsGaussRule g.n xs ws)
    (hp : g.pts = arr xs) (hR : g.radius ≠ 0) (ht : OneFloor g f) (hs : SensibleFloor g f) (v : Nat) (hv : v = 0 ∨ v = 4) :
    ConservedBy (totalMap g f (arr ws) v) (fun Q => rhs g f Q F) :=
  fun _ => total_rhs hk hN hn hz h hp hR ht hs hv

open WxVerif.Spec.Invariants WxVerif.Schemes WxVerif.RungeKutta WxVerif.Props.Invariants in
/-- **C65** For instance: the explicit schemes, the adaptive Runge–Kutta solver at every step it reaches, and the two-step implicit scheme
over any number of steps of any sizes. -/
theorem C65_integrators (hk : 0 < g.k) (hN : 0 < g.N) (hn : 1 ≤ g.n) (hz : 0 < g.nz) {xs ws : List ℝ} (h : IsGaussRule g.n xs ws)
    (hp : g.pts = arr xs) (hR : g.radius ≠ 0) (ht : OneFloor g f) (hs : SensibleFloor g f) (v : Nat) (hv : v = 0 ∨ v = 4) :
    let M := totalMap g f (arr ws) v
    let fct : Field3 → Field3 := fun Q => rhs g f Q F
    (∀ dt : ℝ, Keeps M (fun Q => euler1 fct Q dt) ∧ Keeps M (fun Q => tvdrk3 fct Q dt)) ∧
    (∀ (p : Problem Field3), (∀ t, p.f t = fct) → ∀ t0 Q0 s, Reached p t0 Q0 s → M s.y = M Q0) ∧
    (∀ (newton : Newton Field3), SolverKeeps M newton → ∀ substeps (dts : Nat → ℝ) Q0 n, M (bdf2Run newton fct substeps dts Q0 n).2 = M Q0) := by
  intro M fct
  have hc : ConservedBy M fct := C65_conserved_by_rhs hk hN hn hz h hp hR ht hs v hv
  refine ⟨fun dt => C64_explicit hc dt, fun p hpf t0 Q0 s hr => C64_runge_kutta_run p (fun t y => ?_) t0 Q0 s hr,
    fun newton hnk substeps dts Q0 n => C64_bdf2_run hnk hc substeps dts Q0 n⟩
  rw [hpf t]
  exact hc y

/-- **C65** What makes the volume element right: whatever the floor, the derivative of the height along the column that the operators of the
code compute is exactly the height of the column. -/
theorem C65_column_height (hn : 1 ≤ g.n) {xs ws : List ℝ} (h : IsGaussRule g.n xs ws) (hp : g.pts = arr xs) (hz : 0 < g.nz) (r ek ej ei : Nat)
    {k j i : Nat} (hk : k < g.n) (hj : j < g.n) (hi : i < g.n) :
    slope g f 2 r ek ej ei ((k * g.n + j) * g.n + i) = g.ztop - f.z r ej ei (j * g.n + i) :=
  slope_eta hn h hp hz r ek ej ei hk hj hi

/-- a floor given by one function of the surface point, sampled at all points of all tiles -/
noncomputable def floorOf (g : Atm) (b : V3 ℝ → ℝ) : Floor where
  z r ej ei c := b (point (placeOf g.k r).panel (g.solXY r ej ei c).1 (g.solXY r ej ei c).2)
  itfI r e p l := b (point (placeOf g.k r).panel (Real.tan (g.x1itf r p)) (Real.tan (g.x2 r (e * g.n + l))))
  itfJ r p e l := b (point (placeOf g.k r).panel (Real.tan (g.x1 r (e * g.n + l))) (Real.tan (g.x2itf r p)))

theorem oneFloor_of (g : Atm) (b : V3 ℝ → ℝ) : OneFloor g (floorOf g b) := ⟨b, fun _ _ _ _ _ _ _ _ => ⟨rfl, rfl⟩⟩

/-- 24 processes, 3 × 3 elements and 5 levels per tile, 4 points per element side, a deep atmosphere of 30 km over a mountain range of up to
2 km, case 21 (with damping), any state, any forcing data -/
example (Q : Field3) (F : ForcingData) : ∃ (g : Atm) (f : Floor) (xs ws : List ℝ), g.k = 2 ∧ g.N = 3 ∧ g.n = 4 ∧ g.nz = 5 ∧ g.deep = true ∧
    gaussLegendre 4 = .rule xs ws ∧ g.pts = arr xs ∧ OneFloor g f ∧ SensibleFloor g f ∧ advectionOnly g = false ∧
    total g f (arr ws) (fun r ek ej ei c => rhs g f Q F r ek ej ei 0 c) = 0 := by
  obtain ⟨xs, ws, hr, h⟩ := WxVerif.Props.Quadrature.C41_rule 4 (by omega) (by omega)
  let g : Atm := ⟨⟨2, 3, 4, arr xs, 6371220, 7.29212e-5, fun _ => ⟨0, 0, 0⟩⟩, 5, 30000, true, 21⟩
  let b : V3 ℝ → ℝ := fun x => 2000 * |Real.sin (3 * x.1)|
  have ht : OneFloor g (floorOf g b) := oneFloor_of g b
  have hs : SensibleFloor g (floorOf g b) := by
    intro r _ ej _ ei _ c _
    have h1 : 0 ≤ b (point (placeOf g.k r).panel (g.solXY r ej ei c).1 (g.solXY r ej ei c).2) := by positivity
    have h2 : b (point (placeOf g.k r).panel (g.solXY r ej ei c).1 (g.solXY r ej ei c).2) ≤ 2000 := by
      have := Real.abs_sin_le_one (3 * (point (placeOf g.k r).panel (g.solXY r ej ei c).1 (g.solXY r ej ei c).2).1)
      simp only [b]; linarith
    constructor
    · show b _ < (30000 : ℝ); linarith
    · show -(6371220 : ℝ) < b _; linarith
  refine ⟨g, floorOf g b, xs, ws, rfl, rfl, rfl, rfl, rfl, hr, rfl, ht, hs, by simp [advectionOnly, g], ?_⟩
  exact C65_mass_conserved (g := g) (by simp [g]) (by simp [g]) (by simp [g]) (by simp [g]) h rfl (by norm_num [g]) ht hs

end WxVerif.Props.EulerSphere
