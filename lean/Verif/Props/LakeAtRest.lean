import Verif.Props.SphereConsistency
import Verif.Props.RestState

/-!
# C67, shallow water: still water keeps its depth; its velocity stays zero only up to the truncation error of the scheme
-/

namespace WxVerif.Props.LakeAtRest

open Polynomial hiding comp
open WxVerif.Dfr WxVerif.Flux WxVerif.Sphere WxVerif.Topology WxVerif.Cube WxVerif.Quad WxVerif.Spec.RestState WxVerif.Spec.Consistency WxVerif.Spec.Flux
open WxVerif.Props.Operators WxVerif.Props.Flux WxVerif.Props.Conservation
open WxVerif.ShallowWater WxVerif.Props.ShallowWater
open WxVerif.ShallowWater.Grid (itfIndex)
open WxVerif.Props.RestState (convertContra_zero)
open WxVerif.Props.SphereConsistency
open Real (tan)

variable {g : Grid} {t : Topography} {Q : Field}

theorem sym_of_rule {n : Nat} {pts : Nat → ℝ} {xs ws : List ℝ} (h : IsGaussRule n xs ws) (hp : pts = arr xs) : ∀ i < n, pts (n - 1 - i) = -pts i := by
  have hl := h.nodes_length
  intro i hi
  have hm : xs.reverse[i]? = (xs.map fun x => -x)[i]? := by rw [h.mirror]
  rw [List.getElem?_reverse (by omega), hl, List.getElem?_map, List.getElem?_eq_getElem (by omega), List.getElem?_eq_getElem (by omega)] at hm
  rw [hp]
  unfold arr
  rw [List.getD_eq_getElem _ _ (by omega), List.getD_eq_getElem _ _ (by omega)]
  simpa using hm

theorem inj_of_rule {n : Nat} {pts : Nat → ℝ} {xs ws : List ℝ} (h : IsGaussRule n xs ws) (hp : pts = arr xs) : Set.InjOn pts (Finset.range n) := by
  intro a ha b hb hab
  have ha' : a < n := by simpa using ha
  have hb' : b < n := by simpa using hb
  rw [hp] at hab
  have := extension_injOn h (show a + 1 ∈ _ by simpa using by omega) (show b + 1 ∈ _ by simpa using by omega)
    (by rw [extension_mid _ ha', extension_mid _ hb', hab])
  omega

/-! ## The state on the sides of the elements -/

theorem vecmul_zero (m : Nat) (x : Nat → ℝ) (A : Nat → Nat → ℝ) (c : Nat) (h : ∀ i < m, x i = 0) : vecmul m x A c = 0 := by
  unfold vecmul
  exact Finset.sum_eq_zero fun i hi => by rw [h i (Finset.mem_range.mp hi), zero_mul]

theorem extrap_zero (hQ : StillWater g Q) {v : Nat} (hv : v = 1 ∨ v = 2) {r ej ei : Nat} (hr : r < 6 * g.k ^ 2) (hej : ej < g.N) (hei : ei < g.N) (m : Nat) :
    extrapI g t Q r ej ei v m = 0 ∧ extrapJ g t Q r ej ei v m = 0 := by
  have h : ∀ c < g.n * g.n, unpacked t Q r ej ei v c = 0 := by
    intro c hc
    obtain ⟨h1, h2⟩ := hQ r hr ej hej ei hei c hc
    unfold unpacked
    rcases hv with rfl | rfl
    · rw [if_neg (by omega), h1]
    · rw [if_neg (by omega), h2]
  exact ⟨vecmul_zero _ _ _ _ h, vecmul_zero _ _ _ _ h⟩

theorem div_lt {N n i : Nat} (hi : i < N * n) : i / n < N := Nat.div_lt_of_lt_mul (by rwa [mul_comm] at hi)

theorem sent_zero (hN : 0 < g.N) (hQ : StillWater g Q) {v : Nat} (hv : v = 1 ∨ v = 2) {r : Nat} (hr : r < 6 * g.k ^ 2) (d : Side) {i : Nat} (hi : i < g.N * g.n) :
    sent g t Q r d v i = 0 := by
  have h1 := div_lt hi
  unfold sent
  cases d
  · exact (extrap_zero hQ hv hr hN h1 _).2
  · exact (extrap_zero hQ hv hr (by omega) h1 _).2
  · exact (extrap_zero hQ hv hr h1 hN _).1
  · exact (extrap_zero hQ hv hr h1 (by omega) _).1

theorem received_zero (hk : 0 < g.k) (hn : 1 ≤ g.n) (hN : 0 < g.N) (hsym : ∀ i < g.n, g.pts (g.n - 1 - i) = -g.pts i) (hQ : StillWater g Q)
    {v : Nat} (hv : v = 1 ∨ v = 2) {r : Nat} (hr : r < 6 * g.k ^ 2) (d : Side) {i : Nat} (hi : i < g.N * g.n) : received g t Q r d v i = 0 := by
  have hV := placeOf_valid (k := g.k) (rank := r) (by rw [← sq]; exact hr)
  have hq := nbrPlace_valid hV d
  have hj := mirrored_lt (backFlip g.k (placeOf g.k r) d) hi
  have hr' : enc g.k (nbrPlace g.k (placeOf g.k r) d) < 6 * g.k ^ 2 := by rw [sq]; exact enc_lt hq
  have e : ((receivedU g t Q r d).getD []).getD i (0, 0, 0) = (0, 0, 0) := by
    rw [← enc_placeOf (k := g.k) (rank := r)]
    unfold receivedU exchangeVectors
    simp only [Bool.false_eq_true, if_false]
    rw [show g.size = 6 * (g.k * g.k) from rfl, alltoall_enc hV]
    rw [Option.getD_some, List.getD_eq_getElem?_getD, Grid.boundary_eq hk hN (by omega) hsym hq]
    rw [getElem?_flip _ _ (by simp) hi]
    rw [show WxVerif.Topology.flip (6 * (g.k * g.k)) (enc g.k (nbrPlace g.k (placeOf g.k r) d)) (backSide g.k (placeOf g.k r) d) = backFlip g.k (placeOf g.k r) d from rfl]
    rw [List.getElem?_zipWith, List.getElem?_map, List.getElem?_range hj, List.getElem?_map, List.getElem?_range hj]
    simp only [Option.map_some, sent_zero hN hQ (Or.inl rfl) hr' _ hj, sent_zero hN hQ (Or.inr rfl) hr' _ hj, convertContra_zero]
    rfl
  unfold received
  rw [if_neg (by omega)]
  simp only [e]
  split_ifs <;> rfl

theorem node_lt {N n e l : Nat} (he : e < N) (hl : l < n) : e * n + l < N * n :=
  calc e * n + l < e * n + n := by omega
    _ = (e + 1) * n := by ring
    _ ≤ N * n := Nat.mul_le_mul_right _ he

/-- no momentum on the two sides of any interface -/
theorem sides_zero (hk : 0 < g.k) (hn : 1 ≤ g.n) (hN : 0 < g.N) (hsym : ∀ i < g.n, g.pts (g.n - 1 - i) = -g.pts i) (hQ : StillWater g Q)
    {v : Nat} (hv : v = 1 ∨ v = 2) {r : Nat} (hr : r < 6 * g.k ^ 2) {e : Nat} (he : e < g.N) (p : Nat) (s : Bool) {l : Nat} (hl : l < g.n) :
    varI g t Q r e p s l v = 0 ∧ varJ g t Q r p e s l v = 0 := by
  have v0 : ¬ v = 0 := by omega
  have hlt := node_lt he hl
  simp only [varI, varJ, if_neg v0]
  constructor
  · split_ifs with h1 h2 h3
    · exact (extrap_zero hQ hv hr he (by omega) _).1
    · exact received_zero hk hn hN hsym hQ hv hr _ hlt
    · exact received_zero hk hn hN hsym hQ hv hr _ hlt
    · rfl
  · split_ifs with h1 h2 h3
    · exact (extrap_zero hQ hv hr (by omega) he _).2
    · exact received_zero hk hn hN hsym hQ hv hr _ hlt
    · exact received_zero hk hn hN hsym hQ hv hr _ hlt
    · rfl

/-! ## Mass -/

theorem massI_zero (a b : SideSW) (ha : a.var 1 = 0) (hb : b.var 1 = 0) : (ausmSWI a b).1 0 = 0 ∧ (ausmSWI a b).2 0 = 0 := by
  simp [ausmSWI, ha, hb]

theorem massJ_zero (a b : SideSW) (ha : a.var 2 = 0) (hb : b.var 2 = 0) : (ausmJ a b).1 0 = 0 ∧ (ausmJ a b).2 0 = 0 := by
  have m : ∀ s : SideSW, s.var 2 = 0 → machSWJ s = some 0 := by
    intro s hs
    simp only [machSWJ, hs, zero_div, if_true, ite_self]
  simp [ausmJ, ausmSWJ, m a ha, m b hb]

theorem df_zero (n : Nat) (pts f itf : Nat → ℝ) {j i : Nat} (hj : j < n) (hi : i < n) (hinj : Set.InjOn (extension n pts) (Finset.range (n + 2)))
    (hf : ∀ c < n * n, f c = 0) (h : ∀ m < 2 * n, itf m = 0) : df1_2d n pts f itf (j * n + i) = 0 ∧ df2_2d n pts f itf (j * n + i) = 0 := by
  have k := C42_derivative_2d n pts hinj j i hj hi f itf 0 (by rw [degree_zero]; exact WithBot.bot_lt_coe _)
  simp only [eval_zero, derivative_zero] at k
  exact ⟨k.1 (fun a ha => hf _ (node_lt hj ha)) (h _ (by omega)) (h _ (by omega)),
    k.2 (fun a ha => hf _ (node_lt ha hi)) (h _ (by omega)) (h _ (by omega))⟩

/-- **C67** Still water keeps its depth exactly: whatever the depth and the bottom, the tendency of the depth is zero at every point of every tile. -/
theorem C67_still_water_depth (hk : 0 < g.k) (hN : 0 < g.N) (hn : 1 ≤ g.n) {xs ws : List ℝ} (h : IsGaussRule g.n xs ws) (hp : g.pts = arr xs)
    (hQ : StillWater g Q) {r ej ei j i : Nat} (hr : r < 6 * g.k ^ 2) (hej : ej < g.N) (hei : ei < g.N) (hj : j < g.n) (hi : i < g.n) :
    rhs g t Q r ej ei 0 (j * g.n + i) = 0 := by
  have hsym := sym_of_rule h hp
  have hinj : Set.InjOn (extension g.n g.pts) (Finset.range (g.n + 2)) := by rw [hp]; exact extension_injOn h
  have z := fun {v : Nat} (hv : v = 1 ∨ v = 2) {e : Nat} (he : e < g.N) (p : Nat) (s : Bool) {l : Nat} (hl : l < g.n) =>
    sides_zero (t := t) hk hn hN hsym hQ hv hr he p s hl
  have d1 := (df_zero g.n g.pts (fun c => pointwiseSW 0 (solSide g Q r ej ei c) 0)
    (fun m => fluxI g t Q r ej (ei + 1) (decide (g.n ≤ m)) (m % g.n) 0) hj hi hinj
    (fun c hc => by simp [pointwiseSW, solSide, (hQ r hr ej hej ei hei c hc).1])
    (fun m hm => by
      have hl := Nat.mod_lt m (show 0 < g.n by omega)
      beta_reduce
      cases decide (g.n ≤ m)
      · simp only [fluxI, faces]
        rw [if_pos (by omega)]
        exact (massI_zero _ _ (z (Or.inl rfl) hej _ _ hl).1 (z (Or.inl rfl) hej _ _ hl).1).2
      · simp only [fluxI, faces]
        rw [if_pos (by omega)]
        exact (massI_zero _ _ (z (Or.inl rfl) hej _ _ hl).1 (z (Or.inl rfl) hej _ _ hl).1).1)).1
  have d2 := (df_zero g.n g.pts (fun c => pointwiseSW 1 (solSide g Q r ej ei c) 0)
    (fun m => fluxJ g t Q r (ej + 1) ei (decide (g.n ≤ m)) (m % g.n) 0) hj hi hinj
    (fun c hc => by simp [pointwiseSW, solSide, (hQ r hr ej hej ei hei c hc).2])
    (fun m hm => by
      have hl := Nat.mod_lt m (show 0 < g.n by omega)
      beta_reduce
      cases decide (g.n ≤ m)
      · simp only [fluxJ, faces]
        rw [if_pos (by omega)]
        exact (massJ_zero _ _ (z (Or.inr rfl) hei _ _ hl).2 (z (Or.inr rfl) hei _ _ hl).2).2
      · simp only [fluxJ, faces]
        rw [if_pos (by omega)]
        exact (massJ_zero _ _ (z (Or.inr rfl) hei _ _ hl).2 (z (Or.inr rfl) hei _ _ hl).2).1)).2
  rw [rhs, rhsSphere2d, d1, d2, forcing, forcingAt, if_neg (by omega), if_neg (by omega)]
  ring

/-! ## Momentum -/

/-- the depth on both sides of any interface -/
theorem depth_uniform (hn : 1 ≤ g.n) (hN : 0 < g.N) (hinj : Set.InjOn g.pts (Finset.range g.n)) {H : ℝ} (hQ : UniformDepth g Q H)
    {r : Nat} (hr : r < 6 * g.k ^ 2) {e : Nat} (he : e < g.N) {p : Nat} (hp : p ≤ g.N + 1) (s : Bool) (hs : (p = 0 → s = true) ∧ (p = g.N + 1 → s = false))
    {l : Nat} (hl : l < g.n) :
    varI g Topography.none Q r e p s l 0 = H ∧ varJ g Topography.none Q r p e s l 0 = H := by
  have hd : (Polynomial.C H).degree < ((g.n : Nat) : WithBot Nat) := lt_of_le_of_lt Polynomial.degree_C_le (by exact_mod_cast hn)
  have key : ∀ {r ej ei l : Nat} (s : Bool), r < 6 * g.k ^ 2 → ej < g.N → ei < g.N → l < g.n →
      extrapI g Topography.none Q r ej ei 0 (node g.n s l) = H ∧ extrapJ g Topography.none Q r ej ei 0 (node g.n s l) = H := by
    intro r ej ei l s hr hej hei hl
    obtain ⟨k1, k2⟩ := C42_extrap_2d g.n g.pts hinj (unpacked Topography.none Q r ej ei 0) l hl (Polynomial.C H) hd
    simp only [Polynomial.eval_C] at k1 k2
    have hu : ∀ c < g.n * g.n, unpacked Topography.none Q r ej ei 0 c = H := by intro c hc; simp [unpacked, Topography.none, hQ r hr ej hej ei hei c hc]
    have a1 := k1 fun a ha => hu _ (node_lt hl ha)
    have a2 := k2 fun a ha => hu _ (node_lt ha hl)
    cases s
    · exact ⟨a1.1, a2.1⟩
    · exact ⟨a1.2, a2.2⟩
  have sentH : ∀ {r : Nat} (d : Side) {i : Nat}, r < 6 * g.k ^ 2 → i < g.N * g.n → sent g Topography.none Q r d 0 i = H := by
    intro r d i hr hi
    have h1 := div_lt hi
    have h2 := Nat.mod_lt i (show 0 < g.n by omega)
    unfold sent
    cases d
    · exact (key _ hr hN h1 h2).2
    · exact (key _ hr (by omega) h1 h2).2
    · exact (key _ hr h1 hN h2).1
    · exact (key _ hr h1 (by omega) h2).1
  have recH : ∀ (d : Side) {i : Nat}, i < g.N * g.n → received g Topography.none Q r d 0 i = H := by
    intro d i hi
    have hV := placeOf_valid (k := g.k) (rank := r) (by rw [← sq]; exact hr)
    rw [← enc_placeOf (k := g.k) (rank := r), received_h hV d hi]
    exact sentH _ (by rw [sq]; exact enc_lt (nbrPlace_valid hV d)) (mirrored_lt _ hi)
  have hlt := node_lt he hl
  simp only [varI, varJ, if_true]
  rw [show ∀ a b c d e, Topography.none.itfI a b c d e = 0 from fun _ _ _ _ _ => rfl, show ∀ a b c d e, Topography.none.itfJ a b c d e = 0 from fun _ _ _ _ _ => rfl,
    sub_zero, sub_zero]
  constructor
  · split_ifs with h1 h2 h3
    · exact (key s hr he (by omega) hl).1
    · exact recH _ hlt
    · exact recH _ hlt
    · rcases Nat.eq_zero_or_pos p with h0 | h0
      · exact absurd ⟨h0, hs.1 h0⟩ h2
      · have : p = g.N + 1 := by omega
        exact absurd ⟨this, hs.2 this⟩ h3
  · split_ifs with h1 h2 h3
    · exact (key s hr (by omega) he hl).2
    · exact recH _ hlt
    · exact recH _ hlt
    · rcases Nat.eq_zero_or_pos p with h0 | h0
      · exact absurd ⟨h0, hs.1 h0⟩ h2
      · have : p = g.N + 1 := by omega
        exact absurd ⟨this, hs.2 this⟩ h3

/-- the state of still water of depth `H` -/
def still (H : ℝ) (v : Nat) : ℝ := if v = 0 then H else 0

theorem agree (hk : 0 < g.k) (hn : 1 ≤ g.n) (hN : 0 < g.N) {xs ws : List ℝ} (h : IsGaussRule g.n xs ws) (hp : g.pts = arr xs) {H : ℝ}
    (h1 : StillWater g Q) (h2 : UniformDepth g Q H) {r : Nat} (hr : r < 6 * g.k ^ 2) {e : Nat} (he : e < g.N) {p : Nat} (hpN : p ≤ g.N) {l : Nat} (hl : l < g.n) :
    AgreeI g Topography.none Q r e p l (still H) ∧ AgreeJ g Topography.none Q r p e l (still H) := by
  have hsym := sym_of_rule h hp
  have hinj := inj_of_rule h hp
  have a := depth_uniform hn hN hinj h2 hr he (p := p) (by omega) true ⟨fun _ => rfl, fun h => by omega⟩ hl
  have b := depth_uniform hn hN hinj h2 hr he (p := p + 1) (by omega) false ⟨fun h => by omega, fun _ => rfl⟩ hl
  have z := fun (v : Nat) (hv : v = 1 ∨ v = 2) (p : Nat) (s : Bool) => sides_zero (t := Topography.none) hk hn hN hsym h1 hv hr he p s hl
  constructor
  · intro v hv
    rcases (by omega : v = 0 ∨ v = 1 ∨ v = 2) with rfl | h | h
    · exact ⟨a.1, b.1⟩
    · rw [still, if_neg (by omega)]; exact ⟨(z v (Or.inl h) _ _).1, (z v (Or.inl h) _ _).1⟩
    · rw [still, if_neg (by omega)]; exact ⟨(z v (Or.inr h) _ _).1, (z v (Or.inr h) _ _).1⟩
  · intro v hv
    rcases (by omega : v = 0 ∨ v = 1 ∨ v = 2) with rfl | h | h
    · exact ⟨a.2, b.2⟩
    · rw [still, if_neg (by omega)]; exact ⟨(z v (Or.inl h) _ _).2, (z v (Or.inl h) _ _).2⟩
    · rw [still, if_neg (by omega)]; exact ⟨(z v (Or.inr h) _ _).2, (z v (Or.inr h) _ _).2⟩

/-- the tendency of still water of uniform depth over a flat bottom with one point per element -/
theorem one_point (hk : 0 < g.k) (hn : g.n = 1) (hN : 0 < g.N) {xs ws : List ℝ} (h : IsGaussRule g.n xs ws) (hp : g.pts = arr xs) (hR : g.radius ≠ 0)
    {H : ℝ} (hH : 0 < H) (h1 : StillWater g Q) (h2 : UniformDepth g Q H) {r : Nat} (hr : r < 6 * g.k ^ 2) {ej ei : Nat} (hej : ej < g.N) (hei : ei < g.N)
    {v : Nat} (hv : v < 3) :
    rhs g Topography.none Q r ej ei v 0 = -(1 / g.sqrtG r (g.solXY r ej ei 0)) *
      ((physI g r ej (ei + 1) 0 (still H) v - physI g r ej ei 0 (still H) v) / 2 + (physJ g r (ej + 1) ei 0 (still H) v - physJ g r ej ei 0 (still H) v) / 2)
      - forcing g Topography.none Q r ej ei v 0 := by
  have hs : g.pts 0 = 0 := by have := sym_of_rule h hp 0 (by omega); simp only [hn] at this; linarith
  have hc : (0 : Nat) < g.n * g.n := by rw [hn]; norm_num
  let mk : ℝ → ℝ → ℝ → ℝ[X] := fun a b c => C a + C ((c - b) / 2) * X + C ((c + b) / 2 - a) * X ^ 2
  have line : ∀ (f : Nat → ℝ) b c, OnLine g.n g.pts (mk (f 0) b c) f b c := by
    intro f b c
    refine ⟨?_, ?_, ?_, ?_⟩
    · rw [hn]
      have : (mk (f 0) b c).degree ≤ 2 := by simp only [mk]; compute_degree
      exact lt_of_le_of_lt this (by norm_num)
    · intro a ha
      have : a = 0 := by omega
      subst this
      simp [mk, hs]
    · simp [mk]; ring
    · simp [mk]; ring
  have dm : ∀ a b c, (derivative (mk a b c)).eval 0 = (c - b) / 2 := by intro a b c; simp [mk]
  have ag := fun {e : Nat} (he : e < g.N) {p : Nat} (hpN : p ≤ g.N) => agree hk (by omega) hN h hp h1 h2 hr he hpN (l := 0) (by omega)
  have hinj : Set.InjOn (extension g.n g.pts) (Finset.range (g.n + 2)) := by rw [hp]; exact extension_injOn h
  have key := C66_shallow_water (t := Topography.none) hk hN hR hinj hej hei (j := 0) (i := 0) (by omega) (by omega)
    (ag hej hei.le).1 (ag hej (p := ei + 1) hei).1 (ag hei hej.le).2 (ag hei (p := ej + 1) hej).2 (by simpa [still]) (by simpa [still]) (by simpa [still])
    (by simpa [still]) (fun c hc => by rw [h2 r hr ej hej ei hei c hc]; exact hH.ne') hv (line _ _ _) (line _ _ _)
  rw [hs, dm, dm] at key
  simpa using key

theorem tan_eighth : tan (Real.pi / 8) ^ 2 = 1 - 2 * tan (Real.pi / 8) := by
  have h := Real.tan_two_mul (x := Real.pi / 8)
  rw [show 2 * (Real.pi / 8) = Real.pi / 4 by ring, Real.tan_pi_div_four] at h
  by_cases h0 : 1 - tan (Real.pi / 8) ^ 2 = 0
  · rw [h0, div_zero] at h; norm_num at h
  · rw [eq_div_iff h0] at h; linarith

/-- the contravariant pressure tensor times `√G` in the units of the element: no trace of the radius is left -/
theorem tensor {R d X Y : ℝ} (hR : R ≠ 0) (hd : d ≠ 0) :
    sqrtGs R d d X Y * Hcontras R d d X Y 0 0 = (1 + Y ^ 2) / Real.sqrt (1 + X ^ 2 + Y ^ 2) / 2 ∧
    sqrtGs R d d X Y * Hcontras R d d X Y 0 1 = X * Y / Real.sqrt (1 + X ^ 2 + Y ^ 2) / 2 := by
  have h1 : 1 + X ^ 2 ≠ 0 := by positivity
  have h2 : 1 + Y ^ 2 ≠ 0 := by positivity
  have h3 : 0 < 1 + X ^ 2 + Y ^ 2 := by positivity
  have h4 : Real.sqrt (1 + X ^ 2 + Y ^ 2) ≠ 0 := (Real.sqrt_pos.mpr h3).ne'
  have h5 := Real.sq_sqrt h3.le
  constructor
  all_goals
    simp only [sqrtGs, Hcontras, WxVerif.Sphere.sqrtG, Hcontra, delta, delta2]
    simp
    field_simp
    try norm_num
    try ring

/-- **C67** The velocity of still water of uniform depth over a flat bottom does not stay exactly zero: with one point per element and two elements per
side of the panels the scheme starts a current.  (The exact pressure gradient vanishes because the four face terms cancel; here they cancel only up
to the truncation error.) -/
theorem C67_still_water_velocity_fails (xs ws : List ℝ) (h : IsGaussRule 1 xs ws) (R Ω H : ℝ) (hR : R ≠ 0) (hH : 0 < H) (o : Nat → Orientation) :
    let g : Grid := ⟨1, 2, 1, arr xs, R, Ω, o⟩
    let Q : Field := fun _ _ _ v _ => still H v
    StillWater g Q ∧ UniformDepth g Q H ∧ rhs g Topography.none Q 0 1 1 1 0 ≠ 0 := by
  intro g Q
  have h1 : StillWater g Q := by intro r _ ej _ ei _ c _; simp [Q, still]
  have h2 : UniformDepth g Q H := by intro r _ ej _ ei _ c _; simp [Q, still]
  refine ⟨h1, h2, ?_⟩
  have hxs : arr xs 0 = 0 := by have := sym_of_rule h rfl 0 (by omega); simp at this; linarith
  rw [one_point (g := g) (by simp [g]) rfl (by simp [g]) h rfl hR hH h1 h2 (by simp [g]) (by simp [g]) (by simp [g]) (by norm_num)]
  have f0 : forcing g Topography.none Q 0 1 1 1 0 = 0 := by simp [forcing, forcingAt, Q, still, Topography.none]
  have hc : myCol g.size 0 = 0 ∧ myRow g.size 0 = 0 := by simp [myCol, myRow, myRankInPanel]
  have s1 : g.start1 0 = -Real.pi / 4 := by simp [Grid.start1, hc]
  have s2 : g.start2 0 = -Real.pi / 4 := by simp [Grid.start2, hc]
  have dp : g.deltaPanel = Real.pi / 2 := by simp [Grid.deltaPanel, g]; ring
  have d1 : g.delta1 0 = Real.pi / 4 := by simp [Grid.delta1, dp, g]; ring
  have d2 : g.delta2 0 = Real.pi / 4 := by simp [Grid.delta2, dp, g]; ring
  have a1 : g.x1itf 0 1 = 0 ∧ g.x2itf 0 1 = 0 := by
    simp only [Grid.x1itf, Grid.x2itf, Grid.linspace, s1, s2, dp]; constructor <;> · simp [g]; ring
  have a2 : g.x1itf 0 2 = Real.pi / 4 ∧ g.x2itf 0 2 = Real.pi / 4 := by
    simp only [Grid.x1itf, Grid.x2itf, Grid.linspace, s1, s2, dp]; constructor <;> · simp [g]; ring
  have a3 : g.x1 0 1 = Real.pi / 8 ∧ g.x2 0 1 = Real.pi / 8 := by
    simp only [Grid.x1, Grid.x2, elementCoord, s1, s2, d1, d2]; constructor <;> · simp [g, hxs]; ring
  have I1 : g.itfXY1 0 1 1 true 0 = (0, tan (Real.pi / 8)) := by
    simp only [Grid.itfXY1, itfIndex, if_true, a1.1, Real.tan_zero]; rw [show 1 * g.n + 0 = 1 from rfl, a3.2]
  have I2 : g.itfXY1 0 1 2 true 0 = (1, tan (Real.pi / 8)) := by
    simp only [Grid.itfXY1, itfIndex, if_true, a2.1, Real.tan_pi_div_four]; rw [show 1 * g.n + 0 = 1 from rfl, a3.2]
  have J1 : g.itfXY2 0 1 1 true 0 = (tan (Real.pi / 8), 0) := by
    simp only [Grid.itfXY2, itfIndex, if_true, a1.2, Real.tan_zero]; rw [show 1 * g.n + 0 = 1 from rfl, a3.1]
  have J2 : g.itfXY2 0 2 1 true 0 = (tan (Real.pi / 8), 1) := by
    simp only [Grid.itfXY2, itfIndex, if_true, a2.2, Real.tan_pi_div_four]; rw [show 1 * g.n + 0 = 1 from rfl, a3.1]
  set t := tan (Real.pi / 8) with ht
  have e := tan_eighth
  rw [← ht] at e
  have hd : Real.pi / 4 ≠ 0 := by have := Real.pi_pos; positivity
  have PI : ∀ p X Y, g.itfXY1 0 1 p true 0 = (X, Y) → physI g 0 1 p 0 (still H) 1 = (1 + Y ^ 2) / Real.sqrt (1 + X ^ 2 + Y ^ 2) / 2 * (gravity / 2 * H ^ 2) := by
    intro p X Y hx
    rw [← (tensor (X := X) (Y := Y) hR hd).1]
    simp [physI, shallow, hx, still, Grid.sqrtG, Grid.H, Grid.toArr, d1, d2]
    ring
  have PJ : ∀ p X Y, g.itfXY2 0 p 1 true 0 = (X, Y) → physJ g 0 p 1 0 (still H) 1 = X * Y / Real.sqrt (1 + X ^ 2 + Y ^ 2) / 2 * (gravity / 2 * H ^ 2) := by
    intro p X Y hx
    rw [← (tensor (X := X) (Y := Y) hR hd).2]
    simp [physJ, shallow, hx, still, Grid.sqrtG, Grid.H, Grid.toArr, d1, d2]
    ring
  rw [f0, PI _ _ _ I1, PI _ _ _ I2, PJ _ _ _ J1, PJ _ _ _ J2, sub_zero]
  have hG : g.sqrtG 0 (g.solXY 0 1 1 0) ≠ 0 := by
    have h3 : 0 < 1 + (g.solXY 0 1 1 0).1 ^ 2 + (g.solXY 0 1 1 0).2 ^ 2 := by positivity
    have h4 := (Real.sqrt_pos.mpr h3).ne'
    have h6 : 1 + (g.solXY 0 1 1 0).1 ^ 2 ≠ 0 := by positivity
    have h7 : 1 + (g.solXY 0 1 1 0).2 ^ 2 ≠ 0 := by positivity
    simp only [Grid.sqrtG, d1, d2, sqrtGs, WxVerif.Sphere.sqrtG, delta, delta2]
    refine mul_ne_zero ?_ (by have := Real.pi_pos; positivity)
    refine div_ne_zero ?_ ?_
    · exact mul_ne_zero (mul_ne_zero (pow_ne_zero 2 hR) h6) h7
    · positivity
  have hg := WxVerif.Props.Flux.gravity_pos
  refine mul_ne_zero (neg_ne_zero.mpr (one_div_ne_zero hG)) ?_
  have p1 : 0 < Real.sqrt (1 + 0 ^ 2 + t ^ 2) := Real.sqrt_pos.mpr (by positivity)
  have p2 : 0 < Real.sqrt (1 + 1 ^ 2 + t ^ 2) := Real.sqrt_pos.mpr (by positivity)
  have q1 := Real.sq_sqrt (show (0 : ℝ) ≤ 1 + 0 ^ 2 + t ^ 2 by positivity)
  have q2 := Real.sq_sqrt (show (0 : ℝ) ≤ 1 + 1 ^ 2 + t ^ 2 by positivity)
  rw [show 1 + t ^ 2 + 1 ^ 2 = 1 + 1 ^ 2 + t ^ 2 by ring]
  set u := Real.sqrt (1 + 0 ^ 2 + t ^ 2)
  set w := Real.sqrt (1 + 1 ^ 2 + t ^ 2)
  intro hz
  have hz' : (1 + t + t ^ 2) * u = (1 + t ^ 2) * w := by
    have hgH : gravity * H ^ 2 ≠ 0 := by positivity
    have : ((1 + t ^ 2) / w - (1 + t ^ 2) / u + t * 1 / w) * (gravity * H ^ 2) = 0 := by linear_combination 8 * hz
    have h0 := (mul_eq_zero.mp this).resolve_right hgH
    field_simp at h0
    linear_combination h0
  have sq : (1 + t + t ^ 2) ^ 2 * u ^ 2 = (1 + t ^ 2) ^ 2 * w ^ 2 := by rw [← mul_pow, hz', mul_pow]
  rw [q1, q2] at sq
  have c1 : (1 + t ^ 2) * ((1 + t + t ^ 2) ^ 2 - (1 + t ^ 2) * (2 + t ^ 2)) = 0 := by linear_combination sq
  have c2 := (mul_eq_zero.mp c1).resolve_left (by positivity)
  have c3 : 12 * t = 5 := by
    have t3 : t ^ 3 = t - 2 * t ^ 2 := by linear_combination t * e
    have t4 : t ^ 4 = t ^ 2 - 2 * t ^ 3 := by linear_combination t ^ 2 * e
    have : (1 + t + t ^ 2) ^ 2 - (1 + t ^ 2) * (2 + t ^ 2) = 2 * t + 2 * t ^ 3 - 1 := by ring
    rw [this, t3, e] at c2
    linear_combination c2
  nlinarith [e, c3]

/-- a rule with one point exists, and so do 24 processes with a bumpy bottom and still water of uneven depth -/
example : ∃ xs ws, gaussLegendre 1 = .rule xs ws ∧ IsGaussRule 1 xs ws := WxVerif.Props.Quadrature.C41_rule 1 (by omega) (by omega)

example : ∃ (g : Grid) (xs ws : List ℝ) (t : Topography) (Q : Field), g.k = 2 ∧ g.N = 3 ∧ g.n = 4 ∧ gaussLegendre 4 = .rule xs ws ∧ g.pts = arr xs ∧
    t.h 3 1 1 5 ≠ t.h 3 1 1 6 ∧ Q 3 1 1 0 5 ≠ Q 3 1 1 0 6 ∧ StillWater g Q ∧ rhs g t Q 3 1 1 0 (2 * 4 + 1) = 0 := by
  obtain ⟨xs, ws, hr, h⟩ := WxVerif.Props.Quadrature.C41_rule 4 (by omega) (by omega)
  let g : Grid := ⟨2, 3, 4, arr xs, 6371220, 7.29212e-5, fun _ => ⟨0, 0, 0⟩⟩
  let Q : Field := fun r ej ei v c => if v = 0 then 1000 + r + c else 0
  let t : Topography := ⟨fun _ _ _ c => c, fun _ _ _ _ l => l, fun _ _ _ _ l => l, fun _ _ _ c => c, fun _ _ _ c => 2 * c⟩
  have hQ : StillWater g Q := by intro r _ ej _ ei _ c _; simp [Q]
  refine ⟨g, xs, ws, t, Q, rfl, rfl, rfl, hr, rfl, by norm_num [t], by norm_num [Q], hQ, ?_⟩
  exact C67_still_water_depth (g := g) (by simp [g]) (by simp [g]) (by simp [g]) h rfl hQ (by simp [g]) (by simp [g]) (by simp [g]) (by simp [g]) (by simp [g])

end WxVerif.Props.LakeAtRest
