import Verif.Model.ExchangeHalo
import Verif.Props.Exchange
import Verif.Lemmas.Topology

/-!
# C104: what the exchange of arrays puts into the halo of the two models on the sphere
-/

namespace WxVerif.Props.ExchangeHalo

open WxVerif.Exchange WxVerif.Nd WxVerif.ExchangeHalo
open WxVerif.Topology (Side exchangeScalars exchangeVectors neighborAlltoall)
open WxVerif.Props.Exchange

/-- every tile of the six panels receives something from every side -/
theorem delivered {β : Type*} {k r : Nat} (hr : r < 6 * (k * k)) (buf : Nat → Side → β) (d : Side) : ∃ x, neighborAlltoall (6 * (k * k)) buf r d = some x := by
  have hv := WxVerif.Topology.placeOf_valid hr
  have h := WxVerif.Topology.alltoall_enc hv buf d
  rw [WxVerif.Topology.enc_placeOf] at h
  exact ⟨_, h⟩

theorem scalars_some {α : Type} {k r : Nat} (hr : r < 6 * (k * k)) (d : Side) {boundary : List Nat} {axes : List Int} {data : Nat → Side → Arr α}
    {out : Option (Arr α)} (h : exchangeScalarArrays (6 * (k * k)) boundary axes data r d = .ok out) : ∃ a, out = some a := by
  unfold exchangeScalarArrays at h
  dsimp only at h
  split at h
  · cases h
  · rw [(delivered hr _ d).choose_spec] at h
    exact ⟨_, (Except.ok.inj h).symm⟩

theorem vectors_some {K : Type} [Field K] {covariant : Bool} {k r : Nat} (hr : r < 6 * (k * k)) (d : Side) {axes : List Int} {data : Nat → Side → Arr (K × K × K)}
    {bd : Nat → Side → Arr K} {out : Option (Arr (K × K × K))}
    (h : exchangeVectorArrays covariant (6 * (k * k)) axes data bd r d = .ok out) : ∃ a, out = some a := by
  unfold exchangeVectorArrays at h
  dsimp only at h
  split at h
  · cases h
  · rw [(delivered hr _ d).choose_spec] at h
    exact ⟨_, (Except.ok.inj h).symm⟩

theorem line_getD {α : Type} (a : Arr α) (l : List Nat) (pts : Nat → List Nat) (m i : Nat) (hi : i < m) (z : α) : (line a l pts m).getD i z = a.get (l ++ pts i) := by
  unfold line
  rw [List.getD_eq_getElem?_getD, List.getElem?_map, List.getElem?_range hi]
  rfl

theorem face_point {n N e m : Nat} (he : e < N) (hm : m < n * n) :
    m / n < n ∧ e * n + m % n < N * n ∧ facePts n (m / n) (e * n + m % n) = [e, m] := by
  have hn : 0 < n := by rcases Nat.eq_zero_or_pos n with h | h; · subst h; simp at hm
                        · exact h
  have h1 := Nat.mod_lt m hn
  refine ⟨Nat.div_lt_of_lt_mul hm, ?_, ?_⟩
  · have : (e + 1) * n ≤ N * n := Nat.mul_le_mul_right n he
    rw [Nat.add_mul] at this; omega
  · unfold facePts
    rw [Nat.mul_comm e n, Nat.mul_add_div hn, Nat.div_eq_of_lt h1, Nat.mul_add_mod, Nat.mod_mod, Nat.add_zero, Nat.mul_comm (m / n) n, Nat.div_add_mod]

section atmosphere
open WxVerif.EulerSphere

variable {g : Atm} (Q : Field3)

/-- **C104** The halo of the density (`v = 0`) and of density times potential temperature (`v = 4`) in the 3D model: the exchange of the whole arrays succeeds and
the entry of the array received at each level, element and node is the value of the halo in the equations of the model. -/
theorem C104_halo_scalars (hN : 0 < g.N) (hn : 0 < g.n) {r : Nat} (hr : r < g.size) (d : Side) {v : Nat} (hv : v = 0 ∨ v = 4) :
    ∃ a, scalarHalo g Q v r d = .ok (some a) ∧ a.shape = [g.nz, g.N, g.n * g.n] ∧
      ∀ ek < g.nz, ∀ e < g.N, ∀ m < g.n * g.n, a.get [ek, e, m] = received g Q ek (m / g.n) r d v (e * g.n + m % g.n) := by
  obtain ⟨out, h, hsh, hl⟩ := C104_face_scalars g.size g.N g.n [g.nz] (faces g Q v) hN hn (fun _ _ => rfl) r d
  cases out with
  | none =>
    obtain ⟨a, ha⟩ := scalars_some hr d h
    cases ha
  | some a =>
    refine ⟨a, h, hsh a rfl, fun ek hek e he m hm => ?_⟩
    obtain ⟨h1, h2, h3⟩ := face_point he hm
    have hl := hl [ek] (by rw [valid_cons]; exact ⟨hek, valid_nil⟩) (m / g.n) h1
    rw [received, if_pos hv, exchangedScalar]
    have hs : (fun s d' => line (faces g Q v s d') [ek] (facePts g.n (m / g.n)) (g.N * g.n)) =
        fun s d' => (List.range (g.N * g.n)).map fun i => sent g Q ek (m / g.n) s d' v i := by
      funext s d'
      unfold line
      refine List.map_congr_left fun i _ => ?_
      cases d' <;> rfl
    rw [hs] at hl
    rw [← hl, Option.map_some, Option.getD_some, line_getD _ _ _ _ _ h2, h3]
    rfl

/-- the boundary coordinates as a list -/
theorem boundary_list (g : ShallowWater.Grid) (s : Nat) (d' : Side) :
    (List.range (g.N * g.n)).map (fun i => (g.boundary s d').getD i 0) = g.boundary s d' := by
  have key : ∀ f : Nat → ℝ, (List.range (g.N * g.n)).map (fun i => ((List.range (g.N * g.n)).map f).getD i 0) = (List.range (g.N * g.n)).map f := by
    intro f
    refine List.map_congr_left fun i hi => ?_
    rw [List.getD_eq_getElem?_getD, List.getElem?_map, List.getElem?_range (List.mem_range.1 hi)]
    rfl
  cases d' <;> exact key _

/-- **C104** The halo of the three components of the momentum in the 3D model. -/
theorem C104_halo_vectors (hN : 0 < g.N) (hn : 0 < g.n) {r : Nat} (hr : r < g.size) (d : Side) :
    ∃ a, vectorHalo g Q r d = .ok (some a) ∧ a.shape = [g.nz, g.N, g.n * g.n] ∧
      ∀ ek < g.nz, ∀ e < g.N, ∀ m < g.n * g.n, a.get [ek, e, m] =
        (received g Q ek (m / g.n) r d 1 (e * g.n + m % g.n), received g Q ek (m / g.n) r d 2 (e * g.n + m % g.n),
          received g Q ek (m / g.n) r d 3 (e * g.n + m % g.n)) := by
  obtain ⟨out, h, hsh, hl⟩ := C104_face_vectors false g.size g.N g.n [g.nz] (vectorFaces g Q) (boundaryArray g)
    (fun s d' i => (g.toGrid.boundary s d').getD i 0) hN hn (fun _ _ => rfl) (fun _ _ => rfl) (fun s d' e _ a _ j _ => rfl) r d
  cases out with
  | none =>
    obtain ⟨a, ha⟩ := vectors_some hr d h
    cases ha
  | some a =>
    refine ⟨a, h, hsh a rfl, fun ek hek e he m hm => ?_⟩
    obtain ⟨h1, h2, h3⟩ := face_point he hm
    have hl := hl [ek] (by rw [valid_cons]; exact ⟨hek, valid_nil⟩) (m / g.n) h1
    have hs : (fun s d' => line (vectorFaces g Q s d') [ek] (facePts g.n (m / g.n)) (g.N * g.n)) =
        fun s d' => (List.range (g.N * g.n)).map fun i =>
          (sent g Q ek (m / g.n) s d' 1 i, sent g Q ek (m / g.n) s d' 2 i, sent g Q ek (m / g.n) s d' 3 i) := by
      funext s d'
      unfold line
      refine List.map_congr_left fun i _ => ?_
      cases d' <;> rfl
    have hb : (fun s d' => (List.range (g.N * g.n)).map fun i => (g.toGrid.boundary s d').getD i 0) = g.toGrid.boundary := by
      funext s d'
      exact boundary_list g.toGrid s d'
    have hl' : (some a).map (fun x => line x [ek] (facePts g.n (m / g.n)) (g.N * g.n)) = exchangeVectors false g.size
        (fun s d' => (List.range (g.N * g.n)).map fun i =>
          (sent g Q ek (m / g.n) s d' 1 i, sent g Q ek (m / g.n) s d' 2 i, sent g Q ek (m / g.n) s d' 3 i)) g.toGrid.boundary r d := by
      rw [hl, hs, hb]
    have hu : exchangedVec g (fun s d' i => (sent g Q ek (m / g.n) s d' 1 i, sent g Q ek (m / g.n) s d' 2 i, sent g Q ek (m / g.n) s d' 3 i)) r d
        (e * g.n + m % g.n) = a.get [ek, e, m] := by
      unfold exchangedVec
      rw [← hl', Option.map_some, Option.getD_some, line_getD _ _ _ _ _ h2, h3]
      rfl
    simp only [received, hu]
    simp

/-- non-vacuity: 24 processes, 3 × 3 elements and 5 levels per tile, 4 points per side -/
example (pts : Nat → ℝ) (or : Nat → Sphere.Orientation) (Q : Field3) :
    ∃ (g : Atm) (a : Arr ℝ), g.k = 2 ∧ g.nz = 5 ∧ g.n = 4 ∧ g.pts = pts ∧ scalarHalo g Q 0 7 .west = .ok (some a) ∧ a.shape = [5, 3, 16] := by
  have key : ∀ g : Atm, g.k = 2 → g.N = 3 → g.n = 4 → g.nz = 5 → ∃ a, scalarHalo g Q 0 7 .west = .ok (some a) ∧ a.shape = [5, 3, 16] := by
    intro g hk hN hn hz
    obtain ⟨a, h, hs, -⟩ := C104_halo_scalars (g := g) Q (by omega) (by omega) (r := 7) (by unfold ShallowWater.Grid.size; rw [hk]; omega) .west (v := 0) (Or.inl rfl)
    rw [hz, hN, hn] at hs
    exact ⟨a, h, hs⟩
  obtain ⟨a, h⟩ := key ⟨⟨2, 3, 4, pts, 6371220, 7.29212e-5, or⟩, 5, 30000, true, 21⟩ rfl rfl rfl rfl
  exact ⟨_, a, rfl, rfl, rfl, rfl, h⟩

end atmosphere

section slopes
open WxVerif.EulerSphere

variable {g : Atm} (f : Floor)

theorem row_point (m i : Nat) : flatPts [m] i = [i] := by
  simp [flatPts, unravel, WxVerif.Nd.size]

/-- **C104** The halo of the slopes of the levels from which the metric of the 3D model is computed: every level node is a line of its own. -/
theorem C104_halo_slopes (hN : 0 < g.N) (hn : 0 < g.n) {r : Nat} (hr : r < g.size) (d : Side) :
    ∃ a, slopeHalo g f r d = .ok (some a) ∧ a.shape = [g.nz * g.n, g.N * g.n] ∧
      ∀ ek < g.nz, ∀ l < g.n, ∀ i < g.N * g.n, a.get [ek * g.n + l, i] =
        (receivedSlope g f ek l r d 0 i, receivedSlope g f ek l r d 1 i, receivedSlope g f ek l r d 2 i) := by
  obtain ⟨out, h, hsh, hl⟩ := C104_flat_vectors false g.size (g.N * g.n) [g.nz * g.n] [g.N * g.n] (slopeSides g f)
    (fun r d => ⟨[g.N * g.n], fun idx => (g.toGrid.boundary r d).getD (idx.getD 0 0) 0⟩) (by simp) (by simp; omega) (by simp)
    (fun _ _ => rfl) (fun _ _ => rfl) r d
  cases out with
  | none =>
    obtain ⟨a, ha⟩ := vectors_some hr d h
    cases ha
  | some a =>
    refine ⟨a, h, hsh a rfl, fun ek hek l hll i hi => ?_⟩
    have hlev : ek * g.n + l < g.nz * g.n := by
      have : (ek + 1) * g.n ≤ g.nz * g.n := Nat.mul_le_mul_right g.n hek
      rw [Nat.add_mul] at this; omega
    have e1 : (ek * g.n + l) / g.n = ek := by
      rw [Nat.add_comm, Nat.add_mul_div_right _ _ hn, Nat.div_eq_of_lt hll, Nat.zero_add]
    have e2 : (ek * g.n + l) % g.n = l := by
      rw [Nat.add_comm, Nat.add_mul_mod_self_right, Nat.mod_eq_of_lt hll]
    have hl := hl [ek * g.n + l] (by rw [valid_cons]; exact ⟨hlev, valid_nil⟩)
    have hs : (fun s d' => line (slopeSides g f s d') [ek * g.n + l] (flatPts [g.N * g.n]) (g.N * g.n)) =
        fun s d' => (List.range (g.N * g.n)).map fun i => (sentSlope g f ek l s d' 0 i, sentSlope g f ek l s d' 1 i, sentSlope g f ek l s d' 2 i) := by
      funext s d'
      unfold line
      refine List.map_congr_left fun i _ => ?_
      rw [row_point]
      unfold slopeSides sentSlope
      simp only [List.singleton_append, List.getD_cons_zero, List.getD_cons_succ, e1, e2]
      cases d' <;> rfl
    have hb : (fun s d' => line (⟨[g.N * g.n], fun idx => (g.toGrid.boundary s d').getD (idx.getD 0 0) 0⟩ : Arr ℝ) [] (fun i => [i]) (g.N * g.n)) =
        g.toGrid.boundary := by
      funext s d'
      exact boundary_list g.toGrid s d'
    have hu : exchangedVec g (fun s d' i => (sentSlope g f ek l s d' 0 i, sentSlope g f ek l s d' 1 i, sentSlope g f ek l s d' 2 i)) r d i =
        a.get [ek * g.n + l, i] := by
      unfold exchangedVec
      rw [← hs, ← hb, ← hl, Option.map_some, Option.getD_some, line_getD _ _ _ _ _ hi, row_point]
      rfl
    simp only [receivedSlope, hu]
    simp

end slopes

section shallow
open WxVerif.ShallowWater

variable {g : Grid} (t : Topography) (Q : Field)

theorem side_point {n N e l : Nat} (he : e < N) (hl : l < n) : e * n + l < N * n ∧ flatPts [N, n] (e * n + l) = [e, l] := by
  have hn : 0 < n := by omega
  refine ⟨?_, ?_⟩
  · have : (e + 1) * n ≤ N * n := Nat.mul_le_mul_right n he
    rw [Nat.add_mul] at this; omega
  · simp only [flatPts, unravel, WxVerif.Nd.size, List.prod_cons, List.prod_nil, Nat.mul_one, Nat.div_one]
    rw [Nat.mul_comm e n, Nat.mul_add_div hn, Nat.div_eq_of_lt hl, Nat.mul_add_mod, Nat.mod_eq_of_lt hl, Nat.add_zero]

theorem flat_point {n : Nat} (N i : Nat) : flatPts [N, n] i = [i / n, i % n] := by
  simp [flatPts, unravel, WxVerif.Nd.size]

/-- **C104** The halo of the height in the shallow-water model. -/
theorem C104_halo_height (hN : 0 < g.N) (hn : 0 < g.n) {r : Nat} (hr : r < g.size) (d : Side) :
    ∃ a, heightHalo g t Q r d = .ok (some a) ∧ a.shape = [g.N, g.n] ∧
      ∀ e < g.N, ∀ l < g.n, a.get [e, l] = received g t Q r d 0 (e * g.n + l) := by
  obtain ⟨out, h, hsh, hl⟩ := C104_flat_scalars g.size (g.N * g.n) [] [g.N, g.n] (sides g t Q 0) (by simp) (by simp; omega) (by simp) (fun _ _ => rfl) r d
  cases out with
  | none =>
    obtain ⟨a, ha⟩ := scalars_some hr d h
    cases ha
  | some a =>
    refine ⟨a, h, hsh a rfl, fun e he l hll => ?_⟩
    obtain ⟨h2, h3⟩ := side_point he hll
    have hl := hl [] valid_nil
    have hs : (fun s d' => line (sides g t Q 0 s d') [] (flatPts [g.N, g.n]) (g.N * g.n)) =
        fun s d' => (List.range (g.N * g.n)).map (sent g t Q s d' 0) := by
      funext s d'
      unfold line
      refine List.map_congr_left fun i _ => ?_
      rw [flat_point]
      cases d' <;> rfl
    rw [hs] at hl
    rw [received, if_pos rfl, receivedH, ← hl, Option.map_some, Option.getD_some, line_getD _ _ _ _ _ h2, h3]
    rfl

/-- **C104** The halo of the two components of the momentum in the shallow-water model. -/
theorem C104_halo_momentum (hN : 0 < g.N) (hn : 0 < g.n) {r : Nat} (hr : r < g.size) (d : Side) :
    ∃ a, momentumHalo g t Q r d = .ok (some a) ∧ a.shape = [g.N, g.n] ∧
      ∀ e < g.N, ∀ l < g.n, (a.get [e, l]).1 = received g t Q r d 1 (e * g.n + l) ∧ (a.get [e, l]).2.1 = received g t Q r d 2 (e * g.n + l) := by
  obtain ⟨out, h, hsh, hl⟩ := C104_flat_vectors false g.size (g.N * g.n) [] [g.N, g.n]
    (fun r d => ⟨[g.N, g.n], fun idx => ((sides g t Q 1 r d).get idx, (sides g t Q 2 r d).get idx, 0)⟩)
    (fun r d => ⟨[g.N * g.n], fun idx => (g.boundary r d).getD (idx.getD 0 0) 0⟩) (by simp) (by simp; omega) (by simp) (fun _ _ => rfl) (fun _ _ => rfl) r d
  cases out with
  | none =>
    obtain ⟨a, ha⟩ := vectors_some hr d h
    cases ha
  | some a =>
    refine ⟨a, h, hsh a rfl, fun e he l hll => ?_⟩
    obtain ⟨h2, h3⟩ := side_point he hll
    have hl := hl [] valid_nil
    have hs : (fun s d' => line (⟨[g.N, g.n], fun idx => ((sides g t Q 1 s d').get idx, (sides g t Q 2 s d').get idx, 0)⟩ : Arr (ℝ × ℝ × ℝ)) []
          (flatPts [g.N, g.n]) (g.N * g.n)) =
        fun s d' => (List.range (g.N * g.n)).map fun i => (sent g t Q s d' 1 i, sent g t Q s d' 2 i, 0) := by
      funext s d'
      unfold line
      refine List.map_congr_left fun i _ => ?_
      rw [flat_point]
      cases d' <;> rfl
    have hb : (fun s d' => line (⟨[g.N * g.n], fun idx => (g.boundary s d').getD (idx.getD 0 0) 0⟩ : Arr ℝ) [] (fun i => [i]) (g.N * g.n)) = g.boundary := by
      funext s d'
      exact boundary_list g s d'
    have hu : ((receivedU g t Q r d).getD []).getD (e * g.n + l) (0, 0, 0) = a.get [e, l] := by
      unfold receivedU
      rw [← hs, ← hb, ← hl, Option.map_some, Option.getD_some, line_getD _ _ _ _ _ h2, h3]
      rfl
    simp only [received, hu]
    simp

end shallow

end WxVerif.Props.ExchangeHalo
