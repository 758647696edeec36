import Verif.Lemmas.Topology
import Mathlib.Algebra.Order.Field.Basic
import Mathlib.Data.Rat.Defs
import Mathlib.Tactic.NormNum
import Mathlib.Tactic.Positivity

/-!
# Properties C01 – C06 of the process topology
-/

namespace WxVerif.Props.Topology

open WxVerif.Topology WxVerif.Cube

/-! ## C01 — process-count acceptance -/

/-- **C01.** The constructor accepts a communicator size exactly when it is `6 k²` with `k ≥ 1`; on
every other size it fails, and the two counts of the error message are themselves of the form `6 k²`
(or 0) and are the closest such numbers around the given size. -/
theorem C01_size_accepted_iff (size : Nat) :
    (checkSize size = .ok () ↔ ∃ k, 1 ≤ k ∧ size = 6 * k ^ 2) ∧
    ∀ lo hi, checkSize size = .error (lo, hi) →
      (∃ k, lo = 6 * k ^ 2 ∧ hi = 6 * (k + 1) ^ 2) ∧ lo ≤ size ∧ size < hi := by
  constructor
  · rw [checkSize_ok_iff]
    simp only [pow_two]
  · intro lo hi h
    unfold checkSize at h
    split at h
    · injection h with h
      injection h with h1 h2
      subst h1 h2
      refine ⟨⟨numLines size, by ring, by ring⟩, ?_, ?_⟩
      · have := Nat.sqrt_le' (numPe size)
        have hn : numLines size = Nat.sqrt (numPe size) := rfl
        rw [hn]; unfold numPe at this ⊢; omega
      · have := Nat.lt_succ_sqrt' (numPe size)
        have hn : numLines size = Nat.sqrt (numPe size) := rfl
        rw [hn]; unfold numPe at this ⊢; rw [Nat.succ_eq_add_one] at this; omega
    · cases h

example : checkSize 54 = .ok () := by
  rw [(C01_size_accepted_iff 54).1]; exact ⟨3, by omega, rfl⟩

/-! ## C02 — rank placement -/

/-- **C02.** For an accepted size `6 k²` every rank's reported place is the documented one and in
range; different ranks have different places; and the topology's own place→rank function is the exact
inverse, also for rows and columns counted negatively from the end. -/
theorem C02_placement_bijective (k : Nat) (_hk : 1 ≤ k) :
    (∀ rank, rank < 6 * k ^ 2 →
      myPanel (6 * k ^ 2) rank < 6 ∧ myRow (6 * k ^ 2) rank < k ∧ myCol (6 * k ^ 2) rank < k ∧
      (⟨myPanel (6 * k ^ 2) rank, myRow (6 * k ^ 2) rank, myCol (6 * k ^ 2) rank⟩ : Place) = placeOf k rank) ∧
    (∀ rank rank', rank < 6 * k ^ 2 → rank' < 6 * k ^ 2 →
      myPanel (6 * k ^ 2) rank = myPanel (6 * k ^ 2) rank' → myRow (6 * k ^ 2) rank = myRow (6 * k ^ 2) rank' →
      myCol (6 * k ^ 2) rank = myCol (6 * k ^ 2) rank' → rank = rank') ∧
    (∀ panel row col, panel < 6 → row < k → col < k → ∃ rank : Nat, rank < 6 * k ^ 2 ∧
      (∀ r ∈ [(row : Int), (row : Int) - k], ∀ c ∈ [(col : Int), (col : Int) - k],
        rankFromLocation (6 * k ^ 2) panel r c = rank) ∧
      myPanel (6 * k ^ 2) rank = panel ∧ myRow (6 * k ^ 2) rank = row ∧ myCol (6 * k ^ 2) rank = col) := by
  have e2 : k ^ 2 = k * k := pow_two k
  rw [e2]
  refine ⟨?_, ?_, ?_⟩
  · intro rank h
    obtain ⟨h1, h2, h3⟩ := my_eq h
    obtain ⟨v1, v2, v3⟩ := placeOf_valid h
    rw [h1, h2, h3]
    exact ⟨v1, v2, v3, rfl⟩
  · intro rank rank' h h' a b c
    obtain ⟨h1, h2, h3⟩ := my_eq h
    obtain ⟨h1', h2', h3'⟩ := my_eq h'
    rw [h1, h1'] at a; rw [h2, h2'] at b; rw [h3, h3'] at c
    rw [← enc_placeOf (k := k) (rank := rank), ← enc_placeOf (k := k) (rank := rank')]
    unfold enc
    rw [a, b, c]
  · intro p r c hp hr hc
    have hv : Valid k ⟨p, r, c⟩ := ⟨hp, hr, hc⟩
    refine ⟨enc k ⟨p, r, c⟩, enc_lt hv, ?_, ?_⟩
    · intro r' hr' c' hc'
      simp only [List.mem_cons, List.not_mem_nil, or_false] at hr' hc'
      apply enc_int
      · split <;> rcases hr' with rfl | rfl <;> omega
      · split <;> rcases hc' with rfl | rfl <;> omega
    · obtain ⟨h1, h2, h3⟩ := my_eq (enc_lt hv)
      rw [placeOf_enc hv] at h1 h2 h3
      exact ⟨h1, h2, h3⟩

example : (7 : Nat) < 6 * 2 ^ 2 ∧ placeOf 2 7 = ⟨1, 1, 1⟩ ∧ rankFromLocation 24 1 (-1) (-1) = 7 := by
  refine ⟨by norm_num, rfl, by rw [show 24 = 6 * (2 * 2) by rfl, rankFromLocation_sq]; norm_num⟩

/-! ## C03 — neighbour relation -/

/-- **C03.** All four neighbours are valid ranks, none is the rank itself, they are pairwise different,
and each neighbour lists the rank back on exactly one side. -/
theorem C03_neighbours (k : Nat) (_hk : 1 ≤ k) (r : Nat) (hr : r < 6 * k ^ 2) :
    (∀ s, 0 ≤ neighbor (6 * k ^ 2) r s ∧ neighbor (6 * k ^ 2) r s < 6 * (k : Int) ^ 2 ∧
      neighbor (6 * k ^ 2) r s ≠ r) ∧
    (∀ s s', neighbor (6 * k ^ 2) r s = neighbor (6 * k ^ 2) r s' → s = s') ∧
    (∀ s, ∃ s', neighbor (6 * k ^ 2) (neighbor (6 * k ^ 2) r s).toNat s' = r ∧
      ∀ s'', neighbor (6 * k ^ 2) (neighbor (6 * k ^ 2) r s).toNat s'' = r → s'' = s') := by
  have e2 : k ^ 2 = k * k := pow_two k
  rw [e2] at hr ⊢
  have hv := placeOf_valid hr
  have hre := enc_placeOf (k := k) (rank := r)
  generalize placeOf k r = pl at hv hre
  subst hre
  refine ⟨?_, ?_, ?_⟩
  · intro s
    rw [neighbor_enc hv]
    have hlt := enc_lt (nbrPlace_valid hv s)
    refine ⟨by omega, ?_, ?_⟩
    · have : (6 * (k : Int) ^ 2) = ((6 * (k * k) : Nat) : Int) := by push_cast; ring
      rw [this]; exact_mod_cast hlt
    · intro e
      have e' : enc k (nbrPlace k pl s) = enc k pl := by exact_mod_cast e
      exact nbrPlace_ne_self hv s (enc_inj (nbrPlace_valid hv s) hv e')
  · intro s s' e
    rw [neighbor_enc hv, neighbor_enc hv] at e
    have e' : enc k (nbrPlace k pl s) = enc k (nbrPlace k pl s') := by exact_mod_cast e
    exact nbrPlace_inj hv (enc_inj (nbrPlace_valid hv s) (nbrPlace_valid hv s') e')
  · intro s
    have hq := nbrPlace_valid hv s
    rw [neighbor_enc hv, Int.toNat_natCast]
    refine ⟨backSide k pl s, ?_, ?_⟩
    · rw [neighbor_enc hq, nbrPlace_back hv]
    · intro s'' e
      rw [neighbor_enc hq] at e
      have e' : enc k (nbrPlace k (nbrPlace k pl s) s'') = enc k pl := by exact_mod_cast e
      have := enc_inj (nbrPlace_valid hq s'') hv e'
      apply nbrPlace_inj hq
      rw [this, nbrPlace_back hv]

example : (3 : Nat) < 6 * 1 ^ 2 := by norm_num

/-! ## C04 — scalar halo exchange -/

section
variable {K : Type*} [Field K]

/-- **C04.** Whatever lists of `n` values the tiles send along their sides, the exchange completes and
the value received by tile `r` on side `d` at position `i` is the value which one *other* tile `s'` sent
for one of its sides at the position `j` that is the same point of the cube surface. -/
theorem C04_scalar_exchange {α : Type*} (k n : Nat) (_hk : 1 ≤ k) (g : Coords K k n)
    (data : Nat → Side → List α) (hlen : ∀ s d, (data s d).length = n) (r : Nat) (hr : r < 6 * k ^ 2) (d : Side) :
    ∃ L s' d', exchangeScalars (6 * k ^ 2) data r d = some L ∧ L.length = n ∧
      s' < 6 * k ^ 2 ∧ s' ≠ r ∧
      ∀ i, i < n → ∃ j, j < n ∧ L[i]? = (data s' d')[j]? ∧
        sidePoint g (placeOf k s') d' j = sidePoint g (placeOf k r) d i := by
  have e2 : k ^ 2 = k * k := pow_two k
  rw [e2] at hr ⊢
  have hv := placeOf_valid hr
  have hre := enc_placeOf (k := k) (rank := r)
  generalize placeOf k r = pl at hv hre
  subst hre
  have hq := nbrPlace_valid hv d
  unfold exchangeScalars
  rw [alltoall_enc hv]
  refine ⟨_, enc k (nbrPlace k pl d), backSide k pl d, rfl, ?_, enc_lt hq, ?_, ?_⟩
  · split
    · rw [List.length_reverse, hlen]
    · rw [hlen]
  · exact fun e => nbrPlace_ne_self hv d (enc_inj hq hv e)
  · intro i hi
    refine ⟨mirrored (backFlip k pl d) n i, ?_, ?_, ?_⟩
    · unfold mirrored; split <;> omega
    · rw [getElem?_flip _ _ (hlen _ _) hi]; rfl
    · rw [placeOf_enc hq]; exact sidePoint_facing g hv d hi

/-- **C04, field form.** If every tile sends the values of one function `f` of the surface point, every
tile receives on each side the values of `f` at its own side's points, in its own order. -/
theorem C04_scalar_exchange_field {α : Type*} (k n : Nat) (hk : 1 ≤ k) (g : Coords K k n) (f : V3 K → α)
    (r : Nat) (hr : r < 6 * k ^ 2) (d : Side) :
    exchangeScalars (6 * k ^ 2) (fun s d' => (List.range n).map fun i => f (sidePoint g (placeOf k s) d' i)) r d =
      some ((List.range n).map fun i => f (sidePoint g (placeOf k r) d i)) := by
  obtain ⟨L, s', d', h, hL, -, -, hi⟩ := C04_scalar_exchange k n hk g
    (fun s d' => (List.range n).map fun i => f (sidePoint g (placeOf k s) d' i)) (by simp) r hr d
  rw [h]
  congr 1
  apply List.ext_getElem?
  intro i
  by_cases hin : i < n
  · obtain ⟨j, hj, e, hp⟩ := hi i hin
    rw [e, List.getElem?_map, List.getElem?_map, List.getElem?_range hj, List.getElem?_range hin]
    simp [hp]
  · rw [List.getElem?_eq_none (by omega), List.getElem?_eq_none (by simp; omega)]

/-- Non-trivial coordinates exist: 2 tiles of 2 points per side, over ℚ. -/
def exCoords : Coords ℚ 2 2 where
  c i := (2 * (i : ℚ) - 3) / 4
  itf j := (j : ℚ) - 1
  symm i hi := by
    have : i = 0 ∨ i = 1 ∨ i = 2 ∨ i = 3 := by omega
    rcases this with rfl | rfl | rfl | rfl <;> norm_num
  first := by norm_num
  last := by norm_num

/-- the received line really is another tile's data, reversed: panel 1 south edge -/
example : exchangeScalars 24 (fun s d => [(s, d, 0), (s, d, 1)]) 4 .south =
    some [(23, Side.east, 1), (23, Side.east, 0)] := by decide +kernel

/-! ## C05 — contravariant vector exchange -/

/-- **C05.** Suppose every tile sends, for each point of each side, components that represent (in its own
panel's coordinates) the tangent vector `V` at that surface point, plus a third component `w`.  Then each tile
receives, on each side, components that represent the same `V` in its own panel's coordinates, at its own
side's points in its own order, and the third component unchanged. -/
theorem C05_vector_exchange [LinearOrder K] [IsStrictOrderedRing K] (k n : Nat) (_hk : 1 ≤ k) (g : Coords K k n)
    (V : V3 K → V3 K) (w : V3 K → K)
    (data : Nat → Side → List (K × K × K)) (hlen : ∀ s d, (data s d).length = n)
    (hrep : ∀ s d i u1 u2 u3, s < 6 * k ^ 2 → (data s d)[i]? = some (u1, u2, u3) →
      Represents (placeOf k s).panel (sideCoords g (placeOf k s) d i).1 (sideCoords g (placeOf k s) d i).2 u1 u2
        (V (sidePoint g (placeOf k s) d i)) ∧ u3 = w (sidePoint g (placeOf k s) d i))
    (r : Nat) (hr : r < 6 * k ^ 2) (d : Side) :
    ∃ L, exchangeVectors false (6 * k ^ 2) data
        (fun s d => (List.range n).map (alongSide g (placeOf k s) d)) r d = some L ∧ L.length = n ∧
      ∀ i, i < n → ∃ v1 v2 v3, L[i]? = some (v1, v2, v3) ∧
        Represents (placeOf k r).panel (sideCoords g (placeOf k r) d i).1 (sideCoords g (placeOf k r) d i).2 v1 v2
          (V (sidePoint g (placeOf k r) d i)) ∧ v3 = w (sidePoint g (placeOf k r) d i) := by
  have e2 : k ^ 2 = k * k := pow_two k
  rw [e2] at hr hrep ⊢
  have hv := placeOf_valid hr
  have hre := enc_placeOf (k := k) (rank := r)
  generalize placeOf k r = pl at hv hre
  subst hre
  have hq := nbrPlace_valid hv d
  have hpos : ∀ x : K, 1 + x ^ 2 ≠ 0 := fun x => by positivity
  unfold exchangeVectors
  simp only [Bool.false_eq_true, if_false]
  rw [alltoall_enc hv]
  refine ⟨_, rfl, ?_, ?_⟩
  · split <;> simp [hlen]
  · intro i hi
    have hj : mirrored (backFlip k pl d) n i < n := by unfold mirrored; split <;> omega
    obtain ⟨⟨u1, u2, u3⟩, hu⟩ : ∃ u, (data (enc k (nbrPlace k pl d)) (backSide k pl d))[mirrored (backFlip k pl d) n i]? = some u :=
      ⟨_, List.getElem?_eq_getElem (by rw [hlen]; exact hj)⟩
    obtain ⟨hR, hw⟩ := hrep _ _ _ _ _ _ (enc_lt hq) hu
    rw [placeOf_enc hq] at hR hw
    rw [sidePoint_facing g hv d hi] at hR hw
    refine ⟨_, _, _, ?_, contra_facing g hpos hv d hi hR, hw⟩
    rw [getElem?_flip _ _ (by simp [hlen]) hi]
    change (List.zipWith _ _ _)[mirrored (backFlip k pl d) n i]? = _
    rw [List.getElem?_zipWith, hu, List.getElem?_map, List.getElem?_range hj, placeOf_enc hq]
    rfl

/-- the conversions across the two directions of a panel edge are not the identity in general -/
example : convertContras (K := ℚ) 1 .south 3 5 (1 / 2) = (5, -7) := by norm_num [convertContras]

/-! ## C06 — covariant vector exchange -/

/-- **C06, negation.** In the code, the covariant conversion on the south edge of panel 2 does not preserve
the covector: with one process per panel, rank 2 sends the components of a covector and rank 5 receives a pair
that represents no covector equal to it. -/
theorem C06_panel2_south_violates :
    ∃ (x w1 w2 : ℚ) (W : V3 ℚ), RepresentsCov 2 x (-1) w1 w2 W ∧
      neighbor 6 5 .south = 2 ∧ neighbor 6 2 .south = 5 ∧
      ¬ RepresentsCov 5 (-x) (-1) (convertCov 6 2 .south w1 w2 x).1 (convertCov 6 2 .south w1 w2 x).2 W := by
  refine ⟨0, 1, 0, (0, -1, 0), ?_, by decide +kernel, by decide +kernel, ?_⟩
  · norm_num [RepresentsCov, point, normal, eastward, northward]
  · have : convertCov (K := ℚ) 6 2 .south 1 0 0 = convertCovs 2 .south 1 0 0 := by
      unfold convertCov
      have h1 : atPanelEdge 6 2 .south = true := by decide +kernel
      have h2 : myPanel 6 2 = 2 := by decide +kernel
      rw [h1, h2]; rfl
    rw [this]
    norm_num [RepresentsCov, point, normal, eastward, northward, convertCovs]

/-- **C06, part.** Everywhere except on the south side of the tiles along the south edge of panel 5 (whose data come
from panel 2 south) the covariant exchange hands every tile components of the same covector field, at its own
points in its own order.  Missing for the full C06: that edge, where the code is wrong. -/
theorem C06_covariant_exchange_partial [LinearOrder K] [IsStrictOrderedRing K] (k n : Nat) (_hk : 1 ≤ k)
    (g : Coords K k n) (W : V3 K → V3 K) (w : V3 K → K)
    (data : Nat → Side → List (K × K × K)) (hlen : ∀ s d, (data s d).length = n)
    (hrep : ∀ s d i u1 u2 u3, s < 6 * k ^ 2 → (data s d)[i]? = some (u1, u2, u3) →
      RepresentsCov (placeOf k s).panel (sideCoords g (placeOf k s) d i).1 (sideCoords g (placeOf k s) d i).2 u1 u2
        (W (sidePoint g (placeOf k s) d i)) ∧ u3 = w (sidePoint g (placeOf k s) d i))
    (r : Nat) (hr : r < 6 * k ^ 2) (d : Side)
    (hd : ¬ ((placeOf k r).panel = 5 ∧ (placeOf k r).row = 0 ∧ d = .south)) :
    ∃ L, exchangeVectors true (6 * k ^ 2) data
        (fun s d => (List.range n).map (alongSide g (placeOf k s) d)) r d = some L ∧ L.length = n ∧
      ∀ i, i < n → ∃ v1 v2 v3, L[i]? = some (v1, v2, v3) ∧
        RepresentsCov (placeOf k r).panel (sideCoords g (placeOf k r) d i).1 (sideCoords g (placeOf k r) d i).2 v1 v2
          (W (sidePoint g (placeOf k r) d i)) ∧ v3 = w (sidePoint g (placeOf k r) d i) := by
  have e2 : k ^ 2 = k * k := pow_two k
  rw [e2] at hr hrep ⊢
  have hv := placeOf_valid hr
  have hre := enc_placeOf (k := k) (rank := r)
  generalize placeOf k r = pl at hv hre hd
  subst hre
  have hq := nbrPlace_valid hv d
  have hpos : ∀ x : K, 1 + x ^ 2 ≠ 0 := fun x => by positivity
  unfold exchangeVectors
  simp only [if_true]
  rw [alltoall_enc hv]
  refine ⟨_, rfl, ?_, ?_⟩
  · split <;> simp [hlen]
  · intro i hi
    have hj : mirrored (backFlip k pl d) n i < n := by unfold mirrored; split <;> omega
    obtain ⟨⟨u1, u2, u3⟩, hu⟩ : ∃ u, (data (enc k (nbrPlace k pl d)) (backSide k pl d))[mirrored (backFlip k pl d) n i]? = some u :=
      ⟨_, List.getElem?_eq_getElem (by rw [hlen]; exact hj)⟩
    obtain ⟨hR, hw⟩ := hrep _ _ _ _ _ _ (enc_lt hq) hu
    rw [placeOf_enc hq] at hR hw
    rw [sidePoint_facing g hv d hi] at hR hw
    refine ⟨_, _, _, ?_, cov_facing g hpos hv d hd hi hR, hw⟩
    rw [getElem?_flip _ _ (by simp [hlen]) hi]
    change (List.zipWith _ _ _)[mirrored (backFlip k pl d) n i]? = _
    rw [List.getElem?_zipWith, hu, List.getElem?_map, List.getElem?_range hj, placeOf_enc hq]
    rfl

/-- **C06, duality.** Contravariant and covariant components that represent a vector and a covector at the same
point contract to the same number `W·V` on every panel — so what C05/C06 preserve includes the contraction. -/
theorem C06_contraction_invariant {p : Nat} {X Y u1 u2 w1 w2 : K} {V W : V3 K}
    (h : Represents p X Y u1 u2 V) (h' : RepresentsCov p X Y w1 w2 W) :
    u1 * w1 + u2 * w2 = V.1 * W.1 + V.2.1 * W.2.1 + V.2.2 * W.2.2 := by
  obtain ⟨c, h1, h2, h3⟩ := h
  obtain ⟨h0, rfl, rfl⟩ := h'
  linear_combination W.1 * h1 + W.2.1 * h2 + W.2.2 * h3 + c * h0

example : Represents (K := ℚ) 1 (1 / 2) (-1) 3 5 (-15 / 4, 0, 10) := ⟨0, by
  norm_num [point, normal, eastward, northward]⟩

end

end WxVerif.Props.Topology
