import Verif.Lemmas.Gather

/-!
# Property C07: gathering and distributing fields are inverse
-/

namespace WxVerif.Props.Gather

open WxVerif.Gather WxVerif.GlobalField WxVerif.Topology WxVerif.Cube

variable {α : Type*}

/-- **C07, gather then distribute.** For `6 k²` processes each holding a `t × t` tile, gathering succeeds, gives six
`(k t) × (k t)` panels, puts entry `(i, j)` of the tile of the process at (panel, row, col) at row `row·t + i`, column
`col·t + j` of that panel, and distributing the result returns to every process its own tile. -/
theorem C07_gather_then_distribute [Inhabited α] (k t : Nat) (hk : 1 ≤ k) (tiles : Nat → List (List α))
    (ht : ∀ r, r < 6 * k ^ 2 → IsMat t t (tiles r)) :
    ∃ F D, gatherCube (6 * k ^ 2) tiles = some F ∧ IsCube (k * t) F ∧
      (∀ r, r < 6 * k ^ 2 → ∀ i j, i < t → j < t → ∃ P, F[(placeOf k r).panel]? = some P ∧
        entry P ((placeOf k r).row * t + i) ((placeOf k r).col * t + j) = entry (tiles r) i j) ∧
      distributeCube (6 * k ^ 2) F = some D ∧ ∀ r, r < 6 * k ^ 2 → D r = some (tiles r) := by
  have e2 : k ^ 2 = k * k := pow_two k
  rw [e2] at ht ⊢
  let f : Nat → Nat → Nat → α := fun r i j => ((tiles r).getD i []).getD j default
  have hf : ∀ r < 6 * (k * k), tiles r = ofFn t t (f r) := fun r hr => isMat_eq_ofFn (ht r hr)
  have hg := gatherCube_blocks hk f tiles hf
  obtain ⟨D, hD, hDr⟩ := distributeCube_blocks (t := t) hk
    (fun p i j => f (p * (k * k) + (i / t * k + j / t)) (i % t) (j % t))
  refine ⟨_, D, hg, ⟨by simp, ?_⟩, ?_, hD, ?_⟩
  · intro M hM
    obtain ⟨p, _, rfl⟩ := List.mem_map.1 hM
    exact ofFn_isMat _ _ _
  · intro r hr i j hi hj
    obtain ⟨hp, hrow, hcol⟩ := placeOf_valid hr
    have henc := enc_placeOf (k := k) (rank := r)
    refine ⟨_, by rw [List.getElem?_map, List.getElem?_range hp]; rfl, ?_⟩
    have h1 := block_le (t := t) hrow
    have h2 := block_le (t := t) hcol
    rw [entry_ofFn _ (by omega) (by omega), hf r hr, entry_ofFn _ hi hj]
    have d1 : ∀ a x, x < t → (a * t + x) / t = a := fun a x hx => by
      rw [Nat.mul_comm, Nat.mul_add_div (by omega), Nat.div_eq_of_lt hx, Nat.add_zero]
    have d2 : ∀ a x, x < t → (a * t + x) % t = x := fun a x hx => by
      rw [Nat.mul_comm, Nat.mul_add_mod, Nat.mod_eq_of_lt hx]
    rw [d1 _ _ hi, d1 _ _ hj, d2 _ _ hi, d2 _ _ hj]
    unfold enc at henc
    rw [← Nat.add_assoc, henc]
  · intro r hr
    obtain ⟨hp, hrow, hcol⟩ := placeOf_valid hr
    have henc := enc_placeOf (k := k) (rank := r)
    unfold enc at henc
    have := hDr _ hp _ hrow _ hcol
    rw [← Nat.add_assoc, henc] at this
    rw [this, hf r hr]
    congr 1
    apply ofFn_congr
    intro i hi j hj
    have d1 : ∀ a x, x < t → (a * t + x) / t = a := fun a x hx => by
      rw [Nat.mul_comm, Nat.mul_add_div (by omega), Nat.div_eq_of_lt hx, Nat.add_zero]
    have d2 : ∀ a x, x < t → (a * t + x) % t = x := fun a x hx => by
      rw [Nat.mul_comm, Nat.mul_add_mod, Nat.mod_eq_of_lt hx]
    rw [d1 _ _ hi, d1 _ _ hj, d2 _ _ hi, d2 _ _ hj, ← Nat.add_assoc, henc]

/-- **C07, distribute then gather.** Distributing a global field of six `(k t) × (k t)` panels over `6 k²` processes
succeeds, gives every process a `t × t` tile, and gathering the tiles returns the identical field. -/
theorem C07_distribute_then_gather [Inhabited α] (k t : Nat) (hk : 1 ≤ k) (F : List (List (List α)))
    (hF : IsCube (k * t) F) :
    ∃ D, distributeCube (6 * k ^ 2) F = some D ∧ (∀ r, r < 6 * k ^ 2 → ∃ M, D r = some M ∧ IsMat t t M) ∧
      ∀ tiles : Nat → List (List α), (∀ r, r < 6 * k ^ 2 → D r = some (tiles r)) →
        gatherCube (6 * k ^ 2) tiles = some F := by
  have e2 : k ^ 2 = k * k := pow_two k
  rw [e2]
  obtain ⟨hlen, hmat⟩ := hF
  let G : Nat → Nat → Nat → α := fun p i j => (((F.getD p []).getD i []).getD j default)
  have hFG : F = (List.range 6).map fun p => ofFn (k * t) (k * t) (G p) := by
    apply List.ext_getElem (by simp [hlen])
    intro p hp hp'
    simp only [List.getElem_map, List.getElem_range]
    have hm := hmat F[p] (List.getElem_mem hp)
    conv_lhs => rw [isMat_eq_ofFn hm]
    simp [G, List.getD_eq_getElem?_getD, hp]
  obtain ⟨D, hD, hDr⟩ := distributeCube_blocks (t := t) hk G
  have hDr' : ∀ r, r < 6 * (k * k) → D r = some (ofFn t t fun i j =>
      G (placeOf k r).panel ((placeOf k r).row * t + i) ((placeOf k r).col * t + j)) := by
    intro r hr
    obtain ⟨hp, hrow, hcol⟩ := placeOf_valid hr
    have henc := enc_placeOf (k := k) (rank := r)
    unfold enc at henc
    have := hDr _ hp _ hrow _ hcol
    rwa [← Nat.add_assoc, henc] at this
  refine ⟨D, by rw [hFG]; exact hD, fun r hr => ⟨_, hDr' r hr, ofFn_isMat _ _ _⟩, ?_⟩
  intro tiles htiles
  rw [gatherCube_blocks (t := t) hk (fun r i j =>
      G (placeOf k r).panel ((placeOf k r).row * t + i) ((placeOf k r).col * t + j)) tiles (by
    intro r hr
    have h1 := htiles r hr
    rw [hDr' r hr] at h1
    injection h1 with h1
    rw [← h1])]
  congr 1
  rw [hFG]
  apply List.map_congr_left
  intro p hp
  have hp := List.mem_range.1 hp
  apply ofFn_congr
  intro i hi j hj
  have ht0 : 0 < t := by
    rcases Nat.eq_zero_or_pos t with h | h
    · subst h; simp at hi
    · exact h
  have hi' : i / t < k := (Nat.div_lt_iff_lt_mul ht0).2 hi
  have hj' : j / t < k := (Nat.div_lt_iff_lt_mul ht0).2 hj
  have hpl := placeOf_enc (k := k) (pl := ⟨p, i / t, j / t⟩) ⟨hp, hi', hj'⟩
  unfold enc at hpl
  simp only at hpl
  rw [← Nat.add_assoc, hpl]
  simp only
  rw [Nat.div_add_mod' i t, Nat.div_add_mod' j t]

theorem mapM_none {β γ : Type*} (l : List β) (f : β → Option γ) (x : β) (hx : x ∈ l) (h : f x = none) : l.mapM f = none := by
  induction l with
  | nil => simp at hx
  | cons y ys ih =>
    rw [List.mapM_cons]
    rcases List.mem_cons.1 hx with rfl | hx
    · rw [h]; rfl
    · rw [ih hx]
      cases f y <;> rfl

theorem hcat_none {ms : List (Mat α)} {a b : Mat α} (ha : a ∈ ms) (hb : b ∈ ms) (h : a.length ≠ b.length) : hcat ms = none := by
  cases ms with
  | nil => rfl
  | cons m rest =>
    rw [hcat, if_neg]
    rw [List.all_eq_true]
    intro hall
    have key : ∀ c ∈ m :: rest, c.length = m.length := by
      intro c hc
      rcases List.mem_cons.1 hc with rfl | hc
      · rfl
      · simpa using hall c hc
    exact h ((key a ha).trans (key b hb).symm)

/-- **C07, refusal of uneven tiles.** If two processes in the same row of tiles of a panel hand in fields with different numbers of rows,
gathering fails instead of giving a global field. -/
theorem C07_gather_refuses (k : Nat) (hk : 2 ≤ k) (tiles : Nat → List (List α)) (p i j j' : Nat) (hp : p < 6) (hi : i < k) (hj : j < k)
    (hj' : j' < k) (h : (tiles (p * k ^ 2 + i * k + j)).length ≠ (tiles (p * k ^ 2 + i * k + j')).length) :
    gatherCube (6 * k ^ 2) tiles = none := by
  have e2 : k ^ 2 = k * k := pow_two k
  rw [e2] at h ⊢
  have hkk : 0 < k * k := Nat.mul_pos (by omega) (by omega)
  unfold gatherCube
  refine mapM_none _ _ (p * (k * k)) ?_ ?_
  · rw [panelRootsComm_sq (by omega)]
    exact List.mem_map.2 ⟨p, List.mem_range.2 hp, rfl⟩
  · have hpan := panel_of (k := k) (p := p) (q := 0) hkk
    rw [Nat.add_zero] at hpan
    rw [hpan, panelComm_sq hp]
    unfold gatherTilesToPanel
    rw [numPe_sq, numLines_sq, if_neg (by have := Nat.mul_le_mul hk hk; omega)]
    simp only
    rw [mapM_none _ _ i (List.mem_range.2 hi)]
    · rfl
    · have hle := block_le (k := k) (t := k) hi
      rw [← List.map_drop, ← List.map_take, ← List.map_drop, ← List.map_take, range_window _ _ _ hle]
      refine hcat_none (a := tiles (p * (k * k) + i * k + j)) (b := tiles (p * (k * k) + i * k + j')) ?_ ?_ h
      · simp only [List.map_map, List.mem_map, List.mem_range]
        exact ⟨j, hj, by simp [Nat.add_assoc]⟩
      · simp only [List.map_map, List.mem_map, List.mem_range]
        exact ⟨j', hj', by simp [Nat.add_assoc]⟩

/-- 24 processes, one of which hands in a row more than its neighbour -/
example : gatherCube 24 (fun r => if r = 5 then [[r], [r]] else [[r]]) = none :=
  C07_gather_refuses 2 (by omega) _ 1 0 0 1 (by omega) (by omega) (by omega) (by omega) (by decide)

/-- **C07, refusal.** A field whose panels are not square, or not divisible in `k` tiles per side, or that does not
have six panels is refused. -/
theorem C07_distribute_refuses (k rows cols : Nat) (F : List (List (List α)))
    (hF : ∀ M ∈ F, IsMat rows cols M) (hrows : 1 ≤ rows) :
    (distributeCube (6 * k ^ 2) F).isSome ↔ F.length = 6 ∧ rows = cols ∧ k ∣ rows := by
  have e2 : k ^ 2 = k * k := pow_two k
  rw [e2]
  unfold distributeCube
  rw [numLines_sq]
  simp only
  by_cases h6 : F.length = 6
  · obtain ⟨M, Fs, rfl⟩ : ∃ M Fs, F = M :: Fs := by
      cases F with
      | nil => simp at h6
      | cons M Fs => exact ⟨M, Fs, rfl⟩
    obtain ⟨hM1, hM2⟩ := hF M (by simp)
    obtain ⟨r0, rs, rfl⟩ : ∃ r0 rs, M = r0 :: rs := by
      cases M with
      | nil => simp at hM1; omega
      | cons a b => exact ⟨a, b, rfl⟩
    have hs : panelShape ((r0 :: rs) :: Fs) = (rows, cols) := by
      unfold panelShape
      simp only [List.headD_cons]
      rw [hM1, hM2 r0 (by simp)]
    rw [hs]
    simp only [h6, true_and]
    by_cases hc : rows = cols
    · rw [if_neg (by simp [hc])]
      by_cases hd : k ∣ rows
      · rw [if_neg (by simp [Nat.div_mul_cancel hd])]; simp [hc]; rwa [← hc]
      · rw [if_pos (fun h => hd ⟨rows / k, by rw [Nat.mul_comm, h]⟩)]
        simp [hd]
    · rw [if_pos (Or.inr hc)]; simp [hc]
  · rw [if_pos (Or.inl h6)]; simp [h6]

/-- 24 processes with 1×1 tiles: the field `6 × 2 × 2` is distributed and gathered back. -/
example : gatherCube 24 (fun r => [[r]]) =
    some [[[0, 1], [2, 3]], [[4, 5], [6, 7]], [[8, 9], [10, 11]], [[12, 13], [14, 15]], [[16, 17], [18, 19]],
      [[20, 21], [22, 23]]] := by decide +kernel

example : IsCube 2 [[[0, 1], [2, 3]], [[4, 5], [6, 7]], [[8, 9], [10, 11]], [[12, 13], [14, 15]], [[16, 17], [18, 19]],
      [[20, 21], [22, 23]]] := by
  unfold IsCube IsMat; decide

end WxVerif.Props.Gather
