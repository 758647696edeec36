import Verif.Lemmas.Exchange

/-!
# C104 — The exchange of whole arrays acts line by line
-/

namespace WxVerif.Props.Exchange

open WxVerif.Exchange WxVerif.Nd
open WxVerif.Topology (Side exchangeScalars exchangeVectors neighborAlltoall)

/-! ## Which arrays are accepted -/

/-- **C104.** Arrays without empty axes are accepted exactly when some of their last axes have as many entries as the boundary has points. -/
theorem C104_accepted {α : Type} (size : Nat) (boundary : List Nat) (axes : List Int) (data : Nat → Side → Arr α) (r : Nat) (d : Side)
    (hpos : ∀ k ∈ (data r .south).shape, 0 < k) :
    (∃ out, exchangeScalarArrays size boundary axes data r d = .ok out) ↔ Spans (data r .south).shape boundary.prod := by
  constructor
  · rintro ⟨out, h⟩
    unfold exchangeScalarArrays at h
    dsimp only at h
    split at h
    · cases h
    · rename_i b hb
      obtain ⟨pre, post, h1, h2, h3, -⟩ := base_sound hb
      exact ⟨pre, post, h1, h2, h3⟩
  · rintro ⟨lead, tail, h1, h2, h3⟩
    obtain ⟨ones, -, hb⟩ := base_complete (lead := lead) (len := boundary) h2 (fun k hk => hpos k (by rw [h1]; simp [hk])) h3
    unfold exchangeScalarArrays
    dsimp only
    rw [h1, hb]
    exact ⟨_, rfl⟩

/-- **C104.** An array that does not fit the boundary is refused with `ValueError`, as documented, provided it has at least as many entries as
the boundary (and at least one axis). -/
theorem C104_refused_partial {α : Type} (size : Nat) (boundary : List Nat) (axes : List Int) (data : Nat → Side → Arr α) (r : Nat) (d : Side)
    (hne : (data r .south).shape ≠ []) (hsize : boundary.prod ≤ (data r .south).shape.prod)
    (hspan : ¬ Spans (data r .south).shape boundary.prod) :
    exchangeScalarArrays size boundary axes data r d = .error "ValueError" := by
  unfold exchangeScalarArrays
  dsimp only
  cases hb : baseShape (data r .south).shape boundary with
  | ok b =>
    obtain ⟨pre, post, h1, h2, h3, -⟩ := base_sound hb
    exact absurd ⟨pre, post, h1, h2, h3⟩ hspan
  | error e =>
    dsimp only
    congr 1
    unfold baseShape at hb
    split at hb
    · rename_i hr
      exact absurd (by simpa using hr) hne
    · rename_i last rest hr
      split at hb
      · rename_i e' hf
        exfalso
        obtain ⟨-, hlt⟩ := fuse_error hf
        have : (data r .south).shape.prod = last * rest.prod := by
          rw [← List.prod_reverse, hr, List.prod_cons]
        omega
      · split at hb
        · cases hb; rfl
        · cases hb

/-- The documentation promises `ValueError` whenever the shape does not fit; an array smaller than the boundary gives `IndexError`. -/
theorem C104_refused_fails :
    ¬ ∀ (size : Nat) (boundary : List Nat) (axes : List Int) (data : Nat → Side → Arr Nat) (r : Nat) (d : Side),
      (data r .south).shape ≠ [] → ¬ Spans (data r .south).shape boundary.prod →
        exchangeScalarArrays size boundary axes data r d = .error "ValueError" := by
  intro h
  have hs : ¬ Spans [2] 4 := by
    rintro ⟨lead, tail, h1, h2, h3⟩
    cases lead with
    | nil =>
      have : tail = [2] := by simpa using h1.symm
      subst this
      simp at h3
    | cons a l =>
      simp at h1
      exact h2 h1.2.2
  have := h 6 [4] [-1] (fun _ _ => ⟨[2], fun _ => 0⟩) 0 .south (by simp) (by simpa using hs)
  have hb : exchangeScalarArrays 6 [4] [-1] (fun _ _ => (⟨[2], fun _ => 0⟩ : Arr Nat)) 0 .south = .error "IndexError" := rfl
  rw [hb] at this
  exact absurd this (by simp)

/-- The hypotheses of `C104_refused_partial` are met: 12 values in rows of 3 cannot be cut into boundaries of 4. -/
example : ([4, 3] : List Nat) ≠ [] ∧ ([4] : List Nat).prod ≤ ([4, 3] : List Nat).prod ∧ ¬ Spans [4, 3] ([4] : List Nat).prod := by
  refine ⟨by simp, by decide, ?_⟩
  rintro ⟨lead, tail, h1, h2, h3⟩
  rcases lead with _ | ⟨a, _ | ⟨b, l⟩⟩
  · have : tail = [4, 3] := by simpa using h1.symm
    subst this; simp at h3
  · simp at h1
    rw [← h1.2] at h3
    simp at h3
  · simp at h1
    exact h2 h1.2.2.2

/-! ## What is delivered -/

section Scalars
variable {α : Type}

/-- **C104, boundary in the last axes.** For arrays whose last axes `tail` hold the `m` points of the side in row-major order and with any
leading axes, exchanged with a boundary shape `(m,)` and the default flip: what arrives has the shape that was sent, and each of its lines is
what the exchange of that line alone delivers. -/
theorem C104_flat_scalars (size m : Nat) (lead tail : List Nat) (data : Nat → Side → Arr α) (ht : tail ≠ []) (hpos : ∀ k ∈ tail, 0 < k)
    (hm : tail.prod = m) (hd : ∀ s d', (data s d').shape = lead ++ tail) (r : Nat) (d : Side) :
    ∃ out, exchangeScalarArrays size [m] [-1] data r d = .ok out ∧ (∀ a ∈ out, a.shape = lead ++ tail) ∧
      ∀ l, Valid l lead → (out.map fun a => line a l (flatPts tail) m) =
        exchangeScalars size (fun s d' => line (data s d') l (flatPts tail) m) r d := by
  have hlen : tail.prod = ([m] : List Nat).prod := by simpa using hm
  obtain ⟨ones, hones, hb⟩ := base_complete (lead := lead) ht hpos hlen
  unfold exchangeScalarArrays
  dsimp only
  rw [hd, hb]
  refine ⟨_, rfl, ?_, ?_⟩
  · intro a ha
    rw [Option.mem_def, Option.map_eq_some_iff] at ha
    obtain ⟨b, -, rfl⟩ := ha
    rfl
  · intro l hl
    rw [Option.map_map, neighborAlltoall_map]
    unfold exchangeScalars
    congr 1
    funext s d'
    dsimp only [Function.comp]
    cases WxVerif.Topology.flip size s d' with
    | false =>
      simp only [Bool.false_eq_true, if_false]
      refine List.map_congr_left fun i hi => ?_
      obtain ⟨h1, h2, -, -, h5⟩ := flat_place hm (List.mem_range.mp hi)
      have hv : Valid [i] [m] := by rw [valid_cons]; exact ⟨List.mem_range.mp hi, valid_nil⟩
      rw [view_out hones hlen _ rfl hl h1, h2, view_in hones hlen _ (hd s d') hl hv, h5]
    | true =>
      simp only [if_true]
      unfold line
      rw [map_range_reverse]
      refine List.map_congr_left fun i hi => ?_
      obtain ⟨h1, h2, h3, h4, -⟩ := flat_place hm (List.mem_range.mp hi)
      rw [view_out hones hlen _ rfl hl h1, h2, flipAxes_get [-1] _ (u' := [m - 1 - i]) (lead := lead ++ ones) (len := [m]) rfl
        (preOf_valid hones hl).length, view_in hones hlen _ (hd s d') hl h3, h4]
      · intro j hj
        rw [show ([m] : List Nat).length = 1 from rfl, axes_last, List.mem_singleton]
        omega
      · rw [show ([m] : List Nat).length = 1 from rfl, axes_last]
        simp

/-- **C104, boundary made of element faces.** For arrays whose last axes are the `N` elements along the side and the `n * n` nodes of their
faces, exchanged with the boundary shape `(N, n, n)` and `flip_dim = (-3, -1)` (what the 3D model does): each line of each level is what the
exchange of that line alone delivers; the levels are not mixed. -/
theorem C104_face_scalars (size N n : Nat) (lead : List Nat) (data : Nat → Side → Arr α) (hN : 0 < N) (hn : 0 < n)
    (hd : ∀ s d', (data s d').shape = lead ++ [N, n * n]) (r : Nat) (d : Side) :
    ∃ out, exchangeScalarArrays size [N, n, n] [-3, -1] data r d = .ok out ∧ (∀ a ∈ out, a.shape = lead ++ [N, n * n]) ∧
      ∀ l, Valid l lead → ∀ a < n, (out.map fun x => line x l (facePts n a) (N * n)) =
        exchangeScalars size (fun s d' => line (data s d') l (facePts n a) (N * n)) r d := by
  have hlen : ([N, n * n] : List Nat).prod = ([N, n, n] : List Nat).prod := by simp
  obtain ⟨ones, hones, hb⟩ := base_complete (lead := lead) (tail := [N, n * n]) (by simp)
    (by intro k hk; simp at hk; rcases hk with rfl | rfl; exacts [hN, Nat.mul_pos hn hn]) hlen
  unfold exchangeScalarArrays
  dsimp only
  rw [hd, hb]
  refine ⟨_, rfl, ?_, ?_⟩
  · intro a ha
    rw [Option.mem_def, Option.map_eq_some_iff] at ha
    obtain ⟨b, -, rfl⟩ := ha
    rfl
  · intro l hl a ha
    rw [Option.map_map, neighborAlltoall_map]
    unfold exchangeScalars
    congr 1
    funext s d'
    dsimp only [Function.comp]
    cases WxVerif.Topology.flip size s d' with
    | false =>
      simp only [Bool.false_eq_true, if_false]
      refine List.map_congr_left fun i hi => ?_
      obtain ⟨h1, h2⟩ := face_valid ha (List.mem_range.mp hi)
      rw [view_out hones hlen _ rfl hl h1, ← face_ravel, unravel_ravel h2, view_in hones hlen _ (hd s d') hl h2, face_ravel, unravel_ravel h1]
    | true =>
      simp only [if_true]
      unfold line
      rw [map_range_reverse]
      refine List.map_congr_left fun i hi => ?_
      have hi' := List.mem_range.mp hi
      have hj : N * n - 1 - i < N * n := by omega
      obtain ⟨h1, h2⟩ := face_valid ha hi'
      obtain ⟨h3, h4⟩ := face_valid ha hj
      obtain ⟨h5, h6⟩ := face_flip hn hi'
      rw [view_out hones hlen _ rfl hl h1, ← face_ravel, unravel_ravel h2,
        flipAxes_get [-3, -1] _ (u' := [(N * n - 1 - i) / n, a, (N * n - 1 - i) % n]) (lead := lead ++ ones) (len := [N, n, n]) rfl
        (preOf_valid hones hl).length, view_in hones hlen _ (hd s d') hl h4, face_ravel, unravel_ravel h3]
      · intro j hj
        rw [show ([N, n, n] : List Nat).length = 3 from rfl, axes_faces]
        simp only [List.mem_cons, List.not_mem_nil, or_false]
        omega
      · rw [show ([N, n, n] : List Nat).length = 3 from rfl, axes_faces, h5, h6]
        simp [List.mapIdx_cons]

/-- The hypotheses are met: four variables and three layers of elements, two elements along the side with nine nodes per face, the values all
different. -/
example : ∃ data : Nat → Side → Arr (Nat × Side × List Nat), (∀ s d', (data s d').shape = [4, 3] ++ [2, 3 * 3]) ∧
    (∃ l, Valid l [4, 3]) ∧ ∃ out, exchangeScalarArrays 6 [2, 3, 3] [-3, -1] data 0 .south = .ok out :=
  ⟨fun s d' => ⟨[4, 3, 2, 9], fun idx => (s, d', idx)⟩, fun _ _ => rfl, ⟨[3, 1], by rw [valid_cons, valid_cons]; exact ⟨by omega, by omega, valid_nil⟩⟩,
    (C104_face_scalars 6 2 3 [4, 3] (fun s d' => ⟨[4, 3, 2, 9], fun idx => (s, d', idx)⟩) (by omega) (by omega) (fun _ _ => rfl) 0 .south).imp
      fun _ h => h.1⟩

/-- On six processes, the value that process 1 receives from the south at element 0, level 1, node 2 is the one that process 5 sent at element 1,
level 1, node 0: the direction is reversed, the level is kept. -/
example : ((exchangeScalarArrays 6 [2, 3, 3] [-3, -1] (fun s d' => (⟨[2, 9], fun idx => (s, d', idx)⟩ : Arr (Nat × Side × List Nat))) 1 .south).toOption.join.map
    fun a => a.get [0, 1 * 3 + 2]) = some (5, .east, [1, 1 * 3 + 0]) := by decide +kernel

end Scalars

section Vectors
variable {K : Type} [Field K]

/-- **C104 for vectors, boundary in the last axes** (the shallow-water model and the metric of the 3D model). -/
theorem C104_flat_vectors (covariant : Bool) (size m : Nat) (lead tail : List Nat) (data : Nat → Side → Arr (K × K × K)) (bd : Nat → Side → Arr K)
    (ht : tail ≠ []) (hpos : ∀ k ∈ tail, 0 < k) (hm : tail.prod = m) (hd : ∀ s d', (data s d').shape = lead ++ tail)
    (hbd : ∀ s d', (bd s d').shape = [m]) (r : Nat) (d : Side) :
    ∃ out, exchangeVectorArrays covariant size [-1] data bd r d = .ok out ∧ (∀ a ∈ out, a.shape = lead ++ tail) ∧
      ∀ l, Valid l lead → (out.map fun a => line a l (flatPts tail) m) =
        exchangeVectors covariant size (fun s d' => line (data s d') l (flatPts tail) m)
          (fun s d' => line (bd s d') [] (fun i => [i]) m) r d := by
  have hlen : tail.prod = ([m] : List Nat).prod := by simpa using hm
  obtain ⟨ones, hones, hb⟩ := base_complete (lead := lead) ht hpos hlen
  unfold exchangeVectorArrays
  dsimp only
  rw [hd, hbd, hb]
  refine ⟨_, rfl, ?_, ?_⟩
  · intro a ha
    rw [Option.mem_def, Option.map_eq_some_iff] at ha
    obtain ⟨b, -, rfl⟩ := ha
    rfl
  · intro l hl
    rw [Option.map_map, neighborAlltoall_map]
    unfold exchangeVectors
    dsimp only
    congr 1
    funext s d'
    dsimp only [Function.comp, line]
    rw [List.zipWith_map, List.zipWith_self]
    cases WxVerif.Topology.flip size s d' with
    | false =>
      simp only [Bool.false_eq_true, if_false]
      refine List.map_congr_left fun i hi => ?_
      obtain ⟨h1, h2, -, -, h5⟩ := flat_place hm (List.mem_range.mp hi)
      have hv : Valid [i] [m] := by rw [valid_cons]; exact ⟨List.mem_range.mp hi, valid_nil⟩
      rw [view_out hones hlen _ rfl hl h1, h2]
      dsimp only
      rw [view_in hones hlen _ (hd s d') hl hv, h5, hbd]
      simp
    | true =>
      simp only [if_true]
      rw [map_range_reverse]
      refine List.map_congr_left fun i hi => ?_
      obtain ⟨h1, h2, h3, h4, -⟩ := flat_place hm (List.mem_range.mp hi)
      rw [view_out hones hlen _ rfl hl h1, h2, flipAxes_get [-1] _ (u' := [m - 1 - i]) (lead := lead ++ ones) (len := [m]) rfl
        (preOf_valid hones hl).length]
      · dsimp only
        rw [view_in hones hlen _ (hd s d') hl h3, h4, hbd]
        simp
      · intro j hj
        rw [show ([m] : List Nat).length = 1 from rfl, axes_last, List.mem_singleton]
        omega
      · rw [show ([m] : List Nat).length = 1 from rfl, axes_last]
        simp

/-- **C104 for vectors, boundary made of element faces** (the 3D model).  The boundary coordinates do not depend on the level, as
`C96_boundaries` says of the arrays used. -/
theorem C104_face_vectors (covariant : Bool) (size N n : Nat) (lead : List Nat) (data : Nat → Side → Arr (K × K × K)) (bd : Nat → Side → Arr K)
    (b : Nat → Side → Nat → K) (hN : 0 < N) (hn : 0 < n) (hd : ∀ s d', (data s d').shape = lead ++ [N, n * n])
    (hbd : ∀ s d', (bd s d').shape = [N, n, n]) (hb : ∀ s d', ∀ e < N, ∀ a < n, ∀ j < n, (bd s d').get [e, a, j] = b s d' (e * n + j))
    (r : Nat) (d : Side) :
    ∃ out, exchangeVectorArrays covariant size [-3, -1] data bd r d = .ok out ∧ (∀ a ∈ out, a.shape = lead ++ [N, n * n]) ∧
      ∀ l, Valid l lead → ∀ a < n, (out.map fun x => line x l (facePts n a) (N * n)) =
        exchangeVectors covariant size (fun s d' => line (data s d') l (facePts n a) (N * n)) (fun s d' => (List.range (N * n)).map (b s d')) r d := by
  have hlen : ([N, n * n] : List Nat).prod = ([N, n, n] : List Nat).prod := by simp
  obtain ⟨ones, hones, hbs⟩ := base_complete (lead := lead) (tail := [N, n * n]) (by simp)
    (by intro k hk; simp at hk; rcases hk with rfl | rfl; exacts [hN, Nat.mul_pos hn hn]) hlen
  have hbp : ∀ s d' i, i < N * n → ∀ a < n, (bd s d').get [i / n, a, i % n] = b s d' i := by
    intro s d' i hi a ha
    rw [hb s d' (i / n) (Nat.div_lt_of_lt_mul (by rw [Nat.mul_comm]; exact hi)) a ha (i % n) (Nat.mod_lt _ hn), Nat.mul_comm]
    congr 1
    exact Nat.div_add_mod i n
  unfold exchangeVectorArrays
  dsimp only
  rw [hd, hbd, hbs]
  refine ⟨_, rfl, ?_, ?_⟩
  · intro a ha
    rw [Option.mem_def, Option.map_eq_some_iff] at ha
    obtain ⟨b, -, rfl⟩ := ha
    rfl
  · intro l hl a ha
    rw [Option.map_map, neighborAlltoall_map]
    unfold exchangeVectors
    dsimp only
    congr 1
    funext s d'
    dsimp only [Function.comp, line]
    rw [List.zipWith_map, List.zipWith_self]
    cases WxVerif.Topology.flip size s d' with
    | false =>
      simp only [Bool.false_eq_true, if_false]
      refine List.map_congr_left fun i hi => ?_
      obtain ⟨h1, h2⟩ := face_valid ha (List.mem_range.mp hi)
      rw [view_out hones hlen _ rfl hl h1, ← face_ravel, unravel_ravel h2]
      dsimp only
      rw [view_in hones hlen _ (hd s d') hl h2, face_ravel, unravel_ravel h1, hbd, ← hbp s d' i (List.mem_range.mp hi) a ha]
      simp
    | true =>
      simp only [if_true]
      rw [map_range_reverse]
      refine List.map_congr_left fun i hi => ?_
      have hi' := List.mem_range.mp hi
      have hj : N * n - 1 - i < N * n := by omega
      obtain ⟨h1, h2⟩ := face_valid ha hi'
      obtain ⟨h3, h4⟩ := face_valid ha hj
      obtain ⟨h5, h6⟩ := face_flip hn hi'
      rw [view_out hones hlen _ rfl hl h1, ← face_ravel, unravel_ravel h2,
        flipAxes_get [-3, -1] _ (u' := [(N * n - 1 - i) / n, a, (N * n - 1 - i) % n]) (lead := lead ++ ones) (len := [N, n, n]) rfl
        (preOf_valid hones hl).length]
      · dsimp only
        rw [view_in hones hlen _ (hd s d') hl h4, face_ravel, unravel_ravel h3, hbd, ← hbp s d' _ hj a ha]
        simp
      · intro j hj
        rw [show ([N, n, n] : List Nat).length = 3 from rfl, axes_faces]
        simp only [List.mem_cons, List.not_mem_nil, or_false]
        omega
      · rw [show ([N, n, n] : List Nat).length = 3 from rfl, axes_faces, h5, h6]
        simp [List.mapIdx_cons]

end Vectors

end WxVerif.Props.Exchange
